import Verif.Lemmas.No128
import Verif.Props.NarrowFrac
import Verif.Props.Special

/-!
# 64-bit fractions without a 128-bit integer type: C127

`struct unsigned128` has no product and no quotient; its conversion to `uint64_t` lets `extramul` and `extradiv` compile, and both
compute with the lower words only.
-/

namespace Verif
open Fmt

variable {c : Cfg}

/-- `Posit<int32_t,32,2,uint64_t>` -/
def wideCfg : Cfg := ⟨32, 32, 2, 64, .withNan⟩

/-! ## the helpers -/

/-- **C127**: `extramul` returns the product modulo `2^64`; it is right exactly if the product fits 64 bits. -/
theorem C127_extramul (a b : ℕ) : (Generic.extramul a b).Valid ∧ (Generic.extramul a b).val = a * b % 2 ^ 64 ∧
    ((Generic.extramul a b).val = a * b ↔ a * b < 2 ^ 64) := by
  have hlt := Nat.mod_lt (a * b) (show 0 < 2 ^ 64 by norm_num)
  have hv : (Generic.extramul a b).val = a * b % 2 ^ 64 := by
    unfold Generic.extramul U128.val U128.toU64
    simp
  refine ⟨⟨show 0 < 2 ^ 64 by norm_num, hlt⟩, hv, ?_⟩
  rw [hv]
  exact Nat.mod_eq_iff_lt (by norm_num)

example : (Generic.extramul (2 ^ 63 + 5) 6).val = 30 ∧ (Generic.extramul (2 ^ 61 + 5) 6).val = (2 ^ 61 + 5) * 6 := by decide +kernel

/-- **C127**: `extradiv` divides the lower word of the dividend; it is right exactly if the quotient is the same without the upper word. -/
theorem C127_extradiv {a : U128} (ha : a.Valid) {b : ℕ} (hb : b ≠ 0) :
    ∃ r, Generic.extradiv a b = .ok r ∧ r.Valid ∧ r.val = a.val % 2 ^ 64 / b := by
  obtain ⟨h1, h2⟩ := ha
  refine ⟨⟨0, a.lo / b⟩, by unfold Generic.extradiv U128.toU64; rw [if_neg hb], ⟨by norm_num, lt_of_le_of_lt (Nat.div_le_self _ _) h2⟩, ?_⟩
  unfold U128.val
  simp only []
  rw [show (a.hi * 2 ^ 64 + a.lo) % 2 ^ 64 = a.lo by omega]
  omega

example : U128.Valid ⟨5, 9⟩ ∧ Generic.extradiv ⟨5, 9⟩ 2 = .ok ⟨0, 4⟩ ∧ U128.val ⟨5, 9⟩ / 2 = 5 * 2 ^ 63 + 4 := by decide +kernel

/-! ## posits -/

/-- **C127**: what the product of two posits is: the product of their leading powers of two, rounded toward zero; all fractions are
lost. Undefined behaviour exactly if that is out of range. -/
theorem C127_mul (h : c.WF) {a b : ℤ} (ha : c.fmt.IsReal a) (ha0 : a ≠ 0) (hb : c.fmt.IsReal b) (hb0 : b ≠ 0) :
    (c.SafeMag (lead (c.fmt.val a) * lead (c.fmt.val b)) →
      ∃ v, No128.mul c a b = .ok v ∧ c.fmt.IsTrunc (lead (c.fmt.val a) * lead (c.fmt.val b)) v) ∧
    (¬ c.SafeMag (lead (c.fmt.val a) * lead (c.fmt.val b)) → No128.mul c a b = .error .shiftAmount) := by
  obtain ⟨ua, ub, u, h1, h2, h3, h4, -, h6⟩ := no_mul h ha hb
  have hreg := h6 ha0 hb0
  have : No128.mul c a b = Posit.pack c u := by
    unfold No128.mul
    rw [h1, h2]
    simp only [bind, Except.bind]
    rw [h3]
  rw [this]
  exact pack_reg h hreg (h4.val hreg)

/-- `1.5 * -1.75 = -1` -/
example : wideCfg.WF ∧ wideCfg.fmt.val 1140850688 = 3 / 2 ∧ wideCfg.fmt.val (-1174405120) = -7 / 4 ∧
    wideCfg.SafeMag (lead (wideCfg.fmt.val 1140850688) * lead (wideCfg.fmt.val (-1174405120))) ∧
    No128.mul wideCfg 1140850688 (-1174405120) = .ok (-1073741824) ∧ wideCfg.fmt.val (-1073741824) = -1 ∧
    (Posit.mul wideCfg 1140850688 (-1174405120)).toOption.map wideCfg.fmt.val = some (-21 / 8) := by decide +kernel

/-- **C127**: what the quotient of two posits is: the leading power of two of the quotient, rounded toward zero. -/
theorem C127_div (h : c.WF) (hF : c.F = 64) {a b : ℤ} (ha : c.fmt.IsReal a) (ha0 : a ≠ 0) (hb : c.fmt.IsReal b) (hb0 : b ≠ 0) :
    (c.SafeMag (lead (c.fmt.val a / c.fmt.val b)) →
      ∃ v, No128.div c a b = .ok v ∧ c.fmt.IsTrunc (lead (c.fmt.val a / c.fmt.val b)) v) ∧
    (¬ c.SafeMag (lead (c.fmt.val a / c.fmt.val b)) → No128.div c a b = .error .shiftAmount) := by
  obtain ⟨e, f, hu⟩ := unpack_real h ha ha0
  obtain ⟨e', f', hu'⟩ := unpack_real h hb hb0
  have hb2 := fb_le h
  have l1 := hu.f_lt
  have l2 := hu'.f_lt
  rw [hF] at l1 l2
  have d1 := hu.dvd_pow (k := 1) (by omega)
  have d2 := hu'.dvd_pow (k := 1) (by omega)
  rw [pow_one] at d1 d2
  have v1 := hu.val (by omega)
  have v2 := hu'.val (by omega)
  rw [hF] at v1 v2
  obtain ⟨u, k1, k2, k3⟩ := no_div h (s := decide (a < 0)) (t := decide (b < 0)) (x := c.fmt.val a) (y := c.fmt.val b) (hu.e_abs h) (hu'.e_abs h) l1 l2 d1 d2
    (by rw [val_sign ha, v1]; rfl) (by rw [val_sign hb, v2]; rfl)
  have : No128.div c a b = Posit.pack c u := by
    unfold No128.div
    rw [hu.eq, hu'.eq]
    simp only [bind, Except.bind]
    unfold No128.udiv
    simp only [reduceCtorEq, or_self, if_false]
    rw [k1]
  rw [this]
  exact pack_reg h k2 k3

/-- `-7/4 / (3/2) = -1` -/
example : wideCfg.WF ∧ wideCfg.F = 64 ∧
    wideCfg.SafeMag (lead (wideCfg.fmt.val (-1174405120) / wideCfg.fmt.val 1140850688)) ∧
    No128.div wideCfg (-1174405120) 1140850688 = .ok (-1073741824) ∧
    No128.div wideCfg 1140850688 (-1174405120) = .ok (-939524096) ∧ wideCfg.fmt.val (-939524096) = -1 / 2 := by decide +kernel

/-- **C127**: what the reciprocal is. -/
theorem C127_inv (h : c.WF) (hF : c.F = 64) {v : ℤ} (hv : c.fmt.IsReal v) (h0 : v ≠ 0) (hni : c.spec = .withNanInf → v.natAbs ≠ 1) :
    (c.SafeMag (lead (1 / c.fmt.val v)) → ∃ w, No128.inv c v = .ok w ∧ c.fmt.IsTrunc (lead (1 / c.fmt.val v)) w) ∧
    (¬ c.SafeMag (lead (1 / c.fmt.val v)) → No128.inv c v = .error .shiftAmount) := by
  obtain ⟨r, x, w, hl⟩ := low_real h hv h0
  have hb2 := fb_le h
  by_cases hw0 : w = 0
  · have hx : c.fmt.val v = sq (decide (v < 0)) * 2 ^ (2 ^ c.es * r + (x : ℤ)) := by
      have : |c.fmt.val v| = 2 ^ (2 ^ c.es * r + (x : ℤ)) := by rw [hl.val, hw0, mag_zero]
      rw [← this]
      exact val_sign hv
    have hq : lead (1 / c.fmt.val v) = 1 / c.fmt.val v := by
      have : 1 / c.fmt.val v = sq (decide (v < 0)) * 2 ^ (-(2 ^ c.es * r + (x : ℤ))) := by
        rw [hx, one_div, mul_inv, zpow_neg]
        congr 1
        cases decide (v < 0) <;> simp [sq]
      rw [this]
      exact lead_pow _ _
    rw [hq]
    have he : No128.inv c v = Posit.inv c v := by
      unfold Posit.inv No128.inv
      rw [hl.eq]
      simp only [bind, Except.bind, hw0, if_true]
    rw [he]
    refine inv_real h (by omega) hv h0 ?_
    · intro hs hh
      refine hni hs ?_
      rw [Format.abs_val hv.inRange h0, ← posVal_one h] at hh
      have hlt := hv.inRange
      have h4 : 4 ≤ 2 ^ (c.N - 1) := by have := h.pow_ge; exact_mod_cast this
      have a := (posVal_le_iff (N := c.N) (es := c.es) (p := v.natAbs) (q := 1) (by omega) hlt le_rfl (by omega)).mp hh.le
      omega
  · have hu := hl.unp
    have hf := hu.f_lt
    have hd := hu.dvd_pow (k := 1) (by omega)
    have hval := hu.val (by omega)
    rw [pow_one] at hd
    have hlow : Posit.low2full c (Low.mk .regular (v < 0) r x w) = .ok ⟨.regular, v < 0, 2 ^ c.es * r + x, w * 2 ^ c.F / 2 ^ c.H⟩ := by
      have := hu.eq
      unfold Posit.unpack at this
      rw [hl.eq] at this
      simpa only [bind, Except.bind] using this
    have hf0 : w * 2 ^ c.F / 2 ^ c.H ≠ 0 := by
      have hH : c.H ≤ c.F := by rcases h.hH with hh | hh | hh | hh <;> omega
      rw [show 2 ^ c.F = 2 ^ (c.F - c.H) * 2 ^ c.H by rw [← pow_add]; congr 1; omega, ← mul_assoc, Nat.mul_div_cancel _ (by positivity)]
      exact Nat.mul_ne_zero hw0 (by positivity)
    generalize w * 2 ^ c.F / 2 ^ c.H = g at *
    have hea := hu.e_abs h
    generalize 2 ^ c.es * r + (x : ℤ) = e at *
    rw [hF] at hf hval
    obtain ⟨q, k1, k2, k3⟩ := no_div h (s := false) (t := decide (v < 0)) (e := 0) (f := 0) (x := 1) (y := c.fmt.val v) (by simp) hea (by norm_num) hf
      (by norm_num) hd (by simp [sq, mag]) (by rw [val_sign hv, hval]; rfl)
    have he : No128.inv c v = Posit.pack c q := by
      unfold No128.inv
      rw [hl.eq]
      simp only [bind, Except.bind, hw0, if_false]
      rw [hlow]
      simp only []
      rw [uinv_eq hf hd hf0, k1]
    rw [he]
    exact pack_reg h k2 k3

/-- the reciprocal of 7/4 is 1/2 -/
example : wideCfg.SafeMag (lead (1 / wideCfg.fmt.val 1174405120)) ∧ wideCfg.fmt.val 1174405120 = 7 / 4 ∧ wideCfg.spec ≠ .withNanInf ∧
    No128.inv wideCfg 1174405120 = .ok 939524096 ∧ wideCfg.fmt.val 939524096 = 1 / 2 := by decide +kernel

/-- **C127**: `fma` adds the leading powers of two of the factors to an exact addend. -/
theorem C127_fma (h : c.WF) (hF : c.F = 64) {a b d : ℤ} (ha : c.fmt.IsReal a) (hb : c.fmt.IsReal b) (hd : c.fmt.IsReal d) {p s : ℚ}
    (hp : p = lead (c.fmt.val a) * lead (c.fmt.val b)) (hs : s = alignedSum c.F p (c.fmt.val d)) :
    (SumOK c.F p (c.fmt.val d) ∧ (s = 0 ∨ c.SafeMag s) → ∃ v, No128.fma c a b d = .ok v ∧ c.fmt.IsCut0 s v) ∧
    (¬ (SumOK c.F p (c.fmt.val d) ∧ (s = 0 ∨ c.SafeMag s)) → No128.fma c a b d = .error .shiftAmount) := by
  obtain ⟨ua, ub, m, h1, h2, h3, h4, h5, -⟩ := no_mul h ha hb
  obtain ⟨ud, h6, h7, h8⟩ := isNum_unpack_exact h hF hd
  rw [← hp] at h4
  have key := isNum_add_pack h h4 h7 (addRange_products h h5 (by omega))
  have : No128.fma c a b d = (do let r ← Unp.add c.F c.E m ud; Posit.pack c r) := by
    unfold No128.fma
    rw [h1, h2, h6]
    simp only [bind, Except.bind]
    rw [h3]
  rw [this, hs]
  exact key

/-- `1.5 * -1.75 + 1.5 = 0.5` -/
example : SumOK wideCfg.F (lead (wideCfg.fmt.val 1140850688) * lead (wideCfg.fmt.val (-1174405120))) (wideCfg.fmt.val 1140850688) ∧
    wideCfg.SafeMag (alignedSum wideCfg.F (lead (wideCfg.fmt.val 1140850688) * lead (wideCfg.fmt.val (-1174405120))) (wideCfg.fmt.val 1140850688)) ∧
    No128.fma wideCfg 1140850688 (-1174405120) 1140850688 = .ok 939524096 := by decide +kernel

/-- **C127**: the dot product. -/
theorem C127_dot (h : c.WF) {a b : ℤ} {l : List (ℤ × ℤ)} (ha : c.fmt.IsReal a)
    (hb : c.fmt.IsReal b) (hl : ∀ p ∈ l, c.fmt.IsReal p.1 ∧ c.fmt.IsReal p.2) (hlen : l.length + 1 < 2 ^ 60) {p S : ℚ} {P : List ℚ}
    (hp : p = lead (c.fmt.val a) * lead (c.fmt.val b))
    (hP : P = l.map fun p => lead (c.fmt.val p.1) * lead (c.fmt.val p.2)) (hS : S = P.foldl (alignedSum c.F) p) :
    (FoldOK c.F p P ∧ (S = 0 ∨ c.SafeMag S) → ∃ v, No128.dot c ((a, b) :: l) = .ok v ∧ c.fmt.IsCut0 S v) ∧
    (¬ (FoldOK c.F p P ∧ (S = 0 ∨ c.SafeMag S)) → No128.dot c ((a, b) :: l) = .error .shiftAmount) := by
  obtain ⟨ua, ub, m, h1, h2, h3, h4, h5, -⟩ := no_mul h ha hb
  have hF8 := h.F_pos
  rw [← hp] at h4
  obtain ⟨g1, g2⟩ := no_dotLoop h l m _ 1 hl h4 (by rw [abs_le] at h5; omega)
    (by rw [Nat.cast_one, one_mul, hp]; exact abs_leads_le h ha hb) (by omega)
  rw [← hP, ← hS] at g1
  rw [← hP] at g2
  have hstep : ∀ r, No128.dotLoop c m l = r → No128.dot c ((a, b) :: l) = r.bind fun t => Posit.pack c t := by
    intro r hr
    unfold No128.dot
    simp only []
    rw [h1, h2]
    simp only [bind, Except.bind]
    rw [h3]
    simp only []
    rw [hr]
  by_cases ho : FoldOK c.F p P
  · obtain ⟨r, hr, hd⟩ := g1 ho
    rw [hstep _ hr]
    obtain ⟨p1, p2⟩ := isNum_pack h hd
    exact ⟨fun hh => p1 hh.2, fun hn => p2 (fun hh => hn ⟨ho, hh⟩)⟩
  · rw [hstep _ (g2 ho)]
    exact ⟨fun hh => absurd hh.1 ho, fun _ => rfl⟩

/-- `1.5 * 1.5 + 1.75 * 1.75 + -1.5 * 1 = 1` -/
example : FoldOK wideCfg.F (lead (wideCfg.fmt.val 1140850688) * lead (wideCfg.fmt.val 1140850688))
      [lead (wideCfg.fmt.val 1174405120) * lead (wideCfg.fmt.val 1174405120), lead (wideCfg.fmt.val (-1140850688)) * lead (wideCfg.fmt.val 1073741824)] ∧
    No128.dot wideCfg [(1140850688, 1140850688), (1174405120, 1174405120), (-1140850688, 1073741824)] = .ok 1073741824 ∧
    (Posit.dot wideCfg [(1140850688, 1140850688), (1174405120, 1174405120), (-1140850688, 1073741824)]).toOption.map wideCfg.fmt.val = some (61 / 16) := by
  decide +kernel

/-! ## right and wrong -/

/-- **C127**: products and quotients whose operands are powers of two are right. -/
theorem C127_pow_partial (h : c.WF) (hF : c.F = 64) {a b : ℤ} (ha : c.fmt.IsReal a) (ha0 : a ≠ 0) (hb : c.fmt.IsReal b) (hb0 : b ≠ 0)
    (pa : lead (c.fmt.val a) = c.fmt.val a) (pb : lead (c.fmt.val b) = c.fmt.val b) :
    No128.mul c a b = Posit.mul c a b ∧ No128.div c a b = Posit.div c a b := by
  have hb2 := fb_le h
  constructor
  · obtain ⟨m1, m2⟩ := C127_mul h ha ha0 hb hb0
    rw [pa, pb] at m1 m2
    by_cases hs : c.SafeMag (c.fmt.val a * c.fmt.val b)
    · obtain ⟨v, v1, v2⟩ := m1 hs
      obtain ⟨w, w1, w2⟩ := C08_mul_partial h (by omega) ha ha0 hb hb0 hs
      rw [v1, w1, (v2.unique w2)]
    · rw [m2 hs, C08_mul_ub h (by omega) ha ha0 hb hb0 hs]
  · obtain ⟨m1, m2⟩ := C127_div h hF ha ha0 hb hb0
    have hq : lead (c.fmt.val a / c.fmt.val b) = c.fmt.val a / c.fmt.val b := by
      have va : c.fmt.val a ≠ 0 := (Format.val_eq_zero_iff ha.inRange).not.mpr ha0
      have vb : c.fmt.val b ≠ 0 := (Format.val_eq_zero_iff hb.inRange).not.mpr hb0
      have key : ∀ {x : ℚ}, x ≠ 0 → lead x = x → ∃ (s : Bool) (e : ℤ), x = sq s * 2 ^ e := by
        intro x hx hl
        unfold lead at hl
        rw [if_neg hx] at hl
        exact ⟨decide (x < 0), Int.log 2 |x|, by refine hl.symm.trans ?_; by_cases hn : x < 0 <;> simp [sq, hn]⟩
      obtain ⟨s, e, h1⟩ := key va pa
      obtain ⟨t, e', h2⟩ := key vb pb
      have : c.fmt.val a / c.fmt.val b = sq (xor s t) * 2 ^ (e - e') := by
        rw [h1, h2, sq_xor, mul_div_mul_comm, zpow_sub₀ (by norm_num)]
        congr 1
        cases s <;> cases t <;> simp [sq]
      rw [this]
      exact lead_pow _ _
    rw [hq] at m1 m2
    by_cases hs : c.SafeMag (c.fmt.val a / c.fmt.val b)
    · obtain ⟨v, v1, v2⟩ := m1 hs
      obtain ⟨w, w1, w2⟩ := C09_div_partial h (by omega) ha ha0 hb hb0 hs
      rw [v1, w1, (v2.unique w2)]
    · rw [m2 hs, C09_div_ub h (by omega) ha ha0 hb hb0 hs]

/-- 4 is a power of two and `4 * 4` is 16; 3/2 is none -/
example : lead (wideCfg.fmt.val 1140850688) ≠ wideCfg.fmt.val 1140850688 ∧ lead (wideCfg.fmt.val 1342177280) = wideCfg.fmt.val 1342177280 ∧
    wideCfg.fmt.val 1342177280 = 4 ∧ No128.mul wideCfg 1342177280 1342177280 = .ok 1610612736 ∧ wideCfg.fmt.val 1610612736 = 16 := by decide +kernel

theorem lead_lt {x : ℚ} (hx : lead x ≠ x) : |lead x| < |x| := by
  refine lt_of_le_of_ne (abs_lead_le x) fun he => hx ?_
  by_cases h0 : x = 0
  · rw [h0, lead_zero]
  rw [abs_lead h0] at he
  unfold lead
  rw [if_neg h0, he]
  by_cases hn : x < 0
  · rw [if_pos hn, abs_of_neg hn]; ring
  · rw [if_neg hn, abs_of_nonneg (not_lt.mp hn)]; ring

/-- a number below the posit `w` is not rounded to `w`, unless there is no posit below it -/
theorem trunc_ne (h : c.WF) {u : ℚ} {w : ℤ} (ht : c.fmt.IsTrunc u w) (hw1 : w.natAbs ≠ 1) (hlt : |u| < |c.fmt.val w|) : False := by
  rcases ht.below with hb | hb
  · exact absurd hlt (not_lt.mpr hb)
  have h4 := h.pow_ge
  have hw := ht.real
  have h0 : w ≠ 0 := by rcases ht.sign with hs | hs <;> omega
  have h4' : 4 ≤ 2 ^ (c.N - 1) := by exact_mod_cast h4
  have one : c.fmt.IsReal 1 := by have := one_le_maxBody h; rw [isReal_bounds]; omega
  have := hb 1 one (by norm_num)
  rw [Format.abs_val hw.inRange h0, Format.abs_val one.inRange (by norm_num)] at this
  have a := (posVal_le_iff (N := c.N) (es := c.es) (p := w.natAbs) (q := 1) (by omega) hw.inRange le_rfl (by omega)).mp this
  omega

/-- **C127**: a product that is a posit, but whose factors are not both powers of two, is wrong (the least posits left out). -/
theorem C127_mul_wrong (h : c.WF) {a b w : ℤ} (ha : c.fmt.IsReal a) (ha0 : a ≠ 0) (hb : c.fmt.IsReal b) (hb0 : b ≠ 0)
    (hw1 : w.natAbs ≠ 1) (hv : c.fmt.val w = c.fmt.val a * c.fmt.val b)
    (hp : lead (c.fmt.val a) ≠ c.fmt.val a ∨ lead (c.fmt.val b) ≠ c.fmt.val b) : No128.mul c a b ≠ .ok w := by
  intro hok
  obtain ⟨m1, m2⟩ := C127_mul h ha ha0 hb hb0
  by_cases hs : c.SafeMag (lead (c.fmt.val a) * lead (c.fmt.val b))
  · obtain ⟨v, v1, v2⟩ := m1 hs
    rw [hok] at v1
    obtain rfl := Except.ok.inj v1
    refine trunc_ne h v2 hw1 ?_
    rw [hv, abs_mul, abs_mul]
    have va : 0 < |c.fmt.val a| := abs_pos.mpr ((Format.val_eq_zero_iff ha.inRange).not.mpr ha0)
    have vb : 0 < |c.fmt.val b| := abs_pos.mpr ((Format.val_eq_zero_iff hb.inRange).not.mpr hb0)
    rcases hp with hp | hp
    · exact mul_lt_mul_of_lt_of_le_of_nonneg_of_pos (lead_lt hp) (abs_lead_le _) (abs_nonneg _) vb
    · rw [mul_comm, mul_comm |c.fmt.val a|]
      exact mul_lt_mul_of_lt_of_le_of_nonneg_of_pos (lead_lt hp) (abs_lead_le _) (abs_nonneg _) va
  · rw [m2 hs] at hok
    cases hok

/-- `1.5 * 2` is not `3` -/
example : wideCfg.fmt.val 1275068416 = wideCfg.fmt.val 1140850688 * wideCfg.fmt.val 1207959552 ∧ wideCfg.fmt.val 1275068416 = 3 ∧
    lead (wideCfg.fmt.val 1140850688) ≠ wideCfg.fmt.val 1140850688 ∧ No128.mul wideCfg 1140850688 1207959552 = .ok 1207959552 := by decide +kernel

/-- **C127**: a quotient that is a posit, but not a power of two, is wrong. -/
theorem C127_div_wrong (h : c.WF) (hF : c.F = 64) {a b w : ℤ} (ha : c.fmt.IsReal a) (ha0 : a ≠ 0) (hb : c.fmt.IsReal b) (hb0 : b ≠ 0)
    (hw1 : w.natAbs ≠ 1) (hv : c.fmt.val w = c.fmt.val a / c.fmt.val b) (hp : lead (c.fmt.val w) ≠ c.fmt.val w) : No128.div c a b ≠ .ok w := by
  intro hok
  obtain ⟨m1, m2⟩ := C127_div h hF ha ha0 hb hb0
  rw [← hv] at m1 m2
  by_cases hs : c.SafeMag (lead (c.fmt.val w))
  · obtain ⟨v, v1, v2⟩ := m1 hs
    rw [hok] at v1
    obtain rfl := Except.ok.inj v1
    exact trunc_ne h v2 hw1 (lead_lt hp)
  · rw [m2 hs] at hok
    cases hok

/-- `3 / 2` is 1 -/
example : wideCfg.fmt.val 1140850688 = wideCfg.fmt.val 1275068416 / wideCfg.fmt.val 1207959552 ∧
    lead (wideCfg.fmt.val 1140850688) ≠ wideCfg.fmt.val 1140850688 ∧ No128.div wideCfg 1275068416 1207959552 = .ok 1073741824 := by decide +kernel

/-- **C127**: how much a product and a quotient lose before they are rounded: less than three quarters and less than half. -/
theorem C127_error {x y : ℚ} (hx : x ≠ 0) (hy : y ≠ 0) :
    (|lead x * lead y| ≤ |x * y| ∧ |x * y| < 4 * |lead x * lead y|) ∧ (|lead (x / y)| ≤ |x / y| ∧ |x / y| < 2 * |lead (x / y)|) := by
  refine ⟨⟨?_, ?_⟩, abs_lead_le _, lt_abs_lead (div_ne_zero hx hy)⟩
  · rw [abs_mul, abs_mul]
    exact mul_le_mul (abs_lead_le _) (abs_lead_le _) (abs_nonneg _) (abs_nonneg _)
  · rw [abs_mul, abs_mul]
    have := mul_lt_mul'' (lt_abs_lead hx) (lt_abs_lead hy) (abs_nonneg _) (abs_nonneg _)
    linarith

example : |wideCfg.fmt.val 1207959551 * wideCfg.fmt.val 1207959551| > 399 / 100 ∧
    lead (wideCfg.fmt.val 1207959551) * lead (wideCfg.fmt.val 1207959551) = 1 := by decide +kernel

/-- **C127**: a posit that is not a power of two is not itself times one. -/
theorem C127_one_wrong (h : c.WF) {a : ℤ} (ha : c.fmt.IsReal a) (hp : lead (c.fmt.val a) ≠ c.fmt.val a) : No128.mul c a c.one ≠ .ok a := by
  have ha0 : a ≠ 0 := by
    rintro rfl
    exact hp (by rw [(Format.val_eq_zero_iff ha.inRange).mpr rfl, lead_zero])
  have hw1 : a.natAbs ≠ 1 := by
    intro h1
    refine (lead_lt hp).ne ?_
    rw [abs_lead (mt (Format.val_eq_zero_iff ha.inRange).mp ha0), Format.abs_val ha.inRange ha0, h1, show posVal c.fmt.N c.fmt.es 1 = _ from posVal_one h]
    congr 1
    exact Int.log_zpow (by norm_num) _
  obtain ⟨o1, o2⟩ := one_real h
  exact C127_mul_wrong h ha ha0 o1 o2 hw1 (by rw [val_one h, mul_one]) (.inl hp)

example : wideCfg.one = 1073741824 ∧ No128.mul wideCfg 1140850688 1073741824 = .ok 1073741824 := by decide +kernel

/-! ## special values -/

/-- **C127**: on special values the operations of `Unpacked` are the ones with a 128-bit integer type, for every fraction type. -/
theorem C127_unpacked_special (F E : ℕ) (a b : Unp) (hab : a.ty ≠ .regular ∨ b.ty ≠ .regular) :
    No128.umul E a b = Unp.mul F E a b ∧ No128.udiv E a b = Unp.div F E a b ∧ (a.ty ≠ .regular → No128.uinv E a = Unp.inv F E a) := by
  obtain ⟨ta, na, ea, fa⟩ := a
  obtain ⟨tb, nb, eb, fb⟩ := b
  unfold No128.umul Unp.mul No128.udiv Unp.div No128.uinv Unp.inv
  cases ta <;> cases tb <;> simp_all

example : No128.udiv 32 (Unp.ofTy .zero) (Unp.ofTy .zero) = .ok (Unp.ofTy .nan) ∧ No128.umul 32 (Unp.ofTy .infinity) (Unp.ofTy .zero) = .ok (Unp.ofTy .nan) ∧
    No128.uinv 32 (Unp.ofTy .zero) = .ok (Unp.ofTy .infinity) := by decide +kernel

/-- **C127**: products and quotients are the ones with a 128-bit integer type if an operand is zero, infinite or NaN. -/
theorem C127_special (h : c.WF) {a b : ℤ} (ha : c.fmt.IsCanonical a) (hb : c.fmt.IsCanonical b)
    (hab : a = 0 ∨ ¬ c.fmt.IsReal a ∨ b = 0 ∨ ¬ c.fmt.IsReal b) :
    No128.mul c a b = Posit.mul c a b ∧ No128.div c a b = Posit.div c a b := by
  have key : ∀ v, c.fmt.IsCanonical v → ∃ u, Posit.unpack c v = .ok u ∧ (v = 0 ∨ ¬ c.fmt.IsReal v → u.ty ≠ .regular) := by
    intro v hv
    rcases unpack_cases h hv with h0 | ⟨r1, r2, e, f, hu⟩ | ⟨-, -, hu⟩ | ⟨-, hu⟩
    · exact ⟨_, by rw [h0]; exact unpack_zero h, fun _ => by simp⟩
    · exact ⟨_, hu.eq, fun hh => by tauto⟩
    · exact ⟨_, hu, fun _ => by simp [Unp.ofTy]⟩
    · exact ⟨_, hu, fun _ => by simp [Unp.ofTy]⟩
  obtain ⟨ua, a1, a2⟩ := key a ha
  obtain ⟨ub, b1, b2⟩ := key b hb
  obtain ⟨m, d, -⟩ := C127_unpacked_special c.F c.E ua ub (by tauto)
  unfold No128.mul Posit.mul No128.div Posit.div
  rw [a1, b1]
  simp only [bind, Except.bind, m, d, and_self]

example : No128.div wideCfg 1140850688 0 = .ok (-2147483648) ∧ No128.mul wideCfg 0 1140850688 = .ok 0 := by decide +kernel

end Verif
