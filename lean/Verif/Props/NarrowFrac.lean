import Verif.Lemmas.NarrowFrac
import Verif.Props.Constants

/-!
# Fraction types that are too narrow: C126

`Posit<T,totalbits,esbits,FT>` accepts every unsigned type `FT`. The theorems C08, C09, C63 ask for two bits more than the
longest fraction; here nothing is asked, and what the operators then compute is stated completely.
-/

namespace Verif
open Fmt

variable {c : Cfg}

/-- `Posit<int16_t,16,1,uint8_t>`: 12 fraction bits, of which 8 fit -/
def narrowCfg : Cfg := ⟨16, 16, 1, 8, .withNan⟩

theorem pack_reg (h : c.WF) {u : Unp} {x : ℚ} (hu : u.IsReg c.F) (hx : u.val c.F = x) :
    (c.SafeMag x → ∃ v, Posit.pack c u = .ok v ∧ c.fmt.IsTrunc x v) ∧ (¬ c.SafeMag x → Posit.pack c u = .error .shiftAmount) := by
  have := pack_exact h hu.2 (s := u.neg) (e := u.exp) (y := u.val c.F) rfl
  rw [← reg_eq hu, hx] at this
  exact this

/-- **C126**: the product for every fraction type: the operands are cut to `F` significant bits, their product is cut at a
fixed place, and that number is rounded toward zero; undefined behaviour exactly if it is out of range. -/
theorem C126_mul (h : c.WF) {a b : ℤ} (ha : c.fmt.IsReal a) (ha0 : a ≠ 0) (hb : c.fmt.IsReal b) (hb0 : b ≠ 0) :
    (c.SafeMag (narrowProd c.F (c.fmt.val a) (c.fmt.val b)) →
      ∃ v, Posit.mul c a b = .ok v ∧ c.fmt.IsTrunc (narrowProd c.F (c.fmt.val a) (c.fmt.val b)) v) ∧
    (¬ c.SafeMag (narrowProd c.F (c.fmt.val a) (c.fmt.val b)) → Posit.mul c a b = .error .shiftAmount) := by
  obtain ⟨ua, ub, u, h1, h2, h3, h4, -, h6⟩ := isNum_mul h ha hb
  have hreg := h6 ha0 hb0
  have hval : u.val c.F = narrowProd c.F (c.fmt.val a) (c.fmt.val b) := h4.val hreg
  have : Posit.mul c a b = Posit.pack c u := by
    unfold Posit.mul
    rw [h1, h2]
    simp only [bind, Except.bind]
    rw [h3]
  rw [this]
  exact pack_reg h hreg hval

/-- with 32 bits the same product is `-21552` -/
example : narrowCfg.WF ∧ narrowCfg.fmt.IsReal 20001 ∧ narrowCfg.fmt.IsReal (-17777) ∧ narrowCfg.F < narrowCfg.fb ∧
    narrowCfg.SafeMag (narrowProd narrowCfg.F (narrowCfg.fmt.val 20001) (narrowCfg.fmt.val (-17777))) ∧
    Posit.mul narrowCfg 20001 (-17777) = .ok (-21504) ∧ Posit.mul { narrowCfg with F := 32 } 20001 (-17777) = .ok (-21552) := by
  decide +kernel

/-- **C126**: the quotient for every fraction type. -/
theorem C126_div (h : c.WF) {a b : ℤ} (ha : c.fmt.IsReal a) (ha0 : a ≠ 0) (hb : c.fmt.IsReal b) (hb0 : b ≠ 0) :
    (c.SafeMag (narrowQuot c.F (c.fmt.val a) (c.fmt.val b)) →
      ∃ v, Posit.div c a b = .ok v ∧ c.fmt.IsTrunc (narrowQuot c.F (c.fmt.val a) (c.fmt.val b)) v) ∧
    (¬ c.SafeMag (narrowQuot c.F (c.fmt.val a) (c.fmt.val b)) → Posit.div c a b = .error .shiftAmount) := by
  obtain ⟨ua, a1, -, a3, -, a5⟩ := isNum_unpack h ha
  obtain ⟨ub, b1, -, b3, -, b5⟩ := isNum_unpack h hb
  obtain ⟨ra, -, ca⟩ := a5 ha0
  obtain ⟨rb, -, cb⟩ := b5 hb0
  obtain ⟨r, hr, hreg, hval⟩ := isNum_div h ra rb a3 b3 (ca _ (by have := h.F_pos; omega) (by omega)) cb
  have : Posit.div c a b = Posit.pack c r := by
    unfold Posit.div
    rw [a1, b1]
    simp only [bind, Except.bind]
    rw [hr]
  rw [this]
  exact pack_reg h hreg hval

example : narrowCfg.SafeMag (narrowQuot narrowCfg.F (narrowCfg.fmt.val 20001) (narrowCfg.fmt.val (-17777))) ∧
    Posit.div narrowCfg 20001 (-17777) = .ok (-18048) ∧ Posit.div { narrowCfg with F := 32 } 20001 (-17777) = .ok (-18043) := by
  decide +kernel

/-- **C126**: the reciprocal for every fraction type is the quotient of one; the least posit of a format with two infinities,
whose reciprocal is given by C90, is left out. -/
theorem C126_inv (h : c.WF) {v : ℤ} (hv : c.fmt.IsReal v) (h0 : v ≠ 0) (hni : c.spec = .withNanInf → v.natAbs ≠ 1) :
    (c.SafeMag (narrowQuot c.F 1 (c.fmt.val v)) →
      ∃ w, Posit.inv c v = .ok w ∧ c.fmt.IsTrunc (narrowQuot c.F 1 (c.fmt.val v)) w) ∧
    (¬ c.SafeMag (narrowQuot c.F 1 (c.fmt.val v)) → Posit.inv c v = .error .shiftAmount) := by
  obtain ⟨r, x, w, hl⟩ := low_real h hv h0
  have hF8 := h.F_pos
  by_cases hw0 : w = 0
  · have hx : c.fmt.val v = sq (decide (v < 0)) * 2 ^ (2 ^ c.es * r + (x : ℤ)) := by
      have : |c.fmt.val v| = 2 ^ (2 ^ c.es * r + (x : ℤ)) := by rw [hl.val, hw0, mag_zero]
      rw [← this]
      by_cases hn : v < 0
      · rw [abs_of_neg ((Format.val_neg_iff hv.inRange).mpr hn)]; simp [sq, hn]
      · have : 0 ≤ c.fmt.val v := not_lt.mp fun hh => hn ((Format.val_neg_iff hv.inRange).mp hh)
        rw [abs_of_nonneg this]; simp [sq, hn]
    have hq : narrowQuot c.F 1 (c.fmt.val v) = 1 / c.fmt.val v := by rw [hx]; exact narrowQuot_pow (by omega) _ _
    rw [hq]
    set c' : Cfg := { c with F := 64 } with hc'
    have h' : c'.WF := ⟨h.hH, Or.inr (Or.inr (Or.inr rfl)), h.hN, h.hes, h.h64, h.hes30, h.hscale⟩
    have he : Posit.inv c v = Posit.inv c' v := by
      have hu' : Posit.unpackLow c' v = .ok (Low.mk .regular (v < 0) r x w) := hl.eq
      unfold Posit.inv
      rw [hu', hl.eq]
      simp only [bind, Except.bind, hw0, if_true]
      rfl
    rw [he]
    refine inv_real (c := c') h' ?_ hv h0 ?_
    · have : c.fb + 2 ≤ 64 := by
        have := h.hN
        have := h.hH
        have := h.h64
        unfold Cfg.fb
        omega
      exact this
    · intro hs hh
      refine hni hs ?_
      have hh' : |c.fmt.val v| = 2 ^ (-(c.maxScale : ℤ)) := hh
      rw [Format.abs_val hv.inRange h0, ← posVal_one h] at hh'
      have hlt := hv.inRange
      have h4 : 4 ≤ 2 ^ (c.N - 1) := by have := h.pow_ge; exact_mod_cast this
      have a := (posVal_le_iff (N := c.N) (es := c.es) (p := v.natAbs) (q := 1) (by omega) hlt le_rfl (by omega)).mp hh'.le
      omega
  · have hu := hl.unp
    have hreg : (⟨.regular, v < 0, 2 ^ c.es * r + x, w * 2 ^ c.F / 2 ^ c.H⟩ : Unp).IsReg c.F := ⟨rfl, hu.f_lt⟩
    obtain ⟨q, hq, hqr, hqv⟩ := isNum_div h (ua := ⟨.regular, false, 0, 0⟩) (x := 1) (one_isReg c.F) hreg (by simp) (hu.e_abs h)
      (by rw [cutSig_of_one (by omega), cutSig_one' (by omega)]) (fun j h1 h2 => hu.cutSig_eq h hv h1 h2)
    have he : Posit.inv c v = Posit.pack c q := by
      have hl2 : Posit.low2full c (Low.mk .regular (v < 0) r x w) = .ok ⟨.regular, v < 0, 2 ^ c.es * r + x, w * 2 ^ c.F / 2 ^ c.H⟩ := by
        have := hu.eq
        unfold Posit.unpack at this
        rw [hl.eq] at this
        simpa only [bind, Except.bind] using this
      unfold Posit.inv
      rw [hl.eq]
      simp only [bind, Except.bind, hw0, if_false]
      rw [hl2]
      simp only []
      rw [C68_inv_eq (by omega) hreg, hq]
    rw [he]
    exact pack_reg h hqr hqv

example : narrowCfg.SafeMag (narrowQuot narrowCfg.F 1 (narrowCfg.fmt.val 20001)) ∧ narrowCfg.spec ≠ .withNanInf ∧
    Posit.inv narrowCfg 20001 = .ok 12560 ∧ Posit.inv { narrowCfg with F := 32 } 20001 = .ok 12542 := by
  decide +kernel

/-- **C126**: fused multiply-add for every fraction type: the addend is cut to the `F+1` bits of the decoded number. -/
theorem C126_fma (h : c.WF) {a b d : ℤ} (ha : c.fmt.IsReal a) (hb : c.fmt.IsReal b) (hd : c.fmt.IsReal d) {p q s : ℚ}
    (hp : p = narrowProd c.F (c.fmt.val a) (c.fmt.val b)) (hq : q = cutSig (c.F + 1) (c.fmt.val d)) (hs : s = alignedSum c.F p q) :
    (SumOK c.F p q ∧ (s = 0 ∨ c.SafeMag s) → ∃ v, Posit.fma c a b d = .ok v ∧ c.fmt.IsCut0 s v) ∧
    (¬ (SumOK c.F p q ∧ (s = 0 ∨ c.SafeMag s)) → Posit.fma c a b d = .error .shiftAmount) := by
  obtain ⟨ua, ub, m, h1, h2, h3, h4, h5, -⟩ := isNum_mul h ha hb
  obtain ⟨ud, h6, h7, h8, -⟩ := isNum_unpack h hd
  rw [← hp] at h4
  rw [← hq] at h7
  have key := isNum_add_pack h h4 h7 (addRange_products h h5 (by omega))
  have : Posit.fma c a b d = (do let r ← Unp.add c.F c.E m ud; Posit.pack c r) := by
    unfold Posit.fma
    rw [h1, h2, h6]
    simp only [bind, Except.bind]
    rw [h3]
  rw [this, hs]
  exact key

example : narrowCfg.fmt.IsReal 18888 ∧
    SumOK narrowCfg.F (narrowProd narrowCfg.F (narrowCfg.fmt.val 20001) (narrowCfg.fmt.val (-17777))) (cutSig (narrowCfg.F + 1) (narrowCfg.fmt.val 18888)) ∧
    narrowCfg.SafeMag (alignedSum narrowCfg.F (narrowProd narrowCfg.F (narrowCfg.fmt.val 20001) (narrowCfg.fmt.val (-17777)))
      (cutSig (narrowCfg.F + 1) (narrowCfg.fmt.val 18888))) ∧
    Posit.fma narrowCfg 20001 (-17777) 18888 = .ok (-15616) := by decide +kernel

/-- **C126**: the sum of two products for every fraction type. -/
theorem C126_mulAddMul (h : c.WF) {a b x y : ℤ} (ha : c.fmt.IsReal a) (hb : c.fmt.IsReal b) (hx : c.fmt.IsReal x)
    (hy : c.fmt.IsReal y) {p q s : ℚ} (hp : p = narrowProd c.F (c.fmt.val a) (c.fmt.val b))
    (hq : q = narrowProd c.F (c.fmt.val x) (c.fmt.val y)) (hs : s = alignedSum c.F p q) :
    (SumOK c.F p q ∧ (s = 0 ∨ c.SafeMag s) → ∃ v, Posit.mulAddMul c a b x y = .ok v ∧ c.fmt.IsCut0 s v) ∧
    (¬ (SumOK c.F p q ∧ (s = 0 ∨ c.SafeMag s)) → Posit.mulAddMul c a b x y = .error .shiftAmount) := by
  obtain ⟨ua, ub, m, h1, h2, h3, h4, h5, -⟩ := isNum_mul h ha hb
  obtain ⟨ux, uy, n, k1, k2, k3, k4, k5, -⟩ := isNum_mul h hx hy
  rw [← hp] at h4
  rw [← hq] at k4
  have key := isNum_add_pack h h4 k4 (addRange_products h h5 k5)
  have : Posit.mulAddMul c a b x y = (do let r ← Unp.add c.F c.E m n; Posit.pack c r) := by
    unfold Posit.mulAddMul
    rw [h1, h2, k1, k2]
    simp only [bind, Except.bind]
    rw [h3, k3]
  rw [this, hs]
  exact key

example : narrowCfg.fmt.IsReal 18888 ∧ narrowCfg.fmt.IsReal 17007 ∧
    SumOK narrowCfg.F (narrowProd narrowCfg.F (narrowCfg.fmt.val 20001) (narrowCfg.fmt.val (-17777)))
      (narrowProd narrowCfg.F (narrowCfg.fmt.val 18888) (narrowCfg.fmt.val 17007)) ∧
    Posit.mulAddMul narrowCfg 20001 (-17777) 18888 17007 = .ok (-13568) := by decide +kernel

/-- **C126**: the difference of two products for every fraction type; a second product that is zero counts as one, as in
C63. -/
theorem C126_mulSubMul (h : c.WF) {a b x y : ℤ} (ha : c.fmt.IsReal a) (hb : c.fmt.IsReal b) (hx : c.fmt.IsReal x)
    (hy : c.fmt.IsReal y) {p q s : ℚ} (hp : p = narrowProd c.F (c.fmt.val a) (c.fmt.val b))
    (hq : q = if x = 0 ∨ y = 0 then -1 else -narrowProd c.F (c.fmt.val x) (c.fmt.val y)) (hs : s = alignedSum c.F p q) :
    (SumOK c.F p q ∧ (s = 0 ∨ c.SafeMag s) → ∃ v, Posit.mulSubMul c a b x y = .ok v ∧ c.fmt.IsCut0 s v) ∧
    (¬ (SumOK c.F p q ∧ (s = 0 ∨ c.SafeMag s)) → Posit.mulSubMul c a b x y = .error .shiftAmount) := by
  obtain ⟨ua, ub, m, h1, h2, h3, h4, h5, -⟩ := isNum_mul h ha hb
  obtain ⟨ux, uy, n, k1, k2, k3, k4, k5, k6⟩ := isNum_mul h hx hy
  rw [← hp] at h4
  have hn : IsNum c.F (Unp.neg' n) q ∧ (Unp.neg' n).exp = n.exp := by
    refine ⟨?_, rfl⟩
    rw [hq]
    by_cases h0 : x = 0 ∨ y = 0
    · rw [if_pos h0]
      have hz : narrowProd c.F (c.fmt.val x) (c.fmt.val y) = 0 := by
        rcases h0 with rfl | rfl
        · rw [Format.val_zero, narrowProd_zero_left]
        · rw [Format.val_zero, narrowProd_zero_right]
      rw [hz] at k4
      have hn0 : n = ⟨.zero, false, 0, 0⟩ := by
        generalize hg : (0 : ℚ) = z at k4
        cases k4 with
        | zero => rfl
        | reg hr => exact absurd hg.symm (by rw [val_eq]; exact mul_ne_zero (sq_ne _) (mag_pos _ _ _).ne')
      rw [hn0]
      have hr : (⟨.regular, true, 0, 0⟩ : Unp).IsReg c.F := ⟨rfl, by positivity⟩
      have := IsNum.reg hr
      have hv : (⟨.regular, true, 0, 0⟩ : Unp).val c.F = -1 := by rw [val_eq]; simp [sq, mag]
      rw [hv] at this
      exact this
    · rw [if_neg h0]
      push Not at h0
      have hr := k6 h0.1 h0.2
      have hv : n.val c.F = narrowProd c.F (c.fmt.val x) (c.fmt.val y) := k4.val hr
      rw [← hv]
      have hr' : (Unp.neg' n).IsReg c.F := ⟨rfl, hr.2⟩
      have := IsNum.reg hr'
      have hv' : (Unp.neg' n).val c.F = -n.val c.F := by
        rw [val_eq, val_eq]
        unfold Unp.neg'
        cases n.neg <;> simp [sq]
      rwa [hv'] at this
  have key := isNum_add_pack h h4 hn.1 (addRange_products h h5 (by rw [hn.2]; exact k5))
  have : Posit.mulSubMul c a b x y = (do let r ← Unp.add c.F c.E m (Unp.neg' n); Posit.pack c r) := by
    unfold Posit.mulSubMul Unp.sub
    rw [h1, h2, k1, k2]
    simp only [bind, Except.bind]
    rw [h3, k3]
  rw [this, hs]
  exact key

example : SumOK narrowCfg.F (narrowProd narrowCfg.F (narrowCfg.fmt.val 20001) (narrowCfg.fmt.val (-17777)))
      (-narrowProd narrowCfg.F (narrowCfg.fmt.val 18888) (narrowCfg.fmt.val 17007)) ∧
    Posit.mulSubMul narrowCfg 20001 (-17777) 18888 17007 = .ok (-24752) ∧
    Posit.mulSubMul narrowCfg 20001 (-17777) 18888 0 = .ok (-23552) := by decide +kernel

/-- **C126**: the dot product for every fraction type. -/
theorem C126_dot (h : c.WF) {a b : ℤ} {l : List (ℤ × ℤ)} (ha : c.fmt.IsReal a)
    (hb : c.fmt.IsReal b) (hl : ∀ p ∈ l, c.fmt.IsReal p.1 ∧ c.fmt.IsReal p.2) (hlen : l.length + 1 < 2 ^ 60) {p S : ℚ} {P : List ℚ}
    (hp : p = narrowProd c.F (c.fmt.val a) (c.fmt.val b))
    (hP : P = l.map fun p => narrowProd c.F (c.fmt.val p.1) (c.fmt.val p.2)) (hS : S = P.foldl (alignedSum c.F) p) :
    (FoldOK c.F p P ∧ (S = 0 ∨ c.SafeMag S) → ∃ v, Posit.dot c ((a, b) :: l) = .ok v ∧ c.fmt.IsCut0 S v) ∧
    (¬ (FoldOK c.F p P ∧ (S = 0 ∨ c.SafeMag S)) → Posit.dot c ((a, b) :: l) = .error .shiftAmount) := by
  obtain ⟨ua, ub, m, h1, h2, h3, h4, h5, -⟩ := isNum_mul h ha hb
  have hF8 := h.F_pos
  rw [← hp] at h4
  obtain ⟨g1, g2⟩ := isNum_dotLoop h l m _ 1 hl h4 (by rw [abs_le] at h5; omega)
    (by rw [Nat.cast_one, one_mul, hp]; exact (abs_narrowProd_le _ _ _).trans (abs_product_le h ha hb)) (by omega)
  rw [← hP, ← hS] at g1
  rw [← hP] at g2
  have hstep : ∀ r, Posit.dotLoop c m l = r → Posit.dot c ((a, b) :: l) = r.bind fun t => Posit.pack c t := by
    intro r hr
    unfold Posit.dot
    simp only []
    rw [h1, h2]
    simp only [bind, Except.bind]
    rw [h3]
    simp only []
    rw [hr]
  by_cases ho : FoldOK c.F p P
  · obtain ⟨r, hr, hd⟩ := g1 ho
    rw [hstep _ hr]
    obtain ⟨p1, p2⟩ := isNum_pack h hd
    exact ⟨fun hh => p1 hh.2, fun hn => p2 (fun hh => hn ⟨ho, hh⟩)⟩
  · rw [hstep _ (g2 ho)]
    exact ⟨fun hh => absurd hh.1 ho, fun _ => rfl⟩

example : (∀ p ∈ [((18888 : ℤ), (17007 : ℤ)), (15000, 20000)], narrowCfg.fmt.IsReal p.1 ∧ narrowCfg.fmt.IsReal p.2) ∧
    FoldOK narrowCfg.F (narrowProd narrowCfg.F (narrowCfg.fmt.val 20001) (narrowCfg.fmt.val (-17777)))
      [narrowProd narrowCfg.F (narrowCfg.fmt.val 18888) (narrowCfg.fmt.val 17007),
        narrowProd narrowCfg.F (narrowCfg.fmt.val 15000) (narrowCfg.fmt.val 20000)] ∧
    Posit.dot narrowCfg [(20001, -17777), (18888, 17007), (15000, 20000)] = .ok 15488 := by decide +kernel

/-! ## what is lost -/

/-- **C126**: how much a product loses before it is rounded: at most one part in `2^(F-3)`. -/
theorem C126_mul_error {F : ℕ} (hF : 3 ≤ F) {x y : ℚ} (hx : x ≠ 0) (hy : y ≠ 0) :
    |narrowProd F x y| ≤ |x * y| ∧ |x * y| * (1 - 2 ^ (3 - F : ℤ)) ≤ |narrowProd F x y| := by
  refine ⟨abs_narrowProd_le F x y, ?_⟩
  have a := le_abs_cutSig (m := F) hx
  have b := le_abs_cutSig (m := F) hy
  have hlog : ∀ {x : ℚ}, x ≠ 0 → (2 : ℚ) ^ (Int.log 2 |x|) ≤ |x| := by
    intro x hx
    have := Int.zpow_log_le_self (b := 2) (by norm_num) (abs_pos.mpr hx)
    exact_mod_cast this
  have u : (2 : ℚ) ^ (Int.log 2 |x| + Int.log 2 |y| + 2 - F : ℤ) ≤ |x| * |y| * (2 * 2 ^ (1 - F : ℤ)) := by
    have e : (2 : ℚ) ^ (Int.log 2 |x| + Int.log 2 |y| + 2 - F : ℤ) = 2 ^ (Int.log 2 |x|) * 2 ^ (Int.log 2 |y|) * (2 * 2 ^ (1 - F : ℤ)) := by
      rw [← zpow_one_add₀ (by norm_num), ← zpow_add₀ (by norm_num), ← zpow_add₀ (by norm_num)]; congr 1; ring
    rw [e]
    exact mul_le_mul_of_nonneg_right (mul_le_mul (hlog hx) (hlog hy) (by positivity) (abs_nonneg _)) (by positivity)
  have d : |cutSig F x * cutSig F y| - 2 ^ (Int.log 2 |x| + Int.log 2 |y| + 2 - F : ℤ) ≤ |narrowProd F x y| := by
    unfold narrowProd
    exact le_abs_cutTo (by positivity)
  have h8 : (2 : ℚ) ^ (3 - F : ℤ) = 4 * 2 ^ (1 - F : ℤ) := by
    rw [show (3 : ℤ) - F = 2 + (1 - F) by ring, zpow_add₀ (by norm_num)]; norm_num
  have ht : (2 : ℚ) ^ (1 - F : ℤ) ≤ 1 := zpow_le_one_of_nonpos₀ (by norm_num) (by omega)
  have ht0 : (0 : ℚ) < 2 ^ (1 - F : ℤ) := by positivity
  rw [abs_mul] at d
  rw [h8, abs_mul]
  generalize (2 : ℚ) ^ (1 - F : ℤ) = t at *
  have hx0 := abs_nonneg x
  have hy0 := abs_nonneg y
  have m : |x| * (1 - t) * (|y| * (1 - t)) ≤ |cutSig F x| * |cutSig F y| :=
    mul_le_mul a b (mul_nonneg hy0 (by linarith)) (abs_nonneg _)
  have hxy := mul_nonneg hx0 hy0
  nlinarith [mul_nonneg hxy (mul_nonneg ht0.le ht0.le)]

example : narrowProd 8 (narrowCfg.fmt.val 20001) (narrowCfg.fmt.val (-17777)) ≠ narrowCfg.fmt.val 20001 * narrowCfg.fmt.val (-17777) ∧
    narrowProd 8 (narrowCfg.fmt.val 20001) (narrowCfg.fmt.val (-17777)) = narrowCfg.fmt.val (-21504) := by decide +kernel

theorem narrowProd_one {F : ℕ} (hF : 2 ≤ F) {x : ℚ} (h1 : 1 ≤ x) (h2 : x < 1 + 2 ^ (2 - F : ℤ)) : narrowProd F x 1 = 1 := by
  have hu : (2 : ℚ) ^ (2 - F : ℤ) ≤ 1 := zpow_le_one_of_nonpos₀ (by norm_num) (by omega)
  have hlog : Int.log 2 |x| = 0 := by
    rw [abs_of_pos (by linarith)]
    have := log_of_bounds (n := 1) (m := 0) (Y := 0) (x := x) (by norm_num) (by norm_num) (by simpa using h1) (by norm_num; linarith)
    simpa using this
  have hu0 : (0 : ℚ) < 2 ^ (1 - F : ℤ) := by positivity
  have p1 : (2 : ℚ) ^ (F - 1) * 2 ^ (1 - F : ℤ) = 1 := by
    rw [← zpow_natCast, ← zpow_add₀ (by norm_num), Nat.cast_sub (by omega)]; norm_num
  have p2 : (2 : ℚ) ^ (F - 2) * 2 ^ (2 - F : ℤ) = 1 := by
    rw [← zpow_natCast, ← zpow_add₀ (by norm_num), Nat.cast_sub (by omega)]; norm_num
  have z1 : 1 ≤ cutSig F x := by
    unfold cutSig
    rw [hlog, zero_add]
    have := sign_of_cut false (by linarith : 0 < x) (2 ^ (1 - F : ℤ))
    simp only [sq, Bool.false_eq_true, if_false, one_mul] at this
    rw [this, ← p1]
    refine mul_le_mul_of_nonneg_right ?_ hu0.le
    have hfl : 2 ^ (F - 1) ≤ ⌊x / 2 ^ (1 - F : ℤ)⌋₊ := by
      refine Nat.le_floor ?_
      rw [le_div_iff₀ hu0]
      push_cast
      rw [p1]; exact h1
    exact_mod_cast hfl
  have z2 : cutSig F x ≤ x := by
    have := abs_cutSig_le F x
    rwa [abs_of_pos (by linarith), abs_of_pos (by linarith)] at this
  unfold narrowProd
  rw [cutSig_one' (by omega), mul_one, hlog, abs_one, Int.log_one_right, add_zero, zero_add,
    cutTo_of_bounds (n := 2 ^ (F - 2)) (by linarith) (by push_cast; rw [p2]; exact z1) (by push_cast; rw [add_mul, p2]; linarith)]
  push_cast
  exact p2

theorem narrowQuot_half {F : ℕ} (hF : 3 ≤ F) : narrowQuot F 1 (1 + 2 ^ (1 - F : ℤ)) = 1 / 2 := by
  have p1 : (2 : ℚ) ^ (F - 1) * 2 ^ (1 - F : ℤ) = 1 := by
    rw [← zpow_natCast, ← zpow_add₀ (by norm_num), Nat.cast_sub (by omega)]; norm_num
  have p2 : (2 : ℚ) ^ (F - 2) * 2 ^ (2 - F : ℤ) = 1 := by
    rw [← zpow_natCast, ← zpow_add₀ (by norm_num), Nat.cast_sub (by omega)]; norm_num
  have hu0 : (0 : ℚ) < 2 ^ (1 - F : ℤ) := by positivity
  have hlt : (2 : ℚ) ^ (1 - F : ℤ) < 2 ^ (2 - F : ℤ) := zpow_lt_zpow_right₀ (by norm_num) (by omega)
  have hx : (1 : ℚ) + 2 ^ (1 - F : ℤ) = sq false * (((2 ^ (F - 1) + 1 : ℕ) : ℚ) * 2 ^ (1 - F : ℤ)) := by
    simp only [sq, Bool.false_eq_true, if_false]
    push_cast
    rw [add_mul, p1]; ring
  have hP : 2 ^ 2 ≤ 2 ^ (F - 1) := Nat.pow_le_pow_right (by norm_num) (by omega)
  have c1 : cutSig F (1 + 2 ^ (1 - F : ℤ)) = 1 + 2 ^ (1 - F : ℤ) := by
    have := cutSig_of_bounds (m := F - 1) (n := 2 ^ (F - 1) + 1) (Y := 1 - F) (x := ((2 ^ (F - 1) + 1 : ℕ) : ℚ) * 2 ^ (1 - F : ℤ)) false
      (by omega) (by rw [pow_succ]; omega) le_rfl (by nlinarith)
    rw [← hx, show F - 1 + 1 = F by omega] at this
    exact this
  have s1 : 1 < signif (1 + (2 : ℚ) ^ (1 - F : ℤ)) := by
    rw [hx, signif_of_mul (m := F - 1) false (by omega) (by rw [pow_succ]; omega), one_lt_div (by positivity)]
    push_cast
    linarith
  have c2 : cutSig (F - 1) (1 + 2 ^ (1 - F : ℤ)) = 1 := by
    have := cutSig_of_bounds (m := F - 2) (n := 2 ^ (F - 2)) (Y := 2 - F) (x := 1 + 2 ^ (1 - F : ℤ)) false le_rfl
      (Nat.pow_lt_pow_right (by norm_num) (by omega)) (by push_cast; rw [p2]; linarith) (by push_cast; rw [add_mul, p2]; linarith)
    rw [show F - 2 + 1 = F - 1 by omega] at this
    simp only [sq, Bool.false_eq_true, if_false, one_mul] at this
    rw [this]
    push_cast
    exact p2
  unfold narrowQuot
  rw [c1, c2, cutSig_one' (by omega), signif_of_one, if_neg (not_le.mpr s1), if_neg (lt_irrefl _)]
  norm_num

/-- **C126**: with a fraction type of at most `fb+1` bits one is not neutral: the number after one times one is one. -/
theorem C126_one_wrong (h : c.WF) (hF : c.F ≤ c.fb + 1) : c.fmt.IsReal (c.one + 1) ∧ Posit.mul c (c.one + 1) c.one = .ok c.one := by
  have hF8 := h.F_pos
  obtain ⟨r1, r2, r3⟩ := val_one_add h (k := 1) (one_lt_pow₀ (by norm_num) (by omega)) (by omega)
  simp only [Nat.cast_one, one_mul] at r1 r2 r3
  refine ⟨r1, ?_⟩
  have hp : narrowProd c.F (c.fmt.val (c.one + 1)) (c.fmt.val c.one) = 1 := by
    rw [r3, val_one h]
    refine narrowProd_one (by omega) (by linarith [show (0 : ℚ) < 2 ^ (-(c.fb : ℤ)) by positivity]) ?_
    have : (2 : ℚ) ^ (-(c.fb : ℤ)) < 2 ^ (2 - c.F : ℤ) := zpow_lt_zpow_right₀ (by norm_num) (by omega)
    linarith
  obtain ⟨v, v1, v2⟩ := (C126_mul h r1 r2 (one_real h).1 (one_real h).2).1 (by
    rw [hp]
    refine safeMag_near_one h ?_ (by norm_num)
    rw [abs_one]
    exact zpow_le_one_of_nonpos₀ (by norm_num) (by omega))
  rw [hp] at v2
  rw [v1, v2.faithful.exact (one_real h).1 (val_one h)]

example : narrowCfg.WF ∧ narrowCfg.F ≤ narrowCfg.fb + 1 ∧ Posit.mul narrowCfg 16385 16384 = .ok 16384 := by decide +kernel

/-- **C126**: with a fraction type of at most `fb+1` bits the reciprocal of `1 + 2^(1-F)` is one half. -/
theorem C126_inv_wrong (h : c.WF) (hF : c.F ≤ c.fb + 1) : ∃ v w, c.fmt.IsReal v ∧ c.fmt.val v = 1 + 2 ^ (1 - c.F : ℤ) ∧
    Posit.inv c v = .ok w ∧ c.fmt.val w = 1 / 2 := by
  have hF8 := h.F_pos
  obtain ⟨r1, r2, r3⟩ := val_one_add h (k := 2 ^ (c.fb + 1 - c.F)) (Nat.pow_lt_pow_right (by norm_num) (by omega)) (by omega)
  have hx : c.fmt.val (c.one + ((2 ^ (c.fb + 1 - c.F) : ℕ) : ℤ)) = 1 + 2 ^ (1 - c.F : ℤ) := by
    rw [r3]
    push_cast
    rw [← zpow_natCast, ← zpow_add₀ (by norm_num), Nat.cast_sub (by omega)]
    congr 2
    push_cast
    ring
  have hq := narrowQuot_half (F := c.F) (by omega)
  rw [← hx] at hq
  obtain ⟨w, w1, w2⟩ := (C126_inv h r1 r2 (fun _ => by
    have e : (2 : ℤ) ^ 1 ≤ c.one := by
      rw [one_eq h]; exact pow_le_pow_right₀ (by norm_num) (by unfold Cfg.fb at hF; omega)
    have p : (0 : ℤ) < ((2 ^ (c.fb + 1 - c.F) : ℕ) : ℤ) := by positivity
    generalize ((2 ^ (c.fb + 1 - c.F) : ℕ) : ℤ) = z at p
    omega)).1 (by
      rw [hq]
      refine safeMag_near_one h ?_ (by norm_num)
      rw [abs_of_pos (by norm_num), show (1 / 2 : ℚ) = 2 ^ (-1 : ℤ) by norm_num]
      exact zpow_le_zpow_right₀ (by norm_num) (by omega))
  rw [hq] at w2
  refine ⟨_, w, r1, hx, w1, ?_⟩
  have hle : 2 ^ c.fb ≤ 2 ^ (c.N - 3) := Nat.pow_le_pow_right (by norm_num) (by unfold Cfg.fb; omega)
  obtain ⟨e1, e2, -⟩ := pow_split h
  have hpp : 0 < 2 ^ (c.N - 3) := by positivity
  have hm : 2 ^ (c.N - 2) - 2 ^ c.fb ≤ c.fmt.maxBody := (Nat.sub_le _ _).trans (by have := maxBody_ge h; omega)
  have hm0 : 0 < 2 ^ (c.N - 2) - 2 ^ c.fb := Nat.sub_pos_of_lt (by omega)
  have hreal : c.fmt.IsReal ((2 ^ (c.N - 2) - 2 ^ c.fb : ℕ) : ℤ) := by
    rw [Format.isReal_iff]
    simp only [Int.natAbs_natCast]
    exact hm
  have hval : c.fmt.val ((2 ^ (c.N - 2) - 2 ^ c.fb : ℕ) : ℤ) = 1 / 2 := by
    rw [Format.val_natCast hm0]
    exact posVal_half h
  rw [w2.faithful.exact hreal hval, hval]

example : Posit.inv narrowCfg (16384 + 32) = .ok 12288 ∧ narrowCfg.fmt.val 12288 = 1 / 2 := by decide +kernel

end Verif
