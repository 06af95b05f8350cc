import Verif.Props.TestUnpacked
import Verif.Model.ConvTest

/-! # A float survives the conversion to a posit and back if it is a posit: C113 -/

namespace Verif
open Fmt

variable {c : Cfg} {F E eb fb : ℕ}

/-- a normal float is read as its number cut to `F + 1` bits -/
theorem read_cut (heb : 2 ≤ eb) (heb30 : eb ≤ 30) (hfb : 1 ≤ fb) (hF : 1 ≤ F) (hE : eb ≤ E) {b : ℕ} {x : ℚ}
    (hx : ieee eb fb b = .num x) (hn : (2 : ℚ) ^ ((2 : ℤ) - 2 ^ (eb - 1)) ≤ |x|) :
    ∃ u, Unp.unpackFloat F E (.any eb fb true) b = .ok u ∧ u.IsReg F ∧ u.val F = cutSig (F + 1) x ∧
      u.exp = Int.log 2 |x| ∧ 2 - 2 ^ (eb - 1) ≤ u.exp ∧ u.exp ≤ 2 ^ (eb - 1) - 1 ∧ (F ≤ fb ∨ 2 ^ (F - fb) ∣ u.frac) := by
  obtain ⟨h1, ⟨h2, h3⟩ | ⟨h2, h3⟩⟩ := ieee_num hx
  · exact absurd hn (not_le.mpr (sub_abs h3).2)
  have hu := unpackFloat_normal (F := F) (dn := true) heb hfb hF hE heb30 h2 h1
  have hm := fMan_lt fb b
  have hn2 : 2 ^ fb + fMan fb b < 2 ^ (fb + 1) := by rw [pow_succ]; omega
  have hlt := fExp_lt eb fb b
  have hp := pow_half (eb := eb) (by omega)
  have hltz : (fExp eb fb b : ℤ) < 2 ^ eb := by exact_mod_cast hlt
  have h1z : (fExp eb fb b : ℤ) ≠ 2 ^ eb - 1 := by
    intro h
    apply h1
    have : ((2 ^ eb - 1 : ℕ) : ℤ) = 2 ^ eb - 1 := by
      rw [Nat.cast_sub Nat.one_le_two_pow]; push_cast; rfl
    omega
  -- the float as a number with `fb` fraction bits
  set e : ℤ := ((fExp eb fb b : ℤ) - (2 ^ (eb - 1) - 1) - fb) + fb with he
  have hr : (⟨.regular, fSign eb fb b, e, fMan fb b⟩ : Unp).IsReg fb := ⟨rfl, hm⟩
  have hxr : (⟨.regular, fSign eb fb b, e, fMan fb b⟩ : Unp).val fb = x := by
    rw [val_eq, h3]
    have := mag_sub (F := fb) (e := e) (x := 2 ^ fb + fMan fb b) (by omega)
    rw [Nat.add_sub_cancel_left] at this
    rw [this, show e - fb = (fExp eb fb b : ℤ) - (2 ^ (eb - 1) - 1) - fb by rw [he]; ring]
    unfold sq
    push_cast
    rfl
  have hlog := log_val hr
  rw [hxr] at hlog
  refine ⟨_, hu, ⟨rfl, fracOf_lt hn2⟩, ?_, hlog.symm, ?_, ?_, ?_⟩
  · by_cases hc : fb ≤ F
    · have hreg : (⟨.regular, fSign eb fb b, e, fracOf F fb (2 ^ fb + fMan fb b)⟩ : Unp).IsReg F := ⟨rfl, fracOf_lt hn2⟩
      have hv : (⟨.regular, fSign eb fb b, e, fracOf F fb (2 ^ fb + fMan fb b)⟩ : Unp).val F = x := by
        rw [val_eq]
        simp only []
        rw [he, fracOf_exact (by omega) hc, h3]
        unfold sq
        push_cast
        rfl
      have := cutSig_val hreg (Nat.zero_le F)
      rw [Nat.sub_zero, hv] at this
      rw [this, hv, ← hv, val_eq]
      have hm2 := mag_sub (F := F) (e := e) (x := 2 ^ F + fracOf F fb (2 ^ fb + fMan fb b)) (by omega)
      rw [Nat.add_sub_cancel_left] at hm2
      simp only [hm2]
      simp
    · have := cutSig_val hr (Nat.sub_le fb F)
      rw [hxr, show fb + 1 - (fb - F) = F + 1 by omega, show fb - (fb - F) = F by omega] at this
      rw [this, val_eq]
      have hm2 := mag_sub (F := F) (e := e) (x := 2 ^ F + fracOf F fb (2 ^ fb + fMan fb b)) (by omega)
      rw [Nat.add_sub_cancel_left] at hm2
      simp only [hm2]
      unfold fracOf
      rw [if_neg hc, Nat.add_sub_cancel_left, Nat.cast_sub (by omega), show e + ((fb : ℤ) - F) - fb = e - F by ring]
  · simp only []; omega
  · simp only []; omega
  · by_cases hc : F ≤ fb
    · exact Or.inl hc
    · right
      simp only []
      unfold fracOf
      rw [if_pos (by omega)]
      exact dvd_mul_left _ _

/-- everything the tests compute of a normal float -/
theorem conv_core (h : c.WF) (hF : c.fb ≤ c.F) (heb : 2 ≤ eb) (heb30 : eb ≤ 30) (hfb : 1 ≤ fb) (hfb2 : c.fb ≤ fb)
    (hE : eb < c.E) (hE2 : 2 ^ (eb - 1) + fb ≤ 2 ^ (c.E - 1)) (hM : c.maxScale + 2 ≤ 2 ^ (eb - 1)) {b : ℕ} {x : ℚ}
    (hx : ieee eb fb b = .num x) (hn : (2 : ℚ) ^ ((2 : ℤ) - 2 ^ (eb - 1)) ≤ |x|) (hs : c.SafeMag x) :
    ∃ u v w fuf g, Unp.unpackFloat c.F c.E (.any eb fb true) b = .ok u ∧ u.IsReg c.F ∧ u.val c.F = cutSig (c.F + 1) x ∧
      Posit.pack c u = .ok v ∧ Posit.ofFloat c (.any eb fb true) b = .ok v ∧ c.fmt.IsTrunc x v ∧ c.fmt.IsTrunc (u.val c.F) v ∧
      Posit.unpack c v = .ok w ∧ w.IsReg c.F ∧ w.val c.F = c.fmt.val v ∧
      Unp.packFloat c.F c.E (.any eb fb true) u = .ok fuf ∧ ieee eb fb fuf = .num (u.val c.F) ∧
      Unp.packFloat c.F c.E (.any eb fb true) w = .ok g ∧ ieee eb fb g = .num (c.fmt.val v) ∧
      Posit.toFloat c (.any eb fb true) v = .ok g := by
  have hF1 : 1 ≤ c.F := by have := h.hF; omega
  have hpos : 0 < |x| := lt_of_lt_of_le (by positivity) hn
  obtain ⟨u, u1, u2, u3, u4, u5, u6, u7⟩ := read_cut (F := c.F) (E := c.E) heb heb30 hfb hF1 hE.le hx hn
  obtain ⟨v, v1, v2⟩ := C22_ofFloat_partial h heb heb30 hfb hE hE2 hx (abs_pos.mp hpos) (Or.inr ⟨hF, hn⟩) hs
  have hps : c.PackSafe u.exp := by
    rw [u4]
    have l1 := Int.zpow_log_le_self (b := 2) (by norm_num) hpos
    have l2 := Int.lt_zpow_succ_log_self (b := 2) (by norm_num) |x|
    push_cast at l1 l2
    have two : (1 : ℚ) < 2 := by norm_num
    refine ⟨hs.1.imp_left fun a => ?_, hs.2.imp_left fun a => ?_⟩
    · have := (zpow_lt_zpow_iff_right₀ two).mp (lt_of_le_of_lt a l2)
      omega
    · exact (zpow_lt_zpow_iff_right₀ two).mp (lt_of_le_of_lt l1 a)
  have ue : u = ⟨.regular, u.neg, u.exp, u.frac⟩ := by
    obtain ⟨t, n, e, f⟩ := u
    have : t = .regular := u2.1
    rw [this]
  obtain ⟨v', p1, p2⟩ := C03_pack_truncates_partial h u.neg u2.2 hps
  rw [← ue] at p1
  have hvv : v' = v := by
    unfold Posit.ofFloat at v1
    rw [u1] at v1
    simp only [bind, Except.bind] at v1
    rw [p1] at v1
    exact Except.ok.inj v1
  subst hvv
  have hv0 : v' ≠ 0 := by rcases v2.sign with a | a <;> omega
  obtain ⟨e, f, hu⟩ := unpack_real h v2.real hv0
  obtain ⟨fuf, f1, -, f2⟩ := C23_packFloat_partial (dn := true) (E := c.E) heb heb30 hfb hF1 (leastBits_max hE) (s := u.neg) u2.2 u5 u6 u7
  rw [← ue] at f1
  have hr := val_range h v2.real hv0 hM
  push_cast at hr
  obtain ⟨g, g1, -, g2⟩ := C23_toFloat_partial (dn := true) h hF heb heb30 hfb hfb2 (leastBits_max hE) v2.real hv0 hr.1 hr.2
  refine ⟨u, v', _, fuf, g, u1, u2, u3, p1, v1, v2, p2, hu.eq, ⟨rfl, hu.f_lt⟩, ?_, f1, f2, ?_, g2, g1⟩
  · rw [val_eq]
    have := (hu.sign_val hF v2.real hv0).symm
    unfold sq
    simpa using this
  · unfold Posit.toFloat at g1
    rw [hu.eq] at g1
    exact g1

/-- the posit a number is truncated to is the number if and only if the number is a posit -/
theorem trunc_exact {f : Format} {y : ℚ} {v : ℤ} (ht : f.IsTrunc y v) :
    f.val v = y ↔ ∃ w, f.IsReal w ∧ f.val w = y := by
  constructor
  · intro hv; exact ⟨v, ht.real, hv⟩
  · rintro ⟨w, hw, rfl⟩
    have hw0 : w ≠ 0 := by
      rintro rfl
      rcases ht.sign with ⟨-, a⟩ | ⟨-, a⟩ <;> simp [Format.val_zero] at a
    rw [ht.unique (Format.isTrunc_val hw hw0)]

theorem eq_reg {u w : Unp} (hu : u.IsReg F) (hw : w.IsReg F) : Unp.eq u w = true ↔ u.val F = w.val F := by
  constructor
  · intro h
    have hu1 := hu.1
    have hw1 := hw.1
    have : u = w := by
      obtain ⟨t, n, e, f⟩ := u
      obtain ⟨t', n', e', f'⟩ := w
      simp only at hu1 hw1
      subst hu1 hw1
      simp [Unp.eq] at h
      obtain ⟨a, b, d⟩ := h
      subst a b d
      rfl
    rw [this]
  · intro h
    rw [reg_inj hu hw h]
    simp [Unp.eq, hw.1]

theorem eq_self (h : c.WF) {v : ℤ} (hv : c.fmt.IsReal v) : Posit.eq c v v = true := by
  unfold Posit.eq
  rw [(real_not_special h hv).2]
  simp

theorem natEq_num {t : FTrait} {a b : ℕ} {p q : ℚ} (ha : ieee t.eb t.fb a = .num p) (hb : ieee t.eb t.fb b = .num q) :
    AnyFloat.natEq t a b = true ↔ p = q := by
  unfold AnyFloat.natEq
  rw [ha, hb]
  simp [AnyFloat.xEq]

/-- **C113**, the test "Conversions": for every normal float the second condition holds, the first holds exactly if the
float has no more significant bits than the fraction type plus one, the third exactly if the float so cut is a posit, the
fourth exactly if the float is a posit. Missing: subnormal floats (`C113_subnormal_wrong`), magnitudes at which `pack_posit`
is undefined, and exponent and fraction types too narrow for the float or the posit. -/
theorem C113_conversions_partial (h : c.WF) (hF : c.fb ≤ c.F) (heb : 2 ≤ eb) (heb30 : eb ≤ 30) (hfb : 1 ≤ fb)
    (hfb2 : c.fb ≤ fb) (hE : eb < c.E) (hE2 : 2 ^ (eb - 1) + fb ≤ 2 ^ (c.E - 1)) (hM : c.maxScale + 2 ≤ 2 ^ (eb - 1))
    {b : ℕ} {x : ℚ} (hx : ieee eb fb b = .num x) (hn : (2 : ℚ) ^ ((2 : ℤ) - 2 ^ (eb - 1)) ≤ |x|) (hs : c.SafeMag x) :
    ∃ p q r s, Posit.convTest c (.any eb fb true) b = .ok (p, q, r, s) ∧ (p = true ↔ cutSig (c.F + 1) x = x) ∧ q = true ∧
      (r = true ↔ ∃ v, c.fmt.IsReal v ∧ c.fmt.val v = cutSig (c.F + 1) x) ∧
      (s = true ↔ ∃ v, c.fmt.IsReal v ∧ c.fmt.val v = x) := by
  obtain ⟨u, v, w, fuf, g, u1, u2, u3, v1, v2, v3, v4, w1, w2, w3, f1, f2, g1, g2, -⟩ :=
    conv_core h hF heb heb30 hfb hfb2 hE hE2 hM hx hn hs
  refine ⟨AnyFloat.natEq (.any eb fb true) b fuf, Posit.eq c v v, Unp.eq w u, AnyFloat.natEq (.any eb fb true) g b, ?_, ?_, ?_, ?_, ?_⟩
  · unfold Posit.convTest
    simp only [u1, v2, f1, v1, w1, g1, bind, Except.bind]
    rfl
  · rw [natEq_num (t := .any eb fb true) hx f2, u3]
    exact eq_comm
  · exact eq_self h v3.real
  · rw [eq_reg w2 u2, w3, ← u3]
    exact trunc_exact v4
  · rw [natEq_num (t := .any eb fb true) g2 hx]
    exact trunc_exact v3

/-- `10.0` in the posit of tests/testposit.cpp:14 passes; `0.1f` in a 12-bit posit passes the first two conditions only -/
example : P28.WF ∧ P28.fb ≤ P28.F ∧ P28.fb ≤ 52 ∧ 11 < P28.E ∧ 2 ^ (11 - 1) + 52 ≤ 2 ^ (P28.E - 1) ∧
    P28.maxScale + 2 ≤ 2 ^ (11 - 1) ∧ P28.SafeMag 10 ∧ ieee 11 52 0x4024000000000000 = .num 10 ∧
    (2 : ℚ) ^ ((2 : ℤ) - 2 ^ (11 - 1)) ≤ |10| ∧
    Posit.convTest P28 .double 0x4024000000000000 = .ok (true, true, true, true) ∧
    Posit.convTest P12 .half 0x2e66 = .ok (true, true, false, false) := by
  refine ⟨by decide, by decide, by decide, by decide, by decide, by decide, by decide +kernel, by norm_num [ieee], ?_,
    by decide +kernel, by decide +kernel⟩
  have : (2 : ℚ) ^ ((2 : ℤ) - 2 ^ (11 - 1)) ≤ 2 ^ (0 : ℤ) := zpow_le_zpow_right₀ (by norm_num) (by norm_num)
  exact le_trans this (by norm_num)

/-- **C113**, the test "Special Conversion": its five conditions are the four of "Conversions", the last one twice. Missing:
as above. -/
theorem C113_special_conversion_partial (h : c.WF) (hF : c.fb ≤ c.F) (heb : 2 ≤ eb) (heb30 : eb ≤ 30) (hfb : 1 ≤ fb)
    (hfb2 : c.fb ≤ fb) (hE : eb < c.E) (hE2 : 2 ^ (eb - 1) + fb ≤ 2 ^ (c.E - 1)) (hM : c.maxScale + 2 ≤ 2 ^ (eb - 1))
    {b : ℕ} {x : ℚ} (hx : ieee eb fb b = .num x) (hn : (2 : ℚ) ^ ((2 : ℤ) - 2 ^ (eb - 1)) ≤ |x|) (hs : c.SafeMag x) :
    ∃ p q r s t, Posit.specialConv c (.any eb fb true) b = .ok (p, q, r, s, t) ∧ (p = true ↔ cutSig (c.F + 1) x = x) ∧
      q = true ∧ (r = true ↔ ∃ v, c.fmt.IsReal v ∧ c.fmt.val v = cutSig (c.F + 1) x) ∧
      (s = true ↔ ∃ v, c.fmt.IsReal v ∧ c.fmt.val v = x) ∧ (t = true ↔ ∃ v, c.fmt.IsReal v ∧ c.fmt.val v = x) := by
  obtain ⟨u, v, w, fuf, g, u1, u2, u3, v1, v2, v3, v4, w1, w2, w3, f1, f2, g1, g2, g3⟩ :=
    conv_core h hF heb heb30 hfb hfb2 hE hE2 hM hx hn hs
  have key : AnyFloat.natEq (.any eb fb true) g b = true ↔ ∃ v, c.fmt.IsReal v ∧ c.fmt.val v = x := by
    rw [natEq_num (t := .any eb fb true) g2 hx]
    exact trunc_exact v3
  refine ⟨AnyFloat.natEq (.any eb fb true) fuf b, Posit.eq c v v, Unp.eq w u, AnyFloat.natEq (.any eb fb true) g b,
    AnyFloat.natEq (.any eb fb true) g b, ?_, ?_, ?_, ?_, key, key⟩
  · unfold Posit.specialConv
    simp only [u1, v2, f1, v1, w1, g3, bind, Except.bind]
    rfl
  · rw [natEq_num (t := .any eb fb true) f2 hx, u3]
  · exact eq_self h v3.real
  · rw [eq_reg w2 u2, w3, ← u3]
    exact trunc_exact v4

/-- `-1.6e8`, the value of the test, in its posit -/
example : P32.WF ∧ P32.fb ≤ P32.F ∧ P32.fb ≤ 52 ∧ 11 < P32.E ∧ 2 ^ (11 - 1) + 52 ≤ 2 ^ (P32.E - 1) ∧
    P32.maxScale + 2 ≤ 2 ^ (11 - 1) ∧ P32.SafeMag (-160000000) ∧ ieee 11 52 0xc1a312d000000000 = .num (-160000000) ∧
    Posit.specialConv P32 .double 0xc1a312d000000000 = .ok (true, true, true, true, true) := by
  refine ⟨by decide, by decide, by decide, by decide, by decide, by decide, by decide +kernel, by norm_num [ieee],
    by decide +kernel⟩

/-- a posit is not changed by cutting it to the bits of the fraction type -/
theorem cut_posit (h : c.WF) (hF : c.fb ≤ c.F) {v : ℤ} (hv : c.fmt.IsReal v) (h0 : v ≠ 0) :
    cutSig (c.F + 1) (c.fmt.val v) = c.fmt.val v := by
  obtain ⟨e, f, hu⟩ := unpack_real h hv h0
  have hr : (⟨.regular, v < 0, e, f⟩ : Unp).IsReg c.F := ⟨rfl, hu.f_lt⟩
  have hval : (⟨.regular, v < 0, e, f⟩ : Unp).val c.F = c.fmt.val v := by
    rw [val_eq]
    have := (hu.sign_val hF hv h0).symm
    unfold sq
    simpa using this
  have := cutSig_val hr (Nat.zero_le c.F)
  rw [Nat.sub_zero, hval] at this
  rw [this, ← hval, val_eq]
  have hm2 := mag_sub (F := c.F) (e := e) (x := 2 ^ c.F + f) (by omega)
  rw [Nat.add_sub_cancel_left] at hm2
  simp only [hm2]
  simp

/-- **C113** fails for `checkfloat` of the program: as `!=` of `Unpacked` is `==` on numbers, it prints "ERROR fupu != fu"
exactly for the floats that are posits (after cutting to the fraction type) and "ERROR fupuf vs fup" exactly for all the
others, so an error for every normal float. "ERROR fuf vs f" is printed exactly if the float is not a `float` of 24 bits,
also for `T = double`, as the number is converted to `float`. -/
theorem C113_checkfloat_wrong (h : c.WF) (hF : c.fb ≤ c.F) (heb : 2 ≤ eb) (heb30 : eb ≤ 30) (hfb : 1 ≤ fb)
    (hfb2 : c.fb ≤ fb) (hE : eb < c.E) (hE2 : 2 ^ (eb - 1) + fb ≤ 2 ^ (c.E - 1)) (hM : c.maxScale + 2 ≤ 2 ^ (eb - 1))
    (h24 : 23 < c.F) (hE8 : 8 < c.E)
    {b : ℕ} {x : ℚ} (hx : ieee eb fb b = .num x) (hn : (2 : ℚ) ^ ((2 : ℤ) - 2 ^ (eb - 1)) ≤ |x|) (hs : c.SafeMag x)
    (hs1 : (2 : ℚ) ^ (-126 : ℤ) ≤ |x|) (hs2 : |x| < 2 ^ (128 : ℤ)) :
    ∃ p q r, Posit.checkfloat c (.any eb fb true) b = .ok (p, q, r) ∧ (p = true ↔ cutSig 24 (cutSig (c.F + 1) x) ≠ x) ∧
      (q = true ↔ ∃ v, c.fmt.IsReal v ∧ c.fmt.val v = cutSig (c.F + 1) x) ∧ r = !q := by
  obtain ⟨u, v, w, fuf, g, u1, u2, u3, v1, v2, v3, v4, w1, w2, w3, f1, f2, g1, g2, -⟩ :=
    conv_core h hF heb heb30 hfb hfb2 hE hE2 hM hx hn hs
  have hx0 : x ≠ 0 := by
    rintro rfl
    rw [abs_zero] at hn
    have : (0 : ℚ) < 2 ^ ((2 : ℤ) - 2 ^ (eb - 1)) := by positivity
    linarith
  have hcut := cutSig_below (m := c.F + 1) (by omega) hx0
  obtain ⟨k, k1, -, k2⟩ := pack_cut_narrow (eb := 8) (fb := 23) (by norm_num) (by norm_num) (by norm_num) h24 hE8 u2
    (by
      rw [u3]
      have := cutSig_ge (m := c.F + 1) (by omega) hs1
      unfold minNorm
      norm_num at this ⊢
      exact this)
    (by
      rw [u3]
      refine lt_of_le_of_lt hcut.2.1 (lt_of_lt_of_le hs2 (zpow_le_zpow_right₀ (by norm_num) (by norm_num))))
  have hq : Unp.ne w u = Unp.eq w u := by
    unfold Unp.ne
    rw [if_neg (by rw [w2.1, u2.1]; simp)]
  have hqv : Unp.eq w u = true ↔ ∃ v, c.fmt.IsReal v ∧ c.fmt.val v = cutSig (c.F + 1) x := by
    rw [eq_reg w2 u2, w3, ← u3]
    exact trunc_exact v4
  refine ⟨!AnyFloat.xEq (ieee eb fb b) (ieee 8 23 k), Unp.ne w u,
    !Unp.ne w u && !AnyFloat.natEq (.any eb fb true) g b, ?_, ?_, ?_, ?_⟩
  · unfold Posit.checkfloat
    rw [C51_traits.2.1]
    simp only [u1, k1, v1, w1, g1, bind, Except.bind]
    rfl
  · rw [hx, k2, u3]
    show (!decide (x = _)) = true ↔ _
    rw [Bool.not_eq_true', decide_eq_false_iff_not]
    exact not_congr eq_comm
  · rw [hq]; exact hqv
  · rw [hq]
    by_cases hc : Unp.eq w u = true
    · rw [hc]; rfl
    · have hg : ¬ AnyFloat.natEq (.any eb fb true) g b = true := by
        rw [natEq_num (t := .any eb fb true) g2 hx]
        intro hv
        apply hc
        rw [hqv]
        have hv0 : v ≠ 0 := by rcases v3.sign with a | a <;> omega
        refine ⟨v, v3.real, ?_⟩
        have := cut_posit h hF v3.real hv0
        rw [hv] at this
        rw [this, hv]
      rw [Bool.not_eq_true] at hc hg
      rw [hc, hg]
      rfl

/-- `1.0f` and `0.3` in the posit of src/main.cpp:7 -/
example : P32z.WF ∧ P32z.fb ≤ P32z.F ∧ 23 < P32z.F ∧ 8 < P32z.E ∧ P32z.fb ≤ 52 ∧ 11 < P32z.E ∧
    P32z.maxScale + 2 ≤ 2 ^ (11 - 1) ∧ P32z.SafeMag (3 / 10) ∧
    Posit.checkfloat P32z .single 0x3f800000 = .ok (false, true, false) ∧
    Posit.checkfloat P32z .double 0x3fd3333333333333 = .ok (true, false, true) := by
  refine ⟨by decide, by decide, by decide, by decide, by decide, by decide, by decide, by decide +kernel,
    by decide +kernel, by decide +kernel⟩

/-! ## zero, infinity and NaN -/

/-- **C113**, zeros pass. -/
theorem C113_zero (h : c.WF) (heb : 2 ≤ eb) (hfb : 1 ≤ fb) (hE : eb < c.E) {b : ℕ} (hx : ieee eb fb b = .num 0) :
    Posit.convTest c (.any eb fb true) b = .ok (true, true, true, true) := by
  have hF1 : 1 ≤ c.F := by have := h.hF; omega
  obtain ⟨z1, z2⟩ := ieee_num_zero hx
  obtain ⟨e, f, hu⟩ := unpackFloat_zero (F := c.F) (E := c.E) (dn := true) heb hfb hF1 hE z1 (Or.inr (by
    rw [z2]; unfold fracOf; simp))
  have ho := C22_zero (dn := true) h heb hfb hE z1 z2
  have hr : c.fmt.IsReal 0 := by unfold Format.IsReal; omega
  have hp : ∀ u : Unp, u.ty = .zero → Unp.packFloat c.F c.E (.any eb fb true) u = .ok 0 := by
    rintro ⟨t, n, e, f⟩ ht
    simp only at ht
    subst ht
    rfl
  have h0 : ieee eb fb 0 = .num 0 := by
    have := Nat.pow_le_pow_right (n := 2) (by norm_num) heb
    simp [ieee]; omega
  have hn : AnyFloat.natEq (.any eb fb true) b 0 = true := (natEq_num (t := .any eb fb true) hx h0).mpr rfl
  have hn' : AnyFloat.natEq (.any eb fb true) 0 b = true := (natEq_num (t := .any eb fb true) h0 hx).mpr rfl
  unfold Posit.convTest
  simp only [hu, ho, hp ⟨.zero, false, e, f⟩ rfl, (C03_pack_special h false e f).1, unpack_zero h, hp ⟨.zero, false, 0, 0⟩ rfl,
    bind, Except.bind, hn, hn', eq_self h hr]
  rfl

/-- `-0.0` -/
example : P28.WF ∧ 11 < P28.E ∧ ieee 11 52 0x8000000000000000 = .num 0 := by
  refine ⟨by decide, by decide, by norm_num [ieee]⟩

theorem packFloat_inf (heb : 2 ≤ eb) (hfb : 1 ≤ fb) {u : Unp} (hu : u.ty = .infinity) :
    ∃ k, Unp.packFloat F E (.any eb fb true) u = .ok k ∧ ieee eb fb k = .inf u.neg := by
  obtain ⟨_, _, _, _, _, c6, c7, -⟩ := C51_constants (dn := true) heb hfb
  obtain ⟨t, n, e, f⟩ := u
  simp only at hu
  subst hu
  refine ⟨if n then (FTrait.any eb fb true).ninf else (FTrait.any eb fb true).pinf, rfl, ?_⟩
  cases n
  · simpa using c6
  · simpa using c7

theorem packFloat_nan (heb : 2 ≤ eb) (hfb : 1 ≤ fb) {u : Unp} (hu : u.ty = .nan) :
    ∃ k, Unp.packFloat F E (.any eb fb true) u = .ok k ∧ ieee eb fb k = .nan := by
  obtain ⟨_, _, _, _, _, _, _, c8⟩ := C51_constants (dn := true) heb hfb
  obtain ⟨t, n, e, f⟩ := u
  simp only at hu
  subst hu
  exact ⟨_, rfl, c8⟩

theorem natEq_nan {t : FTrait} {a b : ℕ} (h : ieee t.eb t.fb a = .nan ∨ ieee t.eb t.fb b = .nan) : AnyFloat.natEq t a b = false := by
  unfold AnyFloat.natEq
  rcases h with h | h <;> rw [h]
  · rfl
  · cases ieee t.eb t.fb a <;> rfl

theorem natEq_inf {t : FTrait} {a b : ℕ} {s r : Bool} (ha : ieee t.eb t.fb a = .inf s) (hb : ieee t.eb t.fb b = .inf r) :
    AnyFloat.natEq t a b = decide (s = r) := by
  unfold AnyFloat.natEq
  rw [ha, hb]
  rfl

theorem isNaN_top (h : c.WF) : Posit.isNaN c c.topPat = decide (c.spec ≠ .withInf) := by
  unfold Posit.isNaN
  rw [h.nan_eq]
  unfold Cfg.topPat
  simp

/-- **C113**, infinities: a format with two infinities passes all conditions; a format with one infinity passes the last two
for negative infinity only, as it is read back as negative; a format without fails all but the first, also `fp == fup`, as
both are NaN. So the test "Conversions" as written, with `INFINITY` in its list and a `WithNan` posit
(tests/testposit.cpp:14), cannot pass. -/
theorem C113_infinity (h : c.WF) (heb : 2 ≤ eb) (hfb : 1 ≤ fb) (hE : eb < c.E) {b : ℕ} {s : Bool} (hy : ieee eb fb b = .inf s) :
    Posit.convTest c (.any eb fb true) b = .ok (match c.spec with
      | .withNanInf => (true, true, true, true)
      | .withInf => (true, true, s, s)
      | .withNan => (true, false, false, false)) := by
  have hF1 : 1 ≤ c.F := by have := h.hF; omega
  have ho := C22_inf (dn := true) h heb hfb hE hy
  have hy' := hy
  rw [ieee_eq] at hy'
  split_ifs at hy' with h1 h2 h3
  obtain ⟨e, hu⟩ := unpackFloat_special (F := c.F) (E := c.E) (dn := true) heb hfb hF1 hE h1
  have hz : fracOf c.F fb (2 ^ fb + fMan fb b) = 0 := by rw [h2]; unfold fracOf; simp
  have hss : fSign eb fb b = s := XNum.inf.inj hy'
  rw [hz, if_pos rfl, hss] at hu
  obtain ⟨k, k1, k2⟩ := packFloat_inf (F := c.F) (E := c.E) heb hfb (u := ⟨.infinity, s, e, 0⟩) rfl
  have hk : AnyFloat.natEq (.any eb fb true) b k = true := by
    rw [natEq_inf (t := .any eb fb true) hy k2]; simp
  have hp : Posit.pack c ⟨.infinity, s, e, 0⟩ = .ok (c.infPat s) := by
    rw [(C03_pack_special h s e 0).2.2]; rfl
  obtain ⟨i1, i2⟩ := C01_unpack_inf h
  have hg := h.pow_ge
  have core : ∀ n, Posit.unpack c (c.infPat s) = .ok (Unp.ofTy .infinity n) → Posit.convTest c (.any eb fb true) b =
      .ok (true, Posit.eq c (c.infPat s) (c.infPat s), decide (n = s), decide (n = s)) := by
    intro n hn
    obtain ⟨l, l1, l2⟩ := packFloat_inf (F := c.F) (E := c.E) heb hfb (u := Unp.ofTy .infinity n) rfl
    have hl := natEq_inf (t := .any eb fb true) l2 hy
    have he : Unp.eq (Unp.ofTy .infinity n) ⟨.infinity, s, e, 0⟩ = decide (n = s) := by
      cases n <;> cases s <;> rfl
    unfold Posit.convTest
    simp only [hu, ho, k1, hp, hn, l1, bind, Except.bind, hk, hl, he]
    rfl
  rcases hsp : c.spec with _ | _ | _
  · have hi : c.infPat s = c.topPat := by unfold Cfg.infPat; simp [hsp]
    have hn := unpack_top h (by rw [hsp]; simp)
    obtain ⟨l, l1, l2⟩ := packFloat_nan (F := c.F) (E := c.E) heb hfb (u := Unp.ofTy .nan) rfl
    have hl := natEq_nan (t := .any eb fb true) (b := b) (Or.inl l2)
    have he : Posit.eq c c.topPat c.topPat = false := by
      unfold Posit.eq Cfg.withnan
      rw [isNaN_top h, hsp]; rfl
    rw [hi] at ho hp
    unfold Posit.convTest
    simp only [hu, ho, k1, hp, hn, l1, bind, Except.bind, hk, hl, he]
    rfl
  · have hi : c.infPat s = c.topPat := by unfold Cfg.infPat; simp [hsp]
    have he : Posit.eq c c.topPat c.topPat = true := by
      unfold Posit.eq Cfg.withnan
      rw [hsp]; simp
    rw [core true (by rw [hi]; exact i1 hsp), hi, he]
    cases s <;> rfl
  · have he : Posit.eq c (c.infPat s) (c.infPat s) = true := by
      have hn : Posit.isNaN c (c.infPat s) = false := by
        unfold Posit.isNaN Cfg.infPat
        rw [h.nan_eq, hsp]
        simp only [if_true, Bool.and_eq_false_iff, decide_eq_false_iff_not]
        right
        split_ifs <;> omega
      unfold Posit.eq
      rw [hn]; simp
    rw [core s (by
      unfold Cfg.infPat
      rw [hsp]
      cases s
      · exact (i2 hsp).1
      · exact (i2 hsp).2), he]
    simp

/-- both infinities in the posit of the test and in one with infinities -/
example : P28.WF ∧ 11 < P28.E ∧ P60.WF ∧ 11 < P60.E ∧ P16.WF ∧ 11 < P16.E ∧
    ieee 11 52 0x7ff0000000000000 = .inf false ∧ ieee 11 52 0xfff0000000000000 = .inf true ∧
    Posit.convTest P28 .double 0x7ff0000000000000 = .ok (true, false, false, false) ∧
    Posit.convTest P16 .double 0x7ff0000000000000 = .ok (true, true, false, false) ∧
    Posit.convTest P60 .double 0x7ff0000000000000 = .ok (true, true, true, true) := by
  refine ⟨by decide, by decide, by decide, by decide, by decide, by decide, by norm_num [ieee], by norm_num [ieee],
    by decide +kernel, by decide +kernel, by decide +kernel⟩

/-- **C113**, NaNs never pass: the first and the last condition fail. -/
theorem C113_nan (h : c.WF) (heb : 2 ≤ eb) (hfb : 1 ≤ fb) (hE : eb < c.E) {b : ℕ} (hy : ieee eb fb b = .nan) :
    ∃ q r, Posit.convTest c (.any eb fb true) b = .ok (false, q, r, false) := by
  have hF1 : 1 ≤ c.F := by have := h.hF; omega
  have hy' := hy
  rw [ieee_eq] at hy'
  split_ifs at hy' with h1 h2 h3
  obtain ⟨e, hu⟩ := unpackFloat_special (F := c.F) (E := c.E) (dn := true) heb hfb hF1 hE h1
  obtain ⟨i1, i2⟩ := C01_unpack_inf h
  have htop : ∃ w, Posit.unpack c c.topPat = .ok w ∧ (w.ty = .nan ∨ w.ty = .infinity) := by
    by_cases hs : c.spec = .withInf
    · exact ⟨_, i1 hs, Or.inr rfl⟩
    · exact ⟨_, unpack_top h hs, Or.inl rfl⟩
  generalize hf : fracOf c.F fb (2 ^ fb + fMan fb b) = f at hu
  generalize fSign eb fb b = s at hu
  have hpk : ∃ v w, Posit.pack c ⟨if f = 0 then .infinity else .nan, s, e, f⟩ = .ok v ∧ Posit.unpack c v = .ok w ∧
      (w.ty = .nan ∨ w.ty = .infinity) := by
    obtain ⟨-, p1, p2⟩ := C03_pack_special h s e f
    obtain ⟨w, w1, w2⟩ := htop
    split_ifs with hz
    · by_cases hs : c.spec = .withNanInf
      · rw [if_pos hs] at p2
        cases s
        · exact ⟨_, _, p2, (i2 hs).1, Or.inr rfl⟩
        · exact ⟨_, _, p2, (i2 hs).2, Or.inr rfl⟩
      · rw [if_neg hs] at p2
        exact ⟨_, w, p2, w1, w2⟩
    · exact ⟨_, w, p1, w1, w2⟩
  obtain ⟨v, w, hv, hw, hwt⟩ := hpk
  have hpf : ∀ u : Unp, u.ty = .nan ∨ u.ty = .infinity → ∃ k, Unp.packFloat c.F c.E (.any eb fb true) u = .ok k := by
    rintro u (ht | ht)
    · obtain ⟨k, hk, -⟩ := packFloat_nan (F := c.F) (E := c.E) heb hfb ht
      exact ⟨k, hk⟩
    · obtain ⟨k, hk, -⟩ := packFloat_inf (F := c.F) (E := c.E) heb hfb ht
      exact ⟨k, hk⟩
  obtain ⟨k, k1⟩ := hpf ⟨if f = 0 then .infinity else .nan, s, e, f⟩ (by
    simp only []
    split_ifs <;> simp)
  obtain ⟨l, l1⟩ := hpf w hwt
  have ho : Posit.ofFloat c (.any eb fb true) b = .ok v := by
    unfold Posit.ofFloat
    rw [hu]; exact hv
  refine ⟨Posit.eq c v v, Unp.eq w ⟨if f = 0 then .infinity else .nan, s, e, f⟩, ?_⟩
  unfold Posit.convTest
  simp only [hu, ho, k1, hv, hw, l1, bind, Except.bind, natEq_nan (t := .any eb fb true) (b := k) (Or.inl hy),
    natEq_nan (t := .any eb fb true) (a := l) (Or.inr hy)]
  rfl

example : P28.WF ∧ 11 < P28.E ∧ ieee 11 52 0x7ff8000000000000 = .nan ∧
    Posit.convTest P28 .double 0x7ff8000000000000 = .ok (false, false, false, false) := by
  refine ⟨by decide, by decide, by norm_num [ieee], by decide +kernel⟩

/-- **C113** fails for subnormal floats: in a posit whose fraction type holds every bit of the float, `f == fuf` fails as
the number is packed to zero. The half `2^-24` is a posit of this format. -/
theorem C113_subnormal_wrong : P16.fb ≤ P16.F ∧ 10 < P16.F ∧ ieee 5 10 1 = .num (1 / 2 ^ 24) ∧ P16.fmt.IsReal 256 ∧
    P16.fmt.val 256 = 1 / 2 ^ 24 ∧ Posit.ofFloat P16 .half 1 = .ok 256 ∧
    Posit.convTest P16 .half 1 = .ok (false, true, true, false) := by
  refine ⟨by decide, by decide, by norm_num [ieee], by decide +kernel, ?_, ?_, by decide +kernel⟩
  · decide +kernel
  · decide +kernel

end Verif
