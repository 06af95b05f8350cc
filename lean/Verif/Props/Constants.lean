import Verif.Lemmas.Unit
import Verif.Props.Step
import Verif.Props.Arith
import Verif.Spec.Special

/-!
# Constants and helpers: C19 (named constants), C40 (`numeric_limits`), C25 (unit range), C26 (`pseudosigmoid`),
C27 (`sqrt`), C45 (`FLOORDIV`), C46 (regime/exponent split)
-/

namespace Verif
open Fmt

variable {c : Cfg}

theorem natCast_pow2 (n : ℕ) : (2 : ℤ) ^ n = ((2 ^ n : ℕ) : ℤ) := by push_cast; rfl

/-! ## C19 -/

/-- **C19**, `zero()`, `one()`, `mone()`: the values 0, 1 and -1. -/
theorem C19_zero_one (h : c.WF) :
    (c.fmt.IsReal 0 ∧ c.fmt.val 0 = 0) ∧ (c.fmt.IsReal c.one ∧ c.fmt.val c.one = 1) ∧
    (c.fmt.IsReal c.mone ∧ c.fmt.val c.mone = -1) := by
  obtain ⟨h1, -⟩ := one_real h
  have hm : c.mone = -c.one := by rw [mone_eq h, one_eq h]
  exact ⟨⟨by rw [isReal_bounds]; omega, Format.val_zero⟩, ⟨h1, val_one h⟩,
    by rw [hm]; exact h1.neg, by rw [hm, Format.val_neg, val_one h]⟩

example : P60.WF ∧ P60.one = 2 ^ 58 ∧ P60.mone = -(2 ^ 58) := by decide +kernel

/-- **C19**, `iszero()`, `isone()`, `isnegative()`: right for every real. -/
theorem C19_predicates (h : c.WF) {v : ℤ} (hv : c.fmt.IsReal v) :
    (Posit.isZero v = true ↔ c.fmt.val v = 0) ∧ (Posit.isOne c v = true ↔ c.fmt.val v = 1) ∧
    (Posit.isNegative v = true ↔ c.fmt.val v < 0) := by
  obtain ⟨⟨z1, z2⟩, ⟨o1, o2⟩, -⟩ := C19_zero_one h
  unfold Posit.isZero Posit.isOne Posit.isNegative
  refine ⟨?_, ?_, ?_⟩
  · rw [decide_eq_true_eq, ← z2, Format.val_inj hv.inRange z1.inRange]
  · rw [decide_eq_true_eq, ← o2, Format.val_inj hv.inRange o1.inRange]
  · rw [decide_eq_true_eq, Format.val_neg_iff hv.inRange]

example : P60.WF ∧ P60.fmt.IsReal (2 ^ 58) ∧ Posit.isOne P60 (2 ^ 58) = true ∧ Posit.isOne P60 (2 ^ 58 + 1) = false := by decide +kernel

/-- **C19**, `two()`: the value 2, except in the three-bit format with two infinities, where `two()` is infinity. -/
theorem C19_two_partial (h : c.WF) (hn : c.spec = .withNanInf → 4 ≤ c.N) :
    c.fmt.IsReal c.two ∧ c.fmt.val c.two = 2 := by
  have hN3 := h.N_ge
  obtain ⟨e1, e2, e3⟩ := pow_split h
  have hle : 2 ^ (c.N - 3 - c.es) ≤ 2 ^ (c.N - 3) := Nat.pow_le_pow_right (by norm_num) (by omega)
  have h1 := Nat.one_le_two_pow (n := c.N - 3)
  have h1' := Nat.one_le_two_pow (n := c.N - 3 - c.es)
  clear e3
  rw [two_eq h, natCast_pow2, natCast_pow2, ← Nat.cast_add]
  refine ⟨?_, ?_⟩
  · rw [isReal_bounds]
    have : 2 ^ (c.N - 2) + 2 ^ (c.N - 3 - c.es) ≤ c.fmt.maxBody := by
      unfold Format.maxBody
      simp only [Cfg.fmt]
      by_cases hs : c.spec = .withNanInf
      · have hN4 := hn hs
        have h2 : 2 ^ 1 ≤ 2 ^ (c.N - 3) := Nat.pow_le_pow_right (by norm_num) (by omega)
        simp only [hs, decide_true, if_true]; omega
      · simp only [hs, decide_false, Bool.false_eq_true, if_false]; omega
    omega
  · rw [Format.val_natCast (by omega)]
    exact posVal_two h

example : P28.WF ∧ P28.spec ≠ .withNanInf ∧ P28.two = 2 ^ 26 + 2 ^ 20 ∧
    Posit.isInfinity ⟨8, 3, 0, 8, .withNanInf⟩ (Cfg.two ⟨8, 3, 0, 8, .withNanInf⟩) = true := by decide +kernel

/-- **C19**, `onehalf()`: the value 1/2 exactly if the posit fills its holder (`N = H`). -/
theorem C19_half (h : c.WF) : (c.fmt.IsReal c.half ∧ c.fmt.val c.half = 1 / 2) ↔ c.N = c.H := by
  have hN := h.hN
  have hN3 := h.N_ge
  obtain ⟨e1, e2, e3⟩ := pow_split h
  have hle : 2 ^ (c.N - 3 - c.es) ≤ 2 ^ (c.N - 3) := Nat.pow_le_pow_right (by norm_num) (by omega)
  have h1 := Nat.one_le_two_pow (n := c.N - 3)
  have h1' := Nat.one_le_two_pow (n := c.N - 3 - c.es)
  have hmb := maxBody_ge h
  clear e3
  rw [half_eq h]
  constructor
  · rintro ⟨hr, hv⟩
    by_contra hne
    have hlt : c.fmt.val (2 ^ (c.H - 2) - 2 ^ (c.N - 3 - c.es)) < c.fmt.val c.one := by
      rw [hv, val_one h]; norm_num
    rw [Format.val_lt_iff hr.inRange (one_real h).1.inRange, one_eq h] at hlt
    have hge : 2 ^ (c.N - 1) ≤ 2 ^ (c.H - 2) := Nat.pow_le_pow_right (by norm_num) (by omega)
    simp only [natCast_pow2] at hlt
    omega
  · intro he
    have e4 : (2 : ℤ) ^ (c.H - 2) - 2 ^ (c.N - 3 - c.es) = ((2 ^ (c.N - 2) - 2 ^ (c.N - 3 - c.es) : ℕ) : ℤ) := by
      rw [← he, Nat.cast_sub (by omega)]; push_cast; rfl
    rw [e4]
    refine ⟨by rw [isReal_bounds]; omega, ?_⟩
    rw [Format.val_natCast (by omega)]
    exact posVal_half h

example : P8.WF ∧ P8.N = P8.H ∧ P8.half = 32 ∧ P12.WF ∧ P12.N ≠ P12.H ∧ P12.half = 16128 ∧
    ¬ P12.fmt.IsCanonical 16128 := by decide +kernel

/-- **C19**, `max()`, `min()`, `lowest()`: the greatest, the least positive and the least real posit. -/
theorem C19_limits (h : c.WF) :
    (c.fmt.IsReal c.maxpos ∧ ∀ w, c.fmt.IsReal w → c.fmt.val w ≤ c.fmt.val c.maxpos) ∧
    (c.fmt.IsReal c.minneg ∧ ∀ w, c.fmt.IsReal w → c.fmt.val c.minneg ≤ c.fmt.val w) ∧
    (c.fmt.IsReal c.after0 ∧ 0 < c.fmt.val c.after0 ∧
      ∀ w, c.fmt.IsReal w → 0 < c.fmt.val w → c.fmt.val c.after0 ≤ c.fmt.val w) := by
  have h1 := one_le_maxBody h
  have a1 : c.fmt.IsReal c.maxpos := by rw [maxpos_eq h, isReal_bounds]; omega
  have a2 : c.fmt.IsReal c.minneg := by rw [minneg_eq h, isReal_bounds]; omega
  have a3 : c.fmt.IsReal c.after0 := by unfold Cfg.after0; rw [isReal_bounds]; omega
  refine ⟨⟨a1, fun w hw => ?_⟩, ⟨a2, fun w hw => ?_⟩, a3, ?_, fun w hw hp => ?_⟩
  · rw [Format.val_le_iff hw.inRange a1.inRange, maxpos_eq h]; exact hw.2
  · rw [Format.val_le_iff a2.inRange hw.inRange, minneg_eq h]; exact hw.1
  · rw [Format.val_pos_iff a3.inRange]; unfold Cfg.after0; norm_num
  · rw [Format.val_pos_iff hw.inRange] at hp
    rw [Format.val_le_iff a3.inRange hw.inRange]; unfold Cfg.after0; omega

example : P8i.WF ∧ P8i.maxpos = 126 ∧ P8i.minneg = -126 ∧ P8i.fmt.val 126 = 2 ^ 20 := by decide +kernel

/-- **C19**, `nan()` and `pinf()`/`ninf()`: recognised as NaN and infinity in the formats that have them. -/
theorem C19_special (h : c.WF) :
    (c.spec ≠ .withInf → Posit.isNaN c c.nan = true) ∧
    (c.spec ≠ .withNan → Posit.isInfinity c c.pinf = true ∧ Posit.isInfinity c c.ninf = true) ∧
    (c.spec = .withNanInf → c.pinf = c.infPat false ∧ c.ninf = c.infPat true) ∧
    (∀ v, c.fmt.IsReal v → Posit.isNaN c v = false ∧ Posit.isInfinity c v = false) := by
  refine ⟨fun hs => by simp [Posit.isNaN, hs], fun hs => by simp [Posit.isInfinity, hs], fun hs => ?_,
    fun v hv => ⟨(real_not_special h hv).2, (real_not_special h hv).1⟩⟩
  rw [h.pinf_eq, h.ninf_eq]
  simp [Cfg.infPat, hs]

example : P8i.WF ∧ P8i.spec = .withNanInf ∧ P8i.pinf = 127 ∧ P8i.ninf = -127 ∧ P8i.nan = -128 := by decide +kernel

/-- **C19** is false as stated: `onehalf()` of the 12-bit posit in a 16-bit holder is not a 12-bit pattern. -/
theorem C19_not_always : P12.WF ∧ ¬ P12.fmt.IsReal P12.half ∧ Posit.unpack P12 P12.half ≠ Posit.unpack P12 0x300 ∧
    P12.fmt.val 0x300 = 1 / 2 := by decide +kernel

/-! ## C40 -/

/-- magnitudes from `2^-fb` up to 4 are safe -/
theorem safeMag_near_one (h : c.WF) {y : ℚ} (h1 : (2 : ℚ) ^ (-(c.fb : ℤ)) ≤ |y|) (h2 : |y| < 4) : c.SafeMag y := by
  have hN := h.hN
  have hN3 := h.N_ge
  have hes := h.hes
  have hp := Nat.one_le_two_pow (n := c.es)
  have hpw := le_pw c.H
  have hpw32 := le_pw32 c.H
  have hQ : c.fb ≤ pw c.H - 3 - (if c.N < pw c.H then 0 else c.es) ∧
      2 ≤ pw c.H - 3 - (if c.N < pw c.H then 0 else c.es) := by
    have hfb : c.fb = c.N - 3 - c.es := rfl
    split_ifs with hlt
    · omega
    · have hHN : c.N = pw c.H := by omega
      have hH : c.H = 32 := by
        have := h.hH
        have := h.h64
        unfold pw at *
        omega
      have hsc := h.hscale (by omega)
      have hN32 : c.N = 32 := by rw [hHN, hH]; rfl
      have hes27 : c.es ≤ 26 := by
        by_contra hc
        have : 2 ^ 27 ≤ 2 ^ c.es := Nat.pow_le_pow_right (by norm_num) (by omega)
        rw [hN32] at hsc
        omega
      omega
  obtain ⟨q1, q2⟩ := hQ
  have hpb : c.fb ≤ c.packBound ∧ 2 ≤ c.packBound := by
    unfold Cfg.packBound
    generalize pw c.H - 3 - (if c.N < pw c.H then 0 else c.es) = Q at *
    have : 1 * Q ≤ 2 ^ c.es * Q := Nat.mul_le_mul_right _ hp
    omega
  refine ⟨Or.inl (le_trans ?_ h1), Or.inl (lt_of_lt_of_le h2 ?_)⟩
  · exact zpow_le_zpow_right₀ (by norm_num) (by omega)
  · have : (2 : ℚ) ^ (2 : ℤ) ≤ 2 ^ (c.packBound : ℤ) := zpow_le_zpow_right₀ (by norm_num) (by omega)
    norm_num at this ⊢
    exact this

/-- **C40**, `epsilon()`: the distance from one to the next posit, itself a posit. Excluded: the three-bit format with two
infinities (where one is the greatest posit) and fraction types without a spare bit. -/
theorem C40_epsilon_partial (h : c.WF) (hF : c.fb + 3 ≤ c.F) (hsm : c.F < 32 ∨ c.fb + 4 ≤ c.F)
    (hn : c.spec = .withNanInf → 4 ≤ c.N) :
    ∃ n v, c.fmt.IsSucc c.one n ∧ Posit.epsilon c = .ok v ∧ c.fmt.IsReal v ∧
      c.fmt.val v = c.fmt.val n - 1 ∧ c.fmt.val v = 2 ^ (-(c.fb : ℤ)) := by
  have hN3 := h.N_ge
  obtain ⟨e1, e2, -⟩ := pow_split h
  have h1 := Nat.one_le_two_pow (n := c.N - 3)
  have h1r := (one_real h).1
  have hmax : 2 ^ (c.N - 2) + 1 ≤ c.fmt.maxBody := by
    unfold Format.maxBody
    simp only [Cfg.fmt]
    by_cases hs : c.spec = .withNanInf
    · have hN4 := hn hs
      have h2 : 2 ^ 1 ≤ 2 ^ (c.N - 3) := Nat.pow_le_pow_right (by norm_num) (by omega)
      simp only [hs, decide_true, if_true]; omega
    · simp only [hs, decide_false, Bool.false_eq_true, if_false]; omega
  have hone : c.one = ((2 ^ (c.N - 2) : ℕ) : ℤ) := by rw [one_eq h, natCast_pow2]
  have hnr : c.fmt.IsReal (c.one + 1) := by rw [hone, isReal_bounds]; omega
  have hnext : Posit.next c c.one = .ok (c.one + 1) := next_inside h (by rw [hone]; omega) (by rw [hone]; omega)
  have hval : c.fmt.val (c.one + 1) = 1 + 2 ^ (-(c.fb : ℤ)) := by
    rw [hone, ← Nat.cast_one, ← Nat.cast_add, Format.val_natCast (by omega)]
    exact posVal_one_succ h
  obtain ⟨p, hp1, hp2, hpv⟩ := eps_repr h
  have hpr : c.fmt.IsReal (p : ℤ) := by rw [isReal_bounds]; omega
  have hpe : c.fmt.val (p : ℤ) = 2 ^ (-(c.fb : ℤ)) := by rw [Format.val_natCast hp1]; exact hpv
  have hle1 : (2 : ℚ) ^ (-(c.fb : ℤ)) ≤ 1 := zpow_le_one_of_nonpos₀ (by norm_num) (by omega)
  have hpos : (0 : ℚ) < 2 ^ (-(c.fb : ℤ)) := by positivity
  have hsafe : c.AddSafe (c.fmt.val (c.one + 1)) (-c.fmt.val c.one) := by
    rw [hval, val_one h]
    have a1 : |1 + (2 : ℚ) ^ (-(c.fb : ℤ))| = 1 + 2 ^ (-(c.fb : ℤ)) := abs_of_pos (by linarith)
    right; right
    refine ⟨?_, Or.inr ⟨by linarith, hsm, ?_, ?_, Or.inr ?_⟩⟩
    · rw [abs_neg, abs_one, a1]
      have b1 : (0 : ℤ) ≤ Int.log 2 (1 + (2 : ℚ) ^ (-(c.fb : ℤ))) :=
        (Int.zpow_le_iff_le_log (by norm_num) (by linarith)).mp (by norm_num)
      have b2 : Int.log 2 (1 + (2 : ℚ) ^ (-(c.fb : ℤ))) < 2 :=
        (Int.lt_zpow_iff_log_lt (by norm_num) (by linarith)).mp (by
          have : ((2 : ℕ) : ℚ) ^ (2 : ℤ) = 4 := by norm_num
          rw [this]; linarith)
      have b3 : Int.log 2 (1 : ℚ) = 0 := Int.log_one_right 2
      have := le_pw32 c.F
      rw [b3, abs_lt]; omega
    · exact safeMag_near_one h (by rw [a1]; linarith) (by rw [a1]; linarith)
    · exact safeMag_near_one h (by rw [abs_neg, abs_one]; exact hle1) (by rw [abs_neg, abs_one]; norm_num)
    · have a2 : 1 + (2 : ℚ) ^ (-(c.fb : ℤ)) + -1 = 2 ^ (-(c.fb : ℤ)) := by ring
      rw [a2]
      exact safeMag_near_one h (by rw [abs_of_pos hpos]) (by rw [abs_of_pos hpos]; linarith)
  obtain ⟨v, hv1, -, -, hv4⟩ := C11_sub_partial h hF hnr h1r hsafe
  have hvp := hv4 p hpr (by rw [hpe, hval, val_one h]; ring)
  subst hvp
  refine ⟨c.one + 1, p, ⟨hnr, ?_, fun u hu hlt => ?_⟩, ?_, hpr, ?_, hpe⟩
  · rw [Format.val_lt_iff h1r.inRange hnr.inRange]; omega
  · rw [Format.val_lt_iff h1r.inRange hu.inRange] at hlt
    rw [Format.val_le_iff hnr.inRange hu.inRange]; omega
  · unfold Posit.epsilon
    rw [hnext]
    exact hv1
  · rw [hpe, hval]; ring

example : P32.WF ∧ P32.fb + 3 ≤ P32.F ∧ P32.fb + 4 ≤ P32.F ∧ P32.spec ≠ .withNanInf ∧
    Posit.epsilon P32 = .ok 117440512 ∧ P32.fmt.val 117440512 = 1 / 2 ^ 26 := by decide +kernel

/-- **C40**: `min_exponent` and `max_exponent` are the exponents of `min()` and `max()` (for a 64-bit holder: if they fit
in an `int`). -/
theorem C40_exponents (h : c.WF) (hi : c.H = 64 → c.maxScale < 2 ^ 31) :
    c.fmt.val c.after0 = 2 ^ Posit.minExponent c ∧ c.fmt.val c.maxpos = 2 ^ Posit.maxExponent c := by
  have htop := topExp_le h
  have htop0 := topExp_nonneg h
  have hb : c.maxScale < 2 ^ 31 := by
    by_cases h64 : c.H = 64
    · exact hi h64
    · exact h.hscale (by have := h.hH; omega)
  have hmax : c.maxexponent = c.topExp := by rw [maxexponent_eq h]; rfl
  unfold Posit.minExponent Posit.maxExponent
  rw [minexponent_eq h, hmax, wrapS_of_inS (by norm_num) (by unfold InS; omega),
    wrapS_of_inS (by norm_num) (by unfold InS; omega), maxpos_eq h, Format.val_natCast (one_le_maxBody h)]
  refine ⟨?_, posVal_maxBody h⟩
  unfold Cfg.after0
  rw [show (1 : ℤ) = ((1 : ℕ) : ℤ) by norm_num, Format.val_natCast le_rfl]
  exact posVal_one h

example : P60.WF ∧ P60.maxScale < 2 ^ 31 ∧ Posit.minExponent P60 = -232 ∧ Posit.maxExponent P60 = 228 := by
  decide +kernel

/-- **C40**: `has_quiet_NaN` tells whether the format has a NaN, and `quiet_NaN()` is it. -/
theorem C40_nan (c : Cfg) : (Posit.hasQuietNaN c = true ↔ ∃ v, Posit.isNaN c v = true) ∧
    (Posit.hasQuietNaN c = true → Posit.isNaN c (Posit.limNaN c) = true) := by
  unfold Posit.hasQuietNaN Posit.isNaN Posit.limNaN
  refine ⟨⟨fun h => ⟨c.nan, by simpa using h⟩, fun ⟨v, hv⟩ => ?_⟩, fun h => by simpa using h⟩
  simp at hv ⊢; exact hv.1

example : Posit.hasQuietNaN P8 = true ∧ Posit.hasQuietNaN P16 = false := by decide

/-- **C40** fails for the infinity of the formats without one: `has_infinity` is true for every posit, but for `WithNan`
no pattern is an infinity and `infinity()` is the NaN. -/
theorem C40_infinity (c : Cfg) (hs : c.spec = .withNan) :
    Posit.hasInfinity c = true ∧ (∀ v, Posit.isInfinity c v = false) ∧ Posit.isNaN c (Posit.limInfinity c) = true := by
  refine ⟨rfl, fun v => by simp [Posit.isInfinity, hs], ?_⟩
  simp [Posit.isNaN, Posit.limInfinity, Cfg.pinf, Cfg.nan, hs]

example : P32.spec = .withNan := rfl

/-- **C40** fails for `max_exponent` of a wide posit: the conversion to `int` wraps. -/
theorem C40_not_always : (Cfg.mk 64 34 29 64 .withNan).WF ∧ Posit.maxExponent ⟨64, 34, 29, 64, .withNan⟩ = 0 ∧
    (Cfg.mk 64 34 29 64 .withNan).maxexponent = 2 ^ 34 := by decide +kernel

/-! ## C25 -/

/-- **C25**, `isUnitRange()`: exactly the reals from 0 to 1; never NaN or an infinity. -/
theorem C25_isUnitRange (h : c.WF) {v : ℤ} :
    (c.fmt.IsReal v → (Posit.isUnitRange c v = true ↔ 0 ≤ c.fmt.val v ∧ c.fmt.val v ≤ 1)) ∧
    (Posit.isUnitRange c v = true → c.fmt.IsReal v) := by
  have h1r := (one_real h).1
  have h0r : c.fmt.IsReal 0 := by rw [isReal_bounds]; omega
  unfold Posit.isUnitRange
  constructor
  · intro hv
    have a := Format.val_le_iff h0r.inRange hv.inRange
    have b := Format.val_le_iff hv.inRange h1r.inRange
    rw [Format.val_zero] at a
    rw [val_one h] at b
    rw [a, b]; simp
  · intro hu
    simp at hu
    rw [isReal_bounds] at h1r ⊢
    omega

example : P12.WF ∧ P12.fmt.IsReal 1000 ∧ Posit.isUnitRange P12 1000 = true ∧ Posit.isUnitRange P12 1025 = false ∧
    Posit.isUnitRange P12 (-1) = false := by decide +kernel

theorem val_unit0 (h : c.WF) (he : c.es = 0) {v : ℤ} (h0 : 0 ≤ v) (h1 : v ≤ c.one) :
    c.fmt.val v = (v : ℚ) / 2 ^ (c.N - 2) := by
  rw [one_eq h] at h1
  obtain ⟨p, rfl⟩ : ∃ p : ℕ, v = p := ⟨v.toNat, by omega⟩
  rcases Nat.eq_zero_or_pos p with hp | hp
  · subst hp; simp
  · rw [Format.val_natCast hp]
    change posVal c.N c.es p = _
    rw [he, posVal_unit0 h.N_ge hp (by rw [natCast_pow2] at h1; exact_mod_cast h1)]
    push_cast; rfl

theorem urOneMinus_eq (h : c.WF) {v : ℤ} (h0 : 0 ≤ v) (h1 : v ≤ c.one) : Posit.urOneMinus c v = c.one - v := by
  have hi := invertBit_lt h
  rw [one_eq h] at h1 ⊢
  unfold Posit.urOneMinus Cfg.invertBit
  rw [← natCast_pow2]
  exact wrapS_of_inS (by have := h.H_pos; omega) (inS_real h (by omega) (by omega))

/-- **C25**, `urOneMinus()` without exponent bits: exactly `1 - x`, for every `x` in the unit range. Missing: `es > 0`,
where it is wrong, see `C25_urOneMinus_wrong`. -/
theorem C25_urOneMinus_partial (h : c.WF) (he : c.es = 0) {v : ℤ} (hv : c.fmt.IsReal v) (h0 : 0 ≤ c.fmt.val v)
    (h1 : c.fmt.val v ≤ 1) :
    c.fmt.IsReal (Posit.urOneMinus c v) ∧ c.fmt.val (Posit.urOneMinus c v) = 1 - c.fmt.val v := by
  have hu := ((C25_isUnitRange h).1 hv).mpr ⟨h0, h1⟩
  unfold Posit.isUnitRange at hu
  simp at hu
  have h1r := (one_real h).1
  rw [urOneMinus_eq h hu.1 hu.2]
  refine ⟨by rw [isReal_bounds] at h1r ⊢; omega, ?_⟩
  rw [val_unit0 h he (by omega) (by omega), val_unit0 h he hu.1 hu.2, one_eq h]
  push_cast
  field_simp

example : P32z.WF ∧ P32z.es = 0 ∧ P32z.fmt.IsReal 12345 ∧ 0 ≤ P32z.fmt.val 12345 ∧ P32z.fmt.val 12345 ≤ 1 ∧
    Posit.urOneMinus P32z 12345 = 1073729479 := by decide +kernel

/-- **C25**, `urDeltaPs()` without exponent bits: `x(1-x)` rounded toward zero, exactly zero at the ends. -/
theorem C25_urDeltaPs_partial (h : c.WF) (he : c.es = 0) (hF : c.fb + 2 ≤ c.F) {v : ℤ} (hv : c.fmt.IsReal v)
    (h0 : 0 ≤ c.fmt.val v) (h1 : c.fmt.val v ≤ 1) :
    (c.fmt.val v = 0 ∨ c.fmt.val v = 1 → Posit.urDeltaPs c v = .ok 0) ∧
    (0 < c.fmt.val v → c.fmt.val v < 1 → c.SafeMag (c.fmt.val v * (1 - c.fmt.val v)) →
      ∃ w, Posit.urDeltaPs c v = .ok w ∧ c.fmt.IsTrunc (c.fmt.val v * (1 - c.fmt.val v)) w) := by
  obtain ⟨a1, a2⟩ := C25_urOneMinus_partial h he hv h0 h1
  have hz : ∀ {x : ℤ}, c.fmt.IsReal x → Posit.mul c x 0 = .ok 0 ∧ Posit.mul c 0 x = .ok 0 := by
    intro x hx
    by_cases hx0 : x = 0
    · subst hx0
      have : Posit.mul c 0 0 = .ok 0 := by unfold Posit.mul; rw [unpack_zero h]; rfl
      exact ⟨this, this⟩
    · obtain ⟨e, f, hu⟩ := unpack_real h hx hx0
      exact ⟨by unfold Posit.mul; rw [hu.eq, unpack_zero h]; rfl, by unfold Posit.mul; rw [hu.eq, unpack_zero h]; rfl⟩
  unfold Posit.urDeltaPs
  constructor
  · rintro (hh | hh)
    · rw [Format.val_eq_zero_iff hv.inRange] at hh
      rw [hh]
      rw [hh] at a1
      exact (hz a1).2
    · rw [hh, sub_self, Format.val_eq_zero_iff a1.inRange] at a2
      rw [a2]; exact (hz hv).1
  · intro hp hlt hs
    have b0 : v ≠ 0 := by rintro rfl; simp at hp
    have b1 : Posit.urOneMinus c v ≠ 0 := by
      intro hh; rw [hh, Format.val_zero] at a2; linarith
    rw [← a2] at hs ⊢
    exact C08_mul_partial h hF hv b0 a1 b1 hs

example : P8.WF ∧ P8.es = 0 ∧ P8.fb + 2 ≤ P8.F ∧ P8.fmt.val 20 = 5 / 16 ∧ Posit.urDeltaPs P8 20 = .ok 13 ∧
    P8.SafeMag (P8.fmt.val 20 * (1 - P8.fmt.val 20)) ∧ P8.fmt.val 13 = 13 / 64 := by decide +kernel

/-- **C25** fails for every format with exponent bits: at `x = 1/2`, `urOneMinus()` is not `1/2`. -/
theorem C25_urOneMinus_wrong (h : c.WF) (he : 1 ≤ c.es) :
    ∃ v, c.fmt.IsReal v ∧ c.fmt.val v = 1 / 2 ∧ c.fmt.IsReal (Posit.urOneMinus c v) ∧
      c.fmt.val (Posit.urOneMinus c v) < 1 - c.fmt.val v := by
  have hN3 := h.N_ge
  have hes := h.hes
  obtain ⟨e1, e2, e3⟩ := pow_split h
  have h1' := Nat.one_le_two_pow (n := c.N - 3 - c.es)
  have hlt : 2 ^ (c.N - 3 - c.es) < 2 ^ (c.N - 3) := Nat.pow_lt_pow_right (by norm_num) (by omega)
  have hmb := maxBody_ge h
  clear e3
  have hone : c.one = ((2 ^ (c.N - 2) : ℕ) : ℤ) := by rw [one_eq h, natCast_pow2]
  set p := 2 ^ (c.N - 2) - 2 ^ (c.N - 3 - c.es) with hp
  have hv : c.fmt.IsReal (p : ℤ) := by rw [isReal_bounds]; omega
  have hval : c.fmt.val (p : ℤ) = 1 / 2 := by rw [Format.val_natCast (by omega)]; exact posVal_half h
  have hu : Posit.urOneMinus c p = ((2 ^ (c.N - 3 - c.es) : ℕ) : ℤ) := by
    rw [urOneMinus_eq h (by omega) (by rw [hone]; omega), hone]; omega
  have hr : c.fmt.IsReal ((2 ^ (c.N - 3 - c.es) : ℕ) : ℤ) := by rw [isReal_bounds]; omega
  refine ⟨p, hv, hval, by rw [hu]; exact hr, ?_⟩
  have : c.fmt.val (Posit.urOneMinus c p) < c.fmt.val (p : ℤ) := by
    rw [hu, Format.val_lt_iff hr.inRange hv.inRange]; omega
  rw [hval] at this ⊢
  linarith

example : P12.WF ∧ 1 ≤ P12.es ∧ P12.fmt.val 768 = 1 / 2 ∧ Posit.urOneMinus P12 768 = 256 ∧
    P12.fmt.val 256 = 1 / 16 := by decide +kernel

/-! ## C26 -/

/-- **C26**, for `es = 0`: on nonnegative posits, and on all posits that fill a 32- or 64-bit holder, `pseudosigmoid()` is
in the unit range, maps 0 to 1/2 and is monotone. Missing: negative posits in the other holders, where it is wrong
(`C26_negative_wrong`). -/
theorem C26_pseudosigmoid_partial (h : c.WF) (he : c.es = 0) {a b : ℤ} (ha : c.fmt.IsReal a) (hb : c.fmt.IsReal b)
    (hab : c.fmt.val a ≤ c.fmt.val b) (hs : 0 ≤ c.fmt.val a ∨ (c.N = c.H ∧ 32 ≤ c.H)) :
    (c.fmt.IsReal (Posit.pseudosigmoid c a) ∧ 0 ≤ c.fmt.val (Posit.pseudosigmoid c a) ∧
      c.fmt.val (Posit.pseudosigmoid c a) ≤ 1) ∧
    c.fmt.val (Posit.pseudosigmoid c a) ≤ c.fmt.val (Posit.pseudosigmoid c b) ∧
    c.fmt.val (Posit.pseudosigmoid c 0) = 1 / 2 := by
  have hm := maxBody_lt' c
  have hN3 := h.N_ge
  obtain ⟨e1, e2, -⟩ := pow_split h
  have e1' : (2 : ℤ) ^ (c.N - 1) = 4 * 2 ^ (c.N - 3) := by exact_mod_cast e1
  have e2' : (2 : ℤ) ^ (c.N - 2) = 2 * 2 ^ (c.N - 3) := by exact_mod_cast e2
  have hp : (0 : ℤ) < 2 ^ (c.N - 3) := by positivity
  rw [Format.val_le_iff ha.inRange hb.inRange] at hab
  have hs' : 0 ≤ a ∨ (c.N = c.H ∧ 32 ≤ c.H) := by
    rcases hs with hs | hs
    · left
      by_contra hc
      have := (Format.val_neg_iff ha.inRange).mpr (by omega)
      linarith
    · exact Or.inr hs
  have key : ∀ x, c.fmt.IsReal x → (0 ≤ x ∨ (c.N = c.H ∧ 32 ≤ c.H)) →
      Posit.pseudosigmoid c x = (x + 2 ^ (c.N - 1)) / 2 ^ 2 := by
    intro x hx hx'
    rw [isReal_bounds] at hx
    unfold Posit.pseudosigmoid
    rcases lt_or_ge x 0 with hneg | hnn
    · have := hx'.resolve_left (by omega)
      exact xorSignShr_neg h this.2 this.1 hneg (by omega)
    · exact xorSignShr_nonneg h hnn (by omega) (by norm_num)
  have hz : c.fmt.IsReal 0 := by rw [isReal_bounds]; omega
  have rng : ∀ x, c.fmt.IsReal x → 0 ≤ (x + 2 ^ (c.N - 1)) / 2 ^ 2 ∧ (x + 2 ^ (c.N - 1)) / 2 ^ 2 ≤ c.one := by
    intro x hx
    rw [isReal_bounds] at hx
    rw [one_eq h]
    omega
  have isr : ∀ x, c.fmt.IsReal x → c.fmt.IsReal ((x + 2 ^ (c.N - 1)) / 2 ^ 2) := by
    intro x hx
    have := rng x hx
    have h1r := (one_real h).1
    rw [isReal_bounds] at h1r ⊢
    omega
  rw [key a ha hs', key b hb (by omega), key 0 hz (Or.inl le_rfl)]
  obtain ⟨r1, r2⟩ := rng a ha
  refine ⟨⟨isr a ha, ?_, ?_⟩, ?_, ?_⟩
  · rw [val_unit0 h he r1 r2]
    have : (0 : ℚ) ≤ (((a + 2 ^ (c.N - 1)) / 2 ^ 2 : ℤ) : ℚ) := by exact_mod_cast r1
    positivity
  · rw [← val_one h, Format.val_le_iff (isr a ha).inRange (one_real h).1.inRange]; exact r2
  · rw [Format.val_le_iff (isr a ha).inRange (isr b hb).inRange]
    apply Int.ediv_le_ediv (by norm_num); omega
  · obtain ⟨s1, s2⟩ := rng 0 hz
    rw [val_unit0 h he s1 s2]
    have : (0 + (2 : ℤ) ^ (c.N - 1)) / 2 ^ 2 = 2 ^ (c.N - 3) := by omega
    rw [this]
    have : (2 : ℚ) ^ (c.N - 2) = 2 * 2 ^ (c.N - 3) := by exact_mod_cast e2
    rw [this]
    push_cast
    field_simp

example : P32z.WF ∧ P32z.es = 0 ∧ P32z.fmt.IsReal (-5) ∧ P32z.fmt.IsReal 7 ∧ P32z.fmt.val (-5) ≤ P32z.fmt.val 7 ∧
    P32z.N = P32z.H ∧ 32 ≤ P32z.H ∧ Posit.pseudosigmoid P32z (-5) = 536870910 ∧
    P32z.fmt.val (Posit.pseudosigmoid P32z (-5)) < 1 / 2 := by decide +kernel

/-- **C26** fails for every negative posit in an 8- or 16-bit holder, and for every posit narrower than its holder: the
result is never in `[0, 1)`. -/
theorem C26_negative_wrong (h : c.WF) {v : ℤ} (hv : c.fmt.IsReal v) (h0 : v < 0) (hn : c.H < 32 ∨ c.N < c.H) :
    ¬ (c.fmt.IsReal (Posit.pseudosigmoid c v) ∧ 0 ≤ c.fmt.val (Posit.pseudosigmoid c v) ∧
      c.fmt.val (Posit.pseudosigmoid c v) < 1) := by
  rintro ⟨hr, hr0, hr1⟩
  rw [← val_one h, Format.val_lt_iff hr.inRange (one_real h).1.inRange, one_eq h] at hr1
  have hr0' : ¬ Posit.pseudosigmoid c v < 0 := fun hlt => by
    have := (Format.val_neg_iff hr.inRange).mpr hlt; linarith
  clear hr hr0
  revert hr1 hr0'
  have hm := maxBody_lt' c
  have hN := h.hN
  have hN3 := h.N_ge
  have hH := h.H_pos
  have hP := h.pow_le
  rw [isReal_bounds] at hv
  obtain ⟨k, rfl⟩ : ∃ k : ℕ, v = -(k : ℤ) := ⟨(-v).toNat, by omega⟩
  have hk : k ≤ 2 ^ (c.N - 1) := by
    have : (k : ℤ) ≤ 2 ^ (c.N - 1) := by omega
    exact_mod_cast this
  unfold Posit.pseudosigmoid Posit.xorSignShr Cfg.signBit
  obtain ⟨e1, e2, -⟩ := pow_split h
  have e1' : (2 : ℤ) ^ (c.N - 1) = 4 * 2 ^ (c.N - 3) := by exact_mod_cast e1
  have e2' : (2 : ℤ) ^ (c.N - 2) = 2 * 2 ^ (c.N - 3) := by exact_mod_cast e2
  have hp : (0 : ℤ) < 2 ^ (c.N - 3) := by positivity
  have hneg : ∀ w, c.N ≤ w → (wrapU w (-(k : ℤ)) ^^^ 2 ^ (c.N - 1) : ℕ) = (2 : ℤ) ^ w - k - 2 ^ (c.N - 1) := by
    intro w hw
    have h2w := two_pow_pred (w := w) (by omega)
    have hle : (2 : ℤ) ^ (c.N - 1) ≤ 2 ^ (w - 1) := pow_le_pow_right₀ (by norm_num) (by omega)
    rw [wrapU_of_neg h0 (by omega)]
    have e1 : (-(k : ℤ) + 2 ^ w).toNat = 2 ^ w - k := by
      have : ((2 ^ w : ℕ) : ℤ) = 2 ^ w := by push_cast; rfl
      omega
    rw [e1, xor_two_pow_high (by omega) (by omega) hk]
    have h3 : ((2 ^ w : ℕ) : ℤ) = 2 ^ w := by push_cast; rfl
    have h4 : ((2 ^ (c.N - 1) : ℕ) : ℤ) = 2 ^ (c.N - 1) := by push_cast; rfl
    omega
  split_ifs with hlt
  · have hk' : (k : ℤ) ≤ 2 ^ (c.N - 1) := by exact_mod_cast hk
    have hk0 : (0 : ℤ) ≤ k := Int.natCast_nonneg k
    have hpp : (0 : ℤ) < 2 ^ (c.N - 1) := by positivity
    have hdiv : (-(k : ℤ) - 2 ^ (c.N - 1)) / 2 ^ 2 < 0 := Int.ediv_neg_of_neg_of_pos (by linarith) (by norm_num)
    have hdiv2 : -(2 : ℤ) ^ (c.H - 1) ≤ (-(k : ℤ) - 2 ^ (c.N - 1)) / 2 ^ 2 := by
      rw [Int.le_ediv_iff_mul_le (by norm_num)]; linarith
    have hb : (2 : ℤ) ^ (c.N - 1) ≤ 2 ^ 15 := pow_le_pow_right₀ (by norm_num) (by have := h.hH; omega)
    have hw : wrapS 32 ((wrapU 32 (-(k : ℤ)) ^^^ 2 ^ (c.N - 1) : ℕ) : ℤ) = -(k : ℤ) - 2 ^ (c.N - 1) := by
      rw [hneg 32 (by omega)]
      exact wrapS_eq (by norm_num) 1 (by ring) (by unfold InS; omega)
    rw [hw]
    rw [wrapS_of_inS (by omega) ⟨hdiv2, lt_trans hdiv (by positivity)⟩]
    exact fun _ hB => hB hdiv
  · have hNH : c.N < c.H := hn.resolve_left (by omega)
    rw [Nat.shiftRight_eq_div_pow]
    have h2H := two_pow_pred (w := c.H) (by omega)
    have h2H1 := two_pow_pred (w := c.H - 1) (by omega)
    have h2H2 := two_pow_pred (w := c.H - 1 - 1) (by omega)
    have hle : (2 : ℤ) ^ (c.N - 1) ≤ 2 ^ (c.H - 1 - 1) := pow_le_pow_right₀ (by norm_num) (by omega)
    have hcast : (((wrapU c.H (-(k : ℤ)) ^^^ 2 ^ (c.N - 1)) / 2 ^ 2 : ℕ) : ℤ) = ((2 : ℤ) ^ c.H - k - 2 ^ (c.N - 1)) / 2 ^ 2 := by
      rw [← hneg c.H (by omega)]; push_cast; rfl
    rw [hcast, wrapS_of_inS (by omega) (by unfold InS; omega)]
    omega

example : P8.WF ∧ P8.fmt.IsReal (-5) ∧ P8.H < 32 ∧ Posit.pseudosigmoid P8 (-5) = -34 := by decide +kernel

/-! ## C27 -/

/-- `std::sqrt` is `pcabs`: the absolute value. -/
theorem stdSqrt_abs (h : c.WF) {v : ℤ} (hv : c.fmt.IsReal v) :
    (0 ≤ c.fmt.val v → Posit.stdSqrt c v = .ok v) ∧
    (c.fmt.val v < 0 → Posit.stdSqrt c v = .ok (-v)) := by
  refine ⟨fun h0 => ?_, fun h0 => ?_⟩
  · have : ¬ v < 0 := fun hn => by have := (Format.val_neg_iff hv.inRange).mpr hn; linarith
    unfold Posit.stdSqrt Posit.pcabs Posit.condNeg
    simp [this, pure, Except.pure]
  · rw [Format.val_neg_iff hv.inRange] at h0
    have hin : InS c.H (-v) := inS_real h (by have := maxBody_lt' c; have := hv.2; have := hv.1; omega)
      (by have := maxBody_lt' c; have := hv.2; have := isReal_bounds.mp hv; omega)
    unfold Posit.stdSqrt Posit.pcabs Posit.condNeg
    simp only [h0, decide_true, if_true]
    rw [arithS_ok' hin]
    simp only [bind, Except.bind, pure, Except.pure]
    rw [wrapS_of_inS (by have := h.H_pos; omega) hin]

/-- **C27** fails: apart from 0 and 1 the square of `std::sqrt(x)` differs from `x`: it is greater above one and for
every negative `x` (where a number is returned, not NaN), and smaller between 0 and 1. -/
theorem C27_sqrt_wrong (h : c.WF) {v : ℤ} (hv : c.fmt.IsReal v) :
    ∃ w, Posit.stdSqrt c v = .ok w ∧ c.fmt.IsReal w ∧
      (1 < c.fmt.val v → c.fmt.val v < c.fmt.val w ^ 2) ∧
      (0 < c.fmt.val v → c.fmt.val v < 1 → c.fmt.val w ^ 2 < c.fmt.val v) ∧
      (c.fmt.val v < 0 → c.fmt.val v < c.fmt.val w ^ 2) := by
  rcases lt_or_ge (c.fmt.val v) 0 with hn | hn
  · refine ⟨-v, (stdSqrt_abs h hv).2 hn, hv.neg, fun _ => by linarith, fun _ => by linarith, fun _ => ?_⟩
    have := sq_nonneg (c.fmt.val (-v)); linarith
  · exact ⟨v, (stdSqrt_abs h hv).1 hn, hv, fun _ => by nlinarith, fun _ _ => by nlinarith, fun _ => by linarith⟩

example : P8.WF ∧ P8.fmt.IsReal 112 ∧ P8.fmt.val 112 = 4 ∧ Posit.stdSqrt P8 112 = .ok 112 ∧
    Posit.stdSqrt P8 (-112) = .ok 112 := by decide +kernel

/-- **C27**, what holds: `sqrt(0)` and `sqrt(1)` are right; these are the only reals for which the returned value squares to the operand. -/
theorem C27_sqrt_partial (h : c.WF) {v : ℤ} (hv : c.fmt.IsReal v) :
    (∃ w, Posit.stdSqrt c v = .ok w ∧ c.fmt.IsReal w ∧ c.fmt.val w ^ 2 = c.fmt.val v) ↔
      c.fmt.val v = 0 ∨ c.fmt.val v = 1 := by
  obtain ⟨a, -⟩ := stdSqrt_abs h hv
  constructor
  · rintro ⟨w, h1, -, h3⟩
    rcases lt_or_ge (c.fmt.val v) 0 with hn | hn
    · have := sq_nonneg (c.fmt.val w); linarith
    · rw [a hn] at h1
      injection h1 with h1
      subst h1
      have : c.fmt.val v * (c.fmt.val v - 1) = 0 := by ring_nf; linarith
      rcases mul_eq_zero.mp this with h5 | h5
      · exact Or.inl h5
      · exact Or.inr (by linarith)
  · rintro (h0 | h1)
    · exact ⟨v, a (by rw [h0]), hv, by rw [h0]; norm_num⟩
    · exact ⟨v, a (by rw [h1]; norm_num), hv, by rw [h1]; norm_num⟩

example : P8.WF ∧ P8.fmt.IsReal 64 ∧ P8.fmt.val 64 = 1 ∧ Posit.stdSqrt P8 64 = .ok 64 := by decide +kernel

/-! ## C45 -/

/-- **C45**: `FLOORDIV(a,b)` is the floor of `a/b` for `b > 0`, without overflow. -/
theorem C45_floordiv {w : ℕ} (hw : 1 ≤ w) {a b : ℤ} (ha : InS w a) (hb : 0 < b) :
    floordiv w a b = .ok ⌊(a : ℚ) / b⌋ := by
  have hfl : ⌊(a : ℚ) / b⌋ = a / b := by
    rw [Int.floor_eq_iff]
    have hbq : (0 : ℚ) < b := by exact_mod_cast hb
    have h1 := Int.mul_ediv_add_emod a b
    have h2 := Int.emod_nonneg a hb.ne'
    have h3 := Int.emod_lt_of_pos a hb
    constructor
    · rw [le_div_iff₀ hbq]; exact_mod_cast (by linarith : a / b * b ≤ a)
    · rw [div_lt_iff₀ hbq]; exact_mod_cast (by linarith : a < (a / b + 1) * b)
  rw [hfl]
  have hq : (a.tdiv b - if a.tmod b < 0 then 1 else 0) = a / b := by
    have h1 := Int.mul_tdiv_add_tmod a b
    have h2 := Int.mul_ediv_add_emod a b
    have h3 := Int.emod_nonneg a hb.ne'
    have h4 := Int.emod_lt_of_pos a hb
    have h5 : |a.tmod b| < b := by
      rw [abs_lt]
      constructor
      · have := Int.lt_tmod_of_pos a hb; omega
      · exact Int.tmod_lt_of_pos a hb
    rw [abs_lt] at h5
    split_ifs with hs
    · have : b * (a.tdiv b - 1 - a / b) = a % b - a.tmod b - b := by linarith
      have h6 : b * (a.tdiv b - 1 - a / b) < b * 1 := by omega
      have h7 : b * (-1) < b * (a.tdiv b - 1 - a / b) := by omega
      have := lt_of_mul_lt_mul_left h6 hb.le
      have := lt_of_mul_lt_mul_left h7 hb.le
      omega
    · have : b * (a.tdiv b - a / b) = a % b - a.tmod b := by linarith
      have h6 : b * (a.tdiv b - a / b) < b * 1 := by omega
      have h7 : b * (-1) < b * (a.tdiv b - a / b) := by omega
      have := lt_of_mul_lt_mul_left h6 hb.le
      have := lt_of_mul_lt_mul_left h7 hb.le
      omega
  have hin : ∀ {x : ℤ}, (0 ≤ a → 0 ≤ x ∧ x ≤ a) → (a < 0 → a ≤ x ∧ x ≤ 0) → InS w x := by
    intro x h1 h2
    unfold InS at *
    omega
  have i1 : InS w (a.tdiv b) := by
    apply hin
    · intro h0; exact ⟨Int.tdiv_nonneg h0 hb.le, by rw [Int.tdiv_eq_ediv_of_nonneg h0]; exact Int.ediv_le_self _ h0⟩
    · intro h0
      have e1 : a.tdiv b = -((-a).tdiv b) := by rw [Int.neg_tdiv, neg_neg]
      have e2 : (-a).tdiv b = (-a) / b := Int.tdiv_eq_ediv_of_nonneg (by omega)
      have e3 := Int.ediv_le_self (a := -a) b (by omega)
      have e4 : 0 ≤ (-a) / b := Int.ediv_nonneg (by omega) hb.le
      omega
  have i2 : InS w (a / b) := by
    apply hin
    · intro h0; exact ⟨Int.ediv_nonneg h0 hb.le, Int.ediv_le_self _ h0⟩
    · intro h0
      refine ⟨?_, (Int.ediv_neg_of_neg_of_pos h0 hb).le⟩
      rw [Int.le_ediv_iff_mul_le hb]; nlinarith
  unfold floordiv
  rw [if_neg hb.ne', arithS_ok' i1]
  simp only [bind, Except.bind, pure, Except.pure]
  rw [hq, arithS_ok' i2]
  simp only []
  rw [wrapS_of_inS hw i2]

example : InS 8 (-128) ∧ floordiv 8 (-128) 3 = .ok (-43) ∧ floordiv 32 (-6) 3 = .ok (-2) ∧ floordiv 32 7 2 = .ok 3 :=
  ⟨by unfold InS; norm_num, by decide⟩

/-- **C45** needs `b > 0`: for a negative divisor the result is not the floor. -/
theorem C45_negative_divisor : floordiv 32 7 (-2) = .ok (-3) ∧ ⌊(7 : ℚ) / (-2 : ℤ)⌋ = -4 := by decide +kernel

/-! ## C46 -/

/-- **C46**: splitting a scale of the format and joining gives it back; the exponent part has `es` bits and the regime
part is the floor of `e/2^es`. -/
theorem C46_split_join (h : c.WF) {e : ℤ} (h1 : -(c.maxScale : ℤ) ≤ e) (h2 : e ≤ c.maxScale) :
    ∃ r x, Posit.splitRegExp c e = (r, x) ∧ x < 2 ^ c.es ∧ e = 2 ^ c.es * r + x ∧ Posit.joinRegExp c r x = .ok e := by
  have hp : (0 : ℤ) < 2 ^ c.es := by positivity
  have hx : (e % 2 ^ c.es).toNat < 2 ^ c.es := by
    zify; rw [Int.toNat_of_nonneg (Int.emod_nonneg _ hp.ne')]; exact Int.emod_lt_of_pos _ hp
  have hj : 2 ^ c.es * (e / 2 ^ c.es) + (((e % 2 ^ c.es).toNat : ℕ) : ℤ) = e := by
    rw [Int.toNat_of_nonneg (Int.emod_nonneg _ hp.ne'), Int.mul_ediv_add_emod]
  have hms := maxScale_eq h
  refine ⟨_, _, splitRegExp_eq h h1 h2, hx, hj.symm, ?_⟩
  rw [joinRegExp_eq h _ _ hx, hj]
  · rw [Int.le_ediv_iff_mul_le hp]; rw [hms] at h1; linarith
  · have : e / 2 ^ c.es < (c.N : ℤ) - 2 + 1 := by
      rw [Int.ediv_lt_iff_lt_mul hp]; rw [hms] at h2; linarith
    omega

example : P28.WF ∧ -(P28.maxScale : ℤ) ≤ -777 ∧ Posit.splitRegExp P28 (-777) = (-25, 23) ∧
    Posit.joinRegExp P28 (-25) 23 = .ok (-777) := by decide +kernel

/-- **C46**: joining a regime and an exponent field and splitting gives them back. -/
theorem C46_join_split (h : c.WF) {r : ℤ} {x : ℕ} (h1 : -((c.N : ℤ) - 2) ≤ r) (h2 : r < (c.N : ℤ) - 2)
    (hx : x < 2 ^ c.es) : ∃ e, Posit.joinRegExp c r x = .ok e ∧ Posit.splitRegExp c e = (r, x) := by
  have hp : (0 : ℤ) < 2 ^ c.es := by positivity
  have hxi : (x : ℤ) < 2 ^ c.es := by exact_mod_cast hx
  have hms := maxScale_eq h
  refine ⟨_, joinRegExp_eq h h1 h2.le hx, ?_⟩
  rw [splitRegExp_eq h]
  · rw [add_comm, Int.add_mul_ediv_left _ _ hp.ne', Int.ediv_eq_zero_of_lt (by omega) hxi, zero_add,
      Int.add_mul_emod_self_left, Int.emod_eq_of_lt (by omega) hxi]; rfl
  · rw [hms]; nlinarith
  · rw [hms]; nlinarith

example : P12.WF ∧ -((P12.N : ℤ) - 2) ≤ -10 ∧ Posit.joinRegExp P12 (-10) 1 = .ok (-19) ∧
    Posit.splitRegExp P12 (-19) = (-10, 1) := by decide +kernel

/-- **C46**: `decode_posit_rs` of a pattern that is one single run — unreachable from `unpack_low`, which treats zero apart and
shifts in zeros — takes the regime to be as long as possible. -/
theorem C46_decode_run (h : c.WF) : Posit.decodeRs c 0 = .ok (-((c.N : ℤ) - 1), (c.N : ℤ) - 1) ∧
    Posit.decodeRs c (2 ^ c.H - 1) = .ok ((c.N : ℤ) - 2, (c.N : ℤ) - 1) := by
  have hN := h.N_ge
  have hNH := h.hN
  have hm : c.maxRegimeBits = c.N - 1 := rfl
  have hx : (2 ^ c.H - 1) &&& c.holderMsb ≠ 0 := by
    show (2 ^ c.H - 1) &&& 2 ^ (c.H - 1) ≠ 0
    rw [Nat.and_comm, Nat.and_two_pow_sub_one_eq_mod]
    rw [Nat.mod_eq_of_lt (Nat.pow_lt_pow_right (by norm_num) (by omega))]
    positivity
  constructor
  · unfold Posit.decodeRs Posit.runIndex
    simp only [Nat.zero_and, ne_eq, not_true_eq_false, decide_false, Bool.false_eq_true, if_false, if_true, hm]
    show Except.ok _ = _
    rw [if_pos (by omega)]
    congr 2 <;> omega
  · unfold Posit.decodeRs Posit.runIndex
    simp only [hx, ne_eq, not_false_eq_true, decide_true, if_true, hm, Nat.sub_self]
    show Except.ok _ = _
    rw [if_pos (by omega)]
    congr 2 <;> omega

example : P12.WF ∧ Posit.decodeRs P12 0 = .ok (-11, 11) ∧ Posit.decodeRs P12 (2 ^ 16 - 1) = .ok (10, 11) := by decide +kernel

end Verif
