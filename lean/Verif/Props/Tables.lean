import Verif.Lemmas.Posit12Use
import Verif.Props.Special
import Verif.Props.Fixed
import Verif.Props.FloatPack
import Verif.Spec.Special

/-! # The tabulated classes (C38, C39, C52) -/

namespace Verif
open Fmt

/-! ## C38 -/

namespace Posit8

theorem wf : cfg.WF := by decide

theorem isNaN_iff {v : ℤ} : Posit.isNaN cfg v = true ↔ v = -128 := by
  unfold Posit.isNaN
  rw [show cfg.nan = -128 from by decide]
  simp [cfg]

end Posit8

/-- **C38**, products: for every pair of patterns the multiplication table holds the exact product rounded toward zero, zero
for a zero operand, and NaN for a NaN operand. -/
theorem C38_mul {a b : ℤ} (ha : P8.fmt.IsCanonical a) (hb : P8.fmt.IsCanonical b) :
    (a = -128 ∨ b = -128 → Posit8.mul a b = -128) ∧
    (a ≠ -128 → b ≠ -128 → a = 0 ∨ b = 0 → Posit8.mul a b = 0) ∧
    (a ≠ -128 → b ≠ -128 → a ≠ 0 → b ≠ 0 → P8.fmt.IsTrunc (P8.fmt.val a * P8.fmt.val b) (Posit8.mul a b)) := by
  have hc := Posit8.at2_chk Posit8.mul_ok ha hb
  have A := Posit8.byte ha
  have B := Posit8.byte hb
  unfold Posit8.mulChk at hc
  simp only [Bool.cond_eq_ite, beq_iff, decide_eq_true_eq, A.nan, B.nan, A.zero, B.zero] at hc
  refine ⟨?_, ?_, ?_⟩
  · intro h
    have : tabGet 8 256 Posit8.opmulTab (Posit8.uu a * 256 + Posit8.uu b) = 128 := by
      by_cases h1 : a = -128
      · rw [if_pos h1] at hc; exact of_decide_eq_true hc
      · rw [if_neg h1, if_pos (h.resolve_left h1)] at hc; exact of_decide_eq_true hc
    unfold Posit8.mul Posit8.at2
    rw [this]; rfl
  · intro h1 h2 h
    rw [if_neg h1, if_neg h2] at hc
    have : tabGet 8 256 Posit8.opmulTab (Posit8.uu a * 256 + Posit8.uu b) = 0 := by
      by_cases h1 : a = 0
      · rw [if_pos h1] at hc; exact of_decide_eq_true hc
      · rw [if_neg h1, if_pos (h.resolve_left h1)] at hc; exact of_decide_eq_true hc
    unfold Posit8.mul Posit8.at2
    rw [this]; rfl
  · intro h1 h2 h3 h4
    have ha' := Posit8.canon_iff.mp ha
    have hb' := Posit8.canon_iff.mp hb
    exact Posit8.mul_real (Posit8.real_iff.mpr (by omega)) h3 (Posit8.real_iff.mpr (by omega)) h4

example : P8.fmt.IsCanonical 72 ∧ P8.fmt.IsCanonical (-100) ∧ Posit8.mul 72 (-100) = -105 ∧
    P8.fmt.val 72 * P8.fmt.val (-100) = -25 / 8 ∧ P8.fmt.val (-105) = -25 / 8 := by decide +kernel

/-- **C38**, quotients, with NaN for a zero divisor -/
theorem C38_div {a b : ℤ} (ha : P8.fmt.IsCanonical a) (hb : P8.fmt.IsCanonical b) :
    (a = -128 ∨ b = -128 ∨ b = 0 → Posit8.div a b = -128) ∧
    (b ≠ -128 → b ≠ 0 → a = 0 → Posit8.div a b = 0) ∧
    (a ≠ -128 → b ≠ -128 → a ≠ 0 → b ≠ 0 → P8.fmt.IsTrunc (P8.fmt.val a / P8.fmt.val b) (Posit8.div a b)) := by
  have hc := Posit8.at2_chk Posit8.div_ok ha hb
  have A := Posit8.byte ha
  have B := Posit8.byte hb
  unfold Posit8.divChk at hc
  simp only [Bool.cond_eq_ite, beq_iff, decide_eq_true_eq, A.nan, B.nan, A.zero, B.zero] at hc
  refine ⟨?_, ?_, ?_⟩
  · intro h
    have : tabGet 8 256 Posit8.opdivTab (Posit8.uu a * 256 + Posit8.uu b) = 128 := by
      by_cases h1 : a = -128
      · rw [if_pos h1] at hc; exact of_decide_eq_true hc
      · rw [if_neg h1] at hc
        by_cases h2 : b = -128
        · rw [if_pos h2] at hc; exact of_decide_eq_true hc
        · rw [if_neg h2, if_pos ((h.resolve_left h1).resolve_left h2)] at hc; exact of_decide_eq_true hc
    unfold Posit8.div Posit8.at2
    rw [this]; rfl
  · intro h1 h2 h
    rw [if_neg (by omega), if_neg h1, if_neg h2, if_pos h] at hc
    unfold Posit8.div Posit8.at2
    rw [of_decide_eq_true hc]; rfl
  · intro h1 h2 h3 h4
    have ha' := Posit8.canon_iff.mp ha
    have hb' := Posit8.canon_iff.mp hb
    exact Posit8.div_real (Posit8.real_iff.mpr (by omega)) h3 (Posit8.real_iff.mpr (by omega)) h4

example : Posit8.div 64 (-104) = -21 ∧ P8.fmt.val 64 / P8.fmt.val (-104) = -1 / 3 ∧ P8.fmt.val (-21) = -21 / 64 ∧
    Posit8.div 3 0 = -128 := by decide +kernel

/-- **C38**, sums: exact when an operand is zero, zero exactly for opposite operands. -/
theorem C38_add {a b : ℤ} (ha : P8.fmt.IsCanonical a) (hb : P8.fmt.IsCanonical b) :
    (a = -128 ∨ b = -128 → Posit8.add a b = -128) ∧
    (a ≠ -128 → b ≠ -128 → a = -b → Posit8.add a b = 0) ∧
    (a ≠ -128 → b ≠ -128 → a ≠ -b → P8.fmt.IsTrunc (P8.fmt.val a + P8.fmt.val b) (Posit8.add a b)) := by
  have hc := Posit8.at2_chk Posit8.add_ok ha hb
  have A := Posit8.byte ha
  have B := Posit8.byte hb
  have ha' := Posit8.canon_iff.mp ha
  have hb' := Posit8.canon_iff.mp hb
  unfold Posit8.addChk at hc
  simp only [Bool.cond_eq_ite, beq_iff, decide_eq_true_eq, A.nan, B.nan, A.zero, B.zero] at hc
  have hza : a ≠ -128 → b ≠ -128 → a = 0 → Posit8.add a b = b := by
    intro h1 h2 h3
    rw [if_neg h1, if_neg h2, if_pos h3] at hc
    unfold Posit8.add Posit8.at2
    rw [of_decide_eq_true hc]; exact B.back
  have hzb : a ≠ -128 → b ≠ -128 → b = 0 → Posit8.add a b = a := by
    intro h1 h2 h3
    by_cases h0 : a = 0
    · rw [hza h1 h2 h0, h3, h0]
    rw [if_neg h1, if_neg h2, if_neg h0, if_pos h3] at hc
    unfold Posit8.add Posit8.at2
    rw [of_decide_eq_true hc]; exact A.back
  refine ⟨?_, ?_, ?_⟩
  · intro h
    have : tabGet 8 256 Posit8.opaddTab (Posit8.uu a * 256 + Posit8.uu b) = 128 := by
      by_cases h1 : a = -128
      · rw [if_pos h1] at hc; exact of_decide_eq_true hc
      · rw [if_neg h1, if_pos (h.resolve_left h1)] at hc; exact of_decide_eq_true hc
    unfold Posit8.add Posit8.at2
    rw [this]; rfl
  · intro h1 h2 h
    by_cases h0 : a = 0
    · rw [hza h1 h2 h0]; omega
    · rcases Posit8.add_real (Posit8.real_iff.mpr (by omega)) h0 (Posit8.real_iff.mpr (by omega)) (b := b) (by omega) with h3 | h3
      · exact h3.2
      · exact absurd h h3.1
  · intro h1 h2 h
    have hra : P8.fmt.IsReal a := Posit8.real_iff.mpr (by omega)
    have hrb : P8.fmt.IsReal b := Posit8.real_iff.mpr (by omega)
    by_cases h0 : a = 0
    · rw [hza h1 h2 h0, h0, Format.val_zero, zero_add]
      exact Format.isTrunc_val hrb (by omega)
    · by_cases h0' : b = 0
      · rw [hzb h1 h2 h0', h0', Format.val_zero, add_zero]
        exact Format.isTrunc_val hra h0
      · rcases Posit8.add_real hra h0 hrb h0' with h3 | h3
        · exact absurd h3.1 h
        · exact h3.2

example : Posit8.add 100 (-99) = 8 ∧ P8.fmt.val 100 + P8.fmt.val (-99) = 1 / 8 ∧ P8.fmt.val 8 = 1 / 8 ∧
    Posit8.add 127 127 = 127 := by decide +kernel

theorem Posit8.neg_val {v : ℤ} (hv : P8.fmt.IsCanonical v) :
    (v = -128 → Posit8.neg v = -128) ∧ (v ≠ -128 → Posit8.neg v = -v) := by
  have := Posit8.canon_iff.mp hv
  constructor
  · rintro rfl; rfl
  · intro h
    exact wrapS_eq (by norm_num) 0 (by ring) ⟨by norm_num; omega, by norm_num; omega⟩

/-- **C38**, differences -/
theorem C38_sub {a b : ℤ} (ha : P8.fmt.IsCanonical a) (hb : P8.fmt.IsCanonical b) :
    (a = -128 ∨ b = -128 → Posit8.sub a b = -128) ∧
    (a ≠ -128 → b ≠ -128 → a = b → Posit8.sub a b = 0) ∧
    (a ≠ -128 → b ≠ -128 → a ≠ b → P8.fmt.IsTrunc (P8.fmt.val a - P8.fmt.val b) (Posit8.sub a b)) := by
  have hb' := Posit8.canon_iff.mp hb
  unfold Posit8.sub
  by_cases h : b = -128
  · rw [(Posit8.neg_val hb).1 h]
    refine ⟨fun _ => (C38_add ha ?_).1 (Or.inr rfl), fun _ h2 => absurd h h2, fun _ h2 => absurd h h2⟩
    exact Posit8.canon_iff.mpr (by omega)
  · rw [(Posit8.neg_val hb).2 h]
    have hc : P8.fmt.IsCanonical (-b) := Posit8.canon_iff.mpr (by omega)
    obtain ⟨h1, h2, h3⟩ := C38_add ha hc
    refine ⟨fun h4 => h1 (Or.inl (h4.resolve_right h)), fun h4 _ h5 => h2 h4 (by omega) (by omega), fun h4 _ h5 => ?_⟩
    have := h3 h4 (by omega) (by omega)
    rwa [Format.val_neg, ← sub_eq_add_neg] at this

example : Posit8.sub 64 (-128) = -128 ∧ Posit8.sub 65 64 = 2 ∧ P8.fmt.val 65 - P8.fmt.val 64 = 1 / 32 ∧
    P8.fmt.val 2 = 1 / 32 := by decide +kernel

/-- **C38**, reciprocals of nonzero reals and NaN. Missing: the reciprocal of zero (`C38_inv_zero_wrong`). -/
theorem C38_inv_partial {a : ℤ} (ha : P8.fmt.IsCanonical a) :
    (a = -128 → Posit8.inv a = -128) ∧ (a ≠ -128 → a ≠ 0 → P8.fmt.IsTrunc (1 / P8.fmt.val a) (Posit8.inv a)) := by
  have ha' := Posit8.canon_iff.mp ha
  constructor
  · rintro rfl; decide +kernel
  · intro h1 h2
    exact Posit8.inv_real (Posit8.real_iff.mpr (by omega)) h2

example : Posit8.inv (-104) = -21 ∧ Posit8.inv 1 = 127 ∧ P8.fmt.val 1 = 1 / 64 ∧ P8.fmt.val 127 = 64 := by decide +kernel

/-- **C38** does not hold for the reciprocal of zero: it is zero, while the division table says NaN. -/
theorem C38_inv_zero_wrong : Posit8.inv 0 = 0 ∧ Posit8.div 64 0 = -128 ∧ P8.fmt.val 64 = 1 := by decide +kernel

/-- **C38**, halves and squares -/
theorem C38_half_square {a : ℤ} (ha : P8.fmt.IsCanonical a) :
    (a = -128 → Posit8.half a = -128 ∧ Posit8.square a = -128) ∧ (a = 0 → Posit8.half a = 0 ∧ Posit8.square a = 0) ∧
    (a ≠ -128 → a ≠ 0 → P8.fmt.IsTrunc (P8.fmt.val a / 2) (Posit8.half a) ∧
      P8.fmt.IsTrunc (P8.fmt.val a * P8.fmt.val a) (Posit8.square a)) := by
  have ha' := Posit8.canon_iff.mp ha
  refine ⟨?_, ?_, ?_⟩
  · rintro rfl; decide +kernel
  · rintro rfl; decide +kernel
  · intro h1 h2
    exact ⟨Posit8.half_real (Posit8.real_iff.mpr (by omega)) h2, Posit8.square_real (Posit8.real_iff.mpr (by omega)) h2⟩

example : Posit8.half 1 = 1 ∧ Posit8.half (-97) = -66 ∧ Posit8.square (-80) = 98 ∧ P8.fmt.val (-80) = -3 / 2 ∧
    P8.fmt.val 98 = 9 / 4 := by decide +kernel

/-- **C38**, conversion to float is exact. -/
theorem C38_toFloat {a : ℤ} (ha : P8.fmt.IsCanonical a) :
    (a = -128 → ieee 8 23 (Posit8.toFloat a) = .nan) ∧
    (a ≠ -128 → ieee 8 23 (Posit8.toFloat a) = .num (P8.fmt.val a)) := by
  have ha' := Posit8.canon_iff.mp ha
  constructor
  · rintro rfl
    rw [show Posit8.toFloat (-128) = 0x7fc00000 by decide +kernel]
    simp [ieee]
  · intro h1
    by_cases h0 : a = 0
    · subst h0
      rw [show Posit8.toFloat 0 = 0 by decide +kernel]
      simp [ieee, Format.val_zero]
    · exact Posit8.float_real (Posit8.real_iff.mpr (by omega)) h0

example : Posit8.toFloat (-105) = 0xc0480000 := by decide +kernel

/-- **C38**, the table and the generic class agree on products, quotients, sums of operands of one sign and reciprocals of
reals. (For sums of opposite signs the generic class may round away from zero; both are faithful.) -/
theorem C38_agrees {a b : ℤ} (ha : P8.fmt.IsReal a) (ha0 : a ≠ 0) (hb : P8.fmt.IsReal b) (hb0 : b ≠ 0) :
    Posit.mul P8 a b = .ok (Posit8.mul a b) ∧ Posit.div P8 a b = .ok (Posit8.div a b) ∧
    (0 < P8.fmt.val a * P8.fmt.val b → Posit.add P8 a b = .ok (Posit8.add a b)) := by
  have hw : P8.WF := by decide
  have ha' := Posit8.real_iff.mp ha
  have hb' := Posit8.real_iff.mp hb
  refine ⟨?_, ?_, ?_⟩
  · obtain ⟨v, hv, ht⟩ := C08_mul hw (by decide) (by decide) ha ha0 hb hb0
    rw [hv, ht.unique (Posit8.mul_real ha ha0 hb hb0)]
  · obtain ⟨v, hv, ht⟩ := C09_div hw (by decide) (by decide) ha ha0 hb hb0
    rw [hv, ht.unique (Posit8.div_real ha ha0 hb hb0)]
  · intro hp
    obtain ⟨v, hv, -, -, -, ht⟩ := C10_add hw (by decide) (by decide) (by decide) (by decide) ha hb
    have hne : a ≠ -b := by
      rintro rfl
      rw [Format.val_neg, neg_mul] at hp
      have := mul_self_nonneg (P8.fmt.val b)
      linarith
    rw [hv, (ht hp).unique ((Posit8.add_real ha ha0 hb hb0).resolve_left (fun h => hne h.1)).2]

example : Posit.mul P8 72 (-100) = .ok (Posit8.mul 72 (-100)) ∧ Posit.add P8 96 (-1) = .ok 96 ∧ Posit8.add 96 (-1) = 95 := by
  decide +kernel

/-- **C38**, `twice()`: the doubled number rounded toward zero -/
theorem C38_twice {a : ℤ} (ha : P8.fmt.IsReal a) (ha0 : a ≠ 0) :
    ∃ v, Posit8.twice a = .ok v ∧ P8.fmt.IsTrunc (2 * P8.fmt.val a) v := by
  have h2 : Posit.ofInt P8 2 = .ok 96 := by decide +kernel
  obtain ⟨v, hv, ht⟩ := C08_mul (c := P8) (by decide) (by decide) (by decide) ha ha0 (b := 96) (by decide) (by decide)
  refine ⟨v, ?_, ?_⟩
  · unfold Posit8.twice
    rw [show Posit8.cfg = P8 from rfl, h2]
    exact hv
  · rwa [show P8.fmt.val 96 = 2 by decide +kernel, mul_comm] at ht

example : Posit8.twice (-72) = .ok (-100) ∧ Posit8.twice 127 = .ok 127 := by decide +kernel

/-- **C38**, constructors: the special cases for 0 and 1 change nothing. -/
theorem C38_constructors (a : ℤ) (b : ℕ) :
    Posit8.ofInt a = Posit.ofInt P8 a ∧ Posit8.ofFloat b = Posit.ofFloat P8 .single b ∧
    Posit8.ofDouble b = Posit.ofFloat P8 .double b := by
  refine ⟨?_, ?_, ?_⟩
  · unfold Posit8.ofInt
    split_ifs with h1 h2
    · subst h1; decide +kernel
    · subst h2; decide +kernel
    · rfl
  · unfold Posit8.ofFloat
    split_ifs with h1 h2
    · rcases h1 with rfl | rfl <;> decide +kernel
    · subst h2; decide +kernel
    · rfl
  · unfold Posit8.ofDouble
    split_ifs with h1 h2
    · rcases h1 with rfl | rfl <;> decide +kernel
    · subst h2; decide +kernel
    · rfl

example : Posit8.ofInt (-5) = .ok (-114) ∧ Posit8.ofFloat 0x3fc00000 = .ok 80 := by decide +kernel

/-! ## C39 -/

/-- **C39**, posit8: one, one half, the greatest and least positive numbers and the machine epsilon. Missing: `two()`,
`is_infinity()`, `has_neg_exponent()` and NaN in comparisons, which are wrong. -/
theorem C39_posit8_partial :
    P8.fmt.val Posit8.one = 1 ∧ P8.fmt.val Posit8.onehalf = 1 / 2 ∧
    (P8.fmt.IsReal Posit8.max ∧ ∀ v, P8.fmt.IsReal v → P8.fmt.val v ≤ P8.fmt.val Posit8.max) ∧
    (P8.fmt.IsReal Posit8.min ∧ 0 < P8.fmt.val Posit8.min ∧
      ∀ v, P8.fmt.IsReal v → 0 < P8.fmt.val v → P8.fmt.val Posit8.min ≤ P8.fmt.val v) ∧
    P8.fmt.val Posit8.epsilon = P8.fmt.val Posit8.afterone - 1 ∧
    (∀ v, P8.fmt.IsReal v → Posit8.isNan v = false) ∧ Posit8.isNan Posit8.nan = true := by
  refine ⟨by decide +kernel, by decide +kernel, ⟨by decide, fun v hv => ?_⟩, ⟨by decide, by decide +kernel, fun v hv h => ?_⟩,
    by decide +kernel, fun v hv => ?_, by decide⟩
  · have := Posit8.real_iff.mp hv
    exact (Format.val_le_iff hv.inRange (by unfold Format.InRange; decide)).mpr (by show v ≤ 127; omega)
  · have h1 := (Format.val_pos_iff hv.inRange).mp h
    exact (Format.val_le_iff (by unfold Format.InRange; decide) hv.inRange).mpr (by show (1 : ℤ) ≤ v; omega)
  · have := Posit8.real_iff.mp hv
    unfold Posit8.isNan
    rw [show Posit8.cfg.nan = -128 by decide]
    simp; intro _; omega

/-- **C39** does not hold for posit8: `two()` is 5/4; NaN counts as infinite and `pinfinity()` is NaN; the exponent test
answers `true` for every nonnegative number and `false` for every negative one. -/
theorem C39_posit8_wrong :
    P8.fmt.val Posit8.two = 5 / 4 ∧
    Posit8.isInfinity Posit8.nan = true ∧ Posit8.isNan Posit8.pinfinity = true ∧
    (∀ v, P8.fmt.IsCanonical v → Posit8.hasNegExponent v = decide (0 ≤ v)) ∧
    P8.fmt.val 96 = 2 ∧ P8.fmt.val (-32) = -1 / 2 := by
  refine ⟨by decide +kernel, by decide, by decide, fun v hv => ?_, by decide +kernel, by decide +kernel⟩
  have := Posit8.canon_iff.mp hv
  unfold Posit8.hasNegExponent Posit8.uu
  rw [Bool.eq_iff_iff, decide_eq_true_eq, decide_eq_true_eq]
  omega

/-- **C39**: `is_negative` is right for every real. -/
theorem C39_posit8_isNegative {v : ℤ} (hv : P8.fmt.IsReal v) : Posit8.isNegative v = true ↔ P8.fmt.val v < 0 := by
  unfold Posit8.isNegative; rw [decide_eq_true_eq, Format.val_neg_iff hv.inRange]

example : P8.fmt.IsReal (-64) ∧ Posit8.isNegative (-64) = true := by decide

/-- **C39**, order: on reals the comparisons order by value, negation and absolute value are exact. -/
theorem C39_order_partial {a b : ℤ} (ha : P8.fmt.IsReal a) (hb : P8.fmt.IsReal b) :
    (Posit8.lt a b = true ↔ P8.fmt.val a < P8.fmt.val b) ∧ (Posit8.ge a b = true ↔ P8.fmt.val b ≤ P8.fmt.val a) ∧
    (Posit8.eq a b = true ↔ P8.fmt.val a = P8.fmt.val b) ∧
    P8.fmt.val (Posit8.neg a) = -P8.fmt.val a ∧ P8.fmt.val (Posit8.abs a) = |P8.fmt.val a| ∧
    P8.fmt.val (Posit8.min2 a b) = min (P8.fmt.val a) (P8.fmt.val b) ∧
    P8.fmt.val (Posit8.max2 a b) = max (P8.fmt.val a) (P8.fmt.val b) := by
  have ha' := Posit8.real_iff.mp ha
  have hle := Format.val_le_iff ha.inRange hb.inRange
  have hle' := Format.val_le_iff hb.inRange ha.inRange
  refine ⟨?_, ?_, ?_, ?_, ?_, ?_, ?_⟩
  · unfold Posit8.lt; rw [decide_eq_true_eq, Format.val_lt_iff ha.inRange hb.inRange]
  · unfold Posit8.ge; rw [decide_eq_true_eq, hle']
  · unfold Posit8.eq; rw [decide_eq_true_eq, Format.val_inj ha.inRange hb.inRange]
  · rw [(Posit8.neg_val ha.canonical).2 (by omega), Format.val_neg]
  · unfold Posit8.abs
    rw [wrapS_eq (y := if a < 0 then -a else a) (by norm_num) 0 (by ring)
      ⟨by norm_num; split_ifs <;> omega, by norm_num; split_ifs <;> omega⟩]
    split_ifs with h
    · rw [Format.val_neg, abs_of_neg ((Format.val_neg_iff ha.inRange).mpr h)]
    · rw [abs_of_nonneg]
      by_contra hc
      exact h ((Format.val_neg_iff ha.inRange).mp (not_le.mp hc))
  · unfold Posit8.min2
    split_ifs with h
    · rw [min_eq_left (hle.mpr h)]
    · rw [min_eq_right (hle'.mpr (by omega))]
  · unfold Posit8.max2
    split_ifs with h
    · rw [max_eq_left (hle'.mpr h)]
    · rw [max_eq_right (hle.mpr (by omega))]

example : P8.fmt.IsReal (-104) ∧ P8.fmt.IsReal 72 ∧ Posit8.lt (-104) 72 = true ∧ Posit8.abs (-104) = 104 ∧
    P8.fmt.val (-104) = -3 := by decide +kernel

/-- **C39** does not hold for comparisons with NaN, in all three classes: NaN is below every real and equal to itself. -/
theorem C39_nan_ordered :
    (∀ v, P8.fmt.IsReal v → Posit8.lt Posit8.nan v = true) ∧ Posit8.eq Posit8.nan Posit8.nan = true ∧
    (∀ v, Posit10.cfg.fmt.IsReal v → Posit10.lt Posit10.nan v = true) ∧ Posit10.eq Posit10.nan Posit10.nan = true ∧
    (∀ v, Posit12.cfg.fmt.IsReal v → Posit12.lt Posit12.nan v = true) ∧ Posit12.eq Posit12.nan Posit12.nan = true := by
  refine ⟨fun v hv => ?_, by decide, fun v hv => ?_, by decide, fun v hv => ?_, by decide⟩
  · have := (Posit8.real_iff.mp hv).1
    unfold Posit8.lt
    rw [show Posit8.nan = -128 by decide]
    simp; omega
  · have := hv.1
    rw [show Posit10.cfg.fmt.maxBody = 511 by decide] at this
    unfold Posit10.lt
    rw [show Posit10.nan = -512 by decide]
    simp; omega
  · have := (Posit12.real_iff.mp hv).1
    unfold Posit12.lt
    rw [show Posit12.nan = -2048 by decide]
    simp; omega

example : P8.fmt.IsReal (-127) ∧ Posit8.lt (-128) (-127) = true ∧ Posit12.cfg.fmt.IsReal (-2047) ∧ Posit12.lt (-2048) (-2047) = true := by
  decide +kernel

/-- **C39**, posit10: one and two; the exponent test on nonnegative numbers. Missing: `onehalf()`, `max()`, the infinity
test and negative numbers in the exponent test, which are wrong. -/
theorem C39_posit10_partial :
    Posit10.cfg.fmt.val Posit10.one = 1 ∧ Posit10.cfg.fmt.val Posit10.two = 2 ∧
    Posit10.isNan Posit10.nan = true ∧ (∀ v, Posit10.cfg.fmt.IsReal v → Posit10.isNan v = false) ∧
    (∀ v, Posit10.cfg.fmt.IsReal v → 0 ≤ v → (Posit10.hasNegExponent v = true ↔ Posit10.cfg.fmt.val v < 1)) := by
  refine ⟨by decide +kernel, by decide +kernel, by decide, fun v hv => ?_, fun v hv h0 => ?_⟩
  · have := hv.1
    rw [show Posit10.cfg.fmt.maxBody = 511 by decide] at this
    unfold Posit10.isNan
    simp; intro _; omega
  · have h1 := hv.2
    rw [show Posit10.cfg.fmt.maxBody = 511 by decide] at h1
    have h2 : Posit10.cfg.fmt.val 256 = 1 := by decide +kernel
    rw [← h2, Format.val_lt_iff hv.inRange (by unfold Format.InRange; decide)]
    unfold Posit10.hasNegExponent Posit10.uu
    rw [decide_eq_true_eq]
    omega

example : Posit10.cfg.fmt.IsReal 224 ∧ Posit10.cfg.fmt.val 224 = 1 / 2 ∧ Posit10.hasNegExponent 224 = true ∧ Posit10.hasNegExponent 288 = false := by
  decide +kernel

/-- **C39** does not hold for posit10: `onehalf()` is 1/16; `max()` is not the greatest number; a real counts as infinite and
is returned by `pinfinity()`; on negative numbers other than -1 the exponent test answers the opposite. -/
theorem C39_posit10_wrong :
    Posit10.cfg.fmt.val Posit10.onehalf = 1 / 16 ∧
    (Posit10.cfg.fmt.IsReal 511 ∧ Posit10.cfg.fmt.val Posit10.max < Posit10.cfg.fmt.val 511) ∧
    (Posit10.isInfinity 511 = true ∧ Posit10.pinfinity = 511) ∧
    (∀ v, Posit10.cfg.fmt.IsReal v → v < 0 → v ≠ -256 →
      (Posit10.hasNegExponent v = true ↔ ¬ |Posit10.cfg.fmt.val v| < 1)) := by
  refine ⟨by decide +kernel, by decide +kernel, by decide, fun v hv h0 h1 => ?_⟩
  have h2 := hv.1
  rw [show Posit10.cfg.fmt.maxBody = 511 by decide] at h2
  have h3 : Posit10.cfg.fmt.val (-256) = -1 := by decide +kernel
  rw [abs_of_neg ((Format.val_neg_iff hv.inRange).mpr h0), neg_lt, ← h3, Format.val_lt_iff (by unfold Format.InRange; decide) hv.inRange]
  unfold Posit10.hasNegExponent Posit10.uu
  rw [decide_eq_true_eq]
  omega

example : Posit10.cfg.fmt.val (-128) = -1 / 16 ∧ Posit10.hasNegExponent (-128) = false ∧
    Posit10.cfg.fmt.val 224 = 1 / 2 := by decide +kernel

/-- **C39**, posit12: one, the greatest and least numbers, the NaN test, the exponent test on nonnegative numbers. Missing:
`onehalf()`, the infinity test and negative numbers in the exponent test, which are wrong. -/
theorem C39_posit12_partial :
    Posit12.cfg.fmt.val Posit12.one = 1 ∧
    (∀ v, Posit12.cfg.fmt.IsReal v → Posit12.cfg.fmt.val v ≤ Posit12.cfg.fmt.val Posit12.max) ∧
    (∀ v, Posit12.cfg.fmt.IsReal v → 0 < Posit12.cfg.fmt.val v → Posit12.cfg.fmt.val Posit12.min ≤ Posit12.cfg.fmt.val v) ∧
    Posit12.isNan Posit12.nan = true ∧ (∀ v, Posit12.cfg.fmt.IsReal v → Posit12.isNan v = false) ∧
    (∀ v, Posit12.cfg.fmt.IsReal v → 0 ≤ v → (Posit12.hasNegExponent v = true ↔ Posit12.cfg.fmt.val v < 1)) := by
  refine ⟨by decide +kernel, fun v hv => ?_, fun v hv h => ?_, by decide, fun v hv => ?_, fun v hv h0 => ?_⟩
  · have := Posit12.real_iff.mp hv
    exact (Format.val_le_iff hv.inRange (by unfold Format.InRange; decide)).mpr (by show v ≤ 2047; omega)
  · have h1 := (Format.val_pos_iff hv.inRange).mp h
    exact (Format.val_le_iff (by unfold Format.InRange; decide) hv.inRange).mpr (by show (1 : ℤ) ≤ v; omega)
  · have := Posit12.real_iff.mp hv
    unfold Posit12.isNan
    simp; intro _; omega
  · have h1 := Posit12.real_iff.mp hv
    have h2 : Posit12.cfg.fmt.val 1024 = 1 := by decide +kernel
    rw [← h2, Format.val_lt_iff hv.inRange (by unfold Format.InRange; decide)]
    unfold Posit12.hasNegExponent Posit12.uu
    rw [decide_eq_true_eq]
    omega

example : Posit12.cfg.fmt.IsReal 1300 ∧ Posit12.cfg.fmt.val 1300 = 37 / 8 ∧ Posit12.hasNegExponent 1300 = false ∧
    Posit12.hasNegExponent 733 = true ∧ Posit12.isNan 1300 = false := by decide +kernel

/-- **C39** does not hold for posit12: `onehalf()` is 1/16; the greatest number counts as infinite and is returned by
`pinfinity()`; on negative numbers other than -1 the exponent test answers the opposite. -/
theorem C39_posit12_wrong :
    Posit12.cfg.fmt.val Posit12.onehalf = 1 / 16 ∧
    (Posit12.cfg.fmt.IsReal 2047 ∧ Posit12.isInfinity 2047 = true ∧ Posit12.pinfinity = 2047) ∧
    (∀ v, Posit12.cfg.fmt.IsReal v → v < 0 → v ≠ -1024 →
      (Posit12.hasNegExponent v = true ↔ ¬ |Posit12.cfg.fmt.val v| < 1)) := by
  refine ⟨by decide +kernel, by decide, fun v hv h0 h1 => ?_⟩
  have h2 := (Posit12.real_iff.mp hv).1
  have h3 : Posit12.cfg.fmt.val (-1024) = -1 := by decide +kernel
  rw [abs_of_neg ((Format.val_neg_iff hv.inRange).mpr h0), neg_lt, ← h3, Format.val_lt_iff (by unfold Format.InRange; decide) hv.inRange]
  unfold Posit12.hasNegExponent Posit12.uu
  rw [decide_eq_true_eq]
  omega

example : Posit12.cfg.fmt.IsReal (-733) ∧ Posit12.cfg.fmt.val (-733) = -221 / 1024 ∧ Posit12.hasNegExponent (-733) = false := by decide +kernel

/-! ## C52 -/

/-- **C52**: the posit12 tables of reciprocals, squares and floats hold the exact results rounded toward zero. -/
theorem C52_tables_partial {a : ℤ} (ha : Posit12.cfg.fmt.IsReal a) (ha0 : a ≠ 0) :
    Posit12.cfg.fmt.IsTrunc (1 / Posit12.cfg.fmt.val a) (Posit12.inv a) ∧
    Posit12.cfg.fmt.IsTrunc (Posit12.cfg.fmt.val a * Posit12.cfg.fmt.val a) (Posit12.square a) ∧
    ieee 8 23 (Posit12.toFloat a) = .num (Posit12.cfg.fmt.val a) :=
  ⟨Posit12.inv_real ha ha0, Posit12.square_real ha ha0, Posit12.float_real ha ha0⟩

example : Posit12.cfg.fmt.IsReal (-1300) ∧ Posit12.cfg.fmt.val (-1300) = -37 / 8 ∧ Posit12.inv (-1300) = -733 ∧
    Posit12.cfg.fmt.val (-733) = -221 / 1024 ∧ Posit12.toFloat (-1300) = 0xc0940000 := by decide +kernel

/-- **C52**, NaN and zero -/
theorem C52_special_partial :
    Posit12.inv (-2048) = -2048 ∧ Posit12.square (-2048) = -2048 ∧ Posit12.exp2 (-2048) = -2048 ∧
    ieee 8 23 (Posit12.toFloat (-2048)) = .nan ∧
    Posit12.square 0 = 0 ∧ Posit12.exp2 0 = 1024 ∧ ieee 8 23 (Posit12.toFloat 0) = .num 0 := by
  refine ⟨by decide +kernel, by decide +kernel, by decide +kernel, ?_, by decide +kernel, by decide +kernel, ?_⟩
  · rw [show Posit12.toFloat (-2048) = 0x7fc00000 by decide +kernel]
    simp [ieee]
  · rw [show Posit12.toFloat 0 = 0 by decide +kernel]
    simp [ieee]

/-- **C52** does not hold everywhere: the reciprocal of zero is zero, `2^256` is NaN instead of the greatest number, `2^-256`
is zero instead of the least positive number. -/
theorem C52_wrong :
    Posit12.inv 0 = 0 ∧
    (Posit12.cfg.fmt.val 1792 = 256 ∧ Posit12.exp2 1792 = -2048) ∧
    (Posit12.cfg.fmt.val (-1792) = -256 ∧ Posit12.exp2 (-1792) = 0) := by decide +kernel

/-- The sum of two posit12 numbers is undefined when their exponents are 32 or more apart. -/
theorem C52_add_ub {a b : ℤ} (ha : Posit12.cfg.fmt.IsReal a) (ha0 : a ≠ 0) (hb : Posit12.cfg.fmt.IsReal b) (hb0 : b ≠ 0)
    (hd : 32 ≤ |Posit12.cfg.fmt.scale a - Posit12.cfg.fmt.scale b|) : Posit12.add a b = .error .shiftAmount :=
  C10_add_ub_far (c := Posit12.cfg) (by decide) ha ha0 hb hb0 hd

example : Posit12.cfg.fmt.IsReal 1920 ∧ Posit12.cfg.fmt.IsReal 8 ∧
    32 ≤ |Posit12.cfg.fmt.scale 1920 - Posit12.cfg.fmt.scale 8| := by decide +kernel

end Verif
