import Verif.Props.Posit10
import Verif.Props.Binary8Gen
import Verif.Lemmas.F32ToInt
import Mathlib.Order.WithBot

/-! # The tabulated classes: order, constants and conversions of all of them (C76, C77) -/

namespace Verif
open Fmt

/-! ## C76 -/

/-- the number of a pattern, with a place for NaN below all numbers -/
def rank (f : Format) (v : ℤ) : WithBot ℚ := if f.IsReal v then (f.val v : WithBot ℚ) else ⊥

theorem rank_lt {f : Format} {B : ℤ} (hr : ∀ v, f.IsReal v ↔ -B ≤ v ∧ v ≤ B) {a b : ℤ} (ha : -B - 1 ≤ a ∧ a ≤ B) (hb : -B - 1 ≤ b ∧ b ≤ B) :
    rank f a < rank f b ↔ a < b := by
  unfold rank
  split_ifs with h1 h2 h2
  · rw [WithBot.coe_lt_coe, Format.val_lt_iff h1.inRange h2.inRange]
  · rw [hr] at h1 h2
    simp only [not_lt_bot, false_iff]; omega
  · rw [hr] at h1 h2
    simp only [WithBot.bot_lt_coe, true_iff]; omega
  · rw [hr] at h1 h2
    simp only [lt_self_iff_false, false_iff]; omega

theorem rank_le {f : Format} {B : ℤ} (hr : ∀ v, f.IsReal v ↔ -B ≤ v ∧ v ≤ B) {a b : ℤ} (ha : -B - 1 ≤ a ∧ a ≤ B) (hb : -B - 1 ≤ b ∧ b ≤ B) :
    rank f a ≤ rank f b ↔ a ≤ b := by
  rw [← not_lt, rank_lt hr hb ha, not_lt]

theorem rank_eq {f : Format} {B : ℤ} (hr : ∀ v, f.IsReal v ↔ -B ≤ v ∧ v ≤ B) {a b : ℤ} (ha : -B - 1 ≤ a ∧ a ≤ B) (hb : -B - 1 ≤ b ∧ b ≤ B) :
    rank f a = rank f b ↔ a = b := by
  rw [le_antisymm_iff, rank_le hr ha hb, rank_le hr hb ha, ← le_antisymm_iff]

theorem posit10_real_iff {v : ℤ} : Posit10.cfg.fmt.IsReal v ↔ -511 ≤ v ∧ v ≤ 511 := by
  unfold Format.IsReal
  rw [show Posit10.cfg.fmt.maxBody = 511 by decide]; norm_num

theorem posit10_canon_iff {v : ℤ} : Posit10.cfg.fmt.IsCanonical v ↔ -512 ≤ v ∧ v ≤ 511 := by
  unfold Format.IsCanonical
  rw [show Posit10.cfg.fmt.N = 10 from rfl]
  norm_num
  intro _
  omega

/-- **C76**, `posit8`: the six comparisons, minimum and maximum order all patterns by value with NaN below every number. -/
theorem C76_posit8_order {a b : ℤ} (ha : P8.fmt.IsCanonical a) (hb : P8.fmt.IsCanonical b) :
    (Posit8.lt a b = true ↔ rank P8.fmt a < rank P8.fmt b) ∧ (Posit8.gt a b = true ↔ rank P8.fmt b < rank P8.fmt a) ∧
    (Posit8.le a b = true ↔ rank P8.fmt a ≤ rank P8.fmt b) ∧ (Posit8.ge a b = true ↔ rank P8.fmt b ≤ rank P8.fmt a) ∧
    (Posit8.eq a b = true ↔ rank P8.fmt a = rank P8.fmt b) ∧ (Posit8.ne a b = true ↔ rank P8.fmt a ≠ rank P8.fmt b) ∧
    rank P8.fmt (Posit8.min2 a b) = min (rank P8.fmt a) (rank P8.fmt b) ∧
    rank P8.fmt (Posit8.max2 a b) = max (rank P8.fmt a) (rank P8.fmt b) := by
  have ha' := Posit8.canon_iff.mp ha
  have hb' := Posit8.canon_iff.mp hb
  have hr : ∀ v, P8.fmt.IsReal v ↔ -127 ≤ v ∧ v ≤ 127 := fun v => Posit8.real_iff
  have A : -127 - 1 ≤ a ∧ a ≤ 127 := by omega
  have B : -127 - 1 ≤ b ∧ b ≤ 127 := by omega
  rw [rank_lt hr A B, rank_lt hr B A, rank_le hr A B, rank_le hr B A, Ne, rank_eq hr A B]
  refine ⟨by simp [Posit8.lt], by simp [Posit8.gt], by simp [Posit8.le], by simp [Posit8.ge], by simp [Posit8.eq],
    by simp [Posit8.ne], ?_, ?_⟩
  · unfold Posit8.min2
    split_ifs with h
    · exact (min_eq_left ((rank_le hr A B).mpr h)).symm
    · exact (min_eq_right ((rank_le hr B A).mpr (by omega))).symm
  · unfold Posit8.max2
    split_ifs with h
    · exact (max_eq_left ((rank_le hr B A).mpr h)).symm
    · exact (max_eq_right ((rank_le hr A B).mpr (by omega))).symm

example : P8.fmt.IsCanonical (-104) ∧ P8.fmt.IsCanonical (-128) ∧ ¬ P8.fmt.IsReal (-128) ∧ Posit8.gt (-104) (-128) = true ∧
    Posit8.le (-104) (-100) = true ∧ P8.fmt.val (-104) = -3 ∧ P8.fmt.val (-100) = -5 / 2 := by decide +kernel

/-- **C76**, `posit10`: the six comparisons, minimum and maximum order all patterns by value with NaN below every number; the
sign test finds NaN and the negative numbers. -/
theorem C76_posit10_order {a b : ℤ} (ha : Posit10.cfg.fmt.IsCanonical a) (hb : Posit10.cfg.fmt.IsCanonical b) :
    (Posit10.lt a b = true ↔ rank Posit10.cfg.fmt a < rank Posit10.cfg.fmt b) ∧
    (Posit10.gt a b = true ↔ rank Posit10.cfg.fmt b < rank Posit10.cfg.fmt a) ∧
    (Posit10.le a b = true ↔ rank Posit10.cfg.fmt a ≤ rank Posit10.cfg.fmt b) ∧
    (Posit10.ge a b = true ↔ rank Posit10.cfg.fmt b ≤ rank Posit10.cfg.fmt a) ∧
    (Posit10.eq a b = true ↔ rank Posit10.cfg.fmt a = rank Posit10.cfg.fmt b) ∧
    (Posit10.ne a b = true ↔ rank Posit10.cfg.fmt a ≠ rank Posit10.cfg.fmt b) ∧
    rank Posit10.cfg.fmt (Posit10.min2 a b) = min (rank Posit10.cfg.fmt a) (rank Posit10.cfg.fmt b) ∧
    rank Posit10.cfg.fmt (Posit10.max2 a b) = max (rank Posit10.cfg.fmt a) (rank Posit10.cfg.fmt b) ∧
    (Posit10.isNegative a = true ↔ rank Posit10.cfg.fmt a < 0) := by
  have A := posit10_canon_iff.mp ha
  have B := posit10_canon_iff.mp hb
  have hr : ∀ v, Posit10.cfg.fmt.IsReal v ↔ -511 ≤ v ∧ v ≤ 511 := fun v => posit10_real_iff
  have A : -511 - 1 ≤ a ∧ a ≤ 511 := by omega
  have B : -511 - 1 ≤ b ∧ b ≤ 511 := by omega
  have h0 : (0 : WithBot ℚ) = rank Posit10.cfg.fmt 0 := by
    unfold rank; rw [if_pos (by decide), Format.val_zero]; rfl
  rw [h0, rank_lt hr A B, rank_lt hr B A, rank_le hr A B, rank_le hr B A, Ne, rank_eq hr A B, rank_lt hr A (by norm_num)]
  refine ⟨by simp [Posit10.lt], by simp [Posit10.gt], by simp [Posit10.le], by simp [Posit10.ge], by simp [Posit10.eq],
    by simp [Posit10.ne], ?_, ?_, by simp [Posit10.isNegative]⟩
  · unfold Posit10.min2 Posit10.le
    simp only [decide_eq_true_eq]
    split_ifs with h
    · exact (min_eq_left ((rank_le hr A B).mpr h)).symm
    · exact (min_eq_right ((rank_le hr B A).mpr (by omega))).symm
  · unfold Posit10.max2 Posit10.ge
    simp only [decide_eq_true_eq]
    split_ifs with h
    · exact (max_eq_left ((rank_le hr B A).mpr h)).symm
    · exact (max_eq_right ((rank_le hr A B).mpr (by omega))).symm

example : Posit10.cfg.fmt.IsCanonical (-288) ∧ Posit10.cfg.fmt.IsCanonical (-512) ∧ ¬ Posit10.cfg.fmt.IsReal (-512) ∧
    Posit10.gt (-288) (-512) = true ∧ Posit10.min2 (-288) 256 = -288 ∧ Posit10.cfg.fmt.val (-288) = -2 := by decide +kernel

/-- **C76**, `posit12`: the same. -/
theorem C76_posit12_order {a b : ℤ} (ha : Posit12.cfg.fmt.IsCanonical a) (hb : Posit12.cfg.fmt.IsCanonical b) :
    (Posit12.lt a b = true ↔ rank Posit12.cfg.fmt a < rank Posit12.cfg.fmt b) ∧
    (Posit12.gt a b = true ↔ rank Posit12.cfg.fmt b < rank Posit12.cfg.fmt a) ∧
    (Posit12.le a b = true ↔ rank Posit12.cfg.fmt a ≤ rank Posit12.cfg.fmt b) ∧
    (Posit12.ge a b = true ↔ rank Posit12.cfg.fmt b ≤ rank Posit12.cfg.fmt a) ∧
    (Posit12.eq a b = true ↔ rank Posit12.cfg.fmt a = rank Posit12.cfg.fmt b) ∧
    (Posit12.ne a b = true ↔ rank Posit12.cfg.fmt a ≠ rank Posit12.cfg.fmt b) ∧
    rank Posit12.cfg.fmt (Posit12.min2 a b) = min (rank Posit12.cfg.fmt a) (rank Posit12.cfg.fmt b) ∧
    rank Posit12.cfg.fmt (Posit12.max2 a b) = max (rank Posit12.cfg.fmt a) (rank Posit12.cfg.fmt b) ∧
    (Posit12.isNegative a = true ↔ rank Posit12.cfg.fmt a < 0) := by
  have A := Posit12.canon_iff.mp ha
  have B := Posit12.canon_iff.mp hb
  have hr : ∀ v, Posit12.cfg.fmt.IsReal v ↔ -2047 ≤ v ∧ v ≤ 2047 := fun v => Posit12.real_iff
  have A : -2047 - 1 ≤ a ∧ a ≤ 2047 := by omega
  have B : -2047 - 1 ≤ b ∧ b ≤ 2047 := by omega
  have h0 : (0 : WithBot ℚ) = rank Posit12.cfg.fmt 0 := by
    unfold rank; rw [if_pos (by decide), Format.val_zero]; rfl
  rw [h0, rank_lt hr A B, rank_lt hr B A, rank_le hr A B, rank_le hr B A, Ne, rank_eq hr A B, rank_lt hr A (by norm_num)]
  refine ⟨by simp [Posit12.lt], by simp [Posit12.gt], by simp [Posit12.le], by simp [Posit12.ge], by simp [Posit12.eq],
    by simp [Posit12.ne], ?_, ?_, by simp [Posit12.isNegative]⟩
  · unfold Posit12.min2 Posit12.le
    simp only [decide_eq_true_eq]
    split_ifs with h
    · exact (min_eq_left ((rank_le hr A B).mpr h)).symm
    · exact (min_eq_right ((rank_le hr B A).mpr (by omega))).symm
  · unfold Posit12.max2 Posit12.ge
    simp only [decide_eq_true_eq]
    split_ifs with h
    · exact (max_eq_left ((rank_le hr B A).mpr h)).symm
    · exact (max_eq_right ((rank_le hr A B).mpr (by omega))).symm

example : Posit12.cfg.fmt.IsCanonical (-1152) ∧ Posit12.cfg.fmt.IsCanonical (-2048) ∧ ¬ Posit12.cfg.fmt.IsReal (-2048) ∧
    Posit12.gt (-1152) (-2048) = true ∧ Posit12.max2 (-1152) 1024 = 1024 ∧ Posit12.cfg.fmt.val (-1152) = -2 := by decide +kernel

/-- **C76**, constants: `afterone()` is the least number above one and `epsilon()` its distance from one, in `posit8`, `posit10`
(its tables made with correct `float` arithmetic) and `posit12`; `zero()` is zero. -/
theorem C76_epsilon {o : FloatOps} (ho : o.Correct 8 23) :
    (P8.fmt.val Posit8.zero = 0 ∧ P8.fmt.IsReal Posit8.afterone ∧ 1 < P8.fmt.val Posit8.afterone ∧
      (∀ v, P8.fmt.IsReal v → 1 < P8.fmt.val v → P8.fmt.val Posit8.afterone ≤ P8.fmt.val v) ∧
      P8.fmt.IsReal Posit8.epsilon ∧ 1 + P8.fmt.val Posit8.epsilon = P8.fmt.val Posit8.afterone) ∧
    (Posit10.cfg.fmt.val Posit10.zero = 0 ∧ Posit10.cfg.fmt.IsReal Posit10.afterone ∧ 1 < Posit10.cfg.fmt.val Posit10.afterone ∧
      (∀ v, Posit10.cfg.fmt.IsReal v → 1 < Posit10.cfg.fmt.val v → Posit10.cfg.fmt.val Posit10.afterone ≤ Posit10.cfg.fmt.val v) ∧
      ∃ e, Posit10.epsilon o = .ok e ∧ Posit10.cfg.fmt.IsReal e ∧
        1 + Posit10.cfg.fmt.val e = Posit10.cfg.fmt.val Posit10.afterone) ∧
    (Posit12.cfg.fmt.IsReal Posit12.afterone ∧ 1 < Posit12.cfg.fmt.val Posit12.afterone ∧
      (∀ v, Posit12.cfg.fmt.IsReal v → 1 < Posit12.cfg.fmt.val v → Posit12.cfg.fmt.val Posit12.afterone ≤ Posit12.cfg.fmt.val v) ∧
      ∃ e, Posit12.epsilon = .ok e ∧ Posit12.cfg.fmt.IsReal e ∧
        1 + Posit12.cfg.fmt.val e = Posit12.cfg.fmt.val Posit12.afterone) := by
  have nxt : ∀ {f : Format} {p q : ℤ}, f.InRange p → f.InRange q → q = p + 1 → f.val p = 1 →
      ∀ v, f.IsReal v → 1 < f.val v → f.val q ≤ f.val v := by
    intro f p q hp hq hpq h1 v hv h
    rw [← h1, Format.val_lt_iff hp hv.inRange] at h
    exact (Format.val_le_iff hq hv.inRange).mpr (by omega)
  refine ⟨⟨by decide +kernel, by decide, by decide +kernel, ?_, by decide +kernel, by decide +kernel⟩,
    ⟨by decide +kernel, by decide, by decide +kernel, ?_, ?_⟩, by decide, by decide +kernel, ?_, 320, by decide +kernel, by decide, by decide +kernel⟩
  · exact nxt (p := 64) (by unfold Format.InRange; decide) (by unfold Format.InRange; decide) (by decide) (by decide +kernel)
  · exact nxt (p := 256) (by unfold Format.InRange; decide) (by unfold Format.InRange; decide) (by decide) (by decide +kernel)
  · obtain ⟨e, he, hf, -, ht⟩ := C55_posit10_sub ho (a := Posit10.afterone) (b := Posit10.one) (by decide) (by decide)
    have hx : Posit10.cfg.fmt.val Posit10.afterone - Posit10.cfg.fmt.val Posit10.one = Posit10.cfg.fmt.val 112 := by decide +kernel
    have h9 : Posit10.cfg.fmt.IsReal 112 := by decide
    have hfit : Fits 24 (Posit10.cfg.fmt.val Posit10.afterone - Posit10.cfg.fmt.val Posit10.one) := by
      rw [hx]; exact ⟨1, -5, by norm_num, by decide +kernel⟩
    have := ht (by decide) hfit
    rw [hx] at this
    have e9 : e = 112 := this.unique (Format.isTrunc_val h9 (by decide))
    subst e9
    exact ⟨112, he, h9, by decide +kernel⟩
  · exact nxt (p := 1024) (by unfold Format.InRange; decide) (by unfold Format.InRange; decide) (by decide) (by decide +kernel)

example : P8.fmt.val Posit8.afterone = 33 / 32 ∧ P8.fmt.val Posit8.epsilon = 1 / 32 ∧
    ∃ o : FloatOps, o.Correct 8 23 ∧ ∃ e, Posit10.epsilon o = .ok e ∧ Posit10.cfg.fmt.IsReal e := by
  obtain ⟨o, ho⟩ := floatOps_exists (eb := 8) (fb := 23) (by norm_num) (by norm_num)
  obtain ⟨e, h1, h2, -⟩ := (C76_epsilon ho).2.1.2.2.2.2
  exact ⟨by decide +kernel, by decide +kernel, o, ho, e, h1, h2⟩

/-- **C76** does not hold for the infinite constants: `ninfinity()` of `posit8` is NaN, and that of `posit10` and `posit12` is the
least real, for which the infinity test answers yes. -/
theorem C76_ninfinity_wrong :
    Posit8.ninfinity = Posit8.nan ∧
    (Posit10.cfg.fmt.IsReal Posit10.ninfinity ∧ Posit10.isInfinity Posit10.ninfinity = true ∧
      ∀ v, Posit10.cfg.fmt.IsReal v → Posit10.cfg.fmt.val Posit10.ninfinity ≤ Posit10.cfg.fmt.val v) ∧
    (Posit12.cfg.fmt.IsReal Posit12.ninfinity ∧ Posit12.isInfinity Posit12.ninfinity = true ∧
      ∀ v, Posit12.cfg.fmt.IsReal v → Posit12.cfg.fmt.val Posit12.ninfinity ≤ Posit12.cfg.fmt.val v) := by
  refine ⟨by decide, ⟨by decide, by decide, fun v hv => ?_⟩, by decide, by decide, fun v hv => ?_⟩
  · exact (Format.val_le_iff (by unfold Format.InRange; decide) hv.inRange).mpr (posit10_real_iff.mp hv).1
  · exact (Format.val_le_iff (by unfold Format.InRange; decide) hv.inRange).mpr (Posit12.real_iff.mp hv).1

example : Posit12.ninfinity = -2047 ∧ Posit12.cfg.fmt.IsReal (-2047) ∧ Posit12.isInfinity (-2047) = true := by decide +kernel

/-! ## C77 -/

/-- **C77**, to `int`, `posit8`: every real becomes its value without the fraction; NaN is undefined. -/
theorem C77_posit8_int {v : ℤ} (hv : P8.fmt.IsCanonical v) :
    (P8.fmt.IsReal v → Posit8.toInt v = .ok (truncZ (P8.fmt.val v))) ∧
    (¬ P8.fmt.IsReal v → Posit8.toInt v = .error .overflow) := by
  obtain ⟨h1, h2⟩ := C38_toFloat hv
  have hc := Posit8.canon_iff.mp hv
  rw [show P8.fmt.IsReal v ↔ -127 ≤ v ∧ v ≤ 127 from Posit8.real_iff]
  refine ⟨fun hr => ?_, fun hr => ?_⟩
  · unfold Posit8.toInt
    rw [f32ToInt_num (h2 (by omega)), if_pos]
    have hv' : P8.fmt.IsReal v := Posit8.real_iff.mpr hr
    have hm : |P8.fmt.val v| ≤ ((64 : ℤ) : ℚ) := by
      have e1 : P8.fmt.val 127 = 64 := by decide +kernel
      have e2 : P8.fmt.val (-127) = -64 := by decide +kernel
      have h3 := (Format.val_le_iff hv'.inRange (w := 127) (by unfold Format.InRange; decide)).mpr hr.2
      have h4 := (Format.val_le_iff (v := -127) (by unfold Format.InRange; decide) hv'.inRange).mpr hr.1
      rw [e1] at h3
      rw [e2] at h4
      exact abs_le.mpr ⟨by push_cast; exact h4, by push_cast; exact h3⟩
    have := truncZ_bounds hm
    omega
  · unfold Posit8.toInt
    rw [f32ToInt_other fun x => by rw [h1 (by omega)]; exact fun h => by injection h]

example : P8.fmt.IsReal (-105) ∧ P8.fmt.val (-105) = -25 / 8 ∧ Posit8.toInt (-105) = .ok (-3) ∧
    Posit8.toInt (-128) = .error .overflow := by decide +kernel

/-- **C77**, to `int`, `posit12`: a real becomes its value without the fraction when that fits, and is undefined when it does
not; NaN is undefined. -/
theorem C77_posit12_int {v : ℤ} (hv : Posit12.cfg.fmt.IsCanonical v) :
    (Posit12.cfg.fmt.IsReal v → -2 ^ 31 ≤ truncZ (Posit12.cfg.fmt.val v) → truncZ (Posit12.cfg.fmt.val v) < 2 ^ 31 →
      Posit12.toInt v = .ok (truncZ (Posit12.cfg.fmt.val v))) ∧
    (Posit12.cfg.fmt.IsReal v → ¬ (-2 ^ 31 ≤ truncZ (Posit12.cfg.fmt.val v) ∧ truncZ (Posit12.cfg.fmt.val v) < 2 ^ 31) →
      Posit12.toInt v = .error .overflow) ∧
    (¬ Posit12.cfg.fmt.IsReal v → Posit12.toInt v = .error .overflow) := by
  have hc := Posit12.canon_iff.mp hv
  have hf : Posit12.cfg.fmt.IsReal v → ieee 8 23 (Posit12.toFloat v) = .num (Posit12.cfg.fmt.val v) := by
    intro hr
    by_cases h0 : v = 0
    · subst h0; rw [Format.val_zero]; exact C52_special_partial.2.2.2.2.2.2
    · exact Posit12.float_real hr h0
  unfold Posit12.toInt
  refine ⟨fun hr h1 h2 => by rw [f32ToInt_num (hf hr), if_pos ⟨h1, h2⟩], fun hr h => by rw [f32ToInt_num (hf hr), if_neg h],
    fun hr => ?_⟩
  rw [Posit12.real_iff] at hr
  obtain rfl : v = -2048 := by omega
  exact f32ToInt_other fun x => by rw [C52_special_partial.2.2.2.1]; exact fun h => by injection h

example : Posit12.cfg.fmt.val (-1300) = -37 / 8 ∧ Posit12.toInt (-1300) = .ok (-4) ∧ Posit12.cfg.fmt.IsReal 2046 ∧
    Posit12.toInt 2046 = .error .overflow := by decide +kernel

/-- **C77**, to `int`, `posit10`: the same. -/
theorem C77_posit10_int {v : ℤ} (hv : Posit10.cfg.fmt.IsCanonical v) :
    (Posit10.cfg.fmt.IsReal v → -2 ^ 31 ≤ truncZ (Posit10.cfg.fmt.val v) → truncZ (Posit10.cfg.fmt.val v) < 2 ^ 31 →
      Posit10.toInt v = .ok (truncZ (Posit10.cfg.fmt.val v))) ∧
    (Posit10.cfg.fmt.IsReal v → ¬ (-2 ^ 31 ≤ truncZ (Posit10.cfg.fmt.val v) ∧ truncZ (Posit10.cfg.fmt.val v) < 2 ^ 31) →
      Posit10.toInt v = .error .overflow) ∧
    (¬ Posit10.cfg.fmt.IsReal v → Posit10.toInt v = .error .overflow) := by
  have hc := posit10_canon_iff.mp hv
  have hu : ∀ b, Posit.toFloat Posit10.cfg .single v = .ok b → Posit10.toInt v = f32ToInt b := by
    intro b hb
    unfold Posit10.toInt Posit10.toFloat
    rw [Posit10.genFloat_uu hv, hb]; rfl
  have hf : Posit10.cfg.fmt.IsReal v → ∃ b, Posit10.toInt v = f32ToInt b ∧ ieee 8 23 b = .num (Posit10.cfg.fmt.val v) := by
    intro hr
    obtain ⟨b, hb, hbv⟩ := floatFor_posit10.toFloat hr
    exact ⟨b, hu b hb, hbv⟩
  refine ⟨fun hr h1 h2 => ?_, fun hr h => ?_, fun hr => ?_⟩
  · obtain ⟨b, hb, hbv⟩ := hf hr
    rw [hb, f32ToInt_num hbv, if_pos ⟨h1, h2⟩]
  · obtain ⟨b, hb, hbv⟩ := hf hr
    rw [hb, f32ToInt_num hbv, if_neg h]
  · rw [posit10_real_iff] at hr
    obtain rfl : v = -512 := by omega
    decide +kernel

example : Posit10.cfg.fmt.val (-321) = -33 / 8 ∧ Posit10.toInt (-321) = .ok (-4) ∧ Posit10.cfg.fmt.IsReal 511 ∧
    Posit10.toInt 511 = .error .overflow := by decide +kernel

/-- **C77**, to `int`, `binary8tab`: every finite number becomes its value without the fraction; infinities and NaN are
undefined. -/
theorem C77_binary8_int (v : ℤ) :
    (∀ x, Binary8.value v = .num x → Binary8.toInt v = .ok (truncZ x)) ∧
    ((∀ x, Binary8.value v ≠ .num x) → Binary8.toInt v = .error .overflow) := by
  obtain ⟨p, hp, -, hpv⟩ := C58_toFloat v
  have hu : Binary8.toInt v = f32ToInt p := by unfold Binary8.toInt; rw [hp]; rfl
  rw [hu]
  refine ⟨fun x hx => ?_, fun h => f32ToInt_other (by rw [hpv]; exact h)⟩
  rw [f32ToInt_num (hpv.trans hx), if_pos]
  have := truncZ_bounds (B := 65536) ((abs8 hx).trans (by norm_num))
  omega

example : Binary8.value (-62) = .num (-3) ∧ Binary8.toInt (-62) = .ok (-3) ∧ Binary8.toInt 124 = .error .overflow := by decide +kernel

/-- **C77**, to `double`: exact for every pattern of every class, given that `float` converts exactly to `double`. -/
theorem C77_double {d : DoubleConv} (hd : d.Correct 8 23) :
    (∀ v, P8.fmt.IsReal v → ieee 11 52 (Posit8.toDouble d v) = .num (P8.fmt.val v)) ∧
    ieee 11 52 (Posit8.toDouble d (-128)) = .nan ∧
    (∀ v, Posit10.cfg.fmt.IsReal v → ∃ b, Posit10.toDouble d v = .ok b ∧ ieee 11 52 b = .num (Posit10.cfg.fmt.val v)) ∧
    (∃ b, Posit10.toDouble d (-512) = .ok b ∧ ieee 11 52 b = .nan) ∧
    (∀ v, Posit12.cfg.fmt.IsReal v → ieee 11 52 (Posit12.toDouble d v) = .num (Posit12.cfg.fmt.val v)) ∧
    ieee 11 52 (Posit12.toDouble d (-2048)) = .nan ∧
    (∀ v, ∃ b, Binary8.toDouble d v = .ok b ∧ ieee 11 52 b = Binary8.value v) := by
  refine ⟨fun v hv => ?_, ?_, fun v hv => ?_, ?_, fun v hv => ?_, ?_, fun v => ?_⟩
  · unfold Posit8.toDouble
    rw [hd.widen]
    exact (C38_toFloat hv.canonical).2 (by have := Posit8.real_iff.mp hv; omega)
  · unfold Posit8.toDouble
    rw [hd.widen]
    exact (C38_toFloat (by decide)).1 rfl
  · obtain ⟨b, hb, hbv⟩ := floatFor_posit10.toFloat hv
    refine ⟨d.widen b, ?_, by rw [hd.widen]; exact hbv⟩
    unfold Posit10.toDouble Posit10.toFloat
    rw [Posit10.genFloat_uu (Posit10.canonical hv), hb]; rfl
  · obtain ⟨b, hb, hbv⟩ := floatFor_posit10.toFloat_nan (v := -512) (by decide) (by decide)
    refine ⟨d.widen b, ?_, by rw [hd.widen]; exact hbv⟩
    unfold Posit10.toDouble Posit10.toFloat
    rw [Posit10.genFloat_uu (by decide), hb]; rfl
  · unfold Posit12.toDouble
    rw [hd.widen]
    by_cases h0 : v = 0
    · subst h0; rw [Format.val_zero]; exact C52_special_partial.2.2.2.2.2.2
    · exact Posit12.float_real hv h0
  · unfold Posit12.toDouble
    rw [hd.widen]
    exact C52_special_partial.2.2.2.1
  · obtain ⟨p, hp, -, hpv⟩ := C58_toFloat v
    exact ⟨d.widen p, by unfold Binary8.toDouble; rw [hp]; rfl, by rw [hd.widen, hpv]⟩

/-- -25/8 -/
example {d : DoubleConv} (hd : d.Correct 8 23) : ieee 11 52 (Posit8.toDouble d (-105)) = .num (-25 / 8) := by
  rw [(C77_double hd).1 (-105) (by decide)]
  congr 1
  decide +kernel

end Verif
