import Verif.Props.Tables
import Mathlib.Analysis.SpecialFunctions.Pow.Real

/-! # The posit8 table of powers of two (C38) -/

namespace Verif
open Fmt

theorem Posit8.pow_le_iff (k n m : ℕ) (x : ℝ) (hx : x * 64 = (n : ℝ) - m) :
    (k : ℝ) / 2 ^ 6 ≤ (2 : ℝ) ^ x ↔ k ^ 64 * 2 ^ m ≤ 2 ^ (384 + n) := by
  have h2 : (0 : ℝ) < 2 ^ x := Real.rpow_pos_of_pos (by norm_num) x
  rw [← pow_le_pow_iff_left₀ (by positivity) h2.le (n := 64) (by norm_num), ← Real.rpow_natCast ((2 : ℝ) ^ x),
    ← Real.rpow_mul (by norm_num), show x * ((64 : ℕ) : ℝ) = (n : ℝ) - m by exact_mod_cast hx, Real.rpow_sub (by norm_num),
    Real.rpow_natCast, Real.rpow_natCast, div_pow, ← pow_mul, div_le_div_iff₀ (by positivity) (by positivity), ← pow_add]
  norm_num only [Nat.reduceMul]
  rw [show n + 384 = 384 + n from add_comm _ _]
  exact_mod_cast Iff.rfl

/-- **C38**, powers of two: for every real operand the entry is the greatest number not above the real number `2^a`, or the
least positive number if there is none; NaN for NaN. -/
theorem C38_exp2 {a : ℤ} (ha : P8.fmt.IsCanonical a) :
    (a = -128 → Posit8.exp2 a = -128) ∧
    (a ≠ -128 → P8.fmt.IsReal (Posit8.exp2 a) ∧ 0 < Posit8.exp2 a ∧
      (Posit8.exp2 a = 1 ∨ (P8.fmt.val (Posit8.exp2 a) : ℝ) ≤ 2 ^ (P8.fmt.val a : ℝ)) ∧
      ∀ w, P8.fmt.IsReal w → ((P8.fmt.val w : ℝ) ≤ 2 ^ (P8.fmt.val a : ℝ) → w ≤ Posit8.exp2 a)) := by
  have ha' := Posit8.canon_iff.mp ha
  constructor
  · rintro rfl; decide +kernel
  intro h1
  have hr : P8.fmt.IsReal a := Posit8.real_iff.mpr (by omega)
  obtain ⟨t, ht, t1, t2, hk⟩ := Posit8.exp2_real hr
  rw [ht]
  have key : ∀ k : ℕ, 2 ≤ k → k ≤ 127 → ((P8.fmt.val (k : ℤ) : ℝ) ≤ 2 ^ (P8.fmt.val a : ℝ) ↔ k ≤ t) := by
    intro k k2 k127
    rw [← hk k k2 k127]
    have hv := (Posit8.val8 (v := (k : ℤ)) (Posit8.real_iff.mpr (by omega)) (by omega)).1
    rw [if_neg (by omega), one_mul, Int.natAbs_natCast] at hv
    rw [show P8.fmt.val (k : ℤ) = _ from hv, ← Posit8.pow_le_iff _ _ _ (P8.fmt.val a : ℝ)]
    · push_cast; rfl
    · by_cases h0 : a = 0
      · subst h0; simp [Format.val_zero]
      · have hv := (Posit8.val8 hr h0).1
        rw [show P8.fmt.val a = _ from hv]
        rcases lt_or_gt_of_ne h0 with h | h
        · simp only [if_pos h, if_neg (show ¬ 0 < a by omega)]; push_cast; ring
        · simp only [if_pos (show 0 < a from h), if_neg (show ¬ a < 0 by omega)]; push_cast; ring
  refine ⟨Posit8.real_iff.mpr (by omega), by omega, ?_, fun w hw hle => ?_⟩
  · rcases Nat.lt_or_ge t 2 with h | h
    · left; omega
    · right; exact (key t h t2).mpr le_rfl
  · have hw' := Posit8.real_iff.mp hw
    rcases lt_or_ge w 2 with h | h
    · omega
    · obtain ⟨k, rfl⟩ := Int.eq_ofNat_of_zero_le (show 0 ≤ w by omega)
      have := (key k (by omega) (by omega)).mp hle
      omega

example : P8.fmt.IsCanonical (-80) ∧ P8.fmt.val (-80) = -3 / 2 ∧ Posit8.exp2 (-80) = 22 ∧ P8.fmt.val 22 = 11 / 32 ∧
    Posit8.exp2 127 = 127 ∧ Posit8.exp2 (-127) = 1 := by decide +kernel

end Verif
