import Verif.Model.TabulatedMore
import Verif.Spec.Ieee
import Verif.Spec.Fixed
import Mathlib.Data.Rat.Floor
import Mathlib.Algebra.Order.Floor.Ring
import Mathlib.Tactic.Linarith
import Mathlib.Tactic.Positivity
import Mathlib.Tactic.NormNum
import Mathlib.Tactic.Ring

/-! # The conversion from `float` to `int` -/

namespace Verif

theorem truncZ_neg {y : ℚ} (h : 0 ≤ y) : truncZ (-y) = -⌊y⌋ := by
  unfold truncZ
  split_ifs with h1
  · have : y = 0 := by linarith
    subst this; simp
  · rw [Int.ceil_neg]

theorem truncZ_pos {y : ℚ} (h : 0 ≤ y) : truncZ y = ⌊y⌋ := if_pos h

theorem truncZ_sg {y : ℚ} {n : ℕ} (h : 0 ≤ y) (hn : ⌊y⌋ = (n : ℤ)) (s : Prop) [Decidable s] :
    truncZ ((if s then -1 else 1) * y) = if s then -(n : ℤ) else n := by
  split_ifs
  · rw [neg_one_mul, truncZ_neg h, hn]
  · rw [one_mul, truncZ_pos h, hn]

theorem truncZ_bounds {x : ℚ} {B : ℤ} (h : |x| ≤ B) : -B ≤ truncZ x ∧ truncZ x ≤ B := by
  obtain ⟨h1, h2⟩ := abs_le.mp h
  unfold truncZ
  split_ifs with h0
  · refine ⟨Int.le_floor.mpr (by push_cast; linarith), ?_⟩
    have := (Int.floor_le x).trans h2
    exact_mod_cast this
  · refine ⟨?_, Int.ceil_le.mpr h2⟩
    have := h1.trans (Int.le_ceil x)
    exact_mod_cast this

/-- a `float` whose number is `x` becomes `x` without its fraction, or is out of range -/
theorem f32ToInt_num {b : ℕ} {x : ℚ} (h : ieee 8 23 b = .num x) :
    f32ToInt b = if -2 ^ 31 ≤ truncZ x ∧ truncZ x < 2 ^ 31 then .ok (truncZ x) else .error .overflow := by
  unfold ieee at h
  unfold f32ToInt
  generalize hm : b % 2 ^ 23 = m at h
  have hm' : m < 2 ^ 23 := by rw [← hm]; exact Nat.mod_lt _ (by norm_num)
  rw [show (2 : ℕ) ^ 8 = 256 by norm_num] at h
  generalize he : b / 2 ^ 23 % 256 = e at h
  have he' : e < 256 := by rw [← he]; exact Nat.mod_lt _ (by norm_num)
  have hmq : (m : ℚ) < 2 ^ 23 := by exact_mod_cast hm'
  simp only [show 8 + 23 = 31 from rfl, decide_eq_true_eq] at h
  have key : ∃ y : ℚ, 0 ≤ y ∧ ⌊y⌋ = ((if e < 127 then 0 else if e < 150 then (2 ^ 23 + m) / 2 ^ (150 - e) else (2 ^ 23 + m) * 2 ^ (e - 150) : ℕ) : ℤ) ∧
      x = (if b / 2 ^ 31 % 2 = 1 then -1 else 1) * y ∧ e ≠ 255 := by
    generalize (if b / 2 ^ 31 % 2 = 1 then (-1 : ℚ) else 1) = sg at h ⊢
    split_ifs at h with h1 h2 h3
    · refine ⟨m * 2 ^ ((2 : ℤ) - 2 ^ (8 - 1) - (23 : ℕ)), by positivity, ?_, ?_, by omega⟩
      · rw [if_pos (by omega), Int.floor_eq_iff]
        refine ⟨by push_cast; positivity, ?_⟩
        rw [show (2 : ℤ) - 2 ^ (8 - 1) - (23 : ℕ) = -149 by norm_num, zpow_neg]
        push_cast
        rw [zero_add, ← div_eq_mul_inv, div_lt_one (by positivity)]
        calc (m : ℚ) < 2 ^ 23 := hmq
          _ ≤ _ := by norm_num
      · injection h with h; exact h.symm
    · refine ⟨(2 ^ 23 + m) * 2 ^ ((e : ℤ) - (2 ^ (8 - 1) - 1) - (23 : ℕ)), by positivity, ?_, ?_, by omega⟩
      · rw [show (e : ℤ) - (2 ^ (8 - 1) - 1) - (23 : ℕ) = e - 150 by norm_num; ring]
        split_ifs with h4 h5
        · rw [Int.floor_eq_iff]
          refine ⟨by push_cast; positivity, ?_⟩
          have : (2 : ℚ) ^ ((e : ℤ) - 150) ≤ 2 ^ (-24 : ℤ) := zpow_le_zpow_right₀ (by norm_num) (by omega)
          push_cast
          rw [zero_add]
          calc ((2 : ℚ) ^ 23 + m) * 2 ^ ((e : ℤ) - 150) ≤ (2 ^ 23 + m) * 2 ^ (-24 : ℤ) := by gcongr
            _ < (2 ^ 23 + 2 ^ 23) * 2 ^ (-24 : ℤ) := by gcongr
            _ = 1 := by norm_num
        · rw [show (e : ℤ) - 150 = -((150 - e : ℕ) : ℤ) by omega, zpow_neg, zpow_natCast, ← div_eq_mul_inv]
          have := Rat.floor_intCast_div_natCast ((2 ^ 23 + m : ℕ) : ℤ) (2 ^ (150 - e))
          push_cast at this ⊢
          exact this
        · rw [show (e : ℤ) - 150 = ((e - 150 : ℕ) : ℤ) by omega, zpow_natCast]
          have : ((2 : ℚ) ^ 23 + m) * 2 ^ (e - 150) = (((2 ^ 23 + m) * 2 ^ (e - 150) : ℕ) : ℤ) := by push_cast; ring
          rw [this, Int.floor_intCast]
      · injection h with h; exact h.symm
  obtain ⟨y, y0, yf, rfl, hne⟩ := key
  rw [truncZ_sg y0 yf, if_neg hne]

theorem f32ToInt_other {b : ℕ} (h : ∀ x, ieee 8 23 b ≠ .num x) : f32ToInt b = .error .overflow := by
  by_cases h1 : b / 2 ^ 23 % 256 = 255
  · exact if_pos h1
  · by_cases h2 : b / 2 ^ 23 % 256 = 0
    · exact absurd ((if_neg h1).trans (if_pos h2)) (h _)
    · exact absurd ((if_neg h1).trans (if_neg h2)) (h _)

end Verif
