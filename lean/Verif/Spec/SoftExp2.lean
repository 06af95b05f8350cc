import Verif.Spec.SoftWrap
import Mathlib.Analysis.SpecialFunctions.Pow.Real

/-! # What is assumed of the C function `exp2`, with its result as a `float` (specification) -/

namespace Verif

/-- Nonnegative, monotone, exact for integers as far as 2^n is a `float`, otherwise with a relative error of at most 2^-22 in the
normal range; infinities and NaN as in the C standard. -/
structure IsExp2 (e : ℕ → ℕ) : Prop where
  lt : ∀ f, e f < 2 ^ 32
  nonneg : ∀ {f x}, ieee 8 23 f = .num x → (∃ y, ieee 8 23 (e f) = .num y ∧ 0 ≤ y) ∨ ieee 8 23 (e f) = .inf false
  mono : ∀ {f f' x x'}, ieee 8 23 f = .num x → ieee 8 23 f' = .num x' → x ≤ x' → ¬ (ieee 8 23 (e f')).Below (ieee 8 23 (e f))
  int : ∀ {f} {n : ℤ}, ieee 8 23 f = .num n → -149 ≤ n → n < 128 → ieee 8 23 (e f) = .num (2 ^ n)
  acc : ∀ {f x}, ieee 8 23 f = .num x → -126 ≤ x → x < 128 →
    ∃ y : ℚ, ieee 8 23 (e f) = .num y ∧ |(y : ℝ) - (2 : ℝ) ^ (x : ℝ)| ≤ (2 : ℝ) ^ (x : ℝ) / 2 ^ 22
  pinf : ∀ {f}, ieee 8 23 f = .inf false → ieee 8 23 (e f) = .inf false
  ninf : ∀ {f}, ieee 8 23 f = .inf true → ieee 8 23 (e f) = .num 0
  nan : ∀ {f}, ieee 8 23 f = .nan → ieee 8 23 (e f) = .nan

end Verif
