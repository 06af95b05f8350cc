import Mathlib.Algebra.Order.Field.Rat
import Mathlib.Algebra.Order.Field.Power

/-! # Numbers with at most `m` significant bits -/

namespace Verif.Fmt

/-- `x` can be written with at most `m` significant bits -/
def Fits (m : ℕ) (x : ℚ) : Prop := ∃ n X : ℤ, |n| < 2 ^ m ∧ x = n * 2 ^ X

end Verif.Fmt
