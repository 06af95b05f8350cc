import Verif.Spec.FloatArith

/-! # Truncation to a float format with subnormals -/

namespace Verif

/-- the least positive number of a float format with subnormals -/
def minSub (eb fb : ℕ) : ℚ := 2 ^ ((2 : ℤ) - 2 ^ (eb - 1) - fb)

/-- `b` is `x` rounded toward zero: the finite float, subnormals included, of the greatest magnitude not above `|x|`, zero or
of the sign of `x`. -/
def IsTowardZero (eb fb : ℕ) (x : ℚ) (b : ℕ) : Prop :=
  ∃ y, ieee eb fb b = .num y ∧ 0 ≤ x * y ∧ |y| ≤ |x| ∧ ∀ g z, ieee eb fb g = .num z → |z| ≤ |x| → |z| ≤ |y|

end Verif
