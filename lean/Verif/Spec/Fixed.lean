import Mathlib.Algebra.Order.Floor.Ring
import Mathlib.Data.Rat.Floor

/-! # Conversion of a number to a signed integer (specification) -/

namespace Verif

/-- rounding toward zero -/
def truncZ (x : ℚ) : ℤ := if 0 ≤ x then ⌊x⌋ else ⌈x⌉

/-- the nearest value of a signed `N`-bit type -/
def satZ (N : ℕ) (i : ℤ) : ℤ := max (-2 ^ (N - 1)) (min (2 ^ (N - 1) - 1) i)

end Verif
