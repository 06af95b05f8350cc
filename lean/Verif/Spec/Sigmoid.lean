import Mathlib.Data.Int.Log
import Mathlib.Analysis.Complex.Exponential

/-!
# The logistic function and its piecewise linear approximation

The curve joins the points `(0, 1/2)`, `(1, 3/4)`, `(2, 7/8)`, `(4, 15/16)`, …, `(2^k, 1 - 1/2^(k+2))` by straight lines; on
the other side of zero it is continued by `σ(-x) = 1 - σ(x)`, as for the logistic function itself.
-/

namespace Verif

/-- the curve from zero upwards -/
def sigmoidPos (x : ℚ) : ℚ :=
  if x ≤ 1 then (2 + x) / 4
  else 1 - 1 / 2 ^ (Int.log 2 x + 2) + (x - 2 ^ Int.log 2 x) / 2 ^ (2 * Int.log 2 x + 3)

/-- the curve -/
def sigmoidPL (x : ℚ) : ℚ := if x < 0 then 1 - sigmoidPos (-x) else sigmoidPos x

/-- the logistic function `1/(exp(-x)+1)` that include/posit.h:477 announces -/
noncomputable def logistic (x : ℝ) : ℝ := 1 / (Real.exp (-x) + 1)

end Verif
