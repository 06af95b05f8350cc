import Mathlib.Data.Int.Log
import Mathlib.Data.Rat.Floor

/-!
# Numbers without their fraction (specification)
-/

namespace Verif.Fmt

/-- the power of two in `x`: its sign and leading bit -/
def lead (x : ℚ) : ℚ := if x = 0 then 0 else (if x < 0 then -1 else 1) * 2 ^ (Int.log 2 |x|)

end Verif.Fmt
