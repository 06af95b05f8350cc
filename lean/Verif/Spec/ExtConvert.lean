import Verif.Spec.Extended
import Verif.Spec.Fixed
import Verif.Spec.FloatArith
import Verif.Cpp

/-!
# Conversions of extended numbers

What the conversions of a posit do with each number, infinity and NaN, stated without the code.
-/

namespace Verif
open Fmt

/-- the 32-bit integer a posit is converted to. Truncation is right for magnitudes below 1 and from 2 up to `2^31`; the
magnitudes in `[1,2)` are undefined; those in `[2^31,2^32)` lose their top bit; greater ones saturate. -/
def EV.toInt : EV → M ℤ
  | .num x =>
    if |x| < 1 then .ok 0
    else if |x| < 2 then .error .shiftAmount
    else if |x| < 2 ^ 31 then .ok (truncZ x)
    else if |x| < 2 ^ 32 then
      if 0 < x then .ok (truncZ x - 2 ^ 32) else if truncZ x = -2 ^ 31 then .error .overflow else .ok (truncZ x + 2 ^ 32)
    else .ok (if 0 < x then 2 ^ 31 - 1 else -2 ^ 31)
  | _ => .ok 0

/-- the last place of a float below its normal range when read into an `F`-bit fraction -/
def subUnit (eb F : ℕ) : ℚ := 2 ^ ((2 : ℤ) - 2 ^ (eb - 1) - F)

/-- the number a float stands for once its subnormals are read into an `F`-bit fraction: they are cut to multiples of
`subUnit` -/
def readSub (eb F : ℕ) (x : ℚ) : ℚ := if |x| < minNorm eb then cutTo (subUnit eb F) x else x

end Verif
