import Verif.Spec.NarrowConv
import Verif.Spec.FloatArith

/-!
# Extended numbers cut to a float format
-/

namespace Verif
open Fmt

/-- a number cut toward zero to a float format: nothing is left below the normal range, numbers beyond the format become
its greatest number, and others keep `fb + 1` significant bits -/
def floatCut (eb fb : ℕ) (x : ℚ) : ℚ :=
  if |x| < minNorm eb then 0
  else if maxFin eb fb < |x| then (if x < 0 then -maxFin eb fb else maxFin eb fb)
  else cutSig (fb + 1) x

/-- an extended number in a float format -/
def EV.float (eb fb : ℕ) : EV → EV
  | .num x => .num (floatCut eb fb x)
  | .inf s => .inf s
  | .nan => .nan

end Verif
