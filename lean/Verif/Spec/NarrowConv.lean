import Verif.Spec.Extended
import Verif.Spec.SoftFloat

/-!
# Extended numbers cut to some significant bits
-/

namespace Verif
open Fmt

/-- an extended number of which the first `m` significant bits are kept -/
def EV.cut (m : ℕ) : EV → EV
  | .num x => .num (cutSig m x)
  | .inf s => .inf s
  | .nan => .nan

end Verif
