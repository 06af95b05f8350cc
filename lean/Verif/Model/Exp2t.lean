import Verif.Model.FloatConv

/-!
# `exp2t` for posits

include/exp2t.hpp:11-25: `exp2t(a)` is `(T)(exp2((double)a))`, for `T` a posit `operator double` (include/posit.h:473) and the constructor
from `double` (include/posit.h:329). The C function `exp2` for `double` is a parameter here; arguments and results are bits.
-/

namespace Verif

/-- `exp2t<Posit<…>>(a)` — include/exp2t.hpp:11-25 -/
def Posit.exp2t (c : Cfg) (exp2 : Nat → Nat) (v : Int) : M Int := do
  let d ← Posit.toFloat c .double v
  Posit.ofFloat c .double (exp2 d)

end Verif
