import Verif.Model.FloatConv

/-!
# Conversion of a posit to another format through a float type

`Posit` can be constructed from an `Unpacked` of its own fraction and exponent type only (include/posit.h:325); posits with
other types are converted through `float` or `double`.
-/

namespace Verif

/-- `Q((double)p)`, `Q((float)p)` for posit types `P` and `Q` — `operator float`, `operator double` include/posit.h:472-473,
`Posit(float)`, `Posit(double)` 328-329 -/
def Posit.via (c c' : Cfg) (t : FTrait) (v : Int) : M Int := do let b ← Posit.toFloat c t v; Posit.ofFloat c' t b

end Verif
