import Verif.Model.PositF

/-!
# The members of `PositF` that do not convert to a float — include/positf.h:69-75, 88-100, 131-145, 161-173, 226-261

`neg`, `abs`, `isNaN`, `isnegative`, `iszero`, `isone`, `prev`, `next`, the constants, `pseudosigmoid`, `pseudosoftplus`,
`isUnitRange` and `urOneMinus` are the same expressions as in `Posit` (positf.h:88-89, 94-95, 97-100, 131-145, 161-170), so the
definitions of Model/Posit.lean stand for both classes.  The members below are not.
-/

namespace Verif.PositF

/-- `operator==` — include/positf.h:69: no test for NaN -/
def eq (a u : Int) : Bool := a = u
/-- `operator!=` — include/positf.h:70 -/
def ne (a u : Int) : Bool := a ≠ u
/-- `operator<` — include/positf.h:71 -/
def lt (a u : Int) : Bool := a < u
/-- `operator<=` — include/positf.h:72 -/
def le (a u : Int) : Bool := a ≤ u
/-- `operator>` — include/positf.h:74 -/
def gt (a u : Int) : Bool := a > u
/-- `operator>=` — include/positf.h:75 -/
def ge (a u : Int) : Bool := a ≥ u

/-- `isinfinity()` — include/positf.h:96: without the test of `positspec` that `Posit` has -/
def isInfinity (c : Cfg) (v : Int) : Bool := v = c.pinf || v = c.ninf

/-- `std::abs` — include/positf.h:228-233, and `abs()` — include/positf.h:88: `v < 0 ? -v : v` stored in `T` -/
def abs (c : Cfg) (v : Int) : M Int := if v < 0 then do let y ← arithS c.H (-v); return wrapS c.H y else return v
/-- `std::min` — include/positf.h:235-239 -/
def stdMin (a b : Int) : Int := if le a b then a else b
/-- `std::max` — include/positf.h:241-245 -/
def stdMax (a b : Int) : Int := if ge a b then a else b

/-- `urDeltaPs()` — include/positf.h:173 -/
def urDeltaPs (c : Cfg) (t : FTrait) (o : FloatOps) (v : Int) : M Int := mul c t o v (Posit.urOneMinus c v)

/-- `numeric_limits::epsilon()` — include/positf.h:261 -/
def epsilon (c : Cfg) (t : FTrait) (o : FloatOps) : M Int := do
  let n ← Posit.next c c.one
  sub c t o n c.one

end Verif.PositF
