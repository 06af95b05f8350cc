import Verif.Model.Posit

/-!
# Operators on delayed products and compound assignments — include/posit.h

With `POSITMUL` defined `operator*` returns a `PositMul` (include/posit.h:364-367) that keeps the two factors
(include/posit.h:239-242).  A `PositMul` is modelled as the pair of its factors.
-/

namespace Verif.Posit

/-- `struct PositMul` — include/posit.h:239-242. -/
structure Delayed where
  a : Int
  b : Int
  deriving DecidableEq, Repr

/-- `PositMul::asPosit()` and the conversion to `Posit` — include/posit.h:244-246. -/
def Delayed.asPosit (c : Cfg) (m : Delayed) : M Int := do
  let ua ← unpack c m.a; let ub ← unpack c m.b; let r ← Unp.mul c.F c.E ua ub; pack c r

/-- `Posit + PositMul` — include/posit.h:369-372. -/
def addDelayed (c : Cfg) (a : Int) (b : Delayed) : M Int := fma c b.a b.b a

/-- `PositMul + Posit` — include/posit.h:374-377. -/
def delayedAdd (c : Cfg) (a : Delayed) (b : Int) : M Int := fma c a.a a.b b

/-- `PositMul + PositMul` — include/posit.h:256-259. -/
def delayedAddDelayed (c : Cfg) (p q : Delayed) : M Int := mulAddMul c p.a p.b q.a q.b

/-- `PositMul - PositMul` — include/posit.h:262-265. -/
def delayedSubDelayed (c : Cfg) (p q : Delayed) : M Int := mulSubMul c p.a p.b q.a q.b

/-- `operator*=` — include/posit.h:391-395; the result is the new value of the object. -/
def mulAssign (c : Cfg) (self b : Int) : M Int := do
  let us ← unpack c self; let ub ← unpack c b; let r ← Unp.mul c.F c.E us ub; pack c r

/-- `operator+=` — include/posit.h:401. -/
def addAssign (c : Cfg) (self a : Int) : M Int := do let r ← add c self a; return r

/-- `operator/=` — include/posit.h:424. -/
def divAssign (c : Cfg) (self a : Int) : M Int := do let x ← div c self a; return x

end Verif.Posit
