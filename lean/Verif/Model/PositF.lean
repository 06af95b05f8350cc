import Verif.Model.Posit
import Verif.Model.FloatConv

/-!
# `PositF`: posits that compute with native floats — include/positf.h

`PositF<T,N,es,FFT,spec>` converts the operands to the native type `FFT`, computes there and converts back.  Its conversions
are those of `Posit<T,N,es,FT,spec>` with `FT` the unsigned integer of the size of `FFT` (positf.h:25-27), so a configuration
has `F = 32` for `float` and `F = 64` for `double`.  The native arithmetic is a parameter; floats are bit patterns.

Not modelled: `fma` and `operator*=` (positf.h:114-123), which hand a native float to `pack_posit` and do not compile because
the constructor of `Unpacked` is explicit.  The members that do not convert to a float are in Model/PositFMore.lean.
-/

namespace Verif

/-- the native operators `+ * /` of the type `FFT` -/
structure FloatOps where
  add : Nat → Nat → Nat
  mul : Nat → Nat → Nat
  div : Nat → Nat → Nat

/-- the native conversions from `FFT` and from `int` to `double` -/
structure DoubleConv where
  widen : Nat → Nat
  ofInt : Int → Nat

namespace PositF

/-- `operator*` — include/positf.h:109-112 -/
def mul (c : Cfg) (t : FTrait) (o : FloatOps) (a b : Int) : M Int := do
  let x ← Posit.toFloat c t a
  let y ← Posit.toFloat c t b
  Posit.ofFloat c t (o.mul x y)

/-- `operator+` — include/positf.h:124-127 -/
def add (c : Cfg) (t : FTrait) (o : FloatOps) (a b : Int) : M Int :=
  if a = 0 then .ok b else if b = 0 then .ok a else do
    let x ← Posit.toFloat c t a
    let y ← Posit.toFloat c t b
    Posit.ofFloat c t (o.add x y)

/-- binary `operator-` — include/positf.h:150 -/
def sub (c : Cfg) (t : FTrait) (o : FloatOps) (a b : Int) : M Int := do
  let nb ← Posit.neg c b
  add c t o a nb

/-- `operator/` — include/positf.h:151 -/
def div (c : Cfg) (t : FTrait) (o : FloatOps) (a b : Int) : M Int := do
  let x ← Posit.toFloat c t a
  let y ← Posit.toFloat c t b
  Posit.ofFloat c t (o.div x y)

/-- `inv()` — include/positf.h:90 -/
def inv (c : Cfg) (t : FTrait) (o : FloatOps) (a : Int) : M Int := do
  let x ← Posit.toFloat c t a
  Posit.ofFloat c t (o.div t.one x)

/-- `twice()` — include/positf.h:35 -/
def twice (c : Cfg) (t : FTrait) (o : FloatOps) (a : Int) : M Int := do
  let x ← Posit.toFloat c t a
  Posit.ofFloat c t (o.mul t.two x)

/-- `half()` — include/positf.h:34: `0.5` is a `double`, so the product is computed in `double` (`od`). -/
def half (c : Cfg) (t : FTrait) (od : FloatOps) (d : DoubleConv) (a : Int) : M Int := do
  let x ← Posit.toFloat c t a
  Posit.ofFloat c .double (od.mul 0x3fe0000000000000 (d.widen x))

/-- `PositF(int)` — include/positf.h:81 -/
def ofInt (c : Cfg) (d : DoubleConv) (i : Int) : M Int := Posit.ofFloat c .double (d.ofInt i)

end PositF
end Verif
