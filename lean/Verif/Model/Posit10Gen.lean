import Verif.Model.Tabulated
import Verif.Model.PositF

/-!
# `posit10` with the tables its generator writes — src/posit10_gen.cpp

The tables `posit10_tbl.cpp` are not in the repository; src/posit10_gen.cpp computes them with native `float` arithmetic,
which is a parameter here (`FloatOps`). `opexp2` (line 38) is in Model/TabExp2.lean.
-/

namespace Verif
namespace Posit10

/-- the pattern `s` with index `i = s & 0x03FF` — src/posit10_gen.cpp:26-30, 41-52 -/
def ofIdx (i : Nat) : Int := if i < 512 then (i : Int) else i - 1024
/-- `op2float[i]` — src/posit10_gen.cpp:31-36 -/
def genFloat (i : Nat) : M Nat := Posit.toFloat cfg .single (ofIdx i)
/-- `opadd[i1*1024+i2]` — src/posit10_gen.cpp:46, 53-55 -/
def genAdd (o : FloatOps) (i1 i2 : Nat) : M Int := do
  let f1 ← genFloat i1
  let f2 ← genFloat i2
  Posit.ofFloat cfg .single (o.add f1 f2)
/-- `opmul[i1*1024+i2]` — src/posit10_gen.cpp:56 -/
def genMul (o : FloatOps) (i1 i2 : Nat) : M Int := do
  let f1 ← genFloat i1
  let f2 ← genFloat i2
  Posit.ofFloat cfg .single (o.mul f1 f2)
/-- `opdiv[i1*1024+i2]` — src/posit10_gen.cpp:57 -/
def genDiv (o : FloatOps) (i1 i2 : Nat) : M Int := do
  let f1 ← genFloat i1
  let f2 ← genFloat i2
  Posit.ofFloat cfg .single (o.div f1 f2)
/-- `opinv[i]` — src/posit10_gen.cpp:34 -/
def genInv (i : Nat) : M Int := Posit.inv cfg (ofIdx i)
/-- `opsquare[i]` — src/posit10_gen.cpp:35 -/
def genSquare (o : FloatOps) (i : Nat) : M Int := do
  let fx ← genFloat i
  Posit.ofFloat cfg .single (o.mul fx fx)
/-- `ophalf[i]` — src/posit10_gen.cpp:37: the `int` 2 is converted to `float`. -/
def genHalf (o : FloatOps) (i : Nat) : M Int := do
  let fx ← genFloat i
  Posit.ofFloat cfg .single (o.div fx FTrait.single.two)

/-- `operator+` — include/posit10.hpp:109 -/
def add (o : FloatOps) (a b : Int) : M Int := genAdd o (uu a) (uu b)
/-- `operator*` — include/posit10.hpp:110 -/
def mul (o : FloatOps) (a b : Int) : M Int := genMul o (uu a) (uu b)
/-- `operator-` — include/posit10.hpp:111 -/
def sub (o : FloatOps) (a b : Int) : M Int := add o a (neg b)
/-- `operator/` — include/posit10.hpp:112 -/
def div (o : FloatOps) (a b : Int) : M Int := genDiv o (uu a) (uu b)
/-- `inv()` — include/posit10.hpp:95 -/
def inv (v : Int) : M Int := genInv (uu v)
/-- `half()` — include/posit10.hpp:96 -/
def half (o : FloatOps) (v : Int) : M Int := genHalf o (uu v)
/-- `square()` — include/posit10.hpp:99 -/
def square (o : FloatOps) (v : Int) : M Int := genSquare o (uu v)
/-- `operator float` — include/posit10.hpp:126, as bits -/
def toFloat (v : Int) : M Nat := genFloat (uu v)

/-- `posit10(float)` — src/posit10.cpp:24-32; `a == 0` holds for both zeros. -/
def ofFloat (bits : Nat) : M Int :=
  if bits = 0 ∨ bits = 0x80000000 then .ok 0 else if bits = 0x3f800000 then .ok 0x100 else Posit.ofFloat cfg .single bits
/-- `posit10(double)` — src/posit10.cpp:34-43 -/
def ofDouble (bits : Nat) : M Int :=
  if bits = 0 ∨ bits = 0x8000000000000000 then .ok 0
  else if bits = 0x3ff0000000000000 then .ok 0x100 else Posit.ofFloat cfg .double bits

end Posit10
end Verif
