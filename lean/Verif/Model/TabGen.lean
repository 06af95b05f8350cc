import Verif.Model.Tabulated
import Verif.Model.PositF

/-!
# The generators of the committed tables — src/posit8_gen.cpp, src/posit12_gen.cpp

The entry that a generator computes for the loop variable `s` (`s1`, `s2`), stored at the index `s & 0xFF` (`s & 0x0FFF`). Native
`float` arithmetic is a parameter (`FloatOps`). `opexp2` is in Model/TabExp2.lean. Not modelled: the output.
-/

namespace Verif

namespace Posit8
/-- `op2float[i]` — src/posit8_gen.cpp:29-35 -/
def genFloat (s : Int) : M Nat := Posit.toFloat cfg .single s
/-- `opinv[i]` — src/posit8_gen.cpp:33 -/
def genInv (s : Int) : M Int := Posit.inv cfg s
/-- `opsquare[i]` — src/posit8_gen.cpp:34 -/
def genSquare (o : FloatOps) (s : Int) : M Int := do
  let fx ← genFloat s
  Posit.ofFloat cfg .single (o.mul fx fx)
/-- `ophalf[i]` — src/posit8_gen.cpp:36: the `int` 2 is converted to `float`. -/
def genHalf (o : FloatOps) (s : Int) : M Int := do
  let fx ← genFloat s
  Posit.ofFloat cfg .single (o.div fx FTrait.single.two)
/-- `opadd[i1*256+i2]` — src/posit8_gen.cpp:46, 53, 55 -/
def genAdd (o : FloatOps) (s1 s2 : Int) : M Int := do
  let f1 ← genFloat s1
  let f2 ← genFloat s2
  Posit.ofFloat cfg .single (o.add f1 f2)
/-- `opmul[i1*256+i2]` — src/posit8_gen.cpp:56 -/
def genMul (o : FloatOps) (s1 s2 : Int) : M Int := do
  let f1 ← genFloat s1
  let f2 ← genFloat s2
  Posit.ofFloat cfg .single (o.mul f1 f2)
/-- `opdiv[i1*256+i2]` — src/posit8_gen.cpp:57 -/
def genDiv (o : FloatOps) (s1 s2 : Int) : M Int := do
  let f1 ← genFloat s1
  let f2 ← genFloat s2
  Posit.ofFloat cfg .single (o.div f1 f2)
end Posit8

namespace Posit12
/-- `op2float[i]` — src/posit12_gen.cpp:29-35 -/
def genFloat (s : Int) : M Nat := Posit.toFloat cfg .single s
/-- `opinv[i]` — src/posit12_gen.cpp:33 -/
def genInv (s : Int) : M Int := Posit.inv cfg s
/-- `opsquare[i]` — src/posit12_gen.cpp:34 -/
def genSquare (o : FloatOps) (s : Int) : M Int := do
  let fx ← genFloat s
  Posit.ofFloat cfg .single (o.mul fx fx)
end Posit12

end Verif
