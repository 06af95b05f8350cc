import Verif.Model.Binary8
import Verif.Model.AnyFloat

/-!
# `binary8tab` with the tables its generator writes — src/binary8_gen.cpp

The tables `binary8_tbl.cpp` are not in the repository; src/binary8_gen.cpp computes them with `anyfloat_emu<5,2,…,float>` and
native `float` arithmetic, which is a parameter here (`FloatOps`). The pattern with index `i` is `i` itself (`x.v = s` stores into
a `uint8_t`, lines 28-29 and 45-53); results are stored in `int8_t`. `opexp2` (line 38) is in
Model/TabExp2.lean. Not modelled: `twice()`, which is declared only.
-/

namespace Verif
namespace Binary8

/-- `op2float[i]` — src/binary8_gen.cpp:30-36 -/
def genFloat (i : Nat) : M Nat := AnyFloat.toNative trait .single i
/-- storing `X(f).v` in an `int8_t` table — src/binary8_gen.cpp:22, 34-37, 56-58 -/
def genStore (f : Nat) : M Int := do
  let r ← AnyFloat.ofNative trait .single f
  return mk r
/-- `opadd[i1*256+i2]` — src/binary8_gen.cpp:47, 54-56 -/
def genAdd (o : FloatOps) (i1 i2 : Nat) : M Int := do
  let f1 ← genFloat i1
  let f2 ← genFloat i2
  genStore (o.add f1 f2)
/-- `opmul[i1*256+i2]` — src/binary8_gen.cpp:57 -/
def genMul (o : FloatOps) (i1 i2 : Nat) : M Int := do
  let f1 ← genFloat i1
  let f2 ← genFloat i2
  genStore (o.mul f1 f2)
/-- `opdiv[i1*256+i2]` — src/binary8_gen.cpp:58 -/
def genDiv (o : FloatOps) (i1 i2 : Nat) : M Int := do
  let f1 ← genFloat i1
  let f2 ← genFloat i2
  genStore (o.div f1 f2)
/-- `opinv[i]` — src/binary8_gen.cpp:34 -/
def genInv (o : FloatOps) (i : Nat) : M Int := do
  let r ← AnyFloat.inv trait .single o i
  return mk r
/-- `opsquare[i]` — src/binary8_gen.cpp:35 -/
def genSquare (o : FloatOps) (i : Nat) : M Int := do
  let fx ← genFloat i
  genStore (o.mul fx fx)
/-- `ophalf[i]` — src/binary8_gen.cpp:37: the `int` 2 is converted to `float`. -/
def genHalf (o : FloatOps) (i : Nat) : M Int := do
  let fx ← genFloat i
  genStore (o.div fx FTrait.single.two)

/-- `operator+` — include/binary8.hpp:102, `+=` 108 -/
def add (o : FloatOps) (a b : Int) : M Int := genAdd o (uu a) (uu b)
/-- `operator*` — include/binary8.hpp:103, `*=` 109 -/
def mul (o : FloatOps) (a b : Int) : M Int := genMul o (uu a) (uu b)
/-- `operator-` — include/binary8.hpp:104 -/
def sub (o : FloatOps) (a b : Int) : M Int := add o a (neg b)
/-- `operator/` — include/binary8.hpp:105 -/
def div (o : FloatOps) (a b : Int) : M Int := genDiv o (uu a) (uu b)
/-- `inv()` — include/binary8.hpp:88 -/
def inv (o : FloatOps) (v : Int) : M Int := genInv o (uu v)
/-- `half()` — include/binary8.hpp:89 -/
def half (o : FloatOps) (v : Int) : M Int := genHalf o (uu v)
/-- `square()` — include/binary8.hpp:92 -/
def square (o : FloatOps) (v : Int) : M Int := genSquare o (uu v)
/-- `operator float` — include/binary8.hpp:113, as bits -/
def toFloat (v : Int) : M Nat := genFloat (uu v)
/-- `numeric_limits<binary8tab>::epsilon()` — include/binary8.hpp:144 -/
def epsilon (o : FloatOps) : M Int := sub o afterone one

end Binary8
end Verif
