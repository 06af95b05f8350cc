import Verif.Model.TabGen
import Verif.Model.Posit10Gen
import Verif.Model.Binary8Gen

/-!
# The tables of powers of two that the generators write

src/posit8_gen.cpp:37, src/posit10_gen.cpp:38, src/posit12_gen.cpp:36, src/binary8_gen.cpp:38: `opexp2[i] = X(exp2(fx)).v` for the
number `fx` of the pattern as a `float`. The C function `exp2`, with its result as a `float`, is a parameter here. Arguments and
results are bits.
-/

namespace Verif

/-- `opexp2[i]` — src/posit8_gen.cpp:29-31, 37 -/
def Posit8.genExp2 (exp2 : Nat → Nat) (s : Int) : M Int := do
  let fx ← Posit8.genFloat s
  Posit.ofFloat Posit8.cfg .single (exp2 fx)

/-- `opexp2[i]` — src/posit12_gen.cpp:29-31, 36 -/
def Posit12.genExp2 (exp2 : Nat → Nat) (s : Int) : M Int := do
  let fx ← Posit12.genFloat s
  Posit.ofFloat Posit12.cfg .single (exp2 fx)

/-- `opexp2[i]` — src/posit10_gen.cpp:31-33, 38 -/
def Posit10.genExp2 (exp2 : Nat → Nat) (i : Nat) : M Int := do
  let fx ← Posit10.genFloat i
  Posit.ofFloat Posit10.cfg .single (exp2 fx)

/-- `exp2()` — include/posit10.hpp:98 -/
def Posit10.exp2 (exp2 : Nat → Nat) (v : Int) : M Int := Posit10.genExp2 exp2 (Posit10.uu v)

/-- `opexp2[i]` — src/binary8_gen.cpp:30-32, 38 -/
def Binary8.genExp2 (exp2 : Nat → Nat) (i : Nat) : M Int := do
  let fx ← Binary8.genFloat i
  Binary8.genStore (exp2 fx)

/-- `exp2()` — include/binary8.hpp:91 -/
def Binary8.exp2 (exp2 : Nat → Nat) (v : Int) : M Int := Binary8.genExp2 exp2 (Binary8.uu v)

end Verif
