import Verif.Model.AnyFloat
import Verif.Model.BitHelpers

/-!
# Functions and loops of the small test programs

tests/testregime.cpp, tests/testbit.cpp (with the BMI code of include/bithippop.hpp:177-224), tests/itest_positf.cpp and
tests/itest_anyfloat.cpp. The output is left out: of a loop we keep which of its messages is printed.
-/

namespace Verif

namespace TestRegime

/-- `PT::POSIT_SIZE` — tests/testregime.cpp:14 -/
def positSize : Int := 32

/-- `findbitleftmostC((POSIT_UTYPE)y)` guarded by `y == 0 ? PT::POSIT_SIZE : …`, the two inner conditionals of
tests/testregime.cpp:23 -/
def runIndex (y : Nat) : M Int := if y = 0 then .ok positSize else Bits.findLeft32 y

/-- `extract` — tests/testregime.cpp:18-28. The argument is the bit pattern of the `int`; `POSIT_INVERTBIT` is `1 << 31`. -/
def extract (pars : Nat) : M (Int × Int) := do
  let x : Bool := (pars &&& 2 ^ 31) ≠ 0
  let aindex ← runIndex (if x then 2 ^ 32 - 1 - pars else pars)
  let index := if aindex > positSize then positSize else aindex
  let reg := if x then index - 1 else -index
  let rs := if index = positSize then positSize else index + 1
  return (reg, rs)

end TestRegime

namespace Bits

/-- the instruction BEXTR on a `w`-bit operand (`_bextr_u32`, `_bextr_u64`): only the last eight bits of the start and of
the length count; bits beyond the operand are zero -/
def bextr (w x start len : Nat) : Nat := (x % 2 ^ w) >>> (start % 256) % 2 ^ (len % 256)

/-- `bitset_gethw(input, offset, size)` for `uint16_t` and `uint32_t` — include/bithippop.hpp:185-193 — and
`bitset_gethwT<offset,size>` for 8, 16, 32 and 64 bits — 195-218. The result is converted to the type of the input. -/
def bitsetGethw (w x : Nat) (offset size : Int) : Nat :=
  bextr (if w = 64 then 64 else 32) x (wrapU 32 offset) (wrapU 32 size) % 2 ^ w

end Bits

namespace PositF

/-- the pass `i` of the loop of `main` — tests/itest_positf.cpp:13-22: whether "!" is printed, that is, whether the sum of
the posit `i` and the posit `a0` computed by `PositF` and by its `Posit` have different patterns. `a0` is 50 in the test. -/
def itestPass (c : Cfg) (t : FTrait) (o : FloatOps) (a0 i : Int) : M Bool := do
  let rf ← add c t o i a0
  let ri ← Posit.add c i a0
  return rf ≠ ri

/-- the loop — tests/itest_positf.cpp:11-23: the passes that print "!" -/
def itest (c : Cfg) (t : FTrait) (o : FloatOps) : M (List Int) :=
  ((List.range 255).map fun n : Nat => (n : Int) - 128).filterM (itestPass c t o 50)

end PositF

namespace AnyFloat

/-- the pass `i` of the loop of `itest_anyfloat` — tests/itest_anyfloat.cpp:41-52: whether `d != dd`, where `d` is the number
`i` as a `double` and `dd` is the double converted to the emulated type and back -/
def itestPass (t : FTrait) (i : Nat) : M Bool := do
  let d ← toNative t .double i
  let x ← ofNative t .double d
  let dd ← toNative t .double x
  return !natEq .double d dd

/-- `rawexp` — tests/itest_anyfloat.cpp:44 -/
def rawexp (t : FTrait) (i : Nat) : Nat := (i >>> t.fb) &&& 0x1F

/-- the loop over the patterns of a type of one byte — tests/itest_anyfloat.cpp:39-56: the `i` printed with an arrow -/
def itest (t : FTrait) : M (List Nat) := (List.range 256).filterM (itestPass t)

end AnyFloat

end Verif
