import Verif.Model.FloatConv

/-! # Further constants of the float traits, and the programs that print and compare them -/

namespace Verif.FTrait

/-- `afterone_h` of `any_floattrait` — include/floattraits.hpp:71 -/
def afterone (eb fb : Nat) : Nat := (any eb fb).one + 1

/-- `denorm_min_h` of `single_trait` — include/floattraits.hpp:136 -/
def singleDenormMin : Nat := 1

/-- `epsilon_h` of `single_trait` — include/floattraits.hpp:137 -/
def singleEpsilon : Nat := 0x34000000

/-- `float128_trait`, present only where `FLT128_MAX` is defined — include/floattraits.hpp:181-215. C++ has no literals of
128 bits: `lit` says what a compiler makes of them (the number written, or its last 64 bits, as gcc does after a warning).
`signbit` is the argument `sb`, see `quadSignbit`. -/
def quad (lit : Nat → Nat) (sb : Nat) : FTrait where
  eb := 15
  fb := 112
  denorm := true
  dataBits := 128
  bias := 16383
  expMax := 16383 * 2
  expMask := 1 <<< 15 - 1
  signbit := sb
  ninf := lit 0xb00000000000ffff8000000000000000
  pinf := lit 0x900007f975247fff8000000000000000
  nan := lit 0xb000000000007fffc000000000000000
  one := lit 0xd00007f975243fff8000000000000000
  two := lit 0x40000000000000000000000000000000
  max := lit 0x4000
  lowest := lit 0x4000
  min := lit 0x4000

/-- `signbit = (1<<(data_bits-1))` of `float128_trait`: a shift of the `int` 1 — include/floattraits.hpp:211 -/
def quadSignbit : M Int := shlS 32 1 (128 - 1)

/-- `itest_anyvsreallimit`: the static assertions that compare the members of a trait with those of `any_floattrait` of the same
sizes — tests/itest_anyvsreallimit.cpp:19-31 -/
def sameAsAny (t : FTrait) : Bool :=
  let a := any t.eb t.fb
  a.one == t.one && a.two == t.two && a.min == t.min && a.max == t.max && a.ninf == t.ninf && a.pinf == t.pinf && a.nan == t.nan

/-- `itest_lowlimits`: the six numbers printed (in hexadecimal), each converted to `uint64_t` —
tests/itest_lowlimits.cpp:9-17 -/
def lowlimits (eb fb : Nat) : List Nat :=
  let t := any eb fb
  [t.one, t.two, t.max, t.min, t.nan, t.pinf].map (· % 2 ^ 64)

end Verif.FTrait
