import Verif.Model.FloatConv

/-!
# The tabulated 8-bit float — include/binary8.hpp

`binary8tab` holds an `int8_t v`; patterns are the integers -128..127. Its arithmetic tables are generated when the library
is built: see `Model/Binary8Gen.lean`. Its converting constructors (src/binary8.cpp:8-18) leave the object
uninitialised and are not modelled. Modelled: negation, comparisons, absolute value, minimum, maximum, constants.
-/

namespace Verif.Binary8

/-- `BINARY8_EXP`, `BINARY8_MAN`, `trait_t` — include/binary8.hpp:19-23,63 -/
def trait : FTrait := FTrait.any 5 2

/-- `uu()`: the pattern as an unsigned integer — include/binary8.hpp:111 -/
def uu (v : Int) : Nat := (v % 256).toNat

/-- storing an integer in `v` (`int8_t` parameter of the `DeepInit` constructor) — include/binary8.hpp:71 -/
def mk (i : Int) : Int := wrapS 8 i

/-- `is_negative()` — include/binary8.hpp:74 -/
def isNegative (v : Int) : Bool := v < 0

/-- `max()`, `min()`, `one()`, `afterone()`, `zero()` — include/binary8.hpp:77-82; `afterone_h` floattraits.hpp:71 -/
def max : Int := mk trait.max
def min : Int := mk trait.min
def one : Int := mk trait.one
def afterone : Int := mk (trait.one + 1)
def zero : Int := mk 0

/-- unary `operator-` — include/binary8.hpp:93 -/
def neg (v : Int) : Int := mk (-v)

/-- `operator<`, `>`, `<=`, `>=`, `==`, `!=` — include/binary8.hpp:95-100 -/
def lt (a b : Int) : Bool := a < b
def gt (a b : Int) : Bool := a > b
def le (a b : Int) : Bool := a ≤ b
def ge (a b : Int) : Bool := a ≥ b
def eq (a b : Int) : Bool := a = b
def ne (a b : Int) : Bool := a ≠ b

/-- `std::abs`: `z.v & 0x7F`, a nonnegative `int` — include/binary8.hpp:153-156 -/
def abs (v : Int) : Int := mk (v % 128)

/-- `std::min`, `std::max` — include/binary8.hpp:158-166 -/
def min2 (a b : Int) : Int := if a ≤ b then a else b
def max2 (a b : Int) : Int := if a ≥ b then a else b

end Verif.Binary8
