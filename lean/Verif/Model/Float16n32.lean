import Verif.Model.AnyFloat

/-!
# Half floats computed with `float` — include/float16native32.hpp

The variant without F16C instructions (lines 48-66). A `float16n32` is its 16-bit pattern, a `float` its 32-bit pattern. Native
arithmetic is a parameter (`FloatOps`), and so is the native conversion of an `unsigned` to `float` (`u2f`). Not modelled: `rem`,
`sqrt` (C library), and the disabled `numeric_limits` (lines 137-181).
-/

namespace Verif
namespace Float16n32

/-- the 32 bits computed by `float16nto32` — include/float16native32.hpp:56 -/
def widen (v : Nat) : M Nat := convVia 32 .half .single v

/-- `float16nto32`, `operator float` — include/float16native32.hpp:52-57, 79: `pack_xfloati` returns the bits as `uint32_t`, which
the `return` statement converts to `float` as a number. -/
def toFloat (u2f : Nat → Nat) (v : Nat) : M Nat := do
  let b ← widen v
  return u2f b

/-- `float32to16n`, `float16n32(float)` — include/float16native32.hpp:60-63, 75 -/
def ofFloat (f : Nat) : M Nat := convVia 32 .single .half f

/-- `abs()` — include/float16native32.hpp:84: `~0x8000` is an `int`, the result is converted to `uint16_t` -/
def abs (v : Nat) : Nat := wrapU 16 (wrapU 32 (-0x8000 - 1) &&& v : Nat)

/-- `neg()`, `operator-()` — include/float16native32.hpp:85, 99 -/
def neg (v : Nat) : Nat := v ^^^ 0x8000

/-- `two()`, `one()`, `zero()` — include/float16native32.hpp:88-90 -/
def two : Nat := FTrait.half.two
def one : Nat := FTrait.half.one
def zero : Nat := 0

/-- `operator+` — include/float16native32.hpp:92, `+=` 96 -/
def add (o : FloatOps) (u2f : Nat → Nat) (a b : Nat) : M Nat := do
  let x ← toFloat u2f a
  let y ← toFloat u2f b
  ofFloat (o.add x y)
/-- `operator-` — include/float16native32.hpp:93: IEEE subtraction is addition of the negative -/
def sub (o : FloatOps) (u2f : Nat → Nat) (a b : Nat) : M Nat := do
  let x ← toFloat u2f a
  let y ← toFloat u2f b
  ofFloat (o.add x (y ^^^ 0x80000000))
/-- `operator*` — include/float16native32.hpp:94, `*=` 97 -/
def mul (o : FloatOps) (u2f : Nat → Nat) (a b : Nat) : M Nat := do
  let x ← toFloat u2f a
  let y ← toFloat u2f b
  ofFloat (o.mul x y)
/-- `operator/` — include/float16native32.hpp:95 -/
def div (o : FloatOps) (u2f : Nat → Nat) (a b : Nat) : M Nat := do
  let x ← toFloat u2f a
  let y ← toFloat u2f b
  ofFloat (o.div x y)

/-- `mulAdd` — include/float16native32.hpp:103, the product and the sum rounded one after the other (no contraction) -/
def mulAdd (o : FloatOps) (u2f : Nat → Nat) (a b d : Nat) : M Nat := do
  let x ← toFloat u2f a
  let y ← toFloat u2f b
  let z ← toFloat u2f d
  ofFloat (o.add (o.mul x y) z)
/-- `half` — include/float16native32.hpp:105 -/
def half (o : FloatOps) (u2f : Nat → Nat) (a : Nat) : M Nat := div o u2f a two
/-- `square` — include/float16native32.hpp:106 -/
def square (o : FloatOps) (u2f : Nat → Nat) (a : Nat) : M Nat := mul o u2f a a
/-- `inv` — include/float16native32.hpp:107 -/
def inv (o : FloatOps) (u2f : Nat → Nat) (a : Nat) : M Nat := div o u2f one a

/-- `operator<` — include/float16native32.hpp:110 -/
def lt (u2f : Nat → Nat) (a b : Nat) : M Bool := do
  let x ← toFloat u2f a
  let y ← toFloat u2f b
  return AnyFloat.natLt .single x y
/-- `operator==` — include/float16native32.hpp:109 -/
def eq (u2f : Nat → Nat) (a b : Nat) : M Bool := do
  let x ← toFloat u2f a
  let y ← toFloat u2f b
  return AnyFloat.natEq .single x y
/-- `operator>` — include/float16native32.hpp:111 -/
def gt (u2f : Nat → Nat) (a b : Nat) : M Bool := do
  let x ← toFloat u2f a
  let y ← toFloat u2f b
  return AnyFloat.natLt .single y x
/-- `operator>=` — include/float16native32.hpp:112 -/
def ge (u2f : Nat → Nat) (a b : Nat) : M Bool := do
  let x ← toFloat u2f a
  let y ← toFloat u2f b
  return (AnyFloat.natLt .single y x || AnyFloat.natEq .single x y)
/-- `operator<=` — include/float16native32.hpp:113 -/
def le (u2f : Nat → Nat) (a b : Nat) : M Bool := do
  let x ← toFloat u2f a
  let y ← toFloat u2f b
  return (AnyFloat.natLt .single x y || AnyFloat.natEq .single x y)

end Float16n32
end Verif
