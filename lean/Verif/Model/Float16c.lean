import Verif.Model.Float16n32

/-!
# Half floats computed with `float`, with F16C instructions — include/float16native32.hpp

The variant of lines 23-46, compiled when `__AVX__` and `__F16C__` are defined. The conversion instructions act on all lanes of a
register alike; what they do in one lane is a parameter (`F16C`). A `float16n32` is its 16-bit pattern, a `float` its 32-bit
pattern, native arithmetic is a parameter (`FloatOps`). The functions of the class that do not convert (`abs`, `neg`, `one`, `two`,
`zero`) are those of `Float16n32`. `rem` and `sqrt` are in Float16cLib. Not modelled: `operator<<`, the disabled `numeric_limits`.
-/

namespace Verif

/-- one lane of `_mm_cvtph_ps`, and of `_mm_cvtps_ph` with `_MM_FROUND_TO_NEAREST_INT | _MM_FROUND_NO_EXC` —
include/float16native32.hpp:36, 45 -/
structure F16C where
  ph2ps : Nat → Nat
  ps2ph : Nat → Nat

namespace Float16c

/-- lane `i` of a register, zero beyond its end -/
def lane (r : List Nat) (i : Nat) : Nat := r.getD i 0

/-- `float16nto32`, `operator float` — include/float16native32.hpp:33-37, 79: `_mm_set1_epi16` fills the 8 lanes, `_mm_cvtph_ps`
converts the lower 4, `_mm_cvtss_f32` takes the first. -/
def toFloat (k : F16C) (v : Nat) : Nat :=
  let r := List.replicate 8 v
  lane ((r.take 4).map k.ph2ps) 0

/-- `float32to16n`, `float16n32(float)` — include/float16native32.hpp:39-46, 75: `_mm_cvtps_ph` gives 4 halves in the lower 64 bits,
`_mm_cvtsi128_si32` reads the first two as an `int`, which is masked and converted to `uint16_t`. -/
def ofFloat (k : F16C) (f : Nat) : Nat :=
  let r := (List.replicate 4 f).map k.ps2ph ++ List.replicate 4 0
  let i : Int := wrapS 32 (lane r 0 + lane r 1 * 2 ^ 16 : Nat)
  wrapU 16 ((wrapU 32 i &&& 0xFFFF : Nat) : Int)

/-- `operator+` — include/float16native32.hpp:92, `+=` 96 -/
def add (o : FloatOps) (k : F16C) (a b : Nat) : Nat := ofFloat k (o.add (toFloat k a) (toFloat k b))
/-- `operator-` — include/float16native32.hpp:93: IEEE subtraction is addition of the negative -/
def sub (o : FloatOps) (k : F16C) (a b : Nat) : Nat := ofFloat k (o.add (toFloat k a) (toFloat k b ^^^ 0x80000000))
/-- `operator*` — include/float16native32.hpp:94, `*=` 97 -/
def mul (o : FloatOps) (k : F16C) (a b : Nat) : Nat := ofFloat k (o.mul (toFloat k a) (toFloat k b))
/-- `operator/` — include/float16native32.hpp:95 -/
def div (o : FloatOps) (k : F16C) (a b : Nat) : Nat := ofFloat k (o.div (toFloat k a) (toFloat k b))

/-- `mulAdd` — include/float16native32.hpp:103, the product and the sum rounded one after the other (no contraction) -/
def mulAdd (o : FloatOps) (k : F16C) (a b d : Nat) : Nat :=
  ofFloat k (o.add (o.mul (toFloat k a) (toFloat k b)) (toFloat k d))
/-- `half` — include/float16native32.hpp:105 -/
def half (o : FloatOps) (k : F16C) (a : Nat) : Nat := div o k a Float16n32.two
/-- `square` — include/float16native32.hpp:106 -/
def square (o : FloatOps) (k : F16C) (a : Nat) : Nat := mul o k a a
/-- `inv` — include/float16native32.hpp:107 -/
def inv (o : FloatOps) (k : F16C) (a : Nat) : Nat := div o k Float16n32.one a

/-- `operator==` — include/float16native32.hpp:109 -/
def eq (k : F16C) (a b : Nat) : Bool := AnyFloat.natEq .single (toFloat k a) (toFloat k b)
/-- `operator<` — include/float16native32.hpp:110 -/
def lt (k : F16C) (a b : Nat) : Bool := AnyFloat.natLt .single (toFloat k a) (toFloat k b)
/-- `operator>` — include/float16native32.hpp:111 -/
def gt (k : F16C) (a b : Nat) : Bool := AnyFloat.natLt .single (toFloat k b) (toFloat k a)
/-- `operator>=` — include/float16native32.hpp:112 -/
def ge (k : F16C) (a b : Nat) : Bool :=
  AnyFloat.natLt .single (toFloat k b) (toFloat k a) || AnyFloat.natEq .single (toFloat k a) (toFloat k b)
/-- `operator<=` — include/float16native32.hpp:113 -/
def le (k : F16C) (a b : Nat) : Bool :=
  AnyFloat.natLt .single (toFloat k a) (toFloat k b) || AnyFloat.natEq .single (toFloat k a) (toFloat k b)

end Float16c
end Verif
