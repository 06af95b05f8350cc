import Verif.Model.PositF
import Verif.Spec.Ieee

/-!
# Conversions between float formats, and emulated floats — include/unpacked.h:763-771, include/anyfloat.hpp

`anyfloat_emu<expbits,fractionbits,value_t,holder_t,impl_t>` stores a pattern of the format `t` in an unsigned `holder_t` and
computes with the native type `impl_t` (`float` or `double`, trait `n`): operands are unpacked to
`Unpacked<holder_t,int>` and packed as native floats, results the other way round. Modelled for holders of exactly
`t.dataBits` bits, as in the aliases of lines 155-159. The native arithmetic is a parameter (`FloatOps`), native comparisons
are those of IEEE 754.

Not modelled: the constructor from `UnpackedT` (line 63), which does not compile; `ldexp` (57), which is only declared.
-/

namespace Verif

/-- `Unpacked<FT,int>::make_floati<Src>(b).pack_xfloati<Dst>()` for an `F`-bit `FT` — include/unpacked.h:206-209, 536-761 -/
def convVia (F : Nat) (src dst : FTrait) (b : Nat) : M Nat := do
  let u ← Unp.unpackFloat F 32 src b
  Unp.packFloat F 32 dst u

/-- `convertfloats<Src,Dst,FT>(src)` — include/unpacked.h:763-771: the fraction type is the larger of the two holders. -/
def convertFloats (src dst : FTrait) (b : Nat) : M Nat := convVia (max src.dataBits dst.dataBits) src dst b

namespace AnyFloat

/-- `operator FFT`, `operator float`, `operator double` — include/anyfloat.hpp:48, 134-135 -/
def toNative (t n : FTrait) (v : Nat) : M Nat := convVia t.dataBits t n v

/-- `anyfloat_emu(float)`, `anyfloat_emu(double)` — include/anyfloat.hpp:59-60 -/
def ofNative (t n : FTrait) (b : Nat) : M Nat := convVia t.dataBits n t b

/-- `anyfloat_emu(int)` — include/anyfloat.hpp:61 -/
def ofInt (t : FTrait) (i : Int) : M Nat := do
  let u ← Unp.unpackFixed t.dataBits 32 32 0 i
  Unp.packFloat t.dataBits 32 t u

/-- `operator int` — include/anyfloat.hpp:137 -/
def toInt (t : FTrait) (v : Nat) : M Int := do
  let u ← Unp.unpackFloat t.dataBits 32 t v
  Unp.packFixed t.dataBits 32 0 u

/-- `abs()` — include/anyfloat.hpp:68: `v & ~signbit` in a holder of `dataBits` bits -/
def abs (t : FTrait) (v : Nat) : Nat := v &&& (2 ^ t.dataBits - 1 - t.signbit)

/-- `neg()`, unary `operator-` — include/anyfloat.hpp:69, 128 -/
def neg (t : FTrait) (v : Nat) : Nat := v ^^^ t.signbit

/-- `isnegative()` — include/anyfloat.hpp:75 -/
def isNegative (t : FTrait) (v : Nat) : Bool := (v &&& t.signbit) ≠ 0

/-- `iszero()` — include/anyfloat.hpp:77 -/
def isZero (v : Nat) : Bool := v = 0

/-- `operator*` — include/anyfloat.hpp:89-92, and `operator*=` 99-103 -/
def mul (t n : FTrait) (o : FloatOps) (a b : Nat) : M Nat := do
  let x ← toNative t n a
  let y ← toNative t n b
  ofNative t n (o.mul x y)

/-- `fma` — include/anyfloat.hpp:94-97: two rounded native operations -/
def fma (t n : FTrait) (o : FloatOps) (a b c : Nat) : M Nat := do
  let x ← toNative t n a
  let y ← toNative t n b
  let z ← toNative t n c
  ofNative t n (o.add (o.mul x y) z)

/-- `operator+` — include/anyfloat.hpp:104-107 -/
def add (t n : FTrait) (o : FloatOps) (a b : Nat) : M Nat :=
  if isZero a then .ok b else if isZero b then .ok a else do
    let x ← toNative t n a
    let y ← toNative t n b
    ofNative t n (o.add x y)

/-- binary `operator-` — include/anyfloat.hpp:130 -/
def sub (t n : FTrait) (o : FloatOps) (a b : Nat) : M Nat := add t n o a (neg t b)

/-- `operator/` — include/anyfloat.hpp:131 -/
def div (t n : FTrait) (o : FloatOps) (a b : Nat) : M Nat := do
  let x ← toNative t n a
  let y ← toNative t n b
  ofNative t n (o.div x y)

/-- `inv()` — include/anyfloat.hpp:70 -/
def inv (t n : FTrait) (o : FloatOps) (a : Nat) : M Nat := do
  let x ← toNative t n a
  ofNative t n (o.div n.one x)

/-- `twice()` — include/anyfloat.hpp:42 -/
def twice (t n : FTrait) (o : FloatOps) (a : Nat) : M Nat := do
  let x ← toNative t n a
  ofNative t n (o.mul n.two x)

/-- `half()` — include/anyfloat.hpp:41: `0.5` is a `double`, so the product is computed in `double` (`od`). -/
def half (t n : FTrait) (od : FloatOps) (d : DoubleConv) (a : Nat) : M Nat := do
  let x ← toNative t n a
  ofNative t .double (od.mul 0x3fe0000000000000 (d.widen x))

/-- the order of IEEE 754 on the numbers, infinities and NaN -/
def xLt : XNum → XNum → Bool
  | .num p, .num q => p < q
  | .num _, .inf s => !s
  | .inf s, .num _ => s
  | .inf s, .inf r => s && !r
  | _, _ => false

/-- equality of IEEE 754 -/
def xEq : XNum → XNum → Bool
  | .num p, .num q => p = q
  | .inf s, .inf r => s = r
  | _, _ => false

/-- the native comparisons `<` and `==` of floats with trait `n` -/
def natLt (n : FTrait) (x y : Nat) : Bool := xLt (ieee n.eb n.fb x) (ieee n.eb n.fb y)
def natEq (n : FTrait) (x y : Nat) : Bool := xEq (ieee n.eb n.fb x) (ieee n.eb n.fb y)

/-- a comparison operator of the class through the native one -/
def cmp (r : Nat → Nat → Bool) (t n : FTrait) (a b : Nat) : M Bool := do
  let x ← toNative t n a
  let y ← toNative t n b
  return r x y

/-- `operator==` — include/anyfloat.hpp:50 -/
def eq (t n : FTrait) : Nat → Nat → M Bool := cmp (natEq n) t n
/-- `operator!=` — include/anyfloat.hpp:51 -/
def ne (t n : FTrait) : Nat → Nat → M Bool := cmp (fun x y => !natEq n x y) t n
/-- `operator<` — include/anyfloat.hpp:52 -/
def lt (t n : FTrait) : Nat → Nat → M Bool := cmp (natLt n) t n
/-- `operator<=` — include/anyfloat.hpp:53 -/
def le (t n : FTrait) : Nat → Nat → M Bool := cmp (fun x y => natLt n x y || natEq n x y) t n
/-- `operator>` — include/anyfloat.hpp:54 -/
def gt (t n : FTrait) : Nat → Nat → M Bool := cmp (fun x y => natLt n y x) t n
/-- `operator>=` — include/anyfloat.hpp:55 -/
def ge (t n : FTrait) : Nat → Nat → M Bool := cmp (fun x y => natLt n y x || natEq n x y) t n

/-- `std::min` — include/anyfloat.hpp:169-173 -/
def min2 (t n : FTrait) (a b : Nat) : M Nat := do if ← le t n a b then return a else return b
/-- `std::max` — include/anyfloat.hpp:175-179 -/
def max2 (t n : FTrait) (a b : Nat) : M Nat := do if ← ge t n a b then return a else return b

/-- `zero()`, `inf()`, `max()`, `min()`, `lowest()`, `nan()`, `one()`, `two()` — include/anyfloat.hpp:111-123 -/
def zero : Nat := 0
def inf (t : FTrait) : Nat := t.pinf
def ninf (t : FTrait) : Nat := t.ninf
def max (t : FTrait) : Nat := t.max
def min (t : FTrait) : Nat := t.min
def lowest (t : FTrait) : Nat := t.lowest
def nan (t : FTrait) : Nat := t.nan
def one (t : FTrait) : Nat := t.one
def two (t : FTrait) : Nat := t.two

end AnyFloat
end Verif
