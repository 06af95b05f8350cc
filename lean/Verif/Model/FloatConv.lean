import Verif.Model.BitHelpers

/-!
# Conversions between `Unpacked` and IEEE floats / fixed point — include/unpacked.h:500-761, include/floattraits.hpp,
include/fixedtraits.hpp

A float is represented by its bit pattern (the `union` of include/unpacked.h:170-179 and unpack_xfloat).
-/

namespace Verif

/-- The members of a float trait that the conversions use — include/floattraits.hpp:45-179. -/
structure FTrait where
  eb : Nat
  fb : Nat
  denorm : Bool
  dataBits : Nat
  bias : Int
  expMax : Int
  expMask : Nat
  signbit : Nat
  pinf : Nat
  ninf : Nat
  nan : Nat
  one : Nat
  two : Nat
  max : Nat
  lowest : Nat
  min : Nat
  deriving DecidableEq, Repr

namespace FTrait

/-- `any_floattrait<exp_bits,frac_bits,…,with_denorm>` — include/floattraits.hpp:45-77. `bitmask<holder_t>(n)` is
`2^n - 1` for `1 ≤ n ≤` holder size. -/
def any (eb fb : Nat) (denorm : Bool := true) : FTrait where
  eb := eb
  fb := fb
  denorm := denorm
  dataBits := eb + fb + 1
  bias := 2 ^ (eb - 1) - 1
  expMax := 2 ^ eb - 2
  expMask := 2 ^ eb - 1
  signbit := 2 ^ (eb + fb)
  pinf := (2 ^ eb - 1) <<< fb
  ninf := (2 ^ eb - 1) <<< fb ||| 2 ^ (eb + fb)
  nan := (2 ^ (eb + 1) - 1) <<< (fb - 1)
  one := (2 ^ (eb - 1) - 1) <<< fb
  two := 1 <<< (eb - 1 + fb)
  max := (2 ^ (eb - 1) - 1) <<< (fb + 1) ||| (2 ^ fb - 1)
  lowest := ((2 ^ (eb - 1) - 1) <<< (fb + 1) ||| (2 ^ fb - 1)) ||| 2 ^ (eb + fb)
  min := 1 <<< fb

/-- `half_trait` — include/floattraits.hpp:91-114 -/
def half : FTrait where
  eb := 5
  fb := 10
  denorm := true
  dataBits := 16
  bias := 15
  expMax := 30
  expMask := 1 <<< 5 - 1
  signbit := 1 <<< 15
  pinf := 0x7C00
  ninf := 0xFC00
  nan := 0x7E00
  one := 0x3C00
  two := 0x4000
  max := 0x7bff
  lowest := 0xfbff
  min := 0x0400

/-- `single_trait` — include/floattraits.hpp:117-148 -/
def single : FTrait where
  eb := 8
  fb := 23
  denorm := true
  dataBits := 32
  bias := 127
  expMax := 254
  expMask := 1 <<< 8 - 1
  signbit := 1 <<< 31
  pinf := 0x7f800000
  ninf := 0xff800000
  nan := 0x7fc00000
  one := 0x3f800000
  two := 0x40000000
  max := 0x7f7fffff
  lowest := 0xff7fffff
  min := 0x00800000

/-- `double_trait` — include/floattraits.hpp:151-179 -/
def double : FTrait where
  eb := 11
  fb := 52
  denorm := true
  dataBits := 64
  bias := 1023
  expMax := 2046
  expMask := 1 <<< 11 - 1
  signbit := 1 <<< 63
  pinf := 0x7ff0000000000000
  ninf := 0xfff0000000000000
  nan := 0x7ff8000000000000
  one := 0x3ff0000000000000
  two := 0x4000000000000000
  max := 0x7fefffffffffffff
  lowest := 0xffefffffffffffff
  min := 0x10000000000000

/-- `microfloat_trait` — include/floattraits.hpp:81 -/
def micro : FTrait := any 5 2
/-- `half_traitalt` — include/floattraits.hpp:85 -/
def halfAlt : FTrait := any 8 7
/-- `bfloat16_trait` — include/floattraits.hpp:88 -/
def bfloat16 : FTrait := any 8 7 false

end FTrait

namespace Unp

/-- `unpack_xfloati<Trait>(value)` — include/unpacked.h:536-597; `holder_t` has `t.dataBits` bits. The members that the
function leaves behind for non-regular results are kept. -/
def unpackFloat (F E : Nat) (t : FTrait) (value : Nat) : M Unp := do
  let re ← Posit.bitsetGet t.dataBits value t.fb t.eb
  let rawexp := wrapS E re
  let neg : Bool := (value &&& 2 ^ (t.dataBits - 1)) ≠ 0
  let e ← arithS E (rawexp - t.bias)
  let exponent := wrapS E e
  let fraction ← Bits.castRightToLeft t.dataBits t.fb F value
  if rawexp = 2 ^ t.eb - 1 then
    return { ty := if fraction = 0 then .infinity else .nan, neg := neg, exp := exponent, frac := fraction }
  else if rawexp = 0 then
    if !t.denorm || fraction = 0 then
      return { ty := .zero, neg := false, exp := exponent, frac := fraction }
    else do
      let k ← findLeft F fraction
      let e2 ← arithS E (exponent - k)
      let f2 ← shlU F fraction (k + 1)
      return { ty := .regular, neg := neg, exp := wrapS E e2, frac := f2 % 2 ^ F }
  else return { ty := .regular, neg := neg, exp := exponent, frac := fraction }

/-- `fraction_bit_extract<abits,AT,bbits,BT,…>::pack` — include/unpacked.h:599-633; `AT` has `abits` bits, `BT` has `bw`. -/
def extractPack (abits bbits bw fraction : Nat) : M Nat :=
  if abits > bbits then do
    let r ← Posit.bitsetGet abits fraction (abits - bbits) bbits
    return r % 2 ^ bw
  else do
    let r ← shlU bw (fraction % 2 ^ bw) ((bbits : Int) - abits)
    return r % 2 ^ bw

/-- `fraction_bit_extract<…>::packdenorm` — include/unpacked.h:608-612, 624-627; `msb` is `FT_leftmost_bit`. -/
def extractDenorm (abits bbits bw fraction : Nat) : M Nat :=
  if abits > bbits then do
    let r ← shrU abits (leftmost abits ||| fraction >>> 1) ((abits : Int) - bbits)
    return r % 2 ^ bw
  else do
    let r ← shlU bw ((leftmost abits ||| fraction >>> 1) % 2 ^ bw) ((bbits : Int) - abits)
    return r % 2 ^ bw

/-- bits of `int_least_bits<n>::signed_type` for `n ≤ 64` — include/typehelpers.hpp:175-192 -/
def leastBits (n : Nat) : Nat := if n ≤ 8 then 8 else if n ≤ 16 then 16 else if n ≤ 32 then 32 else 64

/-- `pack_xfloati<Trait>()` — include/unpacked.h:686-761. `fexp` has the wider of `ET` and the least type holding the
exponent bits (`largest_type`, include/typehelpers.hpp:170-171). -/
def packFloat (F E : Nat) (t : FTrait) (u : Unp) : M Nat :=
  match u.ty with
  | .infinity => .ok (if u.neg then t.ninf else t.pinf)
  | .zero => .ok 0
  | .nan => .ok t.nan
  | .regular => do
    let EX := max E (leastBits t.eb)
    let fe ← arithS EX (u.exp + t.bias)
    let fexp := wrapS EX fe
    if fexp > t.expMax then return (if u.neg then t.lowest else t.max)
    else if fexp < 1 && t.denorm then return 0
    else do
      let (fexpbits, ffracbits) ← (
        if fexp < 1 then do
          let d ← extractDenorm F t.fb t.dataBits u.frac
          let s ← shrU t.dataBits d (-fexp)
          return (0, s % 2 ^ t.dataBits)
        else do
          let x ← shlU t.dataBits (wrapU 64 fexp &&& t.expMask) t.fb
          let p ← extractPack F t.fb t.dataBits u.frac
          return (x % 2 ^ t.dataBits, p) : M (Nat × Nat))
      let value := ffracbits ||| fexpbits ||| (if u.neg then t.signbit else 0)
      -- `value << 1` is an `int` for 8- and 16-bit holders
      let sh := if t.dataBits < 32 then value * 2 else value * 2 % 2 ^ t.dataBits
      if value ≠ 0 ∧ sh = 0 then return (value + 1) % 2 ^ t.dataBits else return value

/-- `unpack_xfixed<fixedtrait<T,N,q>>(nx)` — include/unpacked.h:500-533, include/fixedtraits.hpp:12-22, for `T` with
exactly `N` bits (`fixedtrait` also admits `N` above the size of `T`). -/
def unpackFixed (F E N q : Nat) (nx : Int) : M Unp :=
  if nx ≠ 0 then do
    let a ← Posit.pcabs N nx
    let x := wrapU N a
    let k ← findLeft N x
    let p : Int := (N : Int) - k - 1
    let ux ← (if p = 0 then .ok 0 else do let y ← shlU N x ((N : Int) - p); return y % 2 ^ N : M Nat)
    let f ← Bits.castRightToLeft N N F ux
    return { ty := .regular, neg := nx < 0, exp := wrapS E (p - q), frac := f }
  else return { ty := .zero, neg := false, exp := 0, frac := 0 }

/-- `pack_xfixed<fixedtrait<T,N,q>>()` — include/unpacked.h:638-684, for `T` with exactly `N` bits. -/
def packFixed (F N q : Nat) (u : Unp) : M Int :=
  match u.ty with
  | .infinity | .zero | .nan => .ok 0
  | .regular => do
    let intbits : Int := (N : Int) - q
    if u.exp ≥ intbits then return (if u.neg then -2 ^ (N - 1) else 2 ^ (N - 1) - 1)
    else if u.exp < -(q : Int) then return 0
    else do
      let f ← extractPack F N N u.frac
      let a ← shlS N 1 (u.exp + q)
      let b ← shrU N f (intbits - u.exp)
      -- `|` of two signed values of type `ST` (promoted to `int` when narrower), stored in an `ST`
      let r := wrapS N (wrapU (pw N) a ||| wrapU (pw N) (wrapS N b) : Nat)
      Posit.condNeg N u.neg r

end Unp

namespace Posit

/-- `Posit(float)`, `Posit(double)` — include/posit.h:328-329, and `Posit(single_tag, uint32_t)` 316, on the bit pattern -/
def ofFloat (c : Cfg) (t : FTrait) (bits : Nat) : M Int := do let u ← Unp.unpackFloat c.F c.E t bits; pack c u

/-- `operator float`, `operator double` — include/posit.h:472-473, `as_float_bin` 469; result as bit pattern -/
def toFloat (c : Cfg) (t : FTrait) (v : Int) : M Nat := do let u ← unpack c v; Unp.packFloat c.F c.E t u

/-- `Posit(int)` — include/posit.h:331 with `unpack_int`, include/unpacked.h:153-156 -/
def ofInt (c : Cfg) (i : Int) : M Int := do let u ← Unp.unpackFixed c.F c.E 32 0 i; pack c u

/-- `operator int` — include/posit.h:475, include/unpacked.h:159-162 -/
def toInt (c : Cfg) (v : Int) : M Int := do let u ← unpack c v; Unp.packFixed c.F 32 0 u

end Posit

end Verif
