import Verif.Cpp

/-!
# The emulated 12-bit float — include/float12.hpp

The header is a copy of the conversions between `float32_t` and `float16_t` of the Berkeley SoftFloat library with 16 replaced by
12. It does not compile: `float12_t`, `int_float12_t` and `uint_float12_t` stand alone without a declarator (20, 26, 27), the
types `uint12_t`, `uint_fast12_t` and `int_fast12_t` and the macros `signF12UI`, `expF12UI` and `fracF12UI` exist nowhere. The
model repairs it as follows: the unsigned types have `W` bits, a parameter (16 in the library the code was copied from); the three
macros cut out the fields that `packToF12UI` puts together (1 + 5 + 10 bits, as `signF16UI`, `expF16UI`, `fracF16UI` do). A
`float12_t` is the word `uZ.ui` it shares a union with.

Functions of the library that the header calls are modelled after its documentation: `softfloat_shiftRightJam32`,
`softfloat_countLeadingZeros16`, `packToF32UI` and the macros of the fields. What the library does with NaNs depends on the platform
it is compiled for, so the two functions for it are parameters. The exception flags are left out, and `SOFTFLOAT_ROUND_ODD` is
taken to be undefined (132-137).
-/

namespace Verif.Float12

/-- `softfloat_roundingMode`, a global variable of the library -/
inductive Mode where
  | nearEven | minMag | min | max | nearMaxMag
  deriving DecidableEq, Repr

/-- `softfloat_f32UIToCommonNaN` (the fields `sign` and `v64` of the result) and `softfloat_commonNaNToF32UI`, which depend on the
platform of the library -/
structure NanExt where
  of32 : Nat → Nat × Nat
  to32 : Nat → Nat → Nat

/-- `packToF12UI` — float12.hpp:22 -/
def pack (W sign exp sig : Nat) : Nat := ((sign % 2 ^ W) <<< 15) + ((exp % 2 ^ W) <<< 10) + sig

/-- `softfloat_commonNaNToF12UI` — float12.hpp:23 -/
def nanTo12 (W sign v64 : Nat) : Nat := ((sign <<< 15) ||| 0x7E00 ||| (v64 >>> 54)) % 2 ^ W

/-- `softfloat_shiftRightJam32` of the library: shift to the right; the last bit tells whether any bit fell out -/
def shiftRightJam (a dist : Nat) : Nat :=
  if dist < 31 then (a >>> dist) ||| (if a % 2 ^ dist ≠ 0 then 1 else 0) else if a ≠ 0 then 1 else 0

/-- what is added before the last four bits are cut off — float12.hpp:92-101 -/
def roundIncrement (mode : Mode) (sign : Nat) : Nat :=
  if mode ≠ .nearEven ∧ mode ≠ .nearMaxMag then
    (if mode = (if sign ≠ 0 then Mode.min else Mode.max) then 0xF else 0)
  else 0x8

/-- last part of `softfloat_roundPackToF12` — float12.hpp:129-147 -/
def roundTail (W : Nat) (mode : Mode) (sign exp sig : Nat) : Nat :=
  let roundBits := sig &&& 0xF
  let sig := ((sig + roundIncrement mode sign) >>> 4) % 2 ^ W
  let sig := sig &&& (2 ^ W - 1 - (if roundBits ^^^ 8 = 0 ∧ mode = .nearEven then 1 else 0))
  let exp := if sig = 0 then 0 else exp
  pack W sign exp sig % 2 ^ W

/-- `softfloat_roundPackToF12` — float12.hpp:80-149 -/
def roundPack (W : Nat) (mode : Mode) (sign : Nat) (exp : Int) (sig : Nat) : Nat :=
  if 0x1D ≤ wrapU 32 exp then
    if exp < 0 then roundTail W mode sign 0 (shiftRightJam sig (-exp).toNat % 2 ^ W)
    else if 0x1D < exp ∨ 0x8000 ≤ sig + roundIncrement mode sign then
      (pack W sign 0x1F 0 - (if roundIncrement mode sign = 0 then 1 else 0)) % 2 ^ W
    else roundTail W mode sign exp.toNat sig
  else roundTail W mode sign exp.toNat sig

/-- `f32_to_f12` on finite numbers, from the shifted fraction on — float12.hpp:65-71 -/
def ofFinite (W : Nat) (mode : Mode) (sign exp frac16 : Nat) : Nat :=
  if exp ||| frac16 = 0 then pack W sign 0 0 % 2 ^ W
  else roundPack W mode sign ((exp : Int) - 0x71) ((frac16 ||| 0x4000) % 2 ^ W)

/-- `f32_to_f12`; the template parameter `exponentbits` is not used — float12.hpp:32-76 -/
def ofF32 (W mantissabits mantissamask : Nat) (x : NanExt) (mode : Mode) (uiA : Nat) : M Nat :=
  let sign := (uiA % 2 ^ 32) >>> 31
  let exp := (uiA >>> 23) &&& 0xFF
  let frac := uiA &&& 0x007FFFFF
  if exp = 0xFF then
    if frac ≠ 0 then .ok (nanTo12 W (x.of32 uiA).1 (x.of32 uiA).2)
    else .ok (pack W sign 0x1F 0 % 2 ^ W)
  else do
    let y ← shrU 32 frac mantissabits
    return ofFinite W mode sign exp ((y ||| (if frac &&& mantissamask ≠ 0 then 1 else 0)) % 2 ^ W)

/-- `softfloat_normSubnormalF12Sig`: exponent and significand — float12.hpp:151-161 -/
def normSubnormal (sig : Nat) : M (Int × Nat) := do
  let shiftDist : Int := (clz 16 sig : Int) - 5
  return (1 - shiftDist, (← shlU 16 sig shiftDist) % 2 ^ 16)

/-- `packToF32UI` of the library -/
def pack32 (sign : Nat) (exp : Int) (sig : Nat) : Nat :=
  ((sign <<< 31) % 2 ^ 32 + (wrapU 32 exp <<< 23) % 2 ^ 32 + sig) % 2 ^ 32

/-- `f12_to_f32`, with `softfloat_f12UIToCommonNaN` (164-172) — float12.hpp:175-223 -/
def toF32 (x : NanExt) (uiA : Nat) : M Nat :=
  let sign := (uiA >>> 15) % 2
  let exp := (uiA >>> 10) &&& 0x1F
  let frac := uiA &&& 0x3FF
  if exp = 0x1F then
    if frac ≠ 0 then .ok (x.to32 (uiA >>> 15) ((uiA <<< 54) % 2 ^ 64))
    else .ok (pack32 sign 0xFF 0)
  else if exp = 0 then
    if frac = 0 then .ok (pack32 sign 0 0)
    else do
      let n ← normSubnormal frac
      return pack32 sign (n.1 - 1 + 0x70) ((n.2 <<< 13) % 2 ^ 32)
  else .ok (pack32 sign ((exp : Int) + 0x70) ((frac <<< 13) % 2 ^ 32))

end Verif.Float12
