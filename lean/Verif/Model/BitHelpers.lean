import Verif.Model.Posit

/-!
# Bit helpers — include/bithippop.hpp, include/floatconst2bits.hpp, and the two-word integer of include/typehelpers.hpp

`bitmask`, `bitset_get`, `bitset_leftmost_get_const`, `cast_msb` and `pcabs` are in `Model/Posit.lean`, next to their uses.
The BMI code paths (include/bithippop.hpp:177-224, only with `__BMI__`) are in `Model/TestProg.lean`.
-/

namespace Verif.Bits

/-- `__builtin_clz` on a 32-bit value: compiler intrinsic, undefined at zero. -/
def builtinClz (x : Nat) : M Nat := if x = 0 then .error .clzZero else .ok (clz 32 x)

/-- `__builtin_clz64` — include/bithippop.hpp:89-92; the second argument is truncated to `unsigned int`. -/
def builtinClz64 (v : Nat) : M Nat :=
  if v >>> 32 ≠ 0 then builtinClz ((v >>> 32) % 2 ^ 32) else do let n ← builtinClz (v % 2 ^ 32); return 32 + n

/-- `findbitleftmostC(uint64_t)` — include/bithippop.hpp:96-99 -/
def findLeft64 (x : Nat) : M Int := do let n ← builtinClz64 x; return n
/-- `findbitleftmostC(uint32_t)` — include/bithippop.hpp:103-106 -/
def findLeft32 (x : Nat) : M Int := do let n ← builtinClz x; return n
/-- `findbitleftmostC(uint16_t)` — include/bithippop.hpp:110-113 -/
def findLeft16 (x : Nat) : M Int := do let n ← builtinClz x; return (n : Int) - 16
/-- `findbitleftmostC(uint8_t)` — include/bithippop.hpp:117-120 -/
def findLeft8 (x : Nat) : M Int := do let n ← builtinClz x; return (n : Int) - 24

/-- `bit_position` — include/floatconst2bits.hpp:18-22 -/
def bitPosition : Array Nat := #[
  0,  1,  2,  7,  3, 13,  8, 19,  4, 25, 14, 28,  9, 34, 20, 40,
  5, 17, 26, 38, 15, 46, 29, 48, 10, 31, 35, 54, 21, 50, 41, 57,
  63,  6, 12, 18, 24, 27, 33, 39, 16, 37, 45, 47, 30, 53, 49, 56,
  62, 11, 23, 32, 36, 44, 52, 55, 61, 22, 43, 51, 60, 42, 59, 58]

/-- the six statements `v |= v >> k` — include/floatconst2bits.hpp:24-29 -/
def smear (v : Nat) : Nat :=
  let v := v ||| v >>> 1
  let v := v ||| v >>> 2
  let v := v ||| v >>> 4
  let v := v ||| v >>> 8
  let v := v ||| v >>> 16
  v ||| v >>> 32

/-- `count_leading_zeroes` — include/floatconst2bits.hpp:16-33 (64-bit unsigned arithmetic; the index is below 64). -/
def countLeadingZeroes (v : Nat) : Int :=
  let v := ((smear v >>> 1) + 1) % 2 ^ 64
  63 - (bitPosition[(v * 0x0218a392cd3d5dbf % 2 ^ 64) >>> 58]!  : Nat)

/-- `bitset_part` — include/bithippop.hpp:152-163, `T` and `Y` the same unsigned type with `w` bits. -/
def bitsetPart (w input value : Nat) (offset size : Nat) : M Nat := do
  let m ← Posit.bitmask w size
  let s ← shlU w (value &&& m) offset
  return ((input &&& ((2 ^ w - 1) ^^^ m)) ||| s) % 2 ^ w

/-- `a ^ b` on signed operands of a `w`-bit type (bitwise in the promoted type) -/
def xorS (w : Nat) (a b : Int) : Int := wrapS (pw w) (wrapU (pw w) a ^^^ wrapU (pw w) b : Nat)

/-- `pabs` — include/bithippop.hpp:279-284, on a signed `w`-bit type; `>>` is arithmetic. -/
def pabs (w : Nat) (x : Int) : M Int := do
  let mask := wrapS w (x / 2 ^ (w - 1))
  let s ← arithS w (x + mask)
  return wrapS w (xorS w s mask)

/-- `cast_right_to_left<A,abits,B,bbits>` — include/bithippop.hpp:324-358; `A` has `aw` bits and `B` has `bbits` bits
(every use passes the full width of `B`). -/
def castRightToLeft (aw abits bbits x : Nat) : M Nat := do
  let g ← Posit.bitsetGet aw x 0 abits
  if abits > bbits then do
    let r ← shrU aw g ((abits : Int) - bbits)
    return r % 2 ^ bbits
  else do
    let r ← shlU bbits (g % 2 ^ bbits) ((bbits : Int) - abits)
    return r % 2 ^ bbits

end Verif.Bits

namespace Verif

/-- `struct unsigned128` — include/typehelpers.hpp:81-91 -/
structure U128 where
  hi : Nat
  lo : Nat
  deriving DecidableEq, Repr

namespace U128

/-- `operator uint64_t` — include/typehelpers.hpp:93 -/
def toU64 (a : U128) : Nat := a.lo

/-- `operator<` — include/typehelpers.hpp:95-98 -/
def lt (a b : U128) : Bool := a.hi < b.hi && a.lo < b.lo

/-- 64-bit unsigned `+` -/
def add64 (a b : Nat) : Nat := (a + b) % 2 ^ 64
/-- 64-bit unsigned `-` -/
def sub64 (a b : Nat) : Nat := (a + 2 ^ 64 - b) % 2 ^ 64

/-- `operator-` — include/typehelpers.hpp:100-107 -/
def sub (a b : U128) : U128 :=
  let r : U128 := ⟨sub64 a.hi b.hi, sub64 a.lo b.lo⟩
  if a.lo < b.lo then ⟨sub64 r.hi 1, r.lo⟩ else r

/-- `operator+` — include/typehelpers.hpp:109-116 -/
def add (a b : U128) : U128 :=
  let r : U128 := ⟨add64 a.hi b.hi, add64 a.lo b.lo⟩
  if r.lo < a.lo then ⟨add64 r.hi 1, r.lo⟩ else r

/-- `operator<<` — include/typehelpers.hpp:118-135 (the branch without the MSVC intrinsic) -/
def shl (a : U128) (n : Int) : M U128 :=
  if n ≥ 64 then do
    let h ← shlU 64 a.lo (n - 64)
    return ⟨h, 0⟩
  else do
    let l ← shlU 64 a.lo n
    let x ← shlU 64 a.hi n
    let y ← shrU 64 a.lo (64 - n)
    return ⟨x ||| y, l⟩

/-- `operator>>` — include/typehelpers.hpp:138-155 (the branch without the MSVC intrinsic) -/
def shr (a : U128) (n : Int) : M U128 :=
  if n ≥ 64 then do
    let l ← shrU 64 a.hi (n - 64)
    return ⟨0, l⟩
  else do
    let h ← shrU 64 a.hi n
    let x ← shrU 64 a.lo n
    let y ← shlU 64 a.hi (64 - n)
    return ⟨h, x ||| y⟩

end U128

end Verif
