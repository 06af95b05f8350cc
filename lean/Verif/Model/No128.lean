import Verif.Model.BitHelpers
import Verif.Model.Posit

/-!
# Products and quotients of 64-bit fractions without a 128-bit integer type

The other files take `nextinttype<uint64_t>` for the 128-bit integer of the compiler (include/typehelpers.hpp:19-22). Where there is none
(`__SIZEOF_INT128__` not defined: 32-bit targets, Visual C++) it is `struct unsigned128` (include/typehelpers.hpp:81-156), which has shifts but
no `operator*`, `/`, `&` or `==`; in their place its conversion to `uint64_t` (include/typehelpers.hpp:93) and the built-in operator apply.
Then `nextintop<uint64_t>` is the primary template (include/typehelpers.hpp:282-295): its specialisation (include/typehelpers.hpp:296-377)
asks for the macro `_MSVC_VER`, which no compiler defines (that of Visual C++ is `_MSC_VER`).

The fraction type has 64 bits throughout; narrower ones use built-in types and are not concerned.
-/

namespace Verif

namespace Generic

/-- `nextintop<uint64_t>::extramul` — include/typehelpers.hpp:285-288: `(unsigned128)a * b` is a product of two `uint64_t`. -/
def extramul (a b : Nat) : U128 := ⟨0, (U128.toU64 ⟨0, a⟩ * b) % 2 ^ 64⟩

/-- `nextintop<uint64_t>::extradiv` — include/typehelpers.hpp:290-293: the dividend is converted to `uint64_t`. -/
def extradiv (a : U128) (b : Nat) : M U128 := if b = 0 then .error .divZero else .ok ⟨0, a.toU64 / b⟩

end Generic

namespace No128
open Unp

/-- `q ? (frac << 1) : frac` — include/unpacked.h:404. -/
def adjust (q : Bool) (frac : U128) : M U128 := if q then frac.shl 1 else .ok frac

/-- The `Regular,Regular` case of `operator*` — include/unpacked.h:395-413. -/
def mulRegular (E : Nat) (a b : Unp) : M Unp := do
  let afrac := leftmost 64 ||| (a.frac >>> 1)
  let bfrac := leftmost 64 ||| (b.frac >>> 1)
  let frac ← (Generic.extramul afrac bfrac).shr 64
  let q : Bool := (frac.toU64 &&& leftmost 64) = 0
  let rfrac ← adjust q frac
  let s ← arithS E (a.exp + b.exp)
  let exp ← arithS E (s + (if q then 0 else 1))
  let r ← rfrac.shl 1
  return mk3 64 E exp r.toU64 (xor a.neg b.neg)

/-- `operator*` — include/unpacked.h:389-425. -/
def umul (E : Nat) (a b : Unp) : M Unp :=
  if a.ty = .nan ∨ b.ty = .nan then .ok a
  else match a.ty, b.ty with
  | .regular, .regular => mulRegular E a b
  | .regular, .zero => .ok (ofTy .zero)
  | .zero, .regular => .ok (ofTy .zero)
  | .zero, .zero => .ok (ofTy .zero)
  | .infinity, .zero => .ok (ofTy .nan)
  | .zero, .infinity => .ok (ofTy .nan)
  | _, _ => .ok (ofTy .infinity (xor a.neg b.neg))

/-- `nextintop<FT>::extradiv(((nextinttype<FT>::type)afrac) << FT_bits, bfrac)` — include/unpacked.h:267,453. -/
def fracDiv (afrac bfrac : Nat) : M U128 := do
  let n ← (⟨0, afrac⟩ : U128).shl 64
  Generic.extradiv n bfrac

/-- The `Regular,Regular` case of `operator/` — include/unpacked.h:440-455. -/
def divRegular (E : Nat) (a b : Unp) : M Unp := do
  let afrac := leftmost 64 ||| (a.frac >>> 1)
  let bfrac1 := leftmost 64 ||| (b.frac >>> 1)
  let s ← arithS E (a.exp - b.exp)
  let exp ← arithS E (s + (if afrac < bfrac1 then -1 else 0))
  let bfrac := if afrac < bfrac1 then bfrac1 >>> 1 else bfrac1
  let r ← fracDiv afrac bfrac
  return mk3 64 E exp r.toU64 (xor a.neg b.neg)

/-- `operator/` — include/unpacked.h:432-469. -/
def udiv (E : Nat) (a b : Unp) : M Unp :=
  if a.ty = .nan ∨ b.ty = .nan then .ok a
  else match a.ty, b.ty with
  | .regular, .regular => divRegular E a b
  | .zero, .zero => .ok (ofTy .nan)
  | .infinity, .infinity => .ok (ofTy .nan)
  | .zero, .infinity => .ok (ofTy .zero)
  | .zero, .regular => .ok a
  | .infinity, .zero => .ok a
  | .regular, .zero => .ok (ofTy .infinity a.neg)
  | _, _ => .ok (ofTy .infinity (xor a.neg b.neg))

/-- the exponent of the reciprocal — include/unpacked.h:256-264. -/
def invExp (E : Nat) (dec : Bool) (e : Int) : M Int := do
  let x ← arithS E (-e)
  if dec then arithS E (x - 1) else .ok x

/-- `inv()` — include/unpacked.h:239-281. -/
def uinv (E : Nat) (u : Unp) : M Unp :=
  match u.ty with
  | .regular =>
    if u.frac = 0 then do
      let e ← arithS E (-u.exp)
      return mk3 64 E e 0 u.neg
    else do
      let afrac := leftmost 64
      let bfrac := leftmost 64 ||| (u.frac >>> 1)
      let exp ← invExp E (afrac < bfrac) u.exp
      let r ← fracDiv afrac (if afrac < bfrac then bfrac >>> 1 else bfrac)
      return mk3 64 E exp r.toU64 u.neg
  | .infinity => .ok (ofTy .zero)
  | .zero => .ok (ofTy .infinity)
  | .nan => .ok u

/-- `operator*` of posits — include/posit.h:380-383. -/
def mul (c : Cfg) (a b : Int) : M Int := do
  let ua ← Posit.unpack c a; let ub ← Posit.unpack c b; let r ← umul c.E ua ub; Posit.pack c r

/-- `operator/` of posits — include/posit.h:423. -/
def div (c : Cfg) (a b : Int) : M Int := do
  let ua ← Posit.unpack c a; let ub ← Posit.unpack c b; let r ← udiv c.E ua ub; Posit.pack c r

/-- `fma` — include/posit.h:386-389. -/
def fma (c : Cfg) (a b d : Int) : M Int := do
  let ua ← Posit.unpack c a; let ub ← Posit.unpack c b; let m ← umul c.E ua ub
  let ud ← Posit.unpack c d; let r ← Unp.add c.F c.E m ud; Posit.pack c r

/-- `inv()` of posits — include/posit.h:598-618. -/
def inv (c : Cfg) (v : Int) : M Int := do
  let u ← Posit.unpackLow c v
  if u.frac = 0 then
    if u.exp = 0 then do
      let r ← arithS c.H (-u.reg)
      Posit.packLow c { u with reg := wrapS c.H r }
    else do
      let r ← arithS c.H (-(u.reg + 1))
      Posit.packLow c { u with reg := wrapS c.H r, exp := wrapU c.H ((c.regScale : Int) - u.exp) }
  else do
    let f ← Posit.low2full c u; let i ← uinv c.E f; Posit.pack c i

/-- the loop of `dot` — include/posit.h:433-436. -/
def dotLoop (c : Cfg) : Unp → List (Int × Int) → M Unp
  | acc, [] => .ok acc
  | acc, (x, y) :: l => do
    let ux ← Posit.unpack c x; let uy ← Posit.unpack c y
    let m ← umul c.E ux uy
    let s ← Unp.add c.F c.E acc m
    dotLoop c s l

/-- `dot(begin1, begin2, N)` — include/posit.h:426-438. -/
def dot (c : Cfg) : List (Int × Int) → M Int
  | [] => .ok 0
  | (x, y) :: l => do
    let ux ← Posit.unpack c x; let uy ← Posit.unpack c y
    let m ← umul c.E ux uy
    let s ← dotLoop c m l
    Posit.pack c s

end No128
end Verif
