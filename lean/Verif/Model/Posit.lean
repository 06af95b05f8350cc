import Verif.Model.Unpacked

/-!
# `Posit` — include/posit.h

A posit object is its stored integer `v` (include/posit.h:236), an `Int` in the range of the signed `H`-bit holder.
-/

namespace Verif

/-- `UnpackedLow_t` — include/posit.h:193-207. -/
structure Low where
  ty : Ty := .regular
  neg : Bool := false
  reg : Int := 0
  exp : Nat := 0
  frac : Nat := 0
  deriving DecidableEq, Repr

namespace Posit

/-- `neg ? -v : v` stored in a signed `w`-bit type — the expression used in include/posit.h:675,732 and
include/bithippop.hpp:275. -/
def condNeg (w : Nat) (neg : Bool) (v : Int) : M Int :=
  if neg then do let y ← arithS w (-v); return wrapS w y else return v

/-- `pcabs` — include/bithippop.hpp:273-276, on a signed `w`-bit type. -/
def pcabs (w : Nat) (x : Int) : M Int := condNeg w (x < 0) x

/-- `isNaN()` — include/posit.h:348. -/
def isNaN (c : Cfg) (v : Int) : Bool := c.spec ≠ .withInf && v = c.nan
/-- `isinfinity()` — include/posit.h:350. -/
def isInfinity (c : Cfg) (v : Int) : Bool := c.spec ≠ .withNan && (v = c.pinf || v = c.ninf)
/-- `isnegative()` — include/posit.h:349. -/
def isNegative (v : Int) : Bool := v < 0
/-- `iszero()` — include/posit.h:351. -/
def isZero (v : Int) : Bool := v = 0
/-- `isone()` — include/posit.h:352. -/
def isOne (c : Cfg) (v : Int) : Bool := v = c.one

/-- `operator==` — include/posit.h:302. -/
def eq (c : Cfg) (a u : Int) : Bool := if c.withnan && (isNaN c a || isNaN c u) then false else a = u
/-- `operator!=` — include/posit.h:303. -/
def ne (c : Cfg) (a u : Int) : Bool := !(eq c a u)
/-- `operator<` — include/posit.h:304. -/
def lt (c : Cfg) (a u : Int) : Bool := if c.withnan && (isNaN c a || isNaN c u) then false else a < u
/-- `operator<=` — include/posit.h:305. -/
def le (c : Cfg) (a u : Int) : Bool := if c.withnan && (isNaN c a || isNaN c u) then false else a ≤ u
/-- `operator>` — include/posit.h:307. -/
def gt (c : Cfg) (a u : Int) : Bool := if c.withnan && (isNaN c a || isNaN c u) then false else a > u
/-- `operator>=` — include/posit.h:308. -/
def ge (c : Cfg) (a u : Int) : Bool := if c.withnan && (isNaN c a || isNaN c u) then false else a ≥ u

/-- `a == 0 ? POSIT_MAXREGIME_BITS : findbitleftmostC(a)` — the two inner conditionals of include/posit.h:122. -/
def runIndex (c : Cfg) (a : Nat) : M Nat := if a = 0 then .ok c.maxRegimeBits else Unp.findLeft c.H a

/-- `decode_posit_rs` — include/posit.h:119-156. The argument is the left-aligned pattern as an unsigned `H`-bit
number; the code passes it as `T` and casts back to the unsigned type. Returns `(reg, rs)`. -/
def decodeRs (c : Cfg) (pars : Nat) : M (Int × Int) := do
  let x : Bool := (pars &&& c.holderMsb) ≠ 0
  let inv := 2 ^ c.H - 1 - pars
  let a := if x then inv else pars
  let k ← runIndex c a
  let index : Int := k
  let reg := if x then index - 1 else -index
  let rs := if (c.maxRegimeBits : Int) < index + 1 then (c.maxRegimeBits : Int) else index + 1
  return (reg, rs)

/-- `bitmask<R>(onecount)` — include/bithippop.hpp:64-68, `R` unsigned with `w` bits. -/
def bitmask (w : Nat) (onecount : Nat) : M Nat := do
  let a := if onecount ≠ 0 then 2 ^ w - 1 else 0
  let b ← shrU w (2 ^ w - 1) ((w : Int) - onecount)
  return a &&& b

/-- `bitset_get<T,offset,size>` — include/bithippop.hpp:165-169, `T` unsigned with `w` bits. -/
def bitsetGet (w x offset size : Nat) : M Nat := do
  let y ← shrU w x offset
  let m ← bitmask w size
  return y &&& m

/-- `bitset_leftmost_get_const<T,N>` — include/bithippop.hpp:232-249. -/
def leftmostGet (w n x : Nat) : M Nat :=
  if n = 0 then .ok 0 else bitsetGet w x (w - n) n

/-- `unpack_low()` — include/posit.h:652-692. -/
def unpackLow (c : Cfg) (v : Int) : M Low :=
  if isInfinity c v then .ok { ty := .infinity, neg := v < 0 }
  else if isNaN c v then .ok { ty := .nan }
  else if v = 0 then .ok { ty := .zero }
  else do
    let neg : Bool := (wrapU c.H v &&& c.signBit) ≠ 0
    let pa ← condNeg c.H neg v
    let sh ← shlS c.H pa (c.extraBits + 1)
    let pars1 := wrapU c.H sh
    let (reg, rs) ← decodeRs c pars1
    let p2 ← shlU c.H pars1 rs
    let pars2 := p2 % 2 ^ c.H
    let exp ← leftmostGet c.H c.es pars2
    let p3 ← shlU c.H pars2 c.es
    let pars := p3 % 2 ^ c.H
    return { ty := .regular, neg := neg, reg := wrapS c.H reg, exp := exp, frac := pars }

/-- `msb_exp` — include/posit.h:626-649. -/
def msbExp (c : Cfg) (exp : Nat) : M Nat :=
  if c.es = 0 then .ok 0 else do
    let r ← shlU c.H exp ((c.H : Int) - c.es)
    return r % 2 ^ c.H

/-- `regbits` — include/posit.h:725: `reg+1` ones on the left, or a one preceded by `-reg` zeros. -/
def regBits (c : Cfg) (reg : Int) : M Nat :=
  if reg < 0 then do let r ← shrU c.H c.holderMsb (-reg); return r % 2 ^ c.H
  else do let r ← shlU c.H c.mask ((c.H : Int) - (reg + 1)); return r % 2 ^ c.H

/-- The `Regular` part of `pack_low` — include/posit.h:716-732. -/
def packLowRegular (c : Cfg) (x : Low) : M Int := do
  let reg := x.reg
  let rs : Int := if -reg + 1 > reg + 2 then -reg + 1 else reg + 2
  let es : Int := if (c.N : Int) - rs - 1 < c.es then (c.N : Int) - rs - 1 else c.es
  let regbits ← regBits c reg
  let eexp ← msbExp c x.exp
  let fraction := x.frac
  let a ← shrU c.H fraction (rs + es + 1)
  let b ← shrU c.H eexp (rs + 1)
  let d ← shrU c.H regbits 1
  let p0 ← shrU c.H (a ||| b ||| d) ((c.H : Int) - c.N)
  let p := wrapS c.H p0
  condNeg c.H x.neg p

/-- `pack_low` — include/posit.h:695-733. -/
def packLow (c : Cfg) (x : Low) : M Int :=
  match x.ty with
  | .infinity => .ok (if c.spec ≠ .withNan then (if x.neg then c.ninf else c.pinf) else c.nan)
  | .zero => .ok 0
  | .nan => .ok (if c.spec ≠ .withInf then c.nan else c.pinf)
  | .regular => packLowRegular c x

/-- `cast_msb<A,abits,B,bbits>` — include/bithippop.hpp:287-321. -/
def castMsb (abits bbits x : Nat) : M Nat :=
  if abits > bbits then do let r ← shrU abits x ((abits : Int) - bbits); return r % 2 ^ bbits
  else do let r ← shlU bbits (x % 2 ^ bbits) ((bbits : Int) - abits); return r % 2 ^ bbits

/-- `join_reg_exp` — include/posit.h:167-170. -/
def joinRegExp (c : Cfg) (reg : Int) (exp : Nat) : M Int := do
  let p ← arithS c.E (reg * 2 ^ c.es)
  return wrapS c.E (wrapU (pw c.E) p ||| exp : Nat)

/-- `split_reg_exp` — include/posit.h:158-164; `>>` of a negative exponent is arithmetic. -/
def splitRegExp (c : Cfg) (e : Int) : Int × Nat :=
  (wrapS c.H (e / 2 ^ c.es), (wrapU (pw c.E) e &&& c.espMask) % 2 ^ c.H)

/-- `unpacked_low2full` — include/posit.h:793-806. -/
def low2full (c : Cfg) (q : Low) : M Unp :=
  if q.ty = .regular then do
    let f ← castMsb c.H c.F q.frac
    let e ← joinRegExp c q.reg q.exp
    return { ty := .regular, neg := q.neg, exp := e, frac := f }
  else .ok { ty := q.ty, neg := q.neg }

/-- `clamp` — include/unpacked.h:34-38. -/
def clamp (v lo hi : Int) : Int := if v < lo then lo else if v > hi then hi else v

/-- `unpacked_full2low` — include/posit.h:809-822. -/
def full2low (c : Cfg) (x : Unp) : M Low :=
  if x.ty = .regular then do
    let e := clamp x.exp c.minexponent c.maxexponent
    let rr := splitRegExp c e
    let f ← castMsb c.F c.H x.frac
    return { ty := .regular, neg := x.neg, reg := rr.1, exp := rr.2, frac := f }
  else .ok { ty := x.ty, neg := x.neg }

/-- `pack_posit` — include/posit.h:826-830. -/
def pack (c : Cfg) (x : Unp) : M Int := do let l ← full2low c x; packLow c l

/-- `unpack_posit` / `unpack()` — include/posit.h:888-892, 333. -/
def unpack (c : Cfg) (v : Int) : M Unp := do let l ← unpackLow c v; low2full c l

/-- `neg()` / unary `operator-` — include/posit.h:341, 420. -/
def neg (c : Cfg) (v : Int) : M Int := do let y ← arithS c.H (-v); return wrapS c.H y

/-- `abs()` and `std::abs` — include/posit.h:338, 902-906. -/
def abs (c : Cfg) (v : Int) : M Int := pcabs c.H v

/-- `operator*` (without `POSITMUL`) — include/posit.h:380-383; `*=` (391-395) stores the same value. -/
def mul (c : Cfg) (a b : Int) : M Int := do
  let ua ← unpack c a; let ub ← unpack c b; let r ← Unp.mul c.F c.E ua ub; pack c r

/-- `operator+` — include/posit.h:396-399; `+=` (401) stores the same value. -/
def add (c : Cfg) (a b : Int) : M Int :=
  if isZero a then .ok b else if isZero b then .ok a else do
    let ua ← unpack c a; let ub ← unpack c b; let r ← Unp.add c.F c.E ua ub; pack c r

/-- binary `operator-` — include/posit.h:422. -/
def sub (c : Cfg) (a b : Int) : M Int := do let nb ← neg c b; add c a nb

/-- `operator/` — include/posit.h:423; `/=` (424) stores the same value. -/
def div (c : Cfg) (a b : Int) : M Int := do
  let ua ← unpack c a; let ub ← unpack c b; let r ← Unp.div c.F c.E ua ub; pack c r

/-- `fma` — include/posit.h:386-389. -/
def fma (c : Cfg) (a b d : Int) : M Int := do
  let ua ← unpack c a; let ub ← unpack c b; let m ← Unp.mul c.F c.E ua ub
  let ud ← unpack c d; let r ← Unp.add c.F c.E m ud; pack c r

/-- `inv()` — include/posit.h:598-618. The test on `fraction` is made for every type, as in the code. -/
def inv (c : Cfg) (v : Int) : M Int := do
  let u ← unpackLow c v
  if u.frac = 0 then
    if u.exp = 0 then do
      let r ← arithS c.H (-u.reg)
      packLow c { u with reg := wrapS c.H r }
    else do
      let r ← arithS c.H (-(u.reg + 1))
      packLow c { u with reg := wrapS c.H r, exp := wrapU c.H ((c.regScale : Int) - u.exp) }
  else do
    let f ← low2full c u; let i ← Unp.inv c.F c.E f; pack c i

/-- `half()` — include/posit.h:736-762. -/
def half (c : Cfg) (v : Int) : M Int := do
  let q ← unpackLow c v
  if q.ty = .regular then
    if q.exp = 0 then do
      let r ← arithS c.H (q.reg - 1)
      packLow c { q with reg := wrapS c.H r, exp := wrapU c.H ((c.regScale : Int) - 1) }
    else packLow c { q with exp := q.exp - 1 }
  else return v

/-- `twice()` — include/posit.h:765-791. -/
def twice (c : Cfg) (v : Int) : M Int := do
  let q ← unpackLow c v
  if q.ty = .regular then
    if (q.exp : Int) = (c.regScale : Int) - 1 then do
      let r ← arithS c.H (q.reg + 1)
      packLow c { q with reg := wrapS c.H r, exp := 0 }
    else packLow c { q with exp := (q.exp + 1) % 2 ^ c.H }
  else return v

/-- `prev()` — include/posit.h:353. -/
def prev (c : Cfg) (v : Int) : M Int :=
  if v > c.maxpos ∨ v ≤ c.minneg then .ok v else do let y ← arithS c.H (v - 1); return wrapS c.H y
/-- `next()` — include/posit.h:354. -/
def next (c : Cfg) (v : Int) : M Int :=
  if v ≤ c.minneg ∨ v > c.maxpos then .ok v else do let y ← arithS c.H (v + 1); return wrapS c.H y

/-- `isUnitRange()` — include/posit.h:485. -/
def isUnitRange (c : Cfg) (v : Int) : Bool := v ≥ 0 && v ≤ c.one

/-- `urOneMinus()` — include/posit.h:488: `POSIT_INVERTBIT - v`, unsigned for 32/64-bit holders (wraps), `int` for the
narrow ones (cannot overflow); converted to `T` either way. -/
def urOneMinus (c : Cfg) (v : Int) : Int := wrapS c.H ((c.invertBit : Int) - v)

/-- `urDeltaPs()` — include/posit.h:491. -/
def urDeltaPs (c : Cfg) (v : Int) : M Int := mul c v (urOneMinus c v)

/-- `(v ^ POSIT_SIGNBIT) >> n` — used by include/posit.h:479,482. For a 32/64-bit holder the operands are converted to
the unsigned type (logical shift); for the narrow holders both are promoted to `int` (arithmetic shift). -/
def xorSignShr (c : Cfg) (v : Int) (n : Nat) : Int :=
  if c.H < 32 then
    wrapS c.H ((wrapS 32 ((wrapU 32 v ^^^ c.signBit : Nat) : Int)) / 2 ^ n)
  else wrapS c.H ((wrapU c.H v ^^^ c.signBit) >>> n : Nat)

/-- `pseudosigmoid()` — include/posit.h:479. -/
def pseudosigmoid (c : Cfg) (v : Int) : Int := xorSignShr c v 2
/-- `pseudosoftplus()` — include/posit.h:482. -/
def pseudosoftplus (c : Cfg) (v : Int) : Int := xorSignShr c v 1

/-- `std::sqrt` — include/posit.h:908-913. -/
def stdSqrt (c : Cfg) (v : Int) : M Int := pcabs c.H v
/-- `std::min` — include/posit.h:915-919. -/
def stdMin (c : Cfg) (a b : Int) : Int := if le c a b then a else b
/-- `std::max` — include/posit.h:921-925. -/
def stdMax (c : Cfg) (a b : Int) : Int := if ge c a b then a else b

/-- the loop of `dot` — include/posit.h:433-436: `v0 += a_i.unpack()*b_i.unpack()`. -/
def dotLoop (c : Cfg) : Unp → List (Int × Int) → M Unp
  | acc, [] => .ok acc
  | acc, (x, y) :: l => do
    let ux ← unpack c x; let uy ← unpack c y
    let m ← Unp.mul c.F c.E ux uy
    let s ← Unp.add c.F c.E acc m
    dotLoop c s l

/-- `dot(begin1, begin2, N)` — include/posit.h:426-438, over the `N` pairs of elements as a list. -/
def dot (c : Cfg) : List (Int × Int) → M Int
  | [] => .ok 0
  | (x, y) :: l => do
    let ux ← unpack c x; let uy ← unpack c y
    let m ← Unp.mul c.F c.E ux uy
    let s ← dotLoop c m l
    pack c s

/-- `PositMul + PositMul` — include/posit.h:256-259. -/
def mulAddMul (c : Cfg) (a b x y : Int) : M Int := do
  let ua ← unpack c a; let ub ← unpack c b; let m ← Unp.mul c.F c.E ua ub
  let ux ← unpack c x; let uy ← unpack c y; let n ← Unp.mul c.F c.E ux uy
  let r ← Unp.add c.F c.E m n; pack c r

/-- `PositMul - PositMul` — include/posit.h:262-265. -/
def mulSubMul (c : Cfg) (a b x y : Int) : M Int := do
  let ua ← unpack c a; let ub ← unpack c b; let m ← Unp.mul c.F c.E ua ub
  let ux ← unpack c x; let uy ← unpack c y; let n ← Unp.mul c.F c.E ux uy
  let r ← Unp.sub c.F c.E m n; pack c r

end Posit
end Verif
