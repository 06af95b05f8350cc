import Verif.Model.Config

/-!
# `Unpacked<FT,ET>` — include/unpacked.h

`F` = bits of `FT`, `E` = bits of `ET`.  Fraction values are `Nat` below `2^F`, exponents are `Int` in the range of a
signed `E`-bit type.
-/

namespace Verif

/-- `enum Type` — include/unpacked.h:66-72. -/
inductive Ty where
  | regular | infinity | nan | zero
  deriving DecidableEq, Repr

/-- The data members of `Unpacked` — include/unpacked.h:75-78 (with their default values). -/
structure Unp where
  ty : Ty := .regular
  neg : Bool := false
  exp : Int := 0
  frac : Nat := 0
  deriving DecidableEq, Repr

namespace Unp

/-- `Unpacked(Type t, bool)` — include/unpacked.h:107. -/
def ofTy (t : Ty) (neg : Bool := false) : Unp := { ty := t, neg := neg }

/-- `Unpacked(ET, FT, bool)` — include/unpacked.h:125-129; the arguments are converted (wrap) to `ET` and `FT`. -/
def mk3 (F E : Nat) (e : Int) (f : Nat) (neg : Bool) : Unp :=
  { ty := .regular, neg := neg, exp := wrapS E e, frac := f % 2 ^ F }

/-- `FT_leftmost_bit` — include/unpacked.h:59-62. -/
def leftmost (F : Nat) : Nat := 2 ^ (F - 1)

/-- `findbitleftmostC` on `FT` — include/bithippop.hpp:96-120 (see `Model/BitHelpers.lean` for that code). -/
def findLeft (F x : Nat) : M Nat := if x = 0 then .error .clzZero else .ok (clz F x)

/-- `normalized()` — include/unpacked.h:92-103. -/
def normalized (F E : Nat) (u : Unp) : M Unp :=
  if u.frac = 0 then .ok (ofTy .zero false)
  else do
    let k ← findLeft F u.frac
    let e ← arithS E (u.exp - k)
    let f ← shlU F u.frac (k + 1)
    return mk3 F E e f u.neg

/-- `operator==` — include/unpacked.h:217-226. -/
def eq (a u : Unp) : Bool :=
  if a.ty = .nan ∨ u.ty = .nan then false
  else a.neg = u.neg && a.ty = u.ty && (if a.ty = .regular then a.exp = u.exp && a.frac = u.frac else true)

/-- `operator!=` — include/unpacked.h:228-232. -/
def ne (a u : Unp) : Bool :=
  if a.ty = .nan ∨ u.ty = .nan then true else eq a u

/-- unary `operator-` — include/unpacked.h:234-237. -/
def neg' (u : Unp) : Unp := { ty := .regular, neg := !u.neg, exp := u.exp, frac := u.frac }

/-- `inv()` — include/unpacked.h:239-281. The division is done in `nextinttype<FT>` (typehelpers.hpp:283-295), wide
enough for `afrac << FT_bits`. -/
def inv (F E : Nat) (u : Unp) : M Unp :=
  match u.ty with
  | .regular =>
    if u.frac = 0 then do
      let e ← arithS E (-u.exp)
      return mk3 F E e 0 u.neg
    else do
      let afrac := leftmost F
      let bfrac := leftmost F ||| (u.frac >>> 1)
      let exp ← arithS E (-u.exp)
      if afrac < bfrac then do
        let exp ← arithS E (exp - 1)
        let bfrac := bfrac >>> 1
        if bfrac = 0 then .error .divZero
        else return mk3 F E exp ((afrac <<< F) / bfrac) u.neg
      else
        if bfrac = 0 then .error .divZero
        else return mk3 F E exp ((afrac <<< F) / bfrac) u.neg
  | .infinity => .ok (ofTy .zero)
  | .zero => .ok (ofTy .infinity)
  | .nan => .ok u

/-- `cond ? (x >> n) : x` on `FT` — include/unpacked.h:345-348. -/
def condShr (F : Nat) (cond : Bool) (x : Nat) (n : Int) : M Nat := if cond then shrU F x n else .ok x

/-- The `Regular,Regular` case of `operator+` — include/unpacked.h:333-371. -/
def addRegular (F E : Nat) (a b : Unp) : M Unp := do
  let dir ← arithS E (a.exp - b.exp)
  let exp ← arithS E ((if dir < 0 then b.exp else a.exp) + 1)
  let exp := wrapS E exp
  let afrac1 := (leftmost F >>> 1) ||| (a.frac >>> 2)
  let bfrac1 := (leftmost F >>> 1) ||| (b.frac >>> 2)
  let afrac ← condShr F (dir < 0) afrac1 (-dir)
  let bfrac ← condShr F (¬ dir < 0) bfrac1 dir
  let mode : Int := if a.neg = b.neg then 0 else if afrac > bfrac then 1 else -1
  let osign := if mode ≥ 0 then a.neg else b.neg
  let frac : Nat :=
    if mode = 0 then (afrac + bfrac) % 2 ^ F
    else if mode > 0 then wrapU F ((afrac : Int) - bfrac) else wrapU F ((bfrac : Int) - afrac)
  normalized F E { ty := .regular, neg := osign, exp := exp, frac := frac }

/-- `operator+` — include/unpacked.h:325-384. -/
def add (F E : Nat) (a b : Unp) : M Unp :=
  if a.ty = .nan ∨ b.ty = .nan then .ok a
  else match a.ty, b.ty with
  | .regular, .regular => addRegular F E a b
  | .regular, .zero => .ok a
  | .zero, .zero => .ok a
  | .infinity, .zero => .ok a
  | .infinity, .regular => .ok a
  | .zero, .regular => .ok b
  | .zero, .infinity => .ok b
  | .regular, .infinity => .ok b
  | _, _ => .ok (if a.neg = b.neg then a else ofTy .nan)

/-- binary `operator-` — include/unpacked.h:307-310. -/
def sub (F E : Nat) (a b : Unp) : M Unp := add F E a (neg' b)

/-- The `Regular,Regular` case of `operator*` — include/unpacked.h:395-413. `extramul` (typehelpers.hpp:285-288)
multiplies in `nextinttype<FT>`, which holds the product and its two left shifts after `>> FT_bits`. -/
def mulRegular (F E : Nat) (a b : Unp) : M Unp := do
  let afrac := leftmost F ||| (a.frac >>> 1)
  let bfrac := leftmost F ||| (b.frac >>> 1)
  let frac := (afrac * bfrac) >>> F
  let q : Bool := (frac &&& leftmost F) = 0
  let rfrac := if q then frac <<< 1 else frac
  let s ← arithS E (a.exp + b.exp)
  let exp ← arithS E (s + (if q then 0 else 1))
  return mk3 F E exp (rfrac <<< 1) (xor a.neg b.neg)

/-- `operator*` — include/unpacked.h:389-425. -/
def mul (F E : Nat) (a b : Unp) : M Unp :=
  if a.ty = .nan ∨ b.ty = .nan then .ok a
  else match a.ty, b.ty with
  | .regular, .regular => mulRegular F E a b
  | .regular, .zero => .ok (ofTy .zero)
  | .zero, .regular => .ok (ofTy .zero)
  | .zero, .zero => .ok (ofTy .zero)
  | .infinity, .zero => .ok (ofTy .nan)
  | .zero, .infinity => .ok (ofTy .nan)
  | _, _ => .ok (ofTy .infinity (xor a.neg b.neg))

/-- The `Regular,Regular` case of `operator/` — include/unpacked.h:440-455. -/
def divRegular (F E : Nat) (a b : Unp) : M Unp := do
  let afrac := leftmost F ||| (a.frac >>> 1)
  let bfrac1 := leftmost F ||| (b.frac >>> 1)
  let s ← arithS E (a.exp - b.exp)
  let exp ← arithS E (s + (if afrac < bfrac1 then -1 else 0))
  let bfrac := if afrac < bfrac1 then bfrac1 >>> 1 else bfrac1
  if bfrac = 0 then .error .divZero
  else return mk3 F E exp ((afrac <<< F) / bfrac) (xor a.neg b.neg)

/-- `operator/` — include/unpacked.h:432-469. -/
def div (F E : Nat) (a b : Unp) : M Unp :=
  if a.ty = .nan ∨ b.ty = .nan then .ok a
  else match a.ty, b.ty with
  | .regular, .regular => divRegular F E a b
  | .zero, .zero => .ok (ofTy .nan)
  | .infinity, .infinity => .ok (ofTy .nan)
  | .zero, .infinity => .ok (ofTy .zero)
  | .zero, .regular => .ok a
  | .infinity, .zero => .ok a
  | .regular, .zero => .ok (ofTy .infinity a.neg)
  | _, _ => .ok (ofTy .infinity (xor a.neg b.neg))

end Unp
end Verif
