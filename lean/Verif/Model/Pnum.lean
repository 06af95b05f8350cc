import Mathlib.Data.Rat.Defs
import Mathlib.Algebra.Order.Ring.Rat

/-!
# scripts/punum.py: projective numbers ("type 2 unums") over a table of exact points

Python integers are unbounded, so nothing wraps; `x & mask` with `mask = n2 - 1` and `n2` a power of two is `x % n2`.
Tables of `fractions.Fraction` only (`p1`, `p2`, `p4`, `p8`): arithmetic on them is exact. Tables of `int` or `float`
(`ppi8`, `validsgentable.py --points`) divide in binary64 and are not modelled. Raised exceptions are an outcome of their own.
-/

namespace Verif
namespace Pnum

/-- exceptions -/
inductive Err
  /-- `raise Exception(..)` -/
  | exception
  /-- `IndexError` -/
  | index
  /-- `OverflowError` of `float(value)` -/
  | overflow
deriving DecidableEq, Repr

abbrev M := Except Err

/-- `class Alphabet` — scripts/punum.py:63-86; `eexacts` only, the other attributes are computed from it. -/
structure Alphabet where
  exacts : List ℚ
deriving DecidableEq

/-- `bin(n).count("1") == 1` -/
def oneBit (n : ℕ) : Bool := n ≠ 0 && 2 ^ n.log2 == n

/-- the loop of the constructor — scripts/punum.py:69-73; `last` starts as 0. -/
def increasing : ℚ → List ℚ → Bool
  | _, [] => true
  | last, x :: l => if x < 1 || x ≤ last then false else increasing x l

/-- `Alphabet.__init__` — scripts/punum.py:64-87. -/
def Alphabet.make (l : List ℚ) : M Alphabet :=
  match l with
  | [] => .error .index
  | x :: _ =>
    if x ≠ 1 then .error .exception
    else if !oneBit l.length then .error .exception
    else if !increasing 0 l then .error .exception
    else .ok ⟨l⟩

namespace Alphabet

variable (A : Alphabet)

/-- `eexacts[i]`; only called with indices in range. -/
def e (i : ℕ) : ℚ := A.exacts.getD i 0

/-- number of exact points, `self.n` — scripts/punum.py:75. -/
def k : ℕ := A.exacts.length

/-- `self.n2` — scripts/punum.py:76. -/
def n2 : ℤ := (A.k <<< 3 : ℕ)

/-- `rawpnum` and `pnmod` — scripts/punum.py:98-99, 104-105; `& self.mask`, line 82. -/
def raw (x : ℤ) : ℤ := x % A.n2

/-- `one()` — scripts/punum.py:88-89. -/
def one : ℤ := A.raw (A.n2 / 4)

/-- `zero()` — scripts/punum.py:90-91. -/
def zero (_ : Alphabet) : ℤ := 0

/-- `inf()` — scripts/punum.py:92-93. -/
def inf : ℤ := A.raw (A.n2 / 2)

/-- `next` — scripts/punum.py:100-101, 229-230. -/
def next (v : ℤ) : ℤ := (v + 1) % A.n2

/-- `prev` — scripts/punum.py:102-103, 231-232. -/
def prev (v : ℤ) : ℤ := (v - 1) % A.n2

/-- `__neg__` — scripts/punum.py:203-204. -/
def neg (v : ℤ) : ℤ := A.raw (-v)

/-- `__invert__` and `inv` — scripts/punum.py:205-206, 620-622. -/
def inv (v : ℤ) : ℤ := A.raw (-(v + A.n2 / 2))

/-- `iszero` — scripts/punum.py:223-224. -/
def isZero (v : ℤ) : Bool := v == 0

/-- `isinf` — scripts/punum.py:225-226. -/
def isInf (v : ℤ) : Bool := v == A.n2 / 2

/-- `isexact` — scripts/punum.py:227-228. -/
def isExact (v : ℤ) : Bool := v % 2 == 0

/-- `isstrictlynegative` — scripts/punum.py:233-234. -/
def isStrictlyNegative (v : ℤ) : Bool := v > A.n2 / 2

/-- `abs` — scripts/punum.py:213-214. -/
def abs (v : ℤ) : ℤ := if A.isStrictlyNegative v then A.neg v else v

/-- `isfractional` — scripts/punum.py:235-237. -/
def isFractional (v : ℤ) : Bool := A.abs v > 0 && A.abs v < A.n2 / 4

/-- `Alphabet.fromexactsindex` — scripts/punum.py:116-121. -/
def fromExactsIndex (i : ℕ) : ℤ := A.raw (A.n2 / 4 + 2 * i)

/-- the last branch of `exactvalue` — scripts/punum.py:352-355. -/
def exactBig (v : ℤ) : ℚ := A.e ((v - A.n2 / 4) / 2).toNat

/-- `exactvalue` of a positive number — scripts/punum.py:350-355; `inv` of a `Fraction` is `1/arg` (26-28). -/
def exactPos (v : ℤ) : ℚ := if A.isFractional v then 1 / A.exactBig (A.inv v) else A.exactBig v

/-- `exactvalue` — scripts/punum.py:341-355; `none` is `math.inf`. The recursion is at most two calls deep and is written
out. -/
def exactValue (v : ℤ) : Option ℚ :=
  if A.isInf v then none
  else if v = 0 then some 0
  else if A.isStrictlyNegative v then some (-A.exactPos (A.neg v))
  else some (A.exactPos v)

end Alphabet

/-- the two loops of `_searchvalue` — scripts/punum.py:132-136, 148-152, `p mid` being the condition to go on with
`(mid, hi)`. -/
def search (p : ℕ → Bool) (lo hi : ℕ) : ℕ × ℕ :=
  let mid := lo + (hi - lo) / 2
  if h : mid = lo ∨ mid = hi then (lo, hi)
  else if p mid then search p mid hi else search p lo mid
termination_by hi - lo
decreasing_by all_goals omega

namespace Alphabet

variable (A : Alphabet)

/-- `_searchvalue` of a positive number — scripts/punum.py:127-165. Comparisons of fractions and floats are exact. -/
def searchPos (x : ℚ) : ℤ :=
  if x < 1 then
    let (lo, hi) := search (fun mid => 1 / A.e mid > x) 0 A.k
    if 1 / A.e lo = x then A.inv (A.fromExactsIndex lo)
    else if hi < A.k ∧ 1 / A.e hi = x then A.inv (A.fromExactsIndex hi)
    else if lo = 0 then A.prev A.one
    else if hi ≥ A.k then A.next A.zero
    else A.inv (A.next (A.fromExactsIndex lo))
  else
    let (lo, hi) := search (fun mid => A.e mid < x) 0 A.k
    if A.e lo = x then A.fromExactsIndex lo
    else if hi < A.k ∧ A.e hi = x then A.fromExactsIndex hi
    else if lo = 0 then A.next A.one
    else if hi ≥ A.k then A.prev A.inf
    else A.next (A.fromExactsIndex lo)

/-- `_searchvalue` — scripts/punum.py:122-165; for `x < 0` it calls `convert(-x)`, which for a finite float is
`_searchvalue(-x)` (110-115). -/
def searchValue (x : ℚ) : ℤ :=
  if x = 0 then A.zero else if x < 0 then A.neg (A.searchPos (-x)) else A.searchPos x

/-- `convert` of a `Fraction` — scripts/punum.py:106-108; `fl` is `float(value)`, which rounds to binary64. -/
def convert (fl : ℚ → M ℚ) (x : ℚ) : M ℤ := do return A.searchValue (← fl x)

/-- `_exactplus` — scripts/punum.py:242-245. -/
def exactPlus (fl : ℚ → M ℚ) (v w : ℤ) : M ℤ :=
  match A.exactValue v, A.exactValue w with
  | some x, some y => A.convert fl (x + y)
  | _, _ => .ok A.inf

/-- `_exacttimes` — scripts/punum.py:238-241. -/
def exactTimes (fl : ℚ → M ℚ) (v w : ℤ) : M ℤ :=
  match A.exactValue v, A.exactValue w with
  | some x, some y => A.convert fl (x * y)
  | _, _ => .ok A.inf

end Alphabet

/-- `class Pbound` — scripts/punum.py:455-467. -/
structure Pbound where
  empty : Bool
  first : ℤ
  last : ℤ
deriving DecidableEq, Repr

/-- results of `slowplus`: a `Pnum` if one operand is zero, otherwise a `Pbound` -/
inductive Res
  | num (v : ℤ)
  | bound (b : Pbound)
deriving DecidableEq, Repr

namespace Pbound

variable (A : Alphabet)

/-- `Pbound(p)` — scripts/punum.py:466-467. -/
def single (v : ℤ) : Pbound := ⟨false, v, v⟩

/-- `Pbound.empty` — scripts/punum.py:497-499. -/
def none : Pbound := ⟨true, A.zero, A.zero⟩

/-- `Pbound.finite` — scripts/punum.py:500-502. -/
def finite : Pbound := ⟨false, A.next A.inf, A.prev A.inf⟩

/-- `Pbound.nonzero` — scripts/punum.py:503-505. -/
def nonzero : Pbound := ⟨false, A.next A.zero, A.prev A.zero⟩

/-- `Pbound.everything` — scripts/punum.py:506-508. -/
def everything : Pbound := ⟨false, A.zero, A.prev A.zero⟩

/-- `iseverything` — scripts/punum.py:483-484: `==` on two `Pnum` objects, for which the class defines no `__eq__`, compares
identities; `next()` returns a new object, so that the answer is always `False`. -/
def isEverything (_ : Pbound) : Bool := false

/-- `complement` — scripts/punum.py:468-474. -/
def complement (b : Pbound) : Pbound :=
  if b.empty then everything A
  else if b.isEverything then none A
  else ⟨false, A.next b.last, A.prev b.first⟩

/-- `__invert__` — scripts/punum.py:535-539. (`__neg__`, 530-534, raises `NameError`.) -/
def invert (b : Pbound) : Pbound :=
  if b.isEverything then everything A else ⟨false, A.inv b.last, A.inv b.first⟩

/-- `iter` — scripts/punum.py:475-482; the `while` loop is given `fuel` steps. -/
def iterFrom : ℕ → ℤ → ℤ → List ℤ
  | 0, _, _ => []
  | fuel + 1, f, l => f :: if f ≠ l then iterFrom fuel (A.next f) l else []

/-- `iter` — scripts/punum.py:475-482; the loop runs at most `n2` times. -/
def iter (b : Pbound) : List ℤ := if b.empty then [] else iterFrom A A.n2.toNat b.first b.last

end Pbound

namespace Alphabet

variable (A : Alphabet)

/-- `slowplus` and `+` — scripts/punum.py:197-198, 317-340. Line 339 moves the upper end up. -/
def slowPlus (fl : ℚ → M ℚ) (v w : ℤ) : M Res := do
  if A.isInf v && A.isInf w then return .bound (Pbound.everything A)
  if A.isInf v || A.isInf w then return .bound (Pbound.single A.inf)
  if isZero v then return .num w
  if isZero w then return .num v
  let abe := isExact v && isExact w
  let (x1, x2) := if isExact v then (v, v) else (A.prev v, A.next v)
  let (y1, y2) := if isExact w then (w, w) else (A.prev w, A.next w)
  let z1 ← A.exactPlus fl x1 y1
  let z2 ← A.exactPlus fl x2 y2
  let z1 := if !abe && isExact z1 then A.next z1 else z1
  let z2 := if !abe && isExact z2 then A.next z2 else z2
  return .bound ⟨false, z1, z2⟩

/-- `__sub__` — scripts/punum.py:201-202. -/
def sub (fl : ℚ → M ℚ) (v w : ℤ) : M Res := A.slowPlus fl v (A.neg w)

/-- `slowtimes` and `*` — scripts/punum.py:195-196, 269-297. -/
def slowTimes (fl : ℚ → M ℚ) (v w : ℤ) : M Pbound := do
  if (A.isInf v && isZero w) || (isZero v && A.isInf w) then return Pbound.everything A
  if A.isInf v || A.isInf w then return Pbound.single A.inf
  if isZero v || isZero w then return Pbound.single A.zero
  let abe := isExact v && isExact w
  let (x1, x2) := if isExact v then (v, v) else (A.prev v, A.next v)
  let (y1, y2) := if isExact w then (w, w) else (A.prev w, A.next w)
  let (x1, x2) := if A.isStrictlyNegative v then (x2, x1) else (x1, x2)
  let (y1, y2) := if A.isStrictlyNegative w then (y2, y1) else (y1, y2)
  let z1 ← A.exactTimes fl x1 y1
  let z2 ← A.exactTimes fl x2 y2
  let z1 := if !abe && isExact z1 then A.next z1 else z1
  let z2 := if !abe && isExact z2 then A.next z2 else z2
  return ⟨false, z1, z2⟩

end Alphabet

/-- `Alphabet.p1` — scripts/punum.py:167-169. -/
def p1 : Alphabet := ⟨[1]⟩

/-- `Alphabet.p2` — scripts/punum.py:170-172. -/
def p2 : Alphabet := ⟨[1, 2]⟩

/-- `Alphabet.p4` — scripts/punum.py:173-175. -/
def p4 : Alphabet := ⟨[1, 2, 4, 8]⟩

/-- `Alphabet.p8` — scripts/punum.py:176-178. -/
def p8 : Alphabet := ⟨(List.range 8).map fun i => ((1 <<< i : ℕ) : ℚ)⟩

/-- the table of `Alphabet.p8a` — scripts/punum.py:183-186. -/
def p8aTable : List ℚ := (List.range 4).flatMap fun m : ℕ => (List.range 8).map fun n : ℕ => ((2 ^ n * (4 + m) : ℕ) : ℚ) / 4

/-- the table of `Alphabet.p16a` — scripts/punum.py:187-189. -/
def p16aTable : List ℚ := (List.range 256).flatMap fun m : ℕ => (List.range 32).map fun n : ℕ => ((2 ^ n * (256 + m) : ℕ) : ℚ) / 256

/-- the pairs tabulated for the exact points `i ≤ j` — scripts/validsgentable.py:146-172 (`whats`). -/
def tabPairs (A : Alphabet) (i j : ℕ) : List (ℤ × ℤ) :=
  let a := A.fromExactsIndex i
  let ia := A.inv a
  let b := A.fromExactsIndex j
  let ib := A.inv b
  if i = 0 then
    if j = 0 then [(a, b), (A.neg a, b)]
    else [(a, b), (a, A.neg b), (A.neg a, A.neg ib), (a, A.neg ib)]
  else if i = j then [(a, a), (a, A.neg a), (ia, a), (ia, ia), (a, A.neg ia)]
  else [(a, b), (a, A.neg b), (ia, b), (A.neg a, A.neg ib), (A.neg ia, A.neg ib), (ia, A.neg ib), (ia, A.neg b), (a, A.neg ib)]

end Pnum
end Verif
