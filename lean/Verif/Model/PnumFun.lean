import Verif.Model.PnumTab

/-!
# scripts/punum.py: `sqrt` and `exp` of projective numbers

`rt` and `ex` are `math.sqrt` and `math.exp` of a `Fraction` or an `int`, which convert it to binary64 first.
-/

namespace Verif
namespace Pnum

/-- exceptions of `sqrt` and `exp` -/
inductive FunErr
  /-- one of the table lookups or of `float(value)` -/
  | pnum (e : Err)
  /-- `NameError` -/
  | name
  /-- `ValueError` of `math.sqrt` -/
  | value
deriving DecidableEq, Repr

variable (A : Alphabet)

/-- `self.base.convert(math.sqrt(x.exactvalue()))` and the same with `math.exp` — scripts/punum.py:376, 381, 426, 431. The argument
of `convert` is a float: infinity or a number that is looked up as it is (106-115). `math.sqrt(inf)` and `math.exp(inf)` are
`inf`. -/
def applied (f : ℚ → Except FunErr ℚ) (v : ℤ) : Except FunErr ℤ :=
  match A.exactValue v with
  | none => .ok A.inf
  | some x =>
    match f x with
    | .error e => .error e
    | .ok y => .ok (A.searchValue y)

/-- `y1.next()` if `y1` is exact — scripts/punum.py:383-385 -/
def stepUp (v : ℤ) : ℤ := if Alphabet.isExact v then A.next v else v

/-- `y2.prev()` if `y2` is exact — scripts/punum.py:388-390 -/
def stepDown (v : ℤ) : ℤ := if Alphabet.isExact v then A.prev v else v

/-- `sqrt` — scripts/punum.py:371-394. `Pbound(True)` has no ends at all
(456-460); zeros stand for them here. For exact numbers line 377 reads `x`, which is not defined. -/
def sqrt (rt : ℚ → Except FunErr ℚ) (v : ℤ) : Except FunErr Pbound :=
  if A.isStrictlyNegative v then .ok ⟨true, A.zero, A.zero⟩
  else if Alphabet.isExact v then do
    let _ ← applied A rt v
    .error .name
  else do
    let y1 ← applied A rt (A.prev v)
    let y2 ← applied A rt (A.next v)
    return ⟨false, stepUp A y1, stepDown A y2⟩

/-- `y1` after the adjustment — scripts/punum.py:433-439, for an inexact number; `x1` is its lower neighbour -/
def expLow (x1 y1 : ℤ) : ℤ :=
  if Alphabet.isExact y1 then if Alphabet.isZero x1 || A.isInf y1 then A.next y1 else A.prev y1 else y1

/-- `y2` after the adjustment — scripts/punum.py:440-446, for an inexact number; line 443 asks `y1.isinf()` of the adjusted `y1` -/
def expHigh (x2 y1 y2 : ℤ) : ℤ :=
  if Alphabet.isExact y2 then if Alphabet.isZero x2 || A.isInf y1 then A.prev y2 else A.next y2 else y2

/-- `exp` — scripts/punum.py:420-453. For exact numbers line 427 reads `x`, which is not defined; line 431 takes the square root of
the upper neighbour (`ValueError` if it is negative); line 451 calls `Pboun`, which is not defined. -/
def exp (ex rt : ℚ → Except FunErr ℚ) (v : ℤ) : Except FunErr Pbound :=
  if A.isInf v then .ok ⟨false, A.zero, A.inf⟩
  else if Alphabet.isExact v then do
    let _ ← applied A ex v
    .error .name
  else do
    let y1 ← applied A ex (A.prev v)
    let y2 ← applied A rt (A.next v)
    let z1 := expLow A (A.prev v) y1
    let z2 := expHigh A (A.next v) z1 y2
    if A.isInf (A.prev v) then return ⟨false, A.next A.zero, z2⟩
    else if A.isInf (A.next v) then .error .name
    else return ⟨false, z1, z2⟩

end Pnum
end Verif
