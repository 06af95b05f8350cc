import Verif.Model.Pnum

/-!
# scripts/punum.py: the texts of projective numbers and bounds (`__str__`)

Brackets and numbers are kept apart; how `str` writes a fraction is left out. `none` is `math.inf`.
-/

namespace Verif
namespace Pnum

/-- texts of bounds — scripts/punum.py:510-529: `[]`, `[all]`, `[x]`, and `lo,hi` in brackets, which are square for `true` -/
inductive Text
  | empty
  | all
  | point (x : Option ℚ)
  | range (lc : Bool) (lo hi : Option ℚ) (hc : Bool)
deriving DecidableEq

/-- `pre` — scripts/punum.py:521-524 -/
def Pbound.pre (A : Alphabet) (f : ℤ) : Bool × Option ℚ :=
  if Alphabet.isExact f then (true, A.exactValue f) else (false, A.exactValue (A.prev f))

/-- `post` — scripts/punum.py:525-528 -/
def Pbound.post (A : Alphabet) (l : ℤ) : Option ℚ × Bool :=
  if Alphabet.isExact l then (A.exactValue l, true) else (A.exactValue (A.next l), false)

/-- `Pbound.__str__` — scripts/punum.py:510-529 -/
def Pbound.text (A : Alphabet) (b : Pbound) : Text :=
  if b.empty then .empty
  else if b.isEverything then .all
  else if b.first = b.last then
    if Alphabet.isExact b.first then .point (A.exactValue b.first)
    else .range false (A.exactValue (A.prev b.first)) (A.exactValue (A.next b.last)) false
  else .range (pre A b.first).1 (pre A b.first).2 (post A b.last).1 (post A b.last).2

/-- `Pnum.__str__` — scripts/punum.py:357-370: whether there is a question mark, and the number -/
def Alphabet.text (A : Alphabet) (v : ℤ) : Bool × Option ℚ :=
  if A.isInf v then (false, none) else (!isExact v, A.exactValue v)

end Pnum
end Verif
