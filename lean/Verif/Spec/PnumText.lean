import Mathlib.Order.WithBot
import Verif.Spec.Pnum
import Verif.Model.PnumText

/-!
# How texts of bounds are read
-/

namespace Verif
namespace Pnum

/-- infinity above all numbers -/
def key : Option ℚ → WithTop ℚ
  | none => ⊤
  | some x => x

/-- `x` lies strictly between `a` and `b` on the circle, going upward from `a` and from infinity to the negative numbers; all but
`a` if `a = b` -/
def Between (a b x : Option ℚ) : Prop := if key a < key b then key a < key x ∧ key x < key b else key a < key x ∨ key x < key b

/-- the numbers a text stands for -/
def Text.Reads : Text → Option ℚ → Prop
  | .empty, _ => False
  | .all, _ => True
  | .point y, x => x = y
  | .range lc lo hi hc, x => Between lo hi x ∨ (lc = true ∧ x = lo) ∨ (hc = true ∧ x = hi)

end Pnum
end Verif
