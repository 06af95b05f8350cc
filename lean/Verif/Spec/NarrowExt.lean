import Verif.Spec.NarrowConv
import Verif.Spec.NarrowFrac

/-!
# Products and quotients of extended numbers with a fraction type of `F` bits

The rules for infinities and NaN are those of Spec/Extended; a first operand that is given back because the second one is NaN
has lost what does not fit in its fraction.
-/

namespace Verif
open Fmt

/-- the product -/
def EV.narrowMul (F : ℕ) : EV → EV → EV
  | .num x, .num y => .num (narrowProd F x y)
  | a, .nan => a.cut (F + 1)
  | a, b => EV.mul a b

/-- the quotient, a nonzero number over an infinity being an infinity -/
def EV.narrowDiv (F : ℕ) : EV → EV → EV
  | .num x, .num y => if x = 0 ∨ y = 0 then EV.div (.num x) (.num y) else .num (narrowQuot F x y)
  | a, .nan => a.cut (F + 1)
  | a, b => EV.divBig a b

end Verif
