import Mathlib.Data.Nat.Bitwise

/-! # Specifications for the bit helpers -/

namespace Verif

/-- `n` is the number of leading zeros of `x` seen as a `w`-bit word: the highest set bit is bit `w-1-n` -/
def IsLeadingZeros (w x n : Nat) : Prop := n < w ∧ x.testBit (w - 1 - n) = true ∧ ∀ i, w - 1 - n < i → x.testBit i = false

end Verif
