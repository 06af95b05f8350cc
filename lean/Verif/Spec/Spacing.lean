import Mathlib.Algebra.Order.Group.Int

/-!
# Fraction bits at an exponent (specification)

A posit of exponent `e` has the regime `⌊e / 2^es⌋`; what the sign, the regime with its terminator and the exponent bits
leave of the `N` bits is fraction.
-/

namespace Verif.Fmt

/-- length of the regime run beyond the shortest one -/
def runExtra (r : ℤ) : ℤ := max r (-r - 1)

/-- fraction bits at exponent `e` (negative: missing exponent bits) -/
def fracBits (N es : ℕ) (e : ℤ) : ℤ := (N : ℤ) - 3 - es - runExtra (e / 2 ^ es)

/- eight bits, no exponent bits: five fraction bits at 1, none at 2^5 -/
example : fracBits 8 0 0 = 5 ∧ fracBits 8 0 (-1) = 5 ∧ fracBits 8 0 1 = 4 ∧ fracBits 8 0 5 = 0 ∧ fracBits 8 0 6 = -1 ∧
    fracBits 16 1 3 = 11 := by decide

end Verif.Fmt
