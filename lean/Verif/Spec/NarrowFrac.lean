import Verif.Spec.SoftFloat

/-!
# Products and quotients with a fraction type of `F` bits (specification)

Nothing is assumed on `F`: the operands may have more bits than the fraction type.
-/

namespace Verif.Fmt

/-- the product of what is left of the operands in `F` significant bits, cut at a place fixed by their exponents -/
def narrowProd (F : ℕ) (x y : ℚ) : ℚ :=
  cutTo (2 ^ (Int.log 2 |x| + Int.log 2 |y| + 2 - F : ℤ)) (cutSig F x * cutSig F y)

/-- the quotient of what is left of the dividend in `F` significant bits and of the divisor in `F` or, if its significand
is the greater one, `F-1` bits; cut to `F+1` bits, or halved if the significands are equal only for the shorter divisor -/
def narrowQuot (F : ℕ) (x y : ℚ) : ℚ :=
  if signif (cutSig F y) ≤ signif (cutSig F x) then cutSig (F + 1) (cutSig F x / cutSig F y)
  else if signif (cutSig F x) < signif (cutSig (F - 1) y) then cutSig (F + 1) (cutSig F x / cutSig (F - 1) y)
  else cutSig F x / cutSig (F - 1) y / 2

end Verif.Fmt
