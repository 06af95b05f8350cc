import Verif.Spec.Unpacked

/-! # What an IEEE-754 style bit pattern stands for (specification) -/

namespace Verif

/-- number of a binary interchange pattern with `eb` exponent bits and `fb` fraction bits: sign, biased exponent, fraction
from the top down -/
def ieee (eb fb b : ℕ) : XNum :=
  let s : Bool := b / 2 ^ (eb + fb) % 2 = 1
  let ex := b / 2 ^ fb % 2 ^ eb
  let man := b % 2 ^ fb
  let sg : ℚ := if s then -1 else 1
  if ex = 2 ^ eb - 1 then (if man = 0 then .inf s else .nan)
  else if ex = 0 then .num (sg * (man * 2 ^ ((2 : ℤ) - 2 ^ (eb - 1) - fb)))
  else .num (sg * ((2 ^ fb + man) * 2 ^ ((ex : ℤ) - (2 ^ (eb - 1) - 1) - fb)))

end Verif
