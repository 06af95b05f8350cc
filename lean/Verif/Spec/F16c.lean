import Verif.Model.Float16c
import Verif.Spec.NearestEven

/-! # What is assumed of the F16C conversion instructions (specification) -/

namespace Verif

/-- The conversion to `float` is exact, the conversion from `float` rounds to nearest, ties to even (as the immediate operand asks
for). Both keep the sign bit, that of zero too. -/
structure F16C.Correct (k : F16C) : Prop where
  widen_lt : ∀ v, v < 2 ^ 16 → k.ph2ps v < 2 ^ 32
  widen : ∀ v, v < 2 ^ 16 → ieee 8 23 (k.ph2ps v) = ieee 5 10 v
  widen_sign : ∀ v, v < 2 ^ 16 → ieee 5 10 v ≠ .nan → k.ph2ps v / 2 ^ 31 = v / 2 ^ 15
  narrow : ∀ f, NearestTo 5 10 (ieee 8 23 f) (k.ps2ph f)
  narrow_sign : ∀ f, ieee 8 23 f ≠ .nan → k.ps2ph f / 2 ^ 15 = f / 2 ^ 31 % 2

end Verif
