import Mathlib.Algebra.Order.Field.Rat
import Mathlib.Algebra.Order.Field.Power
import Mathlib.Data.Int.Log
import Mathlib.Data.Rat.Floor
import Verif.Spec.Format
import Verif.Spec.Safe

/-!
# Aligned sums (specification)

What an adder computes that aligns its operands on the exponent of the greater one and drops what lies below the last
place.
-/

namespace Verif.Fmt

/-- `x` cut toward zero to a multiple of `u` -/
def cutTo (u x : ℚ) : ℚ := (if x < 0 then -1 else 1) * (⌊|x| / u⌋₊ * u)

/-- the last place of an adder with `F` bits of which the first two are kept for a carry and the leading one -/
def sumUnit (F : ℕ) (x y : ℚ) : ℚ := 2 ^ (max (Int.log 2 |x|) (Int.log 2 |y|) + 2 - F : ℤ)

/-- the sum of the two aligned operands -/
def cutSum (F : ℕ) (x y : ℚ) : ℚ := cutTo (sumUnit F x y) x + cutTo (sumUnit F x y) y

/-- the aligned sum, a zero operand leaving the other one as it is -/
def alignedSum (F : ℕ) (x y : ℚ) : ℚ := if x = 0 then y else if y = 0 then x else cutSum F x y

/-- the adder's shifts are in range: exponents less than `max 32 F` apart, and for a fraction type of 32 or more bits a
result that is not a single unit (which would be normalized by a shift by the whole width) -/
def SumOK (F : ℕ) (x y : ℚ) : Prop :=
  x = 0 ∨ y = 0 ∨ (|Int.log 2 (|x|) - Int.log 2 (|y|)| < (pw F : ℤ) ∧ ¬ (32 ≤ F ∧ |cutSum F x y| = sumUnit F x y))

instance (F : ℕ) (x y : ℚ) : Decidable (SumOK F x y) := by unfold SumOK; infer_instance

/-- adding the numbers of a list one after the other to `s`, every addition has its shifts in range -/
def FoldOK (F : ℕ) : ℚ → List ℚ → Prop
  | _, [] => True
  | s, p :: l => SumOK F s p ∧ FoldOK F (alignedSum F s p) l

instance FoldOK.dec (F : ℕ) : (s : ℚ) → (l : List ℚ) → Decidable (FoldOK F s l)
  | _, [] => inferInstanceAs (Decidable True)
  | s, p :: l => @instDecidableAnd _ _ _ (FoldOK.dec F (alignedSum F s p) l)

/-- `v` is `x` rounded toward zero, zero being kept -/
def Format.IsCut0 (f : Format) (x : ℚ) (v : ℤ) : Prop := (x = 0 ∧ v = 0) ∨ f.IsTrunc x v

end Verif.Fmt
