import Mathlib.Algebra.Order.Field.Rat
import Mathlib.Algebra.Order.Field.Power
import Mathlib.Data.Int.Log
import Mathlib.Data.Rat.Floor
import Verif.Model.Config
import Verif.Spec.Fits

/-!
# Vocabulary for the preconditions

Numbers that depend only on the template arguments, used to say for which operands the code stays clear of undefined
behaviour.
-/

namespace Verif

/-- number of fraction bits next to the value one: `N-3-es`, the greatest fraction length of the format -/
def Cfg.fb (c : Cfg) : ℕ := c.N - 3 - c.es

/-- the least positive posit is `2^(-maxScale)` -/
def Cfg.maxScale (c : Cfg) : ℕ := 2 ^ c.es * (c.N - 2)

/-- the greatest posit is `2^topExp` -/
def Cfg.topExp (c : Cfg) : ℤ := if c.spec = .withNanInf then (c.maxScale : ℤ) - 2 ^ c.es else (c.maxScale : ℤ)

/-- Packing shifts by up to `k+2` (and `k+2+es` if `N` is the width of the promoted holder), where `k` is the length of
the regime run; so regimes are limited to `-Q ≤ r < Q` and exponents to `-B ≤ e < B = 2^es·Q`. -/
def Cfg.packBound (c : Cfg) : ℕ := 2 ^ c.es * (pw c.H - 3 - (if c.N < pw c.H then 0 else c.es))

/-- the exponents `pack_posit` can handle without an out-of-range shift; always true if `N+1 < max 32 H` -/
def Cfg.PackSafe (c : Cfg) (e : ℤ) : Prop :=
  (-(c.packBound : ℤ) ≤ e ∨ c.maxScale ≤ c.packBound) ∧ (e < c.packBound ∨ c.topExp < c.packBound)

instance (c : Cfg) (e : ℤ) : Decidable (c.PackSafe e) := by unfold Cfg.PackSafe; infer_instance

/-- the magnitudes `pack_posit` can handle without an out-of-range shift; always true if `N+1 < max 32 H` -/
def Cfg.SafeMag (c : Cfg) (y : ℚ) : Prop :=
  ((2 : ℚ) ^ (-(c.packBound : ℤ)) ≤ |y| ∨ c.maxScale ≤ c.packBound) ∧
    (|y| < (2 : ℚ) ^ (c.packBound : ℤ) ∨ c.topExp < c.packBound)

instance (c : Cfg) (y : ℚ) : Decidable (c.SafeMag y) := by unfold Cfg.SafeMag; infer_instance

/-- Conditions under which adding the numbers `x` and `y` is free of undefined behaviour: a zero operand; or exponents
less than `max 32 F` apart (the aligning shift), and a sum in the safe range — for a cancellation also safe operands, and
a fraction type of less than 32 bits or with one spare bit (the normalizing shift). -/
def Cfg.AddSafe (c : Cfg) (x y : ℚ) : Prop :=
  x = 0 ∨ y = 0 ∨
    (|Int.log 2 (|x|) - Int.log 2 (|y|)| < (pw c.F : ℤ) ∧
      ((0 < x * y ∧ c.SafeMag (x + y)) ∨
        (x * y < 0 ∧ (c.F < 32 ∨ c.fb + 4 ≤ c.F) ∧ c.SafeMag x ∧ c.SafeMag y ∧ (x + y = 0 ∨ c.SafeMag (x + y)))))

instance (c : Cfg) (x y : ℚ) : Decidable (c.AddSafe x y) := by unfold Cfg.AddSafe; infer_instance

/-- Conditions under which the sum of an exact product `x` and a number (or product) `y` is free of undefined behaviour:
a sum in the safe range and, unless an operand is zero, exponents less than `max 32 F` apart; for a cancellation also safe
operands and a fraction type of less than 32 bits or with one spare bit. -/
def Cfg.FmaSafe (c : Cfg) (x y : ℚ) : Prop :=
  (x + y = 0 ∨ c.SafeMag (x + y)) ∧
    (x = 0 ∨ y = 0 ∨
      (|Int.log 2 (|x|) - Int.log 2 (|y|)| < (pw c.F : ℤ) ∧
        (x * y < 0 → (c.F < 32 ∨ 2 * c.fb + 5 ≤ c.F) ∧ c.SafeMag x ∧ c.SafeMag y)))

instance (c : Cfg) (x y : ℚ) : Decidable (c.FmaSafe x y) := by unfold Cfg.FmaSafe; infer_instance

/-- Adding the products `l` one after the other to `s` never needs more than `F-3` significant bits, never meets
exponents `max 32 F` or more apart, and stays in the range of products. -/
def Cfg.DotSafe (c : Cfg) : ℚ → List ℚ → Prop
  | _, [] => True
  | s, p :: l =>
    (s = 0 ∨ p = 0 ∨ |Int.log 2 (|s|) - Int.log 2 (|p|)| < (pw c.F : ℤ)) ∧ Fmt.Fits (c.F - 3) (s + p) ∧
      (s + p = 0 ∨ |Int.log 2 (|s + p|)| ≤ 2 * c.maxScale + 1) ∧ c.DotSafe (s + p) l

end Verif
