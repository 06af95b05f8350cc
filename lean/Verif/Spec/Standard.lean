import Verif.Spec.Format
import Mathlib.Algebra.Group.Int.Even
import Mathlib.Algebra.Order.Ring.Rat

/-!
# Rounding as in the posit standard

The standard rounds a number that lies between two neighbouring posits of `N` bits by the posit of `N + 1` bits between
them: below it down, above it up, and at that number itself to the neighbour whose last bit is 0. Beyond the greatest and the
least magnitude it takes that magnitude, so that no number overflows or becomes 0.
-/

namespace Verif.Fmt.Format

/-- the number between the posits with the bodies `p` and `p + 1`: the body `p` with a further bit 1 -/
def mid (f : Format) (p : ℕ) : ℚ := posVal (f.N + 1) f.es (2 * p + 1)

/-- `v` is the nonzero number `y` rounded as in the posit standard -/
structure IsStd (f : Format) (y : ℚ) (v : ℤ) : Prop where
  real : f.IsReal v
  sign : (0 < v ∧ 0 < y) ∨ (v < 0 ∧ y < 0)
  lower : v.natAbs = 1 ∨ f.mid (v.natAbs - 1) < |y| ∨ (f.mid (v.natAbs - 1) = |y| ∧ Even v)
  upper : v.natAbs = f.maxBody ∨ |y| < f.mid v.natAbs ∨ (|y| = f.mid v.natAbs ∧ Even v)

/-- of the number `y` and the posit `v` next to it toward zero: `y` is not beyond the number that separates `v` from its
neighbour further out -/
def Near (f : Format) (y : ℚ) (v : ℤ) : Prop :=
  v.natAbs = f.maxBody ∨ |y| < f.mid v.natAbs ∨ (|y| = f.mid v.natAbs ∧ Even v)

instance (f : Format) (y : ℚ) (v : ℤ) : Decidable (f.Near y v) := by unfold Near; infer_instance

instance (f : Format) (y : ℚ) (v : ℤ) : Decidable (f.IsStd y v) :=
  decidable_of_iff (f.IsReal v ∧ ((0 < v ∧ 0 < y) ∨ (v < 0 ∧ y < 0)) ∧
      (v.natAbs = 1 ∨ f.mid (v.natAbs - 1) < |y| ∨ (f.mid (v.natAbs - 1) = |y| ∧ Even v)) ∧ f.Near y v)
    ⟨fun h => ⟨h.1, h.2.1, h.2.2.1, h.2.2.2⟩, fun h => ⟨h.1, h.2, h.3, h.4⟩⟩

end Verif.Fmt.Format
