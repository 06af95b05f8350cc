import Verif.Spec.Pnum
import Verif.Model.PnumFun

/-!
# Square roots and projective numbers
-/

namespace Verif
namespace Pnum

/-- the computed root of every exact number lies on the same side of every exact number as the root itself -/
def Sided (A : Alphabet) (rt : ℚ → Except FunErr ℚ) : Prop :=
  ∀ j : ℕ, j < 2 * A.k → ∃ r, 0 ≤ r ∧ rt (mag A j) = .ok r ∧
    ∀ i : ℕ, i < 2 * A.k → (mag A i < r ↔ mag A i ^ 2 < mag A j) ∧ (r < mag A i ↔ mag A j < mag A i ^ 2)

end Pnum
end Verif
