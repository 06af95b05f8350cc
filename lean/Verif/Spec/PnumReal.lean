import Verif.Spec.Pnum
import Mathlib.Data.Real.Basic

/-!
# Real members of projective numbers

The exact points are rational. The intervals between them also hold irrational numbers.
-/

namespace Verif
namespace Pnum

variable (A : Alphabet)

/-- the pattern `v` stands for the real number `x`, or for a set containing it; `none` is infinity -/
def MemR (v : ℤ) : Option ℝ → Prop
  | none => v = 4 * A.k
  | some x => v ≠ 4 * A.k ∧
      if steps A v % 2 = 0 then x = pt A (steps A v / 2)
      else (steps A v = -(4 * A.k) + 1 ∨ (pt A (steps A v / 2) : ℝ) < x) ∧
        (steps A v = 4 * A.k - 1 ∨ x < (pt A (steps A v / 2 + 1) : ℝ))

/-- the real numbers of a bound -/
def Pbound.HasR (b : Pbound) (x : Option ℝ) : Prop := b.empty = false ∧ ∃ v, IsPat A v ∧ InArc A b.first b.last v ∧ MemR A v x

/-- the real numbers of a result -/
def Res.HasR : Res → Option ℝ → Prop
  | .num v, x => MemR A v x
  | .bound b, x => b.HasR A x

/-- negation on the real projective line -/
def rneg : Option ℝ → Option ℝ := Option.map fun x => -x

/-- reciprocal on the real projective line -/
noncomputable def rinv : Option ℝ → Option ℝ
  | none => some 0
  | some x => if x = 0 then none else some (1 / x)

/-- sums on the real projective line: infinity plus infinity may be anything -/
def RAdd : Option ℝ → Option ℝ → Option ℝ → Prop
  | some x, some y, z => z = some (x + y)
  | none, none, _ => True
  | _, _, z => z = none

/-- products on the real projective line: zero times infinity may be anything -/
def RMul : Option ℝ → Option ℝ → Option ℝ → Prop
  | some x, some y, z => z = some (x * y)
  | none, some y, z => y = 0 ∨ z = none
  | some x, none, z => x = 0 ∨ z = none
  | none, none, z => z = none

end Pnum
end Verif
