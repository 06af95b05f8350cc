import Verif.Spec.Sum
import Verif.Model.Unpacked

/-! # Significant bits (specification) -/

namespace Verif.Fmt

/-- `x` cut toward zero to `m` significant bits -/
def cutSig (m : ℕ) (x : ℚ) : ℚ := cutTo (2 ^ (Int.log 2 |x| + 1 - m : ℤ)) x

/-- the significand of `x`, in `[1,2)` -/
def signif (x : ℚ) : ℚ := |x| / 2 ^ (Int.log 2 |x| : ℤ)

end Verif.Fmt

namespace Verif

/-- `u` is a regular number whose fraction is a value of the fraction type -/
def Unp.IsReg (F : ℕ) (u : Unp) : Prop := u.ty = .regular ∧ u.frac < 2 ^ F

/-- the number a regular `u` stands for, include/unpacked.h:64-78 -/
def Unp.val (F : ℕ) (u : Unp) : ℚ := Fmt.tripleVal F u.neg u.exp u.frac

instance (F : ℕ) (u : Unp) : Decidable (u.IsReg F) := by unfold Unp.IsReg; infer_instance

end Verif
