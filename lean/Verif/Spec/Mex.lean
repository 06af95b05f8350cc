import Verif.Spec.Format
import Verif.Spec.Ieee
import Verif.Model.Mex

/-! # What the MATLAB functions on arrays of posits should do (specification) -/

namespace Verif.Mex
open Fmt

/-- the number of stored values: one per element, two if complex -/
def stored (dims : List ℕ) (cplx : Bool) : ℕ := dims.prod * (if cplx then 2 else 1)

/-- an array as MATLAB passes them: as many values as its dimensions say, each in the range of its class -/
structure Arr.Valid (a : Arr) : Prop where
  len : a.data.length = stored a.dims a.complex
  int8 : a.cls = .int8 → ∀ x ∈ a.data, -128 ≤ x ∧ x ≤ 127
  float : a.cls ≠ .int8 → ∀ x ∈ a.data, 0 ≤ x

/-- the new array is like `a`, of class `cls`; each of its values has been written and is related to that of `a` in its place -/
structure IsMap (P : ℤ → ℤ → Prop) (cls : Cls) (a : Arr) (r : Fresh) : Prop where
  dims : r.dims = a.dims
  cplx : r.complex = a.complex
  kind : r.cls = cls
  len : r.data.length = a.data.length
  val : ∀ (i : ℕ) x, a.data[i]? = some x → ∃ z, r.data[i]? = some (some z) ∧ P x z

/-- likewise with two arrays -/
structure IsMap₂ (P : ℤ → ℤ → ℤ → Prop) (a b : Arr) (r : Fresh) : Prop where
  dims : r.dims = a.dims
  cplx : r.complex = a.complex
  kind : r.cls = .int8
  len : r.data.length = a.data.length
  val : ∀ (i : ℕ) x y, a.data[i]? = some x → b.data[i]? = some y → ∃ z, r.data[i]? = some (some z) ∧ P x y z

/-- what the result of an operation on two numbers should be: the sum or difference with no posit between it and the exact one, the
product or quotient rounded toward zero. The operation is given by the code of its sign. -/
def Computes (f : Format) (op : ℕ) (x y z : ℤ) : Prop :=
  f.IsReal x → f.IsReal y →
    (op = 43 → f.IsFaithful (f.val x + f.val y) z) ∧
    (op = 45 → f.IsFaithful (f.val x - f.val y) z) ∧
    (op = 42 → (x = 0 ∨ y = 0 → z = 0) ∧ (x ≠ 0 → y ≠ 0 → f.IsTrunc (f.val x * f.val y) z)) ∧
    (op = 47 → y ≠ 0 → (x = 0 → z = 0) ∧ (x ≠ 0 → f.IsTrunc (f.val x / f.val y) z))

end Verif.Mex
