import Verif.Model.Float16cLib
import Verif.Spec.NearestEven
import Mathlib.Analysis.Real.Sqrt

/-! # What is assumed of the C library functions `remainder` and `sqrt` (specification) -/

namespace Verif

/-- IEEE 754 remainder: `r = x - n y` for the integer `n` nearest to `x / y`, the even one if there are two -/
def IsRemainder (x y r : ℚ) : Prop :=
  ∃ n : ℤ, r = x - n * y ∧ |x / y - n| ≤ 1 / 2 ∧ (|x / y - n| = 1 / 2 → n % 2 = 0)

/-- `b` is a number of the format nearest to the real number `r` -/
def NearestReal (eb fb : ℕ) (r : ℝ) (b : ℕ) : Prop :=
  ∃ y : ℚ, ieee eb fb b = .num y ∧ ∀ g z, ieee eb fb g = .num z → |r - y| ≤ |r - z|

/-- `f` is the square root of `x` as a `float`: rounded directly, or to `double` first -/
def IsRootFloat (x : ℚ) (f : ℕ) : Prop :=
  NearestReal 8 23 (√(x : ℝ)) f ∨
  ∃ d, NearestReal 11 52 (√(x : ℝ)) d ∧ ∃ q : ℚ, ieee 11 52 d = .num q ∧ NearestReal 8 23 (q : ℝ) f

/-- Remainders are exact (they always can be), square roots are rounded to nearest; special cases as in IEEE 754. -/
structure FloatLib.Correct (l : FloatLib) : Prop where
  rem : ∀ {a b : ℕ} {x y : ℚ}, ieee 8 23 a = .num x → ieee 8 23 b = .num y → y ≠ 0 →
    ∃ r, ieee 8 23 (l.rem a b) = .num r ∧ IsRemainder x y r
  rem_nan : ∀ {a b : ℕ}, (ieee 8 23 b = .num 0 ∨ (∃ s, ieee 8 23 a = .inf s) ∨ ieee 8 23 a = .nan ∨ ieee 8 23 b = .nan) →
    ieee 8 23 (l.rem a b) = .nan
  rem_inf : ∀ {a b : ℕ} {x : ℚ} {s : Bool}, ieee 8 23 a = .num x → ieee 8 23 b = .inf s → ieee 8 23 (l.rem a b) = .num x
  sqrt : ∀ {a : ℕ} {x : ℚ}, ieee 8 23 a = .num x → 0 ≤ x → IsRootFloat x (l.sqrt a)
  sqrt_neg : ∀ {a : ℕ} {x : ℚ}, ieee 8 23 a = .num x → x < 0 → ieee 8 23 (l.sqrt a) = .nan
  sqrt_inf : ∀ {a : ℕ} {s : Bool}, ieee 8 23 a = .inf s → ieee 8 23 (l.sqrt a) = if s then .nan else .inf false
  sqrt_nan : ∀ {a : ℕ}, ieee 8 23 a = .nan → ieee 8 23 (l.sqrt a) = .nan

end Verif
