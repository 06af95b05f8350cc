import Verif.Spec.SoftExp2
import Verif.Spec.FloatArith
import Verif.Spec.Format

/-! # Powers of two in a table (specification) -/

namespace Verif
open Fmt

/-- a C function `exp2` that overflows to infinity from 128 on and whose error between 1/2 and 1 is at most 0.51 units in the last
place, which are 2^-24 there -/
structure IsExp2Close (e : ℕ → ℕ) : Prop extends IsExp2 e where
  over : ∀ {f x}, ieee 8 23 f = .num x → 128 ≤ x → ieee 8 23 (e f) = .inf false
  close : ∀ {f x}, ieee 8 23 f = .num x → -1 ≤ x → x < 0 →
    ∃ y : ℚ, ieee 8 23 (e f) = .num y ∧ |(y : ℝ) - (2 : ℝ) ^ (x : ℝ)| ≤ 51 / 100 / 2 ^ 24

/-- `t` is the real number `2^x` truncated: the greatest number of the format not above, or the least positive one if there is none -/
def IsPow2 (f : Format) (x : ℚ) (t : ℤ) : Prop :=
  f.IsReal t ∧ 0 < t ∧ (t = 1 ∨ (f.val t : ℝ) ≤ (2 : ℝ) ^ (x : ℝ)) ∧ ∀ w, f.IsReal w → (f.val w : ℝ) ≤ (2 : ℝ) ^ (x : ℝ) → w ≤ t

/-- `b` is the real number `2^x` cut down to a float format without subnormals: zero below the least normal number, otherwise the
greatest number not above it -/
def IsPow2Cut (eb fb : ℕ) (x : ℚ) (b : ℕ) : Prop :=
  ∃ y : ℚ, ieee eb fb b = .num y ∧ ((2 : ℝ) ^ (x : ℝ) < minNorm eb → y = 0) ∧
    ((minNorm eb : ℝ) ≤ (2 : ℝ) ^ (x : ℝ) → 0 < y ∧ (y : ℝ) ≤ (2 : ℝ) ^ (x : ℝ) ∧
      ∀ g w, ieee eb fb g = .num w → (w : ℝ) ≤ (2 : ℝ) ^ (x : ℝ) → w ≤ y)

end Verif
