import Verif.Spec.Ieee

/-! # Rounding to the nearest half precision number, ties away from zero (specification) -/

namespace Verif

/-- `h` is the half precision pattern of the number `v` rounded to nearest, ties away from zero, with sign bit `s`: from
65520 on (half a unit above the greatest half) it is infinity, below it is a finite half such that no other finite half is
closer to `v`, and among two equally close ones it is the one of greater magnitude. -/
def IsNearestHalf (v : ℚ) (s : Bool) (h : ℕ) : Prop :=
  h < 2 ^ 16 ∧ (h / 2 ^ 15 = 1 ↔ s = true) ∧
  (65520 ≤ |v| → ieee 5 10 h = .inf s) ∧
  (|v| < 65520 → ∃ q : ℚ, ieee 5 10 h = .num q ∧
    ∀ (h' : ℕ) (q' : ℚ), ieee 5 10 h' = .num q' → |v - q| ≤ |v - q'| ∧ (|v - q| = |v - q'| → |q'| ≤ |q|))

end Verif
