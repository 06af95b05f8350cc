import Verif.Spec.EmuFloat

/-! # Rounding to nearest, ties to even, as IEEE 754 arithmetic does by default (specification) -/

namespace Verif

/-- the greatest finite number plus half a unit in its last place -/
def overflowAt (eb fb : ℕ) : ℚ := (2 - 1 / 2 ^ (fb + 1)) * 2 ^ ((2 : ℤ) ^ (eb - 1) - 1)

/-- `b` is the pattern of `x` rounded to nearest, ties to even: from `overflowAt` on it is infinity, below it is a finite number
such that no other one is closer to `x`, and one with an even pattern if another one is as close. The sign bit is that of `x`
(either one if `x` is zero). -/
def IsNearestEven (eb fb : ℕ) (x : ℚ) (b : ℕ) : Prop :=
  b < 2 ^ (eb + fb + 1) ∧ (x ≠ 0 → (b / 2 ^ (eb + fb) = 1 ↔ x < 0)) ∧
  (overflowAt eb fb ≤ |x| → ieee eb fb b = .inf (decide (x < 0))) ∧
  (|x| < overflowAt eb fb → ∃ y, ieee eb fb b = .num y ∧
    ∀ g z, ieee eb fb g = .num z → |x - y| ≤ |x - z| ∧ (|x - y| = |x - z| → z = y ∨ b % 2 = 0))

/-- `b` is an exact result rounded to nearest, ties to even -/
def NearestTo (eb fb : ℕ) : XNum → ℕ → Prop
  | .num x, b => IsNearestEven eb fb x b
  | .inf s, b => b < 2 ^ (eb + fb + 1) ∧ ieee eb fb b = .inf s
  | .nan, b => b < 2 ^ (eb + fb + 1) ∧ ieee eb fb b = .nan

/-- exact quotient of two patterns; a divisor -0 gives the negative of what +0 gives -/
def quotientOf (eb fb a b : ℕ) : XNum :=
  if b = 2 ^ (eb + fb) then ((ieee eb fb a).over (.num 0)).neg else (ieee eb fb a).over (ieee eb fb b)

/-- IEEE 754 arithmetic in whichever rounding mode, divisions by -0 included -/
structure FloatOps.IeeeZ (o : FloatOps) (eb fb : ℕ) : Prop where
  add : ∀ a b, RoundsTo eb fb ((ieee eb fb a).plus (ieee eb fb b)) (o.add a b)
  mul : ∀ a b, RoundsTo eb fb ((ieee eb fb a).times (ieee eb fb b)) (o.mul a b)
  div : ∀ a b, b < 2 ^ (eb + fb + 1) → RoundsTo eb fb (quotientOf eb fb a b) (o.div a b)

end Verif
