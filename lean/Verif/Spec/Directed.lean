import Verif.Spec.FloatArith

/-! # Rounding upwards and downwards to a float format with subnormals -/

namespace Verif

/-- `b` is `x` rounded upwards: the least finite float not below `x`, or positive infinity if there is none -/
def IsUpward (eb fb : ℕ) (x : ℚ) (b : ℕ) : Prop :=
  (maxFin eb fb < x → ieee eb fb b = .inf false) ∧
  (x ≤ maxFin eb fb → ∃ y, ieee eb fb b = .num y ∧ x ≤ y ∧ ∀ g z, ieee eb fb g = .num z → x ≤ z → y ≤ z)

/-- `b` is `x` rounded downwards: the greatest finite float not above `x`, or negative infinity if there is none -/
def IsDownward (eb fb : ℕ) (x : ℚ) (b : ℕ) : Prop :=
  (x < -maxFin eb fb → ieee eb fb b = .inf true) ∧
  (-maxFin eb fb ≤ x → ∃ y, ieee eb fb b = .num y ∧ y ≤ x ∧ ∀ g z, ieee eb fb g = .num z → z ≤ x → z ≤ y)

end Verif
