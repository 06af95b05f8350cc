import Verif.Spec.Ieee
import Verif.Model.PositF

/-! # What is assumed of the native floating point arithmetic (specification) -/

namespace Verif

/-- the greatest finite number of a float format -/
def maxFin (eb fb : ℕ) : ℚ := (2 - 1 / 2 ^ fb) * 2 ^ ((2 : ℤ) ^ (eb - 1) - 1)

/-- `b` is a correct rounding of `x`, in whichever rounding mode: a finite float that no other float separates from `x`. In
particular `x` itself if it is a float. -/
def IsRounded (eb fb : ℕ) (x : ℚ) (b : ℕ) : Prop :=
  ∃ y, ieee eb fb b = .num y ∧ ∀ g z, ieee eb fb g = .num z → (z ≤ x → z ≤ y) ∧ (x ≤ z → y ≤ z)

/-- the least normal number of a float format -/
def minNorm (eb : ℕ) : ℚ := 2 ^ ((2 : ℤ) - 2 ^ (eb - 1))

/-- `b` is the number `x` cut down to a float format without subnormals: zero below the least normal number, otherwise the
float of the same sign with the greatest magnitude not above `|x|`. -/
def IsCut (eb fb : ℕ) (x : ℚ) (b : ℕ) : Prop :=
  ∃ y, ieee eb fb b = .num y ∧ (|x| < minNorm eb → y = 0) ∧
    (minNorm eb ≤ |x| → 0 < x * y ∧ |y| ≤ |x| ∧ ∀ g z, ieee eb fb g = .num z → |z| ≤ |x| → |z| ≤ |y|)

/-- `r` is the number `X` rounded to the wider format `neb`, `nfb` and then cut down to the format `eb`, `fb` -/
def IsCutRounded (eb fb neb nfb : ℕ) (X : ℚ) (r : ℕ) : Prop :=
  ∃ w z, IsRounded neb nfb X w ∧ ieee neb nfb w = .num z ∧ IsCut eb fb z r

/-- zero, an infinity, NaN, or a number not below the normal range of a format with `neb` exponent bits -/
def NotSub (neb : ℕ) : XNum → Prop
  | .num x => x = 0 ∨ minNorm neb ≤ |x|
  | _ => True

/-- The operations round correctly, give NaN for NaN operands and follow IEEE 754 for divisions by zero. -/
structure FloatOps.Correct (o : FloatOps) (eb fb : ℕ) : Prop where
  add : ∀ {a b : ℕ} {x y : ℚ}, ieee eb fb a = .num x → ieee eb fb b = .num y → |x + y| ≤ maxFin eb fb →
    IsRounded eb fb (x + y) (o.add a b)
  mul : ∀ {a b : ℕ} {x y : ℚ}, ieee eb fb a = .num x → ieee eb fb b = .num y → |x * y| ≤ maxFin eb fb →
    IsRounded eb fb (x * y) (o.mul a b)
  div : ∀ {a b : ℕ} {x y : ℚ}, ieee eb fb a = .num x → ieee eb fb b = .num y → y ≠ 0 → |x / y| ≤ maxFin eb fb →
    IsRounded eb fb (x / y) (o.div a b)
  div_zero : ∀ {a b : ℕ} {x : ℚ}, ieee eb fb a = .num x → x ≠ 0 → ieee eb fb b = .num 0 → ∃ s, ieee eb fb (o.div a b) = .inf s
  zero_div_zero : ∀ {a b : ℕ}, ieee eb fb a = .num 0 → ieee eb fb b = .num 0 → ieee eb fb (o.div a b) = .nan
  nan : ∀ {a b : ℕ}, ieee eb fb a = .nan ∨ ieee eb fb b = .nan →
    ieee eb fb (o.add a b) = .nan ∧ ieee eb fb (o.mul a b) = .nan ∧ ieee eb fb (o.div a b) = .nan

/-- The operations follow IEEE 754 for infinite operands and return quiet NaNs, which have the top fraction bit set. -/
structure FloatOps.Specials (o : FloatOps) (eb fb : ℕ) : Prop where
  add_inf : ∀ {a b : ℕ} {s : Bool}, ieee eb fb a = .inf s → ((∃ y, ieee eb fb b = .num y) ∨ ieee eb fb b = .inf s) →
    ieee eb fb (o.add a b) = .inf s ∧ ieee eb fb (o.add b a) = .inf s
  add_inf_inf : ∀ {a b : ℕ} {s : Bool}, ieee eb fb a = .inf s → ieee eb fb b = .inf (!s) → ieee eb fb (o.add a b) = .nan
  mul_inf : ∀ {a b : ℕ} {s : Bool} {y : ℚ}, ieee eb fb a = .inf s → ieee eb fb b = .num y → y ≠ 0 →
    ieee eb fb (o.mul a b) = .inf (s ^^ decide (y < 0)) ∧ ieee eb fb (o.mul b a) = .inf (s ^^ decide (y < 0))
  mul_inf_inf : ∀ {a b : ℕ} {s r : Bool}, ieee eb fb a = .inf s → ieee eb fb b = .inf r → ieee eb fb (o.mul a b) = .inf (s ^^ r)
  mul_inf_zero : ∀ {a b : ℕ} {s : Bool}, ieee eb fb a = .inf s → ieee eb fb b = .num 0 →
    ieee eb fb (o.mul a b) = .nan ∧ ieee eb fb (o.mul b a) = .nan
  inf_div : ∀ {a b : ℕ} {s : Bool} {y : ℚ}, ieee eb fb a = .inf s → ieee eb fb b = .num y → y ≠ 0 →
    ieee eb fb (o.div a b) = .inf (s ^^ decide (y < 0))
  div_inf : ∀ {a b : ℕ} {s : Bool} {x : ℚ}, ieee eb fb a = .num x → ieee eb fb b = .inf s → ieee eb fb (o.div a b) = .num 0
  inf_div_inf : ∀ {a b : ℕ} {s r : Bool}, ieee eb fb a = .inf s → ieee eb fb b = .inf r → ieee eb fb (o.div a b) = .nan
  div_pzero : ∀ {a : ℕ} {x : ℚ}, ieee eb fb a = .num x → x ≠ 0 → ieee eb fb (o.div a 0) = .inf (decide (x < 0))
  quiet : ∀ a b : ℕ, ∀ r ∈ [o.add a b, o.mul a b, o.div a b], ieee eb fb r = .nan → 2 ^ (fb - 1) ≤ r % 2 ^ fb

/-- The conversions to `double` are exact. -/
structure DoubleConv.Correct (d : DoubleConv) (eb fb : ℕ) : Prop where
  widen : ∀ b, ieee 11 52 (d.widen b) = ieee eb fb b
  ofInt : ∀ i : ℤ, -2 ^ 31 ≤ i → i < 2 ^ 31 → ieee 11 52 (d.ofInt i) = .num i

end Verif
