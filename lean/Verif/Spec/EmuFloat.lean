import Verif.Spec.FloatArith

/-!
# Complete outcome of arithmetic emulated by a wider native type (specification)

Exact results of IEEE 754 on numbers, infinities and NaN, where a zero divisor counts as +0.
-/

namespace Verif

namespace XNum

/-- what is left of a number below the normal range of a format with `neb` exponent bits: zero -/
def flush (neb : ℕ) : XNum → XNum
  | num x => if |x| < minNorm neb then num 0 else num x
  | u => u

/-- exact sum -/
def plus : XNum → XNum → XNum
  | num x, num y => num (x + y)
  | inf s, num _ => inf s
  | num _, inf s => inf s
  | inf s, inf t => if s = t then inf s else nan
  | _, _ => nan

/-- exact product -/
def times : XNum → XNum → XNum
  | num x, num y => num (x * y)
  | inf s, num y => if y = 0 then nan else inf (s ^^ decide (y < 0))
  | num x, inf s => if x = 0 then nan else inf (s ^^ decide (x < 0))
  | inf s, inf t => inf (s ^^ t)
  | _, _ => nan

/-- exact quotient, by +0 if the divisor is zero -/
def over : XNum → XNum → XNum
  | num x, num y => if y = 0 then (if x = 0 then nan else inf (decide (x < 0))) else num (x / y)
  | inf s, num y => inf (s ^^ decide (y < 0))
  | num _, inf _ => num 0
  | _, _ => nan

/-- order of numbers and infinities; NaN is not comparable -/
def Below : XNum → XNum → Prop
  | num x, num y => x < y
  | num _, inf s => s = false
  | inf s, num _ => s = true
  | inf s, inf t => s = true ∧ t = false
  | _, _ => False

/-- equality of numbers and infinities; NaN is equal to nothing -/
def Same : XNum → XNum → Prop
  | num x, num y => x = y
  | inf s, inf t => s = t
  | _, _ => False

end XNum

/-- `b` is a correctly rounded result, in whichever rounding mode: beyond the greatest number either that or infinity; a NaN has
the top fraction bit set. -/
def RoundsTo (eb fb : ℕ) : XNum → ℕ → Prop
  | .num x, b => IsRounded eb fb x b ∨ maxFin eb fb < |x| ∧ ieee eb fb b = .inf (decide (x < 0))
  | .inf s, b => ieee eb fb b = .inf s
  | .nan, b => ieee eb fb b = .nan ∧ 2 ^ (fb - 1) ≤ b % 2 ^ fb

/-- IEEE 754 arithmetic in whichever rounding mode. Divisions by the pattern of -0 are left open. -/
structure FloatOps.Ieee (o : FloatOps) (eb fb : ℕ) : Prop where
  add : ∀ a b, RoundsTo eb fb ((ieee eb fb a).plus (ieee eb fb b)) (o.add a b)
  mul : ∀ a b, RoundsTo eb fb ((ieee eb fb a).times (ieee eb fb b)) (o.mul a b)
  div : ∀ a b, (ieee eb fb b = .num 0 → b = 0) → RoundsTo eb fb ((ieee eb fb a).over (ieee eb fb b)) (o.div a b)

/-- `r` is the result `X` computed in the format `neb`, `nfb` and cut down to the format `eb`, `fb`; zero is always the pattern
of +0. -/
def EmuResult (eb fb neb nfb : ℕ) (X : XNum) (r : ℕ) : Prop :=
  r < 2 ^ (eb + fb + 1) ∧ (ieee eb fb r = .num 0 → r = 0) ∧
  match X with
  | .num x => IsCutRounded eb fb neb nfb x r ∨ maxFin neb nfb < |x| ∧ ieee eb fb r = .inf (decide (x < 0))
  | .inf s => ieee eb fb r = .inf s
  | .nan => ieee eb fb r = .nan

end Verif
