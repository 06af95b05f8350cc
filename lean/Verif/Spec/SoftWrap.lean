import Verif.Model.SoftWrap
import Verif.Spec.FloatLib

/-! # What is assumed of Berkeley SoftFloat: IEEE 754 arithmetic, rounding to nearest, ties to even (specification)

Nothing is assumed of the pattern of a NaN. The operands are patterns of the width of the format. -/

namespace Verif

/-- sign bit of a pattern -/
def signBit (eb fb b : ℕ) : Bool := b / 2 ^ (eb + fb) % 2 = 1

/-- `b` is the exact result `X` rounded to nearest, ties to even; if `X` is zero its sign bit is `s` -/
def RoundedAs (eb fb : ℕ) (X : XNum) (s : Bool) (b : ℕ) : Prop :=
  NearestTo eb fb X b ∧ (X = .num 0 → signBit eb fb b = s)

/-- the functions of one width are those of IEEE 754 -/
structure SoftOps.Correct (o : SoftOps) (eb fb : ℕ) : Prop where
  add : ∀ {a b}, a < 2 ^ (eb + fb + 1) → b < 2 ^ (eb + fb + 1) →
    RoundedAs eb fb ((ieee eb fb a).plus (ieee eb fb b)) (signBit eb fb a && signBit eb fb b) (o.add a b)
  sub : ∀ {a b}, a < 2 ^ (eb + fb + 1) → b < 2 ^ (eb + fb + 1) →
    RoundedAs eb fb ((ieee eb fb a).plus (ieee eb fb b).neg) (signBit eb fb a && !signBit eb fb b) (o.sub a b)
  mul : ∀ {a b}, a < 2 ^ (eb + fb + 1) → b < 2 ^ (eb + fb + 1) →
    RoundedAs eb fb ((ieee eb fb a).times (ieee eb fb b)) (signBit eb fb a ^^ signBit eb fb b) (o.mul a b)
  div : ∀ {a b}, a < 2 ^ (eb + fb + 1) → b < 2 ^ (eb + fb + 1) →
    RoundedAs eb fb (quotientOf eb fb a b) (signBit eb fb a ^^ signBit eb fb b) (o.div a b)
  mulAdd : ∀ {a b c}, a < 2 ^ (eb + fb + 1) → b < 2 ^ (eb + fb + 1) → c < 2 ^ (eb + fb + 1) →
    RoundedAs eb fb (((ieee eb fb a).times (ieee eb fb b)).plus (ieee eb fb c))
      ((signBit eb fb a ^^ signBit eb fb b) && signBit eb fb c) (o.mulAdd a b c)
  rem : ∀ {a b x y}, a < 2 ^ (eb + fb + 1) → b < 2 ^ (eb + fb + 1) → ieee eb fb a = .num x → ieee eb fb b = .num y → y ≠ 0 →
    ∃ r, IsRemainder x y r ∧ RoundedAs eb fb (.num r) (signBit eb fb a) (o.rem a b)
  rem_nan : ∀ {a b}, a < 2 ^ (eb + fb + 1) → b < 2 ^ (eb + fb + 1) →
    (ieee eb fb b = .num 0 ∨ (∃ s, ieee eb fb a = .inf s) ∨ ieee eb fb a = .nan ∨ ieee eb fb b = .nan) →
    NearestTo eb fb .nan (o.rem a b)
  rem_inf : ∀ {a b x s}, a < 2 ^ (eb + fb + 1) → b < 2 ^ (eb + fb + 1) → ieee eb fb a = .num x → ieee eb fb b = .inf s → o.rem a b = a
  sqrt : ∀ {a x}, a < 2 ^ (eb + fb + 1) → ieee eb fb a = .num x → 0 ≤ x →
    o.sqrt a < 2 ^ (eb + fb + 1) ∧ NearestReal eb fb (√(x : ℝ)) (o.sqrt a) ∧ signBit eb fb (o.sqrt a) = signBit eb fb a
  sqrt_neg : ∀ {a x}, a < 2 ^ (eb + fb + 1) → ieee eb fb a = .num x → x < 0 → NearestTo eb fb .nan (o.sqrt a)
  sqrt_inf : ∀ {a s}, a < 2 ^ (eb + fb + 1) → ieee eb fb a = .inf s → NearestTo eb fb (if s then .nan else .inf false) (o.sqrt a)
  sqrt_nan : ∀ {a}, a < 2 ^ (eb + fb + 1) → ieee eb fb a = .nan → NearestTo eb fb .nan (o.sqrt a)
  eq : ∀ {a b}, a < 2 ^ (eb + fb + 1) → b < 2 ^ (eb + fb + 1) → (o.eq a b = true ↔ (ieee eb fb a).Same (ieee eb fb b))
  lt : ∀ {a b}, a < 2 ^ (eb + fb + 1) → b < 2 ^ (eb + fb + 1) → (o.lt a b = true ↔ (ieee eb fb a).Below (ieee eb fb b))
  le : ∀ {a b}, a < 2 ^ (eb + fb + 1) → b < 2 ^ (eb + fb + 1) →
    (o.le a b = true ↔ (ieee eb fb a).Below (ieee eb fb b) ∨ (ieee eb fb a).Same (ieee eb fb b))
  ui32 : ∀ {n : ℕ}, n < 2 ^ 32 → RoundedAs eb fb (.num n) false (o.ui32 n)
  i32 : ∀ {n : ℤ}, -2 ^ 31 ≤ n → n < 2 ^ 31 → RoundedAs eb fb (.num n) false (o.i32 n)

/-- a conversion between formats rounds, keeping the sign of zero -/
def Converts (eb fb eb' fb' : ℕ) (f : ℕ → ℕ) : Prop :=
  ∀ {a}, a < 2 ^ (eb + fb + 1) → RoundedAs eb' fb' (ieee eb fb a) (signBit eb fb a) (f a)

/-- SoftFloat is an implementation of IEEE 754 -/
structure SoftLib.Correct (l : SoftLib) : Prop where
  f16 : l.f16.Correct 5 10
  f32 : l.f32.Correct 8 23
  f16_to_f32 : Converts 5 10 8 23 l.f16_to_f32
  f16_to_f64 : Converts 5 10 11 52 l.f16_to_f64
  f32_to_f16 : Converts 8 23 5 10 l.f32_to_f16
  f32_to_f64 : Converts 8 23 11 52 l.f32_to_f64
  f64_to_f16 : Converts 11 52 5 10 l.f64_to_f16
  f64_to_f32 : Converts 11 52 8 23 l.f64_to_f32

end Verif
