import Verif.Spec.SoftWrap
import Verif.Spec.Safe
import Mathlib.Analysis.SpecialFunctions.Pow.Real

/-! # What is assumed of the C function `exp2` for `double` (specification) -/

namespace Verif

/-- Nonnegative, monotone, exact for integers as far as 2^n is a `double`, otherwise with a relative error of at most 2^-51 in the
normal range, infinity from 1024 on and zero up to -1075; infinities and NaN as in the C standard. -/
structure IsExp2D (e : ℕ → ℕ) : Prop where
  lt : ∀ f, e f < 2 ^ 64
  nonneg : ∀ {f x}, ieee 11 52 f = .num x → (∃ y, ieee 11 52 (e f) = .num y ∧ 0 ≤ y) ∨ ieee 11 52 (e f) = .inf false
  mono : ∀ {f f' x x'}, ieee 11 52 f = .num x → ieee 11 52 f' = .num x' → x ≤ x' → ¬ (ieee 11 52 (e f')).Below (ieee 11 52 (e f))
  int : ∀ {f} {n : ℤ}, ieee 11 52 f = .num n → -1074 ≤ n → n < 1024 → ieee 11 52 (e f) = .num (2 ^ n)
  acc : ∀ {f x}, ieee 11 52 f = .num x → -1022 ≤ x → x < 1024 →
    ∃ y : ℚ, ieee 11 52 (e f) = .num y ∧ |(y : ℝ) - (2 : ℝ) ^ (x : ℝ)| ≤ (2 : ℝ) ^ (x : ℝ) / 2 ^ 51
  over : ∀ {f x}, ieee 11 52 f = .num x → 1024 ≤ x → ieee 11 52 (e f) = .inf false
  under : ∀ {f x}, ieee 11 52 f = .num x → x ≤ -1075 → ieee 11 52 (e f) = .num 0
  pinf : ∀ {f}, ieee 11 52 f = .inf false → ieee 11 52 (e f) = .inf false
  ninf : ∀ {f}, ieee 11 52 f = .inf true → ieee 11 52 (e f) = .num 0
  nan : ∀ {f}, ieee 11 52 f = .nan → ieee 11 52 (e f) = .nan

/-- a format all of whose real posits are normal doubles, with an exponent type of at least 16 bits -/
structure Cfg.InDouble (c : Cfg) : Prop where
  wf : c.WF
  hF : c.fb ≤ c.F
  hE : 16 ≤ c.E
  hfb : c.fb ≤ 52
  hms : c.maxScale + 2 ≤ 1024

/-- exponents for which packing `2^x` shifts by less than the width, see `Cfg.packBound` -/
def Cfg.SafeExp (c : Cfg) (x : ℚ) : Prop := c.N + 1 < pw c.H ∨ -(c.packBound : ℚ) ≤ x ∧ x ≤ c.packBound - 1

end Verif
