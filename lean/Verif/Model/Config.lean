import Verif.Cpp

/-!
# Template parameters of `Posit` and the constants of `PositTrait` (include/posit.h)
-/

namespace Verif

/-- `enum class PositSpec` — include/posit.h:38. -/
inductive PSpec where
  | withNan | withInf | withNanInf
  deriving DecidableEq, Repr

/-- Template parameters of `Posit<T,totalbits,esbits,FT,positspec>` — include/posit.h:220.
`H` = bits of `T`, `N` = `totalbits`, `es` = `esbits`, `F` = bits of `FT`. -/
structure Cfg where
  H : Nat
  N : Nat
  es : Nat
  F : Nat
  spec : PSpec
  deriving DecidableEq, Repr

namespace Cfg

/-- Bits of `exponenttype` — include/posit.h:54: `T` if `totalbits+esbits` is below the holder size, otherwise the
next wider signed type (`nextinttype`, include/typehelpers.hpp:264-280). -/
def E (c : Cfg) : Nat := if c.N + c.es ≥ c.H then 2 * c.H else c.H

/-- What the compiler enforces for an instantiation: the `static_assert`s of include/posit.h:46-48, the integer
types available, `nextinttype<int64_t>` missing (so `N+es < 64` for a 64-bit holder) and the constant expressions
`1<<esbits` (posit.h:72, an `int`) and `POSIT_REG_SCALE*(totalbits-2)` (posit.h:110, at least an `int`) in range. -/
structure WF (c : Cfg) : Prop where
  hH : c.H = 8 ∨ c.H = 16 ∨ c.H = 32 ∨ c.H = 64
  hF : c.F = 8 ∨ c.F = 16 ∨ c.F = 32 ∨ c.F = 64
  hN : c.N ≤ c.H
  hes : c.es + 3 ≤ c.N
  h64 : c.H = 64 → c.N + c.es < 64
  hes30 : c.es ≤ 30
  hscale : c.H ≤ 32 → 2 ^ c.es * (c.N - 2) < 2 ^ 31

instance (c : Cfg) : Decidable c.WF :=
  if h : (c.H = 8 ∨ c.H = 16 ∨ c.H = 32 ∨ c.H = 64) ∧ (c.F = 8 ∨ c.F = 16 ∨ c.F = 32 ∨ c.F = 64) ∧ c.N ≤ c.H ∧
      c.es + 3 ≤ c.N ∧ (c.H = 64 → c.N + c.es < 64) ∧ c.es ≤ 30 ∧ (c.H ≤ 32 → 2 ^ c.es * (c.N - 2) < 2 ^ 31)
  then isTrue ⟨h.1, h.2.1, h.2.2.1, h.2.2.2.1, h.2.2.2.2.1, h.2.2.2.2.2.1, h.2.2.2.2.2.2⟩
  else isFalse fun w => h ⟨w.hH, w.hF, w.hN, w.hes, w.h64, w.hes30, w.hscale⟩

/-- `withnan` — include/posit.h:53,230. -/
def withnan (c : Cfg) : Bool := c.spec ≠ .withInf

/-- `POSIT_MAXREGIME_BITS` — include/posit.h:57. -/
def maxRegimeBits (c : Cfg) : Nat := c.N - 1
/-- `POSIT_MSB` / `POSIT_SIGNBIT` — include/posit.h:62,69. -/
def signBit (c : Cfg) : Nat := 2 ^ (c.N - 1)
/-- `POSIT_HOLDER_MSB` — include/posit.h:63. -/
def holderMsb (c : Cfg) : Nat := 2 ^ (c.H - 1)
/-- `POSIT_MASK` — include/posit.h:64. -/
def mask (c : Cfg) : Nat := (c.signBit - 1) ||| c.signBit
/-- `POSIT_ESP_MASK` — include/posit.h:65. -/
def espMask (c : Cfg) : Nat := 2 ^ c.es - 1
/-- `POSIT_EXTRA_BITS` — include/posit.h:68. -/
def extraBits (c : Cfg) : Nat := c.H - c.N
/-- `POSIT_INVERTBIT` — include/posit.h:70. -/
def invertBit (c : Cfg) : Nat := 2 ^ (c.N - 2)
/-- `POSIT_REG_SCALE` — include/posit.h:72. -/
def regScale (c : Cfg) : Nat := 2 ^ c.es

/-- `_POSIT_TOP` — include/posit.h:76: `(STYPE)(UTYPE(~0) << (totalbits-1))`. For the narrow holders the shift is done
in `int`; the conversion to `T` wraps, so the promoted width does not matter. -/
def top (c : Cfg) : Int := wrapS c.H ((2 ^ c.H - 1 : Int) * 2 ^ (c.N - 1))
/-- `_POSIT_TOPRIGHT` — include/posit.h:77. -/
def topRight (c : Cfg) : Int := wrapS c.H (2 ^ (c.N - 1) - 1)
/-- `_POSIT_TOPLEFT` — include/posit.h:78. -/
def topLeft (c : Cfg) : Int := wrapS c.H (c.top + 1)
/-- `POSIT_PINF` — include/posit.h:82. -/
def pinf (c : Cfg) : Int := if c.spec = .withNanInf then c.topRight else c.top
/-- `POSIT_NINF` — include/posit.h:83. -/
def ninf (c : Cfg) : Int := if c.spec = .withNanInf then c.topLeft else c.top
/-- `POSIT_NAN` — include/posit.h:84. -/
def nan (c : Cfg) : Int := c.top
/-- `POSIT_ONE` — include/posit.h:85. -/
def one (c : Cfg) : Int := wrapS c.H c.invertBit
/-- `POSIT_MONE` — include/posit.h:86. -/
def mone (c : Cfg) : Int := wrapS c.H (-c.one)
/-- `POSIT_TWO` — include/posit.h:89. -/
def two (c : Cfg) : Int := wrapS c.H (c.invertBit ||| (c.invertBit >>> (1 + c.es)) : Nat)
/-- `POSIT_HALF` — include/posit.h:93: `STYPE(UTYPE(-1) >> (totalbits-esbits-1)) << (totalbits-3-esbits)`. -/
def half (c : Cfg) : Int :=
  wrapS c.H (wrapS c.H ((2 ^ c.H - 1) >>> (c.N - c.es - 1) : Nat) * 2 ^ (c.N - 3 - c.es))
/-- `POSIT_MAXPOS` — include/posit.h:97. -/
def maxpos (c : Cfg) : Int := c.topRight - (if c.spec = .withNanInf then 1 else 0)
/-- `POSIT_MINNEG` — include/posit.h:101. -/
def minneg (c : Cfg) : Int := c.topLeft + (if c.spec = .withNanInf then 1 else 0)
/-- `POSIT_AFTER0` — include/posit.h:104. -/
def after0 (_c : Cfg) : Int := 1

/-- `maxexponent()` — include/posit.h:110. -/
def maxexponent (c : Cfg) : Int :=
  wrapS c.E (if c.spec = .withNanInf then (c.regScale : Int) * ((c.N : Int) - 3) else c.regScale * ((c.N : Int) - 2))
/-- `minexponent()` — include/posit.h:111. -/
def minexponent (c : Cfg) : Int := wrapS c.E (-(c.regScale : Int) * ((c.N : Int) - 2))

end Cfg
end Verif
