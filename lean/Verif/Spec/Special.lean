import Verif.Model.Config

/-! # The special patterns of a format -/

namespace Verif

/-- the pattern `1000…0`: NaN, or the only infinity in the formats without NaN -/
def Cfg.topPat (c : Cfg) : Int := -(2 ^ (c.N - 1))

/-- the pattern that stands for ±infinity: `0111…1` / `1000…01` in the formats with two infinities, `1000…0` otherwise
(NaN if the format has no infinity) -/
def Cfg.infPat (c : Cfg) (neg : Bool) : Int :=
  if c.spec = .withNanInf then (if neg then -(2 ^ (c.N - 1)) + 1 else 2 ^ (c.N - 1) - 1) else c.topPat

end Verif
