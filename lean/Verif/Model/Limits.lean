import Verif.Model.Posit

/-!
# `std::numeric_limits<Posit>`, `FLOORDIV` and `analyze()` — include/posit.h:834-883, 927-974, include/unpacked.h:40-44
-/

namespace Verif

/-- `FLOORDIV(a,b)` — include/unpacked.h:40-44, on a signed `w`-bit type: `(a)/(b) - ((a)%(b) < 0)` with the C++
division (toward zero). -/
def floordiv (w : Nat) (a b : Int) : M Int :=
  if b = 0 then .error .divZero
  else do
    let q ← arithS w (a.tdiv b)
    let y ← arithS w (q - if a.tmod b < 0 then 1 else 0)
    return wrapS w y

namespace Posit

/-- `numeric_limits::epsilon()` — include/posit.h:941. -/
def epsilon (c : Cfg) : M Int := do let n ← next c c.one; sub c n c.one
/-- `numeric_limits::min_exponent` — include/posit.h:945, an `int`. -/
def minExponent (c : Cfg) : Int := wrapS 32 c.minexponent
/-- `numeric_limits::max_exponent` — include/posit.h:947, an `int`. -/
def maxExponent (c : Cfg) : Int := wrapS 32 c.maxexponent
/-- `numeric_limits::has_infinity` — include/posit.h:950. -/
def hasInfinity (_c : Cfg) : Bool := true
/-- `numeric_limits::has_quiet_NaN` — include/posit.h:951, and `hasNaN()` — include/posit.h:347. -/
def hasQuietNaN (c : Cfg) : Bool := c.spec ≠ .withInf
/-- `numeric_limits::infinity()` — include/posit.h:955, 415. -/
def limInfinity (c : Cfg) : Int := c.pinf
/-- `numeric_limits::quiet_NaN()` — include/posit.h:956, 414. -/
def limNaN (c : Cfg) : Int := c.nan

/-- `Posit::info` — include/posit.h:282-297, without the `double` fields (never set by `analyze`). -/
structure Info where
  infinity : Bool := false
  nan : Bool := false
  sign : Bool := false
  k : Int := 0
  rs : Int := 0
  es : Int := 0
  fs : Int := 0
  exp : Int := 0
  exponent : Int := 0
  ifraction : Nat := 0
  deriving DecidableEq, Repr

/-- `pars << (FT_bits-H)` or `pars >> (H-FT_bits)` converted to `FT` — include/posit.h:870; the shift is done in the
(promoted) holder type. -/
def analyzeFrac (c : Cfg) (pars : Nat) : M Nat :=
  if c.F ≥ c.H then do let y ← shlU c.H pars ((c.F : Int) - c.H); return y % 2 ^ c.F
  else do let y ← shrU c.H pars ((c.H : Int) - c.F); return y % 2 ^ c.F

/-- `analyze()` — include/posit.h:834-883. `bitset_leftmost_getT` (include/bithippop.hpp:251) is the plain `bitset_get`,
without the special case for zero bits that `unpack_low` has. -/
def analyze (c : Cfg) (v : Int) : M Info :=
  if isInfinity c v then
    .ok { infinity := true, sign := c.spec = .withNanInf && (wrapU c.H v &&& c.signBit) ≠ 0 }
  else if isNaN c v then .ok { nan := true }
  else if v = 0 then .ok {}
  else do
    let sign : Bool := (wrapU c.H v &&& c.signBit) ≠ 0
    let pa ← pcabs c.H v
    let sh ← shlS c.H pa (c.extraBits + 1)
    let pars1 := wrapU c.H sh
    let (reg, rs) ← decodeRs c pars1
    let p2 ← shlU c.H pars1 rs
    let pars2 := p2 % 2 ^ c.H
    let exp ← bitsetGet c.H pars2 (c.H - c.es) c.es
    let p3 ← shlU c.H pars2 c.es
    let pars := p3 % 2 ^ c.H
    let fr ← analyzeFrac c pars
    let e ← joinRegExp c reg exp
    let es : Int := if (c.N : Int) - rs - 1 < c.es then (c.N : Int) - rs - 1 else c.es
    return { sign := sign, ifraction := fr, exponent := wrapS 32 e, exp := exp, rs := rs, k := reg, es := es,
             fs := (c.N : Int) - rs - es - 1 }

end Posit
end Verif
