import Verif.Model.FloatConv
import Verif.Model.Posit

/-!
# `float2posit` — include/float2posit.hpp

The constant-expression conversion from the bits of a float. As written it does not compile when it is instantiated: line 36
names `UT::POSIT_FRAC_TYPE_SIZE_BITS`, which is not a member of `Unpacked`, and line 67 names the functions `PT::minexponent`
and `PT::maxexponent` without calling them. It is modelled with the bits of `FT` for the first and with the calls for the
second, the only meanings the lines can have.
-/

namespace Verif
namespace Posit

/-- Phases 3 and 4 of `float2posit` — include/float2posit.hpp:65-82. The clamped exponent of line 67 is not used by the
lines after it, so the model has no trace of it; the parameter of `split_reg_exp` (include/posit.h:158) is an `exponenttype`;
lines 75-82 are the formula of include/posit.h:716-732. -/
def f2pPack (c : Cfg) (neg : Bool) (e : Int) (f : Nat) : M Int := do
  let rr := splitRegExp c (wrapS c.E e)
  let fraction ← castMsb c.F c.H f
  packLowRegular c { ty := .regular, neg := neg, reg := rr.1, exp := rr.2, frac := fraction }

/-- `float2posit<PP,Trait>(value)` — include/float2posit.hpp:18-83, on the bits of the float. `exponentF` has the promoted
type of `rawexp - Trait::exponent_bias` (line 35), so it is not narrowed to `exponenttype` before line 68. -/
def float2posit (c : Cfg) (t : FTrait) (value : Nat) : M Int := do
  let re ← bitsetGet t.dataBits value t.fb t.eb
  let rawexp := wrapS c.E re
  let neg : Bool := (value &&& 2 ^ (t.dataBits - 1)) ≠ 0
  let exponentF ← arithS c.E (rawexp - t.bias)
  let fractionF ← Bits.castRightToLeft t.dataBits t.fb c.F value
  if rawexp = 2 ^ t.eb - 1 then
    if fractionF = 0 then return if neg then c.ninf else c.pinf
    else return c.nan
  else if rawexp = 0 then
    if fractionF = 0 then return 0
    else do
      let k ← Unp.findLeft c.F fractionF
      let e2 ← arithS c.E (exponentF - k)
      let f2 ← shlU c.F fractionF (k + 1)
      f2pPack c neg e2 (f2 % 2 ^ c.F)
  else f2pPack c neg exponentF fractionF

end Posit
end Verif
