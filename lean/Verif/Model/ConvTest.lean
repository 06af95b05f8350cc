import Verif.Model.FloatConv
import Verif.Model.AnyFloat

/-! # The conversion tests -/

namespace Verif

/-- the four conditions required of each value by the test "Conversions" — tests/testsposit.hpp:35-70, for a float with
the traits `t` and the bit pattern `f`: `f == fuf`, `fp == fup`, `fupu == fu`, `fupuf == f`. The printing is left out. -/
def Posit.convTest (c : Cfg) (t : FTrait) (f : Nat) : M (Bool × Bool × Bool × Bool) := do
  let fu ← Unp.unpackFloat c.F c.E t f
  let fp ← Posit.ofFloat c t f
  let fuf ← Unp.packFloat c.F c.E t fu
  let fup ← Posit.pack c fu
  let fupu ← Posit.unpack c fup
  let fupuf ← Unp.packFloat c.F c.E t fupu
  return (AnyFloat.natEq t f fuf, Posit.eq c fp fup, Unp.eq fupu fu, AnyFloat.natEq t fupuf f)

/-- the five conditions of the test "Special Conversion" — tests/testposit.cpp:35-72: `dud == d`, `dup == dp`,
`dpu == du`, `dpd == d`, `dupd == d`, for a float with the traits `t` and the bit pattern `d` -/
def Posit.specialConv (c : Cfg) (t : FTrait) (d : Nat) : M (Bool × Bool × Bool × Bool × Bool) := do
  let du ← Unp.unpackFloat c.F c.E t d
  let dp ← Posit.ofFloat c t d
  let dpu ← Posit.unpack c dp
  let dup ← Posit.pack c du
  let dupd ← Posit.toFloat c t dup
  let dud ← Unp.packFloat c.F c.E t du
  let dpd ← Posit.toFloat c t dp
  return (AnyFloat.natEq t dud d, Posit.eq c dup dp, Unp.eq dpu du, AnyFloat.natEq t dpd d, AnyFloat.natEq t dupd d)

/-- which of the messages "ERROR fuf vs f", "ERROR fupu != fu", "ERROR fupuf vs fup" `checkfloat<T,W>(f)` prints —
src/main.cpp:10-52; `t` are the traits of `T`, `f` its bit pattern. `T fuf = (float)fu` (line 24) converts to `float`
whatever `T` is, and the conversion back to `T` is exact. The other output, and `tmp.f = fu` (line 25), of which only the
bits are printed, are left out. -/
def Posit.checkfloat (c : Cfg) (t : FTrait) (f : Nat) : M (Bool × Bool × Bool) := do
  let fu ← Unp.unpackFloat c.F c.E t f
  let fuf ← Unp.packFloat c.F c.E .single fu
  let fup ← Posit.pack c fu
  let fupu ← Posit.unpack c fup
  let fupuf ← Unp.packFloat c.F c.E t fupu
  return (!AnyFloat.xEq (ieee t.eb t.fb f) (ieee 8 23 fuf), Unp.ne fupu fu,
    !Unp.ne fupu fu && !AnyFloat.natEq t fupuf f)

end Verif
