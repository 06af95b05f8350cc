import Verif.Model.AnyFloat
import Verif.Model.BitHelpers

/-!
# The bits of a `float` by arithmetic only — include/floatconst2bits.hpp

A `float` is its bit pattern; the native multiplications are a parameter (`FloatOps`). The double version (lines 72-113) is
disabled by `#if 0` and not modelled.
-/

namespace Verif
namespace Float2Bits

/-- conversion of a `float` to `uint64_t`: truncation, undefined out of range -/
def toU64 : XNum → M Nat
  | .num q => if -1 < q ∧ q < 2 ^ 64 then .ok ⌊q⌋.toNat else .error .overflow
  | _ => .error .overflow

/-- `while(abs_f < 0x1p87f)` — include/floatconst2bits.hpp:52-56, at most `n` tests of the condition; `none` when they are used up.
`exponent` does not overflow before a number of tests far beyond the one for which the loop is shown to end. -/
def loop (o : FloatOps) : Nat → Nat → Int → Option (Nat × Int)
  | 0, _, _ => none
  | n + 1, a, e => if AnyFloat.natLt .single a 0x6b000000 then loop o n (o.mul a 0x54000000) (e - 41) else some (a, e)

/-- `float2bits` after the loop — include/floatconst2bits.hpp:58-69 -/
def finish (o : FloatOps) (sign : Bool) (absF : Nat) (exponent : Int) : M Nat := do
  let a ← toU64 (ieee 8 23 (o.mul absF 0x1f800000))
  let lz := Bits.countLeadingZeroes a
  let e := exponent - lz
  let r : Int × Int := if e ≤ 0 then (0, 8 - 1) else (e, lz)
  let l ← shlU 64 a (r.2 + 1)
  let s ← shrU 64 l (64 - 23)
  let sg ← shlU 32 sign.toNat 31
  let es ← shlS 32 r.1 23
  return (sg ||| wrapU 32 es ||| s % 2 ^ 32)

/-- `float2bits` — include/floatconst2bits.hpp:36-70; `-f` flips the sign bit. `none`: the loop did not end within `n` tests. -/
def float2bits (o : FloatOps) (n : Nat) (f : Nat) : Option (M Nat) :=
  if AnyFloat.natEq .single f 0 then some (.ok 0)
  else if AnyFloat.natEq .single f 0x7f800000 then some (.ok 0x7f800000)
  else if AnyFloat.natEq .single f 0xff800000 then some (.ok 0xff800000)
  else if !AnyFloat.natEq .single f f then some (.ok 0x7fc00000)
  else
    let sign := AnyFloat.natLt .single f 0
    let absF := if sign then f ^^^ 0x80000000 else f
    match loop o n absF 254 with
    | none => none
    | some (a, e) => some (finish o sign a e)

end Float2Bits
end Verif
