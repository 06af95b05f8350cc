import Verif.Model.FloatConv

/-!
# Fixed point traits wider than their integer — include/fixedtraits.hpp:12-22

The assertion of `fixedtrait<T,N,q>` is `sizeof(T)*8 <= N`: it admits integers that are too narrow for the `N` bits of the
format and rejects those with bits to spare. `Unp.unpackFixed` is for `T` with exactly `N` bits.
-/

namespace Verif

/-- what the compiler accepts as `fixedtrait<T,N,q>` for a `w`-bit `T` — include/fixedtraits.hpp:15-18 -/
def FixedTrait.accepted (w N q : Nat) : Prop := (w = 8 ∨ w = 16 ∨ w = 32 ∨ w = 64) ∧ w ≤ N ∧ 0 < N ∧ q ≤ N

/-- `unpack_xfixed<fixedtrait<T,N,q>>(nx)` for a `w`-bit `T` — include/unpacked.h:499-533. `sizeof(R)*8 - onecount` in
`bitmask` (include/bithippop.hpp:67) is unsigned; a negative difference is a shift out of range either way. -/
def Unp.unpackFixedW (F E w N q : Nat) (nx : Int) : M Unp :=
  if nx ≠ 0 then do
    let a ← Posit.pcabs w nx
    let x := wrapU w a
    let k ← findLeft w x
    let p : Int := (N : Int) - k - 1
    let ux ← (if p = 0 then .ok 0 else do let y ← shlU w x ((N : Int) - p); return y % 2 ^ w : M Nat)
    let f ← Bits.castRightToLeft w N F ux
    return { ty := .regular, neg := nx < 0, exp := wrapS E (p - q), frac := f }
  else return { ty := .zero, neg := false, exp := 0, frac := 0 }

end Verif
