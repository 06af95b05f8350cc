import Verif.Model.FloatConv

/-! # The loop of the high precision test -/

namespace Verif

/-- one turn and the rest of the loop `for(int i = 0; i < 4; i++) { auto z = Unpacked<TI>(a[i])*Unpacked<TI>(b[i]); r = r + z; }`
of the test "High Precision Test" — tests/testunpacked.cpp:183-188, for floats with the traits `t` and any number of
products; the list holds the pairs `(a[i], b[i])` as bit patterns -/
def Unp.dotLoop (F E : Nat) (t : FTrait) : List (Nat × Nat) → Unp → M Unp
  | [], r => .ok r
  | (a, b) :: l, r => do
    let u ← Unp.unpackFloat F E t a
    let v ← Unp.unpackFloat F E t b
    let z ← Unp.mul F E u v
    let r' ← Unp.add F E r z
    Unp.dotLoop F E t l r'

/-- "High Precision Test": the loop starting from `Unpacked<TI>::zero()` and `(double)r` — tests/testunpacked.cpp:177-190 -/
def Unp.dotTest (F E : Nat) (t : FTrait) (l : List (Nat × Nat)) : M Nat := do
  let r ← Unp.dotLoop F E t l (Unp.ofTy .zero)
  Unp.packFloat F E t r

end Verif
