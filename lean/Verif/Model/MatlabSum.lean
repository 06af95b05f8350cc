import Verif.Model.MatlabTab

/-!
# Sums looked up in a table of posits — matlab/testfloat11.m; the half constants — matlab/halfprecision/halfprecisionmax.m,
halfprecisionmin.m

As in Model/MatlabTab.lean. The argument `omode` of `testfloatt11` is not used by the code and left out.
-/

namespace Verif.MTab

/-- the fields of `r.a`, `r.b` and `r.y` — testfloat11.m:8,14,18 -/
structure Found where
  index : Nat
  signed : Nat
  unsigned : Nat
  float : Nat
  deriving DecidableEq

/-- `struct('index',i,'signed',zp.signed{1}(i),…)` — testfloat11.m:8,14,18; `none`: the index is out of range, an error -/
def found (zp : List Entry) (i : Nat) : Option Found := do
  let e ← if i = 0 then none else zp[i - 1]?
  return ⟨i, e.signed, e.unsigned, e.float⟩

/-- the structure that is returned; fields that have not been set are `none` -/
structure SumRow where
  a : Found
  b : Option Found := none
  s : Option Nat := none
  y : Option Found := none
  diff : Option Nat := none
  deriving DecidableEq

/-- `testfloatt11(zp,mode,a,b,omode)` — testfloat11.m:1-20. `none` is an error, `some none` the empty result of line 2. -/
def testfloat11 (o : FloatOps) (zp : List Entry) (mode : Mode) (a b : Nat) : Option (Option SumRow) :=
  match toindex o zp mode a with
  | none => some none
  | some ia => do
    let fa ← found zp ia
    match toindex o zp mode b with
    | none => return some { a := fa }
    | some ib => do
      let fb ← found zp ib
      let x ← fromindex zp .float ia
      let y ← fromindex zp .float ib
      let s := o.add x y
      match toindex o zp .float s with
      | none => return some { a := fa, b := some fb, s := some s }
      | some iy => do
        let fy ← found zp iy
        return some { a := fa, b := some fb, s := some s, y := some fy, diff := some (o.add s (neg fy.float)) }

/-- `halfprecisionmax` — matlab/halfprecision/halfprecisionmax.m:48 -/
def halfprecisionmax : Nat := 0x7BFF

/-- `halfprecisionmin` — matlab/halfprecision/halfprecisionmin.m:48 -/
def halfprecisionmin : Nat := 0x0001

end Verif.MTab
