import Verif.Spec.Format
import Verif.Model.Unpacked

/-! # What an `Unpacked` object stands for (specification) -/

namespace Verif

/-- numbers with two infinities and a NaN -/
inductive XNum where
  | num (x : ℚ) | inf (neg : Bool) | nan

namespace XNum

/-- negation -/
def neg : XNum → XNum
  | num x => num (-x)
  | inf s => inf (!s)
  | nan => nan

/-- difference (`∞ - ∞` of equal signs is NaN) -/
def sub : XNum → XNum → XNum
  | nan, _ => nan
  | _, nan => nan
  | num x, num y => num (x - y)
  | num _, inf s => inf (!s)
  | inf s, num _ => inf s
  | inf s, inf t => if s = t then nan else inf s

end XNum

/-- the meaning of the data members, include/unpacked.h:64-78 -/
def Unp.denote (F : Nat) (u : Unp) : XNum :=
  match u.ty with
  | .regular => .num (Fmt.tripleVal F u.neg u.exp u.frac)
  | .zero => .num 0
  | .infinity => .inf u.neg
  | .nan => .nan

end Verif
