import Verif.Model.Format
import Verif.Spec.Special
import Verif.Spec.Sum

/-!
# Extended numbers: rationals, signed infinities and NaN

What a posit pattern denotes when NaN and the infinities are included, and the rules for computing with them, stated
without the code.
-/

namespace Verif
open Fmt

/-- a number, a signed infinity, or not a number -/
inductive EV
  | num (x : ℚ)
  | inf (neg : Bool)
  | nan
  deriving DecidableEq

namespace EV

/-- the opposite -/
def neg : EV → EV
  | .num x => .num (-x)
  | .inf s => .inf (!s)
  | .nan => .nan

/-- the product, by the usual rules for infinities and NaN -/
def mul : EV → EV → EV
  | .num x, .num y => .num (x * y)
  | .inf s, .num y => if y = 0 then .nan else .inf (xor s (y < 0))
  | .num x, .inf t => if x = 0 then .nan else .inf (xor (x < 0) t)
  | .inf s, .inf t => .inf (xor s t)
  | _, _ => .nan

/-- the quotient, by the usual rules; a nonzero number divided by zero is the infinity with the sign of the number -/
def div : EV → EV → EV
  | .num x, .num y => if y = 0 then (if x = 0 then .nan else .inf (x < 0)) else .num (x / y)
  | .inf s, .num y => .inf (xor s (y < 0))
  | .num _, .inf _ => .num 0
  | _, _ => .nan

/-- the quotient with the one rule that posits of this library have instead: a nonzero number over an infinity is an
infinity -/
def divBig : EV → EV → EV
  | .num x, .inf t => if x = 0 then .num 0 else .inf (xor (x < 0) t)
  | a, b => div a b

/-- the opposite with the mistakes that differences of products have: zero, the positive infinity and NaN become minus one,
the negative infinity becomes one -/
def negAsRegular : EV → EV
  | .num x => .num (if x = 0 then -1 else -x)
  | .inf s => .num (if s then 1 else -1)
  | .nan => .num (-1)

/-- the sum, by the usual rules, finite numbers being added with `F`-bit fractions cut while aligned (Spec/Sum) -/
def add (F : ℕ) : EV → EV → EV
  | .num x, .num y => .num (alignedSum F x y)
  | .inf s, .num _ => .inf s
  | .num _, .inf t => .inf t
  | .inf s, .inf t => if s = t then .inf s else .nan
  | _, _ => .nan

/-- the shifts made while adding are in range -/
def AddOK (F : ℕ) : EV → EV → Prop
  | .num x, .num y => SumOK F x y
  | _, _ => True

instance (F : ℕ) (a b : EV) : Decidable (AddOK F a b) := by
  cases a <;> cases b <;> unfold AddOK <;> infer_instance

/-- an operation that gives its first operand back when either operand is NaN -/
def orFirst (op : EV → EV → EV) (a b : EV) : EV := if a = .nan ∨ b = .nan then a else op a b

/-- the numbers of a list added one after the other to `s`, every addition having its shifts in range -/
def FoldOK (F : ℕ) : EV → List EV → Prop
  | _, [] => True
  | s, p :: l => AddOK F s p ∧ FoldOK F (orFirst (add F) s p) l

instance FoldOK.dec (F : ℕ) : (s : EV) → (l : List EV) → Decidable (FoldOK F s l)
  | _, [] => inferInstanceAs (Decidable True)
  | s, p :: l => @instDecidableAnd _ _ _ (FoldOK.dec F (orFirst (add F) s p) l)

end EV

/-- what a pattern denotes. The single infinity of a format without NaN counts as negative, as its pattern does. -/
def Cfg.ext (c : Cfg) (v : ℤ) : EV :=
  if c.fmt.IsReal v then .num (c.fmt.val v)
  else if v = c.topPat ∧ c.spec ≠ .withInf then .nan
  else .inf (v < 0)

end Verif
