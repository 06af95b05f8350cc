import Verif.Model.Pnum

/-!
# What projective numbers stand for

`k` exact points `1 = e 0 < e 1 < … < e (k-1)` give the `4k - 1` exact numbers `0`, `±e i`, `±1/e i` and infinity. Going
around the circle from 0, even patterns stand for these numbers and odd ones for the open intervals between them.
-/

namespace Verif
namespace Pnum

/-- a table accepted by the constructor -/
structure Table (A : Alphabet) : Prop where
  pow : ∃ j, A.k = 2 ^ j
  one : A.e 0 = 1
  mono : ∀ i j : ℕ, i < j → j < A.k → A.e i < A.e j

variable (A : Alphabet)

/-- the nonnegative exact numbers in increasing order: `0, 1/e (k-1), …, 1/e 1, 1, e 1, …, e (k-1)` -/
def mag (i : ℕ) : ℚ := if i = 0 then 0 else if i < A.k then 1 / A.e (A.k - i) else A.e (i - A.k)

/-- all finite exact numbers in increasing order, `-2k < i < 2k` -/
def pt (i : ℤ) : ℚ := if 0 ≤ i then mag A i.toNat else -mag A (-i).toNat

/-- the pattern as a signed number of steps from 0; infinity is `4k` steps away -/
def steps (v : ℤ) : ℤ := if v > 4 * A.k then v - 8 * A.k else v

/-- the pattern `v` stands for `x`, or for a set containing `x`; `none` is infinity -/
def Mem (v : ℤ) : Option ℚ → Prop
  | none => v = 4 * A.k
  | some x => v ≠ 4 * A.k ∧
      if steps A v % 2 = 0 then x = pt A (steps A v / 2)
      else (steps A v = -(4 * A.k) + 1 ∨ pt A (steps A v / 2) < x) ∧ (steps A v = 4 * A.k - 1 ∨ x < pt A (steps A v / 2 + 1))

/-- a pattern -/
def IsPat (v : ℤ) : Prop := 0 ≤ v ∧ v < 8 * A.k

/-- `v` is met on the way from `f` upward around the circle to `l` -/
def InArc (f l v : ℤ) : Prop := (v - f) % (8 * A.k) ≤ (l - f) % (8 * A.k)

/-- the numbers of a bound -/
def Pbound.Has (b : Pbound) (x : Option ℚ) : Prop := b.empty = false ∧ ∃ v, IsPat A v ∧ InArc A b.first b.last v ∧ Mem A v x

/-- the numbers of a result -/
def Res.Has : Res → Option ℚ → Prop
  | .num v, x => Mem A v x
  | .bound b, x => b.Has A x

/-- negation and reciprocal of the projective line -/
def pneg : Option ℚ → Option ℚ := Option.map fun x => -x

/-- reciprocal -/
def pinv : Option ℚ → Option ℚ
  | none => some 0
  | some x => if x = 0 then none else some (1 / x)

end Pnum
end Verif
