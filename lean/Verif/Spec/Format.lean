import Mathlib.Algebra.Order.Field.Rat
import Mathlib.Algebra.Order.Field.Power
import Mathlib.Data.Int.Log
import Mathlib.Data.Rat.Floor

/-!
# The posit number format (specification)

Independent of the code: a posit of `N` bits with `es` exponent bits is a two's complement `N`-bit integer `v`.
For `v > 0` the `N-1` bits below the sign are read from the left as a run of equal bits (the regime), its terminator,
`es` exponent bits (missing ones are zero) and the fraction.  `val (-v) = -val v`.
-/

namespace Verif.Fmt

/-- the low `n` bits of `x`, most significant first -/
def bitsMSB : Nat → Nat → List Bool
  | 0, _ => []
  | n + 1, x => x.testBit n :: bitsMSB n x

/-- the number written by a bit list, most significant first -/
def ofBits (l : List Bool) : Nat := l.foldl (fun a b => 2 * a + b.toNat) 0

/-- length of the initial run of `b` -/
def runLength (b : Bool) : List Bool → Nat
  | [] => 0
  | x :: l => if x = b then runLength b l + 1 else 0

/-- regime denoted by an initial run of `k` bits equal to `b` -/
def regimeOf (b : Bool) (k : Nat) : Int := if b then (k : Int) - 1 else -(k : Int)

/-- value of a positive posit whose bits after the sign are `l` -/
def bodyVal (es : Nat) (l : List Bool) : ℚ :=
  let b := l.headD false
  let k := runLength b l
  let rest := l.drop (k + 1)
  let ebits := rest.take es
  let e := ofBits ebits * 2 ^ (es - ebits.length)
  let fbits := rest.drop es
  (2 : ℚ) ^ (2 ^ es * regimeOf b k + e) * (1 + (ofBits fbits : ℚ) / 2 ^ fbits.length)

/-- value of the positive posit with body `p` (`0 < p < 2^(N-1)`) -/
def posVal (N es p : Nat) : ℚ := bodyVal es (bitsMSB (N - 1) p)

/-- A posit format: size, exponent size and whether the two patterns next to the top one are signed infinities. -/
structure Format where
  N : Nat
  es : Nat
  twoInf : Bool
  deriving DecidableEq, Repr

namespace Format

/-- the pattern of the greatest real number of the format -/
def maxBody (f : Format) : Nat := if f.twoInf then 2 ^ (f.N - 1) - 2 else 2 ^ (f.N - 1) - 1

/-- the patterns that denote real numbers -/
def IsReal (f : Format) (v : Int) : Prop := -(f.maxBody : Int) ≤ v ∧ v ≤ f.maxBody

instance (f : Format) (v : Int) : Decidable (f.IsReal v) := by unfold IsReal; infer_instance

/-- sign-extended `N`-bit patterns -/
def IsCanonical (f : Format) (v : Int) : Prop := -(2 ^ (f.N - 1) : Int) ≤ v ∧ v < 2 ^ (f.N - 1)

instance (f : Format) (v : Int) : Decidable (f.IsCanonical v) := by unfold IsCanonical; infer_instance

/-- the real number denoted by a pattern -/
def val (f : Format) (v : Int) : ℚ :=
  if v = 0 then 0 else if 0 < v then posVal f.N f.es v.toNat else -posVal f.N f.es (-v).toNat

/-- the exponent of the leading bit of a number: `2^scale ≤ |v| < 2^(scale+1)` -/
def scale (f : Format) (v : Int) : Int := Int.log 2 |f.val v|

/-- `v` is the nonzero number `y` rounded toward zero in the format: the real posit of the same sign with the greatest
magnitude not above `|y|`, or the least magnitude if there is none. -/
structure IsTrunc (f : Format) (y : ℚ) (v : Int) : Prop where
  real : f.IsReal v
  sign : (0 < v ∧ 0 < y) ∨ (v < 0 ∧ y < 0)
  greatest : ∀ w, f.IsReal w → w ≠ 0 → |f.val w| ≤ |y| → |f.val w| ≤ |f.val v|
  below : |f.val v| ≤ |y| ∨ ∀ w, f.IsReal w → w ≠ 0 → |f.val v| ≤ |f.val w|

/-- `v` is a faithful rounding of `y`: no real posit lies between `y` and `v`, and `y` itself is returned when it is
a posit. Beyond the ends of the format this forces the greatest / least real posit. -/
structure IsFaithful (f : Format) (y : ℚ) (v : Int) : Prop where
  real : f.IsReal v
  above : ∀ w, f.IsReal w → f.val v < f.val w → y < f.val w
  below : ∀ w, f.IsReal w → f.val w < f.val v → f.val w < y

end Format

/-- value of a sign / exponent / left-aligned fraction triple with an implicit leading 1 (`F` fraction bits) -/
def tripleVal (F : Nat) (neg : Bool) (exp : Int) (frac : Nat) : ℚ :=
  (if neg then -1 else 1) * ((2 : ℚ) ^ exp * (1 + (frac : ℚ) / 2 ^ F))

end Verif.Fmt
