import Verif.Model.AnyFloat

/-!
# Tables of posits in MATLAB — matlab/loadpositdump.m, dump2table.m, describetab.m, limittab.m, toindex.m, fromindex.m,
meandiff.m, halfinrange.m, morton.m

Numbers are bit patterns of `double`. The operators `-`, `.^2` and `/` are those of `o`; `a - b` is `a + (-b)` and `x.^2` is
`x*x`, as IEEE 754 has them. A row of the table whose four columns are cell arrays with one vector each is a list of entries,
so the vectors have the same length; the columns `bits`, `es` and `what` are left out.
-/

namespace Verif.MTab
open AnyFloat

/-- `isnan` of a double -/
def isNan (x : Nat) : Bool := match ieee 11 52 x with | .nan => true | _ => false
/-- `~(isnan(v)|isinf(v))` of a double — describetab.m:5,7 -/
def isFin (x : Nat) : Bool := match ieee 11 52 x with | .num _ => true | _ => false

/-- unary minus changes the sign bit and `abs` clears it, as for the emulated floats -/
def neg (x : Nat) : Nat := AnyFloat.neg .double x
def abs (x : Nat) : Nat := AnyFloat.abs .double x

/-- an element of the vectors of a row of the table — dump2table.m:7-11 -/
structure Entry where
  signed : Nat
  unsigned : Nat
  float : Nat
  res : Nat

/-- `meandiff` — meandiff.m:1-8, dump2table.m:15-21: `r(2:end-1) = (x(3:end)-x(1:end-2))/2`, NaN at both ends -/
def meandiff (o : FloatOps) (x : List Nat) : List Nat :=
  (List.range x.length).map fun i =>
    if i = 0 ∨ i + 1 = x.length then 0x7ff8000000000000
    else o.div (o.add (x.getD (i + 1) 0) (neg (x.getD (i - 1) 0))) 0x4000000000000000

/-- `dump2table` — dump2table.m:1-12 without `describetab`: the rows of the dump are signed, unsigned, value -/
def dump2table (o : FloatOps) (r : List (Nat × Nat × Nat)) : List Entry :=
  (r.zip (meandiff o (r.map fun e => e.2.2))).map fun e => ⟨e.1.1, e.1.2.1, e.1.2.2, e.2⟩

/-- a posit as the listing tool writes it: its signed pattern, its unsigned pattern and its value, as doubles -/
structure Cell where
  i : Nat
  u : Nat
  x : Nat

/-- the doubles that `print1` writes for one posit to a binary dump — src/listposits.cpp:142-165. The letters `k`, `r`, `e` and
`u` are left out. -/
def print1 (format : List Char) (p : Cell) : List Nat :=
  format.flatMap fun ch =>
    if ch = 'i' then [p.i]
    else if ch = 'o' then [p.u]
    else if ch = 'p' ∨ ch = 'b' then [0]
    else if ch = 'v' then [p.x]
    else []

/-- `reshape(r,3,[])'` — loadpositdump.m:10; `none`: the length is not a multiple of 3, an error -/
def reshape3 : List Nat → Option (List (Nat × Nat × Nat))
  | [] => some []
  | a :: b :: c :: l => (reshape3 l).map ((a, b, c) :: ·)
  | _ => none

/-- `loadpositdump` of a file with the doubles `r` — loadpositdump.m:8-11 without `describetab` -/
def loadpositdump (o : FloatOps) (r : List Nat) : Option (List Entry) := (reshape3 r).map (dump2table o)

/-- the step of a search for an extreme element: a number replaces NaN and a better number replaces another -/
def better (lt : Nat → Nat → Bool) (b : Nat × Nat) (k y : Nat) : Nat × Nat :=
  if (isNan b.2 && !isNan y) || lt y b.2 then (k, y) else b

/-- the rest of the search from index `k` on -/
def search (lt : Nat → Nat → Bool) : Nat → Nat × Nat → List Nat → Nat × Nat
  | _, b, [] => b
  | k, b, y :: l => search lt (k + 1) (better lt b k y) l

/-- `[m,i] = min(x)` with `lt` the order, `max` with the reverse order: the first extreme element and its index, counted from
one; NaN is ignored unless there is nothing else; `none` for the empty result -/
def extreme (lt : Nat → Nat → Bool) : List Nat → Option (Nat × Nat)
  | [] => none
  | x :: l => some (search lt 2 (1, x) l)

/-- `min(x)` -/
def min (x : List Nat) : Option Nat := (extreme (natLt .double) x).map (·.2)
/-- `max(x)` -/
def max (x : List Nat) : Option Nat := (extreme (fun a b => natLt .double b a) x).map (·.2)

/-- the columns that `describetab` adds -/
structure Descr where
  max : Nat
  min : Nat
  smallest : Nat
  minres : Nat
  maxres : Nat
  deriving DecidableEq

/-- `describetab` of one row — describetab.m:1-13. `none`: an extreme of an empty vector is empty, and assigning it to one
element of a column is an error. -/
def describetab (t : List Entry) : Option Descr := do
  let W := (t.map (·.float)).filter isFin
  let Q := (t.map (·.res)).filter isFin
  let a ← MTab.max W
  let b ← MTab.min W
  let s ← MTab.min ((W.filter fun w => !natEq .double w 0).map abs)
  let c ← MTab.min Q
  let d ← MTab.max Q
  return ⟨a, b, s, c, d⟩

/-- the vectors of `limittab` for one row — limittab.m:9-19 -/
def limittab (mi ma : Nat) (exclusive : Bool) (t : List Entry) : List Entry :=
  t.filter fun e =>
    if exclusive then natLt .double mi e.float && natLt .double e.float ma
    else (natLt .double mi e.float || natEq .double mi e.float) && (natLt .double e.float ma || natEq .double e.float ma)

/-- the modes of `toindex` and `fromindex` -/
inductive Mode where
  | index | signed | unsigned | float | other
  deriving DecidableEq

/-- `find(x==a,1,'first')` — toindex.m:11,13; `none` is the empty result -/
def find (x : List Nat) (a : Nat) : Option Nat := (x.findIdx? fun y => natEq .double y a).map (· + 1)

/-- `toindex(zp,mode,a)` for a number `a`; for the mode `index` `a` is the index itself — toindex.m:1-21 -/
def toindex (o : FloatOps) (zp : List Entry) (mode : Mode) (a : Nat) : Option Nat :=
  match mode with
  | .index => some a
  | .signed => find (zp.map (·.signed)) a
  | .unsigned => find (zp.map (·.unsigned)) a
  | .float => (extreme (natLt .double) (zp.map fun e => (fun d => o.mul d d) (o.add e.float (neg a)))).map (·.1)
  | .other => some 0

/-- `fromindex(zp,mode,ii)` — fromindex.m:1-18; `none`: the index is out of range, an error -/
def fromindex (zp : List Entry) (mode : Mode) (ii : Nat) : Option Nat :=
  let e := if ii = 0 then none else zp[ii - 1]?
  match mode with
  | .index => some ii
  | .signed => e.map (·.signed)
  | .unsigned => e.map (·.unsigned)
  | .float => e.map (·.float)
  | .other => some 0

/-- the order by which `sort` arranges: NaN last -/
def sortLe (a b : Nat) : Bool := isNan b || (!isNan a && !natLt .double b a)

/-- `[u,h] = halfinrange(mi,ma)` as a list of pairs — halfinrange.m:1-10; `y` is `halfprecision(z,'double')` of the MEX
function (C85, C86) -/
def halfinrange (y : Nat → Nat) (mi ma : Nat) : List (Nat × Nat) :=
  (((List.range 65536).map fun z => (z, y z)).filter fun e =>
    (natLt .double mi e.2 || natEq .double mi e.2) && (natLt .double e.2 ma || natEq .double e.2 ma)).mergeSort
    fun a b => sortLe a.2 b.2

/-- the element of `morton(n)` at position `i` (from zero): only the first two of the `n` base-4 digits are used —
matlab/morton.m:9-18 -/
def mortonAt (n i : Nat) : Nat :=
  let d1 := i / 4 ^ (n - 1) % 4
  let d2 := i / 4 ^ (n - 2) % 4
  let r := 2 * (d1 / 2) + d2 / 2 + 1
  let c := 2 * (d1 % 2) + d2 % 2 + 1
  2 ^ n * (c - 1) + r

/-- `morton(n)` — matlab/morton.m:1-19. `none`: with less than two digits `ind4str(:,2)` is an error. -/
def morton (n : Nat) : Option (List Nat) := if n < 2 then none else some ((List.range (4 ^ n)).map (mortonAt n))

end Verif.MTab
