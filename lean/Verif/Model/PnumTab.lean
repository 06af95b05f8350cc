import Verif.Model.Pnum
import Mathlib.Algebra.Order.Floor.Ring
import Mathlib.Data.Rat.Floor

/-!
# scripts/validsgentable.py: tables of sums and products of projective numbers

The part of `main` from line 85 on, for an alphabet of fractions (`--p4`, `--p8`); `tabPairs` of Verif/Model/Pnum.lean are
the pairs of operands. `fl` is `float(value)`, as there. Python 3: `print` is used as a function and `singledispatch` is
imported by punum.py.
-/

namespace Verif
namespace Pnum

/-- exceptions of the script -/
inductive TabErr
  /-- one of punum.py -/
  | pnum (e : Err)
  /-- `TypeError` -/
  | type
  /-- `AttributeError` -/
  | attribute
  /-- `NameError` -/
  | name
deriving DecidableEq, Repr

/-- values of `--op1` — scripts/validsgentable.py:45, 49. -/
inductive Op1
  | half | twice | square | exp2 | float
deriving DecidableEq, Repr

/-- the default of `--op1` — scripts/validsgentable.py:45, 49. -/
def op1Default : List Op1 := [.half, .twice, .square, .exp2, .float]

/-- values of `--op2` — scripts/validsgentable.py:46, 50. -/
inductive Op2
  | times | plus
deriving DecidableEq, Repr

/-- `operator.add`, `operator.mul` — scripts/validsgentable.py:89-97. -/
def Op2.fn : Op2 → ℚ → ℚ → ℚ
  | .plus => (· + ·)
  | .times => (· * ·)

/-- `op(a)` and `.v` of the result — scripts/validsgentable.py:100-115, 139-151, of an exact number `a`. `x/two` is a
`TypeError`, since `Pnum` has `__div__` but no `__truediv__` (scripts/punum.py:199-200); `x*two` and `x*x` are `Pbound`s,
which have no attribute `v` (scripts/punum.py:195-196, 455-467); `math` is not imported. -/
def Op1.row (A : Alphabet) (fl : ℚ → M ℚ) (two a : ℤ) : Op1 → Except TabErr Unit
  | .half => .error .type
  | .twice => match A.slowTimes fl a two with
    | .error e => .error (.pnum e)
    | .ok _ => .error .attribute
  | .square => match A.slowTimes fl a a with
    | .error e => .error (.pnum e)
    | .ok _ => .error .attribute
  | .exp2 => .error .name
  | .float => .ok ()

/-- a line of a binary table: `ai`, `bi`, `yi` — scripts/validsgentable.py:173-181. The operands are never infinity. -/
def tabRow (A : Alphabet) (fl : ℚ → M ℚ) (op : Op2) (p : ℤ × ℤ) : M (ℤ × ℤ × ℤ) :=
  match A.exactValue p.1, A.exactValue p.2 with
  | some x1, some x2 => do
    let uy ← A.convert fl (op.fn x1 x2)
    return (p.1, p.2, uy)
  | _, _ => .ok (p.1, p.2, A.inf)

/-- the pairs of operands in the order of the loops — scripts/validsgentable.py:129, 153-155. -/
def tabAll (A : Alphabet) : List (ℤ × ℤ) :=
  (List.range A.k).flatMap fun i => (List.range A.k).flatMap fun j => if j < i then [] else tabPairs A i j

/-- a binary table — scripts/validsgentable.py:129-181. -/
def tabBinary (A : Alphabet) (fl : ℚ → M ℚ) (op : Op2) : M (List (ℤ × ℤ × ℤ)) := (tabAll A).mapM (tabRow A fl op)

/-- the table `float`: `ai` and `y` — scripts/validsgentable.py:129-136; `none` is `math.inf`. -/
def tabFloat (A : Alphabet) : List (ℤ × Option ℚ) :=
  (List.range A.k).flatMap fun i =>
    let a := A.fromExactsIndex i
    let ia := A.inv a
    [(a, A.exactValue a), (ia, A.exactValue ia)]

/-- `"%f" % y` as a number of millionths — scripts/validsgentable.py:200: six decimals, rounded to nearest, ties to even. -/
def sixDec (y : ℚ) : ℤ :=
  let f := ⌊y * 1000000⌋
  let r := y * 1000000 - f
  if r < 1 / 2 then f else if 1 / 2 < r then f + 1 else if f % 2 = 0 then f else f + 1

/-- the files of `--sparsetab`, numbers as printed, and how the script ends -/
structure TabOut where
  binary : List (Op2 × List (ℤ × ℤ × ℤ))
  float : Option (List (ℤ × ℤ))
  /-- the exception, if any -/
  ends : Option TabErr
deriving DecidableEq

/-- lines of the file `float` — scripts/validsgentable.py:197-200. `%f` converts the fraction to a float first. -/
def floatLines (A : Alphabet) (fl : ℚ → M ℚ) : M (List (ℤ × ℤ)) :=
  (tabFloat A).mapM fun r => match r.2 with
    | some y => do return (r.1, sixDec (← fl y))
    | none => .error .overflow

/-- exceptions of punum.py in the script -/
def liftErr {α : Type} : M α → Except TabErr α
  | .ok a => .ok a
  | .error e => .error (.pnum e)

/-- the file `float`, if asked for — scripts/validsgentable.py:109-111, 123-124. -/
def floatFile (A : Alphabet) (fl : ℚ → M ℚ) (ops1 : List Op1) : Except TabErr (Option (List (ℤ × ℤ))) :=
  if .float ∈ ops1 then (do return some (← liftErr (floatLines A fl))) else .ok none

/-- `main` with `--sparsetab` — scripts/validsgentable.py:85-204, `ops2` without repetition. The tables come first (129-181); of the unary operations the
first one that is not `float` raises in the first round (139-151). The last file, `exacts`, is a list of fractions, which
`x["ai"]` of line 204 does not accept. If exceptions of several tables are possible the model may name another one than the
script, which goes through the tables pair by pair. -/
def tabMain (A : Alphabet) (fl : ℚ → M ℚ) (ops1 : List Op1) (ops2 : List Op2) : Except TabErr TabOut := do
  let two ← liftErr (A.convert fl 2)
  let a := A.fromExactsIndex 0
  for o in ops1 do
    o.row A fl two a
  let bin ← ops2.mapM fun o => do return (o, ← liftErr (tabBinary A fl o))
  let flt ← floatFile A fl ops1
  return ⟨bin, flt, if A.exacts = [] then none else some .type⟩

end Pnum
end Verif
