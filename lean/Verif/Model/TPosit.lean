import Verif.Model.Posit
import Verif.Model.FloatConv

/-!
# The tabulated templates `tposit` and `tvalid`

include/tposit.hpp and include/tvalids.hpp. Neither header compiles: a `;` and closing braces are missing
(tposit.hpp:59, 79, 80, tvalids.hpp:76, 77), tposit.hpp:39 redeclares a template parameter and passes a `bool` for the
enumeration `PositSpec` (36), tvalids.hpp:44 makes `tposit` the integer type, and the constants `POSIT_MAX`, `POSIT_MIN`,
`POSIT_SMALLPOS` do not exist. Modelled is what the functions say once these slips are mended; the three constants are left
out. The tables are declared but not in the repository; they are parameters.
-/

namespace Verif

namespace TPosit

/-- `uu()` — include/tposit.hpp:105: conversion to the unsigned holder. -/
def uu (c : Cfg) (v : Int) : Nat := wrapU c.H v

/-- `tposit(DeepInit, int8_t)` — include/tposit.hpp:62: the argument is converted to `int8_t`, then to `T`. -/
def deep (x : Int) : Int := wrapS 8 x

/-- `inv`, `half`, `twice`, `exp2`, `square` with the table `t` — include/tposit.hpp:83-87. -/
def op1 (c : Cfg) (t : Nat → Int) (v : Int) : Int := deep (t (uu c v))

/-- the index `a.uu()*256+b.uu()` — include/tposit.hpp:97, 98, 100: an `int` for a narrow holder, where nothing overflows,
otherwise of the unsigned holder type. -/
def index (c : Cfg) (a b : Int) : Nat := (uu c a * 256 + uu c b) % 2 ^ pw c.H

/-- `operator+`, `operator*`, `operator/` with the table `t` — include/tposit.hpp:97, 98, 100. -/
def op2 (c : Cfg) (t : Nat → Int) (a b : Int) : Int := deep (t (index c a b))

/-- unary `operator-` — include/tposit.hpp:88. -/
def neg (c : Cfg) (v : Int) : M Int := do return deep (← arithS c.H (-v))

/-- binary `operator-` with the table of sums — include/tposit.hpp:99. -/
def sub (c : Cfg) (t : Nat → Int) (a b : Int) : M Int := do return op2 c t a (← neg c b)

/-- `one()` — include/tposit.hpp:74. -/
def one (c : Cfg) : Int := deep c.one
/-- `pinfinity()` — include/tposit.hpp:79. -/
def pinfinity (c : Cfg) : Int := deep c.pinf
/-- `ninfinity()` — include/tposit.hpp:80. -/
def ninfinity (c : Cfg) : Int := deep c.ninf
/-- `nan()` — include/tposit.hpp:81. -/
def nan (c : Cfg) : Int := deep c.nan

/-- `operator<` — include/tposit.hpp:90. -/
def lt (a b : Int) : Bool := a < b
/-- `operator>` — include/tposit.hpp:91. -/
def gt (a b : Int) : Bool := a > b
/-- `operator<=` — include/tposit.hpp:92. -/
def le (a b : Int) : Bool := a ≤ b
/-- `operator>=` — include/tposit.hpp:93. -/
def ge (a b : Int) : Bool := a ≥ b
/-- `operator==` — include/tposit.hpp:94. -/
def eq (a b : Int) : Bool := a = b
/-- `operator!=` — include/tposit.hpp:95. -/
def ne (a b : Int) : Bool := a ≠ b

/-- `is_nan()` — include/tposit.hpp:70. -/
def isNan (c : Cfg) (v : Int) : Bool := c.withnan && v = c.nan
/-- `is_infinity()` — include/tposit.hpp:71. -/
def isInfinity (c : Cfg) (v : Int) : Bool := v = c.ninf || v = c.pinf

/-- `std::abs` — include/tposit.hpp:206-209. -/
def abs (c : Cfg) (v : Int) : M Int := if v < 0 then neg c v else .ok (deep v)
/-- `std::min` — include/tposit.hpp:212-215. -/
def min (a b : Int) : Int := if le a b then a else b
/-- `std::max` — include/tposit.hpp:218-221. -/
def max (a b : Int) : Int := if ge a b then a else b

/-- `tposit(int)` — include/tposit.hpp:154-163. -/
def ofInt (c : Cfg) (a : Int) : M Int := if a = 0 then .ok 0 else if a = 1 then .ok c.one else Posit.ofInt c a

/-- conversion of the `float` with pattern `b` to `uint32_t`: truncation, undefined when the result does not fit. -/
def toU32 (b : Nat) : M Nat :=
  let e := b / 2 ^ 23 % 256
  if e < 127 then .ok 0
  else if b / 2 ^ 31 % 2 = 1 ∨ 158 < e then .error .overflow
  else .ok ((2 ^ 23 + b % 2 ^ 23) * 2 ^ (e - 127) / 2 ^ 23)

/-- `operator float`, as a pattern — include/tposit.hpp:109: `op2float` is an array of `float` (54), its patterns are given
by `t`, and `uint32_to_float` takes a `uint32_t` that it reinterprets (include/binary8.hpp:28-36). -/
def toFloat (c : Cfg) (t : Nat → Nat) (v : Int) : M Nat := toU32 (t (uu c v))

end TPosit

/-- `T`, `N` and `vtwo` of `tvalid` — include/tvalids.hpp:31; `H` is the width of `T`. -/
structure TValid where
  H : Nat
  N : Nat
  two : Int

namespace TValid

/-- what the class requires — include/tvalids.hpp:35-37. -/
structure WF (t : TValid) : Prop where
  hH : t.H = 8 ∨ t.H = 16 ∨ t.H = 32 ∨ t.H = 64
  hN : 2 ≤ t.N
  hs : 4 * t.N ≤ t.H

/-- undefined behaviour: reading a table out of its bounds, or one of the kinds of Verif/Cpp.lean. -/
inductive Err
  | outOfBounds
  | ub (e : UB)
deriving DecidableEq, Repr

/-- `TN` — include/tvalids.hpp:40. -/
def TN (t : TValid) : Nat := 4 * t.N

/-- `tvalid(DeepInit, int16_t)` — include/tvalids.hpp:62: conversion to `int16_t`, then to `T`. -/
def deep (t : TValid) (x : Int) : Int := wrapS t.H (wrapS 16 x)

/-- an operation in the promoted type -/
def arith (t : TValid) (x : Int) : Except Err Int :=
  match arithS t.H x with
  | .ok y => .ok y
  | .error e => .error (.ub e)

/-- `uu()` — include/tvalids.hpp:104. -/
def uu (t : TValid) (v : Int) : Nat := wrapU t.H v

/-- `inv()` — include/tvalids.hpp:87. -/
def inv (t : TValid) (v : Int) : Except Err Int := do
  let s ← t.arith (v + t.TN)
  let r ← t.arith (-s)
  return t.deep r

/-- unary `operator-` — include/tvalids.hpp:92. -/
def neg (t : TValid) (v : Int) : Except Err Int := do return t.deep (← t.arith (-v))

/-- `tab[i]` of a table with `tab.length` elements -/
def get (tab : List Int) (i : Nat) : Except Err Int :=
  match tab[i]? with
  | some x => .ok x
  | none => .error .outOfBounds

/-- `twice()`, `square()` with their table — include/tvalids.hpp:89, 91. -/
def op1 (t : TValid) (tab : List Int) (v : Int) : Except Err Int := do return t.deep (← get tab (t.uu v))

/-- the index `a.uu()*TN+b.uu()` — include/tvalids.hpp:94, 95, 97. -/
def index (t : TValid) (a b : Int) : Nat := (t.uu a * t.TN + t.uu b) % 2 ^ pw t.H

/-- `operator+`, `operator*` with their table — include/tvalids.hpp:94, 95. -/
def op2 (t : TValid) (tab : List Int) (a b : Int) : Except Err Int := do return t.deep (← get tab (t.index a b))

/-- binary `operator-` with the table of sums — include/tvalids.hpp:96. -/
def sub (t : TValid) (tab : List Int) (a b : Int) : Except Err Int := do t.op2 tab a (← t.neg b)

/-- `operator/` with the table of products — include/tvalids.hpp:97. -/
def div (t : TValid) (tab : List Int) (a b : Int) : Except Err Int := do t.op2 tab a (← t.inv b)

/-- `half()` with the table of products — include/tvalids.hpp:88. -/
def half (t : TValid) (tab : List Int) (v : Int) : Except Err Int := do t.op2 tab v (← t.inv t.two)

end TValid
end Verif
