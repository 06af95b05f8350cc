import Verif.Model.FloatConv

/-!
# What the listing tool and main.cpp print about posits (src/listposits.cpp, src/main.cpp)

The numbers printed in the columns of a row, and those of the overview. How a stream writes a number is left out: columns
are the numbers given to the stream. Column `r` is `pow(2, n)` and column `r` of the model is `n`. The columns `p` and `u` are
texts (C105). The tool needs holders of at most 32 bits: `nextinttype<int64_t>` is missing (typehelpers.hpp), and `X(int64_t)`
is ambiguous between the constructors from `int`, `float` and `double`.
-/

namespace Verif.ListPosits

/-- bits of `printableinttype<T>` — include/typehelpers.hpp:195-218 -/
def ptBits (c : Cfg) : Nat := if c.H = 8 then 16 else c.H

/-- The columns of a posit — src/listposits.cpp:126-136, 149-159: `i`, `o`, `b`, `k`, the argument of `pow` in `r`, `e`, and the
bits of the double `v` -/
structure Cells where
  i : Int
  o : Int
  b : Nat
  k : Int
  r : Int
  e : Int
  v : Nat
  deriving DecidableEq, Repr

/-- `print1` — src/listposits.cpp:108-167. `*(PTU*)&i` reads the holder as unsigned, `std::bitset<totalbits>(i)` its lower bits;
`POSIT_REG_SCALE*pt(l.regime)` is done in `int` at least. -/
def cells (c : Cfg) (x : Int) : M Cells := do
  let up ← Posit.unpack c x
  let l ← Posit.unpackLow c x
  let r ← arithS (ptBits c) ((c.regScale : Int) * wrapS (ptBits c) l.reg)
  let v ← Posit.toFloat c .double x
  return ⟨wrapS (ptBits c) x, wrapS (ptBits c) (wrapU c.H x), wrapU c.N x, wrapS (ptBits c) l.reg, r, wrapS (ptBits c) up.exp, v⟩

/-- `(double)X(i)` for a constant `i` of the holder type, promoted to `int` — src/listposits.cpp:261-262, src/main.cpp:91-92 -/
def shown (c : Cfg) (i : Int) : M Nat := do
  let x ← Posit.ofInt c i
  Posit.toFloat c .double x

/-- The overview: `half=`, `twice=`, `min=` (bits of doubles) and `max=` (a posit) — src/listposits.cpp:261-262,
src/main.cpp:91-92 -/
structure Samples where
  half : Nat
  twice : Nat
  min : Nat
  max : Int
  deriving DecidableEq, Repr

/-- src/listposits.cpp:261-262, src/main.cpp:91-92 -/
def samples (c : Cfg) : M Samples := do
  let h ← shown c c.half
  let t ← shown c c.two
  let m ← shown c c.minneg
  let x ← Posit.ofInt c c.maxpos
  return ⟨h, t, m, x⟩

end Verif.ListPosits
