import Verif.Model.FloatConv
import Mathlib.Data.Int.Bitwise

/-!
# The listing tool (src/listposits.cpp)

The loops of `listpositsT` and the posits printed in every row. The formatting of the columns is left out. The tool needs
`nextinttype<T>` (line 282), which is missing for `int64_t`, so the holder has at most 32 bits.
-/

namespace Verif.ListPosits

/-- `SIGNEX(v, sb)` for an `int` (or wider) `v` — src/listposits.cpp:57. -/
def signex (v sb : Int) : M Int := do
  let m ← shlS 32 1 sb
  let k ← arithS 32 (m - 1)
  return Int.lor v (if Int.land v m ≠ 0 then Int.lnot k else 0)

/-- The switches of the format string that add posits to a row: `I`, `2`, `A` — src/listposits.cpp:226-228. -/
structure Opts where
  inverse : Bool
  twice : Bool
  half : Bool

/-- A posit printed only on request — src/listposits.cpp:331-336, 349-354. -/
def cell (on : Bool) (m : M Int) : M (List Int) :=
  if on then
    match m with
    | .error e => .error e
    | .ok y => .ok [y]
  else .ok []

/-- The posits printed in one row: the posit, and on request its inverse, `x*X(2)` and `x/X(2)` —
src/listposits.cpp:329-336, 347-354. -/
def row (c : Cfg) (o : Opts) (i : Int) : M (List Int) := do
  let a ← cell o.inverse (Posit.inv c i)
  let b ← cell o.twice (do let t ← Posit.ofInt c 2; Posit.mul c i t)
  let d ← cell o.half (do let t ← Posit.ofInt c 2; Posit.div c i t)
  return i :: (a ++ b ++ d)

/-- `i++` for an object of a signed `w`-bit type: the new value — src/listposits.cpp:326, 382. -/
def incr (w : Nat) (i : Int) : M Int := do
  let y ← arithS w (i + 1)
  return wrapS w y

/-- The `do … while (i++ < X::PT::POSIT_MAXPOS)` loop from `i` on — src/listposits.cpp:343-382. `none` when it does not end
within `fuel` rows. -/
def signedLoop (c : Cfg) (o : Opts) : Nat → Int → Option (M (List (List Int)))
  | 0, _ => none
  | fuel + 1, i =>
    match row c o i with
    | .error e => some (.error e)
    | .ok r =>
      match incr c.H i with
      | .error e => some (.error e)
      | .ok j =>
        if i < c.maxpos then
          match signedLoop c o fuel j with
          | none => none
          | some (.error e) => some (.error e)
          | some (.ok l) => some (.ok (r :: l))
        else some (.ok [r])

/-- The rows in signed order — src/listposits.cpp:341-383. -/
def signedRows (c : Cfg) (o : Opts) (fuel : Nat) : Option (M (List (List Int))) := signedLoop c o fuel c.minneg

/-- The `for(nt j = 0; j < (1<<X::vtotalbits); j++)` loop from `j` on, `nt` having twice the bits of the holder —
src/listposits.cpp:282, 326-339. -/
def unsignedLoop (c : Cfg) (o : Opts) : Nat → Int → Option (M (List (List Int)))
  | 0, _ => none
  | fuel + 1, j =>
    match shlS 32 1 c.N with
    | .error e => some (.error e)
    | .ok m =>
      if j < m then
        match (do let i ← signex j ((c.N : Int) - 1); row c o (wrapS c.H i)) with
        | .error e => some (.error e)
        | .ok r =>
          match incr (2 * c.H) j with
          | .error e => some (.error e)
          | .ok j' =>
            match unsignedLoop c o fuel j' with
            | none => none
            | some (.error e) => some (.error e)
            | some (.ok l) => some (.ok (r :: l))
      else some (.ok [])

/-- The rows in unsigned order (switch `U`); the message before them, printed unless the output is binary (switch `B`),
evaluates `(1<<X::vtotalbits)-1` — src/listposits.cpp:286-289, 324-340. -/
def unsignedRows (c : Cfg) (o : Opts) (binary : Bool) (fuel : Nat) : Option (M (List (List Int))) :=
  match (if binary then .ok 0 else do let m ← shlS 32 1 c.N; arithS 32 (m - 1) : M Int) with
  | .error e => some (.error e)
  | .ok _ => unsignedLoop c o fuel 0

/-- The infinities and NaN reported by the overview: `+infinity`, `-infinity`, `nan` for `withnan` formats, else
`infinity` alone — src/listposits.cpp:249-260. -/
def overview (c : Cfg) : List Int := if c.withnan then [c.pinf, c.ninf, c.nan] else [c.pinf]

end Verif.ListPosits
