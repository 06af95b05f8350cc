import Mathlib.Data.Nat.Digits.Defs
import Verif.Model.FloatConv
import Verif.Model.Tabulated

/-!
# Writing numbers to a stream — include/unpacked.h:472-496, include/posit.h:566-591, include/positf.h:208-213, src/posit8.cpp:9-13, src/posit10.cpp:9-13, src/posit12.cpp:9-13, include/binary8.hpp:169-173

A stream is the text written so far and the base flags; all other flags (`showbase`, `showpos`, `uppercase`, the width) have their initial
values, and writing never fails. The text of a native `float` is a parameter.
-/

namespace Verif
namespace Print

/-- the base flags of a stream (`std::ios::basefield`); `none`: none of them is set. Combinations of several flags act like `none`. -/
inductive Base
  | dec | hex | oct | none
  deriving DecidableEq, Repr

/-- the digits of a natural number, as written by a stream without prefix -/
def natText (b n : Nat) : List Char := if n = 0 then ['0'] else (Nat.digits b n).reverse.map Nat.digitChar

/-- an integer written in decimal -/
def decText (v : Int) : List Char := if v < 0 then '-' :: natText 10 v.natAbs else natText 10 v.natAbs

/-- an integer of `w` bits written with the flags of the stream: hexadecimal and octal as if unsigned -/
def intText (w : Nat) (s : Base) (v : Int) : List Char :=
  match s with
  | .hex => natText 16 (wrapU w v)
  | .oct => natText 8 (wrapU w v)
  | _ => decText v

/-- `std::bitset` of `w` bits: the highest bit first -/
def bitsText (w n : Nat) : List Char := (List.range w).map fun i => if n.testBit (w - 1 - i) then '1' else '0'

/-- `operator<<` of an unpacked number — include/unpacked.h:472-496: the text and the flags afterwards. Exponents and fractions of 8 bits are
widened to 16 bits, so that they are written as numbers (`printableinttype`, include/typehelpers.hpp:195-218). -/
def unp (F : Nat) (s : Base) (u : Unp) : List Char × Base :=
  match u.ty with
  | .regular =>
    ("up(".toList ++ (if u.neg then ['-'] else ['+']) ++ " exp (dec) = ".toList ++ decText u.exp ++ " fraction (hex) = ".toList ++
      natText 16 u.frac ++ " (bin) = ".toList ++ bitsText F u.frac ++ [')'], .dec)
  | .infinity => (if u.neg then "up(-infinity)".toList else "up(+infinity)".toList, s)
  | .nan => ("up(nan)".toList, s)
  | .zero => ("up(0)".toList, s)

/-- an integer of type `T` with `H` bits written in decimal: one of 8 bits is a character -/
def holderText (H : Nat) (v : Int) : List Char := if H = 8 then [Char.ofNat (wrapU 8 v)] else decText v

/-- `operator<<` of a posit — include/posit.h:566-591: the base is set to decimal, something is written that depends on what the base was,
then the former base flags are set again -/
def posit (c : Cfg) (ftext : Nat → List Char) (s : Base) (v : Int) : M (List Char × Base) := do
  let (t, _) ← match s with
    | .hex => Except.ok (holderText c.H v, Base.dec)
    | .dec => do let f ← Posit.toFloat c .single v; Except.ok (ftext f, Base.dec)
    | .oct => do let u ← Posit.unpack c v; Except.ok (unp c.F .dec u)
    | .none => Except.ok ([], Base.dec)
  return (t, s)

/-- `operator<<` of a posit computed by native floats — include/positf.h:208-213 -/
def positF (c : Cfg) (s : Base) (v : Int) : M (List Char × Base) := do
  let u ← Posit.unpack c v
  return unp c.F s u

/-- `operator<<` of `posit8`, `posit10`, `posit12` — src/posit8.cpp:9-13, src/posit10.cpp:9-13, src/posit12.cpp:9-13; `u` is `uu()` -/
def tab (s : Base) (u : Nat) : List Char × Base := ("posit(".toList ++ intText 32 s u ++ [')'], s)

/-- `operator<<` of `binary8tab` — include/binary8.hpp:169-173; `v` is an `int8_t` -/
def binary8 (s : Base) (v : Int) : List Char × Base := ("binary8tab(".toList ++ [Char.ofNat (wrapU 8 v)] ++ [')'], s)

end Print
end Verif
