import Verif.Model.FloatLimits

/-!
# scripts/float2bin.py

The script prints the memory of some numbers of the numpy float types in hexadecimal, as constants for the float traits. The memory
of an array element is a number below `256^w` here (little-endian, `w` bytes); which numbers numpy stores is a parameter. Text is a
list of characters.
-/

namespace Verif.Float2Bin

/-- the bytes of an array element in memory, for a little-endian machine — scripts/float2bin.py:8-11 -/
def bytes (w b : Nat) : List Nat := (List.range w).map fun i => b / 256 ^ i % 256

/-- a digit of `binascii.hexlify` — scripts/float2bin.py:14 -/
def hexDigit (d : Nat) : Char := if d < 10 then Char.ofNat (48 + d) else Char.ofNat (87 + d)

/-- `binascii.hexlify(bb)` — scripts/float2bin.py:14 -/
def hexlify (bs : List Nat) : List Char := bs.flatMap fun x => [hexDigit (x / 16), hexDigit (x % 16)]

/-- `"%ns" % s` — scripts/float2bin.py:14 -/
def padLeft (n : Nat) (s : List Char) : List Char := List.replicate (n - s.length) ' ' ++ s

/-- `"0x" + binascii.hexlify(x.byteswap().tobytes())` — scripts/float2bin.py:13-14 -/
def literal (w b : Nat) : List Char := ['0', 'x'] ++ hexlify (bytes w b).reverse

/-- one line of the output, without the line end; `print` puts a space between its arguments — scripts/float2bin.py:14 -/
def line (ty name : List Char) (w b : Nat) : List Char :=
  padLeft 30 ty ++ [' '] ++ padLeft 10 name ++ [' '] ++ literal w b

/-- the types: `str(t)` in Python 2 and the size of an element — scripts/float2bin.py:5 -/
def types : List (List Char × Nat) :=
  [("<type 'numpy.float16'>".toList, 2), ("<type 'numpy.float32'>".toList, 4), ("<type 'numpy.float64'>".toList, 8),
    ("<type 'numpy.float128'>".toList, 16)]

/-- the values — scripts/float2bin.py:12 -/
def names : List (List Char) := ["-inf".toList, "inf".toList, "nan".toList, "one".toList, "two".toList]

/-- the lines printed; `mem t v` is the memory of the value number `v` of the type number `t` — scripts/float2bin.py:7-14 -/
def output (mem : Nat → Nat → Nat) : List (List Char) :=
  (List.range 4).flatMap fun t => (List.range 5).map fun v =>
    line (types.getD t ([], 0)).1 (names.getD v []) (types.getD t ([], 0)).2 (mem t v)

end Verif.Float2Bin
