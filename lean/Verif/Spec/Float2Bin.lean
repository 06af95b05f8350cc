import Verif.Spec.Ieee

/-! # Reading hexadecimal text; the 80-bit numbers of the x87 (specification) -/

namespace Verif

/-- the digits 0-9, a-f -/
def hexDigits : List Char := "0123456789abcdef".toList

/-- `s` is the hexadecimal numeral of `n`, with leading zeros -/
inductive IsHex : List Char → ℕ → Prop
  | nil : IsHex [] 0
  | snoc {s : List Char} {n d : ℕ} {ch : Char} : IsHex s n → hexDigits[d]? = some ch → IsHex (s ++ [ch]) (16 * n + d)

/-- the number with the 80-bit pattern `b`: a sign, 15 bits of exponent and 64 bits of significand with its integer bit; the
patterns the processor refuses (integer bit missing) are NaN here -/
def x87 (b : ℕ) : XNum :=
  let e : ℕ := b / 2 ^ 64 % 2 ^ 15
  let m : ℕ := b % 2 ^ 64
  let s : ℚ := if b / 2 ^ 79 % 2 = 1 then -1 else 1
  if e = 2 ^ 15 - 1 then (if m = 2 ^ 63 then .inf (b / 2 ^ 79 % 2 = 1) else .nan)
  else if e = 0 then .num (s * (m * 2 ^ (-16382 - 63 : ℤ)))
  else if m < 2 ^ 63 then .nan
  else .num (s * (m * 2 ^ ((e : ℤ) - 16383 - 63)))

end Verif
