/-!
# C++ integer semantics used by the model

Signed C++ values are `Int`, unsigned ones are `Nat`.  Widths are explicit.  Undefined behaviour is an
outcome (`Except UB`).  Platform facts fixed here: `int` has 32 bits, conversions to a narrower or signed type
wrap, right shift of a negative signed value is arithmetic (GCC, Clang, MSVC).
-/

namespace Verif

/-- The kinds of undefined behaviour the model distinguishes. -/
inductive UB where
  /-- shift amount negative or not below the width of the promoted left operand -/
  | shiftAmount
  /-- left shift of a negative value, or of a signed value whose result does not fit the unsigned counterpart -/
  | shiftValue
  /-- signed overflow of `+`, `-`, `*` or unary minus -/
  | overflow
  /-- `__builtin_clz(0)` -/
  | clzZero
  /-- division by zero -/
  | divZero
  deriving DecidableEq, Repr

/-- A computation that either returns a value or hits undefined behaviour. -/
abbrev M (α : Type) := Except UB α

/-- decidable equality of results, so that concrete runs can be compared with `decide` -/
instance {α : Type} [DecidableEq α] : DecidableEq (M α) := fun a b =>
  match a, b with
  | .ok x, .ok y => if h : x = y then isTrue (by rw [h]) else isFalse (fun e => h (by injection e))
  | .error x, .error y => if h : x = y then isTrue (by rw [h]) else isFalse (fun e => h (by injection e))
  | .ok _, .error _ => isFalse (fun e => by injection e)
  | .error _, .ok _ => isFalse (fun e => by injection e)

/-- Width after integer promotion: types narrower than `int` become 32-bit `int`. -/
def pw (w : Nat) : Nat := max 32 w

/-- Conversion to a signed `w`-bit type (wraps). -/
def wrapS (w : Nat) (x : Int) : Int := Int.bmod x (2 ^ w)

/-- Conversion to an unsigned `w`-bit type (wraps). -/
def wrapU (w : Nat) (x : Int) : Nat := (x % (2 ^ w : Int)).toNat

/-- `x >> n` for `x` of an unsigned `w`-bit type (after promotion the value is unchanged and non-negative). -/
def shrU (w x : Nat) (n : Int) : M Nat :=
  if n < 0 ∨ (pw w : Int) ≤ n then .error .shiftAmount else .ok (x >>> n.toNat)

/-- `x << n` for `x` of an unsigned `w`-bit type.  For `w ≥ 32` it wraps modulo `2^w`.  For `w < 32` the shift is
done in `int`: the result must fit 32 bits (C++14 [expr.shift]); it is returned modulo `2^32`, every use in the code
converts it back to at most 16 bits or keeps it non-negative. -/
def shlU (w x : Nat) (n : Int) : M Nat :=
  if n < 0 ∨ (pw w : Int) ≤ n then .error .shiftAmount
  else if w < 32 then
    (if x <<< n.toNat < 2 ^ 32 then .ok (x <<< n.toNat) else .error .shiftValue)
  else .ok ((x <<< n.toNat) % 2 ^ w)

/-- `x << n` for `x` of a signed `w`-bit type: C++14 rule, result in the promoted signed type. -/
def shlS (w : Nat) (x : Int) (n : Int) : M Int :=
  if n < 0 ∨ (pw w : Int) ≤ n then .error .shiftAmount
  else if x < 0 ∨ (2 ^ pw w : Int) ≤ x * 2 ^ n.toNat then .error .shiftValue
  else .ok (wrapS (pw w) (x * 2 ^ n.toNat))

/-- The value `x` of a signed arithmetic expression evaluated in the promoted `w`-bit type: UB on overflow. -/
def arithS (w : Nat) (x : Int) : M Int :=
  if -(2 ^ (pw w - 1) : Int) ≤ x ∧ x < 2 ^ (pw w - 1) then .ok x else .error .overflow

/-- Number of leading zero bits of a nonzero `w`-bit word. -/
def clz (w x : Nat) : Nat := w - 1 - Nat.log2 x

end Verif
