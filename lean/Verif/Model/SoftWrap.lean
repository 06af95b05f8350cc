import Mathlib.Data.Nat.Bitwise

/-!
# The C++ wrapper of Berkeley SoftFloat — include/softfloat.hpp, src/softfloat_gen.cpp, tests/testsoftfloat.cpp

The library itself is not part of the repository (.gitmodules): its functions are the fields of `SoftLib`. A `float16_t` or
`float32_t` is a struct with one field, the pattern; `float` and `double` are their patterns too, so the unions of lines 22-60 are
the identity. The objects of the two classes are their private member `value`. What the operators `<<` write is left out.
-/

namespace Verif

/-- the functions of SoftFloat of one width -/
structure SoftOps where
  add : Nat → Nat → Nat
  sub : Nat → Nat → Nat
  mul : Nat → Nat → Nat
  div : Nat → Nat → Nat
  rem : Nat → Nat → Nat
  sqrt : Nat → Nat
  mulAdd : Nat → Nat → Nat → Nat
  eq : Nat → Nat → Bool
  lt : Nat → Nat → Bool
  le : Nat → Nat → Bool
  ui32 : Nat → Nat
  i32 : Int → Nat

/-- the functions of SoftFloat that include/softfloat.hpp calls: `f16_…`, `f32_…`, and the conversions between widths -/
structure SoftLib where
  f16 : SoftOps
  f32 : SoftOps
  f16_to_f32 : Nat → Nat
  f16_to_f64 : Nat → Nat
  f32_to_f16 : Nat → Nat
  f32_to_f64 : Nat → Nat
  f64_to_f16 : Nat → Nat
  f64_to_f32 : Nat → Nat

namespace Soft16
variable (l : SoftLib)

/-- `softfloat16(uint32_t)` — include/softfloat.hpp:68 -/
def ofU32 (n : Nat) : Nat := l.f16.ui32 n
/-- `softfloat16(int32_t)` — include/softfloat.hpp:69 -/
def ofI32 (n : Int) : Nat := l.f16.i32 n
/-- `softfloat16(float)` — include/softfloat.hpp:70 with 34-39 -/
def ofFloat (f : Nat) : Nat := l.f32_to_f16 f
/-- `softfloat16(double)` — include/softfloat.hpp:71 with 41-46 -/
def ofDouble (f : Nat) : Nat := l.f64_to_f16 f
/-- `softfloat16(float32_t)` — include/softfloat.hpp:73 -/
def ofF32 (f : Nat) : Nat := l.f32_to_f16 f
/-- `softfloat16(bool, uint16_t)` — include/softfloat.hpp:74 -/
def ofBits (x : Nat) : Nat := x % 2 ^ 16
/-- `operator float` — include/softfloat.hpp:76 with 48-53 -/
def toFloat (a : Nat) : Nat := l.f16_to_f32 a
/-- `operator double` — include/softfloat.hpp:77 with 55-60 -/
def toDouble (a : Nat) : Nat := l.f16_to_f64 a
/-- `two` — include/softfloat.hpp:81 (`softfloat16(2)` calls the constructor of line 69) -/
def two : Nat := ofI32 l 2
/-- `one` — include/softfloat.hpp:82 -/
def one : Nat := ofI32 l 1
/-- `zero` — include/softfloat.hpp:83 -/
def zero : Nat := ofI32 l 0
/-- `operator+` — include/softfloat.hpp:85 -/
def add (a b : Nat) : Nat := l.f16.add a b
/-- `operator-` — include/softfloat.hpp:86 -/
def sub (a b : Nat) : Nat := l.f16.sub a b
/-- `operator*` — include/softfloat.hpp:87 -/
def mul (a b : Nat) : Nat := l.f16.mul a b
/-- `operator/` — include/softfloat.hpp:88 -/
def div (a b : Nat) : Nat := l.f16.div a b
/-- `operator+=` — include/softfloat.hpp:89, the new value of the object -/
def addAssign (this a : Nat) : Nat := add l this a
/-- `operator*=` — include/softfloat.hpp:90, the new value of the object -/
def mulAssign (this a : Nat) : Nat := mul l this a
/-- unary `operator-` — include/softfloat.hpp:92-96 -/
def neg (a : Nat) : Nat := a ^^^ 0x8000
/-- `rem` — include/softfloat.hpp:98 -/
def rem (a b : Nat) : Nat := l.f16.rem a b
/-- `sqrt` — include/softfloat.hpp:99 -/
def sqrt (a : Nat) : Nat := l.f16.sqrt a
/-- `mulAdd` — include/softfloat.hpp:100 -/
def mulAdd (a b c : Nat) : Nat := l.f16.mulAdd a b c
/-- `half` — include/softfloat.hpp:102 -/
def half (a : Nat) : Nat := div l a (two l)
/-- `square` — include/softfloat.hpp:103 -/
def square (a : Nat) : Nat := mul l a a
/-- `inv` — include/softfloat.hpp:104 -/
def inv (a : Nat) : Nat := div l (one l) a
/-- `operator==` — include/softfloat.hpp:106 -/
def eq (a b : Nat) : Bool := l.f16.eq a b
/-- `operator<` — include/softfloat.hpp:107 -/
def lt (a b : Nat) : Bool := l.f16.lt a b
/-- `operator>` — include/softfloat.hpp:108 -/
def gt (a b : Nat) : Bool := l.f16.lt b a
/-- `operator>=` — include/softfloat.hpp:109 -/
def ge (a b : Nat) : Bool := l.f16.le b a
/-- `operator<=` — include/softfloat.hpp:110 -/
def le (a b : Nat) : Bool := l.f16.le a b

/-- one entry of the table of `exp2` — src/softfloat_gen.cpp:10-17. `exp2` stands for the call of the C function of that name with
the conversion of its result to `float` (both overloads, that of `float` and that of `double`). -/
def exp2Entry (exp2 : Nat → Nat) (i : Nat) : Nat :=
  let u := i
  let uf := toFloat l u
  let ef := exp2 uf
  let efu := ofFloat l ef
  efu
/-- the table — src/softfloat_gen.cpp:7-18, written to a file and read back as `float16_opexp2` (lines 19-23) -/
def exp2Table (exp2 : Nat → Nat) : Array Nat := (Array.range 65536).map (exp2Entry l exp2)
/-- `exp2t_<softfloat16>::operator()` — tests/testsoftfloat.cpp:10-15 -/
def exp2t (exp2 : Nat → Nat) (a : Nat) : Option Nat := (exp2Table l exp2)[a]?

end Soft16

namespace Soft32
variable (l : SoftLib)

/-- `softfloat32(uint32_t)` — include/softfloat.hpp:127 -/
def ofU32 (n : Nat) : Nat := l.f32.ui32 n
/-- `softfloat32(int32_t)` — include/softfloat.hpp:128 -/
def ofI32 (n : Int) : Nat := l.f32.i32 n
/-- `softfloat32(float)` — include/softfloat.hpp:129 with 34-39 -/
def ofFloat (f : Nat) : Nat := f
/-- `softfloat32(double)` — include/softfloat.hpp:130 with 41-46 -/
def ofDouble (f : Nat) : Nat := l.f64_to_f32 f
/-- `softfloat32(float16_t)` — include/softfloat.hpp:131 -/
def ofF16 (f : Nat) : Nat := l.f16_to_f32 f
/-- `softfloat32(bool, uint32_t)` — include/softfloat.hpp:133 -/
def ofBits (x : Nat) : Nat := x % 2 ^ 32
/-- `operator float` — include/softfloat.hpp:135 with 48-53 -/
def toFloat (a : Nat) : Nat := a
/-- `operator double` — include/softfloat.hpp:136 with 55-60 -/
def toDouble (a : Nat) : Nat := l.f32_to_f64 a
/-- `two` — include/softfloat.hpp:138 (`softfloat32(2)` calls the constructor of line 128) -/
def two : Nat := ofI32 l 2
/-- `one` — include/softfloat.hpp:139 -/
def one : Nat := ofI32 l 1
/-- `zero` — include/softfloat.hpp:140 -/
def zero : Nat := ofI32 l 0
/-- `operator+` — include/softfloat.hpp:142 -/
def add (a b : Nat) : Nat := l.f32.add a b
/-- `operator-` — include/softfloat.hpp:143 -/
def sub (a b : Nat) : Nat := l.f32.sub a b
/-- `operator*` — include/softfloat.hpp:144 -/
def mul (a b : Nat) : Nat := l.f32.mul a b
/-- `operator/` — include/softfloat.hpp:145 -/
def div (a b : Nat) : Nat := l.f32.div a b
/-- `operator+=` — include/softfloat.hpp:147, the new value of the object -/
def addAssign (this a : Nat) : Nat := add l this a
/-- unary `operator-` — include/softfloat.hpp:149-153 -/
def neg (a : Nat) : Nat := a ^^^ 0x80000000
/-- `half` — include/softfloat.hpp:155 -/
def half (a : Nat) : Nat := div l a (two l)
/-- `square` — include/softfloat.hpp:156 -/
def square (a : Nat) : Nat := mul l a a
/-- `inv` — include/softfloat.hpp:157 -/
def inv (a : Nat) : Nat := div l (one l) a
/-- `rem` — include/softfloat.hpp:159 -/
def rem (a b : Nat) : Nat := l.f32.rem a b
/-- `sqrt` — include/softfloat.hpp:160 -/
def sqrt (a : Nat) : Nat := l.f32.sqrt a
/-- `mulAdd` — include/softfloat.hpp:161 -/
def mulAdd (a b c : Nat) : Nat := l.f32.mulAdd a b c
/-- `operator==` — include/softfloat.hpp:163 -/
def eq (a b : Nat) : Bool := l.f32.eq a b
/-- `operator<` — include/softfloat.hpp:164 -/
def lt (a b : Nat) : Bool := l.f32.lt a b
/-- `operator>` — include/softfloat.hpp:165 -/
def gt (a b : Nat) : Bool := l.f32.lt b a
/-- `operator>=` — include/softfloat.hpp:166 -/
def ge (a b : Nat) : Bool := l.f32.le b a
/-- `operator<=` — include/softfloat.hpp:167 -/
def le (a b : Nat) : Bool := l.f32.le a b

/-- the members of `std::numeric_limits<softfloat32>` that describe the format — include/softfloat.hpp:183-226; the values of
`single_trait` are those of include/floattraits.hpp:129-138 -/
structure Limits where
  min : Nat := 0x00800000
  max : Nat := 0x7f7fffff
  lowest : Nat := 0xff7fffff
  digits : Int := 24
  digits10 : Int := 6
  is_signed : Bool := true
  is_integer : Bool := false
  is_exact : Bool := false
  radix : Int := 2
  epsilon : Nat := 0x34000000
  min_exponent : Int := -126
  min_exponent10 : Int := -37
  max_exponent : Int := 127
  max_exponent10 : Int := 38
  has_infinity : Bool := true
  has_quiet_NaN : Bool := true
  has_signaling_NaN : Bool := false
  infinity : Nat := 0x7f800000
  quiet_NaN : Nat := 0x7fc00000
  signaling_NaN : Nat := 0x7fc00000
  denorm_min : Nat := 1

/-- `std::numeric_limits<softfloat32>` — include/softfloat.hpp:182-227 -/
def limits : Limits := {}

end Soft32
end Verif
