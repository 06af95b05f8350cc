import Verif.Model.Posit
import Verif.Model.FloatConv
import Verif.Model.Posit8Tbl
import Verif.Model.Posit12Tbl

/-!
# The tabulated classes `posit8`, `posit10` and `posit12`

include/posit8.hpp, include/posit10.hpp, include/posit12.hpp, src/posit8.cpp, src/posit10.cpp, src/posit12.cpp and the two
committed table files.  The tables of `posit10` are not in the repository (a generator writes them at build time), so only
what the class says without them is modelled.  A pattern is the value of the member `v`; `float` values are bit patterns.
-/

namespace Verif

/-- Element `i` of a C array of unsigned `w`-bit elements transcribed with `cols` elements to a literal. -/
def tabGet (w cols : Nat) (rows : List Nat) (i : Nat) : Nat := (rows.getD (i / cols) 0 >>> (w * (i % cols))) % 2 ^ w

namespace Posit8

/-- `FPT` — include/posit8.hpp:20-23, 52: `Posit<int8_t,8,0,uint8_t,WithNan>`. -/
def cfg : Cfg := ⟨8, 8, 0, 8, .withNan⟩

/-- `uu()` — include/posit8.hpp:109. -/
def uu (v : Int) : Nat := (v % 256).toNat

/-- `posit8ns::op…[i]` with one index: an `int8_t` array. -/
def at1 (t : List Nat) (v : Int) : Int := wrapS 8 (tabGet 8 256 t (uu v))
/-- `posit8ns::op…[a.uu()*256+b.uu()]`: an `int8_t` array. -/
def at2 (t : List Nat) (a b : Int) : Int := wrapS 8 (tabGet 8 256 t (uu a * 256 + uu b))

/-- `operator-()` — include/posit8.hpp:91: `-v` is an `int` and is converted to `int8_t`. -/
def neg (v : Int) : Int := wrapS 8 (-v)
/-- `inv()` — include/posit8.hpp:86. -/
def inv (v : Int) : Int := at1 opinvTab v
/-- `half()` — include/posit8.hpp:87. -/
def half (v : Int) : Int := at1 ophalfTab v
/-- `exp2()` — include/posit8.hpp:89. -/
def exp2 (v : Int) : Int := at1 opexp2Tab v
/-- `square()` — include/posit8.hpp:90. -/
def square (v : Int) : Int := at1 opsquareTab v
/-- `operator+` — include/posit8.hpp:100. -/
def add (a b : Int) : Int := at2 opaddTab a b
/-- `operator*` — include/posit8.hpp:101. -/
def mul (a b : Int) : Int := at2 opmulTab a b
/-- `operator-` — include/posit8.hpp:102. -/
def sub (a b : Int) : Int := add a (neg b)
/-- `operator/` — include/posit8.hpp:103. -/
def div (a b : Int) : Int := at2 opdivTab a b
/-- `twice()` — src/posit8.cpp:87-98: `as_posit()*(FPT)2`. -/
def twice (v : Int) : M Int := do let t ← Posit.ofInt cfg 2; Posit.mul cfg v t
/-- `operator float` — include/posit8.hpp:113, as bits. -/
def toFloat (v : Int) : Nat := tabGet 32 256 op2floatTab (uu v)

/-- `posit8(int)` — src/posit8.cpp:14-23. -/
def ofInt (a : Int) : M Int := if a = 0 then .ok 0 else if a = 1 then .ok 64 else Posit.ofInt cfg a
/-- `posit8(float)` — src/posit8.cpp:25-34; `a == 0` holds for both zeros. -/
def ofFloat (bits : Nat) : M Int :=
  if bits = 0 ∨ bits = 0x80000000 then .ok 0 else if bits = 0x3f800000 then .ok 64 else Posit.ofFloat cfg .single bits
/-- `posit8(double)` — src/posit8.cpp:36-45. -/
def ofDouble (bits : Nat) : M Int :=
  if bits = 0 ∨ bits = 0x8000000000000000 then .ok 0
  else if bits = 0x3ff0000000000000 then .ok 64 else Posit.ofFloat cfg .double bits

/-- `is_negative()` — include/posit8.hpp:71. -/
def isNegative (v : Int) : Bool := v < 0
/-- `has_neg_exponent()` — include/posit8.hpp:72: `(v & 0x80) == 0`. -/
def hasNegExponent (v : Int) : Bool := uu v / 128 = 0
/-- `is_nan()` — include/posit8.hpp:73. -/
def isNan (v : Int) : Bool := cfg.spec ≠ .withInf && v = cfg.nan
/-- `is_infinity()` — include/posit8.hpp:74. -/
def isInfinity (v : Int) : Bool := v = cfg.pinf || v = cfg.ninf
/-- `max()` — include/posit8.hpp:75. -/
def max : Int := cfg.maxpos
/-- `min()` — include/posit8.hpp:76. -/
def min : Int := 1
/-- `one()` — include/posit8.hpp:77. -/
def one : Int := cfg.one
/-- `afterone()` — include/posit8.hpp:78. -/
def afterone : Int := cfg.one + 1
/-- `two()` — include/posit8.hpp:79. -/
def two : Int := 72
/-- `onehalf()` — include/posit8.hpp:81. -/
def onehalf : Int := 0x20
/-- `pinfinity()` — include/posit8.hpp:82. -/
def pinfinity : Int := cfg.pinf
/-- `nan()` — include/posit8.hpp:84. -/
def nan : Int := cfg.nan
/-- `numeric_limits<posit8>::epsilon()` — include/posit8.hpp:149. -/
def epsilon : Int := sub afterone one

/-- `operator<` — include/posit8.hpp:93. -/
def lt (a b : Int) : Bool := a < b
/-- `operator>=` — include/posit8.hpp:96. -/
def ge (a b : Int) : Bool := b ≤ a
/-- `operator==` — include/posit8.hpp:97. -/
def eq (a b : Int) : Bool := a = b
/-- `std::abs` — include/posit8.hpp:158-161. -/
def abs (v : Int) : Int := wrapS 8 (if v < 0 then -v else v)
/-- `std::min` — include/posit8.hpp:163-166. -/
def min2 (a b : Int) : Int := if a ≤ b then a else b
/-- `std::max` — include/posit8.hpp:168-171. -/
def max2 (a b : Int) : Int := if b ≤ a then a else b

end Posit8

namespace Posit10

/-- `FPT` — include/posit10.hpp:18-22, 54: `Posit<int16_t,10,2,uint16_t,WithNan>`. -/
def cfg : Cfg := ⟨16, 10, 2, 16, .withNan⟩

/-- `uu()` — include/posit10.hpp:119. -/
def uu (v : Int) : Nat := (v % 1024).toNat
/-- `operator-()` — include/posit10.hpp:100. -/
def neg (v : Int) : Int := wrapS 16 (-v)
/-- `has_neg_exponent()` — include/posit10.hpp:73: `(v & 0x100) == 0`. -/
def hasNegExponent (v : Int) : Bool := uu v / 256 % 2 = 0
/-- `is_nan()` — include/posit10.hpp:74. -/
def isNan (v : Int) : Bool := cfg.spec ≠ .withInf && v = -512
/-- `is_infinity()` — include/posit10.hpp:75. -/
def isInfinity (v : Int) : Bool := if cfg.spec ≠ .withInf then v = -511 || v = 511 else v = -512
/-- `max()` — include/posit10.hpp:76. -/
def max : Int := if cfg.spec ≠ .withInf then 510 else 511
/-- `min()` — include/posit10.hpp:77. -/
def min : Int := 1
/-- `one()` — include/posit10.hpp:78. -/
def one : Int := 0x100
/-- `two()` — include/posit10.hpp:81. -/
def two : Int := 288
/-- `onehalf()` — include/posit10.hpp:82. -/
def onehalf : Int := 0x80
/-- `pinfinity()` — include/posit10.hpp:83. -/
def pinfinity : Int := if cfg.spec ≠ .withInf then 511 else -512
/-- `nan()` — include/posit10.hpp:85. -/
def nan : Int := if cfg.spec ≠ .withInf then -512 else 0
/-- `operator<` — include/posit10.hpp:88. -/
def lt (a b : Int) : Bool := a < b
/-- `operator==` — include/posit10.hpp:92. -/
def eq (a b : Int) : Bool := a = b
/-- `std::abs` — include/posit10.hpp:163-166. -/
def abs (v : Int) : Int := wrapS 16 (if v < 0 then -v else v)
/-- `posit10(int)` — src/posit10.cpp:14-22. -/
def ofInt (a : Int) : M Int := if a = 0 then .ok 0 else if a = 1 then .ok 0x100 else Posit.ofInt cfg a
/-- `twice()` — src/posit10.cpp:86-97. -/
def twice (v : Int) : M Int := do let t ← Posit.ofInt cfg 2; Posit.mul cfg v t

end Posit10

namespace Posit12

/-- `FPT` — include/posit12.hpp:18-22, 47: `Posit<int16_t,12,2,uint16_t,WithNan>`. -/
def cfg : Cfg := ⟨16, 12, 2, 16, .withNan⟩

/-- `uu()` — include/posit12.hpp:101. -/
def uu (v : Int) : Nat := (v % 4096).toNat
/-- `posit12ns::op…[uu()]`: an `int16_t` array. -/
def at1 (t : List Nat) (v : Int) : Int := wrapS 16 (tabGet 16 64 t (uu v))
/-- `operator-()` — include/posit12.hpp:83. -/
def neg (v : Int) : Int := wrapS 16 (-v)
/-- `inv()` — include/posit12.hpp:78. -/
def inv (v : Int) : Int := at1 opinvTab v
/-- `exp2()` — include/posit12.hpp:81. -/
def exp2 (v : Int) : Int := at1 opexp2Tab v
/-- `square()` — include/posit12.hpp:82. -/
def square (v : Int) : Int := at1 opsquareTab v
/-- `half()` — src/posit12.cpp:53-66. -/
def half (v : Int) : M Int := do let t ← Posit.ofInt cfg 2; Posit.div cfg v t
/-- `twice()` — src/posit12.cpp:69-80. -/
def twice (v : Int) : M Int := do let t ← Posit.ofInt cfg 2; Posit.mul cfg v t
/-- `operator+` — include/posit12.hpp:92. -/
def add (a b : Int) : M Int := Posit.add cfg a b
/-- `operator*` — include/posit12.hpp:93. -/
def mul (a b : Int) : M Int := Posit.mul cfg a b
/-- `operator-` — include/posit12.hpp:94. -/
def sub (a b : Int) : M Int := add a (neg b)
/-- `operator/` — include/posit12.hpp:95. -/
def div (a b : Int) : M Int := Posit.div cfg a b
/-- `operator float` — include/posit12.hpp:109, as bits. -/
def toFloat (v : Int) : Nat := tabGet 32 64 op2floatTab (uu v)
/-- `has_neg_exponent()` — include/posit12.hpp:66: `(v & 0x400) == 0`. -/
def hasNegExponent (v : Int) : Bool := uu v / 1024 % 2 = 0
/-- `is_nan()` — include/posit12.hpp:67. -/
def isNan (v : Int) : Bool := cfg.spec ≠ .withInf && v = -2048
/-- `is_infinity()` — include/posit12.hpp:68. -/
def isInfinity (v : Int) : Bool := if cfg.spec ≠ .withInf then v = -2047 || v = 2047 else v = -2048
/-- `max()` — include/posit12.hpp:69. -/
def max : Int := cfg.maxpos
/-- `min()` — include/posit12.hpp:70. -/
def min : Int := 1
/-- `one()` — include/posit12.hpp:71. -/
def one : Int := 0x400
/-- `onehalf()` — include/posit12.hpp:73. -/
def onehalf : Int := 0x200
/-- `pinfinity()` — include/posit12.hpp:74. -/
def pinfinity : Int := if cfg.spec ≠ .withInf then 2047 else -2048
/-- `nan()` — include/posit12.hpp:76. -/
def nan : Int := if cfg.spec ≠ .withInf then -2048 else 0
/-- `operator<` — include/posit12.hpp:85. -/
def lt (a b : Int) : Bool := a < b
/-- `operator==` — include/posit12.hpp:89. -/
def eq (a b : Int) : Bool := a = b
/-- `std::abs` — include/posit12.hpp:142-145. -/
def abs (v : Int) : Int := wrapS 16 (if v < 0 then -v else v)
/-- `posit12(int)` — src/posit12.cpp:14-16. -/
def ofInt (a : Int) : M Int := Posit.ofInt cfg a

end Posit12

end Verif
