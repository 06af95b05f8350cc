import Verif.Model.Posit10Gen
import Verif.Model.Binary8Gen

/-!
# The tabulated classes, continued: the other comparisons, constants and conversions

include/posit8.hpp, include/posit10.hpp, include/posit12.hpp, include/binary8.hpp. `float` values are bit patterns. The
conversion from `float` to `double` is a parameter (`DoubleConv`, exact by the language). The conversion from `float` to
`int` is that of C++ [conv.fpint]: the fraction is dropped, and the behaviour is undefined when the result does not fit;
that outcome is reported as `UB.overflow`.
-/

namespace Verif

/-- `(int)f` for a `float` with bits `b` — the language rule used by include/posit8.hpp:115, posit10.hpp:128,
posit12.hpp:111 and binary8.hpp:115. -/
def f32ToInt (b : Nat) : M Int :=
  let e := b / 2 ^ 23 % 256
  let m := 2 ^ 23 + b % 2 ^ 23
  let mag : Nat := if e < 127 then 0 else if e < 150 then m / 2 ^ (150 - e) else m * 2 ^ (e - 150)
  let r : Int := if b / 2 ^ 31 % 2 = 1 then -(mag : Int) else mag
  if e = 255 then .error .overflow
  else if -2 ^ 31 ≤ r ∧ r < 2 ^ 31 then .ok r else .error .overflow

namespace Posit8

/-- `operator>` — include/posit8.hpp:94. -/
def gt (a b : Int) : Bool := a > b
/-- `operator<=` — include/posit8.hpp:95. -/
def le (a b : Int) : Bool := a ≤ b
/-- `operator!=` — include/posit8.hpp:98. -/
def ne (a b : Int) : Bool := a ≠ b
/-- `zero()` — include/posit8.hpp:80. -/
def zero : Int := 0
/-- `ninfinity()` — include/posit8.hpp:83. -/
def ninfinity : Int := cfg.ninf
/-- `operator double` — include/posit8.hpp:114, as bits. -/
def toDouble (d : DoubleConv) (v : Int) : Nat := d.widen (toFloat v)
/-- `operator int` — include/posit8.hpp:115. -/
def toInt (v : Int) : M Int := f32ToInt (toFloat v)

end Posit8

namespace Posit10

/-- `is_negative()` — include/posit10.hpp:72, 146-149. -/
def isNegative (v : Int) : Bool := v < 0
/-- `operator>` — include/posit10.hpp:89. -/
def gt (a b : Int) : Bool := a > b
/-- `operator<=` — include/posit10.hpp:90. -/
def le (a b : Int) : Bool := a ≤ b
/-- `operator>=` — include/posit10.hpp:91. -/
def ge (a b : Int) : Bool := a ≥ b
/-- `operator!=` — include/posit10.hpp:93. -/
def ne (a b : Int) : Bool := a ≠ b
/-- `std::min` — include/posit10.hpp:168-171. -/
def min2 (a b : Int) : Int := if le a b then a else b
/-- `std::max` — include/posit10.hpp:173-176. -/
def max2 (a b : Int) : Int := if ge a b then a else b
/-- `afterone()` — include/posit10.hpp:79. -/
def afterone : Int := 0x101
/-- `zero()` — include/posit10.hpp:80. -/
def zero : Int := 0
/-- `ninfinity()` — include/posit10.hpp:84. -/
def ninfinity : Int := if cfg.spec ≠ .withInf then -511 else -512
/-- `numeric_limits<posit10>::epsilon()` — include/posit10.hpp:156. -/
def epsilon (o : FloatOps) : M Int := sub o afterone one
/-- `operator double` — include/posit10.hpp:127, as bits. -/
def toDouble (d : DoubleConv) (v : Int) : M Nat := do let b ← toFloat v; .ok (d.widen b)
/-- `operator int` — include/posit10.hpp:128. -/
def toInt (v : Int) : M Int := do let b ← toFloat v; f32ToInt b

end Posit10

namespace Posit12

/-- `is_negative()` — include/posit12.hpp:65. -/
def isNegative (v : Int) : Bool := v < 0
/-- `operator>` — include/posit12.hpp:86. -/
def gt (a b : Int) : Bool := a > b
/-- `operator<=` — include/posit12.hpp:87. -/
def le (a b : Int) : Bool := a ≤ b
/-- `operator>=` — include/posit12.hpp:88. -/
def ge (a b : Int) : Bool := a ≥ b
/-- `operator!=` — include/posit12.hpp:90. -/
def ne (a b : Int) : Bool := a ≠ b
/-- `std::min` — include/posit12.hpp:148-151. -/
def min2 (a b : Int) : Int := if le a b then a else b
/-- `std::max` — include/posit12.hpp:153-156. -/
def max2 (a b : Int) : Int := if ge a b then a else b
/-- `afterone()` — include/posit12.hpp:72. -/
def afterone : Int := 0x401
/-- `ninfinity()` — include/posit12.hpp:75. -/
def ninfinity : Int := if cfg.spec ≠ .withInf then -2047 else -2048
/-- `numeric_limits<posit12>::epsilon()` — include/posit12.hpp:134. -/
def epsilon : M Int := sub afterone one
/-- `operator double` — include/posit12.hpp:110, as bits. -/
def toDouble (d : DoubleConv) (v : Int) : Nat := d.widen (toFloat v)
/-- `operator int` — include/posit12.hpp:111. -/
def toInt (v : Int) : M Int := f32ToInt (toFloat v)

end Posit12

namespace Binary8

/-- `operator double` — include/binary8.hpp:114, as bits. -/
def toDouble (d : DoubleConv) (v : Int) : M Nat := do let b ← toFloat v; .ok (d.widen b)
/-- `operator int` — include/binary8.hpp:115. -/
def toInt (v : Int) : M Int := do let b ← toFloat v; f32ToInt b

end Binary8
end Verif
