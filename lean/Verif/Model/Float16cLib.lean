import Verif.Model.Float16c

/-!
# Remainder and square root of half floats — include/float16native32.hpp:101-102

The C library functions are parameters, composed with the conversion of their result to the `float` that the constructor takes.
-/

namespace Verif

/-- `remainder(x, y)` and `sqrt(x)` of `float` operands, as a `float`: both overloads, that of `float` and that of `double` (which an
unqualified call may find), are covered by what is assumed of them -/
structure FloatLib where
  rem : Nat → Nat → Nat
  sqrt : Nat → Nat

namespace Float16c

/-- `rem` — include/float16native32.hpp:101 -/
def rem (l : FloatLib) (k : F16C) (a b : Nat) : Nat := ofFloat k (l.rem (toFloat k a) (toFloat k b))
/-- `sqrt` — include/float16native32.hpp:102 -/
def sqrt (l : FloatLib) (k : F16C) (a : Nat) : Nat := ofFloat k (l.sqrt (toFloat k a))

end Float16c
end Verif
