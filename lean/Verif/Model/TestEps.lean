import Verif.Model.Posit10Gen

/-!
# tests/testeps.cpp

A script for an interactive compiler: it adds a small number to one and subtracts it from one in `posit10`, and converts the sum
and the difference of the doubles. The last two of the printed names (`adiffe`, `asume`, lines 23 and 25) are not declared; the
declared `adiff_f` and `asum_f` are taken for them here. The operands are parameters.
-/

namespace Verif

/-- the declared variables — tests/testeps.cpp:14-19 -/
structure TestEps where
  a : Int
  a1 : Int
  adiff : Int
  adiffF : Int
  asum : Int
  asumF : Int
deriving DecidableEq

/-- the script — tests/testeps.cpp:13-19: `x`, `d`, `s` are the doubles 0.00001, 1.0-0.0001 and 1.0+0.0001 -/
def testEps (o : FloatOps) (x d s : Nat) : M TestEps := do
  let a ← Posit10.ofDouble x
  let a1 ← Posit10.ofDouble 0x3ff0000000000000
  let adiff ← Posit10.sub o a1 a
  let adiffF ← Posit10.ofDouble d
  let asum ← Posit10.add o a1 a
  let asumF ← Posit10.ofDouble s
  return ⟨a, a1, adiff, adiffF, asum, asumF⟩

end Verif
