import Verif.Model.Posit

/-!
# Dot products of Eigen vectors of posits (include/positeigen.h, src/maineigen.cpp)

Eigen itself is not part of the repository. `NumTraits<Posit>` (include/positeigen.h:19-45) makes `Posit` a scalar type without packet
operations, so Eigen uses the operators `*` and `+` of `Posit` for each coefficient, from the first to the last.
-/

namespace Verif.Eigen

/-- the remaining coefficients: `res = res + a_i * b_i` -/
def loop (c : Cfg) : Int → List (Int × Int) → M Int
  | s, [] => .ok s
  | s, (a, b) :: l => do
    let p ← Posit.mul c a b
    let s' ← Posit.add c s p
    loop c s' l

/-- `ap.dot(bp)`, and `ap.cwiseProduct(bp).sum()` — src/maineigen.cpp:37,53,54, over the pairs of coefficients: the first product, to which the
others are added; zero for empty vectors. -/
def dot (c : Cfg) : List (Int × Int) → M Int
  | [] => .ok 0
  | (a, b) :: l => do
    let p ← Posit.mul c a b
    loop c p l

end Verif.Eigen
