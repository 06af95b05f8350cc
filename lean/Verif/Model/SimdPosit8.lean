import Verif.Model.Tabulated

/-!
# 32 tabulated posits in a vector register — include/simdposit8.hpp, src/simdposit8.cpp

A 256-bit register is its 32 lanes, each an 8-bit pattern read as a signed number. The tables are those of `posit8`
(src/posit8_tbl.cpp); the header declares them as `uint8_t`, which are the same bytes. Lanes of comparison results are
the masks 0 and -1. Not modelled: printing.
-/

namespace Verif
namespace SimdPosit8

/-- `__m256i` as 32 lanes of 8 bits -/
abbrev Vec := Fin 32 → Int

/-- `FPT` — include/simdposit8.hpp:18-23, 74: `Posit<int8_t,8,2,uint16_t,WithNan>`; the header sets `esbits` to 2. -/
def cfg : Cfg := ⟨8, 8, 2, 16, .withNan⟩

/-- `lookup1` — include/simdposit8.hpp:48-57 -/
def lookup1 (a : Vec) (tab : List Nat) : Vec := fun i => wrapS 8 (tabGet 8 256 tab (wrapU 8 (a i)))
/-- `lookup2` — include/simdposit8.hpp:59-70 -/
def lookup2 (a b : Vec) (tab : List Nat) : Vec := fun i => wrapS 8 (tabGet 8 256 tab (wrapU 8 (a i) * 256 + wrapU 8 (b i)))

/-- `_mm256_set1_epi8` -/
def set1 (x : Int) : Vec := fun _ => wrapS 8 x
/-- a lane of a comparison result -/
def mask (b : Bool) : Int := if b then -1 else 0
/-- `_mm256_cmpgt_epi8` -/
def cmpgt (a b : Vec) : Vec := fun i => mask (b i < a i)
/-- `_mm256_cmpeq_epi8` -/
def cmpeq (a b : Vec) : Vec := fun i => mask (a i = b i)
/-- `_mm256_and_si256` -/
def and (a b : Vec) : Vec := fun i => wrapS 8 (wrapU 8 (a i) &&& wrapU 8 (b i) : Nat)
/-- `_mm256_or_si256` -/
def or (a b : Vec) : Vec := fun i => wrapS 8 (wrapU 8 (a i) ||| wrapU 8 (b i) : Nat)
/-- `_mm256_sign_epi8(a, b)`: `a`, `0` or `-a` (wrapped) by the sign of `b` -/
def sign (a b : Vec) : Vec := fun i => if b i < 0 then wrapS 8 (-(a i)) else if b i = 0 then 0 else a i

/-- `simd_posit8_32(int)` — include/simdposit8.hpp:83, src/simdposit8.cpp:16-21 -/
def ofInt (a : Int) : M Vec := do let q ← Posit.ofInt cfg a; return set1 q
/-- `simd_posit8_32(float)` — include/simdposit8.hpp:82, src/simdposit8.cpp:23-28 -/
def ofFloat (bits : Nat) : M Vec := do let q ← Posit.ofFloat cfg .single bits; return set1 q

/-- `is_negative()` — include/simdposit8.hpp:88 -/
def isNegative (v : Vec) : Vec := cmpgt (set1 0) v
/-- `has_neg_exponent()` — include/simdposit8.hpp:89 -/
def hasNegExponent (v : Vec) : Vec := cmpeq (set1 0) (and (set1 0x40) v)
/-- `is_nan()` — include/simdposit8.hpp:90 -/
def isNan (v : Vec) : Vec := cmpeq (set1 (-128)) v
/-- `is_infinity()` — include/simdposit8.hpp:91 -/
def isInfinity (v : Vec) : Vec :=
  if cfg.spec ≠ .withInf then or (cmpeq (set1 (-127)) v) (cmpeq (set1 127) v) else cmpeq (set1 (-128)) v

/-- `inv()` — include/simdposit8.hpp:93, 144 -/
def inv (v : Vec) : Vec := lookup1 v Posit8.opinvTab
/-- `exp2()` — include/simdposit8.hpp:97, 148 -/
def exp2 (v : Vec) : Vec := lookup1 v Posit8.opexp2Tab
/-- `square()` — include/simdposit8.hpp:98, 142 -/
def square (v : Vec) : Vec := lookup1 v Posit8.opsquareTab
/-- `operator-()` — include/simdposit8.hpp:99, 146 -/
def neg (v : Vec) : Vec := sign v v
/-- `operator+` — include/simdposit8.hpp:102 -/
def add (a b : Vec) : Vec := lookup2 a b Posit8.opaddTab
/-- `operator*` — include/simdposit8.hpp:103 -/
def mul (a b : Vec) : Vec := lookup2 a b Posit8.opmulTab
/-- `operator-` — include/simdposit8.hpp:104 -/
def sub (a b : Vec) : Vec := add a (neg b)
/-- `operator/` — include/simdposit8.hpp:105 -/
def div (a b : Vec) : Vec := lookup2 a b Posit8.opdivTab
/-- `half()` — include/simdposit8.hpp:94, 138 -/
def half (v : Vec) : M Vec := do let t ← ofInt 2; return div v t
/-- `twice()` — include/simdposit8.hpp:95, 140 -/
def twice (v : Vec) : M Vec := do let t ← ofInt 2; return mul v t
/-- `operator std::array<float,32>` — src/simdposit8.cpp:56-83 -/
def toFloats (v : Vec) : Fin 32 → Nat := fun i => tabGet 32 256 Posit8.op2floatTab (wrapU 8 (v i))
/-- `gauss2` — include/simdposit8.hpp:150-154 -/
def gauss2 (x mu sigma : Vec) : M Vec := do
  let h ← half (square (div (sub x mu) sigma))
  return exp2 (neg h)

end SimdPosit8
end Verif
