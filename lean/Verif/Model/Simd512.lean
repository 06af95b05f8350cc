import Verif.Model.Simd

/-!
# Registers of 512 bits and arrays of registers — include/simd/asimd_32.h:198-259, asimd_f.h:142-195, asimd_d.h:146-198, asimd_base.h:221-346

As in `Model/Simd`; the bytes from 64 on have no meaning. A comparison gives a mask register: a number with a bit per lane. An array
of `N` registers (`simd_x_a`) is a function from register numbers, of which those below `N` have a meaning.

Not modelled: `argmax_along_fit` of `simd_x_a` (see `Model/Simd`), the classes of 64 bytes (asimd_8.h:24-150), which are compiled
only with a macro that nothing defines (`WITH_AVX512VLBW`) and blend with an intrinsic that does not exist.
-/

namespace Verif
namespace Simd

/-- a mask register of `n` bits from the results of the lanes -/
def kmask (n : Nat) (p : Nat → Bool) : Nat := (List.range n).foldr (fun i a => (if p i then 2 ^ i else 0) + a) 0

/-- `_mm512_cmp_epi32_mask(x, y, 1)`: signed less-than -/
def cmpltMaskS (b n : Nat) (x y : Reg) : Nat := kmask n fun i => slane b x i < slane b y i
/-- `_mm512_cmp_ps_mask(x, y, 1)`, `_mm512_cmp_pd_mask(x, y, 1)`, with the native comparison `lt` -/
def cmpltMaskF (b n : Nat) (lt : Nat → Nat → Bool) (x y : Reg) : Nat := kmask n fun i => lt (lane b x i) (lane b y i)
/-- `_mm512_mask_blend_epi32/ps/pd`, `_mm256_mask_blend_epi32`: lanes of `y` where the bit of the mask is set -/
def maskBlend (b : Nat) (k : Nat) (x y : Reg) : Reg := ofLanes b fun i => if k.testBit i then lane b y i else lane b x i

/-- the lane-by-lane members of a wrapper class of 512 bits: bytes per lane, number of lanes, `max`, `cmplt`, `blend` (new lanes,
mask), `blendindex` (old indices, new indices, mask) -/
structure Wrap512 where
  b : Nat
  n : Nat
  max : Reg → Reg → Reg
  cmplt : Reg → Reg → Nat
  blend : Reg → Reg → Nat → Reg
  blendindex : Reg → Reg → Nat → Reg

/-- `simd_i32_16` — include/simd/asimd_32.h:200-259 -/
def i32_16 : Wrap512 := ⟨4, 16, maxS 4, cmpltMaskS 4 16, fun x y k => maskBlend 4 k x y, fun o y k => maskBlend 4 k o y⟩
/-- `simd_f_16` — include/simd/asimd_f.h:143-193 -/
def f_16 (lt : Nat → Nat → Bool) : Wrap512 :=
  ⟨4, 16, maxF 4 lt, cmpltMaskF 4 16 lt, fun x y k => maskBlend 4 k x y, fun o y k => maskBlend 4 k o y⟩
/-- `simd_d_8` — include/simd/asimd_d.h:148-198; the eight indices have 32 bits -/
def d_8 (lt : Nat → Nat → Bool) : Wrap512 :=
  ⟨8, 8, maxF 8 lt, cmpltMaskF 8 8 lt, fun x y k => maskBlend 8 k x y, fun o y k => maskBlend 4 k o y⟩

/-- one step of the search for the greatest element, as `step` of `Model/Simd` — include/simd/asimd_base.h:281-287 -/
def step512 (w : Wrap512) (s c : Reg × Reg) : Reg × Reg :=
  let k := w.cmplt s.1 c.1
  (w.blend s.1 c.1 k, w.blendindex s.2 c.2 k)

/-! ## Arrays of registers -/

/-- `simd_x_a::max` — include/simd/asimd_base.h:251-257 -/
def maxArr (w : Wrap) (x y : Nat → Reg) : Nat → Reg := fun q => w.max (x q) (y q)
/-- `simd_x_a::cmplt` — include/simd/asimd_base.h:259-265 -/
def cmpltArr (w : Wrap) (x y : Nat → Reg) : Nat → Reg := fun q => w.cmplt (x q) (y q)
/-- `simd_x_a::blend` — include/simd/asimd_base.h:340-344 -/
def blendArr (w : Wrap) (x y m : Nat → Reg) : Nat → Reg := fun q => w.blend (x q) (y q) (m q)
/-- `simd_x_a::gather` — include/simd/asimd_base.h:300-304: register `q` is gathered from `ptr + q * stride` -/
def gatherArr (b : Nat) (m : Mem) (p : Int) (idx : Nat → Reg) (stride : Int) : Nat → Reg :=
  fun q => gather b m (p + q * stride * b) (idx q) 1
/-- `simd_x_a::load` with a stride — include/simd/asimd_base.h:307-311 -/
def loadArrStride (b : Nat) (m : Mem) (p : Int) (stride : Int) : Nat → Reg := fun q => loadu m (p + q * stride * b)
/-- `simd_x_a::initincrement` — include/simd/asimd_base.h:326-332: `a[i] = i*x` for all elements, then `load` -/
def initIncrementArr (b : Nat) (signed : Bool) (n N : Nat) (x : Int) : M (Nat → Reg) := do
  let a ← (List.range (n * N)).mapM fun (i : Nat) =>
    if b = 4 ∧ signed = false then Except.ok (((i : Int) * x) % 2 ^ 32) else arithS 32 (i * x)
  return fun q => ofLanes b fun i => wrapU (8 * b) (a.getD (n * q + i) 0)

end Simd
end Verif
