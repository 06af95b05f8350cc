import Verif.Cpp

/-!
# The vector wrappers — include/simd/asimd_base.h, asimd_8.h, asimd_16.h, asimd_32.h, asimd_f.h, asimd_d.h

A register is a function from byte numbers to bytes; the bytes from the size of the register on (16 or 32) have no meaning.
Lane `i` of width `b` bytes is the little-endian number in bytes `b*i … b*i+b-1`. The intrinsics are those of Intel's
documentation, written down for all lanes at once. The variants without AVX-512 are modelled. Memory is a function from
addresses to bytes; that the addresses may be read is not modelled.

Not modelled: `argmax_along_fit` of `simd_x_a` (asimd_base.h:269-296 uses undeclared names, does not return and assigns to
members of a constant object; its loop body is the sequence `step` below), `nonsimd` (197-198: members of numbers),
`simd_d_4_a` (asimd_d.h: functions that do not return), printing, the 512-bit registers.
-/

namespace Verif
namespace Simd

/-- `__m128i`, `__m256i`, `__m128`, … as bytes -/
abbrev Reg := Nat → BitVec 8

/-- lane `i` of `b` bytes, as an unsigned number -/
def lane : (b : Nat) → Reg → Nat → Nat
  | b, r, i => (List.range b).foldr (fun j a => (r (b * i + j)).toNat + 256 * a) 0

/-- lane `i` of `b` bytes, as a signed number -/
def slane (b : Nat) (r : Reg) (i : Nat) : Int := wrapS (8 * b) (lane b r i)

/-- the register whose lanes of `b` bytes are the numbers `f i` -/
def ofLanes (b : Nat) (f : Nat → Nat) : Reg := fun k => BitVec.ofNat 8 (f (k / b) / 256 ^ (k % b))

/-- a lane of a comparison result: all bits or none -/
def mask (b : Nat) (p : Bool) : Nat := if p then 256 ^ b - 1 else 0

/-! ## Intrinsics -/

/-- `_mm_cmpeq_epi8/16`, `_mm256_cmpeq_epi8/16/32` -/
def cmpeq (b : Nat) (x y : Reg) : Reg := ofLanes b fun i => mask b (lane b x i = lane b y i)
/-- `_mm256_cmpgt_epi8/16/32`; `_mm_cmplt_epi8/16/32` with the operands swapped -/
def cmpgtS (b : Nat) (x y : Reg) : Reg := ofLanes b fun i => mask b (slane b y i < slane b x i)
/-- `_mm_max_epu8/16`, `_mm256_max_epu8/16/32` -/
def maxU (b : Nat) (x y : Reg) : Reg := ofLanes b fun i => max (lane b x i) (lane b y i)
/-- `_mm_max_epi8/16/32`, `_mm256_max_epi8/16/32` -/
def maxS (b : Nat) (x y : Reg) : Reg := ofLanes b fun i => wrapU (8 * b) (max (slane b x i) (slane b y i))
/-- `_mm_andnot_si128`, `_mm256_andnot_si256`: the first operand is complemented -/
def andnot (x y : Reg) : Reg := fun k => ~~~ (x k) &&& y k
/-- `_mm_subs_epu16`: saturating difference -/
def subsU (b : Nat) (x y : Reg) : Reg := ofLanes b fun i => lane b x i - lane b y i
/-- `_mm_setzero_si128` -/
def zero : Reg := fun _ => 0
/-- `_mm_blendv_epi8` (`b = 1`), `_mm_blendv_ps` (4), `_mm_blendv_pd` (8) and the 256-bit versions: lanes of `y` where the top bit
of the mask lane is set, lanes of `x` elsewhere -/
def blendv (b : Nat) (x y m : Reg) : Reg := fun k => if (m (b * (k / b) + (b - 1))).msb then y k else x k
/-- `_mm_srli_si128`: shift down by `n` bytes -/
def srli128 (x : Reg) (n : Nat) : Reg := fun k => if k + n < 16 then x (k + n) else 0
/-- `_mm_cvtepi8_epi32` (`b = 1`), `_mm_cvtepi16_epi32` (2): the low four lanes, sign extended -/
def cvtTo32 (b : Nat) (x : Reg) : Reg := ofLanes 4 fun i => wrapU 32 (slane b x i)
/-- `_mm256_castsi256_si128`: the low half -/
def low128 (x : Reg) : Reg := fun k => if k < 16 then x k else 0
/-- `_mm256_permute2f128_ps` -/
def permute2f128 (x y : Reg) (imm : Nat) : Reg := fun k =>
  let ctl := if k < 16 then imm % 16 else imm / 16
  if ctl / 8 % 2 = 1 then 0
  else match ctl % 4 with
    | 0 => x (k % 16) | 1 => x (k % 16 + 16) | 2 => y (k % 16) | _ => y (k % 16 + 16)
/-- `_mm256_insertf128_ps` -/
def insertf128 (x y : Reg) (imm : Nat) : Reg := fun k =>
  if imm % 2 = 0 then (if k < 16 then y k else x k) else (if k < 16 then x k else y (k - 16))
/-- `_mm_shuffle_epi32` -/
def shuffle32 (x : Reg) (imm : Nat) : Reg := ofLanes 4 fun i => lane 4 x (imm / 4 ^ i % 4)
/-- `_mm256_permutevar8x32_epi32` -/
def permutevar8x32 (x idx : Reg) : Reg := ofLanes 4 fun i => lane 4 x (lane 4 idx i % 8)
/-- `_mm256_setr_epi32` -/
def setr32 (l : List Nat) : Reg := ofLanes 4 fun i => l.getD i 0
/-- `_mm_add_epi32`, `_mm256_add_epi32` -/
def add32 (x y : Reg) : Reg := ofLanes 4 fun i => (lane 4 x i + lane 4 y i) % 2 ^ 32
/-- `_mm_set1_epi8/16/32` and the 256-bit versions -/
def set1 (b : Nat) (v : Int) : Reg := ofLanes b fun _ => wrapU (8 * b) v

/-- memory -/
abbrev Mem := Int → BitVec 8
/-- `_mm_loadu_si128`, `_mm256_loadu_si256`, … at address `p` -/
def loadu (m : Mem) (p : Int) : Reg := fun k => m (p + k)
/-- `_mm_storeu_si128` (`s = 16`), `_mm256_storeu_si256` (32), … at address `p` -/
def storeu (s : Nat) (m : Mem) (p : Int) (x : Reg) : Mem := fun a => if p ≤ a ∧ a < p + s then x (a - p).toNat else m a
/-- `_mm_i32gather_epi32`, `_mm256_i32gather_ps`, `_mm256_i32gather_pd`, …: lane `i` is read `scale` times the signed 32-bit index
`i` bytes behind `p` -/
def gather (b : Nat) (m : Mem) (p : Int) (idx : Reg) (scale : Nat) : Reg :=
  ofLanes b fun i => lane b (loadu m (p + slane 4 idx i * scale)) 0

/-- `_mm_cmplt_ps/pd`, `_mm256_cmp_ps/pd(x, y, 1)`, with the native comparison `lt` of bit patterns -/
def cmpltF (b : Nat) (lt : Nat → Nat → Bool) (x y : Reg) : Reg := ofLanes b fun i => mask b (lt (lane b x i) (lane b y i))
/-- `_mm_max_ps/pd`, `_mm256_max_ps/pd`: the second operand unless the first is greater -/
def maxF (b : Nat) (lt : Nat → Nat → Bool) (x y : Reg) : Reg :=
  ofLanes b fun i => if lt (lane b y i) (lane b x i) then lane b x i else lane b y i

/-! ## Helpers -/

/-- `gethigh` — include/simd/asimd_base.h:33-36 -/
def gethigh (x : Reg) : Reg := low128 (permute2f128 x x 1)
/-- `mergelowhigh` — include/simd/asimd_base.h:38-41 -/
def mergelowhigh (low high : Reg) : Reg := insertf128 low high 1
/-- `_mm256_cmpgt_epu8` (`b = 1`), `_mm256_cmpgt_epu16` (2), `_mm256_cmpgt_epu32` (4), `_mm_cmpgt_epu8` —
include/simd/asimd_base.h:43-51, 53-61, 64-72, 76-84 -/
def cmpgtU (b : Nat) (x y : Reg) : Reg := andnot (cmpeq b x y) (cmpeq b (maxU b x y) x)
/-- `_mm_cmple_epu16` — include/simd/asimd_base.h:86-91 -/
def cmpleU16 (x y : Reg) : Reg := cmpeq 2 (subsU 2 x y) zero
/-- `_mm_cmpgt_epu16` — include/simd/asimd_base.h:93-98 -/
def cmpgtU16 (x y : Reg) : Reg := andnot (cmpeq 2 x y) (cmpleU16 y x)
/-- `_mm_cmplt_epu16` — include/simd/asimd_base.h:102-107 -/
def cmpltU16 (x y : Reg) : Reg := cmpgtU16 y x
/-- `_mm_cmplt_epu8` — include/simd/asimd_base.h:110-115 -/
def cmpltU8 (x y : Reg) : Reg := cmpgtU 1 y x

/-! ## Wrapper classes -/

/-- the lane-by-lane members of a wrapper class: bytes per lane, number of lanes, `max`, `cmplt`, `blend` -/
structure Wrap where
  b : Nat
  n : Nat
  max : Reg → Reg → Reg
  cmplt : Reg → Reg → Reg
  blend : Reg → Reg → Reg → Reg

/-- `simd_i8_32` — include/simd/asimd_8.h:155-201 -/
def i8_32 : Wrap := ⟨1, 32, maxS 1, fun x y => cmpgtS 1 y x, blendv 1⟩
/-- `simd_u8_32` — include/simd/asimd_8.h:208-254 -/
def u8_32 : Wrap := ⟨1, 32, maxU 1, fun x y => cmpgtU 1 y x, blendv 1⟩
/-- `simd_u8_16` — include/simd/asimd_8.h:335-397 -/
def u8_16 : Wrap := ⟨1, 16, maxU 1, cmpltU8, blendv 1⟩
/-- `simd_i8_16` — include/simd/asimd_8.h:403-448 -/
def i8_16 : Wrap := ⟨1, 16, maxS 1, fun x y => cmpgtS 1 y x, blendv 1⟩
/-- `simd_u16_8` — include/simd/asimd_16.h:26-71 -/
def u16_8 : Wrap := ⟨2, 8, maxU 2, cmpltU16, blendv 1⟩
/-- `simd_i16_8` — include/simd/asimd_16.h:75-120 -/
def i16_8 : Wrap := ⟨2, 8, maxS 2, fun x y => cmpgtS 2 y x, blendv 1⟩
/-- `simd_i16_16` — include/simd/asimd_16.h:126-189 -/
def i16_16 : Wrap := ⟨2, 16, maxS 2, fun x y => cmpgtS 2 y x, blendv 1⟩
/-- `simd_u16_16` — include/simd/asimd_16.h:219-282 -/
def u16_16 : Wrap := ⟨2, 16, maxU 2, fun x y => cmpgtU 2 y x, blendv 1⟩
/-- `simd_i32_4` — include/simd/asimd_32.h:28-85 -/
def i32_4 : Wrap := ⟨4, 4, maxS 4, fun x y => cmpgtS 4 y x, blendv 4⟩
/-- `simd_i32_8` — include/simd/asimd_32.h:87-140 -/
def i32_8 : Wrap := ⟨4, 8, maxS 4, fun x y => cmpgtS 4 y x, blendv 4⟩
/-- `simd_u32_8` — include/simd/asimd_32.h:143-196 -/
def u32_8 : Wrap := ⟨4, 8, maxU 4, fun x y => cmpgtU 4 y x, blendv 4⟩
/-- `simd_f_4` — include/simd/asimd_f.h:25-74 -/
def f_4 (lt : Nat → Nat → Bool) : Wrap := ⟨4, 4, maxF 4 lt, cmpltF 4 lt, blendv 4⟩
/-- `simd_f_8` — include/simd/asimd_f.h:85-131 -/
def f_8 (lt : Nat → Nat → Bool) : Wrap := ⟨4, 8, maxF 4 lt, cmpltF 4 lt, blendv 4⟩
/-- `simd_d_2` — include/simd/asimd_d.h:24-80 -/
def d_2 (lt : Nat → Nat → Bool) : Wrap := ⟨8, 2, maxF 8 lt, cmpltF 8 lt, blendv 8⟩
/-- `simd_d_4` — include/simd/asimd_d.h:87-141 -/
def d_4 (lt : Nat → Nat → Bool) : Wrap := ⟨8, 4, maxF 8 lt, cmpltF 8 lt, blendv 8⟩

/-- `simd_u8_32::blendindex`, `simd_i8_32::blendindex` — include/simd/asimd_8.h:259-289, 292-322: four index registers -/
def blendindex8 (o y : Nat → Reg) (m : Reg) : Nat → Reg :=
  let cur := low128 m
  let mask0 := mergelowhigh (cvtTo32 1 cur) (cvtTo32 1 (srli128 cur 4))
  let mask1 := mergelowhigh (cvtTo32 1 (srli128 cur 8)) (cvtTo32 1 (srli128 cur 12))
  let cur := gethigh m
  let mask2 := mergelowhigh (cvtTo32 1 cur) (cvtTo32 1 (srli128 cur 4))
  let mask3 := mergelowhigh (cvtTo32 1 (srli128 cur 8)) (cvtTo32 1 (srli128 cur 12))
  fun q => match q with
    | 0 => blendv 4 (o 0) (y 0) mask0
    | 1 => blendv 4 (o 1) (y 1) mask1
    | 2 => blendv 4 (o 2) (y 2) mask2
    | 3 => blendv 4 (o 3) (y 3) mask3
    | q => o q
/-- `simd_i16_16::blendindex`, `simd_u16_16::blendindex` — include/simd/asimd_16.h:194-216, 287-309: two index registers -/
def blendindex16 (o y : Nat → Reg) (m : Reg) : Nat → Reg :=
  let cur := low128 m
  let mask0 := mergelowhigh (cvtTo32 2 cur) (cvtTo32 2 (srli128 cur 6))
  let cur := gethigh m
  let mask1 := mergelowhigh (cvtTo32 2 cur) (cvtTo32 2 (srli128 cur 6))
  fun q => match q with
    | 0 => blendv 4 (o 0) (y 0) mask0
    | 1 => blendv 4 (o 1) (y 1) mask1
    | q => o q
/-- `blendindex` of `simd_i32_8`, `simd_u32_8`, `simd_i32_4`, `simd_f_4`, `simd_f_8` — include/simd/asimd_32.h:321-335,
include/simd/asimd_f.h:77-80, 134-137: one index register -/
def blendindex32 (o y m : Reg) : Reg := blendv 4 o y m
/-- `simd_d_2::blendindex` — include/simd/asimd_d.h:68-76 -/
def blendindexD2 (o y m : Reg) : Reg := blendv 4 o y (shuffle32 m 0x44)
/-- `simd_d_4::blendindex` — include/simd/asimd_d.h:130-138 -/
def blendindexD4 (o y m : Reg) : Reg := blendv 4 o y (low128 (permutevar8x32 m (setr32 [0, 2, 4, 6, 0, 2, 4, 6])))

/-- one step of the search for the greatest element and its index, as in the loop of `argmax_along_fit` —
include/simd/asimd_base.h:281-287: compare with the new elements, take over the greater ones and their indices -/
def step (w : Wrap) {ι : Type} (blendindex : ι → ι → Reg → ι) (s : Reg × ι) (cur : Reg × ι) : Reg × ι :=
  let m := w.cmplt s.1 cur.1
  (w.blend s.1 cur.1 m, blendindex s.2 cur.2 m)

/-! ## Loading -/

/-- `initincrement` — e.g. include/simd/asimd_32.h:69-75, asimd_8.h:176-182: `a[i] = i*x` for `i < n`, then `load`. The product is
an `int` except for `uint32_t`, where it is unsigned. -/
def initIncrement (b : Nat) (signed : Bool) (n : Nat) (x : Int) : M Reg := do
  let a ← (List.range n).mapM fun (i : Nat) =>
    if b = 4 ∧ signed = false then Except.ok (((i : Int) * x) % 2 ^ 32) else arithS 32 (i * x)
  return ofLanes b fun i => wrapU (8 * b) (a.getD i 0)

/-- `initgather` for classes with `WithGather` — include/simd/asimd_base.h:162-166: `stride*sizeof(type)` is computed in `size_t`
and passed as an `int32_t`; `n` is the number of lanes of the index type -/
def initGather (b n : Nat) (stride : Int) : M Reg := initIncrement 4 true n (wrapS 32 (wrapU 64 (wrapU 64 stride * b)))

/-- `loadstrided` for `NoGather` — include/simd/asimd_base.h:125-137 -/
def loadStrided (b n : Nat) (m : Mem) (p : Int) (stride : Int) : Reg :=
  if stride = 1 then loadu m p
  else ofLanes b fun i => if i < n then lane b (loadu m (p + stride * b * i)) 0 else 0

/-- `loadstrided` for `WithGather` — include/simd/asimd_base.h:142-153, with the `gather` members (asimd_32.h:49, 106, 162,
asimd_f.h:45, 105, asimd_d.h:45, 107): scale 1 -/
def loadStridedG (b : Nat) (m : Mem) (p : Int) (stride : Int) (pregather : Reg) : Reg :=
  if stride = 1 then loadu m p else gather b m p pregather 1

/-- `simd_i32_8_a::load` — include/simd/asimd_32.h:290-294; `simd_x_a::load` — include/simd/asimd_base.h:307-311 with registers of
`isize` elements of `b` bytes -/
def loadArr (b isize : Nat) (m : Mem) (p : Int) : Nat → Reg := fun q => loadu m (p + q * (b * isize : Nat))
/-- `simd_i32_8_a::store` — include/simd/asimd_32.h:296-300; `simd_x_a::store` — include/simd/asimd_base.h:313-317 -/
def storeArr (b isize n : Nat) (m : Mem) (p : Int) (x : Nat → Reg) : Mem :=
  (List.range n).foldl (fun m (q : Nat) => storeu (b * isize) m (p + q * (b * isize : Nat)) (x q)) m
/-- `simd_i32_8_a::operator+=` — include/simd/asimd_32.h:302-307 -/
def addArr (x y : Nat → Reg) : Nat → Reg := fun q => add32 (x q) (y q)

end Simd
end Verif
