import Verif.Lemmas.Simd
import Verif.Spec.Ieee
import Mathlib.Tactic.Linarith
import Mathlib.Tactic.Push

/-! # C80–C82: the vector wrappers work lane by lane -/

namespace Verif
namespace Simd

/-! ## Specification -/

/-- what is assumed of the native comparison: right on finite numbers -/
def LtFor (eb fb : ℕ) (lt : ℕ → ℕ → Bool) : Prop :=
  ∀ a b x y, ieee eb fb a = .num x → ieee eb fb b = .num y → (lt a b = true ↔ x < y)

/-- a comparison, maximum and selection of lanes by the key `val` of their contents -/
def LaneOps {α : Type} [LinearOrder α] (w : Wrap) (val : ℕ → α) : Prop :=
  ∀ x y i, lane w.b (w.cmplt x y) i = (if val (lane w.b x i) < val (lane w.b y i) then 256 ^ w.b - 1 else 0) ∧
    val (lane w.b (w.max x y) i) = max (val (lane w.b x i)) (val (lane w.b y i)) ∧
    ∀ m, (lane w.b m i = 256 ^ w.b - 1 → lane w.b (w.blend x y m) i = lane w.b y i) ∧
      (lane w.b m i = 0 → lane w.b (w.blend x y m) i = lane w.b x i)

theorem mask_decide (b : ℕ) (p : Prop) [Decidable p] : mask b (decide p) = if p then 256 ^ b - 1 else 0 := by
  unfold mask; simp only [decide_eq_true_eq]

theorem blend_of {b i : ℕ} {bl : Reg → Reg → Reg → Reg} {x y : Reg}
    (h : ∀ m p, lane b m i = mask b p → lane b (bl x y m) i = if p then lane b y i else lane b x i) (m : Reg) :
    (lane b m i = 256 ^ b - 1 → lane b (bl x y m) i = lane b y i) ∧ (lane b m i = 0 → lane b (bl x y m) i = lane b x i) :=
  ⟨fun e => h m true e, fun e => h m false e⟩

/-- **C80**, unsigned classes: `cmplt` sets exactly the lanes where the first number is less, `max` takes the greater numbers,
`blend` selects lanes by a mask. -/
theorem C80_unsigned : ∀ w ∈ [u8_32, u8_16, u16_8, u16_16, u32_8], LaneOps w (fun v => v) := by
  intro w hw
  simp only [List.mem_cons, List.not_mem_nil, or_false] at hw
  rcases hw with rfl | rfl | rfl | rfl | rfl <;> intro x y i
  · exact ⟨(lane_cmpgtU (Nat.succ_pos _) _ _ _).trans (mask_decide _ _), lane_maxU (Nat.succ_pos _) _ _ _,
      blend_of fun m p h => lane_blend1 h _ _⟩
  · exact ⟨(lane_cmpgtU (Nat.succ_pos _) _ _ _).trans (mask_decide _ _), lane_maxU (Nat.succ_pos _) _ _ _,
      blend_of fun m p h => lane_blend1 h _ _⟩
  · exact ⟨(lane_cmpltU16 _ _ _).trans (mask_decide _ _), lane_maxU (Nat.succ_pos _) _ _ _, blend_of fun m p h => lane_blend1 h _ _⟩
  · exact ⟨(lane_cmpgtU (Nat.succ_pos _) _ _ _).trans (mask_decide _ _), lane_maxU (Nat.succ_pos _) _ _ _,
      blend_of fun m p h => lane_blend1 h _ _⟩
  · exact ⟨(lane_cmpgtU (Nat.succ_pos _) _ _ _).trans (mask_decide _ _), lane_maxU (Nat.succ_pos _) _ _ _,
      blend_of fun m p h => lane_blendv_mask (Nat.succ_pos _) h _ _⟩

example : u16_8 ∈ [u8_32, u8_16, u16_8, u16_16, u32_8] ∧
    lane 2 (u16_8.cmplt (ofLanes 2 fun i => 300 * i) (ofLanes 2 fun i => 100 * i + 400)) 1 = 65535 ∧
    lane 2 (u16_8.cmplt (ofLanes 2 fun i => 300 * i) (ofLanes 2 fun i => 100 * i + 400)) 2 = 0 :=
  ⟨by simp, by decide +kernel, by decide +kernel⟩

/-- **C80**, signed classes -/
theorem C80_signed : ∀ w ∈ [i8_32, i8_16, i16_8, i16_16, i32_4, i32_8], LaneOps w (fun v => wrapS (8 * w.b) v) := by
  intro w hw
  simp only [List.mem_cons, List.not_mem_nil, or_false] at hw
  rcases hw with rfl | rfl | rfl | rfl | rfl | rfl <;> intro x y i
  · exact ⟨(lane_cmpgtS (Nat.succ_pos _) _ _ _).trans (mask_decide _ _), lane_maxS (Nat.succ_pos _) _ _ _,
      blend_of fun m p h => lane_blend1 h _ _⟩
  · exact ⟨(lane_cmpgtS (Nat.succ_pos _) _ _ _).trans (mask_decide _ _), lane_maxS (Nat.succ_pos _) _ _ _,
      blend_of fun m p h => lane_blend1 h _ _⟩
  · exact ⟨(lane_cmpgtS (Nat.succ_pos _) _ _ _).trans (mask_decide _ _), lane_maxS (Nat.succ_pos _) _ _ _,
      blend_of fun m p h => lane_blend1 h _ _⟩
  · exact ⟨(lane_cmpgtS (Nat.succ_pos _) _ _ _).trans (mask_decide _ _), lane_maxS (Nat.succ_pos _) _ _ _,
      blend_of fun m p h => lane_blend1 h _ _⟩
  · exact ⟨(lane_cmpgtS (Nat.succ_pos _) _ _ _).trans (mask_decide _ _), lane_maxS (Nat.succ_pos _) _ _ _,
      blend_of fun m p h => lane_blendv_mask (Nat.succ_pos _) h _ _⟩
  · exact ⟨(lane_cmpgtS (Nat.succ_pos _) _ _ _).trans (mask_decide _ _), lane_maxS (Nat.succ_pos _) _ _ _,
      blend_of fun m p h => lane_blendv_mask (Nat.succ_pos _) h _ _⟩

example : lane 1 (i8_32.cmplt (ofLanes 1 fun i => 200 + i) (ofLanes 1 fun _ => 5)) 3 = 255 ∧
    lane 1 (i8_32.max (ofLanes 1 fun i => 200 + i) (ofLanes 1 fun _ => 5)) 3 = 5 := ⟨by decide +kernel, by decide +kernel⟩

/-- a comparison, maximum and selection of lanes holding finite floats -/
def LaneOpsF (eb fb : ℕ) (w : Wrap) : Prop :=
  ∀ x y i, (∀ a b, ieee eb fb (lane w.b x i) = .num a → ieee eb fb (lane w.b y i) = .num b →
      lane w.b (w.cmplt x y) i = (if a < b then 256 ^ w.b - 1 else 0) ∧ ieee eb fb (lane w.b (w.max x y) i) = .num (max a b)) ∧
    ∀ m, (lane w.b m i = 256 ^ w.b - 1 → lane w.b (w.blend x y m) i = lane w.b y i) ∧
      (lane w.b m i = 0 → lane w.b (w.blend x y m) i = lane w.b x i)

theorem laneOpsF {eb fb n k : ℕ} {lt : ℕ → ℕ → Bool} (hl : LtFor eb fb lt) (hn : 0 < n) :
    LaneOpsF eb fb ⟨n, k, maxF n lt, cmpltF n lt, blendv n⟩ := by
  intro x y i
  refine ⟨?_, blend_of fun m p h => lane_blendv_mask hn h _ _⟩
  intro a b ha hb
  dsimp only at ha hb ⊢
  constructor
  · rw [lane_cmpltF hn]
    unfold mask
    simp only [hl _ _ _ _ ha hb]
  · unfold maxF
    rw [lane_ofLanes hn]
    have h1 := hl _ _ _ _ hb ha
    split_ifs with hc
    · rw [Nat.mod_eq_of_lt (lane_lt _ _ _), ha, max_eq_left (h1.1 hc).le]
    · rw [Nat.mod_eq_of_lt (lane_lt _ _ _), hb, max_eq_right (not_lt.1 fun h => hc (h1.2 h))]

/-- **C80**, floating point classes, on finite numbers, with any comparison that is right on them -/
theorem C80_float {ltf ltd : ℕ → ℕ → Bool} (hf : LtFor 8 23 ltf) (hd : LtFor 11 52 ltd) :
    LaneOpsF 8 23 (f_4 ltf) ∧ LaneOpsF 8 23 (f_8 ltf) ∧ LaneOpsF 11 52 (d_2 ltd) ∧ LaneOpsF 11 52 (d_4 ltd) :=
  ⟨laneOpsF hf (Nat.succ_pos _), laneOpsF hf (Nat.succ_pos _), laneOpsF hd (Nat.succ_pos _), laneOpsF hd (Nat.succ_pos _)⟩

/-- the value of a finite number, zero otherwise -/
def finVal (eb fb : ℕ) (v : ℕ) : ℚ := match ieee eb fb v with | .num x => x | _ => 0

theorem finVal_eq {eb fb v : ℕ} {x : ℚ} (h : ieee eb fb v = .num x) : finVal eb fb v = x := by unfold finVal; rw [h]

/-- such comparisons exist -/
example (eb fb : ℕ) : LtFor eb fb (fun a b => decide (finVal eb fb a < finVal eb fb b)) := by
  intro a b x y ha hb
  dsimp only
  rw [finVal_eq ha, finVal_eq hb, decide_eq_true_eq]

/-! ## Index registers -/

/-- index `i` of an array of registers of eight 32-bit indices -/
def idx (o : ℕ → Reg) (i : ℕ) : ℕ := lane 4 (o (i / 8)) (i % 8)

theorem blend_idx {m : Reg} {i : ℕ} {p : Bool} (h : lane 4 m i = mask 4 p) (o y : Reg) :
    lane 4 (blendv 4 o y m) i = if p then lane 4 y i else lane 4 o i := lane_blendv_mask (by norm_num) h o y

/-- the four masks of `blendindex8` -/
theorem mask8 {c : Reg} {k i : ℕ} (hk : k = 0 ∨ k = 8) (hi : i < 8) {p : Bool} (h : lane 1 c (k + i) = mask 1 p)
    {r : Reg} (hr : r = if k = 0 then mergelowhigh (cvtTo32 1 c) (cvtTo32 1 (srli128 c 4)) else
      mergelowhigh (cvtTo32 1 (srli128 c 8)) (cvtTo32 1 (srli128 c 12))) : lane 4 r i = mask 4 p := by
  rw [hr]
  have s : ∀ n j, j + n < 16 → lane 1 (srli128 c n) j = lane 1 c (j + n) := by
    intro n j hj
    have := lane_srli (b := 1) c (n := n) (i := j) (by omega)
    rwa [Nat.one_mul] at this
  rcases hk with rfl | rfl
  · rw [if_pos rfl, lane_merge _ _ hi]
    rw [Nat.zero_add] at h
    split_ifs with h4
    · exact lane_cvt (by norm_num) (by norm_num) _ h
    · refine lane_cvt (by norm_num) (by norm_num) _ ?_
      rw [s _ _ (by omega), show i - 4 + 4 = i by omega, h]
  · rw [if_neg (by norm_num), lane_merge _ _ hi]
    split_ifs with h4
    · refine lane_cvt (by norm_num) (by norm_num) _ ?_
      rw [s _ _ (by omega), show i + 8 = 8 + i by omega, h]
    · refine lane_cvt (by norm_num) (by norm_num) _ ?_
      rw [s _ _ (by omega), show i - 4 + 12 = 8 + i by omega, h]

/-- **C81**, `simd_u8_32` and `simd_i8_32`: index `i` is replaced exactly where lane `i` of the mask is set. -/
theorem C81_index8 (o y : ℕ → Reg) (m : Reg) {i : ℕ} (hi : i < 32) :
    (lane 1 m i = 255 → idx (blendindex8 o y m) i = idx y i) ∧ (lane 1 m i = 0 → idx (blendindex8 o y m) i = idx o i) := by
  have key : ∀ p, lane 1 m i = mask 1 p → idx (blendindex8 o y m) i = if p then idx y i else idx o i := by
    intro p h
    have hlow : ∀ {k}, k < 16 → lane 1 (low128 m) k = lane 1 m k := fun hk => lane_low m (by omega)
    have hhigh : ∀ {k}, k < 16 → lane 1 (gethigh m) k = lane 1 m (k + 16) := fun hk => lane_high m (by omega) (by norm_num)
    have h8 : i % 8 < 8 := Nat.mod_lt _ (by norm_num)
    unfold idx
    have hq : i / 8 = 0 ∨ i / 8 = 1 ∨ i / 8 = 2 ∨ i / 8 = 3 := by omega
    rcases hq with hq | hq | hq | hq <;> rw [hq]
    · exact blend_idx (mask8 (c := low128 m) (k := 0) (.inl rfl) h8 (p := p) (by
        rw [hlow (by omega), ← h]; congr 1; omega) rfl) _ _
    · exact blend_idx (mask8 (c := low128 m) (k := 8) (.inr rfl) h8 (p := p) (by
        rw [hlow (by omega), ← h]; congr 1; omega) rfl) _ _
    · exact blend_idx (mask8 (c := gethigh m) (k := 0) (.inl rfl) h8 (p := p) (by
        rw [hhigh (by omega), ← h]; congr 1; omega) rfl) _ _
    · exact blend_idx (mask8 (c := gethigh m) (k := 8) (.inr rfl) h8 (p := p) (by
        rw [hhigh (by omega), ← h]; congr 1; omega) rfl) _ _
  exact ⟨fun h => key true h, fun h => key false h⟩

example : lane 1 (u8_32.cmplt (ofLanes 1 fun _ => 20) (ofLanes 1 fun i => i)) 29 = 255 ∧
    idx (blendindex8 (fun _ => set1 4 0) (fun _ => set1 4 7) (u8_32.cmplt (ofLanes 1 fun _ => 20) (ofLanes 1 fun i => i))) 29 = 7 :=
  ⟨by decide +kernel, by decide +kernel⟩

/-- **C81**, the classes of 32-bit lanes -/
theorem C81_index32 (o y m : Reg) (i : ℕ) :
    (lane 4 m i = 2 ^ 32 - 1 → lane 4 (blendindex32 o y m) i = lane 4 y i) ∧
    (lane 4 m i = 0 → lane 4 (blendindex32 o y m) i = lane 4 o i) :=
  ⟨fun h => blend_idx (p := true) h _ _, fun h => blend_idx (p := false) h _ _⟩

example : lane 4 (ofLanes 4 fun i => mask 4 (i = 5)) 5 = 2 ^ 32 - 1 ∧ lane 4 (ofLanes 4 fun i => mask 4 (i = 5)) 6 = 0 ∧
    lane 4 (blendindex32 (set1 4 0) (set1 4 7) (ofLanes 4 fun i => mask 4 (i = 5))) 5 = 7 ∧
    lane 4 (blendindex32 (set1 4 0) (set1 4 7) (ofLanes 4 fun i => mask 4 (i = 5))) 6 = 0 := by decide +kernel

/-- the low half of a mask of eight bytes -/
theorem lane_half {m : Reg} {i : ℕ} {p : Bool} (h : lane 8 m i = mask 8 p) : lane 4 m (2 * i) = mask 4 p :=
  mask_of_bytes fun j hj => by
    have := mask_bytes h (show j < 8 by omega)
    rw [← this]; congr 1; omega

theorem lane_half' {m : Reg} {i : ℕ} {p : Bool} (h : lane 8 m i = mask 8 p) : lane 4 m (2 * i + 1) = mask 4 p :=
  mask_of_bytes fun j hj => by
    have := mask_bytes h (show j + 4 < 8 by omega)
    rw [← this]; congr 1; omega

/-- **C81**, `simd_d_4`: the four doubles of a register have four 32-bit indices. -/
theorem C81_indexD4 (o y m : Reg) {i : ℕ} (hi : i < 4) :
    (lane 8 m i = 2 ^ 64 - 1 → lane 4 (blendindexD4 o y m) i = lane 4 y i) ∧
    (lane 8 m i = 0 → lane 4 (blendindexD4 o y m) i = lane 4 o i) := by
  have key : ∀ p, lane 8 m i = mask 8 p → lane 4 (blendindexD4 o y m) i = if p then lane 4 y i else lane 4 o i := by
    intro p h
    refine blend_idx ?_ o y
    rw [lane_low _ (by omega)]
    unfold permutevar8x32
    rw [lane_ofLanes (by norm_num), Nat.mod_eq_of_lt (lane_lt _ _ _), ← lane_half h]
    congr 1
    unfold setr32
    rw [lane_ofLanes (by norm_num)]
    interval_cases i <;> rfl
  exact ⟨fun h => key true h, fun h => key false h⟩

example : lane 8 (ofLanes 8 fun i => mask 8 (i = 2)) 2 = 2 ^ 64 - 1 ∧ lane 8 (ofLanes 8 fun i => mask 8 (i = 2)) 3 = 0 ∧
    lane 4 (blendindexD4 (set1 4 0) (set1 4 7) (ofLanes 8 fun i => mask 8 (i = 2))) 2 = 7 :=
  ⟨by decide +kernel, by decide +kernel, by decide +kernel⟩

/-- what `blendindex16` does with index `i`: the upper half of each register uses the mask of the lane before -/
theorem index16 (o y : ℕ → Reg) (m : Reg) {i : ℕ} (hi : i < 16) {p : Bool}
    (h : lane 2 m (if i % 8 < 4 then i else i - 1) = mask 2 p) :
    idx (blendindex16 o y m) i = if p then idx y i else idx o i := by
  have hlow : ∀ {k}, k < 8 → lane 2 (low128 m) k = lane 2 m k := fun hk => lane_low m (by omega)
  have hhigh : ∀ {k}, k < 8 → lane 2 (gethigh m) k = lane 2 m (k + 8) := fun hk => lane_high m (by omega) (by norm_num)
  have h8 : i % 8 < 8 := Nat.mod_lt _ (by norm_num)
  have key : ∀ c : Reg, lane 2 c (if i % 8 < 4 then i % 8 else i % 8 - 1) = mask 2 p →
      lane 4 (mergelowhigh (cvtTo32 2 c) (cvtTo32 2 (srli128 c 6))) (i % 8) = mask 4 p := by
    intro c hc
    rw [lane_merge _ _ h8]
    split_ifs at hc ⊢ with h4
    · exact lane_cvt (by norm_num) (by norm_num) _ hc
    · refine lane_cvt (by norm_num) (by norm_num) _ ?_
      have := lane_srli (b := 2) c (n := 3) (i := i % 8 - 4) (by omega)
      rw [show 2 * 3 = 6 from rfl] at this
      rw [this, ← hc]; congr 1; omega
  unfold idx
  have hq : i / 8 = 0 ∨ i / 8 = 1 := by omega
  rcases hq with hq | hq <;> rw [hq]
  · refine blend_idx (key (low128 m) ?_) _ _
    rw [← h]
    split_ifs <;> rw [hlow (by omega)] <;> congr 1 <;> omega
  · refine blend_idx (key (gethigh m) ?_) _ _
    rw [← h]
    split_ifs <;> rw [hhigh (by omega)] <;> congr 1 <;> omega

/-- **C81** for `simd_i16_16` and `simd_u16_16`: indices 0 to 3 and 8 to 11 are replaced exactly where the mask is set. Missing: the
others, see below. -/
theorem C81_index16_partial (o y : ℕ → Reg) (m : Reg) {i : ℕ} (hi : i < 16) (h4 : i % 8 < 4) :
    (lane 2 m i = 65535 → idx (blendindex16 o y m) i = idx y i) ∧ (lane 2 m i = 0 → idx (blendindex16 o y m) i = idx o i) := by
  constructor
  · intro h; exact index16 (p := true) o y m hi (by rw [if_pos h4]; exact h)
  · intro h; exact index16 (p := false) o y m hi (by rw [if_pos h4]; exact h)

example : (9 : ℕ) < 16 ∧ 9 % 8 < 4 ∧ lane 2 (ofLanes 2 fun i => mask 2 (i = 9)) 9 = 65535 := ⟨by decide, by decide, by decide +kernel⟩

/-- **C81** fails for `simd_i16_16` and `simd_u16_16`: the mask is shifted by 6 instead of 8 bytes, so indices 4 to 7 and 12 to 15
follow the mask of the lane before. Wherever the masks of the two lanes differ, and the indices do, the index is wrong. -/
theorem C81_index16_wrong (o y : ℕ → Reg) (m : Reg) {i : ℕ} (hi : i < 16) (h4 : 4 ≤ i % 8) :
    (lane 2 m (i - 1) = 65535 → idx (blendindex16 o y m) i = idx y i) ∧
    (lane 2 m (i - 1) = 0 → idx (blendindex16 o y m) i = idx o i) := by
  constructor
  · intro h; exact index16 (p := true) o y m hi (by rw [if_neg (by omega)]; exact h)
  · intro h; exact index16 (p := false) o y m hi (by rw [if_neg (by omega)]; exact h)

example : lane 2 (ofLanes 2 fun i => mask 2 (i = 4)) 3 = 0 ∧ lane 2 (ofLanes 2 fun i => mask 2 (i = 4)) 4 = 65535 ∧
    idx (blendindex16 (fun _ => set1 4 0) (fun _ => set1 4 7) (ofLanes 2 fun i => mask 2 (i = 4))) 4 = 0 :=
  ⟨by decide +kernel, by decide +kernel, by decide +kernel⟩

/-- **C81** for `simd_d_2`: the first index. The second one follows the mask of the first double (the shuffle constant is `0x44`
instead of `0x88`), so it is wrong wherever the two masks differ. -/
theorem C81_indexD2_wrong (o y m : Reg) {i : ℕ} (hi : i < 2) :
    (lane 8 m 0 = 2 ^ 64 - 1 → lane 4 (blendindexD2 o y m) i = lane 4 y i) ∧
    (lane 8 m 0 = 0 → lane 4 (blendindexD2 o y m) i = lane 4 o i) := by
  have key : ∀ p, lane 8 m 0 = mask 8 p → lane 4 (blendindexD2 o y m) i = if p then lane 4 y i else lane 4 o i := by
    intro p h
    refine blend_idx ?_ o y
    unfold shuffle32
    rw [lane_ofLanes (by norm_num), Nat.mod_eq_of_lt (lane_lt _ _ _)]
    interval_cases i
    · exact lane_half h
    · exact lane_half' h
  exact ⟨fun h => key true h, fun h => key false h⟩

/-- **C81** for `simd_d_2`, first index. Missing: the second, see above. -/
theorem C81_indexD2_partial (o y m : Reg) :
    (lane 8 m 0 = 2 ^ 64 - 1 → lane 4 (blendindexD2 o y m) 0 = lane 4 y 0) ∧
    (lane 8 m 0 = 0 → lane 4 (blendindexD2 o y m) 0 = lane 4 o 0) := C81_indexD2_wrong o y m (by norm_num)

example : lane 8 (ofLanes 8 fun i => mask 8 (i = 1)) 0 = 0 ∧ lane 8 (ofLanes 8 fun i => mask 8 (i = 1)) 1 = 2 ^ 64 - 1 ∧
    lane 4 (blendindexD2 (set1 4 0) (set1 4 7) (ofLanes 8 fun i => mask 8 (i = 1))) 1 = 0 :=
  ⟨by decide +kernel, by decide +kernel, by decide +kernel⟩

/-! ## Searching for the greatest element -/

/-- the first of the greatest among the lanes `i` of the registers `l`, with its index: `v` and `k` -/
def IsArgmax {ι α : Type} [LinearOrder α] (val : ℕ → α) (b i : ℕ) (get : ι → ℕ) (l : List (Reg × ι)) (v k : ℕ) : Prop :=
  ∃ (n : ℕ) (e : Reg × ι), l[n]? = some e ∧ v = lane b e.1 i ∧ k = get e.2 ∧
    ∀ (j : ℕ) (f : Reg × ι), l[j]? = some f → val (lane b f.1 i) ≤ val v ∧ (j < n → val (lane b f.1 i) < val v)

theorem fold_argmax {ι α : Type} [LinearOrder α] {w : Wrap} {bi : ι → ι → Reg → ι} {get : ι → ℕ} {val : ℕ → α} {i : ℕ} (P : ℕ → Prop)
    (hc : ∀ x y, P (lane w.b x i) → P (lane w.b y i) →
      lane w.b (w.cmplt x y) i = if val (lane w.b x i) < val (lane w.b y i) then 256 ^ w.b - 1 else 0)
    (hb : ∀ x y m, (lane w.b m i = 256 ^ w.b - 1 → lane w.b (w.blend x y m) i = lane w.b y i) ∧
      (lane w.b m i = 0 → lane w.b (w.blend x y m) i = lane w.b x i))
    (hi : ∀ o y m, (lane w.b m i = 256 ^ w.b - 1 → get (bi o y m) = get y) ∧ (lane w.b m i = 0 → get (bi o y m) = get o))
    (h : Reg × ι) (hh : P (lane w.b h.1 i)) (l : List (Reg × ι)) (hl : ∀ e ∈ l, P (lane w.b e.1 i)) :
    P (lane w.b (l.foldl (step w bi) h).1 i) ∧
    IsArgmax val w.b i get (h :: l) (lane w.b (l.foldl (step w bi) h).1 i) (get (l.foldl (step w bi) h).2) := by
  induction l using List.reverseRecOn with
  | nil =>
    refine ⟨hh, 0, h, rfl, rfl, rfl, ?_⟩
    intro j f hf
    rw [List.getElem?_eq_some_iff] at hf
    obtain ⟨hj, hf⟩ := hf
    rw [List.length_singleton] at hj
    have : j = 0 := by omega
    subst this
    cases hf
    exact ⟨le_refl _, fun h => by omega⟩
  | append_singleton l c ih =>
    obtain ⟨hP, n, e, hn, hv, hk, ha⟩ := ih fun e he => hl e (by simp [he])
    have hcP : P (lane w.b c.1 i) := hl c (by simp)
    rw [List.foldl_append]
    simp only [List.foldl_cons, List.foldl_nil]
    set s := l.foldl (step w bi) h with hs
    have hm := hc s.1 c.1 hP hcP
    have hst : step w bi s c = (w.blend s.1 c.1 (w.cmplt s.1 c.1), bi s.2 c.2 (w.cmplt s.1 c.1)) := rfl
    rw [hst]
    dsimp only
    have hcons : ∀ j (f : Reg × ι), (h :: (l ++ [c]))[j]? = some f → (h :: l)[j]? = some f ∨ j = l.length + 1 ∧ f = c := by
      intro j f hf
      rw [← List.cons_append, List.getElem?_append] at hf
      split_ifs at hf with hj
      · exact .inl hf
      · rw [List.length_cons] at hj hf
        rw [List.getElem?_eq_some_iff] at hf
        obtain ⟨hj2, hf⟩ := hf
        rw [List.length_singleton] at hj2
        right
        refine ⟨by omega, ?_⟩
        have : j - (l.length + 1) = 0 := by omega
        simp only [this] at hf
        exact hf.symm
    have hlen : ∀ j (f : Reg × ι), (h :: l)[j]? = some f → j < l.length + 1 := by
      intro j f hf
      rw [List.getElem?_eq_some_iff] at hf
      obtain ⟨hj, _⟩ := hf
      simpa using hj
    by_cases hlt : val (lane w.b s.1 i) < val (lane w.b c.1 i)
    · rw [if_pos hlt] at hm
      rw [(hb _ _ _).1 hm, (hi _ _ _).1 hm]
      refine ⟨hcP, l.length + 1, c, ?_, rfl, rfl, ?_⟩
      · rw [← List.cons_append, List.getElem?_append]; simp
      · intro j f hf
        rcases hcons j f hf with hf | ⟨rfl, rfl⟩
        · have := (ha j f hf).1
          exact ⟨(lt_of_le_of_lt this hlt).le, fun _ => lt_of_le_of_lt this hlt⟩
        · exact ⟨le_refl _, fun h => by omega⟩
    · rw [if_neg hlt] at hm
      rw [(hb _ _ _).2 hm, (hi _ _ _).2 hm]
      refine ⟨hP, n, e, ?_, hv, hk, ?_⟩
      · have := hlen _ _ hn
        rw [← List.cons_append, List.getElem?_append, if_pos (by simpa using this)]
        exact hn
      · intro j f hf
        rcases hcons j f hf with hf | ⟨rfl, rfl⟩
        · exact ha j f hf
        · exact ⟨not_lt.1 hlt, fun h => by have := hlen _ _ hn; omega⟩

/-- **C82**, bytes: after any number of steps every lane holds the greatest of the numbers seen in it and the index that came with
the first of them. -/
theorem C82_argmax8 (h : Reg × (ℕ → Reg)) (l : List (Reg × (ℕ → Reg))) {i : ℕ} (hi : i < 32) :
    IsArgmax (fun v => v) 1 i (fun o => idx o i) (h :: l) (lane 1 (l.foldl (step u8_32 blendindex8) h).1 i)
      (idx (l.foldl (step u8_32 blendindex8) h).2 i) ∧
    IsArgmax (fun v => wrapS 8 v) 1 i (fun o => idx o i) (h :: l) (lane 1 (l.foldl (step i8_32 blendindex8) h).1 i)
      (idx (l.foldl (step i8_32 blendindex8) h).2 i) := by
  have hu := C80_unsigned u8_32 (by simp)
  have hs := C80_signed i8_32 (by simp)
  exact ⟨(fold_argmax (w := u8_32) (get := fun o => idx o i) (fun _ => True) (fun x y _ _ => (hu x y i).1) (fun x y m => (hu x y i).2.2 m)
      (fun o y m => C81_index8 o y m hi) h trivial l (fun _ _ => trivial)).2,
    (fold_argmax (w := i8_32) (val := fun v : ℕ => wrapS 8 v) (get := fun o => idx o i) (fun _ => True) (fun x y _ _ => (hs x y i).1) (fun x y m => (hs x y i).2.2 m)
      (fun o y m => C81_index8 o y m hi) h trivial l (fun _ _ => trivial)).2⟩

/-- **C82**, 32-bit integers -/
theorem C82_argmax32 (h : Reg × Reg) (l : List (Reg × Reg)) (i : ℕ) :
    IsArgmax (fun v => v) 4 i (fun o => lane 4 o i) (h :: l) (lane 4 (l.foldl (step u32_8 blendindex32) h).1 i)
      (lane 4 (l.foldl (step u32_8 blendindex32) h).2 i) ∧
    ∀ w ∈ [i32_4, i32_8], IsArgmax (fun v => wrapS 32 v) 4 i (fun o => lane 4 o i) (h :: l)
      (lane 4 (l.foldl (step w blendindex32) h).1 i) (lane 4 (l.foldl (step w blendindex32) h).2 i) := by
  have hu := C80_unsigned u32_8 (by simp)
  refine ⟨(fold_argmax (w := u32_8) (get := fun o => lane 4 o i) (fun _ => True) (fun x y _ _ => (hu x y i).1) (fun x y m => (hu x y i).2.2 m)
      (fun o y m => C81_index32 o y m i) h trivial l (fun _ _ => trivial)).2, ?_⟩
  intro w hw
  have hs := C80_signed w (by simp at hw ⊢; tauto)
  simp only [List.mem_cons, List.not_mem_nil, or_false] at hw
  rcases hw with rfl | rfl
  · exact (fold_argmax (w := i32_4) (val := fun v : ℕ => wrapS 32 v) (get := fun o => lane 4 o i) (fun _ => True) (fun x y _ _ => (hs x y i).1) (fun x y m => (hs x y i).2.2 m)
      (fun o y m => C81_index32 o y m i) h trivial l (fun _ _ => trivial)).2
  · exact (fold_argmax (w := i32_8) (val := fun v : ℕ => wrapS 32 v) (get := fun o => lane 4 o i) (fun _ => True) (fun x y _ _ => (hs x y i).1) (fun x y m => (hs x y i).2.2 m)
      (fun o y m => C81_index32 o y m i) h trivial l (fun _ _ => trivial)).2

example : idx ([(ofLanes 1 (fun _ => 9), fun _ => set1 4 1), (ofLanes 1 fun _ => 9, fun _ => set1 4 2)].foldl (step u8_32 blendindex8)
    (ofLanes 1 (fun i => i), fun _ => set1 4 0)).2 3 = 1 := by decide +kernel

/-- **C82**, floating point numbers, all finite -/
theorem C82_argmaxF {ltf ltd : ℕ → ℕ → Bool} (hf : LtFor 8 23 ltf) (hd : LtFor 11 52 ltd) (h : Reg × Reg) (l : List (Reg × Reg)) (i : ℕ) :
    (∀ w ∈ [f_4 ltf, f_8 ltf], (∀ e ∈ h :: l, ∃ x, ieee 8 23 (lane 4 e.1 i) = .num x) →
      IsArgmax (finVal 8 23) 4 i (fun o => lane 4 o i) (h :: l) (lane 4 (l.foldl (step w blendindex32) h).1 i)
        (lane 4 (l.foldl (step w blendindex32) h).2 i)) ∧
    (i < 4 → (∀ e ∈ h :: l, ∃ x, ieee 11 52 (lane 8 e.1 i) = .num x) →
      IsArgmax (finVal 11 52) 8 i (fun o => lane 4 o i) (h :: l) (lane 8 (l.foldl (step (d_4 ltd) blendindexD4) h).1 i)
        (lane 4 (l.foldl (step (d_4 ltd) blendindexD4) h).2 i)) := by
  obtain ⟨h4, h8, _, hd4⟩ := C80_float hf hd
  constructor
  · intro w hw hx
    simp only [List.mem_cons, List.not_mem_nil, or_false] at hw
    have hx' : ∀ e ∈ l, ∃ x, ieee 8 23 (lane 4 e.1 i) = .num x := fun e he => hx e (by simp [he])
    rcases hw with rfl | rfl
    · exact (fold_argmax (w := f_4 ltf) (get := fun o => lane 4 o i) (fun v => ∃ x, ieee 8 23 v = .num x)
        (fun x y ⟨a, ha⟩ ⟨b, hb⟩ => by rw [finVal_eq ha, finVal_eq hb]; exact ((h4 x y i).1 a b ha hb).1)
        (fun x y => (h4 x y i).2) (fun o y m => C81_index32 o y m i) h (hx h (by simp)) l hx').2
    · exact (fold_argmax (w := f_8 ltf) (get := fun o => lane 4 o i) (fun v => ∃ x, ieee 8 23 v = .num x)
        (fun x y ⟨a, ha⟩ ⟨b, hb⟩ => by rw [finVal_eq ha, finVal_eq hb]; exact ((h8 x y i).1 a b ha hb).1)
        (fun x y => (h8 x y i).2) (fun o y m => C81_index32 o y m i) h (hx h (by simp)) l hx').2
  · intro hi hx
    have hx' : ∀ e ∈ l, ∃ x, ieee 11 52 (lane 8 e.1 i) = .num x := fun e he => hx e (by simp [he])
    exact (fold_argmax (w := d_4 ltd) (get := fun o => lane 4 o i) (fun v => ∃ x, ieee 11 52 v = .num x)
      (fun x y ⟨a, ha⟩ ⟨b, hb⟩ => by rw [finVal_eq ha, finVal_eq hb]; exact ((hd4 x y i).1 a b ha hb).1)
      (fun x y => (hd4 x y i).2) (fun o y m => C81_indexD4 o y m hi) h (hx h (by simp)) l hx').2

/-- 3 among 1, 3 and 3: the first of them -/
example : lane 4 ([(set1 4 0x40400000, set1 4 1), (set1 4 0x40400000, set1 4 2)].foldl
      (step (f_4 fun a b => decide (a < b)) blendindex32) (set1 4 0x3f800000, set1 4 0)).2 2 = 1 ∧
    lane 4 (set1 4 0x40400000) 2 = 0x40400000 ∧ ieee 8 23 0x40400000 = .num 3 ∧ ieee 8 23 0x3f800000 = .num 1 :=
  ⟨by decide +kernel, by decide +kernel, by norm_num [ieee], by norm_num [ieee]⟩

/-- **C82** fails for the 16-bit classes: in the upper half of each index register a greater number is taken over without its index,
or a smaller number is kept with the index of the other, whenever the lane before decides differently. -/
theorem C82_argmax16_wrong (s c : Reg × (ℕ → Reg)) {i : ℕ} (hi : i < 16) (h4 : 4 ≤ i % 8) :
    (lane 2 s.1 i < lane 2 c.1 i → lane 2 c.1 (i - 1) ≤ lane 2 s.1 (i - 1) →
      lane 2 (step u16_16 blendindex16 s c).1 i = lane 2 c.1 i ∧ idx (step u16_16 blendindex16 s c).2 i = idx s.2 i) ∧
    (lane 2 c.1 i ≤ lane 2 s.1 i → lane 2 s.1 (i - 1) < lane 2 c.1 (i - 1) →
      lane 2 (step u16_16 blendindex16 s c).1 i = lane 2 s.1 i ∧ idx (step u16_16 blendindex16 s c).2 i = idx c.2 i) := by
  have hu := C80_unsigned u16_16 (by simp)
  have a := hu s.1 c.1 i
  have b := hu s.1 c.1 (i - 1)
  have hw := C81_index16_wrong s.2 c.2 (u16_16.cmplt s.1 c.1) hi h4
  constructor
  · intro h1 h2
    have a1 := a.1
    have b1 := b.1
    rw [if_pos (by exact h1)] at a1
    rw [if_neg (by exact not_lt.2 h2)] at b1
    exact ⟨(a.2.2 _).1 a1, hw.2 b1⟩
  · intro h1 h2
    have a1 := a.1
    have b1 := b.1
    rw [if_neg (by exact not_lt.2 h1)] at a1
    rw [if_pos (by exact h2)] at b1
    exact ⟨(a.2.2 _).2 a1, hw.1 b1⟩

example : idx (step u16_16 blendindex16 (ofLanes 2 (fun _ => 5), fun _ => set1 4 0) (ofLanes 2 (fun i => i + 2), fun _ => set1 4 1)).2 4 = 0 ∧
    lane 2 (step u16_16 blendindex16 (ofLanes 2 (fun _ => 5), fun _ => set1 4 0) (ofLanes 2 (fun i => i + 2), fun _ => set1 4 1)).1 4 = 6 :=
  ⟨by decide +kernel, by decide +kernel⟩

end Simd
end Verif
