import Verif.Model.Simd512
import Verif.Props.Simd
import Verif.Props.SimdLoad

/-! # C103: registers of 512 bits and arrays of registers -/

namespace Verif
namespace Simd

/-! ## Mask registers -/

theorem kmask_succ (n : ℕ) (p : ℕ → Bool) : kmask (n + 1) p = kmask n p + (if p n then 2 ^ n else 0) := by
  unfold kmask
  have key : ∀ (l : List ℕ) (c : ℕ), l.foldr (fun i a => (if p i then 2 ^ i else 0) + a) c =
      l.foldr (fun i a => (if p i then 2 ^ i else 0) + a) 0 + c := by
    intro l c
    induction l with
    | nil => simp
    | cons a l ih => rw [List.foldr_cons, List.foldr_cons, ih, Nat.add_assoc]
  rw [List.range_succ, List.foldr_append, key]
  rfl

theorem kmask_lt (n : ℕ) (p : ℕ → Bool) : kmask n p < 2 ^ n := by
  induction n with
  | zero => simp [kmask]
  | succ n ih => rw [kmask_succ, pow_succ]; split_ifs <;> omega

theorem testBit_kmask (n : ℕ) (p : ℕ → Bool) (i : ℕ) : (kmask n p).testBit i = (decide (i < n) && p i) := by
  induction n with
  | zero => simp [kmask]
  | succ n ih =>
    rw [kmask_succ]
    have hlt := kmask_lt n p
    rcases Nat.lt_trichotomy i n with h | h | h
    · rw [show decide (i < n + 1) = decide (i < n) by simp [h, Nat.lt_succ_of_lt h], ← ih]
      split_ifs
      · rw [Nat.add_comm]; exact Nat.testBit_two_pow_add_gt h _
      · rw [Nat.add_zero]
    · subst h
      split_ifs with hp
      · rw [Nat.add_comm, Nat.testBit_two_pow_add_eq, Nat.testBit_lt_two_pow hlt]; simp [hp]
      · rw [Nat.add_zero, Nat.testBit_lt_two_pow hlt]; simp [hp]
    · have : kmask n p + (if p n then 2 ^ n else 0) < 2 ^ i := by
        have h1 : 2 ^ (n + 1) ≤ 2 ^ i := Nat.pow_le_pow_right (by norm_num) h
        rw [pow_succ] at h1
        split_ifs <;> omega
      rw [Nat.testBit_lt_two_pow this]
      simp; omega

theorem lane_maskBlend {b : ℕ} (hb : 0 < b) (k : ℕ) (x y : Reg) (i : ℕ) :
    lane b (maskBlend b k x y) i = if k.testBit i then lane b y i else lane b x i := by
  unfold maskBlend
  rw [lane_ofLanes hb]
  split_ifs <;> exact Nat.mod_eq_of_lt (lane_lt _ _ _)

/-! ## Comparison, maximum, selection -/

/-- what selecting with a mask register means: bit `i` selects lane `i` of the second operand -/
def SelectsBy (b n : ℕ) (f : Reg → Reg → ℕ → Reg) : Prop :=
  ∀ x y k i, i < n → lane b (f x y k) i = if k.testBit i then lane b y i else lane b x i

/-- **C103**, 32-bit integers: bit `i` of the mask (and no bit beyond the lanes) says whether lane `i` is less, `max` takes the greater
numbers, `blend` and `blendindex` select by the bits. -/
theorem C103_int (x y : Reg) {i : ℕ} (hi : i < 16) :
    ((i32_16.cmplt x y).testBit i = true ↔ slane 4 x i < slane 4 y i) ∧ i32_16.cmplt x y < 2 ^ 16 ∧
    slane 4 (i32_16.max x y) i = max (slane 4 x i) (slane 4 y i) ∧
    SelectsBy 4 16 i32_16.blend ∧ SelectsBy 4 16 i32_16.blendindex := by
  refine ⟨?_, kmask_lt _ _, lane_maxS (Nat.succ_pos _) _ _ _, fun x y k i _ => lane_maskBlend (Nat.succ_pos _) _ _ _ _,
    fun x y k i _ => lane_maskBlend (Nat.succ_pos _) _ _ _ _⟩
  have e : (i32_16.cmplt x y).testBit i = (decide (i < 16) && decide (slane 4 x i < slane 4 y i)) := testBit_kmask _ _ _
  rw [e]; simp [hi]

example : (7 : ℕ) < 16 ∧ (i32_16.cmplt (ofLanes 4 fun i => i) (ofLanes 4 fun _ => 8)) = 255 ∧
    lane 4 (i32_16.blend (set1 4 1) (set1 4 2) 0x8001) 15 = 2 := by decide +kernel

/-- comparison and maximum of lanes holding finite floats -/
def LaneOps512 (eb fb : ℕ) (w : Wrap512) : Prop :=
  ∀ x y i, i < w.n → ∀ a b, ieee eb fb (lane w.b x i) = .num a → ieee eb fb (lane w.b y i) = .num b →
    ((w.cmplt x y).testBit i = true ↔ a < b) ∧ ieee eb fb (lane w.b (w.max x y) i) = .num (max a b)

/-- **C103**, floating point classes, on finite numbers, with any comparison that is right on them -/
theorem C103_float {ltf ltd : ℕ → ℕ → Bool} (hf : LtFor 8 23 ltf) (hd : LtFor 11 52 ltd) :
    (LaneOps512 8 23 (f_16 ltf) ∧ (∀ x y, (f_16 ltf).cmplt x y < 2 ^ 16) ∧ SelectsBy 4 16 (f_16 ltf).blend ∧ SelectsBy 4 16 (f_16 ltf).blendindex) ∧
    (LaneOps512 11 52 (d_8 ltd) ∧ (∀ x y, (d_8 ltd).cmplt x y < 2 ^ 8) ∧ SelectsBy 8 8 (d_8 ltd).blend ∧ SelectsBy 4 8 (d_8 ltd).blendindex) := by
  refine ⟨⟨?_, fun _ _ => kmask_lt _ _, fun x y k i _ => lane_maskBlend (Nat.succ_pos _) _ _ _ _,
    fun x y k i _ => lane_maskBlend (Nat.succ_pos _) _ _ _ _⟩, ?_, fun _ _ => kmask_lt _ _, fun x y k i _ => lane_maskBlend (Nat.succ_pos _) _ _ _ _,
    fun x y k i _ => lane_maskBlend (Nat.succ_pos _) _ _ _ _⟩
  · intro x y i hi a b ha hb
    refine ⟨?_, ((laneOpsF (k := 16) hf (Nat.succ_pos 3) x y i).1 a b ha hb).2⟩
    have e : ((f_16 ltf).cmplt x y).testBit i = (decide (i < 16) && ltf (lane 4 x i) (lane 4 y i)) := testBit_kmask _ _ _
    have hi' : i < 16 := hi
    rw [e, decide_eq_true hi', Bool.true_and]
    exact hf _ _ _ _ ha hb
  · intro x y i hi a b ha hb
    refine ⟨?_, ((laneOpsF (k := 8) hd (Nat.succ_pos 7) x y i).1 a b ha hb).2⟩
    have e : ((d_8 ltd).cmplt x y).testBit i = (decide (i < 8) && ltd (lane 8 x i) (lane 8 y i)) := testBit_kmask _ _ _
    have hi' : i < 8 := hi
    rw [e, decide_eq_true hi', Bool.true_and]
    exact hd _ _ _ _ ha hb

/-- 1 and 3 in lane 5 -/
example : (f_16 fun a b => decide (a < b)).cmplt (set1 4 0x3f800000) (ofLanes 4 fun i => if i = 5 then 0x40400000 else 0) = 32 ∧
    lane 4 ((f_16 fun a b => decide (a < b)).max (set1 4 0x3f800000) (ofLanes 4 fun i => if i = 5 then 0x40400000 else 0)) 5 = 0x40400000 := by
  decide +kernel

/-! ## Searching for the greatest element -/

/-- the search, for any step that takes over the greater element with its index -/
theorem fold_argmax' {ι α : Type} [LinearOrder α] {b i : ℕ} {get : ι → ℕ} {val : ℕ → α} {f : Reg × ι → Reg × ι → Reg × ι} (P : ℕ → Prop)
    (hf : ∀ s c, P (lane b s.1 i) → P (lane b c.1 i) →
      lane b (f s c).1 i = (if val (lane b s.1 i) < val (lane b c.1 i) then lane b c.1 i else lane b s.1 i) ∧
      get (f s c).2 = if val (lane b s.1 i) < val (lane b c.1 i) then get c.2 else get s.2)
    (h : Reg × ι) (hh : P (lane b h.1 i)) (l : List (Reg × ι)) (hl : ∀ e ∈ l, P (lane b e.1 i)) :
    P (lane b (l.foldl f h).1 i) ∧ IsArgmax val b i get (h :: l) (lane b (l.foldl f h).1 i) (get (l.foldl f h).2) := by
  induction l using List.reverseRecOn with
  | nil =>
    refine ⟨hh, 0, h, rfl, rfl, rfl, ?_⟩
    intro j g hg
    rw [List.getElem?_eq_some_iff] at hg
    obtain ⟨hj, hg⟩ := hg
    rw [List.length_singleton] at hj
    have : j = 0 := by omega
    subst this
    cases hg
    exact ⟨le_refl _, fun h => by omega⟩
  | append_singleton l c ih =>
    obtain ⟨hP, n, e, hn, hv, hk, ha⟩ := ih fun e he => hl e (by simp [he])
    have hcP : P (lane b c.1 i) := hl c (by simp)
    rw [List.foldl_append]
    simp only [List.foldl_cons, List.foldl_nil]
    set s := l.foldl f h with hs
    obtain ⟨e1, e2⟩ := hf s c hP hcP
    have hcons : ∀ j (g : Reg × ι), (h :: (l ++ [c]))[j]? = some g → (h :: l)[j]? = some g ∨ j = l.length + 1 ∧ g = c := by
      intro j g hg
      rw [← List.cons_append, List.getElem?_append] at hg
      split_ifs at hg with hj
      · exact .inl hg
      · rw [List.length_cons] at hj hg
        rw [List.getElem?_eq_some_iff] at hg
        obtain ⟨hj2, hg⟩ := hg
        rw [List.length_singleton] at hj2
        right
        refine ⟨by omega, ?_⟩
        have : j - (l.length + 1) = 0 := by omega
        simp only [this] at hg
        exact hg.symm
    have hlen : ∀ j (g : Reg × ι), (h :: l)[j]? = some g → j < l.length + 1 := by
      intro j g hg
      rw [List.getElem?_eq_some_iff] at hg
      obtain ⟨hj, _⟩ := hg
      simpa using hj
    by_cases hlt : val (lane b s.1 i) < val (lane b c.1 i)
    · rw [if_pos hlt] at e1 e2
      rw [e1, e2]
      refine ⟨hcP, l.length + 1, c, ?_, rfl, rfl, ?_⟩
      · rw [← List.cons_append, List.getElem?_append]; simp
      · intro j g hg
        rcases hcons j g hg with hg | ⟨rfl, rfl⟩
        · have := (ha j g hg).1
          exact ⟨(lt_of_le_of_lt this hlt).le, fun _ => lt_of_le_of_lt this hlt⟩
        · exact ⟨le_refl _, fun h => by omega⟩
    · rw [if_neg hlt] at e1 e2
      rw [e1, e2]
      refine ⟨hP, n, e, ?_, hv, hk, ?_⟩
      · have := hlen _ _ hn
        rw [← List.cons_append, List.getElem?_append, if_pos (by simpa using this)]
        exact hn
      · intro j g hg
        rcases hcons j g hg with hg | ⟨rfl, rfl⟩
        · exact ha j g hg
        · exact ⟨not_lt.1 hlt, fun h => by have := hlen _ _ hn; omega⟩

/-- **C103**: after any number of steps every lane holds the greatest of the integers seen in it and the index that came with the first
of them; … -/
theorem C103_argmax (h : Reg × Reg) (l : List (Reg × Reg)) {i : ℕ} (hi : i < 16) :
    IsArgmax (fun v => wrapS 32 v) 4 i (fun o => lane 4 o i) (h :: l) (lane 4 (l.foldl (step512 i32_16) h).1 i)
      (lane 4 (l.foldl (step512 i32_16) h).2 i) := by
  refine (fold_argmax' (val := fun v : ℕ => wrapS 32 v) (get := fun o => lane 4 o i) (fun _ => True) (fun s c _ _ => ?_) h trivial l
    (fun _ _ => trivial)).2
  obtain ⟨h1, -, -, h2, h3⟩ := C103_int s.1 c.1 hi
  have e : (step512 i32_16 s c) = (i32_16.blend s.1 c.1 (i32_16.cmplt s.1 c.1), i32_16.blendindex s.2 c.2 (i32_16.cmplt s.1 c.1)) := rfl
  rw [e]
  dsimp only
  rw [h2 _ _ _ _ hi, h3 _ _ _ _ hi]
  have h1' : (i32_16.cmplt s.1 c.1).testBit i = true ↔ wrapS 32 (lane 4 s.1 i) < wrapS 32 (lane 4 c.1 i) := h1
  simp only [h1']
  exact ⟨trivial, trivial⟩

/-- … and so do the lanes of finite floats and doubles. -/
theorem C103_argmaxF {ltf ltd : ℕ → ℕ → Bool} (hf : LtFor 8 23 ltf) (hd : LtFor 11 52 ltd) (h : Reg × Reg) (l : List (Reg × Reg)) (i : ℕ) :
    (i < 16 → (∀ e ∈ h :: l, ∃ x, ieee 8 23 (lane 4 e.1 i) = .num x) →
      IsArgmax (finVal 8 23) 4 i (fun o => lane 4 o i) (h :: l) (lane 4 (l.foldl (step512 (f_16 ltf)) h).1 i)
        (lane 4 (l.foldl (step512 (f_16 ltf)) h).2 i)) ∧
    (i < 8 → (∀ e ∈ h :: l, ∃ x, ieee 11 52 (lane 8 e.1 i) = .num x) →
      IsArgmax (finVal 11 52) 8 i (fun o => lane 4 o i) (h :: l) (lane 8 (l.foldl (step512 (d_8 ltd)) h).1 i)
        (lane 4 (l.foldl (step512 (d_8 ltd)) h).2 i)) := by
  obtain ⟨⟨f1, -, f2, f3⟩, d1, -, d2, d3⟩ := C103_float hf hd
  constructor
  · intro hi hx
    refine (fold_argmax' (val := finVal 8 23) (get := fun o => lane 4 o i) (fun v => ∃ x, ieee 8 23 v = .num x) (fun s c ⟨a, ha⟩ ⟨b, hb⟩ => ?_) h
      (hx h (by simp)) l (fun e he => hx e (by simp [he]))).2
    have h1 := (f1 s.1 c.1 i hi a b ha hb).1
    have e : (step512 (f_16 ltf) s c) = ((f_16 ltf).blend s.1 c.1 ((f_16 ltf).cmplt s.1 c.1), (f_16 ltf).blendindex s.2 c.2 ((f_16 ltf).cmplt s.1 c.1)) := rfl
    rw [e]
    dsimp only
    rw [f2 _ _ _ _ hi, f3 _ _ _ _ hi, finVal_eq ha, finVal_eq hb]
    simp only [h1]
    exact ⟨trivial, trivial⟩
  · intro hi hx
    refine (fold_argmax' (val := finVal 11 52) (get := fun o => lane 4 o i) (fun v => ∃ x, ieee 11 52 v = .num x) (fun s c ⟨a, ha⟩ ⟨b, hb⟩ => ?_) h
      (hx h (by simp)) l (fun e he => hx e (by simp [he]))).2
    have h1 := (d1 s.1 c.1 i hi a b ha hb).1
    have e : (step512 (d_8 ltd) s c) = ((d_8 ltd).blend s.1 c.1 ((d_8 ltd).cmplt s.1 c.1), (d_8 ltd).blendindex s.2 c.2 ((d_8 ltd).cmplt s.1 c.1)) := rfl
    rw [e]
    dsimp only
    rw [d2 _ _ _ _ hi, d3 _ _ _ _ hi, finVal_eq ha, finVal_eq hb]
    simp only [h1]
    exact ⟨trivial, trivial⟩

example : lane 4 ([(ofLanes 4 (fun _ => 9), set1 4 1), (ofLanes 4 fun _ => 9, set1 4 2)].foldl (step512 i32_16)
    (ofLanes 4 (fun i => i), set1 4 0)).2 15 = 0 ∧
    lane 4 ([(ofLanes 4 (fun _ => 9), set1 4 1), (ofLanes 4 fun _ => 9, set1 4 2)].foldl (step512 i32_16)
    (ofLanes 4 (fun i => i), set1 4 0)).2 3 = 1 := by decide +kernel

/-! ## Arrays of registers -/

/-- element `e` of an array of registers of `n` lanes of `b` bytes -/
def elem (b n : ℕ) (x : ℕ → Reg) (e : ℕ) : ℕ := lane b (x (e / n)) (e % n)

/-- **C103**, `simd_x_a` over an integer class: `cmplt` marks exactly the lesser elements, `max` takes the greater ones, and `blend`
takes those that are marked. -/
theorem C103_array (x y : ℕ → Reg) (e : ℕ) :
    (∀ w ∈ [u8_32, u8_16, u16_8, u16_16, u32_8],
      elem w.b w.n (cmpltArr w x y) e = (if elem w.b w.n x e < elem w.b w.n y e then 256 ^ w.b - 1 else 0) ∧
      elem w.b w.n (maxArr w x y) e = max (elem w.b w.n x e) (elem w.b w.n y e) ∧
      elem w.b w.n (blendArr w x y (cmpltArr w x y)) e = max (elem w.b w.n x e) (elem w.b w.n y e)) ∧
    (∀ w ∈ [i8_32, i8_16, i16_8, i16_16, i32_4, i32_8],
      elem w.b w.n (cmpltArr w x y) e = (if wrapS (8 * w.b) (elem w.b w.n x e) < wrapS (8 * w.b) (elem w.b w.n y e) then 256 ^ w.b - 1 else 0) ∧
      wrapS (8 * w.b) (elem w.b w.n (maxArr w x y) e) = max (wrapS (8 * w.b) (elem w.b w.n x e)) (wrapS (8 * w.b) (elem w.b w.n y e)) ∧
      wrapS (8 * w.b) (elem w.b w.n (blendArr w x y (cmpltArr w x y)) e) =
        max (wrapS (8 * w.b) (elem w.b w.n x e)) (wrapS (8 * w.b) (elem w.b w.n y e))) := by
  constructor
  · intro w hw
    obtain ⟨h1, h2, h3⟩ := C80_unsigned w hw (x (e / w.n)) (y (e / w.n)) (e % w.n)
    refine ⟨h1, h2, ?_⟩
    have h4 := h3 (w.cmplt (x (e / w.n)) (y (e / w.n)))
    unfold elem blendArr cmpltArr
    dsimp only at h1 ⊢
    split_ifs at h1 with hc
    · rw [h4.1 h1, max_eq_right hc.le]
    · rw [h4.2 h1, max_eq_left (not_lt.mp hc)]
  · intro w hw
    obtain ⟨h1, h2, h3⟩ := C80_signed w hw (x (e / w.n)) (y (e / w.n)) (e % w.n)
    refine ⟨h1, h2, ?_⟩
    have h4 := h3 (w.cmplt (x (e / w.n)) (y (e / w.n)))
    unfold elem blendArr cmpltArr
    dsimp only at h1 ⊢
    split_ifs at h1 with hc
    · rw [h4.1 h1, max_eq_right hc.le]
    · rw [h4.2 h1, max_eq_left (not_lt.mp hc)]

example : u16_8 ∈ [u8_32, u8_16, u16_8, u16_16, u32_8] ∧
    elem 2 8 (maxArr u16_8 (fun q => set1 2 (3 * q)) (fun _ => ofLanes 2 fun i => i)) 9 = 3 := ⟨by simp, by decide +kernel⟩

/-- **C103**, `simd_x_a::load`: element `e` is `stride` elements per register and one element per lane behind `p`, so with the default
stride (the size of a register) it is element `e` of the array at `p`. -/
theorem C103_load {b n : ℕ} (m : Mem) (p stride : ℤ) (e : ℕ) :
    elem b n (loadArrStride b m p stride) e = numAt b m (p + ((e / n : ℕ) * stride + (e % n : ℕ)) * b) ∧
    elem b n (loadArrStride b m p n) e = numAt b m (p + e * b) := by
  have key : ∀ s : ℤ, elem b n (loadArrStride b m p s) e = numAt b m (p + ((e / n : ℕ) * s + (e % n : ℕ)) * b) := by
    intro s
    unfold elem loadArrStride
    rw [lane_loadu]
    congr 1; ring
  refine ⟨key stride, ?_⟩
  rw [key]
  congr 3
  have := Nat.div_add_mod e n
  have h2 : ((n * (e / n) + e % n : ℕ) : ℤ) = e := by rw [this]
  rw [← h2]; push_cast; ring

/-- **C103**, `simd_x_a::gather`: element `e` is read at its offset, in bytes, behind the start of its register. -/
theorem C103_gather {b n : ℕ} (hb : 0 < b) (m : Mem) (p stride : ℤ) (idx : ℕ → Reg) (e : ℕ) :
    elem b n (gatherArr b m p idx stride) e = numAt b m (p + (e / n : ℕ) * stride * b + slane 4 (idx (e / n)) (e % n)) := by
  unfold elem gatherArr gather
  rw [lane_ofLanes hb, Nat.mod_eq_of_lt (lane_lt _ _ _), lane_loadu]
  congr 1; push_cast; ring

example : elem 4 8 (gatherArr 4 (fun a => BitVec.ofInt 8 a) 100 (fun q => set1 4 (-(q : ℤ))) 10) 17 =
    numAt 4 (fun a => BitVec.ofInt 8 a) 178 := by decide +kernel

/-- **C103**, `simd_x_a::initincrement(x)`: element `e` is `e * x` modulo the range of the type, provided that no `int` product overflows
(there is none of `uint32_t`). -/
theorem C103_increment {b n N : ℕ} {signed : Bool} (hb : 0 < b) (hb4 : b ≤ 4) (x : ℤ)
    (hx : (b = 4 ∧ signed = false) ∨ ∀ i < n * N, -2 ^ 31 ≤ (i : ℤ) * x ∧ (i : ℤ) * x < 2 ^ 31) :
    ∃ r, initIncrementArr b signed n N x = .ok r ∧ ∀ e < n * N, (elem b n r e : ℤ) = (e * x) % 2 ^ (8 * b) := by
  obtain ⟨r, hr, hall⟩ := C83_increment hb hb4 (n := n * N) x hx
  unfold initIncrement at hr
  unfold initIncrementArr
  generalize hl : (List.range (n * N)).mapM (fun (i : ℕ) =>
    if b = 4 ∧ signed = false then Except.ok (((i : ℤ) * x) % 2 ^ 32) else arithS 32 (i * x)) = A at *
  cases A with
  | error u => exact absurd hr (by intro h; cases h)
  | ok a =>
    have hr' : (ofLanes b fun i => wrapU (8 * b) (a.getD i 0)) = r := by injection hr
    refine ⟨_, rfl, fun e he => ?_⟩
    rw [← hall e he, ← hr']
    unfold elem
    rw [lane_ofLanes hb, lane_ofLanes hb, Nat.div_add_mod]

example : ∃ r, initIncrementArr 1 true 16 4 100 = .ok r ∧ elem 1 16 r 63 = 6300 % 256 := ⟨_, rfl, by decide +kernel⟩

end Simd
end Verif
