import Verif.Lemmas.Simd
import Mathlib.Algebra.BigOperators.Intervals
import Mathlib.Algebra.BigOperators.Ring.Finset
import Mathlib.Tactic.Linarith

/-! # C83: loading and storing registers -/

namespace Verif
namespace Simd

/-- the number stored in `b` bytes from address `a`, low byte first -/
def numAt (b : ℕ) (m : Mem) (a : ℤ) : ℕ := ∑ j ∈ Finset.range b, (m (a + j)).toNat * 256 ^ j

theorem horner_sum (g : ℕ → ℕ) (b : ℕ) : horner g b = ∑ j ∈ Finset.range b, g j * 256 ^ j := by
  induction b generalizing g with
  | zero => rfl
  | succ b ih =>
    rw [horner_succ, ih, Finset.sum_range_succ', Finset.mul_sum, pow_zero, mul_one, add_comm]
    congr 1
    apply Finset.sum_congr rfl
    intro j _
    rw [pow_succ]; ring

theorem lane_loadu (b : ℕ) (m : Mem) (p : ℤ) (i : ℕ) : lane b (loadu m p) i = numAt b m (p + i * b) := by
  rw [lane_eq, horner_sum]
  unfold numAt loadu
  apply Finset.sum_congr rfl
  intro j _
  congr 3
  push_cast; ring

theorem numAt_lt (b : ℕ) (m : Mem) (a : ℤ) : numAt b m a < 256 ^ b := by
  have := lane_lt b (loadu m a) 0
  rwa [lane_loadu, Nat.cast_zero, zero_mul, add_zero] at this

/-- **C83**, `load`: lane `i` is element `i` of the array at `p`. -/
theorem C83_load (b : ℕ) (m : Mem) (p : ℤ) (i : ℕ) : lane b (loadu m p) i = numAt b m (p + i * b) := lane_loadu b m p i

example : lane 2 (loadu (fun a => BitVec.ofInt 8 a) 10) 3 = 16 + 256 * 17 ∧ numAt 2 (fun a => BitVec.ofInt 8 a) (10 + 3 * 2) = 16 + 256 * 17 := by
  decide +kernel

/-- **C83**, `loadstrided` of the classes without gather instructions: lane `i` is element `i * stride`. -/
theorem C83_strided {b : ℕ} (hb : 0 < b) (n : ℕ) (m : Mem) (p stride : ℤ) {i : ℕ} (hi : i < n) :
    lane b (loadStrided b n m p stride) i = numAt b m (p + i * stride * b) := by
  unfold loadStrided
  split_ifs with h
  · rw [lane_loadu, h, mul_one]
  · rw [lane_ofLanes hb, if_pos hi, Nat.mod_eq_of_lt (lane_lt _ _ _), lane_loadu]
    congr 1
    push_cast; ring

example : lane 1 (loadStrided 1 32 (fun a => BitVec.ofInt 8 a) 5 (-3)) 4 = 249 := by decide +kernel

/-! ## Increments -/

theorem mapM_ok {α : Type} {f : ℕ → M α} {g : ℕ → α} : ∀ {l : List ℕ}, (∀ i ∈ l, f i = .ok (g i)) → l.mapM f = .ok (l.map g)
  | [], _ => rfl
  | a :: l, h => by
    rw [List.mapM_cons, h a (by simp), mapM_ok fun i hi => h i (by simp [hi])]
    rfl

theorem mapM_error {α : Type} {f : ℕ → M α} {e : UB} : ∀ {l : List ℕ}, (∀ i ∈ l, (∃ x, f i = .ok x) ∨ f i = .error e) →
    (∃ i ∈ l, f i = .error e) → l.mapM f = .error e
  | [], _, h => by obtain ⟨i, hi, _⟩ := h; simp at hi
  | a :: l, h, hex => by
    rw [List.mapM_cons]
    rcases h a (by simp) with ⟨x, hx⟩ | hx
    · rw [hx, mapM_error (l := l) (fun i hi => h i (by simp [hi])) ?_]
      · rfl
      · obtain ⟨i, hi, he⟩ := hex
        rcases List.mem_cons.1 hi with rfl | hi
        · rw [hx] at he; cases he
        · exact ⟨i, hi, he⟩
    · rw [hx]; rfl

/-- **C83**, `initincrement(x)`: lane `i` holds `i * x` modulo the range of the type, in all types; for `int32_t` provided that the
products do not overflow. -/
theorem C83_increment {b : ℕ} {signed : Bool} (hb : 0 < b) (hb4 : b ≤ 4) {n : ℕ} (x : ℤ)
    (hx : (b = 4 ∧ signed = false) ∨ ∀ i < n, -2 ^ 31 ≤ (i : ℤ) * x ∧ (i : ℤ) * x < 2 ^ 31) :
    ∃ r, initIncrement b signed n x = .ok r ∧ ∀ i < n, (lane b r i : ℤ) = (i * x) % 2 ^ (8 * b) := by
  have key : ∀ a : List ℤ, (∀ i < n, a.getD i 0 % 2 ^ (8 * b) = ((i : ℤ) * x) % 2 ^ (8 * b)) → ∀ i < n,
      (lane b (ofLanes b fun i => wrapU (8 * b) (a.getD i 0)) i : ℤ) = (i * x) % 2 ^ (8 * b) := by
    intro a ha i hi
    have hp : (0 : ℤ) < 2 ^ (8 * b) := by positivity
    rw [lane_ofLanes hb]
    have hlt : wrapU (8 * b) (a.getD i 0) < 256 ^ b := by
      rw [pow256]; unfold wrapU
      have := Int.emod_lt_of_pos (a.getD i 0) hp
      have e : ((2 ^ (8 * b) : ℕ) : ℤ) = 2 ^ (8 * b) := by push_cast; rfl
      have h0 := Int.emod_nonneg (a.getD i 0) hp.ne'
      omega
    rw [Nat.mod_eq_of_lt hlt]
    unfold wrapU
    rw [Int.toNat_of_nonneg (Int.emod_nonneg _ hp.ne')]
    exact ha i hi
  unfold initIncrement
  by_cases hc : b = 4 ∧ signed = false
  · have := mapM_ok (f := fun i : ℕ => if b = 4 ∧ signed = false then Except.ok (((i : ℤ) * x) % 2 ^ 32) else arithS 32 (i * x))
      (g := fun i : ℕ => ((i : ℤ) * x) % 2 ^ 32) (l := List.range n) fun i _ => if_pos hc
    refine ⟨_, by rw [this]; rfl, key _ ?_⟩
    intro i hi
    rw [List.getD_eq_getElem _ _ (by simpa using hi), List.getElem_map, List.getElem_range, hc.1]
    exact Int.emod_emod_of_dvd _ (dvd_refl _)
  · have hx := hx.resolve_left hc
    have := mapM_ok (f := fun i : ℕ => if b = 4 ∧ signed = false then Except.ok (((i : ℤ) * x) % 2 ^ 32) else arithS 32 (i * x))
      (g := fun i : ℕ => (i : ℤ) * x) (l := List.range n) (by
        intro i hi
        rw [if_neg hc]
        have := hx i (by simpa using hi)
        unfold arithS
        rw [if_pos (by norm_num at this ⊢; exact this)])
    refine ⟨_, by rw [this]; rfl, key _ ?_⟩
    intro i hi
    rw [List.getD_eq_getElem _ _ (by simpa using hi), List.getElem_map, List.getElem_range]

example : (∃ r, initIncrement 1 true 32 100 = .ok r ∧ lane 1 r 31 = 28) ∧ (∃ r, initIncrement 4 true 8 (-5) = .ok r ∧ slane 4 r 7 = -35) :=
  ⟨⟨_, rfl, by decide +kernel⟩, ⟨_, rfl, by decide +kernel⟩⟩

/-- **C83**: increments of 8-bit and 16-bit numbers never overflow an `int`. -/
theorem C83_increment_narrow {b : ℕ} {signed : Bool} (hb : 0 < b) (hb2 : b ≤ 2) {n : ℕ} (hn : n ≤ 32) {x : ℤ} (h1 : -2 ^ 15 ≤ x) (h2 : x < 2 ^ 16) :
    ∃ r, initIncrement b signed n x = .ok r ∧ ∀ i < n, (lane b r i : ℤ) = (i * x) % 2 ^ (8 * b) := by
  apply C83_increment hb (by omega) x
  right
  intro i hi
  have h0 : (0 : ℤ) ≤ i := by omega
  have h32 : (i : ℤ) ≤ 32 := by omega
  constructor <;> nlinarith

example : ∃ r, initIncrement 2 false 16 (2 ^ 16 - 1) = .ok r ∧ lane 2 r 3 = 2 ^ 16 - 3 := ⟨_, rfl, by decide +kernel⟩

/-- **C83**: an `int32_t` increment is undefined exactly when a product overflows. -/
theorem C83_increment_ub {n : ℕ} (x : ℤ) (hx : ∃ i < n, ¬ (-2 ^ 31 ≤ (i : ℤ) * x ∧ (i : ℤ) * x < 2 ^ 31)) :
    initIncrement 4 true n x = .error .overflow := by
  unfold initIncrement
  have h : (List.range n).mapM (fun i : ℕ => if 4 = 4 ∧ true = false then Except.ok (((i : ℤ) * x) % 2 ^ 32) else arithS 32 (i * x)) =
      .error .overflow := by
    apply mapM_error
    · intro i _
      rw [if_neg (by simp)]
      unfold arithS
      split_ifs
      · exact .inl ⟨_, rfl⟩
      · exact .inr rfl
    · obtain ⟨i, hi, h⟩ := hx
      refine ⟨i, by simpa using hi, ?_⟩
      rw [if_neg (by simp)]
      unfold arithS
      rw [if_neg (by norm_num [pw] at h ⊢; exact h)]
  rw [h]; rfl

example : initIncrement 4 true 8 (2 ^ 29) = .error .overflow := C83_increment_ub _ ⟨4, by norm_num, by norm_num⟩

/-! ## Gathering -/

theorem gather_step {b : ℕ} {stride : ℤ} (h : -2 ^ 31 ≤ stride * b ∧ stride * b < 2 ^ 31) :
    wrapS 32 (wrapU 64 (wrapU 64 stride * b)) = stride * b := by
  have e1 : (wrapU 64 stride : ℤ) = stride % 2 ^ 64 := by
    unfold wrapU
    rw [Int.toNat_of_nonneg (Int.emod_nonneg _ (by norm_num))]
  have e2 : ((wrapU 64 (wrapU 64 stride * b) : ℕ) : ℤ) = (stride * b) % 2 ^ 64 := by
    have : (wrapU 64 ((wrapU 64 stride : ℤ) * b) : ℤ) = ((wrapU 64 stride : ℤ) * b) % 2 ^ 64 := by
      unfold wrapU
      rw [Int.toNat_of_nonneg (Int.emod_nonneg _ (by norm_num))]
    rw [this, e1, Int.mul_emod, Int.emod_emod_of_dvd _ (dvd_refl _), ← Int.mul_emod]
  rw [e2]
  unfold wrapS
  rw [show ((2 : ℕ) ^ 32) = 4294967296 from rfl]
  rw [show ((2 : ℤ) ^ 64) = 18446744073709551616 by norm_num]
  norm_num at h
  generalize stride * b = z at *
  rw [Int.bmod_def]
  split_ifs <;> omega

/-- **C83**, `initgather` and `loadstrided` of the classes with gather instructions (`b` bytes, `n` indices): lane `i` is element
`i * stride`, provided that the offsets fit an `int32_t`. -/
theorem C83_gather {b n : ℕ} (hb : 0 < b) (m : Mem) (p stride : ℤ)
    (hs : ∀ i ≤ n, -2 ^ 31 ≤ (i : ℤ) * (stride * b) ∧ (i : ℤ) * (stride * b) < 2 ^ 31) :
    ∃ g, initGather b (n + 1) stride = .ok g ∧
      ∀ i ≤ n, lane b (loadStridedG b m p stride g) i = numAt b m (p + i * stride * b) := by
  set x := wrapS 32 (wrapU 64 (wrapU 64 stride * b)) with hxd
  have hx : ∀ i ≤ n, (i : ℤ) * x = i * (stride * b) := by
    intro i hi
    rcases Nat.eq_zero_or_pos i with rfl | hp
    · simp
    · rw [hxd, gather_step (by have := hs 1 (by omega); simpa using this)]
  obtain ⟨g, hg, hl⟩ := C83_increment (b := 4) (signed := true) (n := n + 1) (by norm_num) (by norm_num) x (.inr fun i hi => by
    rw [hx i (by omega)]; exact hs i (by omega))
  refine ⟨g, hg, ?_⟩
  intro i hi
  unfold loadStridedG
  split_ifs with h
  · rw [lane_loadu, h, mul_one]
  · unfold gather
    rw [lane_ofLanes hb, Nat.mod_eq_of_lt (lane_lt _ _ _), lane_loadu]
    have e : slane 4 g i = i * (stride * b) := by
      unfold slane
      rw [hl i (by omega), hx i hi]
      have := hs i hi
      generalize (i : ℤ) * (stride * b) = z at *
      unfold wrapS
      norm_num at this ⊢
      rw [Int.bmod_def]
      split_ifs <;> omega
    rw [e, show p + (i : ℤ) * (stride * b) * ((1 : ℕ) : ℤ) + ((0 : ℕ) : ℤ) * b = p + i * stride * b by push_cast; ring]

example : ∀ i : ℕ, i ≤ 7 → -2 ^ 31 ≤ (i : ℤ) * ((-1000) * (4 : ℕ)) ∧ (i : ℤ) * ((-1000) * (4 : ℕ)) < 2 ^ 31 := by
  intro i hi; omega

/-- **C83** fails without a diagnostic when the stride in bytes does not fit an `int32_t`: with a stride of 2^30 elements of four
bytes (2^29 of eight bytes) every lane is element 0. -/
theorem C83_gather_wrong (m : Mem) (p : ℤ) : ∀ e ∈ [(4, 2 ^ 30, 8), (4, 2 ^ 30, 4), (8, 2 ^ 29, 4)],
    ∃ g, initGather e.1 e.2.2 e.2.1 = .ok g ∧ ∀ i < e.2.2, lane e.1 (loadStridedG e.1 m p e.2.1 g) i = numAt e.1 m p := by
  have key : ∀ b n : ℕ, 0 < b → ∀ stride : ℤ, stride ≠ 1 → wrapS 32 (wrapU 64 (wrapU 64 stride * b)) = 0 →
      ∃ g, initGather b n stride = .ok g ∧ ∀ i < n, lane b (loadStridedG b m p stride g) i = numAt b m p := by
    intro b n hb stride h1 h0
    unfold initGather
    rw [h0]
    obtain ⟨g, hg, hl⟩ := C83_increment (b := 4) (signed := true) (n := n) (by norm_num) (by norm_num) 0 (.inr fun i _ => by simp)
    refine ⟨g, hg, fun i hi => ?_⟩
    unfold loadStridedG gather
    rw [if_neg h1, lane_ofLanes hb, Nat.mod_eq_of_lt (lane_lt _ _ _), lane_loadu]
    have e : slane 4 g i = 0 := by
      unfold slane
      rw [hl i hi]; simp [wrapS]
    rw [e]; simp
  intro e he
  simp only [List.mem_cons, List.not_mem_nil, or_false] at he
  rcases he with rfl | rfl | rfl
  · exact key 4 8 (by norm_num) (2 ^ 30) (by norm_num) (by decide)
  · exact key 4 4 (by norm_num) (2 ^ 30) (by norm_num) (by decide)
  · exact key 8 4 (by norm_num) (2 ^ 29) (by norm_num) (by decide)

example : ∃ g, initGather 4 8 (2 ^ 30) = .ok g ∧ lane 4 (loadStridedG 4 (fun a => BitVec.ofInt 8 a) 100 (2 ^ 30) g) 5 = 0x67666564 :=
  ⟨_, rfl, by decide +kernel⟩

/-! ## Arrays of registers -/

theorem storeArr_succ (b s n : ℕ) (m : Mem) (p : ℤ) (x : ℕ → Reg) :
    storeArr b s (n + 1) m p x = storeu (b * s) (storeArr b s n m p x) (p + n * (b * s : ℕ)) (x n) := by
  unfold storeArr
  rw [List.range_succ, List.foldl_append]; rfl

/-- **C83**, `store` of an array of registers of `s` elements of `b` bytes: byte `a - p` of the array is at address `a`, and the rest of
the memory is unchanged. -/
theorem C83_store (b s n : ℕ) (m : Mem) (p : ℤ) (x : ℕ → Reg) (a : ℤ) :
    (∀ q < n, ∀ k < b * s, storeArr b s n m p x (p + q * (b * s : ℕ) + k) = x q k) ∧
    (a < p ∨ p + n * (b * s : ℕ) ≤ a → storeArr b s n m p x a = m a) := by
  induction n with
  | zero => exact ⟨fun q hq => by omega, fun _ => rfl⟩
  | succ n ih =>
    obtain ⟨h1, h2⟩ := ih
    rw [storeArr_succ]
    generalize b * s = t at *
    constructor
    · intro q hq k hk
      unfold storeu
      rcases Nat.lt_succ_iff_lt_or_eq.1 hq with hq | rfl
      · have : (q : ℤ) * t + t ≤ n * t := by
          have : q + 1 ≤ n := hq
          calc (q : ℤ) * t + t = ((q + 1 : ℕ) : ℤ) * t := by push_cast; ring
            _ ≤ n * t := by gcongr
        rw [if_neg (by omega)]
        exact h1 q hq k hk
      · rw [if_pos (by omega)]
        congr 1; omega
    · intro ha
      push_cast at ha
      have hnn : (0 : ℤ) ≤ n * t := by positivity
      unfold storeu
      rw [if_neg (by rcases ha with ha | ha <;> [omega; (rw [add_mul, one_mul] at ha; omega)])]
      apply h2
      rcases ha with ha | ha
      · exact .inl ha
      · right; rw [add_mul, one_mul] at ha; omega

example : storeArr 4 8 2 (fun _ => 7) 100 (fun q => set1 4 q) 132 = 1 ∧ storeArr 4 8 2 (fun _ => 7) 100 (fun q => set1 4 q) 164 = 7 := by
  decide +kernel

/-- **C83**: what has been stored is loaded again. -/
theorem C83_store_load (b s n : ℕ) (m : Mem) (p : ℤ) (x : ℕ → Reg) {q i : ℕ} (hq : q < n) (hi : i < s) :
    lane b (loadArr b s (storeArr b s n m p x) p q) i = lane b (x q) i := by
  apply lane_congr
  intro j hj
  unfold loadArr loadu
  exact (C83_store b s n m p x 0).1 q hq (b * i + j) (by
    calc b * i + j < b * i + b := by omega
      _ = b * (i + 1) := by ring
      _ ≤ b * s := Nat.mul_le_mul_left _ hi)

example : (1 : ℕ) < 2 ∧ (5 : ℕ) < 8 ∧ lane 4 (loadArr 4 8 (storeArr 4 8 2 (fun _ => 7) 100 (fun q => set1 4 (q + 3))) 100 1) 5 = 4 := by
  decide +kernel

/-- **C83**, `+=` of index registers: sums modulo 2^32, lane by lane. -/
theorem C83_add (x y : ℕ → Reg) (q i : ℕ) : lane 4 (addArr x y q) i = (lane 4 (x q) i + lane 4 (y q) i) % 2 ^ 32 := by
  unfold addArr add32
  rw [lane_ofLanes (by norm_num)]
  exact Nat.mod_mod_of_dvd _ (dvd_refl _)

example : lane 4 (addArr (fun q => set1 4 (2 ^ 32 - 1)) (fun q => set1 4 (q : ℤ)) 3) 7 = 2 := by decide +kernel

end Simd
end Verif
