import Verif.Model.BitHelpers
import Verif.Lemmas.Cpp
import Mathlib.Tactic.Ring
import Mathlib.Tactic.Linarith

/-! # C37: the two-word 128-bit integer -/

namespace Verif

/-- the number a word pair stands for (specification) -/
def U128.val (a : U128) : ℕ := a.hi * 2 ^ 64 + a.lo

/-- both words are 64-bit -/
def U128.Valid (a : U128) : Prop := a.hi < 2 ^ 64 ∧ a.lo < 2 ^ 64

instance (a : U128) : Decidable a.Valid := inferInstanceAs (Decidable (_ ∧ _))

variable {a b : U128}

/-- **C37**: the conversion to 64 bits keeps the low word. -/
theorem C37_toU64 (ha : a.Valid) : U128.toU64 a = a.val % 2 ^ 64 := by
  obtain ⟨h1, h2⟩ := ha
  unfold U128.toU64 U128.val; omega

example : U128.Valid ⟨5, 7⟩ ∧ U128.toU64 ⟨5, 7⟩ = 7 := by decide

/-- **C37**: the sum is right modulo `2^128`. -/
theorem C37_add (ha : a.Valid) (hb : b.Valid) : (U128.add a b).Valid ∧ (U128.add a b).val = (a.val + b.val) % 2 ^ 128 := by
  obtain ⟨h1, h2⟩ := ha
  obtain ⟨h3, h4⟩ := hb
  unfold U128.add U128.add64 U128.Valid U128.val
  simp only []
  split_ifs <;> simp only [] <;> omega

example : U128.add ⟨1, 2 ^ 64 - 1⟩ ⟨2, 1⟩ = ⟨4, 0⟩ := by decide +kernel

/-- **C37**: the difference is right modulo `2^128`. -/
theorem C37_sub (ha : a.Valid) (hb : b.Valid) :
    (U128.sub a b).Valid ∧ (U128.sub a b).val = (a.val + 2 ^ 128 - b.val) % 2 ^ 128 := by
  obtain ⟨h1, h2⟩ := ha
  obtain ⟨h3, h4⟩ := hb
  unfold U128.sub U128.sub64 U128.Valid U128.val
  simp only []
  split_ifs <;> simp only [] <;> omega

example : U128.sub ⟨1, 0⟩ ⟨0, 1⟩ = ⟨0, 2 ^ 64 - 1⟩ ∧ U128.sub ⟨0, 0⟩ ⟨0, 1⟩ = ⟨2 ^ 64 - 1, 2 ^ 64 - 1⟩ := by decide +kernel

/-- **C37**, order: when `<` answers yes the order is right. -/
theorem C37_lt_partial (ha : a.Valid) (h : U128.lt a b = true) : a.val < b.val := by
  unfold U128.lt at h
  simp only [Bool.and_eq_true, decide_eq_true_eq] at h
  obtain ⟨h1, h2⟩ := ha
  unfold U128.val; omega

example : U128.lt ⟨1, 5⟩ ⟨2, 6⟩ = true := by decide +kernel

/-- **C37**, order, exactly: `<` agrees with the order except when the high words are equal and the low words increase, or
the high words increase and the low words do not. -/
theorem C37_lt_iff (ha : a.Valid) (hb : b.Valid) :
    (U128.lt a b = decide (a.val < b.val)) ↔ ¬ ((a.hi = b.hi ∧ a.lo < b.lo) ∨ (a.hi < b.hi ∧ b.lo ≤ a.lo)) := by
  obtain ⟨h1, h2⟩ := ha
  obtain ⟨h3, h4⟩ := hb
  unfold U128.lt U128.val
  rw [Bool.eq_iff_iff]
  simp only [Bool.and_eq_true, decide_eq_true_eq]
  omega

example : U128.Valid ⟨1, 5⟩ ∧ U128.Valid ⟨2, 6⟩ ∧ U128.lt ⟨2, 6⟩ ⟨1, 5⟩ = false := by decide +kernel

/-- **C37**, order, is wrong: `0 < 1` is false. -/
theorem C37_lt_wrong : U128.lt ⟨0, 0⟩ ⟨0, 1⟩ = false ∧ U128.val ⟨0, 0⟩ < U128.val ⟨0, 1⟩ := by decide +kernel

theorem or_disjoint {x y n : ℕ} (hy : y < 2 ^ n) : (2 ^ n * x) ||| y = 2 ^ n * x + y :=
  (Nat.two_pow_add_eq_or_of_lt hy x).symm

theorem shlU64 {x n : ℕ} (hn : n < 64) : shlU 64 x (n : ℤ) = .ok (x * 2 ^ n % 2 ^ 64) := by
  unfold shlU pw
  rw [if_neg (by omega), if_neg (by omega), Int.toNat_natCast, Nat.shiftLeft_eq]

theorem shrU64 {x n : ℕ} (hn : n < 64) : shrU 64 x (n : ℤ) = .ok (x / 2 ^ n) :=
  shrU_ok rfl (by unfold pw; omega)

/-- `x·2^n mod 2^64` keeps the low `64-n` bits of `x` -/
theorem mul_pow_mod {x n m : ℕ} (h : n + m = 64) : x * 2 ^ n % 2 ^ 64 = 2 ^ n * (x % 2 ^ m) := by
  rw [← h, pow_add, Nat.mul_comm x, Nat.mul_mod_mul_left]

/-- **C37**: left shift by 1 to 127 bits is multiplication by a power of two modulo `2^128`. -/
theorem C37_shl_partial (ha : a.Valid) {n : ℤ} (h0 : 0 < n) (h1 : n < 128) :
    ∃ r, U128.shl a n = .ok r ∧ r.Valid ∧ r.val = a.val * 2 ^ n.toNat % 2 ^ 128 := by
  obtain ⟨hh, hl⟩ := ha
  obtain ⟨hi, lo⟩ := a
  simp only at hh hl
  obtain ⟨k, rfl⟩ := Int.eq_ofNat_of_zero_le (by omega : 0 ≤ n)
  rw [Int.toNat_natCast]
  unfold U128.shl
  by_cases hk : (k : ℤ) ≥ 64
  · obtain ⟨j, rfl⟩ : ∃ j, k = 64 + j := ⟨k - 64, by omega⟩
    rw [if_pos hk, show ((64 + j : ℕ) : ℤ) - 64 = (j : ℤ) by push_cast; ring, shlU64 (by omega)]
    refine ⟨_, rfl, ⟨Nat.mod_lt _ (by norm_num), by norm_num⟩, ?_⟩
    unfold U128.val
    simp only []
    rw [show (hi * 2 ^ 64 + lo) * 2 ^ (64 + j) = lo * 2 ^ j * 2 ^ 64 + 2 ^ 128 * (hi * 2 ^ j) by
      rw [pow_add, show (2 : ℕ) ^ 128 = 2 ^ 64 * 2 ^ 64 by norm_num]; ring, Nat.add_mul_mod_self_left,
      show (2 : ℕ) ^ 128 = 2 ^ 64 * 2 ^ 64 by norm_num, Nat.mul_mod_mul_right, Nat.add_zero]
  · rw [if_neg hk]
    obtain ⟨m, hm⟩ : ∃ m, k + m = 64 := ⟨64 - k, by omega⟩
    simp only []
    rw [show (64 : ℤ) - (k : ℤ) = (m : ℤ) by omega, shlU64 (by omega), shlU64 (by omega), shrU64 (by omega)]
    have hq : lo / 2 ^ m < 2 ^ k := by
      rw [Nat.div_lt_iff_lt_mul (by positivity), ← pow_add, hm]; exact hl
    refine ⟨_, rfl, ?_⟩
    simp only [mul_pow_mod hm, or_disjoint hq]
    have hr1 : hi % 2 ^ m < 2 ^ m := Nat.mod_lt _ (by positivity)
    have hr2 : lo % 2 ^ m < 2 ^ m := Nat.mod_lt _ (by positivity)
    have e1 := Nat.div_add_mod hi (2 ^ m)
    have e2 := Nat.div_add_mod lo (2 ^ m)
    have e3 : 2 ^ k * 2 ^ m = 2 ^ 64 := by rw [← pow_add, hm]
    have b1 : 2 ^ k * (hi % 2 ^ m) + lo / 2 ^ m < 2 ^ 64 := by
      have : 2 ^ k * (hi % 2 ^ m + 1) ≤ 2 ^ k * 2 ^ m := Nat.mul_le_mul_left _ hr1
      rw [Nat.mul_add] at this; omega
    have b2 : 2 ^ k * (lo % 2 ^ m) < 2 ^ 64 := by
      rw [← e3]; exact Nat.mul_lt_mul_of_pos_left hr2 (by positivity)
    refine ⟨⟨b1, b2⟩, ?_⟩
    unfold U128.val
    simp only []
    have e4 : (hi * 2 ^ 64 + lo) * 2 ^ k = (2 ^ k * (hi % 2 ^ m) + lo / 2 ^ m) * 2 ^ 64 + 2 ^ k * (lo % 2 ^ m) +
        2 ^ 128 * (hi / 2 ^ m) := by
      conv_lhs => rw [← e1, ← e2]
      rw [show (2 : ℕ) ^ 128 = 2 ^ 64 * 2 ^ 64 by norm_num, ← e3]; ring
    rw [e4, Nat.add_mul_mod_self_left]
    refine (Nat.mod_eq_of_lt ?_).symm
    clear e1 e2 e3 e4
    generalize 2 ^ k * (hi % 2 ^ m) + lo / 2 ^ m = A at b1 ⊢
    generalize 2 ^ k * (lo % 2 ^ m) = B at b2 ⊢
    omega

example : U128.shl ⟨3, 2 ^ 63 + 1⟩ 2 = .ok ⟨14, 4⟩ ∧ U128.shl ⟨3, 5⟩ 100 = .ok ⟨5 * 2 ^ 36, 0⟩ := by decide +kernel

/-- **C37**: right shift by 1 to 127 bits is division by a power of two. -/
theorem C37_shr_partial (ha : a.Valid) {n : ℤ} (h0 : 0 < n) (h1 : n < 128) :
    ∃ r, U128.shr a n = .ok r ∧ r.Valid ∧ r.val = a.val / 2 ^ n.toNat := by
  obtain ⟨hh, hl⟩ := ha
  obtain ⟨hi, lo⟩ := a
  simp only at hh hl
  obtain ⟨k, rfl⟩ := Int.eq_ofNat_of_zero_le (by omega : 0 ≤ n)
  rw [Int.toNat_natCast]
  unfold U128.shr
  by_cases hk : (k : ℤ) ≥ 64
  · obtain ⟨j, rfl⟩ : ∃ j, k = 64 + j := ⟨k - 64, by omega⟩
    rw [if_pos hk, show ((64 + j : ℕ) : ℤ) - 64 = (j : ℤ) by push_cast; ring, shrU64 (by omega)]
    refine ⟨_, rfl, ⟨by norm_num, lt_of_le_of_lt (Nat.div_le_self _ _) hh⟩, ?_⟩
    unfold U128.val
    simp only []
    rw [pow_add, ← Nat.div_div_eq_div_mul, show (hi * 2 ^ 64 + lo) / 2 ^ 64 = hi by omega, Nat.zero_mul, Nat.zero_add]
  · rw [if_neg hk]
    obtain ⟨m, hm⟩ : ∃ m, m + k = 64 := ⟨64 - k, by omega⟩
    simp only []
    rw [show (64 : ℤ) - (k : ℤ) = (m : ℤ) by omega, shlU64 (by omega), shrU64 (by omega), shrU64 (by omega)]
    have hq : lo / 2 ^ k < 2 ^ m := by
      rw [Nat.div_lt_iff_lt_mul (by positivity), ← pow_add, hm]; exact hl
    refine ⟨_, rfl, ?_⟩
    simp only [mul_pow_mod hm]
    rw [Nat.lor_comm, or_disjoint hq]
    have hr1 : hi % 2 ^ k < 2 ^ k := Nat.mod_lt _ (by positivity)
    have e1 := Nat.div_add_mod hi (2 ^ k)
    have e3 : 2 ^ k * 2 ^ m = 2 ^ 64 := by rw [← pow_add, Nat.add_comm, hm]
    have b1 : 2 ^ m * (hi % 2 ^ k) + lo / 2 ^ k < 2 ^ 64 := by
      have : 2 ^ m * (hi % 2 ^ k + 1) ≤ 2 ^ m * 2 ^ k := Nat.mul_le_mul_left _ hr1
      rw [Nat.mul_add] at this
      have := Nat.mul_comm (2 ^ m) (2 ^ k)
      omega
    refine ⟨⟨lt_of_le_of_lt (Nat.div_le_self _ _) hh, b1⟩, ?_⟩
    unfold U128.val
    simp only []
    have e4 : hi * 2 ^ 64 + lo = lo + 2 ^ k * ((hi / 2 ^ k) * 2 ^ 64 + 2 ^ m * (hi % 2 ^ k)) := by
      conv_lhs => rw [← e1]
      rw [← e3]; ring
    rw [e4, Nat.add_mul_div_left _ _ (by positivity)]
    ring

example : U128.shr ⟨3, 2 ^ 63 + 1⟩ 2 = .ok ⟨0, 3 * 2 ^ 62 + 2 ^ 61⟩ ∧ U128.shr ⟨2 ^ 40, 5⟩ 100 = .ok ⟨0, 16⟩ := by decide +kernel

/-- **C37**, shifts by zero (and outside 0 to 127) are undefined for every operand: one word is shifted by 64. -/
theorem C37_shift_ub (a : U128) {n : ℤ} (h : n ≤ 0 ∨ 128 ≤ n) :
    U128.shl a n = .error .shiftAmount ∧ U128.shr a n = .error .shiftAmount := by
  unfold U128.shl U128.shr shlU shrU pw
  rcases h with h | h
  · rw [if_neg (by omega : ¬ n ≥ 64), if_neg (by omega : ¬ n ≥ 64)]
    by_cases h0 : n < 0
    · rw [if_pos (Or.inl h0), if_pos (Or.inl h0), if_pos (Or.inl h0)]
      exact ⟨rfl, rfl⟩
    · have : n = 0 := by omega
      subst this
      simp [bind, Except.bind]
  · rw [if_pos (by omega), if_pos (by omega), if_pos (by omega), if_pos (by omega)]
    exact ⟨rfl, rfl⟩

example : U128.shl ⟨3, 5⟩ 0 = .error .shiftAmount ∧ U128.shr ⟨3, 5⟩ 128 = .error .shiftAmount := by decide +kernel

end Verif
