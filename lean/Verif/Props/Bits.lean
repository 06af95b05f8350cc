import Verif.Model.BitHelpers
import Verif.Spec.Bits
import Verif.Lemmas.Decode
import Mathlib.Tactic.IntervalCases

/-! # Bit helpers: leading zeros (C34), bit fields (C35), absolute value (C36), two-word integers (C37) -/

namespace Verif

/-! ## C34 -/

theorem log2_lt' {w x : ℕ} (h0 : x ≠ 0) (hx : x < 2 ^ w) : Nat.log2 x < w := (Nat.log2_lt h0).mpr hx

theorem isLeadingZeros_clz {w x : ℕ} (h0 : x ≠ 0) (hx : x < 2 ^ w) : IsLeadingZeros w x (clz w x) := by
  have hl := log2_lt' h0 hx
  unfold clz
  refine ⟨by omega, ?_, ?_⟩
  · rw [show w - 1 - (w - 1 - x.log2) = x.log2 by omega]
    exact Nat.testBit_log2 h0
  · intro i hi
    apply Nat.testBit_lt_two_pow
    rw [← Nat.log2_lt h0]; omega

/-- **C34**: the four overloads of `findbitleftmostC` count the leading zeros of every nonzero argument of their type. -/
theorem C34_findbitleftmost {x : ℕ} (h0 : x ≠ 0) :
    (x < 2 ^ 8 → ∃ n : ℕ, Bits.findLeft8 x = .ok (n : ℤ) ∧ IsLeadingZeros 8 x n) ∧
    (x < 2 ^ 16 → ∃ n : ℕ, Bits.findLeft16 x = .ok (n : ℤ) ∧ IsLeadingZeros 16 x n) ∧
    (x < 2 ^ 32 → ∃ n : ℕ, Bits.findLeft32 x = .ok (n : ℤ) ∧ IsLeadingZeros 32 x n) ∧
    (x < 2 ^ 64 → ∃ n : ℕ, Bits.findLeft64 x = .ok (n : ℤ) ∧ IsLeadingZeros 64 x n) := by
  refine ⟨fun hx => ⟨_, ?_, isLeadingZeros_clz h0 hx⟩, fun hx => ⟨_, ?_, isLeadingZeros_clz h0 hx⟩,
    fun hx => ⟨_, ?_, isLeadingZeros_clz h0 hx⟩, fun hx => ⟨_, ?_, isLeadingZeros_clz h0 hx⟩⟩ <;> have hl := log2_lt' h0 hx
  · unfold Bits.findLeft8 Bits.builtinClz
    rw [if_neg h0]
    simp only [bind, Except.bind, pure, Except.pure, clz]
    congr 1; omega
  · unfold Bits.findLeft16 Bits.builtinClz
    rw [if_neg h0]
    simp only [bind, Except.bind, pure, Except.pure, clz]
    congr 1; omega
  · unfold Bits.findLeft32 Bits.builtinClz
    rw [if_neg h0]
    rfl
  · unfold Bits.findLeft64 Bits.builtinClz64 Bits.builtinClz
    have e1 : x >>> 32 = x / 2 ^ 32 := Nat.shiftRight_eq_div_pow x 32
    by_cases hh : x >>> 32 = 0
    · have hx32 : x < 2 ^ 32 := by omega
      rw [if_neg (by simpa using hh), Nat.mod_eq_of_lt hx32, if_neg h0]
      have := log2_lt' h0 hx32
      simp only [bind, Except.bind, pure, Except.pure, clz]
      congr 1; omega
    · rw [if_pos hh, Nat.mod_eq_of_lt (by omega), if_neg hh]
      simp only [bind, Except.bind, pure, Except.pure, clz]
      have : x.log2 = (x >>> 32).log2 + 32 := by
        apply log2_eq
        · have := Nat.log2_self_le hh
          rw [pow_add]; omega
        · have := Nat.lt_log2_self (n := x >>> 32)
          rw [show (x >>> 32).log2 + 32 + 1 = (x >>> 32).log2 + 1 + 32 by ring, pow_add]; omega
      congr 1; omega

example : Bits.findLeft8 1 = .ok 7 ∧ Bits.findLeft16 0x1ff = .ok 7 ∧ Bits.findLeft64 (2 ^ 31) = .ok 32 ∧
    Bits.findLeft64 (2 ^ 63) = .ok 0 := by decide +kernel

/-- **C34**: all four are undefined at zero ("never call with input==0"). -/
theorem C34_zero : Bits.findLeft8 0 = .error .clzZero ∧ Bits.findLeft16 0 = .error .clzZero ∧
    Bits.findLeft32 0 = .error .clzZero ∧ Bits.findLeft64 0 = .error .clzZero := by decide +kernel

/-- the abstract `findLeft` used in the posit model is these functions -/
theorem C34_model (x : ℕ) :
    (x < 2 ^ 8 → (do let n ← Unp.findLeft 8 x; pure (n : ℤ)) = Bits.findLeft8 x) ∧
    (x < 2 ^ 16 → (do let n ← Unp.findLeft 16 x; pure (n : ℤ)) = Bits.findLeft16 x) ∧
    (x < 2 ^ 32 → (do let n ← Unp.findLeft 32 x; pure (n : ℤ)) = Bits.findLeft32 x) ∧
    (x < 2 ^ 64 → (do let n ← Unp.findLeft 64 x; pure (n : ℤ)) = Bits.findLeft64 x) := by
  have uniq : ∀ {w n m : ℕ}, IsLeadingZeros w x n → IsLeadingZeros w x m → n = m := by
    rintro w n m ⟨h1, h2, h3⟩ ⟨h4, h5, h6⟩
    by_contra hne
    rcases Nat.lt_or_gt_of_ne hne with h | h
    · have := h6 (w - 1 - n) (by omega); rw [this] at h2; cases h2
    · have := h3 (w - 1 - m) (by omega); rw [this] at h5; cases h5
  by_cases h0 : x = 0
  · subst h0
    obtain ⟨h1, h2, h3, h4⟩ := C34_zero
    rw [h1, h2, h3, h4]
    exact ⟨fun _ => rfl, fun _ => rfl, fun _ => rfl, fun _ => rfl⟩
  · obtain ⟨h1, h2, h3, h4⟩ := C34_findbitleftmost h0
    have key : ∀ w, Unp.findLeft w x = .ok (clz w x) := fun w => by unfold Unp.findLeft; rw [if_neg h0]
    refine ⟨fun hx => ?_, fun hx => ?_, fun hx => ?_, fun hx => ?_⟩
    · obtain ⟨n, hn, hl⟩ := h1 hx
      rw [hn, key, uniq hl (isLeadingZeros_clz h0 hx)]; rfl
    · obtain ⟨n, hn, hl⟩ := h2 hx
      rw [hn, key, uniq hl (isLeadingZeros_clz h0 hx)]; rfl
    · obtain ⟨n, hn, hl⟩ := h3 hx
      rw [hn, key, uniq hl (isLeadingZeros_clz h0 hx)]; rfl
    · obtain ⟨n, hn, hl⟩ := h4 hx
      rw [hn, key, uniq hl (isLeadingZeros_clz h0 hx)]; rfl

example : (do let n ← Unp.findLeft 16 0x0123; pure (n : ℤ)) = Bits.findLeft16 0x0123 ∧ Bits.findLeft16 0x0123 = .ok 7 := by decide +kernel

theorem smear_step {v a m : ℕ} (h : ∀ i, a.testBit i = true ↔ ∃ j, i ≤ j ∧ j < i + m ∧ v.testBit j = true) (i : ℕ) :
    (a ||| a >>> m).testBit i = true ↔ ∃ j, i ≤ j ∧ j < i + 2 * m ∧ v.testBit j = true := by
  rw [Nat.testBit_or, Nat.testBit_shiftRight, Bool.or_eq_true, h, h]
  constructor
  · rintro (⟨j, h1, h2, h3⟩ | ⟨j, h1, h2, h3⟩)
    · exact ⟨j, h1, by omega, h3⟩
    · exact ⟨j, by omega, by omega, h3⟩
  · rintro ⟨j, h1, h2, h3⟩
    by_cases hj : j < i + m
    · exact Or.inl ⟨j, h1, hj, h3⟩
    · exact Or.inr ⟨j, by omega, by omega, h3⟩

theorem smear_eq {v : ℕ} (h0 : v ≠ 0) (hv : v < 2 ^ 64) : Bits.smear v = 2 ^ (v.log2 + 1) - 1 := by
  have hl := log2_lt' h0 hv
  have h1 : ∀ i, v.testBit i = true ↔ ∃ j, i ≤ j ∧ j < i + 1 ∧ v.testBit j = true := fun i =>
    ⟨fun h => ⟨i, le_refl _, by omega, h⟩, fun ⟨j, a, b, h⟩ => by rwa [show i = j by omega]⟩
  have h2 := smear_step (smear_step (smear_step (smear_step (smear_step (smear_step h1)))))
  apply Nat.eq_of_testBit_eq
  intro i
  rw [Nat.testBit_two_pow_sub_one, Bool.eq_iff_iff, decide_eq_true_eq]
  unfold Bits.smear
  refine (h2 i).trans ⟨?_, ?_⟩
  · rintro ⟨j, h1, h2, h3⟩
    by_contra hc
    have : v.testBit j = false := Nat.testBit_lt_two_pow (by rw [← Nat.log2_lt h0]; omega)
    rw [this] at h3; cases h3
  · intro hi
    exact ⟨v.log2, by omega, by omega, Nat.testBit_log2 h0⟩

/-- **C34**: the table-based `count_leading_zeroes` counts the leading zeros of every nonzero 64-bit argument. -/
theorem C34_count_leading_zeroes {v : ℕ} (h0 : v ≠ 0) (hv : v < 2 ^ 64) :
    ∃ n : ℕ, Bits.countLeadingZeroes v = n ∧ IsLeadingZeros 64 v n := by
  refine ⟨_, ?_, isLeadingZeros_clz h0 hv⟩
  have hl := log2_lt' h0 hv
  unfold Bits.countLeadingZeroes
  rw [smear_eq h0 hv]
  have e1 : (2 ^ (v.log2 + 1) - 1) >>> 1 + 1 = 2 ^ v.log2 := by
    rw [Nat.shiftRight_eq_div_pow, pow_succ]
    have : 1 ≤ 2 ^ v.log2 := Nat.one_le_two_pow
    omega
  have e2 : 2 ^ v.log2 < 2 ^ 64 := Nat.pow_lt_pow_right (by norm_num) hl
  simp only [e1, Nat.mod_eq_of_lt e2]
  have tab : ∀ k : Fin 64, (Bits.bitPosition[(2 ^ k.val * 0x0218a392cd3d5dbf % 2 ^ 64) >>> 58]! : ℕ) = k.val := by
    decide +kernel
  rw [tab ⟨v.log2, hl⟩]
  unfold clz
  simp only []
  omega

example : Bits.countLeadingZeroes 1 = 63 ∧ Bits.countLeadingZeroes 0xFFFFFFFFFF = 24 ∧ Bits.countLeadingZeroes (2 ^ 63) = 0 := by
  decide +kernel

/-! ## C35 -/

/-- **C35**, extraction: `bitset_get` of a nonempty field inside the word returns its bits. -/
theorem C35_get {w x o s : ℕ} (hs : 1 ≤ s) (hos : o + s ≤ w) : 
    ∃ r, Posit.bitsetGet w x o s = .ok r ∧ r < 2 ^ s ∧ ∀ i, i < s → r.testBit i = x.testBit (o + i) := by
  have hpw := le_pw w
  refine ⟨x / 2 ^ o % 2 ^ s, ?_, Nat.mod_lt _ (by positivity), ?_⟩
  · unfold Posit.bitsetGet
    rw [shrU_ok (k := o) rfl (by omega), bitmask_eq hs (by omega)]
    simp only [bind, Except.bind, pure, Except.pure]
    rw [Nat.and_two_pow_sub_one_eq_mod]
  · intro i hi
    rw [Nat.testBit_mod_two_pow, Nat.testBit_div_two_pow]
    simp [hi, Nat.add_comm]

example : Posit.bitsetGet 16 0xABCD 4 8 = .ok 0xBC := by decide +kernel

/-- **C35**: empty fields are undefined for 32- and 64-bit words (the mask shifts by the full width). -/
theorem C35_empty_ub {w x o : ℕ} (hw : 32 ≤ w) (ho : o < w) :
    Posit.bitsetGet w x o 0 = .error .shiftAmount ∧ ∀ v, Bits.bitsetPart w x v o 0 = .error .shiftAmount := by
  have hpw : pw w = w := by unfold pw; omega
  have hm : Posit.bitmask w 0 = .error .shiftAmount := by
    unfold Posit.bitmask shrU
    simp only []
    rw [hpw, if_pos (by omega : ((w : ℤ) - ((0 : ℕ) : ℤ) < 0 ∨ (w : ℤ) ≤ (w : ℤ) - ((0 : ℕ) : ℤ)))]; rfl
  refine ⟨?_, fun v => ?_⟩
  · unfold Posit.bitsetGet
    rw [shrU_ok (k := o) rfl (by omega), hm]; rfl
  · unfold Bits.bitsetPart
    rw [hm]; rfl

example : Posit.bitsetGet 32 5 3 0 = .error .shiftAmount ∧ Posit.bitsetGet 16 5 3 0 = .ok 0 := by decide +kernel

/-- what `bitset_part` computes, bit by bit: the low `size` bits are cleared and the value is OR-ed in at `offset` -/
theorem C35_part_bits {w x v o s : ℕ} (hw : w = 8 ∨ w = 16 ∨ w = 32 ∨ w = 64) (hs : 1 ≤ s) (hos : o + s ≤ w)
    (hx : x < 2 ^ w) :
    ∃ r, Bits.bitsetPart w x v o s = .ok r ∧ r < 2 ^ w ∧
      ∀ i, r.testBit i = ((x.testBit i && decide (s ≤ i)) || (decide (o ≤ i ∧ i < o + s) && v.testBit (i - o))) := by
  have hpw := le_pw w
  have hlt : (v &&& (2 ^ s - 1)) * 2 ^ o < 2 ^ w := by
    rw [Nat.and_two_pow_sub_one_eq_mod]
    calc v % 2 ^ s * 2 ^ o < 2 ^ s * 2 ^ o := Nat.mul_lt_mul_of_pos_right (Nat.mod_lt _ (by positivity)) (by positivity)
      _ = 2 ^ (s + o) := by rw [pow_add]
      _ ≤ 2 ^ w := Nat.pow_le_pow_right (by norm_num) (by omega)
  have hshl : shlU w (v &&& (2 ^ s - 1)) (o : ℤ) = .ok ((v &&& (2 ^ s - 1)) <<< o) := by
    unfold shlU
    rw [if_neg (by omega), Int.toNat_natCast, Nat.shiftLeft_eq]
    split_ifs with h1 h2
    · rfl
    · exfalso; apply h2
      exact lt_of_lt_of_le hlt (Nat.pow_le_pow_right (by norm_num) (by omega))
    · rw [Nat.mod_eq_of_lt hlt]
  refine ⟨_, ?_, Nat.mod_lt (((x &&& ((2 ^ w - 1) ^^^ (2 ^ s - 1))) ||| (v &&& (2 ^ s - 1)) <<< o)) (by positivity), ?_⟩
  · unfold Bits.bitsetPart
    rw [bitmask_eq hs (by omega)]
    simp only [bind, Except.bind, pure, Except.pure]
    rw [hshl]
  · intro i
    rw [Nat.testBit_mod_two_pow, Nat.testBit_or, Nat.testBit_and, Nat.testBit_xor, Nat.testBit_two_pow_sub_one,
      Nat.testBit_two_pow_sub_one, Nat.testBit_shiftLeft, Nat.testBit_and, Nat.testBit_two_pow_sub_one]
    by_cases h1 : i < w
    · have e1 : decide (o ≤ i ∧ i < o + s) = (decide (o ≤ i) && decide (i - o < s)) := by
        rw [Bool.eq_iff_iff]; simp; omega
      have e2 : decide (s ≤ i) = !decide (i < s) := by rw [Bool.eq_iff_iff]; simp
      rw [e1, e2]
      simp [h1, Bool.and_assoc, Bool.and_comm (v.testBit (i - o))]
    · have hxi : x.testBit i = false :=
        Nat.testBit_lt_two_pow (lt_of_lt_of_le hx (Nat.pow_le_pow_right (by norm_num) (by omega)))
      simp [h1, hxi]; omega

example : Bits.bitsetPart 16 0x0110 0xFF 2 5 = .ok 0x017c := by decide +kernel

/-- **C35**, insertion, holds at offset zero: the field reads back as the inserted value and the other bits are kept. -/
theorem C35_part_partial {w x v s : ℕ} (hw : w = 8 ∨ w = 16 ∨ w = 32 ∨ w = 64) (hs : 1 ≤ s) (hos : s ≤ w)
    (hx : x < 2 ^ w) (hv : v < 2 ^ s) :
    ∃ r, Bits.bitsetPart w x v 0 s = .ok r ∧ Posit.bitsetGet w r 0 s = .ok v ∧ ∀ i, s ≤ i → r.testBit i = x.testBit i := by
  obtain ⟨r, h1, h2, h3⟩ := C35_part_bits (v := v) (o := 0) hw hs (by omega) hx
  obtain ⟨g, h4, h5, h6⟩ := C35_get (x := r) (o := 0) hs (show 0 + s ≤ w by omega)
  refine ⟨r, h1, ?_, ?_⟩
  · rw [h4]
    congr 1
    apply Nat.eq_of_testBit_eq
    intro i
    by_cases hi : i < s
    · rw [h6 i hi, h3]; simp [hi]
    · rw [Nat.testBit_lt_two_pow (lt_of_lt_of_le h5 (Nat.pow_le_pow_right (by norm_num) (by omega))),
        Nat.testBit_lt_two_pow (lt_of_lt_of_le hv (Nat.pow_le_pow_right (by norm_num) (by omega)))]
  · intro i hi
    rw [h3]
    have : ¬ i < 0 + s := by omega
    simp [hi, this]

example : Bits.bitsetPart 8 0xFF 5 0 4 = .ok 0xF5 := by decide +kernel

/-- **C35**, insertion, is wrong at every other offset: inserting 0 into a word of ones leaves a one in the field, and
bit 0, outside the field, is cleared. -/
theorem C35_part_wrong {w o s : ℕ} (hw : w = 8 ∨ w = 16 ∨ w = 32 ∨ w = 64) (hs : 1 ≤ s) (ho : 1 ≤ o) (hos : o + s ≤ w) :
    ∃ r g, Bits.bitsetPart w (2 ^ w - 1) 0 o s = .ok r ∧ Posit.bitsetGet w r o s = .ok g ∧ g ≠ 0 ∧
      r.testBit 0 ≠ (2 ^ w - 1).testBit 0 := by
  have hp : 0 < 2 ^ w := by positivity
  obtain ⟨r, h1, h2, h3⟩ := C35_part_bits (x := 2 ^ w - 1) (v := 0) hw hs hos (by omega)
  obtain ⟨g, h4, h5, h6⟩ := C35_get (x := r) hs hos
  refine ⟨r, g, h1, h4, ?_, ?_⟩
  · rintro rfl
    have := h6 (s - 1) (by omega)
    rw [h3, Nat.testBit_two_pow_sub_one] at this
    simp at this
    omega
  · rw [h3, Nat.testBit_two_pow_sub_one]
    simp; omega

example : Bits.bitsetPart 16 0xFFFF 0 2 5 = .ok 0xFFE0 := by decide +kernel

/-! ## C36 -/

theorem xor_ones {W y : ℕ} (hy : y < 2 ^ W) : y ^^^ (2 ^ W - 1) = 2 ^ W - 1 - y := by
  apply Nat.eq_of_testBit_eq
  intro i
  rw [Nat.testBit_xor, Nat.testBit_two_pow_sub_one, show 2 ^ W - 1 - y = 2 ^ W - (y + 1) by omega,
    Nat.testBit_two_pow_sub_succ hy]
  by_cases hi : i < W
  · simp [hi]
  · rw [Nat.testBit_lt_two_pow (lt_of_lt_of_le hy (Nat.pow_le_pow_right (by norm_num) (by omega)))]; simp [hi]

theorem xorS_zero {w : ℕ} {x : ℤ} (hx : InS (pw w) x) : Bits.xorS w x 0 = x := by
  have h32 := le_pw32 w
  have e0 : wrapU (pw w) 0 = 0 := by unfold wrapU; simp
  unfold Bits.xorS
  rw [e0, Nat.xor_zero]
  have e2 := two_pow_pred (w := pw w) (by omega)
  obtain ⟨h1, h2⟩ := hx
  by_cases h0 : 0 ≤ x
  · rw [wrapU_of_nonneg h0 (by omega), Int.toNat_of_nonneg h0]
    exact wrapS_of_inS (by omega) ⟨h1, h2⟩
  · rw [wrapU_of_neg (by omega) (by omega), Int.toNat_of_nonneg (by omega)]
    exact wrapS_eq (by omega) 1 (by ring) ⟨h1, h2⟩

theorem xorS_mone {w : ℕ} {x : ℤ} (h0 : x < 0) (hx : InS (pw w) x) : Bits.xorS w x (-1) = -1 - x := by
  have h32 := le_pw32 w
  unfold Bits.xorS
  have e2 := two_pow_pred (w := pw w) (by omega)
  have hp : (1 : ℤ) ≤ 2 ^ (pw w - 1) := by exact_mod_cast Nat.one_le_two_pow
  obtain ⟨h1, h2⟩ := hx
  have e1 : wrapU (pw w) (-1) = 2 ^ pw w - 1 := by
    rw [wrapU_of_neg (by omega) (by omega)]
    have : ((2 ^ pw w : ℕ) : ℤ) = 2 ^ pw w := by push_cast; rfl
    omega
  rw [e1, xor_ones (wrapU_lt _ _), wrapU_of_neg h0 (by omega)]
  have : ((2 ^ pw w : ℕ) : ℤ) = 2 ^ pw w := by push_cast; rfl
  rw [show ((2 ^ pw w - 1 - (x + 2 ^ pw w).toNat : ℕ) : ℤ) = -1 - x by omega]
  exact wrapS_of_inS (by omega) ⟨by omega, by omega⟩

theorem div_sign {w : ℕ} {x : ℤ} (hx : InS w x) : x / 2 ^ (w - 1) = if x < 0 then -1 else 0 := by
  obtain ⟨h1, h2⟩ := hx
  have hp : (0 : ℤ) < 2 ^ (w - 1) := by positivity
  split_ifs with h0
  · rw [Int.ediv_eq_iff_of_pos hp]; omega
  · exact Int.ediv_eq_zero_of_lt (by omega) h2

/-- **C36**: both absolute value functions return `|x|` for every argument except the most negative one, on signed types of
any width. -/
theorem C36_abs {w : ℕ} (hw : 2 ≤ w) {x : ℤ} (h1 : -2 ^ (w - 1) < x) (h2 : x < 2 ^ (w - 1)) :
    Bits.pabs w x = .ok |x| ∧ Posit.pcabs w x = .ok |x| := by
  have hp : (2 : ℤ) ≤ 2 ^ (w - 1) := by
    calc (2 : ℤ) = 2 ^ 1 := by norm_num
      _ ≤ _ := pow_le_pow_right₀ (by norm_num) (by omega)
  have hin : InS w x := ⟨by omega, h2⟩
  have habs : InS w |x| := by
    constructor
    · have := abs_nonneg x; omega
    · rw [abs_lt]; omega
  constructor
  · unfold Bits.pabs
    rw [div_sign hin]
    split_ifs with h0
    · rw [wrapS_of_inS (by omega) ⟨by omega, by omega⟩]
      have hs : InS w (x + -1) := ⟨by omega, by omega⟩
      simp only []
      rw [arithS_ok' hs]
      simp only [bind, Except.bind, pure, Except.pure]
      rw [xorS_mone (by omega) (hs.mono (le_pw w)), show -1 - (x + -1) = |x| by rw [abs_of_neg h0]; ring,
        wrapS_of_inS (by omega) habs]
    · rw [wrapS_of_inS (by omega) ⟨by omega, by omega⟩]
      simp only [Int.add_zero]
      rw [arithS_ok' hin]
      simp only [bind, Except.bind, pure, Except.pure]
      rw [xorS_zero (hin.mono (le_pw w)), abs_of_nonneg (by omega), wrapS_of_inS (by omega) hin]
  · unfold Posit.pcabs Posit.condNeg
    by_cases h0 : x < 0
    · have hn : InS w (-x) := by rw [← abs_of_neg h0]; exact habs
      simp only [h0, decide_true, if_true, abs_of_neg h0]
      rw [arithS_ok' hn]
      simp only [bind, Except.bind, pure, Except.pure, wrapS_of_inS (show 1 ≤ w by omega) hn]
    · simp only [h0, decide_false, Bool.false_eq_true, if_false, abs_of_nonneg (not_lt.mp h0)]
      rfl

example : Bits.pabs 8 (-127) = .ok 127 ∧ Bits.pabs 64 (-5) = .ok 5 := by decide +kernel

/-- **C36**, the most negative argument: undefined in both functions for `int` and wider, unchanged for narrower types. -/
theorem C36_min {w : ℕ} (hw : 2 ≤ w) :
    (32 ≤ w → Bits.pabs w (-2 ^ (w - 1)) = .error .overflow ∧ Posit.pcabs w (-2 ^ (w - 1)) = .error .overflow) ∧
    (w < 32 → Bits.pabs w (-2 ^ (w - 1)) = .ok (-2 ^ (w - 1)) ∧ Posit.pcabs w (-2 ^ (w - 1)) = .ok (-2 ^ (w - 1))) := by
  have hp : (2 : ℤ) ≤ 2 ^ (w - 1) := by
    calc (2 : ℤ) = 2 ^ 1 := by norm_num
      _ ≤ _ := pow_le_pow_right₀ (by norm_num) (by omega)
  have hin : InS w (-2 ^ (w - 1)) := ⟨by omega, by omega⟩
  have e2 := two_pow_pred (w := w) (by omega)
  constructor <;> intro hw'
  · have hpw : pw w = w := by unfold pw; omega
    constructor
    · unfold Bits.pabs
      rw [div_sign hin, if_pos (by omega), wrapS_of_inS (by omega) ⟨by omega, by omega⟩]
      unfold arithS
      simp only []
      rw [hpw, if_neg (by omega)]; rfl
    · unfold Posit.pcabs Posit.condNeg arithS
      simp only [show -(2 : ℤ) ^ (w - 1) < 0 by omega, decide_true, if_true]
      rw [hpw, if_neg (by omega)]; rfl
  · have hpw : pw w = 32 := by unfold pw; omega
    have hpow : (2 : ℤ) ^ w ≤ 2 ^ 31 := pow_le_pow_right₀ (by norm_num) (by omega)
    constructor
    · unfold Bits.pabs
      have hs : InS (pw w) (-2 ^ (w - 1) + -1) := by rw [hpw]; constructor <;> norm_num <;> omega
      rw [div_sign hin, if_pos (by omega), wrapS_of_inS (by omega) ⟨by omega, by omega⟩]
      simp only []
      rw [arithS_ok hs]
      simp only [bind, Except.bind, pure, Except.pure]
      rw [xorS_mone (by omega) hs]
      congr 1
      exact wrapS_eq (by omega) 1 (by rw [e2]; ring) hin
    · unfold Posit.pcabs Posit.condNeg
      simp only [show -(2 : ℤ) ^ (w - 1) < 0 by omega, decide_true, if_true]
      rw [arithS_ok (by rw [hpw]; constructor <;> norm_num <;> omega)]
      simp only [bind, Except.bind, pure, Except.pure]
      congr 1
      exact wrapS_eq (by omega) 1 (by rw [e2]; ring) hin

example : Bits.pabs 32 (-2 ^ 31) = .error .overflow ∧ Posit.pcabs 8 (-128) = .ok (-128) := by decide +kernel

end Verif
