import Verif.Model.Binary8
import Verif.Spec.Ieee
import Mathlib.Tactic.IntervalCases
import Mathlib.Tactic.Linarith

/-! # Sign and order of `binary8tab` (C47) -/

namespace Verif
namespace Binary8

/-- the number of an 8-bit pattern: 1 sign, 5 exponent, 2 fraction bits -/
def value (v : ℤ) : XNum := ieee 5 2 (v % 256).toNat

/-- magnitude in units of `2^-16` -/
def mag (u : ℕ) : ℕ := if u / 4 = 0 then u else (4 + u % 4) * 2 ^ (u / 4 - 1)

deriving instance DecidableEq for XNum

theorem value_table : ∀ u : Fin 256, ieee 5 2 u =
    if u.val % 128 = 124 then .inf (decide (128 ≤ u.val)) else if 124 < u.val % 128 then .nan
    else .num ((if 128 ≤ u.val then -1 else 1) * ((mag (u.val % 128) : ℚ) / 65536)) := by decide +kernel

theorem mag_mono : ∀ i : Fin 124, mag i < mag (i + 1) := by decide +kernel

theorem mag_lt {i j : ℕ} (hj : j ≤ 124) (h : i < j) : mag i < mag j := by
  induction j with
  | zero => omega
  | succ j ih =>
    have := mag_mono ⟨j, by omega⟩
    rcases Nat.lt_or_ge i j with h1 | h1
    · exact (ih (by omega) h1).trans this
    · rw [show i = j by omega]; exact this

theorem mag_lt_iff {i j : ℕ} (hi : i ≤ 124) (hj : j ≤ 124) : mag i < mag j ↔ i < j := by
  constructor
  · intro h
    by_contra hc
    rcases Nat.eq_or_lt_of_le (not_lt.mp hc) with h1 | h1
    · rw [h1] at h; omega
    · have := mag_lt hi h1; omega
  · exact mag_lt hj

theorem value_num {v : ℤ} (h1 : -128 ≤ v) (h2 : v ≤ 127) {x : ℚ} (hx : value v = .num x) :
    (v % 128).toNat < 124 ∧ x = (if v < 0 then -1 else 1) * ((mag (v % 128).toNat : ℚ) / 65536) := by
  have h := value_table ⟨(v % 256).toNat, by omega⟩
  simp only [] at h
  unfold value at hx
  rw [h, show (v % 256).toNat % 128 = (v % 128).toNat by omega] at hx
  split_ifs at hx with a b c c
  · refine ⟨by omega, ?_⟩
    rw [if_pos (by omega)]
    injection hx with hx; exact hx.symm
  · refine ⟨by omega, ?_⟩
    rw [if_neg (by omega)]
    injection hx with hx; exact hx.symm

end Binary8

open Binary8

/-- **C47**, order: right for two numbers that are not both negative, apart from the two zeros. Missing: pairs of negative
numbers, for which the order is reversed (`C47_lt_wrong`). -/
theorem C47_lt_partial {a b : ℤ} (ha : -128 ≤ a ∧ a ≤ 127) (hb : -128 ≤ b ∧ b ≤ 127) {x y : ℚ} (hx : value a = .num x)
    (hy : value b = .num y) (hs : 0 ≤ a ∨ 0 ≤ b) (hz : x ≠ 0 ∨ y ≠ 0) :
    (Binary8.lt a b = true ↔ x < y) ∧ (Binary8.gt a b = true ↔ y < x) ∧ (Binary8.le a b = true ↔ x ≤ y) ∧
    (Binary8.ge a b = true ↔ y ≤ x) ∧ (Binary8.eq a b = true ↔ x = y) ∧ (Binary8.ne a b = true ↔ x ≠ y) := by
  obtain ⟨a1, hx⟩ := value_num ha.1 ha.2 hx
  obtain ⟨b1, hy⟩ := value_num hb.1 hb.2 hy
  have key : (a < b ↔ x < y) ∧ (b < a ↔ y < x) := by
    have hxa : (0 : ℚ) ≤ mag (a % 128).toNat := by positivity
    have hyb : (0 : ℚ) ≤ mag (b % 128).toNat := by positivity
    by_cases ka : a < 0
    · rw [if_pos ka] at hx
      rw [if_neg (by omega)] at hy
      have h3 : x < y := by
        rcases hz with h | h
        · have : x < 0 := lt_of_le_of_ne (by rw [hx]; linarith) h
          linarith
        · have : 0 < y := lt_of_le_of_ne (by rw [hy]; linarith) (Ne.symm h)
          linarith
      exact ⟨⟨fun _ => h3, fun _ => by omega⟩, ⟨fun _ => by omega, fun h => absurd h (not_lt.mpr h3.le)⟩⟩
    · rw [if_neg ka] at hx
      by_cases kb : b < 0
      · rw [if_pos kb] at hy
        have h3 : y < x := by
          rcases hz with h | h
          · have : 0 < x := lt_of_le_of_ne (by rw [hx]; linarith) (Ne.symm h)
            linarith
          · have : y < 0 := lt_of_le_of_ne (by rw [hy]; linarith) h
            linarith
        exact ⟨⟨fun _ => by omega, fun h => absurd h (not_lt.mpr h3.le)⟩, ⟨fun _ => h3, fun _ => by omega⟩⟩
      · rw [if_neg kb] at hy
        have e1 := mag_lt_iff a1.le b1.le
        have e2 := mag_lt_iff b1.le a1.le
        have f1 : x < y ↔ mag (a % 128).toNat < mag (b % 128).toNat := by
          rw [hx, hy, one_mul, one_mul, div_lt_div_iff_of_pos_right (by norm_num)]; exact_mod_cast Iff.rfl
        have f2 : y < x ↔ mag (b % 128).toNat < mag (a % 128).toNat := by
          rw [hx, hy, one_mul, one_mul, div_lt_div_iff_of_pos_right (by norm_num)]; exact_mod_cast Iff.rfl
        rw [f1, f2, e1, e2]
        omega
  obtain ⟨k1, k2⟩ := key
  unfold Binary8.lt Binary8.gt Binary8.le Binary8.ge Binary8.eq Binary8.ne
  simp only [decide_eq_true_eq]
  refine ⟨k1, k2, ?_, ?_, ?_, ?_⟩
  · rw [← not_lt, ← not_lt, k2]
  · rw [ge_iff_le, ← not_lt, ← not_lt, k1]
  · rw [le_antisymm_iff, le_antisymm_iff, ← not_lt, ← not_lt, ← not_lt, ← not_lt, k1, k2]
  · rw [ne_eq, ne_eq, not_iff_not, le_antisymm_iff, le_antisymm_iff, ← not_lt, ← not_lt, ← not_lt, ← not_lt, k1, k2]

example : value 61 = .num (5 / 4) ∧ value (-68) = .num (-1) ∧ value 3 = .num (3 / 65536) := by decide +kernel

/-- **C47** does not hold for the order of negative numbers: `<` orders every pair of them the wrong way round. -/
theorem C47_lt_wrong {a b : ℤ} (ha : -128 ≤ a ∧ a < 0) (hb : -128 ≤ b ∧ b < 0) {x y : ℚ} (hx : value a = .num x)
    (hy : value b = .num y) : Binary8.lt a b = true ↔ y < x := by
  obtain ⟨a1, hx⟩ := value_num ha.1 (by omega) hx
  obtain ⟨b1, hy⟩ := value_num hb.1 (by omega) hy
  rw [if_pos ha.2] at hx
  rw [if_pos hb.2] at hy
  have e1 := mag_lt_iff a1.le b1.le
  have f1 : y < x ↔ mag (a % 128).toNat < mag (b % 128).toNat := by
    rw [hx, hy, neg_one_mul, neg_one_mul, neg_lt_neg_iff, div_lt_div_iff_of_pos_right (by norm_num)]; exact_mod_cast Iff.rfl
  rw [f1, e1]
  unfold Binary8.lt
  rw [decide_eq_true_eq]
  omega

example : value (-68) = .num (-1) ∧ value (-64) = .num (-2) ∧ Binary8.lt (-68) (-64) = true := by decide +kernel

/-- **C47**, sign: right for every nonzero number. -/
theorem C47_isNegative {v : ℤ} (h1 : -128 ≤ v) (h2 : v ≤ 127) {x : ℚ} (hx : value v = .num x) (h0 : x ≠ 0) :
    Binary8.isNegative v = decide (x < 0) := by
  obtain ⟨-, hx⟩ := value_num h1 h2 hx
  have hm : (0 : ℚ) ≤ mag (v % 128).toNat := by positivity
  unfold Binary8.isNegative
  by_cases hv : v < 0
  · rw [if_pos hv] at hx
    have : x < 0 := lt_of_le_of_ne (by rw [hx]; linarith) h0
    simp [hv, this]
  · rw [if_neg hv] at hx
    have : ¬ x < 0 := by rw [hx]; linarith
    simp [hv, this]

example : value (-66) = .num (-3 / 2) ∧ Binary8.isNegative (-66) = true ∧ value 3 = .num (3 / 65536) ∧ Binary8.isNegative 3 = false := by
  decide +kernel

/-- **C47**, minimum and maximum: right for two numbers that are not both negative, apart from the two zeros … -/
theorem C47_min_max_partial {a b : ℤ} (ha : -128 ≤ a ∧ a ≤ 127) (hb : -128 ≤ b ∧ b ≤ 127) {x y : ℚ} (hx : value a = .num x)
    (hy : value b = .num y) (hs : 0 ≤ a ∨ 0 ≤ b) (hz : x ≠ 0 ∨ y ≠ 0) :
    value (Binary8.min2 a b) = .num (min x y) ∧ value (Binary8.max2 a b) = .num (max x y) := by
  obtain ⟨-, -, h3, h4, -⟩ := C47_lt_partial ha hb hx hy hs hz
  unfold Binary8.le at h3
  unfold Binary8.ge at h4
  rw [decide_eq_true_eq] at h3 h4
  unfold Binary8.min2 Binary8.max2
  constructor
  · by_cases h : a ≤ b
    · rw [if_pos h, hx, min_eq_left (h3.mp h)]
    · rw [if_neg h, hy, min_eq_right]; exact (not_le.mp (mt h3.mpr h)).le
  · by_cases h : a ≥ b
    · rw [if_pos h, hx, max_eq_left (h4.mp h)]
    · rw [if_neg h, hy, max_eq_right]; exact (not_le.mp (mt h4.mpr h)).le

/-- … and exchanged for two negative numbers. -/
theorem C47_min_max_wrong {a b : ℤ} (ha : -128 ≤ a ∧ a < 0) (hb : -128 ≤ b ∧ b < 0) {x y : ℚ} (hx : value a = .num x)
    (hy : value b = .num y) : value (Binary8.min2 a b) = .num (max x y) ∧ value (Binary8.max2 a b) = .num (min x y) := by
  have h1 := C47_lt_wrong ha hb hx hy
  have h2 := C47_lt_wrong hb ha hy hx
  unfold Binary8.lt at h1 h2
  rw [decide_eq_true_eq] at h1 h2
  unfold Binary8.min2 Binary8.max2
  rcases lt_trichotomy a b with h | h | h
  · rw [if_pos h.le, if_neg (by omega), hx, hy, max_eq_left (h1.mp h).le, min_eq_right (h1.mp h).le]; simp
  · subst h
    rw [hx] at hy
    simp [hx, ← XNum.num.inj hy]
  · rw [if_neg (by omega), if_pos h.le, hx, hy, max_eq_right (h2.mp h).le, min_eq_left (h2.mp h).le]; simp

example : value 60 = .num 1 ∧ value (-66) = .num (-3 / 2) ∧ Binary8.min2 60 (-66) = -66 ∧ Binary8.max2 60 (-66) = 60 := by decide +kernel

/-- **C47** does not hold for the two zeros, which compare as different, nor for NaN, which is equal to itself. -/
theorem C47_zero_nan_wrong : value 0 = .num 0 ∧ value (-128) = .num 0 ∧ Binary8.eq 0 (-128) = false ∧
    Binary8.lt (-128) 0 = true ∧ value 126 = .nan ∧ Binary8.eq 126 126 = true ∧ Binary8.lt 0 126 = true := by decide +kernel

/-- **C47** for negation: of the 256 patterns only the zeros and ±2 are negated correctly. -/
theorem C47_neg_iff {v : ℤ} (h1 : -128 ≤ v) (h2 : v ≤ 127) :
    value (Binary8.neg v) = (value v).neg ↔ v = 0 ∨ v = -128 ∨ v = 64 ∨ v = -64 := by
  have : ∀ u : Fin 256, value (Binary8.neg ((u.val : ℤ) - 128)) = (value ((u.val : ℤ) - 128)).neg ↔
      (u.val : ℤ) - 128 = 0 ∨ (u.val : ℤ) - 128 = -128 ∨ (u.val : ℤ) - 128 = 64 ∨ (u.val : ℤ) - 128 = -64 := by decide +kernel
  have h := this ⟨(v + 128).toNat, by omega⟩
  simp only [] at h
  rwa [show (((v + 128).toNat : ℕ) : ℤ) - 128 = v by omega] at h

/-- 2 is negated right, 1 becomes -4 -/
example : value 64 = .num 2 ∧ value (Binary8.neg 64) = .num (-2) ∧ value 60 = .num 1 ∧ value (Binary8.neg 60) = .num (-4) := by decide +kernel

/-- **C47** does not hold for negation: `-(1)` is `-4` and `-NaN` is a number. -/
theorem C47_neg_wrong : value 60 = .num 1 ∧ value (Binary8.neg 60) = .num (-4) ∧ value 126 = .nan ∧
    value (Binary8.neg 126) = .num (-1 / 32768) := by decide +kernel

/-- **C47**, absolute value: right for every pattern. -/
theorem C47_abs {v : ℤ} (h1 : -128 ≤ v) (h2 : v ≤ 127) :
    value (Binary8.abs v) = (match value v with | .num x => .num |x| | .inf _ => .inf false | .nan => .nan) := by
  have : ∀ u : Fin 256, value (Binary8.abs ((u.val : ℤ) - 128)) =
      (match value ((u.val : ℤ) - 128) with | .num x => .num |x| | .inf _ => .inf false | .nan => .nan) := by decide +kernel
  have h := this ⟨(v + 128).toNat, by omega⟩
  simp only [] at h
  rwa [show (((v + 128).toNat : ℕ) : ℤ) - 128 = v by omega] at h

example : value (-68) = .num (-1) ∧ Binary8.abs (-68) = 60 ∧ value (-130 + 256) = .nan := by decide +kernel

/-- **C47**, constants: one, the next number, the greatest finite and the least normal number -/
theorem C47_constants :
    value Binary8.one = .num 1 ∧ value Binary8.afterone = .num (5 / 4) ∧ value Binary8.zero = .num 0 ∧
    value Binary8.max = .num 57344 ∧ value Binary8.min = .num (1 / 16384) ∧
    (∀ v x, -128 ≤ v → v ≤ 127 → value v = .num x → x ≤ 57344) := by
  refine ⟨by decide +kernel, by decide +kernel, by decide +kernel, by decide +kernel, by decide +kernel, ?_⟩
  intro v x h1 h2 hx
  obtain ⟨a1, hx⟩ := value_num h1 h2 hx
  have h3 : mag (v % 128).toNat ≤ mag 123 := by
    by_contra hc
    have := (mag_lt_iff (by norm_num) a1.le).mp (not_le.mp hc)
    omega
  have h4 : (mag (v % 128).toNat : ℚ) ≤ 3758096384 := by
    rw [show mag 123 = 3758096384 by decide +kernel] at h3; exact_mod_cast h3
  have h5 : (0 : ℚ) ≤ mag (v % 128).toNat := by positivity
  rw [hx]
  split_ifs <;> linarith

end Verif
