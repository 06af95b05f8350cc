import Mathlib.Analysis.Complex.ExponentialBounds
import Verif.Spec.Sigmoid
import Verif.Lemmas.Activation

/-! # The piecewise linear sigmoid: position of its values, distance from the logistic function -/

namespace Verif
open Fmt

theorem log_L (s : ℚ) : Int.log 2 (L s) = ⌊s⌋ := by
  have h1 := L_lower s
  have h2 := L_upper s
  have hp := L_pos s
  have a : ⌊s⌋ ≤ Int.log 2 (L s) := (Int.zpow_le_iff_le_log (by norm_num) hp).mp (by exact_mod_cast h1)
  have b : Int.log 2 (L s) < ⌊s⌋ + 1 := (Int.lt_zpow_iff_log_lt (by norm_num) hp).mp (by exact_mod_cast h2)
  omega

theorem sigmoidPos_L (s : ℚ) : sigmoidPos (L s) = (1 + G s) / 2 := by
  unfold sigmoidPos
  rcases lt_trichotomy s 0 with hs | rfl | hs
  · have : L s < 1 := by rw [← L_zero]; exact L_lt_iff.mpr hs
    rw [if_pos this.le, G, if_pos hs]; ring
  · rw [L_zero, G_unit (by norm_num) (by norm_num)]; norm_num
  · have : 1 < L s := by rw [← L_zero]; exact L_lt_iff.mpr hs
    rw [if_neg (by linarith), log_L]
    obtain ⟨r, hr⟩ : ∃ r : ℕ, ⌊s⌋ = r := ⟨⌊s⌋.toNat, by have := Int.floor_nonneg.mpr hs.le; omega⟩
    have h0 := Int.fract_nonneg s
    have h1 := Int.fract_lt_one s
    have hsf : s = (r : ℚ) + Int.fract s := by
      have := Int.floor_add_fract s
      rw [hr] at this; push_cast at this; linarith
    have hG := G_nonneg r h0 h1
    rw [← hsf] at hG
    rw [hG, L, hr]
    have e1 : (2 : ℚ) ^ ((r : ℤ) + 2) = 4 * 2 ^ r := by rw [zpow_add₀ (by norm_num), zpow_natCast]; ring
    have e2 : (2 : ℚ) ^ (2 * (r : ℤ) + 3) = 8 * 2 ^ r * 2 ^ r := by
      rw [zpow_add₀ (by norm_num), two_mul, zpow_add₀ (by norm_num), zpow_natCast]; ring
    have e3 : (2 : ℚ) ^ (r + 2) = 4 * 2 ^ r := by rw [pow_add]; ring
    rw [e1, e2, e3, zpow_natCast]
    have : (0 : ℚ) < 2 ^ r := by positivity
    field_simp
    ring

/-! ## Distance from the logistic function -/

theorem logistic_neg (x : ℝ) : logistic (-x) = 1 - logistic x := by
  unfold logistic
  rw [neg_neg, Real.exp_neg]
  have := Real.exp_pos x
  field_simp
  ring

/-- upper estimate of `σ - curve` on a piece `1 - (b-x)/d - 1/20` -/
theorem logistic_le {x y d b : ℝ} (hd : 0 < d) (h : (b - x) * (1 + Real.exp x) ≤ d) (hy : y = 1 - (b - x) / d) :
    logistic x ≤ y := by
  have hx := Real.exp_pos x
  have : logistic x = 1 - 1 / (1 + Real.exp x) := by
    unfold logistic
    rw [Real.exp_neg]
    field_simp
    ring
  rw [this, hy]
  have : (b - x) / d ≤ 1 / (1 + Real.exp x) := by
    rw [div_le_div_iff₀ hd (by linarith)]; linarith
  linarith

theorem le_logistic {x y : ℝ} (h0 : 0 ≤ x) (h : y * (2 + x + x ^ 2 / 2) ≤ 1 + x + x ^ 2 / 2) : y ≤ logistic x := by
  have hx := Real.exp_pos x
  have hq := Real.quadratic_le_exp_of_nonneg h0
  have : logistic x = Real.exp x / (1 + Real.exp x) := by
    unfold logistic
    rw [Real.exp_neg]
    field_simp
  rw [this, le_div_iff₀ (by linarith)]
  have h1 : y ≤ (1 + x + x ^ 2 / 2) / (2 + x + x ^ 2 / 2) := by rw [le_div_iff₀ (by positivity)]; exact h
  have h2 : (1 + x + x ^ 2 / 2) / (2 + x + x ^ 2 / 2) ≤ Real.exp x / (1 + Real.exp x) := by
    rw [div_le_div_iff₀ (by positivity) (by linarith)]; nlinarith
  have h3 := h1.trans h2
  rwa [le_div_iff₀ (by linarith)] at h3

theorem mul_exp_le (a x : ℝ) : (a + 1 - x) * Real.exp x ≤ Real.exp a := by
  have h1 := Real.add_one_le_exp (a - x)
  have h2 : Real.exp a = Real.exp (a - x) * Real.exp x := by rw [← Real.exp_add]; congr 1; ring
  rw [h2]
  have := Real.exp_pos x
  nlinarith

theorem exp_rat_le {a : ℝ} (n m : ℕ) (hm : 0 < m) (ha : a * m = n) {b : ℝ} (hb : 0 ≤ b) (h : (2.7182818286 : ℝ) ^ n ≤ b ^ m) :
    Real.exp a ≤ b := by
  have h1 : Real.exp a ^ m = Real.exp 1 ^ n := by
    rw [← Real.exp_nat_mul, ← Real.exp_nat_mul, mul_comm, ha, mul_one]
  have h2 : Real.exp 1 ^ n ≤ (2.7182818286 : ℝ) ^ n :=
    pow_le_pow_left₀ (Real.exp_pos 1).le Real.exp_one_lt_d9.le n
  refine le_of_pow_le_pow_left₀ (n := m) (by omega) hb ?_
  rw [h1]; exact h2.trans h

theorem near_unit {x : ℝ} (h0 : 0 ≤ x) (h1 : x ≤ 1) : |(2 + x) / 4 - logistic x| ≤ 1 / 20 := by
  rw [abs_le]
  have ha : logistic x ≤ (2 + x) / 4 + 1 / 20 := by
    apply logistic_le (d := 4) (b := 9 / 5) (by norm_num) _ (by ring)
    rcases le_or_gt x (1 / 10) with hx | hx
    · have h2 : Real.exp x ≤ Real.exp (1 / 10) := Real.exp_le_exp.mpr hx
      have h3 : Real.exp (1 / 10) ≤ 6 / 5 := exp_rat_le 1 10 (by norm_num) (by norm_num) (by norm_num) (by norm_num)
      nlinarith
    · have h2 := mul_exp_le (4 / 5) x
      have h3 : Real.exp (4 / 5) ≤ 23 / 10 := exp_rat_le 4 5 (by norm_num) (by norm_num) (by norm_num) (by norm_num)
      nlinarith
  have hb : (2 + x) / 4 - 1 / 20 ≤ logistic x := by
    apply le_logistic h0
    nlinarith [mul_nonneg h0 (sub_nonneg.mpr h1), mul_nonneg (mul_nonneg h0 h0) (sub_nonneg.mpr h1)]
  constructor <;> linarith

theorem near_two {x : ℝ} (h0 : 1 ≤ x) (h1 : x ≤ 2) : |3 / 4 + (x - 1) / 8 - logistic x| ≤ 1 / 20 := by
  rw [abs_le]
  have ha : logistic x ≤ 3 / 4 + (x - 1) / 8 + 1 / 20 := by
    apply logistic_le (d := 8) (b := 13 / 5) (by norm_num) _ (by ring)
    have h2 := mul_exp_le (8 / 5) x
    have h3 : Real.exp (8 / 5) ≤ 5 := exp_rat_le 8 5 (by norm_num) (by norm_num) (by norm_num) (by norm_num)
    nlinarith
  have hb : 3 / 4 + (x - 1) / 8 - 1 / 20 ≤ logistic x := by
    apply le_logistic (by linarith)
    nlinarith [mul_nonneg (sub_nonneg.mpr h0) (sub_nonneg.mpr h1),
      mul_nonneg (sub_nonneg.mpr h0) (mul_nonneg (sub_nonneg.mpr h0) (sub_nonneg.mpr h1))]
  constructor <;> linarith

theorem near_four {x : ℝ} (h0 : 2 ≤ x) (h1 : x ≤ 4) : |7 / 8 + (x - 2) / 32 - logistic x| ≤ 1 / 20 := by
  rw [abs_le]
  have ha : logistic x ≤ 7 / 8 + (x - 2) / 32 + 1 / 20 := by
    apply logistic_le (d := 32) (b := 22 / 5) (by norm_num) _ (by ring)
    rcases le_or_gt x (5 / 2) with hx | hx
    · have h2 : Real.exp x ≤ Real.exp (5 / 2) := Real.exp_le_exp.mpr hx
      have h3 : Real.exp (5 / 2) ≤ 61 / 5 := exp_rat_le 5 2 (by norm_num) (by norm_num) (by norm_num) (by norm_num)
      nlinarith [Real.exp_pos x]
    · have h2 := mul_exp_le (17 / 5) x
      have h3 : Real.exp (17 / 5) ≤ 30 := exp_rat_le 17 5 (by norm_num) (by norm_num) (by norm_num) (by norm_num)
      nlinarith
  have hb : 7 / 8 + (x - 2) / 32 - 1 / 20 ≤ logistic x := by
    apply le_logistic (by linarith)
    nlinarith [mul_nonneg (sub_nonneg.mpr h0) (sub_nonneg.mpr h1),
      mul_nonneg (sub_nonneg.mpr h0) (mul_nonneg (sub_nonneg.mpr h0) (sub_nonneg.mpr h1))]
  constructor <;> linarith

theorem logistic_lt_one (x : ℝ) : logistic x < 1 := by
  unfold logistic
  have := Real.exp_pos (-x)
  rw [div_lt_one (by linarith)]; linarith

theorem near_eight {x : ℝ} (h0 : 4 ≤ x) (h1 : x ≤ 8) : |15 / 16 + (x - 4) / 128 - logistic x| ≤ 1 / 20 := by
  rw [abs_le]
  have ha : logistic x ≤ 15 / 16 + (x - 4) / 128 + 1 / 20 := by
    apply logistic_le (d := 128) (b := 28 / 5) (by norm_num) _ (by ring)
    have h2 := mul_exp_le (23 / 5) x
    have h3 : Real.exp (23 / 5) ≤ 100 := exp_rat_le 23 5 (by norm_num) (by norm_num) (by norm_num) (by norm_num)
    nlinarith
  have hb : 15 / 16 + (x - 4) / 128 - 1 / 20 ≤ logistic x := by
    have : (19 / 20 : ℝ) ≤ logistic x := by
      unfold logistic
      have h5 : Real.exp (-x) ≤ 1 / 19 := by
        rw [Real.exp_neg, inv_eq_one_div]
        apply one_div_le_one_div_of_le (by norm_num)
        have := Real.exp_one_gt_d9
        have h6 : Real.exp 4 = Real.exp 1 ^ 4 := by rw [← Real.exp_nat_mul]; norm_num
        have h7 : (27 / 10 : ℝ) ^ 4 ≤ Real.exp 1 ^ 4 := pow_le_pow_left₀ (by norm_num) (by linarith) 4
        have h8 : Real.exp 4 ≤ Real.exp x := Real.exp_le_exp.mpr h0
        rw [h6] at h8
        norm_num at h7
        linarith
      have := Real.exp_pos (-x)
      rw [le_div_iff₀ (by linarith)]; linarith
    linarith
  constructor <;> linarith

theorem near_far {x y : ℝ} (h0 : 8 ≤ x) (h1 : 31 / 32 ≤ y) (h2 : y ≤ 1) : |y - logistic x| ≤ 1 / 20 := by
  have h8 := near_eight (x := 8) (by norm_num) le_rfl
  have hm : logistic 8 ≤ logistic x := by
    unfold logistic
    apply one_div_le_one_div_of_le
    · have := Real.exp_pos (-x); linarith
    · have : Real.exp (-x) ≤ Real.exp (-8) := Real.exp_le_exp.mpr (by linarith)
      linarith
  have h3 := logistic_lt_one x
  have h19 : (19 / 20 : ℝ) ≤ logistic 8 := by
    rw [abs_le] at h8
    have := h8.2
    have h9 := le_logistic (x := 8) (y := 19 / 20) (by norm_num) (by norm_num)
    exact h9
  rw [abs_le]
  constructor <;> linarith

theorem sigmoidPos_near {x : ℚ} (h0 : 0 ≤ x) : |((sigmoidPos x : ℚ) : ℝ) - logistic x| ≤ 1 / 20 := by
  have h0' : (0 : ℝ) ≤ (x : ℝ) := by exact_mod_cast h0
  unfold sigmoidPos
  split_ifs with hx
  · push_cast
    exact near_unit h0' (by exact_mod_cast hx)
  · have hx1 : 1 < x := not_le.mp hx
    have hpos : 0 < x := by linarith
    have hl := Int.zpow_log_le_self (b := 2) (by norm_num) hpos
    have hu := Int.lt_zpow_succ_log_self (b := 2) (by norm_num) x
    push_cast at hl hu
    have hk0 : 0 ≤ Int.log 2 x := (Int.zpow_le_iff_le_log (by norm_num) hpos).mp (by simpa using hx1.le)
    obtain ⟨k, hk⟩ : ∃ k : ℕ, Int.log 2 x = k := ⟨(Int.log 2 x).toNat, by omega⟩
    rw [hk] at hl hu ⊢
    have hl' : (2 : ℝ) ^ (k : ℤ) ≤ x := by exact_mod_cast hl
    have hu' : (x : ℝ) < 2 ^ ((k : ℤ) + 1) := by exact_mod_cast hu
    push_cast
    match k, hl', hu' with
    | 0, hl', hu' => norm_num at hl' hu' ⊢; have := near_two hl' hu'.le; norm_num at this; exact this
    | 1, hl', hu' => norm_num at hl' hu' ⊢; have := near_four hl' hu'.le; norm_num at this; exact this
    | 2, hl', hu' => norm_num at hl' hu' ⊢; have := near_eight hl' hu'.le; norm_num at this; exact this
    | n + 3, hl', hu' =>
      have e1 : (2 : ℝ) ^ (((n + 3 : ℕ) : ℤ) + 2) = 32 * 2 ^ n := by
        rw [show ((n + 3 : ℕ) : ℤ) + 2 = (n : ℤ) + 5 by push_cast; ring, zpow_add₀ (by norm_num), zpow_natCast]; norm_num; ring
      have e2 : (2 : ℝ) ^ (2 * ((n + 3 : ℕ) : ℤ) + 3) = 512 * 2 ^ n * 2 ^ n := by
        rw [show 2 * ((n + 3 : ℕ) : ℤ) + 3 = (n : ℤ) + n + 9 by push_cast; ring, zpow_add₀ (by norm_num), zpow_add₀ (by norm_num),
          zpow_natCast]; norm_num; ring
      have e3 : (2 : ℝ) ^ ((n + 3 : ℕ) : ℤ) = 8 * 2 ^ n := by
        rw [zpow_natCast, pow_add]; ring
      have e4 : (2 : ℝ) ^ (((n + 3 : ℕ) : ℤ) + 1) = 16 * 2 ^ n := by
        rw [show ((n + 3 : ℕ) : ℤ) + 1 = (n : ℤ) + 4 by push_cast; ring, zpow_add₀ (by norm_num), zpow_natCast]; norm_num; ring
      rw [e3] at hl'
      rw [e4] at hu'
      have hq : (1 : ℝ) ≤ 2 ^ n := one_le_pow₀ (by norm_num)
      rw [e1, e2, e3]
      obtain ⟨q, hqe⟩ : ∃ q : ℝ, q = 2 ^ n := ⟨_, rfl⟩
      rw [← hqe] at hq hl' hu' ⊢
      apply near_far (by linarith)
      · have a : 1 / (32 * q) ≤ 1 / 32 := by apply one_div_le_one_div_of_le <;> linarith
        have b : 0 ≤ ((x : ℝ) - 8 * q) / (512 * q * q) := div_nonneg (by linarith) (by positivity)
        linarith
      · have b : ((x : ℝ) - 8 * q) / (512 * q * q) ≤ 1 / (32 * q) := by
          rw [div_le_div_iff₀ (by positivity) (by positivity)]; nlinarith
        linarith

theorem sigmoidPL_near (x : ℚ) : |((sigmoidPL x : ℚ) : ℝ) - logistic x| ≤ 1 / 20 := by
  unfold sigmoidPL
  split_ifs with hx
  · have h1 := sigmoidPos_near (x := -x) (by linarith)
    push_cast at h1 ⊢
    rw [logistic_neg] at h1
    rw [abs_le] at h1 ⊢
    constructor <;> linarith [h1.1, h1.2]
  · exact sigmoidPos_near (not_lt.mp hx)

end Verif
