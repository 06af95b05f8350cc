import Verif.Lemmas.TabExp2Use
import Verif.Lemmas.NearestGen
import Verif.Lemmas.PositF
import Verif.Spec.TabExp2

/-! # A C function `exp2` applied to posit12 numbers -/

namespace Verif
open Fmt NearGen

variable {e : ℕ → ℕ} {f : ℕ}

theorem two_pow_pos (x : ℚ) : (0 : ℝ) < (2 : ℝ) ^ (x : ℝ) := Real.rpow_pos_of_pos (by norm_num) _

theorem two_pow_int (n : ℤ) : (2 : ℝ) ^ (((n : ℚ)) : ℝ) = (((2 : ℚ) ^ n : ℚ) : ℝ) := by
  rw [Rat.cast_intCast, Real.rpow_intCast]; push_cast; rfl

theorem two_pow_mono {x y : ℚ} (h : x ≤ y) : (2 : ℝ) ^ (x : ℝ) ≤ (2 : ℝ) ^ (y : ℝ) :=
  Real.rpow_le_rpow_of_exponent_le (by norm_num) (by exact_mod_cast h)

/-- `2^-h` for small positive `h` -/
theorem two_pow_neg_le {h : ℝ} (h0 : 0 ≤ h) (h1 : h ≤ 1) : (2 : ℝ) ^ (-h) ≤ 1 - 0.6931 * h + h ^ 2 := by
  rw [Real.rpow_def_of_pos (by norm_num)]
  have l1 := Real.log_two_gt_d9
  have l2 := Real.log_two_lt_d9
  have hu0 : 0.6931 * h ≤ Real.log 2 * h := mul_le_mul_of_nonneg_right (by linarith) h0
  have hu1 : Real.log 2 * h ≤ h := by nlinarith
  have := Real.abs_exp_sub_one_sub_id_le (x := Real.log 2 * -h) (by
    rw [abs_le]; constructor <;> nlinarith)
  have h3 := (abs_le.mp this).2
  have h4 : (Real.log 2 * -h) ^ 2 ≤ h ^ 2 := by
    rw [mul_neg, neg_sq]
    exact pow_le_pow_left₀ (by nlinarith) hu1 2
  linarith

theorem two_pow_neg_ge {h : ℝ} (h0 : 0 ≤ h) : 1 - 0.6932 * h ≤ (2 : ℝ) ^ (-h) := by
  rw [Real.rpow_def_of_pos (by norm_num)]
  have l2 := Real.log_two_lt_d9
  have := Real.add_one_le_exp (Real.log 2 * -h)
  nlinarith

/-- the value is at most `2^n` if the argument is at most `n` -/
theorem IsExp2.le_int (he : IsExp2 e) {x : ℚ} (hf : ieee 8 23 f = .num x) {g : ℕ} {n : ℤ} (hg : ieee 8 23 g = .num n) (h1 : -149 ≤ n)
    (h2 : n < 128) (h : x ≤ n) : ∃ z, ieee 8 23 (e f) = .num z ∧ 0 ≤ z ∧ z ≤ 2 ^ n := by
  have hm := he.mono hf hg h
  rw [he.int hg h1 h2] at hm
  rcases he.nonneg hf with ⟨z, hz, h0⟩ | hz
  · rw [hz] at hm
    exact ⟨z, hz, h0, not_lt.mp hm⟩
  · rw [hz] at hm
    exact absurd (by simp [XNum.Below]) hm

theorem IsExp2.ge_int (he : IsExp2 e) {x z : ℚ} (hf : ieee 8 23 f = .num x) {g : ℕ} {n : ℤ} (hg : ieee 8 23 g = .num n) (h1 : -149 ≤ n)
    (h2 : n < 128) (h : n ≤ x) (hz : ieee 8 23 (e f) = .num z) : 2 ^ n ≤ z := by
  have hm := he.mono hg hf h
  rw [he.int hg h1 h2, hz] at hm
  exact not_lt.mp hm

/-- the numbers of posit12 not above `2^x` are those not above the value of the C function -/
theorem close12 (he : IsExp2 e) {s : ℤ} (hs : Posit12.cfg.fmt.IsReal s) (hf : ieee 8 23 f = .num (Posit12.cfg.fmt.val s))
    (h1 : -126 ≤ Posit12.cfg.fmt.val s) (h2 : Posit12.cfg.fmt.val s < 128)
    (h3 : Posit12.cfg.fmt.val s < 0 → Posit12.cfg.fmt.val s ≤ -1 / 2 ^ 21 ∨ IsExp2Close e ∧ Posit12.cfg.fmt.val s ≤ -3 / 2 ^ 26) :
    ∃ z : ℚ, ieee 8 23 (e f) = .num z ∧ 2 ^ (-126 : ℤ) ≤ z ∧ ∀ v, Posit12.cfg.fmt.IsReal v →
      ((Posit12.cfg.fmt.val v : ℝ) ≤ (2 : ℝ) ^ (Posit12.cfg.fmt.val s : ℝ) ↔ Posit12.cfg.fmt.val v ≤ z) := by
  obtain ⟨z, hz, ha⟩ := he.acc hf h1 h2
  obtain ⟨t0, ht, b, hb, -⟩ := Posit12.exp2_br hs
  have hzl : 2 ^ (-126 : ℤ) ≤ z := he.ge_int hf (g := 0xC2FC0000) (n := -126) (by norm_num [ieee]) (by norm_num) (by norm_num)
    (by exact_mod_cast h1) hz
  have hz0 : (0 : ℝ) < z := by
    have : (0 : ℚ) < 2 ^ (-126 : ℤ) := by positivity
    exact_mod_cast this.trans_le hzl
  refine ⟨z, hz, hzl, fun v hv => ?_⟩
  rw [b.same (hb z ha ?_ ?_ ?_) ht (two_pow_pos _) hz0 hv]
  · exact_mod_cast Iff.rfl
  · intro n hn
    have hf' := hf
    rw [hn] at hf' h1 h2
    have := he.int hf' (by have : (-126 : ℤ) ≤ n := by exact_mod_cast h1
                           omega) (by exact_mod_cast h2)
    rw [hz, XNum.num.injEq] at this
    rw [this, hn, two_pow_int]
  · intro h0
    have := he.ge_int hf (g := 0) (n := 0) (by norm_num [ieee]) (by norm_num) (by norm_num) (by exact_mod_cast h0.le) hz
    rw [zpow_zero] at this
    exact_mod_cast this
  · intro h0
    rcases h3 h0 with h | ⟨hc, h⟩
    · have hm := two_pow_mono h
      have := two_pow_neg_le (h := 1 / 2 ^ 21) (by positivity) (by norm_num)
      rw [show ((-1 / 2 ^ 21 : ℚ) : ℝ) = -(1 / 2 ^ 21) by push_cast; ring] at hm
      have h5 := (abs_le.mp ha).2
      replace hm := hm.trans this
      generalize (2 : ℝ) ^ (Posit12.cfg.fmt.val s : ℝ) = y at *
      norm_num at h5 hm ⊢
      linarith
    · have hm := two_pow_mono h
      have := two_pow_neg_le (h := 3 / 2 ^ 26) (by positivity) (by norm_num)
      rw [show ((-3 / 2 ^ 26 : ℚ) : ℝ) = -(3 / 2 ^ 26) by push_cast; ring] at hm
      by_cases hx : -1 ≤ Posit12.cfg.fmt.val s
      · obtain ⟨y, hy, h5⟩ := hc.close hf hx h0
        rw [hz, XNum.num.injEq] at hy
        subst hy
        have h5 := (abs_le.mp h5).2
        replace hm := hm.trans this
        generalize (2 : ℝ) ^ (Posit12.cfg.fmt.val s : ℝ) = y at *
        norm_num at h5 hm ⊢
        linarith
      · obtain ⟨y, hy, -, h5⟩ := he.le_int hf (g := 0xBF800000) (n := -1) (by norm_num [ieee]) (by norm_num) (by norm_num)
          (by push_cast; linarith)
        rw [hz, XNum.num.injEq] at hy
        subst hy
        have : z < 1 := by norm_num at h5; linarith
        exact_mod_cast this

/-- just below 0 the value is exactly 1 -/
theorem IsExp2Close.one (he : IsExp2Close e) {x : ℚ} (hf : ieee 8 23 f = .num x) (h1 : -1 / 2 ^ 25 ≤ x) (h2 : x < 0) :
    ieee 8 23 (e f) = .num 1 := by
  obtain ⟨z, hz, ha⟩ := he.close hf (by norm_num at h1; linarith) h2
  obtain ⟨y, hy, hy0, hy1⟩ := he.toIsExp2.le_int hf (g := 0) (n := 0) (by norm_num [ieee]) (by norm_num) (by norm_num) (by exact_mod_cast h2.le)
  rw [hz, XNum.num.injEq] at hy
  subst hy
  rw [zpow_zero] at hy1
  have hm := two_pow_mono h1
  rw [show ((-1 / 2 ^ 25 : ℚ) : ℝ) = -(1 / 2 ^ 25) by push_cast; ring] at hm
  have hg := two_pow_neg_ge (h := 1 / 2 ^ 25) (by positivity)
  have h3 := (abs_le.mp ha).1
  have hzl : (1 - 1 / 2 ^ 24 : ℚ) < z := by
    have : ((1 - 1 / 2 ^ 24 : ℚ) : ℝ) < z := by 
      replace hm := hg.trans hm
      generalize (2 : ℝ) ^ (x : ℝ) = y at *
      push_cast; norm_num at h3 hm ⊢; linarith
    exact_mod_cast this
  rw [hz]
  congr 1
  obtain ⟨s, k, hs, hk, -, hq⟩ := ieee_num_gen hz
  have hs1 : ¬ s = 1 := fun h => by
    rw [if_pos h] at hq
    have := g_nonneg (eb := 8) (fb := 23) k
    norm_num at hzl
    linarith
  rw [if_neg hs1, one_mul] at hq
  have val : ∀ j, j < top 8 23 → ieee 8 23 j = .num (g 8 23 j) := by
    intro j hj
    have ht : top 8 23 < 2 ^ (8 + 23) := by norm_num [top]
    have := ieee_gen (eb := 8) (fb := 23) 0 j (by norm_num) (by omega)
    rw [zero_mul, zero_add, if_pos hj] at this
    simpa using this
  have e1 : g 8 23 0x3f800000 = 1 := by
    have := val 0x3f800000 (by norm_num [top])
    rw [show ieee 8 23 0x3f800000 = .num 1 by norm_num [ieee], XNum.num.injEq] at this
    exact this.symm
  have e2 : g 8 23 0x3f7fffff = 1 - 1 / 2 ^ 24 := by
    have := val 0x3f7fffff (by norm_num [top])
    rw [show ieee 8 23 0x3f7fffff = .num (1 - 1 / 2 ^ 24) by norm_num [ieee], XNum.num.injEq] at this
    exact this.symm
  rw [hq, ← e2] at hzl
  rw [hq, ← e1] at hy1
  have i1 := (g_mono (eb := 8) (fb := 23)).lt_iff_lt.1 hzl
  have i2 := (g_mono (eb := 8) (fb := 23)).le_iff_le.1 hy1
  rw [hq, show k = 0x3f800000 by omega, e1]

/-- the values below the normal range, from their arguments -/
theorem IsExp2.sub (he : IsExp2 e) {x : ℚ} (hf : ieee 8 23 f = .num x) (h : x ≤ -143) :
    fExp 8 23 (e f) = 0 ∧ fMan 23 (e f) < 2 ^ 7 := by
  obtain ⟨z, hz, h0, h1⟩ := he.le_int hf (g := 0xC30F0000) (n := -143) (by norm_num [ieee]) (by norm_num) (by norm_num)
    (by push_cast; linarith)
  obtain ⟨s, k, hs, hk, hm, hq⟩ := ieee_num_gen hz
  have gs : g 8 23 64 = 2 ^ (-143 : ℤ) := by rw [g_sub _ (by norm_num)]; norm_num
  have hk64 : k ≤ 64 := by
    by_contra hc
    have := (g_mono (eb := 8) (fb := 23)).lt_iff_lt.2 (show 64 < k by omega)
    rw [gs] at this
    split_ifs at hq
    · have : (0 : ℚ) < 2 ^ (-143 : ℤ) := by positivity
      linarith
    · linarith
  have hlt := he.lt f
  rw [Nat.mod_eq_of_lt hlt] at hm
  rw [hm]
  unfold fExp fMan
  have : s = 0 ∨ s = 1 := by omega
  rcases this with rfl | rfl
  · constructor <;> omega
  · constructor <;> omega

/-- the bits of the values below the normal range for integers -/
theorem IsExp2.bits (he : IsExp2 e) {n : ℕ} (hn : n < 23) (hf : ieee 8 23 f = .num ((n : ℤ) - 149 : ℤ)) : e f = 2 ^ n := by
  have hz := he.int hf (by omega) (by omega)
  obtain ⟨s, k, hs, hk, hm, hq⟩ := ieee_num_gen hz
  have hp : (0 : ℚ) < 2 ^ ((n : ℤ) - 149) := by positivity
  have hs1 : ¬ s = 1 := fun h => by
    rw [if_pos h] at hq
    have := g_nonneg (eb := 8) (fb := 23) k
    linarith
  have hlt := he.lt f
  rw [Nat.mod_eq_of_lt hlt] at hm
  rw [hm, show s = 0 by omega, zero_mul, zero_add]
  rw [if_neg hs1, one_mul] at hq
  have gs : g 8 23 (2 ^ n) = 2 ^ ((n : ℤ) - 149) := by
    rw [g_sub _ (Nat.pow_le_pow_right (by norm_num) (by omega)), show (n : ℤ) - 149 = (n : ℤ) + (2 - 2 ^ (8 - 1) - (23 : ℕ)) by norm_num; ring,
      zpow_add₀ (by norm_num), zpow_natCast]
    push_cast; rfl
  rw [← gs] at hq
  exact (g_mono.injective hq).symm

end Verif
