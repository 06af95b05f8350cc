import Verif.Spec.ViaFloat
import Verif.Model.ViaFloat
import Verif.Props.NarrowConv

/-! # Lemmas for C129: posits through floats -/

namespace Verif
open Fmt

variable {c c' : Cfg} {eb fb : ℕ}

/-- `IsCut` determines the number -/
theorem IsCut.float (heb : 2 ≤ eb) (hfb : 1 ≤ fb) {x : ℚ} {b : ℕ} (h : IsCut eb fb x b) :
    ieee eb fb b = .num (floatCut eb fb x) := by
  obtain ⟨y, hy, h1, h2⟩ := id h
  rw [hy]
  congr 1
  unfold floatCut
  split_ifs with c1 c2 c3
  · exact h1 c1
  · have := h.saturates heb hfb hy c2.le
    have s := (h.sign hy).2 c3.le
    rw [abs_of_nonpos s] at this
    linarith
  · have := h.saturates heb hfb hy c2.le
    have s := (h.sign hy).1 (not_lt.mp c3)
    rwa [abs_of_nonneg s] at this
  · push Not at c1 c2
    obtain ⟨d1, d2, d3⟩ := h2 c1
    have hpos : 0 < |x| := lt_of_lt_of_le minNorm_pos c1
    have two : (1 : ℚ) < 2 := by norm_num
    set e := Int.log 2 |x| with he
    have e1 : (2 : ℚ) ^ e ≤ |x| := by exact_mod_cast Int.zpow_log_le_self (b := 2) (by norm_num) hpos
    have e2 : |x| < (2 : ℚ) ^ (e + 1) := by exact_mod_cast Int.lt_zpow_succ_log_self (b := 2) (by norm_num) |x|
    have hu : (0 : ℚ) < 2 ^ (e - fb) := by positivity
    have hp : (2 : ℚ) ^ fb * 2 ^ (e - fb) = 2 ^ e := by rw [← zpow_natCast, ← zpow_add₀ (by norm_num)]; congr 1; omega
    obtain ⟨k, hk⟩ : ∃ k, k = ⌊|x| / 2 ^ (e - fb)⌋₊ := ⟨_, rfl⟩
    have k1 : (k : ℚ) * 2 ^ (e - fb) ≤ |x| := by
      rw [← le_div_iff₀ hu, hk]; exact Nat.floor_le (by positivity)
    have k2 : |x| < ((k : ℚ) + 1) * 2 ^ (e - fb) := by
      rw [← div_lt_iff₀ hu, hk]; exact Nat.lt_floor_add_one _
    have k3 : 2 ^ fb ≤ k := by
      rw [hk]
      apply Nat.le_floor
      rw [le_div_iff₀ hu]; push_cast; rw [hp]; exact e1
    have k4 : k < 2 ^ (fb + 1) := by
      have : (k : ℚ) * 2 ^ (e - fb) < 2 ^ (fb + 1) * 2 ^ (e - fb) := by
        refine lt_of_le_of_lt k1 (lt_of_lt_of_le e2 ?_)
        rw [zpow_add_one₀ (by norm_num), ← hp, pow_succ]
        exact le_of_eq (by ring)
      exact_mod_cast lt_of_mul_lt_mul_right this hu.le
    have he1 : 2 - 2 ^ (eb - 1) ≤ e := by
      unfold minNorm at c1
      have := (zpow_lt_zpow_iff_right₀ two).mp (lt_of_le_of_lt c1 e2)
      omega
    have hv1 : (2 : ℚ) ^ e ≤ (k : ℚ) * 2 ^ (e - fb) := by
      rw [← hp]; exact mul_le_mul_of_nonneg_right (by exact_mod_cast k3) hu.le
    have hv0 : (0 : ℚ) ≤ k * 2 ^ (e - fb) := by positivity
    obtain ⟨g, hg⟩ := float_of_fits (eb := eb) (fb := fb) heb (x := k * 2 ^ (e - fb))
      ⟨k, e - fb, by rw [abs_of_nonneg (by positivity)]; exact_mod_cast k4, by push_cast; rfl⟩
      (by rw [abs_of_nonneg hv0]; exact le_trans (zpow_le_zpow_right₀ (by norm_num) he1) hv1)
      (by rw [abs_of_nonneg hv0]; exact lt_of_le_of_lt (k1.trans c2) maxFin_lt)
    have h5 := d3 _ _ hg (by rw [abs_of_nonneg hv0]; exact k1)
    rw [abs_of_nonneg hv0] at h5
    obtain ⟨k', hk'⟩ := ieee_grid hy (hv1.trans h5) he1
    have hkk : k' = k := by
      rw [hk'] at h5 d2
      have l1 : (k : ℚ) ≤ k' := le_of_mul_le_mul_right h5 hu
      have l2 : (k' : ℚ) < k + 1 := lt_of_mul_lt_mul_right (lt_of_le_of_lt d2 k2) hu.le
      have l1' : k ≤ k' := by exact_mod_cast l1
      have l2' : k' < k + 1 := by exact_mod_cast l2
      omega
    have hx : x = sq (decide (x < 0)) * |x| := by
      by_cases hn : x < 0
      · simp [sq, hn, abs_of_neg hn]
      · simp [sq, hn, abs_of_nonneg (not_lt.mp hn)]
    have hc : cutSig (fb + 1) x = sq (decide (x < 0)) * (k * 2 ^ (e - fb)) := by
      conv_lhs => rw [hx]
      exact cutSig_of_bounds (decide (x < 0)) k3 k4 k1 k2
    rw [hc, ← hkk, ← hk']
    by_cases hn : x < 0
    · have hy0 : y < 0 := by by_contra hcon; nlinarith
      simp [sq, hn, abs_of_neg hy0]
    · have hy0 : 0 ≤ y := by by_contra hcon; nlinarith
      simp [sq, hn, abs_of_nonneg hy0]

theorem floatCut_zero : floatCut eb fb 0 = 0 := by
  unfold floatCut
  rw [if_pos (by rw [abs_zero]; exact minNorm_pos)]

/-- a number that a float format has, zero or normal -/
theorem floatCut_exact (heb : 2 ≤ eb) {g : ℕ} {x : ℚ} (hg : ieee eb fb g = .num x) (hn : x = 0 ∨ minNorm eb ≤ |x|) : floatCut eb fb x = x := by
  rcases hn with rfl | hn
  · exact floatCut_zero
  · have hle := ieee_le_maxFin heb hg
    unfold floatCut
    rw [if_neg (not_lt.mpr hn), if_neg (not_lt.mpr hle)]
    obtain ⟨n, A, n1, n2, n3⟩ := ieee_nat hg
    have hx : x = sq (decide (x < 0)) * |x| := by
      by_cases hn : x < 0
      · simp [sq, hn, abs_of_neg hn]
      · simp [sq, hn, abs_of_nonneg (not_lt.mp hn)]
    have hA : (0 : ℚ) < 2 ^ A := by positivity
    conv_lhs => rw [hx]
    rw [cutSig_of_bounds (decide (x < 0)) (n3 hn) n1 (x := |x|) (Y := A) n2.ge (by rw [n2]; linarith)]
    rw [← n2]; exact hx.symm

theorem subUnit_pos {F : ℕ} : 0 < subUnit eb F := by unfold subUnit; positivity

theorem readSub_zero {F : ℕ} : readSub eb F 0 = 0 := by
  unfold readSub
  split_ifs
  · simp [cutTo]
  · rfl

/-- no subnormal number arises -/
theorem floatCut_normal (heb : 2 ≤ eb) (hfb : 1 ≤ fb) {x : ℚ} {b : ℕ} (h : IsCut eb fb x b) :
    floatCut eb fb x = 0 ∨ minNorm eb ≤ |floatCut eb fb x| := by
  have hf := h.float heb hfb
  obtain ⟨y, hy, h1, h2⟩ := h
  rw [XNum.num.inj (hf.symm.trans hy)]
  by_cases hx : |x| < minNorm eb
  · exact Or.inl (h1 hx)
  · have hmin := (C51_constants (eb := eb) (fb := fb) (dn := true) heb hfb).2.2.1
    change ieee eb fb _ = .num (minNorm eb) at hmin
    have := (h2 (not_lt.mp hx)).2.2 _ _ hmin (by rw [abs_of_pos minNorm_pos]; exact not_lt.mp hx)
    rw [abs_of_pos minNorm_pos] at this
    exact Or.inr this

/-- the first `n + 1` bits of a number -/
theorem first_bits {x : ℚ} (h0 : x ≠ 0) (n : ℕ) : ∃ (k : ℕ) (Y : ℤ), 2 ^ n ≤ k ∧ k < 2 ^ (n + 1) ∧ (k : ℚ) * 2 ^ Y ≤ |x| ∧
    |x| < ((k : ℚ) + 1) * 2 ^ Y := by
  have hpos : 0 < |x| := abs_pos.mpr h0
  obtain ⟨e, he⟩ : ∃ e, e = Int.log 2 |x| := ⟨_, rfl⟩
  have e1 : (2 : ℚ) ^ e ≤ |x| := by rw [he]; exact_mod_cast Int.zpow_log_le_self (b := 2) (by norm_num) hpos
  have e2 : |x| < (2 : ℚ) ^ (e + 1) := by rw [he]; exact_mod_cast Int.lt_zpow_succ_log_self (b := 2) (by norm_num) |x|
  have hu : (0 : ℚ) < 2 ^ (e - n) := by positivity
  have hp : (2 : ℚ) ^ n * 2 ^ (e - n) = 2 ^ e := by rw [← zpow_natCast, ← zpow_add₀ (by norm_num)]; congr 1; omega
  obtain ⟨k, hk⟩ : ∃ k, k = ⌊|x| / 2 ^ (e - n)⌋₊ := ⟨_, rfl⟩
  have k1 : (k : ℚ) * 2 ^ (e - n) ≤ |x| := by
    rw [← le_div_iff₀ hu, hk]; exact Nat.floor_le (by positivity)
  refine ⟨k, e - n, ?_, ?_, k1, ?_⟩
  · rw [hk]
    apply Nat.le_floor
    rw [le_div_iff₀ hu]; push_cast; rw [hp]; exact e1
  · have : (k : ℚ) * 2 ^ (e - n) < 2 ^ (n + 1) * 2 ^ (e - n) := by
      refine lt_of_le_of_lt k1 (lt_of_lt_of_le e2 ?_)
      rw [zpow_add_one₀ (by norm_num), ← hp, pow_succ]
      exact le_of_eq (by ring)
    exact_mod_cast lt_of_mul_lt_mul_right this hu.le
  · rw [← div_lt_iff₀ hu, hk]; exact Nat.lt_floor_add_one _

theorem signed_abs (x : ℚ) : x = sq (decide (x < 0)) * |x| := by
  by_cases hn : x < 0
  · simp [sq, hn, abs_of_neg hn]
  · simp [sq, hn, abs_of_nonneg (not_lt.mp hn)]

/-- a number of at most `m + 1` significant bits is not cut -/
theorem cutSig_fits {m n : ℕ} {x : ℚ} (h : Fits (m + 1) x) (hmn : m ≤ n) : cutSig (n + 1) x = x := by
  by_cases h0 : x = 0
  · rw [h0, cutSig_zero]
  obtain ⟨k, Y, k1, k2, k3, k4⟩ := first_bits h0 n
  have hk := fits_unit (h.mono (show m + 1 ≤ n + 1 by omega)) (u := k) (Y := Y) (by rw [pow_succ]; omega) k3 k4
  conv_lhs => rw [signed_abs x]
  rw [cutSig_of_bounds (decide (x < 0)) k1 k2 k3 k4, ← hk]
  exact (signed_abs x).symm

theorem fits_cutSig (n : ℕ) (x : ℚ) : Fits (n + 1) (cutSig (n + 1) x) := by
  by_cases h0 : x = 0
  · rw [h0, cutSig_zero]; exact fits_zero _
  obtain ⟨k, Y, k1, k2, k3, k4⟩ := first_bits h0 n
  have hf : Fits (n + 1) ((k : ℚ) * 2 ^ Y) :=
    ⟨k, Y, by rw [abs_of_nonneg (by positivity)]; exact_mod_cast k2, by push_cast; rfl⟩
  rw [signed_abs x, cutSig_of_bounds (decide (x < 0)) k1 k2 k3 k4]
  unfold sq
  split_ifs
  · rw [neg_one_mul]; exact hf.neg
  · rw [one_mul]; exact hf

/-- a number in the normal range of at most `fb + 1` significant bits is not cut to the float format -/
theorem floatCut_fits (heb : 2 ≤ eb) {x : ℚ} (h : Fits (fb + 1) x) (h1 : x = 0 ∨ minNorm eb ≤ |x|)
    (h2 : |x| < 2 ^ ((2 : ℤ) ^ (eb - 1))) : floatCut eb fb x = x := by
  rcases h1 with rfl | h1
  · exact floatCut_zero
  · obtain ⟨g, hg⟩ := float_of_fits heb h h1 h2
    exact floatCut_exact heb hg (Or.inr h1)

/-- the numbers of a posit format, cut to the fraction type, lie between its least and its greatest number -/
theorem cut_bounds (h : c.WF) {v : ℤ} (hv : c.fmt.IsReal v) (h0 : v ≠ 0) :
    (2 : ℚ) ^ (-(c.maxScale : ℤ)) ≤ |cutSig (c.F + 1) (c.fmt.val v)| ∧
      |cutSig (c.F + 1) (c.fmt.val v)| < 2 ^ ((c.maxScale : ℤ) + 1) := by
  obtain ⟨u, hu, hn, hea, -, hreg⟩ := isNum_unpack h hv
  have hur := (hreg h0).1
  rw [← hn.val hur]
  have habs : |u.val c.F| = mag c.F u.exp u.frac := by rw [val_eq, abs_sq _ (mag_pos _ _ _).le]
  rw [abs_le] at hea
  rw [habs]
  have hm : (2 : ℚ) ^ u.exp ≤ mag c.F u.exp u.frac ∧ mag c.F u.exp u.frac < 2 ^ (u.exp + 1) := ⟨le_mag _ _ _, mag_lt hur.2⟩
  exact ⟨le_trans (zpow_le_zpow_right₀ (by norm_num) (by omega)) hm.1,
    lt_of_lt_of_le hm.2 (zpow_le_zpow_right₀ (by norm_num) (by omega))⟩

end Verif
