import Verif.Lemmas.Consts
import Verif.Model.Limits

/-! # The unit range for `es = 0`, exclusive or with the sign bit, representability of `epsilon` -/

namespace Verif
open Fmt

variable {c : Cfg}

/-- without exponent bits the posits up to one are equally spaced -/
theorem posVal_unit0 {N p : ℕ} (hN : 3 ≤ N) (hp : 1 ≤ p) (hle : p ≤ 2 ^ (N - 2)) : posVal N 0 p = (p : ℚ) / 2 ^ (N - 2) := by
  have e1 : 2 ^ (N - 1) = 2 * 2 ^ (N - 2) := by rw [← pow_succ']; congr 1; omega
  obtain ⟨s, h1, h2⟩ := exists_coord (N := N) (es := 0) hp (by omega)
  rw [h2, pow_zero, one_mul]
  have e1q : (2 : ℚ) ^ (N - 1) = 2 * 2 ^ (N - 2) := by exact_mod_cast e1
  rcases lt_or_ge s 0 with hs | hs
  · unfold G at h1
    rw [if_pos hs, e1q] at h1
    have : (0 : ℚ) < 2 ^ (N - 2) := by positivity
    field_simp at h1 ⊢
    linarith
  · -- then `p` is exactly one
    have h3 : G 0 ≤ G s := G_le_iff.mpr hs
    rw [G_unit (by norm_num) (by norm_num), ← h1, e1q] at h3
    have hp' : p = 2 ^ (N - 2) := by
      have : (0 : ℚ) < 2 ^ (N - 2) := by positivity
      rw [le_div_iff₀ (by positivity)] at h3
      have : (2 : ℚ) ^ (N - 2) ≤ p := by linarith
      have : 2 ^ (N - 2) ≤ p := by exact_mod_cast this
      omega
    have h4 : G s = G 0 := by
      rw [← h1, G_unit (by norm_num) (by norm_num), hp', e1q]
      push_cast
      field_simp
      norm_num
    rw [G_inj h4, L_zero, hp']
    push_cast
    field_simp

theorem xor_two_pow_lt {x n : ℕ} (h : x < 2 ^ n) : x ^^^ 2 ^ n = x + 2 ^ n := by
  have h1 := Nat.two_pow_add_eq_or_of_lt h 1
  rw [mul_one] at h1
  rw [add_comm, h1]
  apply Nat.eq_of_testBit_eq
  intro i
  rw [Nat.testBit_xor, Nat.testBit_or, Nat.testBit_two_pow]
  by_cases hi : n = i
  · subst hi; simp [Nat.testBit_lt_two_pow h]
  · simp [hi]

/-- flipping bit `n` of a number whose bits from `n` up to `w` are all set -/
theorem xor_two_pow_high {w n : ℕ} (hn : n < w) {k : ℕ} (h1 : 1 ≤ k) (hk : k ≤ 2 ^ n) :
    (2 ^ w - k) ^^^ 2 ^ n = 2 ^ w - k - 2 ^ n := by
  obtain ⟨d, hd⟩ : ∃ d, w = n + (d + 1) := ⟨w - n - 1, by omega⟩
  have h2d := Nat.one_le_two_pow (n := d)
  have e1 : 2 ^ w = 2 ^ n * (2 * 2 ^ d) := by rw [hd, pow_add, pow_succ]; ring
  have e2 : 2 ^ w - k = 2 ^ n * (2 * (2 ^ d - 1) + 1) + (2 ^ n - k) := by
    have : 2 * (2 ^ d - 1) + 1 + 1 = 2 * 2 ^ d := by omega
    rw [e1, ← this, Nat.mul_add _ (2 * (2 ^ d - 1) + 1) 1]; omega
  have e3 : 2 ^ w - k - 2 ^ n = 2 ^ n * (2 * (2 ^ d - 1)) + (2 ^ n - k) := by
    rw [e2, Nat.mul_add _ (2 * (2 ^ d - 1)) 1]; omega
  rw [e3, e2]
  have hlt : 2 ^ n - k < 2 ^ n := by omega
  rw [Nat.two_pow_add_eq_or_of_lt hlt, Nat.two_pow_add_eq_or_of_lt hlt]
  apply Nat.eq_of_testBit_eq
  intro i
  rw [Nat.testBit_xor, Nat.testBit_or, Nat.testBit_or, Nat.testBit_two_pow, Nat.testBit_two_pow_mul, Nat.testBit_two_pow_mul]
  by_cases hi : n = i
  · subst hi
    simp [Nat.testBit_lt_two_pow hlt]
  · rcases lt_or_gt_of_ne hi with hi' | hi'
    · obtain ⟨j, hj⟩ : ∃ j, i = n + (j + 1) := ⟨i - n - 1, by omega⟩
      have e : i - n = j + 1 := by omega
      simp only [e, hi, decide_false, Bool.xor_false]
      congr 2
      rw [Nat.testBit_succ, Nat.testBit_succ]
      congr 1
      omega
    · simp [hi, show ¬ n ≤ i by omega]

/-- `(v ^ POSIT_SIGNBIT) >> n` of a nonnegative posit adds `2^(N-1)` and shifts -/
theorem xorSignShr_nonneg (h : c.WF) {v : ℤ} (h0 : 0 ≤ v) (hv : v < 2 ^ (c.N - 1)) {n : ℕ} (hn : 1 ≤ n) :
    Posit.xorSignShr c v n = (v + 2 ^ (c.N - 1)) / 2 ^ n := by
  have hN := h.hN
  have hN3 := h.N_ge
  have hH := h.H_pos
  have hP := h.pow_le
  have h2H := two_pow_pred (w := c.H) (by omega)
  have hfin : InS c.H ((v + 2 ^ (c.N - 1)) / 2 ^ n) := by
    have h2 : 0 ≤ (v + 2 ^ (c.N - 1)) / 2 ^ n := by positivity
    have h1 := Int.ediv_mul_le (v + 2 ^ (c.N - 1)) (show (2 : ℤ) ^ n ≠ 0 by positivity)
    have h3 : (2 : ℤ) ^ 1 ≤ 2 ^ n := pow_le_pow_right₀ (by norm_num) hn
    have h4 : (v + 2 ^ (c.N - 1)) / 2 ^ n * 2 ≤ (v + 2 ^ (c.N - 1)) / 2 ^ n * 2 ^ n := by nlinarith
    unfold InS; omega
  obtain ⟨x, rfl⟩ : ∃ x : ℕ, v = x := ⟨v.toNat, by omega⟩
  have hx : x < 2 ^ (c.N - 1) := by exact_mod_cast hv
  have hxH : x < 2 ^ c.H := lt_of_lt_of_le hx (Nat.pow_le_pow_right (by norm_num) (by omega))
  unfold Posit.xorSignShr Cfg.signBit
  split_ifs with hlt
  · have hx32 : x < 2 ^ 32 := lt_of_lt_of_le hxH (Nat.pow_le_pow_right (by norm_num) (by omega))
    rw [wrapU_natCast hx32, xor_two_pow_lt hx, wrapS_of_inS (w := 32) (by norm_num)]
    · push_cast; exact wrapS_of_inS (by omega) hfin
    · have : (2 : ℤ) ^ c.H ≤ 2 ^ (32 - 1) := pow_le_pow_right₀ (by norm_num) (by omega)
      unfold InS; push_cast; omega
  · rw [wrapU_natCast hxH, xor_two_pow_lt hx, Nat.shiftRight_eq_div_pow]
    push_cast
    exact wrapS_of_inS (by omega) hfin

/-- … and of a negative one too, if the posit fills a 32- or 64-bit holder -/
theorem xorSignShr_neg (h : c.WF) (hH : 32 ≤ c.H) (hNH : c.N = c.H) {v : ℤ} (h0 : v < 0) (hv : -(2 ^ (c.N - 1)) ≤ v)
    {n : ℕ} : Posit.xorSignShr c v n = (v + 2 ^ (c.N - 1)) / 2 ^ n := by
  have h2H := two_pow_pred (w := c.H) (by omega)
  have h2Hn := two_pow_pred_nat (w := c.H) (by omega)
  have hp1 := Nat.one_le_two_pow (n := n)
  unfold Posit.xorSignShr Cfg.signBit
  rw [if_neg (by omega), hNH]
  rw [hNH] at hv
  obtain ⟨k, rfl⟩ : ∃ k : ℕ, v = -(k : ℤ) := ⟨(-v).toNat, by omega⟩
  have hk : k ≤ 2 ^ (c.H - 1) := by
    have : (k : ℤ) ≤ 2 ^ (c.H - 1) := by omega
    exact_mod_cast this
  rw [wrapU_of_neg h0 (by omega)]
  have e1 : (-(k : ℤ) + 2 ^ c.H).toNat = 2 ^ c.H - k := by
    have : ((2 ^ c.H : ℕ) : ℤ) = 2 ^ c.H := by push_cast; rfl
    omega
  rw [e1, xor_two_pow_high (by omega) (by omega) hk, Nat.shiftRight_eq_div_pow]
  have e2 : 2 ^ c.H - k - 2 ^ (c.H - 1) = 2 ^ (c.H - 1) - k := by omega
  rw [e2]
  have e3 : (((2 ^ (c.H - 1) - k : ℕ)) : ℤ) = -(k : ℤ) + 2 ^ (c.H - 1) := by
    rw [Nat.cast_sub hk]; push_cast; ring
  have e4 : (((2 ^ (c.H - 1) - k) / 2 ^ n : ℕ) : ℤ) = (-(k : ℤ) + 2 ^ (c.H - 1)) / 2 ^ n := by
    rw [← e3]; push_cast; rfl
  rw [e4]
  apply wrapS_of_inS (by omega)
  have h3 : 0 ≤ (-(k : ℤ) + 2 ^ (c.H - 1)) / 2 ^ n := Int.ediv_nonneg (by omega) (by positivity)
  have h4 : (-(k : ℤ) + 2 ^ (c.H - 1)) / 2 ^ n ≤ -(k : ℤ) + 2 ^ (c.H - 1) := Int.ediv_le_self _ (by omega)
  unfold InS; omega

/-- the distance from one to the next posit is a posit -/
theorem eps_repr (h : c.WF) : ∃ p : ℕ, 1 ≤ p ∧ p ≤ 2 ^ (c.N - 2) ∧ posVal c.N c.es p = 2 ^ (-(c.fb : ℤ)) := by
  have hN3 := h.N_ge
  have hes := h.hes
  have hp : (0 : ℕ) < 2 ^ c.es := by positivity
  have hfb : c.fb = c.N - 3 - c.es := rfl
  by_cases h0 : c.fb = 0
  · refine ⟨2 ^ (c.N - 2), Nat.one_le_two_pow, le_rfl, ?_⟩
    rw [posVal_one' h, h0]; simp
  · -- regime `-q` and exponent `x` with `2^es·q - x = fb`
    set q := (c.fb + 2 ^ c.es - 1) / 2 ^ c.es with hq
    have hdm := Nat.div_add_mod (c.fb + 2 ^ c.es - 1) (2 ^ c.es)
    have hml := Nat.mod_lt (c.fb + 2 ^ c.es - 1) hp
    rw [← hq] at hdm
    set x := 2 ^ c.es * q - c.fb with hx
    have hx1 : x < 2 ^ c.es := by omega
    have hx2 : x + c.fb = 2 ^ c.es * q := by omega
    have hq1 : 1 ≤ q := by
      rcases Nat.eq_zero_or_pos q with hh | hh
      · rw [hh] at hx2; simp at hx2; omega
      · exact hh
    have hqf : q ≤ c.fb := by
      by_contra hc
      have : 2 ^ c.es * (c.fb + 1) ≤ 2 ^ c.es * q := Nat.mul_le_mul_left _ (by omega)
      have h3 : c.fb * 1 ≤ c.fb * 2 ^ c.es := Nat.mul_le_mul_left _ hp
      rw [Nat.mul_add, Nat.mul_comm _ c.fb] at this
      omega
    set m := c.N - 2 - q with hm
    have hmes : c.es ≤ m := by omega
    have hrest : x * 2 ^ (m - c.es) < 2 ^ m := by
      have : 2 ^ m = 2 ^ c.es * 2 ^ (m - c.es) := by rw [← pow_add]; congr 1; omega
      rw [this]; exact Nat.mul_lt_mul_of_pos_right hx1 (by positivity)
    have hd : Dec (c.N - 1) (2 ^ m + x * 2 ^ (m - c.es)) (-(q : ℤ)) m (x * 2 ^ (m - c.es)) :=
      ⟨hrest, Or.inl ⟨by omega, by omega, rfl⟩⟩
    have hm2 : 2 ^ (m + 1) ≤ 2 ^ (c.N - 2) := Nat.pow_le_pow_right (by norm_num) (by omega)
    rw [pow_succ] at hm2
    refine ⟨2 ^ m + x * 2 ^ (m - c.es), ?_, by omega, ?_⟩
    · have := Nat.one_le_two_pow (n := m); omega
    · rw [hd.posVal, ← L_intCast]
      congr 1
      have e1 : ((x * 2 ^ (m - c.es) : ℕ) : ℚ) / 2 ^ m = (x : ℚ) / 2 ^ c.es := by
        have : (2 : ℚ) ^ m = 2 ^ c.es * 2 ^ (m - c.es) := by rw [← pow_add]; congr 1; omega
        rw [this]; push_cast; field_simp
      rw [e1]
      have e2 : (x : ℚ) + c.fb = 2 ^ c.es * q := by exact_mod_cast hx2
      push_cast
      field_simp
      linarith

/-- the posit after one -/
theorem posVal_one_succ (h : c.WF) : posVal c.N c.es (2 ^ (c.N - 2) + 1) = 1 + 2 ^ (-(c.fb : ℤ)) := by
  have hN3 := h.N_ge
  have hes := h.hes
  obtain ⟨e1, e2, -⟩ := pow_split h
  have h1 := Nat.one_le_two_pow (n := c.N - 3)
  rw [posVal_mid hN3 (by omega) (by omega)]
  have e3 : (2 : ℚ) ^ (c.N - 2) = 2 * 2 ^ (c.N - 3) := by exact_mod_cast e2
  have e4 : (2 : ℚ) ^ (c.N - 1) = 4 * 2 ^ (c.N - 3) := by exact_mod_cast e1
  have e5 : (2 : ℚ) ^ (c.N - 3) = 2 ^ c.es * 2 ^ c.fb := by rw [← pow_add]; congr 1; unfold Cfg.fb; omega
  have key : ∀ t : ℚ, t = 2 ^ (-(c.fb : ℤ)) → L t = 1 + 2 ^ (-(c.fb : ℤ)) := by
    rintro t rfl
    by_cases h0 : c.fb = 0
    · have := L_intCast 1
      rw [h0]; norm_num at this ⊢; exact this
    · have hlt : (2 : ℚ) ^ (-(c.fb : ℤ)) < 1 := by
        rw [zpow_neg, zpow_natCast]
        apply inv_lt_one_of_one_lt₀
        exact one_lt_pow₀ (by norm_num) h0
      have := L_int_add 0 (x := (2 : ℚ) ^ (-(c.fb : ℤ))) (by positivity) hlt
      simpa using this
  apply key
  rw [zpow_neg, zpow_natCast]
  push_cast
  simp only [e3, e4, e5]
  field_simp
  ring

end Verif
