import Verif.Lemmas.Low

/-! # Values of the named constants, reciprocals of powers of two -/

namespace Verif
open Fmt

variable {c : Cfg}

theorem G_unit {s : ℚ} (h1 : -1 ≤ s) (h2 : s ≤ 1) : G s = 1 / 2 + s / 4 := by
  rcases lt_or_ge s 0 with hs | hs
  · have := G_neg 1 le_rfl (x := s + 1) (by linarith) (by linarith)
    rw [show -((1 : ℕ) : ℚ) + (s + 1) = s by push_cast; ring] at this
    rw [this]; norm_num; ring
  · rcases eq_or_lt_of_le h2 with h | h
    · have := G_nonneg 1 (x := 0) le_rfl (by norm_num)
      rw [show ((1 : ℕ) : ℚ) + 0 = s by push_cast; linarith] at this
      rw [this, h]; norm_num
    · have := G_nonneg 0 (x := s) hs h
      rw [show ((0 : ℕ) : ℚ) + s = s by push_cast; ring] at this
      rw [this]; norm_num; ring

theorem G_inj {s t : ℚ} (h : G s = G t) : s = t := G_strictMono.injective h

theorem G_reflect (s : ℚ) : G (-s) = 1 - G s := by
  rcases lt_trichotomy s 0 with h | h | h
  · unfold G
    rw [if_neg (by linarith), if_pos h, neg_neg]
  · subst h
    rw [neg_zero, G_unit (by norm_num) (by norm_num)]; norm_num
  · unfold G
    rw [if_pos (by linarith), if_neg (by linarith)]; ring

/-- the value of a body from its position -/
theorem posVal_of_G {N es p : ℕ} (hp : 1 ≤ p) (hlt : p < 2 ^ (N - 1)) {s : ℚ} (h : (p : ℚ) / 2 ^ (N - 1) = G s) :
    posVal N es p = L (2 ^ es * s) := by
  obtain ⟨s', h1, h2⟩ := exists_coord (es := es) hp hlt
  rw [h2, G_inj (h1.symm.trans h)]

/-- on the middle of the body range the coordinate is linear -/
theorem posVal_mid {N es p : ℕ} (hN : 3 ≤ N) (h1 : 2 ^ (N - 3) ≤ p) (h2 : p ≤ 3 * 2 ^ (N - 3)) :
    posVal N es p = L (2 ^ es * ((p : ℚ) / 2 ^ (N - 3) - 2)) := by
  have e : 2 ^ (N - 1) = 4 * 2 ^ (N - 3) := by rw [show N - 1 = (N - 3) + 2 by omega, pow_add]; norm_num; ring
  have hp : 1 ≤ 2 ^ (N - 3) := Nat.one_le_two_pow
  apply posVal_of_G (by omega) (by omega)
  have hq : (0 : ℚ) < 2 ^ (N - 3) := by positivity
  have k1 : (2 : ℚ) ^ (N - 3) ≤ p := by exact_mod_cast h1
  have k2 : (p : ℚ) ≤ 3 * 2 ^ (N - 3) := by exact_mod_cast h2
  rw [G_unit, show (2 : ℚ) ^ (N - 1) = 4 * 2 ^ (N - 3) by exact_mod_cast e]
  · field_simp; ring
  · rw [neg_le_sub_iff_le_add]
    have : 1 ≤ (p : ℚ) / 2 ^ (N - 3) := by rw [le_div_iff₀ hq]; linarith
    linarith
  · have : (p : ℚ) / 2 ^ (N - 3) ≤ 3 := by rw [div_le_iff₀ hq]; linarith
    linarith

theorem invertBit_lt (h : c.WF) : (2 : ℤ) ^ (c.N - 2) < 2 ^ (c.N - 1) ∧ (2 : ℤ) ^ (c.N - 1) = 2 * 2 ^ (c.N - 2) := by
  have := h.N_ge
  have e : (2 : ℤ) ^ (c.N - 1) = 2 * 2 ^ (c.N - 2) := by
    rw [show c.N - 1 = (c.N - 2) + 1 by omega, pow_succ]; ring
  have : (0 : ℤ) < 2 ^ (c.N - 2) := by positivity
  exact ⟨by omega, e⟩

theorem one_eq (h : c.WF) : c.one = 2 ^ (c.N - 2) := by
  unfold Cfg.one Cfg.invertBit
  have := h.pow_le
  have := invertBit_lt h
  have : (0 : ℤ) < 2 ^ (c.N - 2) := by positivity
  rw [wrapS_of_inS (by have := h.H_pos; omega)]
  · push_cast; rfl
  · unfold InS; push_cast; omega

theorem mone_eq (h : c.WF) : c.mone = -(2 ^ (c.N - 2)) := by
  unfold Cfg.mone
  rw [one_eq h]
  have := h.pow_le
  have := invertBit_lt h
  have : (0 : ℤ) < 2 ^ (c.N - 2) := by positivity
  exact wrapS_of_inS (by have := h.H_pos; omega) (by unfold InS; omega)

/-- powers of two that split the body range, as sums -/
theorem pow_split (h : c.WF) : 2 ^ (c.N - 1) = 4 * 2 ^ (c.N - 3) ∧ 2 ^ (c.N - 2) = 2 * 2 ^ (c.N - 3) ∧
    2 ^ (c.N - 3) = 2 ^ c.es * 2 ^ (c.N - 3 - c.es) := by
  have := h.N_ge
  have := h.hes
  refine ⟨?_, ?_, ?_⟩
  · rw [show c.N - 1 = (c.N - 3) + 2 by omega, pow_add]; norm_num; ring
  · rw [show c.N - 2 = (c.N - 3) + 1 by omega, pow_succ]; ring
  · rw [← pow_add]; congr 1; omega

theorem maxBody_ge (h : c.WF) : 2 ^ (c.N - 1) - 2 ≤ c.fmt.maxBody ∧ c.fmt.maxBody ≤ 2 ^ (c.N - 1) - 1 := by
  unfold Format.maxBody; simp only [fmt_N]; split_ifs <;> omega

theorem posVal_one' (h : c.WF) : posVal c.N c.es (2 ^ (c.N - 2)) = 1 := by
  obtain ⟨-, e2, -⟩ := pow_split h
  rw [posVal_mid h.N_ge (by omega) (by omega), e2]
  have : ((2 * 2 ^ (c.N - 3) : ℕ) : ℚ) / 2 ^ (c.N - 3) - 2 = 0 := by push_cast; field_simp; norm_num
  rw [this, mul_zero, L_zero]

theorem one_real (h : c.WF) : c.fmt.IsReal c.one ∧ c.one ≠ 0 := by
  have hm := maxBody_ge h
  obtain ⟨e1, e2, -⟩ := pow_split h
  have : 1 ≤ 2 ^ (c.N - 3) := Nat.one_le_two_pow
  rw [one_eq h, Format.isReal_iff]
  have e : (2 : ℤ) ^ (c.N - 2) = ((2 ^ (c.N - 2) : ℕ) : ℤ) := by push_cast; rfl
  rw [e]
  constructor
  · simp only [Int.natAbs_natCast]; omega
  · have : 0 < 2 ^ (c.N - 2) := by positivity
    omega

theorem val_one (h : c.WF) : c.fmt.val c.one = 1 := by
  rw [one_eq h, show (2 : ℤ) ^ (c.N - 2) = ((2 ^ (c.N - 2) : ℕ) : ℤ) by push_cast; rfl, Format.val_natCast Nat.one_le_two_pow]
  exact posVal_one' h

theorem or_two (h : c.WF) : c.invertBit ||| (c.invertBit >>> (1 + c.es)) = 2 ^ (c.N - 2) + 2 ^ (c.N - 3 - c.es) := by
  have := h.hes
  unfold Cfg.invertBit
  rw [Nat.shiftRight_eq_div_pow, Nat.pow_div (by omega) (by norm_num), Nat.or_comm]
  have hlt : 2 ^ (c.N - 3 - c.es) < 2 ^ (c.N - 2) := Nat.pow_lt_pow_right (by norm_num) (by omega)
  have := or_eq_add (a := 2 ^ (c.N - 3 - c.es)) 1 hlt
  rw [mul_one] at this
  rw [show c.N - 2 - (1 + c.es) = c.N - 3 - c.es by omega, this]

theorem two_eq (h : c.WF) : c.two = 2 ^ (c.N - 2) + 2 ^ (c.N - 3 - c.es) := by
  unfold Cfg.two
  rw [or_two h]
  have hp := h.pow_le
  obtain ⟨e1, e2, e3⟩ := pow_split h
  have k1 : 2 ^ (c.N - 3 - c.es) ≤ 2 ^ (c.N - 3) := Nat.pow_le_pow_right (by norm_num) (by omega)
  have : 1 ≤ 2 ^ (c.N - 3) := Nat.one_le_two_pow
  have hlt : 2 ^ (c.N - 2) + 2 ^ (c.N - 3 - c.es) < 2 ^ (c.N - 1) := by omega
  have hlt' : ((2 ^ (c.N - 2) + 2 ^ (c.N - 3 - c.es) : ℕ) : ℤ) < 2 ^ (c.N - 1) := by exact_mod_cast hlt
  have hnn : (0 : ℤ) ≤ ((2 ^ (c.N - 2) + 2 ^ (c.N - 3 - c.es) : ℕ) : ℤ) := Int.natCast_nonneg _
  rw [wrapS_of_inS (by have := h.H_pos; omega)]
  · push_cast; rfl
  · unfold InS
    generalize ((2 ^ (c.N - 2) + 2 ^ (c.N - 3 - c.es) : ℕ) : ℤ) = z at *
    omega

theorem posVal_two (h : c.WF) : posVal c.N c.es (2 ^ (c.N - 2) + 2 ^ (c.N - 3 - c.es)) = 2 := by
  obtain ⟨-, e2, e3⟩ := pow_split h
  have k1 : 2 ^ (c.N - 3 - c.es) ≤ 2 ^ (c.N - 3) := Nat.pow_le_pow_right (by norm_num) (by omega)
  have k0 : 0 < 2 ^ (c.N - 3 - c.es) := by positivity
  rw [posVal_mid h.N_ge (le_trans (by omega) (Nat.le_add_right _ _)) (by clear e3; omega), e2]
  have : (2 : ℚ) ^ c.es * (((2 * 2 ^ (c.N - 3) + 2 ^ (c.N - 3 - c.es) : ℕ) : ℚ) / 2 ^ (c.N - 3) - 2) = 1 := by
    have e3' : (2 : ℚ) ^ (c.N - 3) = 2 ^ c.es * 2 ^ (c.N - 3 - c.es) := by exact_mod_cast e3
    push_cast
    rw [e3']
    field_simp
    ring
  rw [this]
  simpa using L_intCast 1

theorem posVal_half (h : c.WF) : posVal c.N c.es (2 ^ (c.N - 2) - 2 ^ (c.N - 3 - c.es)) = 1 / 2 := by
  obtain ⟨-, e2, e3⟩ := pow_split h
  have k1 : 2 ^ (c.N - 3 - c.es) ≤ 2 ^ (c.N - 3) := Nat.pow_le_pow_right (by norm_num) (by omega)
  rw [posVal_mid h.N_ge (by clear e3; omega) (le_trans (Nat.sub_le _ _) (by omega)), Nat.cast_sub (by omega), e2]
  have : (2 : ℚ) ^ c.es * ((((2 * 2 ^ (c.N - 3) : ℕ) : ℚ) - (2 ^ (c.N - 3 - c.es) : ℕ)) / 2 ^ (c.N - 3) - 2) = -1 := by
    have e3' : (2 : ℚ) ^ (c.N - 3) = 2 ^ c.es * 2 ^ (c.N - 3 - c.es) := by exact_mod_cast e3
    push_cast
    rw [e3']
    field_simp
    ring
  rw [this]
  have := L_intCast (-1)
  push_cast at this
  rw [this]; norm_num

/-- `POSIT_HALF` in closed form -/
theorem half_eq (h : c.WF) : c.half = 2 ^ (c.H - 2) - 2 ^ (c.N - 3 - c.es) := by
  have hes := h.hes
  have hN := h.hN
  have hH := h.H_pos
  unfold Cfg.half
  have e0 : (2 ^ c.H - 1) >>> (c.N - c.es - 1) = 2 ^ (c.H - c.N + c.es + 1) - 1 := by
    rw [Nat.shiftRight_eq_div_pow]
    have : 2 ^ c.H = 2 ^ (c.N - c.es - 1) * 2 ^ (c.H - c.N + c.es + 1) := by rw [← pow_add]; congr 1; omega
    have hp : 1 ≤ 2 ^ (c.N - c.es - 1) := Nat.one_le_two_pow
    have hq : 1 ≤ 2 ^ (c.H - c.N + c.es + 1) := Nat.one_le_two_pow
    rw [this]
    generalize 2 ^ (c.N - c.es - 1) = a at *
    generalize 2 ^ (c.H - c.N + c.es + 1) = b at *
    obtain ⟨b, rfl⟩ : ∃ b', b = b' + 1 := ⟨b - 1, by omega⟩
    rw [Nat.add_sub_cancel, mul_add, mul_one, show a * b + a - 1 = (a - 1) + a * b by omega,
      Nat.add_mul_div_left _ _ (by omega), Nat.div_eq_of_lt (by omega), zero_add]
  have hq : (1 : ℤ) ≤ 2 ^ (c.H - c.N + c.es + 1) := one_le_pow₀ (by norm_num)
  have hle : (2 : ℤ) ^ (c.H - c.N + c.es + 1) ≤ 2 ^ (c.H - 1) := by
    apply pow_le_pow_right₀ (by norm_num); omega
  have e1 : wrapS c.H ((2 ^ c.H - 1) >>> (c.N - c.es - 1) : ℕ) = 2 ^ (c.H - c.N + c.es + 1) - 1 := by
    rw [e0, Nat.cast_sub Nat.one_le_two_pow]
    push_cast
    exact wrapS_of_inS (by omega) (by unfold InS; omega)
  rw [e1, sub_mul, ← pow_add, one_mul, show c.H - c.N + c.es + 1 + (c.N - 3 - c.es) = c.H - 2 by omega]
  have k1 : (2 : ℤ) ^ (c.N - 3 - c.es) ≤ 2 ^ (c.H - 2) := pow_le_pow_right₀ (by norm_num) (by omega)
  have k2 : (2 : ℤ) ^ (c.H - 2) < 2 ^ (c.H - 1) := pow_lt_pow_right₀ (by norm_num) (by omega)
  have k3 : (0 : ℤ) < 2 ^ (c.N - 3 - c.es) := by positivity
  exact wrapS_of_inS (by omega) (by unfold InS; omega)

/-- the reflected body has the reciprocal value if the value is a power of two -/
theorem posVal_reflect {N es p : ℕ} (hp : 1 ≤ p) (hlt : p < 2 ^ (N - 1)) {k : ℤ} (hk : posVal N es p = 2 ^ k) :
    posVal N es (2 ^ (N - 1) - p) = 2 ^ (-k) := by
  obtain ⟨s, h1, h2⟩ := exists_coord (es := es) hp hlt
  have hs : (2 : ℚ) ^ es * s = k := by
    have : L (2 ^ es * s) = L k := by rw [← h2, hk, L_intCast]
    exact L_strictMono.injective this
  rw [posVal_of_G (s := -s) (by omega) (by omega), mul_neg, hs, ← L_intCast]
  · push_cast; rfl
  · rw [G_reflect, ← h1, Nat.cast_sub hlt.le]
    push_cast
    field_simp

end Verif
