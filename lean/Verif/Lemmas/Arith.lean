import Verif.Lemmas.Grid

/-! # The regular cases of the `Unpacked` operators -/

namespace Verif
open Fmt

variable {F E : ℕ}

/-- magnitude of a regular number -/
def mag (F : ℕ) (e : ℤ) (f : ℕ) : ℚ := 2 ^ e * (1 + (f : ℚ) / 2 ^ F)

theorem mag_pos (F : ℕ) (e : ℤ) (f : ℕ) : 0 < mag F e f := by unfold mag; positivity

theorem mant1 (hF : 1 ≤ F) {f : ℕ} (hf : f < 2 ^ F) : Unp.leftmost F ||| (f >>> 1) = 2 ^ (F - 1) + f / 2 := by
  unfold Unp.leftmost
  have h2 := two_pow_pred_nat hF
  have := Nat.two_pow_add_eq_or_of_lt (i := F - 1) (b := f / 2) (by omega) 1
  rw [mul_one] at this
  rw [Nat.shiftRight_eq_div_pow, pow_one, this]

theorem mant2 (hF : 2 ≤ F) {f : ℕ} (hf : f < 2 ^ F) :
    (Unp.leftmost F >>> 1) ||| (f >>> 2) = 2 ^ (F - 2) + f / 4 := by
  unfold Unp.leftmost
  have h2 : 2 ^ F = 4 * 2 ^ (F - 2) := by
    rw [show F = (F - 2) + 2 by omega, pow_add]; simp; ring
  have h3 : 2 ^ (F - 1) >>> 1 = 2 ^ (F - 2) := by
    rw [Nat.shiftRight_eq_div_pow, show F - 1 = (F - 2) + 1 by omega, pow_succ, pow_one]; simp
  have := Nat.two_pow_add_eq_or_of_lt (i := F - 2) (b := f / 4) (by omega) 1
  rw [mul_one] at this
  rw [h3, Nat.shiftRight_eq_div_pow, show 2 ^ 2 = 4 by norm_num, this]

theorem mag_half (hF : 1 ≤ F) {e : ℤ} {f : ℕ} (h : 2 ∣ f) :
    mag F e f = ((2 ^ (F - 1) + f / 2 : ℕ) : ℚ) * 2 ^ (e + 1 - F) := by
  obtain ⟨g, rfl⟩ := h
  rw [Nat.mul_div_cancel_left _ (by norm_num)]
  unfold mag
  have : (2 : ℚ) ^ F = 2 * 2 ^ (F - 1) := by exact_mod_cast two_pow_pred_nat hF
  rw [zpow_sub₀ (by norm_num), zpow_add_one₀ (by norm_num), zpow_natCast, this]
  push_cast
  field_simp

theorem mag_quarter (hF : 2 ≤ F) {e : ℤ} {f : ℕ} (h : 4 ∣ f) :
    mag F e f = ((2 ^ (F - 2) + f / 4 : ℕ) : ℚ) * 2 ^ (e + 2 - F) := by
  obtain ⟨g, rfl⟩ := h
  rw [Nat.mul_div_cancel_left _ (by norm_num)]
  unfold mag
  have : (2 : ℚ) ^ F = 4 * 2 ^ (F - 2) := by
    have : 2 ^ F = 4 * 2 ^ (F - 2) := by
      rw [show F = (F - 2) + 2 by omega, pow_add]; simp; ring
    exact_mod_cast this
  rw [zpow_sub₀ (by norm_num), zpow_add₀ (by norm_num) e, zpow_natCast, this]
  push_cast
  field_simp

theorem mk3_mod {e : ℤ} {x : ℕ} {neg : Bool} (hE : 1 ≤ E) (he : InS E e) (hx1 : 2 ^ F ≤ x) (hx2 : x < 2 ^ (F + 1)) :
    Unp.mk3 F E e x neg = ⟨.regular, neg, e, x - 2 ^ F⟩ := by
  unfold Unp.mk3
  rw [wrapS_of_inS hE he, Nat.mod_eq_sub_mod hx1, Nat.mod_eq_of_lt (by rw [pow_succ] at hx2; omega)]

theorem mag_sub {e : ℤ} {x : ℕ} (hx1 : 2 ^ F ≤ x) : mag F e (x - 2 ^ F) = x * 2 ^ (e - F) := by
  unfold mag
  rw [Nat.cast_sub hx1, zpow_sub₀ (by norm_num), zpow_natCast]
  push_cast
  field_simp
  ring

/-- product of two regular numbers with even fraction fields -/
theorem mulRegular_eq (hF : 2 ≤ F) (hE : 1 ≤ E) {na nb : Bool} {ea eb : ℤ} {fa fb : ℕ} (hfa : fa < 2 ^ F)
    (hfb : fb < 2 ^ F) (h1 : InS E (ea + eb)) (h2 : InS E (ea + eb + 1)) {u : ℕ}
    (hu : u = (2 ^ (F - 1) + fa / 2) * (2 ^ (F - 1) + fb / 2) / 2 ^ F) :
    ∃ e f, Unp.mulRegular F E ⟨.regular, na, ea, fa⟩ ⟨.regular, nb, eb, fb⟩ = .ok ⟨.regular, xor na nb, e, f⟩ ∧
      f < 2 ^ F ∧ 2 ^ (F - 2) ≤ u ∧ mag F e f = u * 2 ^ (ea + eb + 2 - F) ∧ (e = ea + eb ∨ e = ea + eb + 1) := by
  have hP := two_pow_pred_nat (w := F) (by omega)
  have hP2 : 2 ^ (F - 1) = 2 * 2 ^ (F - 2) := two_pow_pred_nat (w := F - 1) (by omega)
  have hA1 : 2 ^ (F - 1) ≤ 2 ^ (F - 1) + fa / 2 := by omega
  have hA2 : 2 ^ (F - 1) + fa / 2 < 2 ^ F := by omega
  have hB1 : 2 ^ (F - 1) ≤ 2 ^ (F - 1) + fb / 2 := by omega
  have hB2 : 2 ^ (F - 1) + fb / 2 < 2 ^ F := by omega
  have hu1 : 2 ^ (F - 2) ≤ u := by
    rw [hu, Nat.le_div_iff_mul_le (by positivity)]
    calc 2 ^ (F - 2) * 2 ^ F = 2 ^ (F - 1) * 2 ^ (F - 1) := by rw [← pow_add, ← pow_add]; congr 1; omega
      _ ≤ _ := Nat.mul_le_mul hA1 hB1
  have hu2 : u < 2 ^ F := by
    rw [hu, Nat.div_lt_iff_lt_mul (by positivity)]
    exact Nat.mul_lt_mul_of_lt_of_le hA2 hB2.le (by positivity)
  unfold Unp.mulRegular
  simp only [mant1 (by omega : 1 ≤ F) hfa, mant1 (by omega : 1 ≤ F) hfb]
  rw [Nat.shiftRight_eq_div_pow, ← hu, arithS_ok' h1]
  simp only [bind, Except.bind, pure, Except.pure]
  have htest : (u &&& Unp.leftmost F = 0) ↔ u < 2 ^ (F - 1) := by
    unfold Unp.leftmost
    rw [and_two_pow_eq_zero_iff]
    have : u / 2 ^ (F - 1) < 2 := by rw [Nat.div_lt_iff_lt_mul (by positivity)]; omega
    rw [Nat.mod_eq_of_lt this, Nat.div_eq_zero_iff_lt (by positivity)]
  by_cases hq : u < 2 ^ (F - 1)
  · have hq' := htest.mpr hq
    simp only [hq', decide_true, if_true, add_zero]
    rw [arithS_ok' h1]
    simp only []
    have e1 : u <<< 1 <<< 1 = 4 * u := by simp only [Nat.shiftLeft_eq]; ring
    rw [e1, mk3_mod hE h1 (by omega) (by rw [pow_succ]; omega)]
    refine ⟨_, _, rfl, by omega, hu1, ?_, Or.inl rfl⟩
    rw [mag_sub (by omega), show ea + eb + 2 - (F : ℤ) = (ea + eb - F) + 2 by ring, zpow_add₀ (by norm_num) _ 2]
    push_cast; ring
  · have hq' : ¬ (u &&& Unp.leftmost F = 0) := fun hh => hq (htest.mp hh)
    simp only [hq', decide_false, if_false, Bool.false_eq_true]
    rw [arithS_ok' h2]
    simp only []
    have e1 : u <<< 1 = 2 * u := by simp only [Nat.shiftLeft_eq]; ring
    rw [e1, mk3_mod hE h2 (by omega) (by rw [pow_succ]; omega)]
    refine ⟨_, _, rfl, by omega, hu1, ?_, Or.inr rfl⟩
    rw [mag_sub (by omega), show ea + eb + 2 - (F : ℤ) = (ea + eb + 1 - F) + 1 by ring, zpow_add_one₀ (by norm_num)]
    push_cast; ring

theorem div_bounds (A B : ℕ) (hB : 0 < B) : ((A / B : ℕ) : ℚ) * B ≤ A ∧ (A : ℚ) < ((A / B : ℕ) + 1 : ℚ) * B := by
  constructor
  · exact_mod_cast Nat.div_mul_le_self A B
  · exact_mod_cast Nat.lt_mul_of_div_lt (Nat.lt_succ_self _) hB

theorem mul_bounds (hF : 1 ≤ F) {ea eb : ℤ} {fa fb : ℕ} (ha : 2 ∣ fa) (hb : 2 ∣ fb) {u : ℕ}
    (hu : u = (2 ^ (F - 1) + fa / 2) * (2 ^ (F - 1) + fb / 2) / 2 ^ F) :
    (u : ℚ) * 2 ^ (ea + eb + 2 - F) ≤ mag F ea fa * mag F eb fb ∧
      mag F ea fa * mag F eb fb < (u + 1 : ℚ) * 2 ^ (ea + eb + 2 - F) := by
  rw [mag_half hF ha, mag_half hF hb]
  obtain ⟨h1, h2⟩ := div_bounds ((2 ^ (F - 1) + fa / 2) * (2 ^ (F - 1) + fb / 2)) (2 ^ F) (by positivity)
  rw [← hu] at h1 h2
  set A := 2 ^ (F - 1) + fa / 2
  set B := 2 ^ (F - 1) + fb / 2
  have hpos : (0 : ℚ) < 2 ^ (ea + eb + 2 - 2 * (F : ℤ)) := by positivity
  have e1 : ((A : ℕ) : ℚ) * 2 ^ (ea + 1 - F) * ((B : ℕ) * 2 ^ (eb + 1 - F)) =
      ((A * B : ℕ) : ℚ) * 2 ^ (ea + eb + 2 - 2 * (F : ℤ)) := by
    rw [show ea + eb + 2 - 2 * (F : ℤ) = (ea + 1 - F) + (eb + 1 - F) by ring, zpow_add₀ (by norm_num)]
    push_cast; ring
  have e2 : (2 : ℚ) ^ (ea + eb + 2 - (F : ℤ)) = ((2 ^ F : ℕ) : ℚ) * 2 ^ (ea + eb + 2 - 2 * (F : ℤ)) := by
    rw [show ea + eb + 2 - (F : ℤ) = F + (ea + eb + 2 - 2 * (F : ℤ)) by ring, zpow_add₀ (by norm_num), zpow_natCast]
    push_cast; rfl
  rw [e1, e2]
  constructor
  · rw [← mul_assoc]; exact mul_le_mul_of_nonneg_right h1 hpos.le
  · rw [← mul_assoc]; exact mul_lt_mul_of_pos_right h2 hpos

/-- quotient of two regular numbers; the divisor's fraction field divisible by four -/
theorem divRegular_eq (hF : 2 ≤ F) (hE : 1 ≤ E) {na nb : Bool} {ea eb : ℤ} {fa fb : ℕ} (hfa : fa < 2 ^ F)
    (hfb : fb < 2 ^ F) (ha : 2 ∣ fa) (hb : 4 ∣ fb) (h1 : InS E (ea - eb)) (h2 : InS E (ea - eb - 1)) :
    ∃ e f u Y, Unp.divRegular F E ⟨.regular, na, ea, fa⟩ ⟨.regular, nb, eb, fb⟩ = .ok ⟨.regular, xor na nb, e, f⟩ ∧
      f < 2 ^ F ∧ 2 ^ F ≤ u ∧ mag F e f = (u : ℕ) * 2 ^ (Y : ℤ) ∧
      (u : ℚ) * 2 ^ Y ≤ mag F ea fa / mag F eb fb ∧ mag F ea fa / mag F eb fb < (u + 1 : ℚ) * 2 ^ Y := by
  have hP := two_pow_pred_nat (w := F) (by omega)
  have hP2 : 2 ^ (F - 1) = 2 * 2 ^ (F - 2) := two_pow_pred_nat (w := F - 1) (by omega)
  rw [mag_half (by omega) ha, mag_half (by omega) (Dvd.dvd.trans (by norm_num) hb)]
  have hA1 : 2 ^ (F - 1) ≤ 2 ^ (F - 1) + fa / 2 := by omega
  have hA2 : 2 ^ (F - 1) + fa / 2 < 2 ^ F := by omega
  have hB1 : 2 ^ (F - 1) ≤ 2 ^ (F - 1) + fb / 2 := by omega
  have hB2 : 2 ^ (F - 1) + fb / 2 < 2 ^ F := by omega
  have hBe : 2 ∣ 2 ^ (F - 1) + fb / 2 := by
    obtain ⟨g, rfl⟩ := hb
    omega
  unfold Unp.divRegular
  simp only [mant1 (by omega : 1 ≤ F) hfa, mant1 (by omega : 1 ≤ F) hfb]
  set A := 2 ^ (F - 1) + fa / 2
  set B := 2 ^ (F - 1) + fb / 2
  have hp0 : 0 < 2 ^ (F - 2) := by positivity
  rw [arithS_ok' h1]
  simp only [bind, Except.bind, pure, Except.pure]
  have hq : (A : ℚ) * 2 ^ (ea + 1 - F) / (B * 2 ^ (eb + 1 - F)) = (A : ℚ) / B * 2 ^ (ea - eb) := by
    have : (2 : ℚ) ^ (ea + 1 - (F : ℤ)) = 2 ^ (eb + 1 - (F : ℤ)) * 2 ^ (ea - eb) := by
      rw [← zpow_add₀ (by norm_num)]; congr 1; ring
    rw [this]
    have : (2 : ℚ) ^ (eb + 1 - (F : ℤ)) ≠ 0 := by positivity
    field_simp
  rw [hq]
  by_cases hlt : A < B
  · simp only [hlt, if_true]
    rw [show ea - eb + -1 = ea - eb - 1 by ring, arithS_ok' h2]
    simp only []
    obtain ⟨C, hC⟩ := hBe
    have hC' : B >>> 1 = C := by rw [Nat.shiftRight_eq_div_pow, hC]; omega
    have hC0 : C ≠ 0 := by omega
    rw [hC', if_neg hC0, Nat.shiftLeft_eq]
    have hu1 : 2 ^ F ≤ A * 2 ^ F / C := by
      rw [Nat.le_div_iff_mul_le (by omega), mul_comm]
      exact Nat.mul_le_mul_right _ (by omega)
    have hu2 : A * 2 ^ F / C < 2 ^ (F + 1) := by
      rw [Nat.div_lt_iff_lt_mul (by omega), pow_succ, mul_assoc, mul_comm (2 ^ F) (2 * C)]
      exact Nat.mul_lt_mul_of_pos_right (by omega) (by positivity)
    obtain ⟨d1, d2⟩ := div_bounds (A * 2 ^ F) C (by omega)
    rw [mk3_mod hE h2 hu1 hu2]
    refine ⟨_, _, A * 2 ^ F / C, ea - eb - 1 - F, rfl, by rw [pow_succ] at hu2; omega, hu1, mag_sub hu1, ?_, ?_⟩
    all_goals
      have hCq : (0 : ℚ) < C := by exact_mod_cast Nat.pos_of_ne_zero hC0
      have e1 : (A : ℚ) / B * 2 ^ (ea - eb) = ((A * 2 ^ F : ℕ) : ℚ) / C * 2 ^ (ea - eb - 1 - F) := by
        rw [hC, show ea - eb = (ea - eb - 1 - F) + F + 1 by ring, zpow_add_one₀ (by norm_num),
          zpow_add₀ (by norm_num) _ (F : ℤ), zpow_natCast, show ea - eb - 1 - (F : ℤ) + F + 1 - 1 - F = ea - eb - 1 - F by ring]
        push_cast
        field_simp
      rw [e1]
    · apply mul_le_mul_of_nonneg_right _ (by positivity)
      rw [le_div_iff₀ hCq]; exact d1
    · apply mul_lt_mul_of_pos_right _ (by positivity)
      rw [div_lt_iff₀ hCq]; exact d2
  · simp only [hlt, if_false, add_zero]
    rw [arithS_ok' h1]
    simp only []
    have hB0 : B ≠ 0 := by omega
    rw [if_neg hB0, Nat.shiftLeft_eq]
    have hu1 : 2 ^ F ≤ A * 2 ^ F / B := by
      rw [Nat.le_div_iff_mul_le (by omega), mul_comm]
      exact Nat.mul_le_mul_right _ (by omega)
    have hu2 : A * 2 ^ F / B < 2 ^ (F + 1) := by
      rw [Nat.div_lt_iff_lt_mul (by omega), pow_succ, mul_assoc, mul_comm (2 ^ F) (2 * B)]
      exact Nat.mul_lt_mul_of_pos_right (by omega) (by positivity)
    obtain ⟨d1, d2⟩ := div_bounds (A * 2 ^ F) B (by omega)
    rw [mk3_mod hE h1 hu1 hu2]
    refine ⟨_, _, A * 2 ^ F / B, ea - eb - F, rfl, by rw [pow_succ] at hu2; omega, hu1, mag_sub hu1, ?_, ?_⟩
    all_goals
      have hBq : (0 : ℚ) < B := by exact_mod_cast Nat.pos_of_ne_zero hB0
      have e1 : (A : ℚ) / B * 2 ^ (ea - eb) = ((A * 2 ^ F : ℕ) : ℚ) / B * 2 ^ (ea - eb - F) := by
        rw [show ea - eb = (ea - eb - F) + F by ring, zpow_add₀ (by norm_num) _ (F : ℤ), zpow_natCast,
          show ea - eb - (F : ℤ) + F - F = ea - eb - F by ring]
        push_cast
        field_simp
      rw [e1]
    · apply mul_le_mul_of_nonneg_right _ (by positivity)
      rw [le_div_iff₀ hBq]; exact d1
    · apply mul_lt_mul_of_pos_right _ (by positivity)
      rw [div_lt_iff₀ hBq]; exact d2

/-- `normalized()` of a nonzero fraction word -/
theorem normalized_eq (hF : F = 8 ∨ F = 16 ∨ F = 32 ∨ F = 64) (hE : 1 ≤ E) {ty : Ty} {neg : Bool} {e : ℤ} {S : ℕ}
    (h0 : 1 ≤ S) (hS : S < 2 ^ F) (hsh : F < 32 ∨ 2 ≤ S) (hin : ∀ k : ℕ, k < F → InS E (e - k)) :
    ∃ e' f, Unp.normalized F E ⟨ty, neg, e, S⟩ = .ok ⟨.regular, neg, e', f⟩ ∧ f < 2 ^ F ∧
      mag F e' f = S * 2 ^ (e + 1 - F) ∧ e - F < e' ∧ e' ≤ e := by
  have hS0 : S ≠ 0 := by omega
  have hl1 := Nat.log2_self_le hS0
  have hl2 := Nat.lt_log2_self (n := S)
  have hlF : Nat.log2 S < F := (Nat.log2_lt hS0).mpr hS
  set l := Nat.log2 S with hl
  have hk : clz F S = F - 1 - l := rfl
  have hF8 : 8 ≤ F := by omega
  have hl1' : F < 32 ∨ 1 ≤ l := by
    rcases hsh with hsh | hsh
    · exact Or.inl hsh
    · right
      by_contra hc
      have : l = 0 := by omega
      rw [this] at hl2; omega
  unfold Unp.normalized Unp.findLeft
  simp only [hS0, if_false, hk, bind, Except.bind, pure, Except.pure]
  rw [arithS_ok' (hin (F - 1 - l) (by omega))]
  simp only []
  have hx1 : 2 ^ F ≤ S * 2 ^ (F - 1 - l + 1) := by
    calc 2 ^ F = 2 ^ l * 2 ^ (F - 1 - l + 1) := by rw [← pow_add]; congr 1; omega
      _ ≤ _ := Nat.mul_le_mul_right _ hl1
  have hx2 : S * 2 ^ (F - 1 - l + 1) < 2 ^ (F + 1) := by
    calc S * 2 ^ (F - 1 - l + 1) < 2 ^ (l + 1) * 2 ^ (F - 1 - l + 1) := Nat.mul_lt_mul_of_pos_right hl2 (by positivity)
      _ = _ := by rw [← pow_add]; congr 1; omega
  obtain ⟨y, hy1, hy2⟩ := shlU_ok_mod (w := F) (x := S) (n := ((F - 1 - l : ℕ) : ℤ) + 1) (k := F - 1 - l + 1)
    (by push_cast; rfl) (by unfold pw; omega) (fun hw => by
      have : 2 ^ (F + 1) ≤ 2 ^ 32 := Nat.pow_le_pow_right (by norm_num) (by omega)
      omega)
  rw [hy1]
  simp only []
  have : Unp.mk3 F E (e - ((F - 1 - l : ℕ) : ℤ)) y neg =
      ⟨.regular, neg, e - ((F - 1 - l : ℕ) : ℤ), S * 2 ^ (F - 1 - l + 1) - 2 ^ F⟩ := by
    rw [← mk3_mod hE (hin (F - 1 - l) (by omega)) hx1 hx2]
    unfold Unp.mk3
    rw [hy2]
  rw [this]
  refine ⟨_, _, rfl, by
    rw [pow_succ 2 F] at hx2; omega, ?_, by omega, by omega⟩
  rw [mag_sub hx1, show e - ((F - 1 - l : ℕ) : ℤ) - (F : ℤ) = (e + 1 - F) - ((F - 1 - l + 1 : ℕ) : ℤ) by push_cast; ring,
    zpow_sub₀ (by norm_num), zpow_natCast]
  push_cast
  field_simp

end Verif
