import Verif.Lemmas.Spacing
import Verif.Lemmas.Ops

/-! # The last place of a posit and the error of a faithful rounding -/

namespace Verif.Fmt

theorem exists_pow_posVal {N es : ℕ} {r : ℤ} (h0 : 0 ≤ r) (h1 : r + 2 ≤ N) :
    ∃ p, 1 ≤ p ∧ p < 2 ^ (N - 1) ∧ posVal N es p = 2 ^ (2 ^ es * r : ℤ) := by
  have hval : ∀ {p m : ℕ}, Dec (N - 1) p r m 0 → posVal N es p = 2 ^ (2 ^ es * r : ℤ) := by
    intro p m hd
    rw [hd.posVal, ← L_intCast]; congr 1; push_cast; simp
  by_cases htop : r + 2 = N
  · have hN : 2 ≤ 2 ^ (N - 1) := by
      calc 2 = 2 ^ 1 := rfl
        _ ≤ _ := Nat.pow_le_pow_right (by norm_num) (by omega)
    exact ⟨2 ^ (N - 1) - 1, by omega, by omega, hval ⟨Nat.one_pos, Or.inr (Or.inr ⟨by omega, by omega, rfl, rfl, rfl⟩)⟩⟩
  · obtain ⟨m, hm⟩ : ∃ m : ℕ, (N : ℤ) = m + 3 + r := ⟨(N - 3 - r).toNat, by omega⟩
    have hle : 2 ^ (m + 1 + 1) ≤ 2 ^ (N - 1) := Nat.pow_le_pow_right (by norm_num) (by omega)
    have hm1 := Nat.one_le_two_pow (n := m)
    rw [pow_succ, pow_succ] at hle
    refine ⟨2 ^ (N - 1) - 2 ^ (m + 1), ?_, ?_, hval ⟨Nat.two_pow_pos m, Or.inr (Or.inl ⟨h0, by omega, ?_⟩)⟩⟩ <;>
      (rw [pow_succ]; omega)

/-- above a posit with all its exponent bits the next one is a unit in the last place away -/
theorem next_posVal {N es p : ℕ} {e : ℤ} {J n : ℕ} (hJ : fracBits N es e = J) (h1 : 2 ^ J ≤ n) (h2 : n < 2 ^ (J + 1))
    (hp : 1 ≤ p) (hpl : p < 2 ^ (N - 1)) (hv : posVal N es p = n * 2 ^ (e - J)) :
    p + 1 < 2 ^ (N - 1) ∧ posVal N es (p + 1) = (n + 1 : ℕ) * 2 ^ (e - J) := by
  have hu : (0 : ℚ) < 2 ^ (e - J) := by positivity
  have hes : (0 : ℤ) < 2 ^ es := by positivity
  have two : ∀ {x y : ℤ}, (2 : ℚ) ^ x < 2 ^ y → x < y := fun h => (zpow_lt_zpow_iff_right₀ (by norm_num)).mp h
  have e2 : ((2 ^ (J + 1) : ℕ) : ℚ) * 2 ^ (e - J) = 2 ^ (e + 1) := by
    push_cast; rw [← zpow_natCast, ← zpow_add₀ (by norm_num)]; congr 1; push_cast; ring
  obtain ⟨q, q1, q2, q3⟩ : ∃ q, 1 ≤ q ∧ q < 2 ^ (N - 1) ∧ posVal N es q = (n + 1 : ℕ) * 2 ^ (e - J) := by
    by_cases hn : n + 1 < 2 ^ (J + 1)
    · exact exists_posVal hJ (by omega) hn
    · rw [show n + 1 = 2 ^ (J + 1) by omega, e2]
      by_cases hf : 0 ≤ fracBits N es (e + 1)
      · obtain ⟨J', hJ'⟩ := Int.eq_ofNat_of_zero_le hf
        obtain ⟨q, q1, q2, q3⟩ := exists_posVal (n := 2 ^ J') hJ' le_rfl (by rw [pow_succ]; have := Nat.one_le_two_pow (n := J'); omega)
        refine ⟨q, q1, q2, ?_⟩
        rw [q3]; push_cast
        rw [← zpow_natCast, ← zpow_add₀ (by norm_num)]; congr 1; ring
      · -- the regime grows
        unfold fracBits at hJ hf
        have hd := Int.mul_ediv_add_emod e (2 ^ es)
        have hd' := Int.mul_ediv_add_emod (e + 1) (2 ^ es)
        have hm := Int.emod_lt_of_pos e hes
        have hm0 := Int.emod_nonneg e hes.ne'
        have hm' := Int.emod_nonneg (e + 1) hes.ne'
        have hm1 := Int.emod_lt_of_pos (e + 1) hes
        set r := e / 2 ^ es with hr
        set r' := (e + 1) / 2 ^ es with hr'
        have hrr : r' = r + 1 ∧ (e + 1) % 2 ^ es = 0 := by
          have hle : r ≤ r' := Int.ediv_le_ediv hes (by omega)
          have hne : r ≠ r' := fun hh => by rw [hh] at hJ; omega
          generalize (e + 1) % 2 ^ es = s' at *
          generalize e % 2 ^ es = s at *
          generalize (2 : ℤ) ^ es = P at *
          have hge : r + 1 ≤ r' := by omega
          have h3 : P * (r' - r) = 1 + s - s' := by linarith
          have h4 : P * 1 ≤ P * (r' - r) := mul_le_mul_of_nonneg_left (by omega) hes.le
          have h5 : P * (r' - r - 1) ≤ 0 := by linarith
          have h6 : r' - r - 1 ≤ 0 := by
            by_contra hc
            have := mul_pos hes (not_le.mp hc)
            linarith
          have h7 : r' - r = 1 := by omega
          rw [h7] at h3
          exact ⟨by omega, by linarith⟩
        obtain ⟨q, q1, q2, q3⟩ := exists_pow_posVal (N := N) (es := es) (r := r')
          (by unfold runExtra at hJ hf; omega) (by unfold runExtra at hJ hf; omega)
        refine ⟨q, q1, q2, ?_⟩
        rw [q3]; congr 1; rw [hrr.2] at hd'; omega
  have hpq : p < q := (posVal_lt_iff (es := es) hp hpl q1 q2).mp (by
    rw [hv, q3]; exact mul_lt_mul_of_pos_right (by exact_mod_cast Nat.lt_succ_self n) hu)
  have hlt : p + 1 < 2 ^ (N - 1) := by omega
  have hgt := (posVal_lt_iff (es := es) hp hpl (by omega : 1 ≤ p + 1) hlt).mpr (by omega)
  -- nothing lies between
  have hge : ((n + 1 : ℕ) : ℚ) * 2 ^ (e - J) ≤ posVal N es (p + 1) := by
    obtain ⟨lo, hi⟩ := posVal_log h1 h2 hv
    obtain ⟨e', hf⟩ := posVal_form (es := es) (by omega : 1 ≤ p + 1) hlt
    have hl : (2 : ℚ) ^ e' ≤ posVal N es (p + 1) ∧ posVal N es (p + 1) < 2 ^ (e' + 1) := by
      rcases hf with ⟨J', n', -, a1, a2, a3⟩ | ⟨-, a3⟩
      · exact posVal_log a1 a2 a3
      · rw [a3]; exact ⟨le_rfl, zpow_lt_zpow_right₀ (by norm_num) (by omega)⟩
    have hee : e ≤ e' := by have := two (lt_of_le_of_lt lo (hgt.trans hl.2)); omega
    rcases eq_or_lt_of_le hee with rfl | hlt'
    · rcases hf with ⟨J', n', a0, a1, a2, a3⟩ | ⟨a0, -⟩
      · have : J' = J := by omega
        subst this
        rw [hv, a3] at hgt
        have h3 := lt_of_mul_lt_mul_right hgt hu.le
        have h4 : n < n' := by exact_mod_cast h3
        rw [a3]; exact mul_le_mul_of_nonneg_right (by exact_mod_cast h4) hu.le
      · omega
    · refine le_trans ?_ hl.1
      calc ((n + 1 : ℕ) : ℚ) * 2 ^ (e - J) ≤ ((2 ^ (J + 1) : ℕ) : ℚ) * 2 ^ (e - J) :=
            mul_le_mul_of_nonneg_right (by exact_mod_cast h2) hu.le
        _ = 2 ^ (e + 1) := e2
        _ ≤ 2 ^ e' := zpow_le_zpow_right₀ (by norm_num) (by omega)
  refine ⟨hlt, le_antisymm ?_ hge⟩
  rw [← q3]
  exact (posVal_le_iff (es := es) (by omega) hlt q1 q2).mpr (by omega)

/-- a positive number lies between neighbouring posits a unit in the last place apart -/
theorem exists_floor {N es : ℕ} {y : ℚ} (hy : 0 < y) {J : ℕ} (hJ : fracBits N es (Int.log 2 y) = J) :
    ∃ p, 1 ≤ p ∧ p + 1 < 2 ^ (N - 1) ∧ posVal N es p ≤ y ∧ y < posVal N es (p + 1) ∧
      posVal N es (p + 1) - posVal N es p = 2 ^ (Int.log 2 y - J) := by
  set e := Int.log 2 y with he
  have lo : (2 : ℚ) ^ e ≤ y := by have := Int.zpow_log_le_self (b := 2) (by norm_num) hy; exact_mod_cast this
  have hi : y < (2 : ℚ) ^ (e + 1) := by have := Int.lt_zpow_succ_log_self (b := 2) (by norm_num) y; exact_mod_cast this
  have hu : (0 : ℚ) < 2 ^ (e - J) := by positivity
  have e1 : ((2 ^ J : ℕ) : ℚ) * 2 ^ (e - J) = 2 ^ e := by
    push_cast; rw [← zpow_natCast, ← zpow_add₀ (by norm_num)]; congr 1; ring
  have e2 : ((2 ^ (J + 1) : ℕ) : ℚ) * 2 ^ (e - J) = 2 ^ (e + 1) := by
    push_cast; rw [← zpow_natCast, ← zpow_add₀ (by norm_num)]; congr 1; push_cast; ring
  have f1 := Nat.floor_le (div_nonneg hy.le hu.le)
  have f2 := Nat.lt_floor_add_one (y / 2 ^ (e - J))
  set n := ⌊y / 2 ^ (e - J)⌋₊ with hn
  rw [le_div_iff₀ hu] at f1
  rw [div_lt_iff₀ hu] at f2
  have n1 : 2 ^ J ≤ n := by
    rw [hn, Nat.le_floor_iff (by positivity), le_div_iff₀ hu, e1]; exact lo
  have n2 : n < 2 ^ (J + 1) := by
    rw [hn, Nat.floor_lt (by positivity), div_lt_iff₀ hu, e2]; exact hi
  obtain ⟨p, p1, p2, p3⟩ := exists_posVal hJ n1 n2
  obtain ⟨p4, p5⟩ := next_posVal hJ n1 n2 p1 p2 p3
  refine ⟨p, p1, p4, by rw [p3]; exact f1, by rw [p5]; push_cast; exact f2, ?_⟩
  rw [p3, p5]; push_cast; ring

namespace Format

variable {f : Format}

/-- a faithful rounding is less than a unit in the last place off -/
theorem IsFaithful.error {y : ℚ} {v : ℤ} (h : f.IsFaithful y v) {J : ℕ} (hy : y ≠ 0)
    (hJ : fracBits f.N f.es (Int.log 2 |y|) = J) : |f.val v - y| < 2 ^ (Int.log 2 |y| - J) := by
  have key : ∀ {y : ℚ} {v : ℤ}, f.IsFaithful y v → 0 < y → fracBits f.N f.es (Int.log 2 |y|) = J →
      |f.val v - y| < 2 ^ (Int.log 2 |y| - J) := by
    intro y v h hy hJ
    rw [abs_of_pos hy] at hJ ⊢
    obtain ⟨p, p1, p2, p3, p4, p5⟩ := exists_floor hy hJ
    have hmb : f.maxBody = 2 ^ (f.N - 1) - 2 ∨ f.maxBody = 2 ^ (f.N - 1) - 1 := by unfold maxBody; split <;> simp
    have hreal : f.IsReal p := isReal_iff.mpr (by rcases hmb with hh | hh <;> rw [hh] <;> omega)
    have hvp : f.val p = posVal f.N f.es p := val_natCast p1
    have hle : f.val p ≤ f.val v := by
      by_contra hc
      have := h.above p hreal (not_le.mp hc)
      rw [hvp] at this; linarith
    rcases le_or_gt (f.val v) y with h1 | h1
    · rw [abs_of_nonpos (by linarith), ← p5]; rw [hvp] at hle; linarith
    · have hnp : f.val p ≠ y := fun hh => by
        have := h.exact hreal hh
        subst this; linarith
      rw [hvp] at hnp
      have hlt : posVal f.N f.es p < y := lt_of_le_of_ne p3 hnp
      have hvn : (p : ℤ) < v := (val_lt_iff hreal.inRange h.real.inRange).mp (by rw [hvp]; linarith)
      have hvr := (isReal_iff.mp h.real)
      have hreal' : f.IsReal ((p + 1 : ℕ) : ℤ) := isReal_iff.mpr (by omega)
      have hvp' : f.val ((p + 1 : ℕ) : ℤ) = posVal f.N f.es (p + 1) := val_natCast (by omega)
      have hle' : f.val v ≤ posVal f.N f.es (p + 1) := by
        by_contra hc
        have := h.below _ hreal' (by rw [hvp']; exact not_le.mp hc)
        rw [hvp'] at this; linarith
      rw [abs_of_pos (by linarith), ← p5]; linarith
  rcases lt_or_gt_of_ne hy with hn | hp
  · have := key h.neg (y := -y) (by linarith) (by rw [abs_neg]; exact hJ)
    rw [abs_neg, val_neg, ← abs_neg] at this
    rwa [show -(-f.val v - -y) = f.val v - y by ring] at this
  · exact key h hp hJ

end Format
end Verif.Fmt
