import Verif.Spec.FloatLib
import Verif.Lemmas.NearestEven

/-! Lemmas about remainders and square roots -/

namespace Verif
open Fmt

variable {eb fb : ℕ}

/-- every integer of `fb + 1` bits times a power of two in the range of the format is one of its numbers -/
theorem ieee_of_int (heb : 2 ≤ eb) {n A : ℤ} (hn : |n| < 2 ^ (fb + 1)) (hA : (2 : ℤ) - 2 ^ (eb - 1) - fb ≤ A)
    (hmax : |(n : ℚ) * 2 ^ A| < 2 ^ ((2 : ℤ) ^ (eb - 1))) : ∃ g, ieee eb fb g = .num (n * 2 ^ A) := by
  rcases lt_or_ge |(n : ℚ) * 2 ^ A| (2 ^ ((2 : ℤ) - 2 ^ (eb - 1))) with h | h
  · obtain ⟨i, hi⟩ : ∃ i : ℕ, A = (2 : ℤ) - 2 ^ (eb - 1) - fb + i := ⟨(A - ((2 : ℤ) - 2 ^ (eb - 1) - fb)).toNat, by omega⟩
    have e : (n : ℚ) * 2 ^ A = ((n * 2 ^ i : ℤ) : ℚ) * 2 ^ ((2 : ℤ) - 2 ^ (eb - 1) - fb) := by
      rw [hi, zpow_add₀ (by norm_num), zpow_natCast]; push_cast; ring
    rw [e] at h ⊢
    generalize n * 2 ^ i = N at *
    have hN : N.natAbs < 2 ^ fb := by
      rw [abs_mul, abs_of_pos (by positivity : (0 : ℚ) < 2 ^ ((2 : ℤ) - 2 ^ (eb - 1) - fb))] at h
      have h1 : |(N : ℚ)| < 2 ^ fb := by
        have hp : (0 : ℚ) < 2 ^ ((2 : ℤ) - 2 ^ (eb - 1) - fb) := by positivity
        refine lt_of_mul_lt_mul_right (lt_of_lt_of_eq h ?_) hp.le
        rw [← zpow_natCast, ← zpow_add₀ (by norm_num)]; congr 1; ring
      rw [← Int.cast_abs, Int.abs_eq_natAbs] at h1
      exact_mod_cast h1
    refine ⟨fJoin eb fb (decide (N < 0)) 0 N.natAbs, ?_⟩
    have h0 : (0 : ℕ) < 2 ^ eb := by positivity
    have h4 : (4 : ℕ) ≤ 2 ^ eb := by
      calc 4 = 2 ^ 2 := by norm_num
        _ ≤ _ := Nat.pow_le_pow_right (by norm_num) heb
    rw [ieee_eq, fJoin_sign h0 hN, fJoin_exp h0 hN, fJoin_man hN, if_neg (by omega), if_pos rfl]
    congr 1
    have h5 : ((N.natAbs : ℕ) : ℚ) = |(N : ℚ)| := by rw [← Int.cast_abs, Int.abs_eq_natAbs]; simp
    rw [h5]
    by_cases hs : N < 0
    · have : (N : ℚ) < 0 := by exact_mod_cast hs
      simp [hs, abs_of_neg this]
    · have : (0 : ℚ) ≤ N := by exact_mod_cast not_lt.mp hs
      simp [hs, abs_of_nonneg this]
  · exact float_of_fits heb ⟨n, A, hn, rfl⟩ h hmax

theorem IsRemainder.bounds {x y r : ℚ} (h : IsRemainder x y r) (hy : y ≠ 0) : |r| ≤ |y| / 2 ∧ |r| ≤ |x| := by
  obtain ⟨n, hr, h1, -⟩ := h
  have hyp := abs_pos.mpr hy
  have e : r = (x / y - n) * y := by rw [hr]; field_simp
  have h2 : |r| ≤ |y| / 2 := by
    rw [e, abs_mul]
    calc |x / y - n| * |y| ≤ 1 / 2 * |y| := mul_le_mul_of_nonneg_right h1 hyp.le
      _ = _ := by ring
  refine ⟨h2, ?_⟩
  by_cases hn : n = 0
  · rw [hr, hn]; simp
  · have h3 : (1 : ℚ) ≤ |(n : ℚ)| := by rw [← Int.cast_abs]; exact_mod_cast Int.one_le_abs hn
    have h4 : 1 / 2 ≤ |x / y| := by
      have := abs_sub_abs_le_abs_sub (n : ℚ) (x / y)
      rw [abs_sub_comm] at this
      linarith
    rw [abs_div, le_div_iff₀ hyp] at h4
    linarith

/-- a remainder is a number of the format -/
theorem remainder_float (heb : 2 ≤ eb) {a b : ℕ} {x y r : ℚ} (ha : ieee eb fb a = .num x) (hb : ieee eb fb b = .num y) (hy : y ≠ 0)
    (h : IsRemainder x y r) : ∃ g, ieee eb fb g = .num r := by
  obtain ⟨h1, h2⟩ := h.bounds hy
  obtain ⟨k, hr, -, -⟩ := h
  obtain ⟨n, A, hn, hx, hA, -⟩ := ieee_int ha
  obtain ⟨m, B, hm, hy', hB, -⟩ := ieee_int hb
  have hmax : |r| < 2 ^ ((2 : ℤ) ^ (eb - 1)) := lt_of_le_of_lt h2 (lt_of_le_of_lt (ieee_le_maxFin heb ha) maxFin_lt)
  have key : ∀ (t T M : ℤ) , r = t * 2 ^ T → (2 : ℤ) - 2 ^ (eb - 1) - fb ≤ T → |r| ≤ |(M : ℚ) * 2 ^ T| → |M| < 2 ^ (fb + 1) →
      ∃ g, ieee eb fb g = .num r := by
    intro t T M ht hT hle hM
    have hp : (0 : ℚ) < 2 ^ T := by positivity
    rw [ht] at hmax hle ⊢
    refine ieee_of_int heb ?_ hT hmax
    rw [abs_mul, abs_mul, abs_of_pos hp] at hle
    have := le_of_mul_le_mul_right hle hp
    rw [← Int.cast_abs, ← Int.cast_abs] at this
    have h6 : |t| ≤ |M| := by exact_mod_cast this
    exact lt_of_le_of_lt h6 hM
  rcases le_total A B with hAB | hAB
  · obtain ⟨i, rfl⟩ : ∃ i : ℕ, B = A + i := ⟨(B - A).toNat, by omega⟩
    refine key (n - k * m * 2 ^ i) A n ?_ hA (by rw [← hx]; exact h2) hn
    rw [hr, hx, hy', zpow_add₀ (by norm_num), zpow_natCast]; push_cast; ring
  · obtain ⟨i, rfl⟩ : ∃ i : ℕ, A = B + i := ⟨(A - B).toNat, by omega⟩
    refine key (n * 2 ^ i - k * m) B m ?_ hB (by rw [← hy']; linarith [abs_nonneg y]) hm
    rw [hr, hx, hy', zpow_add₀ (by norm_num), zpow_natCast]; push_cast; ring

/-- there is a remainder of any two numbers -/
theorem exists_remainder (x : ℚ) {y : ℚ} (_hy : y ≠ 0) : ∃ r, IsRemainder x y r := by
  have h1 := Int.floor_le (x / y)
  have h2 := Int.lt_floor_add_one (x / y)
  generalize ⌊x / y⌋ = n at *
  rcases lt_trichotomy (x / y - n) (1 / 2) with h | h | h
  · exact ⟨_, n, rfl, by rw [abs_of_nonneg (by linarith)]; exact h.le, fun hc => by
      rw [abs_of_nonneg (by linarith)] at hc; linarith⟩
  · rcases Int.emod_two_eq_zero_or_one n with he | he
    · exact ⟨_, n, rfl, by rw [abs_of_nonneg (by linarith)]; exact h.le, fun _ => he⟩
    · exact ⟨_, n + 1, rfl, by push_cast; rw [abs_of_nonpos (by linarith)]; linarith, fun _ => by omega⟩
  · exact ⟨_, n + 1, rfl, by push_cast; rw [abs_of_nonpos (by linarith)]; linarith, fun hc => by
      push_cast at hc; rw [abs_of_nonpos (by linarith)] at hc; linarith⟩

/-- every real number has a nearest float -/
theorem exists_nearestReal (heb : 2 ≤ eb) (r : ℝ) : ∃ b, NearestReal eb fb r b := by
  classical
  have h0 : ieee eb fb 0 = .num 0 := by
    rcases ieee_zero (eb := eb) (fb := fb) with h | h
    · exact h
    · omega
  let val : ℕ → ℚ := fun b => match ieee eb fb b with | .num x => x | _ => 0
  have hval : ∀ {b x}, ieee eb fb b = .num x → val b = x := by intro b x h; simp only [val, h]
  let S := (Finset.range (2 ^ (eb + fb + 1))).filter (fun b => ∃ x, ieee eb fb b = .num x)
  have hS : S.Nonempty := ⟨0, by simp only [S, Finset.mem_filter, Finset.mem_range]; exact ⟨by positivity, 0, h0⟩⟩
  obtain ⟨b, hb, hmin⟩ := Finset.exists_min_image S (fun b => |r - (val b : ℝ)|) hS
  obtain ⟨x, hx⟩ := (Finset.mem_filter.mp hb).2
  refine ⟨b, x, hx, fun g z hg => ?_⟩
  have hg' : ieee eb fb (g % 2 ^ (eb + fb + 1)) = .num z := by
    rw [← hg]
    unfold ieee
    have e1 : g % 2 ^ (eb + fb + 1) / 2 ^ (eb + fb) % 2 = g / 2 ^ (eb + fb) % 2 := by
      rw [pow_succ, Nat.mod_mul_right_div_self, Nat.mod_mod]
    have e2 : g % 2 ^ (eb + fb + 1) / 2 ^ fb % 2 ^ eb = g / 2 ^ fb % 2 ^ eb := by
      rw [show eb + fb + 1 = fb + (eb + 1) by ring, pow_add, Nat.mod_mul_right_div_self]
      exact Nat.mod_mod_of_dvd _ (pow_dvd_pow 2 (by omega))
    have e3 : g % 2 ^ (eb + fb + 1) % 2 ^ fb = g % 2 ^ fb := Nat.mod_mod_of_dvd _ (pow_dvd_pow 2 (by omega))
    simp only [e1, e2, e3]
  have := hmin (g % 2 ^ (eb + fb + 1)) (Finset.mem_filter.mpr ⟨Finset.mem_range.mpr (Nat.mod_lt _ (by positivity)), z, hg'⟩)
  simp only [hval hx, hval hg'] at this
  exact this

end Verif
