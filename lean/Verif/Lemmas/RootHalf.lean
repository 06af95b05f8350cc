import Verif.Lemmas.Remainder

/-! Lemmas about square roots of halves rounded to `float`, possibly through `double`, and then to half -/

namespace Verif
namespace HalfPrec
open Fmt

/-- the square of a number halfway between two halves is not close to a half -/
theorem sq_mid {n A k W : ℤ} (hn : |n| < 2 ^ 11) (hA : -24 ≤ A) (h : IsMid k W) :
    (2 : ℚ) ^ W * 2 ^ W ≤ |(n : ℚ) * 2 ^ A - (k * 2 ^ W) * (k * 2 ^ W)| := by
  obtain ⟨h1, h2, h3, -, h4⟩ := h
  have hp : (0 : ℚ) < 2 ^ W := by positivity
  have hpp : (0 : ℚ) < 2 ^ W * 2 ^ W := by positivity
  have e0 : (2 : ℚ) ^ W * 2 ^ W = 2 ^ (2 * W) := by rw [← zpow_add₀ (by norm_num)]; congr 1; ring
  rcases le_or_gt (2 * W + 1) A with hc | hc
  · obtain ⟨d, hd⟩ : ∃ d : ℕ, A = 2 * W + (d + 1) := ⟨(A - 2 * W - 1).toNat, by omega⟩
    have e : (n : ℚ) * 2 ^ A - (k * 2 ^ W) * (k * 2 ^ W) = ((n * 2 ^ d * 2 - k * k : ℤ) : ℚ) * (2 ^ W * 2 ^ W) := by
      rw [hd, zpow_add₀ (by norm_num), ← e0, show ((d : ℤ) + 1) = ((d + 1 : ℕ) : ℤ) by push_cast; rfl, zpow_natCast]; push_cast; ring
    rw [e, abs_mul, abs_of_pos hpp]
    refine le_mul_of_one_le_left hpp.le ?_
    rw [← Int.cast_abs]
    have hodd : k * k % 2 = 1 := by rw [Int.mul_emod, h1]; rfl
    have : n * 2 ^ d * 2 - k * k ≠ 0 := by omega
    exact_mod_cast Int.one_le_abs this
  · have hk : 2 ^ 11 ≤ |k| := by rcases h4 with h4 | h4; exacts [by omega, h4]
    have hAW : (2 : ℚ) ^ A ≤ 2 ^ W * 2 ^ W := by rw [e0]; exact zpow_le_zpow_right₀ (by norm_num) (by omega)
    have hnq : |(n : ℚ)| ≤ 2 ^ 11 - 1 := by
      rw [← Int.cast_abs]
      have : |n| ≤ 2 ^ 11 - 1 := by omega
      exact_mod_cast this
    have hkq : (2 : ℚ) ^ 11 ≤ |(k : ℚ)| := by rw [← Int.cast_abs]; exact_mod_cast hk
    have e1 : |(n : ℚ) * 2 ^ A| ≤ (2 ^ 11 - 1) * (2 ^ W * 2 ^ W) := by
      rw [abs_mul, abs_of_pos (by positivity : (0 : ℚ) < 2 ^ A)]
      exact mul_le_mul hnq hAW (by positivity) (by norm_num)
    have e2 : (2 : ℚ) ^ 11 * (2 ^ W * 2 ^ W) ≤ |(k * 2 ^ W : ℚ) * (k * 2 ^ W)| := by
      rw [show (k * 2 ^ W : ℚ) * (k * 2 ^ W) = k * k * (2 ^ W * 2 ^ W) by ring, abs_mul, abs_of_pos hpp]
      refine mul_le_mul_of_nonneg_right ?_ hpp.le
      rw [abs_mul]
      calc (2 : ℚ) ^ 11 ≤ 2 ^ 11 * 1 := by norm_num
        _ ≤ |(k : ℚ)| * |(k : ℚ)| := mul_le_mul hkq (le_trans (by norm_num) hkq) (by norm_num) (abs_nonneg _)
    have e3 := abs_sub_abs_le_abs_sub ((k * 2 ^ W : ℚ) * (k * 2 ^ W)) (n * 2 ^ A)
    rw [abs_sub_comm] at e3
    linarith

/-- so the root of a half keeps a distance from it -/
theorem root_mid {x : ℚ} {n A k W : ℤ} (hx : x = n * 2 ^ A) (hx0 : 0 ≤ x) (hn : |n| < 2 ^ 11) (hA : -24 ≤ A) (h : IsMid k W) (hk0 : 0 < k) :
    (2 : ℝ) ^ W * (1 / 2 ^ 13 + 1 / 2 ^ 26) ≤ |√(x : ℝ) - k * 2 ^ W| := by
  have h1 := sq_mid hn hA h
  rw [← hx] at h1
  have hp : (0 : ℝ) < 2 ^ W := by positivity
  have h2 : (2 : ℝ) ^ W * 2 ^ W ≤ |(x : ℝ) - (k * 2 ^ W) * (k * 2 ^ W)| := by
    have : (((2 : ℚ) ^ W * 2 ^ W : ℚ) : ℝ) ≤ ((|x - (k * 2 ^ W) * (k * 2 ^ W)| : ℚ) : ℝ) := by exact_mod_cast h1
    push_cast at this
    exact this
  have hxr : (0 : ℝ) ≤ x := by exact_mod_cast hx0
  have hS := Real.sqrt_nonneg (x : ℝ)
  have hSS := Real.mul_self_sqrt hxr
  generalize √(x : ℝ) = S at *
  have hk : (k : ℝ) ≤ 2 ^ 12 - 1 := by
    have := abs_lt.mp h.2.1
    have h3 : k ≤ 2 ^ 12 - 1 := by omega
    exact_mod_cast h3
  have hk1 : (1 : ℝ) ≤ k := by exact_mod_cast hk0
  generalize (2 : ℝ) ^ W = u at *
  have hD : (0 : ℝ) < k * u := by positivity
  by_contra hc
  rw [not_le] at hc
  have h4 : S + k * u ≤ u * (2 ^ 13 - 2 + 1 / 2 ^ 12) := by
    have h5 := (abs_lt.mp hc).2
    have h6 : (k : ℝ) * u ≤ (2 ^ 12 - 1) * u := mul_le_mul_of_nonneg_right hk hp.le
    have h7 : u * (1 / 2 ^ 13 + 1 / 2 ^ 26) ≤ u * (1 / 2 ^ 12) := mul_le_mul_of_nonneg_left (by norm_num) hp.le
    linarith
  have e : |(x : ℝ) - (k * u) * (k * u)| = |S - k * u| * (S + k * u) := by
    rw [← hSS, show S * S - k * u * (k * u) = (S - k * u) * (S + k * u) by ring, abs_mul, abs_of_pos (by linarith : 0 < S + k * u)]
  rw [e] at h2
  have h8 : |S - k * u| * (S + k * u) ≤ (u * (1 / 2 ^ 13 + 1 / 2 ^ 26)) * (u * (2 ^ 13 - 2 + 1 / 2 ^ 12)) :=
    mul_le_mul hc.le h4 (by linarith) (by positivity)
  have h9 : (u * (1 / 2 ^ 13 + 1 / 2 ^ 26)) * (u * (2 ^ 13 - 2 + 1 / 2 ^ 12)) < u * u := by
    have : (u * (1 / 2 ^ 13 + 1 / 2 ^ 26)) * (u * (2 ^ 13 - 2 + 1 / 2 ^ 12)) = u * u * ((1 / 2 ^ 13 + 1 / 2 ^ 26) * (2 ^ 13 - 2 + 1 / 2 ^ 12)) := by ring
    rw [this]
    have hu : 0 < u * u := by positivity
    calc u * u * ((1 / 2 ^ 13 + 1 / 2 ^ 26) * (2 ^ 13 - 2 + 1 / 2 ^ 12)) < u * u * 1 := by
          apply mul_lt_mul_of_pos_left _ hu; norm_num
      _ = _ := mul_one _
  linarith

/-- rounding to nearest does not cross a number of the format -/
theorem nearestReal_mono {eb fb b g : ℕ} {r : ℝ} {y z : ℚ} (h : NearestReal eb fb r b) (hy : ieee eb fb b = .num y) (hg : ieee eb fb g = .num z) :
    ((z : ℝ) ≤ r → (z : ℝ) ≤ y) ∧ (r ≤ (z : ℝ) → (y : ℝ) ≤ z) := by
  obtain ⟨y', hy', hall⟩ := h
  rw [hy] at hy'
  obtain rfl : y = y' := XNum.num.inj hy'
  have := hall g z hg
  constructor
  · intro h1
    by_contra h2
    rw [not_le] at h2
    rw [abs_of_nonneg (by linarith), abs_of_nonneg (by linarith)] at this
    linarith
  · intro h1
    by_contra h2
    rw [not_le] at h2
    rw [abs_of_nonpos (by linarith), abs_of_nonpos (by linarith)] at this
    linarith

theorem double_of_int {n W : ℤ} (hn : |n| < 2 ^ 53) (hW : -100 ≤ W) (hW2 : W ≤ 100) : ∃ b, ieee 11 52 b = .num (n * 2 ^ W) := by
  refine ieee_of_int (by norm_num) hn (by norm_num; omega) ?_
  have hp : (0 : ℚ) < 2 ^ W := by positivity
  rw [abs_mul, abs_of_pos hp]
  have h1 : |(n : ℚ)| < 2 ^ (53 : ℤ) := by rw [← Int.cast_abs]; exact_mod_cast hn
  calc |(n : ℚ)| * 2 ^ W < 2 ^ (53 : ℤ) * 2 ^ W := mul_lt_mul_of_pos_right h1 hp
    _ = 2 ^ (53 + W) := by rw [zpow_add₀ (by norm_num)]
    _ ≤ _ := zpow_le_zpow_right₀ (by norm_num) (by norm_num; omega)

/-- the root as a `float` is on the same side of a number halfway between two halves as the root itself -/
theorem root_side {x y : ℚ} {f : ℕ} (h : IsRootFloat x f) (hy : ieee 8 23 f = .num y) {k W : ℤ} (hm : IsMid k W) (hk : 0 < k)
    (hd : (2 : ℝ) ^ W * (1 / 2 ^ 13 + 1 / 2 ^ 26) ≤ |√(x : ℝ) - k * 2 ^ W|) :
    (√(x : ℝ) < k * 2 ^ W → y < k * 2 ^ W) ∧ ((k : ℝ) * 2 ^ W < √(x : ℝ) → (k : ℚ) * 2 ^ W < y) := by
  obtain ⟨-, hk2, hW1, hW2, -⟩ := hm
  have hkb := abs_lt.mp hk2
  have hp : (0 : ℝ) < 2 ^ W := by positivity
  unfold IsRootFloat at h
  generalize √(x : ℝ) = S at *
  -- the number that is rounded to float keeps the distance
  obtain ⟨r, hr, hrd⟩ : ∃ r : ℝ, NearestReal 8 23 r f ∧ ((S < k * 2 ^ W → r ≤ k * 2 ^ W - 2 ^ W * (1 / 2 ^ 13 + 1 / 2 ^ 26)) ∧
      ((k : ℝ) * 2 ^ W < S → (k : ℝ) * 2 ^ W + 2 ^ W * (1 / 2 ^ 13 + 1 / 2 ^ 26) ≤ r)) := by
    have hS : (S < k * 2 ^ W → S ≤ k * 2 ^ W - 2 ^ W * (1 / 2 ^ 13 + 1 / 2 ^ 26)) ∧
        ((k : ℝ) * 2 ^ W < S → (k : ℝ) * 2 ^ W + 2 ^ W * (1 / 2 ^ 13 + 1 / 2 ^ 26) ≤ S) := by
      constructor
      · intro h1; rw [abs_of_neg (by linarith)] at hd; linarith
      · intro h1; rw [abs_of_pos (by linarith)] at hd; linarith
    rcases h with h | ⟨d, h1, q, h2, h3⟩
    · exact ⟨S, h, hS⟩
    · have e : (2 : ℚ) ^ W = 2 ^ (W - 26) * 2 ^ 26 := by
        rw [← zpow_natCast (2 : ℚ) 26, ← zpow_add₀ (by norm_num)]; congr 1; push_cast; ring
      have er : (2 : ℝ) ^ W = 2 ^ (W - 26) * 2 ^ 26 := by
        rw [← zpow_natCast (2 : ℝ) 26, ← zpow_add₀ (by norm_num)]; congr 1; push_cast; ring
      refine ⟨q, h3, fun hlt => ?_, fun hlt => ?_⟩
      · obtain ⟨g, hg⟩ := double_of_int (n := k * 2 ^ 26 - (2 ^ 13 + 1)) (W := W - 26) (by rw [abs_lt]; omega) (by omega) (by omega)
        have := (nearestReal_mono h1 h2 hg).2 (by
          have := hS.1 hlt
          push_cast
          rw [er] at this
          linarith)
        push_cast at this
        rw [er]
        linarith
      · obtain ⟨g, hg⟩ := double_of_int (n := k * 2 ^ 26 + (2 ^ 13 + 1)) (W := W - 26) (by rw [abs_lt]; omega) (by omega) (by omega)
        have := (nearestReal_mono h1 h2 hg).1 (by
          have := hS.2 hlt
          push_cast
          rw [er] at this
          linarith)
        push_cast at this
        rw [er]
        linarith
  have er : (2 : ℝ) ^ W = 2 ^ (W - 12) * 2 ^ 12 := by
    rw [← zpow_natCast (2 : ℝ) 12, ← zpow_add₀ (by norm_num)]; congr 1; push_cast; ring
  have hp2 : (0 : ℝ) < 2 ^ (W - 12) := by positivity
  obtain ⟨g0, hg0⟩ := float_of_int (n := k) (W := W) (by rw [abs_lt]; omega) (by omega) (by omega)
  have hm0 := nearestReal_mono hr hy hg0
  obtain ⟨y', hy', hall⟩ := hr
  rw [hy] at hy'
  obtain rfl : y = y' := XNum.num.inj hy'
  constructor
  · intro hlt
    have h5 := hrd.1 hlt
    obtain ⟨g, hg⟩ := float_of_int (n := k * 2 ^ 12 - 1) (W := W - 12) (by rw [abs_lt]; omega) (by omega) (by omega)
    have h6 := hm0.2 (by push_cast; have : 0 < (2 : ℝ) ^ W * (1 / 2 ^ 13 + 1 / 2 ^ 26) := by positivity
                         linarith)
    have h6' : y ≤ k * 2 ^ W := by exact_mod_cast h6
    refine lt_of_le_of_ne h6' (fun hc => ?_)
    have h7 := hall g _ hg
    rw [hc] at h7
    push_cast at h7
    rw [er] at h7 h5
    rw [abs_of_neg (by nlinarith)] at h7
    rcases le_total r ((k * 2 ^ 12 - 1) * 2 ^ (W - 12)) with h8 | h8
    · rw [abs_of_nonpos (by linarith)] at h7; linarith
    · rw [abs_of_nonneg (by linarith)] at h7; linarith
  · intro hlt
    have h5 := hrd.2 hlt
    obtain ⟨g, hg⟩ := float_of_int (n := k * 2 ^ 12 + 1) (W := W - 12) (by rw [abs_lt]; omega) (by omega) (by omega)
    have h6 := hm0.1 (by push_cast; have : 0 < (2 : ℝ) ^ W * (1 / 2 ^ 13 + 1 / 2 ^ 26) := by positivity
                         linarith)
    have h6' : k * 2 ^ W ≤ y := by exact_mod_cast h6
    refine lt_of_le_of_ne h6' (fun hc => ?_)
    have h7 := hall g _ hg
    rw [← hc] at h7
    push_cast at h7
    rw [er] at h7 h5
    rw [abs_of_pos (by nlinarith)] at h7
    rcases le_total r ((k * 2 ^ 12 + 1) * 2 ^ (W - 12)) with h8 | h8
    · rw [abs_of_nonpos (by linarith)] at h7; linarith
    · rw [abs_of_nonneg (by linarith)] at h7; linarith

end HalfPrec
end Verif
