import Verif.Spec.Sum
import Mathlib.Algebra.Order.Floor.Semifield
import Mathlib.Tactic.Linarith
import Mathlib.Tactic.Ring
import Mathlib.Tactic.Positivity
import Mathlib.Tactic.FieldSimp
import Mathlib.Tactic.NormNum

/-! # Aligned sums are monotone -/

namespace Verif
open Fmt

theorem cutTo_nonneg_eq {u x : ℚ} (hx : 0 ≤ x) : cutTo u x = ⌊x / u⌋₊ * u := by
  unfold cutTo; rw [if_neg (not_lt.mpr hx), abs_of_nonneg hx, one_mul]

theorem cutTo_zero (u : ℚ) : cutTo u 0 = 0 := by rw [cutTo_nonneg_eq le_rfl]; simp

theorem cutTo_neg (u x : ℚ) : cutTo u (-x) = -cutTo u x := by
  rcases lt_trichotomy x 0 with h | rfl | h
  · unfold cutTo
    rw [if_neg (by linarith), if_pos h, abs_neg]; ring
  · simp [cutTo_zero]
  · unfold cutTo
    rw [if_pos (by linarith), if_neg (by linarith), abs_neg]; ring

theorem cutTo_nonneg {u x : ℚ} (hu : 0 < u) (hx : 0 ≤ x) : 0 ≤ cutTo u x := by
  rw [cutTo_nonneg_eq hx]; positivity

theorem cutTo_le {u x : ℚ} (hu : 0 < u) (hx : 0 ≤ x) : cutTo u x ≤ x := by
  rw [cutTo_nonneg_eq hx]
  have := Nat.floor_le (div_nonneg hx hu.le)
  rwa [le_div_iff₀ hu] at this

theorem cutTo_nonpos {u x : ℚ} (hu : 0 < u) (hx : x ≤ 0) : cutTo u x ≤ 0 := by
  have := cutTo_nonneg hu (x := -x) (by linarith)
  rw [cutTo_neg] at this; linarith

theorem cutTo_ge {u x : ℚ} (hu : 0 < u) (hx : x ≤ 0) : x ≤ cutTo u x := by
  have := cutTo_le hu (x := -x) (by linarith)
  rw [cutTo_neg] at this; linarith

theorem cutTo_mono {u x y : ℚ} (hu : 0 < u) (h : x ≤ y) : cutTo u x ≤ cutTo u y := by
  have key : ∀ {x y : ℚ}, 0 ≤ x → x ≤ y → cutTo u x ≤ cutTo u y := by
    intro x y hx h
    rw [cutTo_nonneg_eq hx, cutTo_nonneg_eq (hx.trans h)]
    gcongr
  rcases le_total 0 x with hx | hx
  · exact key hx h
  · rcases le_total 0 y with hy | hy
    · exact (cutTo_nonpos hu hx).trans (cutTo_nonneg hu hy)
    · have := key (x := -y) (y := -x) (by linarith) (by linarith)
      rw [cutTo_neg, cutTo_neg] at this; linarith

theorem cutTo_abs {u x : ℚ} (hu : 0 < u) : |cutTo u x| ≤ |x| := by
  rcases le_total 0 x with hx | hx
  · rw [abs_of_nonneg (cutTo_nonneg hu hx), abs_of_nonneg hx]; exact cutTo_le hu hx
  · rw [abs_of_nonpos (cutTo_nonpos hu hx), abs_of_nonpos hx]; have := cutTo_ge hu hx; linarith

/-- numbers below `n` units are cut to at most `n-1` units -/
theorem cutTo_below {u x : ℚ} {n : ℕ} (hu : 0 < u) (hn : 1 ≤ n) (h : x < n * u) : cutTo u x ≤ (n - 1) * u := by
  rcases le_total 0 x with hx | hx
  · rw [cutTo_nonneg_eq hx]
    have h1 : ⌊x / u⌋₊ < n := by
      rw [Nat.floor_lt (div_nonneg hx hu.le), div_lt_iff₀ hu]; exact h
    have h2 : ((⌊x / u⌋₊ : ℕ) : ℚ) + 1 ≤ n := by exact_mod_cast h1
    exact mul_le_mul_of_nonneg_right (by linarith) hu.le
  · have h1 : (1 : ℚ) ≤ n := by exact_mod_cast hn
    exact (cutTo_nonpos hu hx).trans (mul_nonneg (by linarith) hu.le)

/-- numbers from `n` units on keep them -/
theorem cutTo_above {u x : ℚ} {n : ℕ} (hu : 0 < u) (h : n * u ≤ x) : n * u ≤ cutTo u x := by
  have hx : 0 ≤ x := le_trans (by positivity) h
  rw [cutTo_nonneg_eq hx]
  have : n ≤ ⌊x / u⌋₊ := by
    rw [Nat.le_floor_iff (div_nonneg hx hu.le), le_div_iff₀ hu]; exact h
  have : (n : ℚ) ≤ ⌊x / u⌋₊ := by exact_mod_cast this
  gcongr

/-- a coarser cut loses at most the coarser unit less the finer one -/
theorem cutTo_coarser {u y : ℚ} {K : ℕ} (hu : 0 < u) (hK : 1 ≤ K) : cutTo u y ≤ cutTo (K * u) y + (K - 1) * u := by
  have hK' : (1 : ℚ) ≤ K := by exact_mod_cast hK
  rcases le_total 0 y with hy | hy
  · rw [cutTo_nonneg_eq hy, cutTo_nonneg_eq hy, mul_comm (K : ℚ) u, ← div_div, Nat.floor_div_natCast]
    set n := ⌊y / u⌋₊
    have h1 : n = K * (n / K) + n % K := (Nat.div_add_mod n K).symm
    have h2 : n % K + 1 ≤ K := Nat.mod_lt _ (by omega)
    have h1' : (n : ℚ) = K * ((n / K : ℕ) : ℚ) + ((n % K : ℕ) : ℚ) := by exact_mod_cast h1
    have h2' : ((n % K : ℕ) : ℚ) + 1 ≤ K := by exact_mod_cast h2
    generalize ((n / K : ℕ) : ℚ) = q at *
    generalize ((n % K : ℕ) : ℚ) = r at *
    rw [h1']
    nlinarith
  · have h0 : 0 ≤ -y := by linarith
    have h1 : cutTo u y = -cutTo u (-y) := by rw [cutTo_neg]; ring
    have h2 : cutTo (K * u) y = -cutTo (K * u) (-y) := by rw [cutTo_neg]; ring
    rw [h1, h2, cutTo_nonneg_eq h0, cutTo_nonneg_eq h0, mul_comm (K : ℚ) u, ← div_div, Nat.floor_div_natCast]
    set n := ⌊-y / u⌋₊
    have h3 : n / K * K ≤ n := Nat.div_mul_le_self n K
    have h3' : ((n / K : ℕ) : ℚ) * K ≤ n := by exact_mod_cast h3
    generalize ((n / K : ℕ) : ℚ) = q at *
    nlinarith

theorem lt_log {x : ℚ} (hx : x ≠ 0) {e : ℤ} (h : Int.log 2 |x| ≤ e) : |x| < 2 ^ (e + 1) := by
  have h1 := (Int.lt_zpow_iff_log_lt (b := 2) (by norm_num) (abs_pos.mpr hx) (x := e + 1)).mpr (by omega)
  exact_mod_cast h1

theorem log_le {x : ℚ} (hx : x ≠ 0) {e : ℤ} (h : e ≤ Int.log 2 |x|) : (2 : ℚ) ^ e ≤ |x| := by
  have h1 := (Int.zpow_le_iff_le_log (b := 2) (by norm_num) (abs_pos.mpr hx) (x := e)).mpr h
  exact_mod_cast h1

theorem sumUnit_pos (F : ℕ) (x y : ℚ) : 0 < sumUnit F x y := by unfold sumUnit; positivity

theorem cutSum_neg (F : ℕ) (x y : ℚ) : cutSum F (-x) (-y) = -cutSum F x y := by
  unfold cutSum sumUnit
  rw [abs_neg, abs_neg, cutTo_neg, cutTo_neg]; ring

theorem cutSum_comm (F : ℕ) (x y : ℚ) : cutSum F x y = cutSum F y x := by
  unfold cutSum sumUnit
  rw [max_comm, add_comm]

theorem log_mono_abs {x y : ℚ} (hx : x ≠ 0) (h : |x| ≤ |y|) : Int.log 2 |x| ≤ Int.log 2 |y| :=
  Int.log_mono_right (abs_pos.mpr hx) h

/-- the step to a greater exponent, `x'` being the operand that makes it necessary -/
theorem cutSum_step {F : ℕ} (hF : 2 ≤ F) {x x' y : ℚ} {e : ℤ} {k : ℕ} (hk : 1 ≤ k)
    (hx : |x| < 2 ^ (e + 1)) (hx' : 2 ^ (e + k) ≤ x') :
    cutTo (2 ^ (e + 2 - F : ℤ)) x + cutTo (2 ^ (e + 2 - F : ℤ)) y ≤
      cutTo (2 ^ (e + k + 2 - F : ℤ)) x' + cutTo (2 ^ (e + k + 2 - F : ℤ)) y := by
  set u : ℚ := 2 ^ (e + 2 - F : ℤ) with hu
  have hup : 0 < u := by positivity
  have hku : (2 : ℚ) ^ (e + k + 2 - F : ℤ) = ((2 ^ k : ℕ) : ℚ) * u := by
    rw [hu]; push_cast; rw [← zpow_natCast, ← zpow_add₀ (by norm_num)]; congr 1; ring
  have h1 : (2 : ℚ) ^ (e + 1) = ((2 ^ (F - 1) : ℕ) : ℚ) * u := by
    rw [hu]; push_cast; rw [← zpow_natCast, ← zpow_add₀ (by norm_num)]; congr 1; omega
  have h2 : (2 : ℚ) ^ (e + k) = ((2 ^ (F - 2) : ℕ) : ℚ) * (((2 ^ k : ℕ) : ℚ) * u) := by
    rw [hu]; push_cast; rw [← zpow_natCast, ← zpow_natCast, ← zpow_add₀ (by norm_num), ← zpow_add₀ (by norm_num)]
    congr 1; omega
  rw [hku]
  have a1 := cutTo_below (x := x) (n := 2 ^ (F - 1)) hup Nat.one_le_two_pow (by rw [← h1]; exact lt_of_abs_lt hx)
  have a2 := cutTo_above (x := x') (u := ((2 ^ k : ℕ) : ℚ) * u) (n := 2 ^ (F - 2)) (by positivity) (by rw [← h2]; exact hx')
  have a3 := cutTo_coarser (y := y) (K := 2 ^ k) hup Nat.one_le_two_pow
  have hG : (1 : ℚ) ≤ ((2 ^ (F - 2) : ℕ) : ℚ) := by exact_mod_cast Nat.one_le_two_pow
  have hK : (2 : ℚ) ≤ ((2 ^ k : ℕ) : ℚ) := by
    have : 2 ^ 1 ≤ 2 ^ k := Nat.pow_le_pow_right (by norm_num) hk
    exact_mod_cast this
  have hF1 : ((2 ^ (F - 1) : ℕ) : ℚ) = 2 * ((2 ^ (F - 2) : ℕ) : ℚ) := by
    have : 2 ^ (F - 1) = 2 * 2 ^ (F - 2) := by rw [← pow_succ']; congr 1; omega
    exact_mod_cast this
  rw [hF1] at a1
  generalize ((2 ^ (F - 2) : ℕ) : ℚ) = G at *
  generalize ((2 ^ k : ℕ) : ℚ) = K at *
  have : 0 ≤ (G - 1) * (K - 2) * u := mul_nonneg (mul_nonneg (by linarith) (by linarith)) hup.le
  nlinarith

/-- aligned sums are monotone in the first operand -/
theorem cutSum_mono {F : ℕ} (hF : 2 ≤ F) {x x' y : ℚ} (hx : x ≠ 0) (hx' : x' ≠ 0) (h : x ≤ x') :
    cutSum F x y ≤ cutSum F x' y := by
  have key : ∀ {x x' y : ℚ}, x ≠ 0 → x' ≠ 0 → x ≤ x' →
      max (Int.log 2 |x|) (Int.log 2 |y|) < max (Int.log 2 |x'|) (Int.log 2 |y|) → cutSum F x y ≤ cutSum F x' y := by
    intro x x' y hx hx' h hlt
    have hm : max (Int.log 2 |x'|) (Int.log 2 |y|) = Int.log 2 |x'| := by omega
    have hpos : 0 < x' := by
      by_contra hc
      have h1 : |x'| ≤ |x| := by rw [abs_of_nonpos (by linarith), abs_of_nonpos (by linarith)]; linarith
      have := log_mono_abs hx' h1
      omega
    unfold cutSum sumUnit
    obtain ⟨k, hk⟩ : ∃ k : ℕ, max (Int.log 2 |x'|) (Int.log 2 |y|) = max (Int.log 2 |x|) (Int.log 2 |y|) + k :=
      ⟨(max (Int.log 2 |x'|) (Int.log 2 |y|) - max (Int.log 2 |x|) (Int.log 2 |y|)).toNat, by omega⟩
    rw [hk]
    refine cutSum_step hF (by omega) (lt_log hx (le_max_left _ _)) ?_
    rw [← hk, hm]
    have := log_le hx' le_rfl
    rwa [abs_of_pos hpos] at this ⊢
  rcases lt_trichotomy (max (Int.log 2 |x|) (Int.log 2 |y|)) (max (Int.log 2 |x'|) (Int.log 2 |y|)) with hlt | heq | hgt
  · exact key hx hx' h hlt
  · unfold cutSum sumUnit
    rw [heq]
    have := cutTo_mono (u := 2 ^ (max (Int.log 2 |x'|) (Int.log 2 |y|) + 2 - F : ℤ)) (by positivity) h
    linarith
  · have := key (x := -x') (x' := -x) (y := -y) (neg_ne_zero.mpr hx') (neg_ne_zero.mpr hx) (by linarith)
      (by rw [abs_neg, abs_neg, abs_neg]; exact hgt)
    rw [cutSum_neg, cutSum_neg] at this
    linarith

/-- the case of a first operand equal to zero: a positive operand does not make the sum less -/
theorem cutSum_pos {F : ℕ} (hF : 2 ≤ F) {x y : ℚ} (hx : 0 < x) (hy : y ≠ 0)
    (hex : cutTo (2 ^ (Int.log 2 |y| + 2 - F : ℤ)) y = y) : y ≤ cutSum F x y := by
  rcases lt_or_ge (Int.log 2 |y|) (Int.log 2 |x|) with hlt | hge
  · unfold cutSum sumUnit
    rw [max_eq_left hlt.le]
    obtain ⟨k, hk⟩ : ∃ k : ℕ, Int.log 2 |x| = Int.log 2 |y| + k := ⟨(Int.log 2 |x| - Int.log 2 |y|).toNat, by omega⟩
    have := cutSum_step hF (x := 0) (x' := x) (y := y) (e := Int.log 2 |y|) (k := k) (by omega) (by simp; positivity)
      (by rw [← hk]; have := log_le hx.ne' le_rfl; rwa [abs_of_pos hx] at this ⊢)
    rw [cutTo_zero, hex, zero_add, ← hk] at this
    exact this
  · unfold cutSum sumUnit
    rw [max_eq_right hge, hex]
    have := cutTo_nonneg (u := 2 ^ (Int.log 2 |y| + 2 - F : ℤ)) (by positivity) hx.le
    linarith

end Verif
