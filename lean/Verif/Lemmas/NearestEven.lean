import Verif.Spec.NearestEven
import Verif.Lemmas.HalfPrec
import Verif.Props.EmuFull

/-! Lemmas about rounding to the nearest half, and rounding twice -/

namespace Verif
namespace HalfPrec

/-- number halfway between two consecutive magnitudes -/
def mid (j : ℕ) : ℚ := (g j + g (j + 1)) / 2

theorem mid_mono : StrictMono mid := by
  apply strictMono_nat_of_lt_succ
  intro k
  have h1 := g_mono (Nat.lt_succ_self k)
  have h2 := g_mono (Nat.lt_succ_self (k + 1))
  unfold mid
  simp only [Nat.succ_eq_add_one] at h1 h2
  linarith

theorem mid_top : mid 31743 = 65520 := by
  unfold mid; rw [g_top.1, show 31743 + 1 = 31744 from rfl, g_top.2]; norm_num

theorem overflowAt_half : overflowAt 5 10 = 65520 := by norm_num [overflowAt]

/-- `k` is the magnitude bits of `v` rounded to nearest, ties to even -/
def Near (v : ℚ) (k : ℕ) : Prop :=
  k ≤ 31744 ∧ (∀ j, j + 1 = k → mid j ≤ v ∧ (mid j = v → k % 2 = 0)) ∧ (k ≤ 31743 → v ≤ mid k ∧ (v = mid k → k % 2 = 0))

theorem exists_near {v : ℚ} (hv : 0 ≤ v) : ∃ k, Near v k := by
  by_cases ht : 65520 ≤ v
  · refine ⟨31744, le_rfl, fun j hj => ?_, fun h => by omega⟩
    obtain rfl : j = 31743 := by omega
    rw [mid_top]; exact ⟨ht, fun _ => rfl⟩
  · have hex : ∃ j, v ≤ mid j := ⟨31743, by rw [mid_top]; linarith⟩
    classical
    set j := Nat.find hex with hj
    have h1 : v ≤ mid j := Nat.find_spec hex
    have h2 : ∀ i, i < j → mid i < v := fun i hi => not_le.mp (Nat.find_min hex hi)
    have hj2 : j ≤ 31743 := Nat.find_min' hex (by rw [mid_top]; linarith)
    by_cases hc : v = mid j ∧ j % 2 = 1
    · have hj3 : j ≠ 31743 := by rintro hh; rw [hh, mid_top] at hc; linarith [hc.1]
      refine ⟨j + 1, by omega, fun i hi => ?_, fun h => ?_⟩
      · obtain rfl : i = j := by omega
        exact ⟨hc.1.ge, fun _ => by omega⟩
      · have := mid_mono (Nat.lt_succ_self j)
        exact ⟨by linarith [hc.1], fun _ => by omega⟩
    · refine ⟨j, by omega, fun i hi => ?_, fun _ => ⟨h1, fun h => ?_⟩⟩
      · have := h2 i (by omega)
        exact ⟨this.le, fun h => absurd h this.ne⟩
      · by_contra h3
        exact hc ⟨h, by omega⟩

theorem near_dist {v : ℚ} {k : ℕ} (h : Near v k) (hk : k ≤ 31743) (j : ℕ) :
    |v - g k| ≤ |v - g j| ∧ (|v - g k| = |v - g j| → j = k ∨ k % 2 = 0) := by
  obtain ⟨-, h1, h2⟩ := h
  obtain ⟨h2, h3⟩ := h2 hk
  unfold mid at h1 h2 h3
  have ub : v - g k ≤ g (k + 1) - v := by linarith
  rcases lt_trichotomy j k with hj | hj | hj
  · obtain ⟨i, rfl⟩ : ∃ i, k = i + 1 := ⟨k - 1, by omega⟩
    obtain ⟨h4, h5⟩ := h1 i rfl
    have hm : g j ≤ g i := g_mono.monotone (by omega)
    have hlt := g_mono (Nat.lt_succ_self i)
    simp only [Nat.succ_eq_add_one] at hlt
    have hlt2 := g_mono (Nat.lt_succ_self (i + 1))
    simp only [Nat.succ_eq_add_one] at hlt2
    have hvj : 0 ≤ v - g j := by linarith
    rw [abs_of_nonneg hvj]
    rcases le_total (g (i + 1)) v with hc | hc
    · rw [abs_of_nonneg (by linarith)]
      exact ⟨by linarith, fun h => by linarith⟩
    · rw [abs_of_nonpos (by linarith)]
      exact ⟨by linarith, fun h => Or.inr (h5 (by linarith))⟩
  · subst hj; exact ⟨le_rfl, fun _ => Or.inl rfl⟩
  · have hm : g (k + 1) ≤ g j := g_mono.monotone (by omega)
    have hlt := g_mono (Nat.lt_succ_self k)
    simp only [Nat.succ_eq_add_one] at hlt
    have hvj : v - g j ≤ 0 := by linarith
    rw [abs_of_nonpos hvj]
    rcases le_total (g k) v with hc | hc
    · rw [abs_of_nonneg (by linarith)]
      exact ⟨by linarith, fun h => Or.inr (h3 (by linarith))⟩
    · rw [abs_of_nonpos (by linarith)]
      exact ⟨by linarith, fun h => by linarith⟩

/-- the number of any pattern from its fields -/
theorem ieee_half' (h : ℕ) : ieee 5 10 h = ieee 5 10 (h / 2 ^ 15 % 2 * 2 ^ 15 + h % 2 ^ 15) := by
  unfold ieee
  have e1 : (h / 2 ^ 15 % 2 * 2 ^ 15 + h % 2 ^ 15) / 2 ^ (5 + 10) % 2 = h / 2 ^ (5 + 10) % 2 := by omega
  have e2 : (h / 2 ^ 15 % 2 * 2 ^ 15 + h % 2 ^ 15) / 2 ^ 10 % 2 ^ 5 = h / 2 ^ 10 % 2 ^ 5 := by omega
  have e3 : (h / 2 ^ 15 % 2 * 2 ^ 15 + h % 2 ^ 15) % 2 ^ 10 = h % 2 ^ 10 := by omega
  simp only [e1, e2, e3]

/-- a finite half is plus or minus a magnitude -/
theorem half_num {h : ℕ} {q : ℚ} (hq : ieee 5 10 h = .num q) :
    h % 2 ^ 15 ≤ 31743 ∧ q = (if h / 2 ^ 15 % 2 = 1 then -1 else 1) * g (h % 2 ^ 15) := by
  rw [ieee_half', ieee_half _ _ (by omega) (by omega)] at hq
  split at hq
  · injection hq with hq
    exact ⟨by omega, hq.symm⟩
  · split at hq <;> cases hq

theorem abs_sgn {x : ℚ} {t : ℕ} (hs : x ≠ 0 → (t = 1 ↔ x < 0)) (y : ℚ) :
    |x - (if t = 1 then -1 else 1) * y| = |(|x|) - y| := by
  rcases lt_trichotomy x 0 with h | h | h
  · rw [if_pos ((hs h.ne).2 h), abs_of_neg h, show x - -1 * y = -(-x - y) by ring, abs_neg]
  · subst h
    by_cases ht : t = 1 <;> simp [ht]
  · rw [if_neg (fun ht => absurd ((hs h.ne').1 ht) (not_lt.mpr h.le)), abs_of_pos h, one_mul]

theorem nearest_iff {x : ℚ} {h : ℕ} (hlt : h < 2 ^ 16) (hs : x ≠ 0 → (h / 2 ^ 15 = 1 ↔ x < 0)) :
    IsNearestEven 5 10 x h ↔ Near |x| (h % 2 ^ 15) := by
  have hv := abs_nonneg x
  have ht : h / 2 ^ 15 % 2 = h / 2 ^ 15 := by omega
  constructor
  · rintro ⟨-, -, h2, h3⟩
    rw [overflowAt_half] at h2 h3
    by_cases hc : 65520 ≤ |x|
    · have := h2 hc
      rw [ieee_half', ieee_half _ _ (by omega) (by omega)] at this
      split at this
      · cases this
      split at this
      · rename_i _ hk
        refine ⟨hk.le, fun j hj => ?_, fun h => by omega⟩
        obtain rfl : j = 31743 := by omega
        rw [mid_top, hk]; exact ⟨hc, fun _ => rfl⟩
      · cases this
    · rw [not_le] at hc
      obtain ⟨q, hq, hall⟩ := h3 hc
      obtain ⟨hk, hq'⟩ := half_num hq
      rw [ht] at hq'
      have dist : ∀ j ≤ 31743, |(|x|) - g (h % 2 ^ 15)| ≤ |(|x|) - g j| ∧
          (|(|x|) - g (h % 2 ^ 15)| = |(|x|) - g j| → j ≠ h % 2 ^ 15 → h % 2 = 0) := by
        intro j hj
        have e : ieee 5 10 (h / 2 ^ 15 * 2 ^ 15 + j) = .num ((if h / 2 ^ 15 = 1 then -1 else 1) * g j) := by
          rw [ieee_half _ _ (by omega) (by omega), if_pos (by omega)]
        have := hall _ _ e
        rw [hq', abs_sgn hs, abs_sgn hs] at this
        refine ⟨this.1, fun h1 h2 => ?_⟩
        rcases this.2 h1 with h4 | h4
        · exfalso
          have : g j = g (h % 2 ^ 15) := by
            by_cases hh : h / 2 ^ 15 = 1
            · rw [if_pos hh] at h4; linarith
            · rw [if_neg hh] at h4; linarith
          exact h2 (g_mono.injective this)
        · exact h4
      refine ⟨by omega, fun j hj => ?_, fun _ => ?_⟩
      · obtain ⟨d1, d2⟩ := dist j (by omega)
        have hlt := g_mono (show j < h % 2 ^ 15 by omega)
        rw [← hj] at d1 d2 hlt ⊢
        unfold mid
        have key : (g j + g (j + 1)) / 2 ≤ |x| := by
          by_contra hcon
          rw [not_le] at hcon
          rw [abs_of_nonpos (show |x| - g (j + 1) ≤ 0 by linarith)] at d1
          rcases le_total (g j) |x| with h5 | h5
          · rw [abs_of_nonneg (show 0 ≤ |x| - g j by linarith)] at d1; linarith
          · rw [abs_of_nonpos (show |x| - g j ≤ 0 by linarith)] at d1; linarith
        refine ⟨key, fun h5 => ?_⟩
        have := d2 (by
          rw [abs_of_nonpos (show |x| - g (j + 1) ≤ 0 by linarith), abs_of_nonneg (show 0 ≤ |x| - g j by linarith)]
          linarith) (by omega)
        omega
      · rcases Nat.lt_or_ge (h % 2 ^ 15) 31743 with h6 | h6
        · obtain ⟨d1, d2⟩ := dist (h % 2 ^ 15 + 1) (by omega)
          have hlt := g_mono (Nat.lt_succ_self (h % 2 ^ 15))
          simp only [Nat.succ_eq_add_one] at hlt
          have hpar : h % 2 ^ 15 % 2 = h % 2 := by omega
          unfold mid
          generalize h % 2 ^ 15 = k at *
          have key : |x| ≤ (g k + g (k + 1)) / 2 := by
            by_contra hcon
            rw [not_le] at hcon
            rw [abs_of_nonneg (show 0 ≤ |x| - g k by linarith)] at d1
            rcases le_total (g (k + 1)) |x| with h5 | h5
            · rw [abs_of_nonneg (show 0 ≤ |x| - g (k + 1) by linarith)] at d1; linarith
            · rw [abs_of_nonpos (show |x| - g (k + 1) ≤ 0 by linarith)] at d1; linarith
          refine ⟨key, fun h5 => ?_⟩
          rw [hpar]
          exact d2 (by
            rw [abs_of_nonneg (show 0 ≤ |x| - g k by linarith), abs_of_nonpos (show |x| - g (k + 1) ≤ 0 by linarith)]
            linarith) (by omega)
        · rw [show h % 2 ^ 15 = 31743 by omega, mid_top]
          exact ⟨hc.le, fun h5 => absurd h5 hc.ne⟩
  · intro hn
    refine ⟨hlt, hs, fun hc => ?_, fun hc => ?_⟩
    · rw [overflowAt_half] at hc
      have hk : h % 2 ^ 15 = 31744 := by
        obtain ⟨h1, -, h2⟩ := hn
        by_contra hne
        obtain ⟨h3, h4⟩ := h2 (by omega)
        rcases Nat.lt_or_ge (h % 2 ^ 15) 31743 with h6 | h6
        · have := mid_mono h6
          rw [mid_top] at this
          linarith
        · have h7 : h % 2 ^ 15 = 31743 := by omega
          rw [h7, mid_top] at h3 h4
          have := h4 (by linarith)
          omega
      have hx0 : x ≠ 0 := by rintro rfl; norm_num at hc
      rw [ieee_half', ieee_half _ _ (by omega) (by omega), if_neg (by omega), if_pos hk, ht]
      congr 1
      exact decide_eq_decide.mpr (hs hx0)
    · rw [overflowAt_half] at hc
      have hk : h % 2 ^ 15 ≤ 31743 := by
        obtain ⟨h1, h2, -⟩ := hn
        by_contra hne
        have := (h2 31743 (by omega)).1
        rw [mid_top] at this
        linarith
      refine ⟨(if h / 2 ^ 15 = 1 then -1 else 1) * g (h % 2 ^ 15), ?_, ?_⟩
      · rw [ieee_half', ieee_half _ _ (by omega) (by omega), if_pos (by omega), ht]
      · intro h' z hz
        obtain ⟨hj, hz'⟩ := half_num hz
        generalize hjd : h' % 2 ^ 15 = j at *
        generalize h' / 2 ^ 15 % 2 = t' at *
        rw [abs_sgn hs]
        have hpar : h % 2 ^ 15 % 2 = h % 2 := by omega
        have hdj := near_dist hn hk j
        have hd0 := near_dist hn hk 0
        rw [g_zero, sub_zero, abs_abs] at hd0
        by_cases hst : (h / 2 ^ 15 = 1 ↔ t' = 1)
        · have e : (if t' = 1 then (-1 : ℚ) else 1) = (if h / 2 ^ 15 = 1 then -1 else 1) := by simp only [hst]
          rw [hz', e, abs_sgn hs]
          refine ⟨hdj.1, fun h1 => ?_⟩
          rcases hdj.2 h1 with h2 | h2
          · left; rw [h2]
          · right; omega
        · have e : (if t' = 1 then (-1 : ℚ) else 1) = -(if h / 2 ^ 15 = 1 then -1 else 1) := by
            by_cases h1 : h / 2 ^ 15 = 1 <;> by_cases h2 : t' = 1 <;> simp_all
          have gj := g_nonneg j
          have e2 : |x - z| = |x| + g j := by
            rw [hz', e, neg_mul, ← mul_neg, abs_sgn hs, sub_neg_eq_add, abs_of_nonneg (by linarith)]
          rw [e2]
          refine ⟨by linarith [hd0.1], fun h1 => ?_⟩
          have gj0 : g j = 0 := by linarith [hd0.1]
          rcases hd0.2 (by linarith) with h2 | h2
          · left
            rw [hz', gj0, ← h2, g_zero]; simp
          · right; omega

theorem near_unique {v : ℚ} {k k' : ℕ} (h : Near v k) (h' : Near v k') : k = k' := by
  have key : ∀ {k k' : ℕ}, Near v k → Near v k' → k ≤ k' := by
    intro k k' h h'
    by_contra hlt
    obtain ⟨i, rfl⟩ : ∃ i, k = i + 1 := ⟨k - 1, by omega⟩
    obtain ⟨h1, h2⟩ := h.2.1 i rfl
    obtain ⟨h3, h4⟩ := h'.2.2 (by have := h.1; omega)
    have hm : mid k' ≤ mid i := mid_mono.monotone (by omega)
    have e : k' = i := mid_mono.injective (by linarith)
    have := h2 (by linarith)
    have := h4 (by linarith)
    omega
  exact le_antisymm (key h h') (key h' h)

end HalfPrec
end Verif

namespace Verif
namespace HalfPrec
open Fmt

/-- a number halfway between two halves: an odd number of units `2^W` -/
def IsMid (n W : ℤ) : Prop := n % 2 = 1 ∧ |n| < 2 ^ 12 ∧ -25 ≤ W ∧ W ≤ 4 ∧ (W = -25 ∨ 2 ^ 11 ≤ |n|)

theorem mid_form {j : ℕ} (hj : j ≤ 31743) : ∃ n W : ℤ, IsMid n W ∧ 0 < n ∧ mid j = n * 2 ^ W := by
  rcases Nat.lt_or_ge j 1024 with h | h
  · refine ⟨2 * j + 1, -25, ⟨by omega, by rw [abs_of_nonneg (by omega)]; omega, le_rfl, by norm_num, Or.inl rfl⟩, by omega, ?_⟩
    unfold mid
    rw [g_sub j (by omega), g_sub (j + 1) (by omega), show (-24 : ℤ) = -25 + 1 by norm_num, zpow_add₀ (by norm_num)]
    push_cast; ring
  · obtain ⟨E, i, hE, hi, rfl⟩ : ∃ E i, 1 ≤ E ∧ i < 1024 ∧ j = E * 1024 + i := ⟨j / 1024, j % 1024, by omega, by omega, by omega⟩
    refine ⟨2048 + 2 * i + 1, E - 26, ⟨by omega, by rw [abs_of_nonneg (by omega)]; omega, by omega, by omega,
      Or.inr (by rw [abs_of_nonneg (by omega)]; omega)⟩, by omega, ?_⟩
    unfold mid
    rw [g_norm E i hE (by omega), show E * 1024 + i + 1 = E * 1024 + (i + 1) by ring, g_norm E (i + 1) hE (by omega),
      show ((E : ℤ) - 25) = E - 26 + 1 by ring, zpow_add₀ (by norm_num)]
    push_cast; ring

theorem float_of_int {n W : ℤ} (hn : |n| < 2 ^ 24) (hW : -40 ≤ W) (hW2 : W ≤ 40) : ∃ b, ieee 8 23 b = .num (n * 2 ^ W) := by
  by_cases h0 : n = 0
  · rcases ieee_zero (eb := 8) (fb := 23) with h | h
    · exact ⟨0, by rw [h, h0]; simp⟩
    · omega
  have hp : (0 : ℚ) < 2 ^ W := by positivity
  refine float_of_fits (by norm_num) ⟨n, W, hn, rfl⟩ ?_ ?_
  · have h1 : (1 : ℚ) ≤ |(n : ℚ)| := by rw [← Int.cast_abs]; exact_mod_cast Int.one_le_abs h0
    rw [abs_mul, abs_of_pos hp]
    calc (2 : ℚ) ^ ((2 : ℤ) - 2 ^ (8 - 1)) ≤ 2 ^ W := zpow_le_zpow_right₀ (by norm_num) (by norm_num; omega)
      _ ≤ _ := le_mul_of_one_le_left hp.le h1
  · rw [abs_mul, abs_of_pos hp]
    have h1 : |(n : ℚ)| < 2 ^ (24 : ℤ) := by rw [← Int.cast_abs]; exact_mod_cast hn
    calc |(n : ℚ)| * 2 ^ W < 2 ^ (24 : ℤ) * 2 ^ W := mul_lt_mul_of_pos_right h1 hp
      _ = 2 ^ (24 + W) := by rw [zpow_add₀ (by norm_num)]
      _ ≤ _ := zpow_le_zpow_right₀ (by norm_num) (by norm_num; omega)

/-- a rounded number does not become a number halfway between halves unless it is close to it -/
theorem sep {s w : ℚ} {b : ℕ} (hr : IsRounded 8 23 s b) (hw : ieee 8 23 b = .num w) {n W : ℤ} (h : IsMid n W)
    (hd : (2 : ℚ) ^ (W - 12) ≤ |s - n * 2 ^ W|) : w ≠ n * 2 ^ W := by
  obtain ⟨-, h1, h2, h3, -⟩ := h
  obtain ⟨y, hy, hall⟩ := hr
  rw [hw] at hy
  obtain rfl : w = y := XNum.num.inj hy
  have hp : (0 : ℚ) < 2 ^ (W - 12) := by positivity
  have e : (2 : ℚ) ^ W = 2 ^ (W - 12) * 4096 := by
    rw [show (4096 : ℚ) = 2 ^ (12 : ℤ) by norm_num, ← zpow_add₀ (by norm_num)]; congr 1; ring
  have habs := abs_lt.mp h1
  rintro hc
  rcases le_abs.mp hd with hd | hd
  · obtain ⟨g, hg⟩ := float_of_int (n := n * 4096 + 1) (W := W - 12) (by rw [abs_lt]; omega) (by omega) (by omega)
    have := (hall g _ hg).1 (by push_cast; rw [e] at hd; linarith)
    rw [hc, e] at this
    push_cast at this
    linarith
  · obtain ⟨g, hg⟩ := float_of_int (n := n * 4096 - 1) (W := W - 12) (by rw [abs_lt]; omega) (by omega) (by omega)
    have := (hall g _ hg).2 (by push_cast; rw [e] at hd; linarith)
    rw [hc, e] at this
    push_cast at this
    linarith

/-- Rounding to `float`, in whichever mode, does no harm to a number that is not close to a number halfway between two halves. -/
theorem double_round {s w : ℚ} {b h : ℕ} (hr : IsRounded 8 23 s b) (hw : ieee 8 23 b = .num w)
    (hsep : ∀ n W, IsMid n W → s ≠ n * 2 ^ W → (2 : ℚ) ^ (W - 12) ≤ |s - n * 2 ^ W|) (hz : s ≠ 0 → w ≠ 0)
    (hh : IsNearestEven 5 10 w h) : IsNearestEven 5 10 s h := by
  have hsw : ∀ n W, IsMid n W → w = n * 2 ^ W → s = n * 2 ^ W := by
    intro n W hm hwn
    by_contra hne
    exact sep hr hw hm (hsep n W hm hne) hwn
  have hr' := hr
  obtain ⟨y, hy, hall⟩ := hr'
  rw [hw] at hy
  obtain rfl : w = y := XNum.num.inj hy
  obtain ⟨z0, h0⟩ : ∃ g, ieee 8 23 g = .num 0 := ⟨0, by rcases ieee_zero (eb := 8) (fb := 23) with h | h; exacts [h, by omega]⟩
  have hpos := hall _ _ h0
  have hsgn : s ≠ 0 → (h / 2 ^ 15 = 1 ↔ s < 0) := by
    intro hs
    have hw0 := hz hs
    have h1 := hh.2.1 hw0
    rw [show 5 + 10 = 15 from rfl] at h1
    rw [h1]
    constructor
    · intro h2
      by_contra h3
      linarith [hpos.1 (not_lt.mp h3)]
    · intro h2
      exact lt_of_le_of_ne (hpos.2 h2.le) hw0
  have hn := (nearest_iff hh.1 (by simpa using hh.2.1)).1 hh
  rw [nearest_iff hh.1 hsgn]
  have hmid : ∀ j ≤ 31743, (|s| ≤ mid j → |w| ≤ mid j) ∧ (mid j ≤ |s| → mid j ≤ |w|) ∧ (|w| = mid j → |s| = mid j) := by
    intro j hj
    obtain ⟨n, W, hm, hn0, e⟩ := mid_form hj
    have hpos' : 0 ≤ mid j := by unfold mid; linarith [g_nonneg j, g_nonneg (j + 1)]
    obtain ⟨g, hg⟩ := float_of_int (n := n) (W := W) (lt_trans hm.2.1 (by norm_num)) (by have := hm.2.2.1; omega) (by have := hm.2.2.2.1; omega)
    have h3 := hr.abs_le hw hpos' ⟨g, by rw [hg, e]⟩
    refine ⟨h3.1, h3.2, fun h4 => ?_⟩
    rcases abs_choice w with h5 | h5
    · rw [hsw n W hm (by rw [← h5, h4, e]), ← e, abs_of_nonneg hpos']
    · have hm' : IsMid (-n) W := ⟨by have := hm.1; omega, by rw [abs_neg]; exact hm.2.1, hm.2.2.1, hm.2.2.2.1, by rw [abs_neg]; exact hm.2.2.2.2⟩
      rw [hsw (-n) W hm' (by push_cast; rw [neg_mul, ← e, ← h4, h5, neg_neg])]
      push_cast
      rw [neg_mul, ← e, abs_neg, abs_of_nonneg hpos']
  obtain ⟨hk, hlo, hhi⟩ := hn
  refine ⟨hk, fun j hj => ?_, fun hk2 => ?_⟩
  · obtain ⟨h1, h2⟩ := hlo j hj
    obtain ⟨m1, m2, m3⟩ := hmid j (by omega)
    constructor
    · by_contra hc
      have h4 := m1 (not_le.mp hc).le
      exact hc (m3 (le_antisymm h4 h1)).ge
    · intro h4
      exact h2 (le_antisymm h1 (m1 h4.ge))
  · obtain ⟨h1, h2⟩ := hhi hk2
    obtain ⟨m1, m2, m3⟩ := hmid _ hk2
    constructor
    · by_contra hc
      have h4 := m2 (not_le.mp hc).le
      exact hc (m3 (le_antisymm h1 h4)).le
    · intro h4
      exact h2 (le_antisymm h1 (m2 h4.ge))

end HalfPrec
end Verif

namespace Verif
namespace HalfPrec
open Fmt

theorem half_mid {n A k W : ℤ} (hn : |n| < 2 ^ 11) (hA : -24 ≤ A) (h : IsMid k W) : (2 : ℚ) ^ W ≤ |(n : ℚ) * 2 ^ A - k * 2 ^ W| := by
  obtain ⟨h1, h2, h3, -, h4⟩ := h
  have hp : (0 : ℚ) < 2 ^ W := by positivity
  rcases le_or_gt (W + 1) A with hc | hc
  · obtain ⟨d, rfl⟩ : ∃ d : ℕ, A = W + (d + 1) := ⟨(A - W - 1).toNat, by omega⟩
    have e : (n : ℚ) * 2 ^ (W + ((d : ℤ) + 1)) - k * 2 ^ W = ((n * 2 ^ d * 2 - k : ℤ) : ℚ) * 2 ^ W := by
      rw [zpow_add₀ (by norm_num), show ((d : ℤ) + 1) = ((d + 1 : ℕ) : ℤ) by push_cast; rfl, zpow_natCast]; push_cast; ring
    rw [e, abs_mul, abs_of_pos hp]
    refine le_mul_of_one_le_left hp.le ?_
    rw [← Int.cast_abs]
    have : n * 2 ^ d * 2 - k ≠ 0 := by omega
    exact_mod_cast Int.one_le_abs this
  · have hk : 2 ^ 11 ≤ |k| := by rcases h4 with h4 | h4; exacts [by omega, h4]
    have hAW : (2 : ℚ) ^ A ≤ 2 ^ W := zpow_le_zpow_right₀ (by norm_num) (by omega)
    have hnq : |(n : ℚ)| ≤ 2 ^ 11 - 1 := by
      rw [← Int.cast_abs]
      have : |n| ≤ 2 ^ 11 - 1 := by omega
      exact_mod_cast this
    have hkq : (2 : ℚ) ^ 11 ≤ |(k : ℚ)| := by rw [← Int.cast_abs]; exact_mod_cast hk
    have e1 : |(n : ℚ) * 2 ^ A| ≤ (2 ^ 11 - 1) * 2 ^ W := by
      rw [abs_mul, abs_of_pos (by positivity : (0 : ℚ) < 2 ^ A)]
      exact mul_le_mul hnq hAW (by positivity) (by norm_num)
    have e2 : (2 : ℚ) ^ 11 * 2 ^ W ≤ |(k : ℚ) * 2 ^ W| := by
      rw [abs_mul, abs_of_pos hp]
      exact mul_le_mul_of_nonneg_right hkq hp.le
    have e3 := abs_sub_abs_le_abs_sub ((k : ℚ) * 2 ^ W) (n * 2 ^ A)
    rw [abs_sub_comm] at e3
    linarith

theorem sep_add_aux {n A m B k W : ℤ} (hn : |n| < 2 ^ 11) (hA : -24 ≤ A) (hm : |m| < 2 ^ 11) (h : IsMid k W) (hB : B < W - 12) :
    (2 : ℚ) ^ (W - 12) ≤ |(n : ℚ) * 2 ^ A + m * 2 ^ B - k * 2 ^ W| := by
  have h1 := half_mid hn hA h
  have hp : (0 : ℚ) < 2 ^ (W - 12) := by positivity
  have e : (2 : ℚ) ^ W = 2 ^ (W - 12) * 4096 := by
    rw [show (4096 : ℚ) = 2 ^ (12 : ℤ) by norm_num, ← zpow_add₀ (by norm_num)]; congr 1; ring
  have hmq : |(m : ℚ)| ≤ 2 ^ 11 := by rw [← Int.cast_abs]; exact_mod_cast hm.le
  have h2 : |(m : ℚ) * 2 ^ B| ≤ 2 ^ 11 * 2 ^ (W - 12) := by
    rw [abs_mul, abs_of_pos (by positivity : (0 : ℚ) < 2 ^ B)]
    exact mul_le_mul hmq (zpow_le_zpow_right₀ (by norm_num) (by omega)) (by positivity) (by norm_num)
  have h3 := abs_sub_abs_le_abs_sub ((n : ℚ) * 2 ^ A - k * 2 ^ W) (-(m * 2 ^ B))
  rw [abs_neg, show (n : ℚ) * 2 ^ A - k * 2 ^ W - -(m * 2 ^ B) = n * 2 ^ A + m * 2 ^ B - k * 2 ^ W by ring] at h3
  rw [e] at h1 h3 ⊢
  linarith

theorem sep_add {n A m B k W : ℤ} (hn : |n| < 2 ^ 11) (hA : -24 ≤ A) (hm : |m| < 2 ^ 11) (hB : -24 ≤ B) (h : IsMid k W)
    (hne : (n : ℚ) * 2 ^ A + m * 2 ^ B ≠ k * 2 ^ W) : (2 : ℚ) ^ (W - 12) ≤ |(n : ℚ) * 2 ^ A + m * 2 ^ B - k * 2 ^ W| := by
  by_cases h1 : B < W - 12
  · exact sep_add_aux hn hA hm h h1
  by_cases h2 : A < W - 12
  · have := sep_add_aux hm hB hn h h2
    rwa [add_comm] at this
  obtain ⟨i, rfl⟩ : ∃ i : ℕ, A = W - 12 + i := ⟨(A - (W - 12)).toNat, by omega⟩
  obtain ⟨j, rfl⟩ : ∃ j : ℕ, B = W - 12 + j := ⟨(B - (W - 12)).toNat, by omega⟩
  have hp : (0 : ℚ) < 2 ^ (W - 12) := by positivity
  have e : (2 : ℚ) ^ W = 2 ^ (W - 12) * 4096 := by
    rw [show (4096 : ℚ) = 2 ^ (12 : ℤ) by norm_num, ← zpow_add₀ (by norm_num)]; congr 1; ring
  have e2 : (n : ℚ) * 2 ^ (W - 12 + (i : ℤ)) + m * 2 ^ (W - 12 + (j : ℤ)) - k * 2 ^ W
      = ((n * 2 ^ i + m * 2 ^ j - k * 4096 : ℤ) : ℚ) * 2 ^ (W - 12) := by
    rw [zpow_add₀ (by norm_num) _ (i : ℤ), zpow_add₀ (by norm_num) _ (j : ℤ), e, zpow_natCast, zpow_natCast]; push_cast; ring
  have h0 : n * 2 ^ i + m * 2 ^ j - k * 4096 ≠ 0 := by
    intro h0
    rw [h0] at e2
    apply hne
    simp at e2
    linarith
  rw [e2, abs_mul, abs_of_pos hp]
  refine le_mul_of_one_le_left hp.le ?_
  rw [← Int.cast_abs]
  exact_mod_cast Int.one_le_abs h0

theorem sep_div {n A m B k W : ℤ} (hn : |n| < 2 ^ 11) (hm : |m| < 2 ^ 11) (hm0 : m ≠ 0) (hk : k ≠ 0)
    (hne : (n : ℚ) * 2 ^ A / (m * 2 ^ B) ≠ k * 2 ^ W) : (2 : ℚ) ^ (W - 12) ≤ |(n : ℚ) * 2 ^ A / (m * 2 ^ B) - k * 2 ^ W| := by
  have hp : (0 : ℚ) < 2 ^ W := by positivity
  have e : (2 : ℚ) ^ (W - 12) = 2 ^ W / 4096 := by
    rw [zpow_sub₀ (by norm_num)]; norm_num
  have hmq0 : (m : ℚ) ≠ 0 := by exact_mod_cast hm0
  have hmq : 0 < |(m : ℚ)| := abs_pos.mpr hmq0
  have hmq2 : |(m : ℚ)| < 2 ^ 11 := by rw [← Int.cast_abs]; exact_mod_cast hm
  rw [e]
  rcases le_or_gt (W + B) A with hc | hc
  · obtain ⟨j, hj⟩ : ∃ j : ℕ, A = W + B + j := ⟨(A - (W + B)).toNat, by omega⟩
    have e2 : (n : ℚ) * 2 ^ A / (m * 2 ^ B) - k * 2 ^ W = ((n * 2 ^ j - k * m : ℤ) : ℚ) * 2 ^ W / m := by
      rw [hj, zpow_add₀ (by norm_num), zpow_add₀ (by norm_num), zpow_natCast]
      have : (2 : ℚ) ^ B ≠ 0 := by positivity
      push_cast
      field_simp
    have h0 : n * 2 ^ j - k * m ≠ 0 := by
      intro h0
      rw [h0] at e2
      apply hne
      simp at e2
      linarith
    have h1 : (1 : ℚ) ≤ |((n * 2 ^ j - k * m : ℤ) : ℚ)| := by rw [← Int.cast_abs]; exact_mod_cast Int.one_le_abs h0
    rw [e2, abs_div, abs_mul, abs_of_pos hp, le_div_iff₀ hmq]
    calc 2 ^ W / 4096 * |(m : ℚ)| ≤ 2 ^ W / 4096 * 2 ^ 11 := mul_le_mul_of_nonneg_left hmq2.le (by positivity)
      _ ≤ 1 * 2 ^ W := by linarith
      _ ≤ _ := mul_le_mul_of_nonneg_right h1 hp.le
  · obtain ⟨j, hj⟩ : ∃ j : ℕ, W + B = A + j := ⟨(W + B - A).toNat, by omega⟩
    have hA : (2 : ℚ) ^ A = 2 ^ W * 2 ^ B / 2 ^ j := by
      rw [← zpow_add₀ (by norm_num), hj, zpow_add₀ (by norm_num), zpow_natCast]
      field_simp
    have e2 : (n : ℚ) * 2 ^ A / (m * 2 ^ B) - k * 2 ^ W = ((n - k * (m * 2 ^ j) : ℤ) : ℚ) * 2 ^ W / (m * 2 ^ j : ℤ) := by
      rw [hA]
      have : (2 : ℚ) ^ B ≠ 0 := by positivity
      push_cast
      field_simp
    have h0 : n - k * (m * 2 ^ j) ≠ 0 := by
      intro h0
      rw [h0] at e2
      apply hne
      simp at e2
      linarith
    have hM0 : m * 2 ^ j ≠ 0 := mul_ne_zero hm0 (by positivity)
    generalize m * 2 ^ j = M at *
    have hM : (0 : ℚ) < |(M : ℚ)| := abs_pos.mpr (by exact_mod_cast hM0)
    rw [e2, abs_div, abs_mul, abs_of_pos hp, le_div_iff₀ hM]
    rw [div_mul_eq_mul_div, div_le_iff₀ (by norm_num), mul_right_comm, mul_comm]
    apply mul_le_mul_of_nonneg_right _ hp.le
    have hi : |M| ≤ |n - k * M| * 4096 := by
      rcases le_or_gt |M| 4096 with h5 | h5
      · have := Int.one_le_abs h0
        omega
      · have h6 : |M| ≤ |k * M| := by
          rw [abs_mul]; exact le_mul_of_one_le_left (abs_nonneg _) (Int.one_le_abs hk)
        have h7 := abs_sub_abs_le_abs_sub (k * M) n
        rw [abs_sub_comm] at h7
        omega
    rw [← Int.cast_abs, ← Int.cast_abs]
    exact_mod_cast hi

end HalfPrec
end Verif
