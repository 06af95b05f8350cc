import Verif.Spec.NearestEven
import Verif.Lemmas.Remainder

/-! Lemmas about rounding to nearest, ties to even, in any IEEE format: existence, uniqueness, symmetry, monotonicity -/

namespace Verif
namespace NearGen

/-- the number with the magnitude bits `k` -/
def g (eb fb k : ℕ) : ℚ :=
  if k < 2 ^ fb then k * 2 ^ ((2 : ℤ) - 2 ^ (eb - 1) - fb)
  else (2 ^ fb + (k % 2 ^ fb : ℕ)) * 2 ^ (((k / 2 ^ fb : ℕ) : ℤ) - (2 ^ (eb - 1) - 1) - fb)

/-- the magnitude bits of infinity -/
def top (eb fb : ℕ) : ℕ := (2 ^ eb - 1) * 2 ^ fb

variable {eb fb : ℕ}

theorem g_sub (k : ℕ) (h : k ≤ 2 ^ fb) : g eb fb k = k * 2 ^ ((2 : ℤ) - 2 ^ (eb - 1) - fb) := by
  unfold g
  split
  · rfl
  · have e : k = 2 ^ fb := by omega
    subst e
    rw [Nat.mod_self, Nat.div_self (by positivity)]
    push_cast
    rw [add_zero]
    congr 2
    ring

theorem g_norm (E j : ℕ) (hE : 1 ≤ E) (h : j ≤ 2 ^ fb) :
    g eb fb (E * 2 ^ fb + j) = (2 ^ fb + j) * 2 ^ ((E : ℤ) - (2 ^ (eb - 1) - 1) - fb) := by
  unfold g
  have hB : 0 < 2 ^ fb := by positivity
  have hge : 2 ^ fb ≤ E * 2 ^ fb := Nat.le_mul_of_pos_left _ hE
  rw [if_neg (by omega)]
  rcases Nat.lt_or_ge j (2 ^ fb) with h1 | h1
  · rw [show (E * 2 ^ fb + j) % 2 ^ fb = j by rw [mul_comm, Nat.mul_add_mod, Nat.mod_eq_of_lt h1],
      show (E * 2 ^ fb + j) / 2 ^ fb = E by rw [mul_comm, Nat.mul_add_div hB, Nat.div_eq_of_lt h1, add_zero]]
  · have e : j = 2 ^ fb := by omega
    subst e
    rw [show E * 2 ^ fb + 2 ^ fb = 2 ^ fb * (E + 1) by ring, Nat.mul_mod_right, Nat.mul_div_cancel_left _ hB]
    push_cast
    rw [show ((E : ℤ) + 1 - (2 ^ (eb - 1) - 1) - fb) = (E - (2 ^ (eb - 1) - 1) - fb) + 1 by ring, zpow_add₀ (by norm_num)]
    ring

theorem g_mono : StrictMono (g eb fb) := by
  apply strictMono_nat_of_lt_succ
  intro k
  have hB : 0 < 2 ^ fb := by positivity
  rcases Nat.lt_or_ge k (2 ^ fb) with h | h
  · rw [g_sub k (by omega), g_sub (k + 1) (by omega)]
    push_cast
    have : (0 : ℚ) < 2 ^ ((2 : ℤ) - 2 ^ (eb - 1) - fb) := by positivity
    linarith
  · obtain ⟨E, j, hE, hj, rfl⟩ : ∃ E j, 1 ≤ E ∧ j < 2 ^ fb ∧ k = E * 2 ^ fb + j :=
      ⟨k / 2 ^ fb, k % 2 ^ fb, Nat.div_pos h hB, Nat.mod_lt _ hB, (Nat.div_add_mod' _ _).symm⟩
    rw [g_norm E j hE (by omega), show E * 2 ^ fb + j + 1 = E * 2 ^ fb + (j + 1) by ring, g_norm E (j + 1) hE (by omega)]
    push_cast
    have : (0 : ℚ) < 2 ^ ((E : ℤ) - (2 ^ (eb - 1) - 1) - fb) := by positivity
    linarith

theorem g_zero : g eb fb 0 = 0 := by simp [g]

theorem g_nonneg (k : ℕ) : 0 ≤ g eb fb k := by
  have := (g_mono (eb := eb) (fb := fb)).monotone (Nat.zero_le k)
  rwa [g_zero] at this

theorem top_lt : top eb fb < 2 ^ (eb + fb) := by
  unfold top
  rw [pow_add]
  have : 0 < 2 ^ eb := by positivity
  exact Nat.mul_lt_mul_of_pos_right (by omega) (by positivity)

theorem top_even (hfb : 1 ≤ fb) : top eb fb % 2 = 0 := by
  unfold top
  obtain ⟨n, rfl⟩ : ∃ n, fb = n + 1 := ⟨fb - 1, by omega⟩
  rw [pow_succ, ← mul_assoc, Nat.mul_mod_left]

theorem word_even (hfb : 1 ≤ fb) : 2 ^ (eb + fb) % 2 = 0 := by
  obtain ⟨n, rfl⟩ : ∃ n, fb = n + 1 := ⟨fb - 1, by omega⟩
  rw [show eb + (n + 1) = eb + n + 1 by ring, pow_succ, Nat.mul_mod_left]

theorem top_pos (heb : 2 ≤ eb) : 0 < top eb fb := by
  unfold top
  have : 2 ^ 2 ≤ 2 ^ eb := Nat.pow_le_pow_right (by norm_num) heb
  have : 0 < 2 ^ fb := by positivity
  exact Nat.mul_pos (by omega) this

theorem g_top (heb : 2 ≤ eb) : g eb fb (top eb fb) = 2 ^ ((2 : ℤ) ^ (eb - 1)) := by
  have h4 : 2 ^ 2 ≤ 2 ^ eb := Nat.pow_le_pow_right (by norm_num) heb
  have e : (2 : ℤ) ^ eb = 2 * 2 ^ (eb - 1) := by rw [← pow_succ']; congr 1; omega
  have := g_norm (eb := eb) (fb := fb) (2 ^ eb - 1) 0 (by omega) (by positivity)
  rw [add_zero] at this
  unfold top
  rw [this]
  push_cast [Nat.cast_sub (show 1 ≤ 2 ^ eb by omega)]
  rw [e, add_zero, ← zpow_natCast, ← zpow_add₀ (by norm_num)]
  congr 1
  ring

theorem g_top' (heb : 2 ≤ eb) : g eb fb (top eb fb - 1) = maxFin eb fb := by
  have h4 : 2 ^ 2 ≤ 2 ^ eb := Nat.pow_le_pow_right (by norm_num) heb
  have hB : 0 < 2 ^ fb := by positivity
  have e : (2 : ℤ) ^ eb = 2 * 2 ^ (eb - 1) := by rw [← pow_succ']; congr 1; omega
  have := g_norm (eb := eb) (fb := fb) (2 ^ eb - 2) (2 ^ fb - 1) (by omega) (by omega)
  have e2 : top eb fb - 1 = (2 ^ eb - 2) * 2 ^ fb + (2 ^ fb - 1) := by
    unfold top
    obtain ⟨a, ha⟩ : ∃ a, 2 ^ eb = a + 2 := ⟨2 ^ eb - 2, by omega⟩
    rw [ha, show a + 2 - 1 = a + 1 by omega, show a + 2 - 2 = a by omega, add_mul]
    omega
  rw [e2, this]
  push_cast [Nat.cast_sub (show 1 ≤ 2 ^ fb by omega), Nat.cast_sub (show 2 ≤ 2 ^ eb by omega)]
  rw [e, show ((2 : ℤ) * 2 ^ (eb - 1) - 2 - (2 ^ (eb - 1) - 1) - fb) = (2 ^ (eb - 1) - 1) + (-fb) by ring, zpow_add₀ (by norm_num)]
  unfold maxFin
  rw [zpow_neg, zpow_natCast]
  field_simp
  ring

/-- number halfway between two consecutive magnitudes -/
def mid (eb fb j : ℕ) : ℚ := (g eb fb j + g eb fb (j + 1)) / 2

theorem mid_mono : StrictMono (mid eb fb) := by
  apply strictMono_nat_of_lt_succ
  intro k
  have h1 := g_mono (eb := eb) (fb := fb) (Nat.lt_succ_self k)
  have h2 := g_mono (eb := eb) (fb := fb) (Nat.lt_succ_self (k + 1))
  unfold mid
  simp only [Nat.succ_eq_add_one] at h1 h2
  linarith

theorem mid_top (heb : 2 ≤ eb) : mid eb fb (top eb fb - 1) = overflowAt eb fb := by
  unfold mid
  rw [g_top' heb, show top eb fb - 1 + 1 = top eb fb by have := top_pos (fb := fb) heb; omega, g_top heb]
  unfold maxFin overflowAt
  rw [show ((2 : ℤ) ^ (eb - 1)) = (2 ^ (eb - 1) - 1) + 1 by ring, zpow_add₀ (by norm_num)]
  have : (2 : ℤ) ^ (eb - 1) - 1 + 1 - 1 = 2 ^ (eb - 1) - 1 := by ring
  rw [this, pow_succ]
  field_simp
  ring

/-- `k` is the magnitude bits of `v` rounded to nearest, ties to even -/
def Near (eb fb : ℕ) (v : ℚ) (k : ℕ) : Prop :=
  k ≤ top eb fb ∧ (∀ j, j + 1 = k → mid eb fb j ≤ v ∧ (mid eb fb j = v → k % 2 = 0)) ∧
    (k < top eb fb → v ≤ mid eb fb k ∧ (v = mid eb fb k → k % 2 = 0))

theorem exists_near (heb : 2 ≤ eb) (hfb : 1 ≤ fb) {v : ℚ} (hv : 0 ≤ v) : ∃ k, Near eb fb v k := by
  have hp := top_pos (fb := fb) heb
  have hev := top_even (eb := eb) hfb
  have hmt := mid_top (fb := fb) heb
  by_cases ht : overflowAt eb fb ≤ v
  · refine ⟨top eb fb, le_rfl, fun j hj => ?_, fun h => by omega⟩
    obtain rfl : j = top eb fb - 1 := by omega
    rw [hmt]; exact ⟨ht, fun _ => hev⟩
  · have hex : ∃ j, v ≤ mid eb fb j := ⟨top eb fb - 1, by rw [hmt]; linarith⟩
    classical
    set j := Nat.find hex with hj
    have h1 : v ≤ mid eb fb j := Nat.find_spec hex
    have h2 : ∀ i, i < j → mid eb fb i < v := fun i hi => not_le.mp (Nat.find_min hex hi)
    have hj2 : j ≤ top eb fb - 1 := Nat.find_min' hex (by rw [hmt]; linarith)
    by_cases hc : v = mid eb fb j ∧ j % 2 = 1
    · have hj3 : j ≠ top eb fb - 1 := by rintro hh; rw [hh, hmt] at hc; linarith [hc.1]
      refine ⟨j + 1, by omega, fun i hi => ?_, fun h => ?_⟩
      · obtain rfl : i = j := by omega
        exact ⟨hc.1.ge, fun _ => by omega⟩
      · have := mid_mono (eb := eb) (fb := fb) (Nat.lt_succ_self j)
        exact ⟨by linarith [hc.1], fun _ => by omega⟩
    · refine ⟨j, by omega, fun i hi => ?_, fun _ => ⟨h1, fun h => ?_⟩⟩
      · have := h2 i (by omega)
        exact ⟨this.le, fun h => absurd h this.ne⟩
      · by_contra h3
        exact hc ⟨h, by omega⟩

theorem near_dist {v : ℚ} {k : ℕ} (h : Near eb fb v k) (hk : k < top eb fb) (j : ℕ) :
    |v - g eb fb k| ≤ |v - g eb fb j| ∧ (|v - g eb fb k| = |v - g eb fb j| → j = k ∨ k % 2 = 0) := by
  obtain ⟨-, h1, h2⟩ := h
  obtain ⟨h2, h3⟩ := h2 hk
  unfold mid at h1 h2 h3
  have ub : v - g eb fb k ≤ g eb fb (k + 1) - v := by linarith
  rcases lt_trichotomy j k with hj | hj | hj
  · obtain ⟨i, rfl⟩ : ∃ i, k = i + 1 := ⟨k - 1, by omega⟩
    obtain ⟨h4, h5⟩ := h1 i rfl
    have hm : g eb fb j ≤ g eb fb i := g_mono.monotone (by omega)
    have hlt := g_mono (eb := eb) (fb := fb) (Nat.lt_succ_self i)
    simp only [Nat.succ_eq_add_one] at hlt
    have hlt2 := g_mono (eb := eb) (fb := fb) (Nat.lt_succ_self (i + 1))
    simp only [Nat.succ_eq_add_one] at hlt2
    have hvj : 0 ≤ v - g eb fb j := by linarith
    rw [abs_of_nonneg hvj]
    rcases le_total (g eb fb (i + 1)) v with hc | hc
    · rw [abs_of_nonneg (by linarith)]
      exact ⟨by linarith, fun h => by linarith⟩
    · rw [abs_of_nonpos (by linarith)]
      exact ⟨by linarith, fun h => Or.inr (h5 (by linarith))⟩
  · subst hj; exact ⟨le_rfl, fun _ => Or.inl rfl⟩
  · have hm : g eb fb (k + 1) ≤ g eb fb j := g_mono.monotone (by omega)
    have hlt := g_mono (eb := eb) (fb := fb) (Nat.lt_succ_self k)
    simp only [Nat.succ_eq_add_one] at hlt
    have hvj : v - g eb fb j ≤ 0 := by linarith
    rw [abs_of_nonpos hvj]
    rcases le_total (g eb fb k) v with hc | hc
    · rw [abs_of_nonneg (by linarith)]
      exact ⟨by linarith, fun h => Or.inr (h3 (by linarith))⟩
    · rw [abs_of_nonpos (by linarith)]
      exact ⟨by linarith, fun h => by linarith⟩

/-- the number of a pattern from its sign and magnitude bits -/
theorem ieee_gen (s k : ℕ) (hs : s < 2) (hk : k < 2 ^ (eb + fb)) : ieee eb fb (s * 2 ^ (eb + fb) + k) =
    if k < top eb fb then .num ((if s = 1 then -1 else 1) * g eb fb k) else if k = top eb fb then .inf (decide (s = 1)) else .nan := by
  have hB : 0 < 2 ^ fb := by positivity
  have hW : 0 < 2 ^ (eb + fb) := by positivity
  have e1 : (s * 2 ^ (eb + fb) + k) / 2 ^ (eb + fb) % 2 = s := by
    rw [mul_comm, Nat.mul_add_div hW, Nat.div_eq_of_lt hk, add_zero, Nat.mod_eq_of_lt hs]
  have hkd : k / 2 ^ fb < 2 ^ eb := by rw [Nat.div_lt_iff_lt_mul hB, ← pow_add]; exact hk
  have e2 : (s * 2 ^ (eb + fb) + k) / 2 ^ fb % 2 ^ eb = k / 2 ^ fb := by
    rw [pow_add, show s * (2 ^ eb * 2 ^ fb) + k = 2 ^ fb * (s * 2 ^ eb) + k by ring, Nat.mul_add_div hB,
      mul_comm, Nat.mul_add_mod, Nat.mod_eq_of_lt hkd]
  have e3 : (s * 2 ^ (eb + fb) + k) % 2 ^ fb = k % 2 ^ fb := by
    rw [pow_add, show s * (2 ^ eb * 2 ^ fb) + k = 2 ^ fb * (s * 2 ^ eb) + k by ring, Nat.mul_add_mod]
  have hdm := Nat.div_add_mod' k (2 ^ fb)
  have hmod := Nat.mod_lt k hB
  unfold ieee
  simp only [e1, e2, e3, decide_eq_true_eq]
  by_cases h1 : k / 2 ^ fb = 2 ^ eb - 1
  · rw [h1] at hdm
    have hge : ¬ k < top eb fb := by unfold top; omega
    rw [if_pos h1, if_neg hge]
    by_cases h2 : k % 2 ^ fb = 0
    · rw [if_pos h2, if_pos (by unfold top; omega)]
    · rw [if_neg h2, if_neg (by unfold top; omega)]
  · have hlt : k < top eb fb := by
      unfold top
      rw [← Nat.div_lt_iff_lt_mul hB]
      omega
    rw [if_neg h1, if_pos hlt]
    by_cases h2 : k / 2 ^ fb = 0
    · have h3 : k < 2 ^ fb := by
        rcases Nat.div_eq_zero_iff.mp h2 with h | h
        · omega
        · exact h
      rw [if_pos h2, g_sub k h3.le, Nat.mod_eq_of_lt h3]
    · have hk2 : g eb fb k = g eb fb (k / 2 ^ fb * 2 ^ fb + k % 2 ^ fb) := by rw [hdm]
      rw [if_neg h2, hk2, g_norm (k / 2 ^ fb) (k % 2 ^ fb) (by omega) hmod.le]

/-- every pattern is a sign and magnitude bits -/
theorem split_word {b : ℕ} (hb : b < 2 ^ (eb + fb + 1)) : ∃ s k, s < 2 ∧ k < 2 ^ (eb + fb) ∧ b = s * 2 ^ (eb + fb) + k := by
  have hW : 0 < 2 ^ (eb + fb) := by positivity
  refine ⟨b / 2 ^ (eb + fb), b % 2 ^ (eb + fb), ?_, Nat.mod_lt _ hW, (Nat.div_add_mod' _ _).symm⟩
  rw [Nat.div_lt_iff_lt_mul hW, mul_comm, ← pow_succ]; exact hb

theorem join_lt {s k : ℕ} (hs : s < 2) (hk : k < 2 ^ (eb + fb)) : s * 2 ^ (eb + fb) + k < 2 ^ (eb + fb + 1) := by
  rw [pow_succ]
  generalize 2 ^ (eb + fb) = W at *
  have : s = 0 ∨ s = 1 := by omega
  rcases this with rfl | rfl <;> omega

theorem join_div {s k : ℕ} (hk : k < 2 ^ (eb + fb)) : (s * 2 ^ (eb + fb) + k) / 2 ^ (eb + fb) = s := by
  rw [mul_comm, Nat.mul_add_div (by positivity), Nat.div_eq_of_lt hk, add_zero]

theorem join_mod2 (hfb : 1 ≤ fb) (s k : ℕ) : (s * 2 ^ (eb + fb) + k) % 2 = k % 2 := by
  have := word_even (eb := eb) hfb
  rw [Nat.add_mod, Nat.mul_mod, this]; simp

/-- numbers of any pattern -/
theorem ieee_num_gen {h : ℕ} {q : ℚ} (hq : ieee eb fb h = .num q) :
    ∃ s k, s < 2 ∧ k < top eb fb ∧ h % 2 ^ (eb + fb + 1) = s * 2 ^ (eb + fb) + k ∧ q = (if s = 1 then -1 else 1) * g eb fb k := by
  have hm : h % 2 ^ (eb + fb + 1) < 2 ^ (eb + fb + 1) := Nat.mod_lt _ (by positivity)
  obtain ⟨s, k, hs, hk, e⟩ := split_word hm
  rw [← ieee_mod, e, ieee_gen s k hs hk] at hq
  split at hq
  · injection hq with hq
    exact ⟨s, k, hs, by assumption, e, hq.symm⟩
  · split at hq <;> cases hq

theorem abs_sgn {x : ℚ} {t : ℕ} (hs : x ≠ 0 → (t = 1 ↔ x < 0)) (y : ℚ) :
    |x - (if t = 1 then -1 else 1) * y| = |(|x|) - y| := by
  rcases lt_trichotomy x 0 with h | h | h
  · rw [if_pos ((hs h.ne).2 h), abs_of_neg h, show x - -1 * y = -(-x - y) by ring, abs_neg]
  · subst h
    by_cases ht : t = 1 <;> simp [ht]
  · rw [if_neg (fun ht => absurd ((hs h.ne').1 ht) (not_lt.mpr h.le)), abs_of_pos h, one_mul]

theorem overflowAt_pos : 0 < overflowAt eb fb := by
  unfold overflowAt
  have : (0 : ℚ) < 2 - 1 / 2 ^ (fb + 1) := by
    have : (1 : ℚ) / 2 ^ (fb + 1) ≤ 1 := by
      rw [div_le_one (by positivity)]
      exact one_le_pow₀ (by norm_num)
    linarith
  positivity

theorem nearest_iff (heb : 2 ≤ eb) (hfb : 1 ≤ fb) {x : ℚ} {s k : ℕ} (hs2 : s < 2) (hk2 : k < 2 ^ (eb + fb))
    (hs : x ≠ 0 → (s = 1 ↔ x < 0)) :
    IsNearestEven eb fb x (s * 2 ^ (eb + fb) + k) ↔ Near eb fb |x| k := by
  have hv := abs_nonneg x
  have hp := top_pos (fb := fb) heb
  have htl := top_lt (eb := eb) (fb := fb)
  have hev := top_even (eb := eb) hfb
  have hmt := mid_top (fb := fb) heb
  have hpar := join_mod2 (eb := eb) hfb s
  constructor
  · rintro ⟨-, -, h2, h3⟩
    by_cases hc : overflowAt eb fb ≤ |x|
    · have := h2 hc
      rw [ieee_gen _ _ hs2 hk2] at this
      split at this
      · cases this
      split at this
      · rename_i _ hk
        refine ⟨hk.le, fun j hj => ?_, fun h => by omega⟩
        obtain rfl : j = top eb fb - 1 := by omega
        rw [hmt, hk]; exact ⟨hc, fun _ => hev⟩
      · cases this
    · rw [not_le] at hc
      obtain ⟨q, hq, hall⟩ := h3 hc
      have hq0 := hq
      rw [ieee_gen _ _ hs2 hk2] at hq0
      split at hq0
      swap
      · split at hq0 <;> cases hq0
      rename_i hk
      injection hq0 with hq'
      replace hq' := hq'.symm
      have dist : ∀ j < top eb fb, |(|x|) - g eb fb k| ≤ |(|x|) - g eb fb j| ∧
          (|(|x|) - g eb fb k| = |(|x|) - g eb fb j| → j ≠ k → k % 2 = 0) := by
        intro j hj
        have e : ieee eb fb (s * 2 ^ (eb + fb) + j) = .num ((if s = 1 then -1 else 1) * g eb fb j) := by
          rw [ieee_gen _ _ hs2 (by omega), if_pos hj]
        have := hall _ _ e
        rw [hq', abs_sgn hs, abs_sgn hs, hpar] at this
        refine ⟨this.1, fun h1 h2 => ?_⟩
        rcases this.2 h1 with h4 | h4
        · exfalso
          have : g eb fb j = g eb fb k := by
            by_cases hh : s = 1
            · rw [if_pos hh] at h4; linarith
            · rw [if_neg hh] at h4; linarith
          exact h2 (g_mono.injective this)
        · exact h4
      refine ⟨by omega, fun j hj => ?_, fun _ => ?_⟩
      · obtain ⟨d1, d2⟩ := dist j (by omega)
        have hlt := g_mono (eb := eb) (fb := fb) (show j < k by omega)
        rw [← hj] at d1 d2 hlt ⊢
        unfold mid
        have key : (g eb fb j + g eb fb (j + 1)) / 2 ≤ |x| := by
          by_contra hcon
          rw [not_le] at hcon
          rw [abs_of_nonpos (show |x| - g eb fb (j + 1) ≤ 0 by linarith)] at d1
          rcases le_total (g eb fb j) |x| with h5 | h5
          · rw [abs_of_nonneg (show 0 ≤ |x| - g eb fb j by linarith)] at d1; linarith
          · rw [abs_of_nonpos (show |x| - g eb fb j ≤ 0 by linarith)] at d1; linarith
        refine ⟨key, fun h5 => ?_⟩
        exact d2 (by
          rw [abs_of_nonpos (show |x| - g eb fb (j + 1) ≤ 0 by linarith), abs_of_nonneg (show 0 ≤ |x| - g eb fb j by linarith)]
          linarith) (by omega)
      · rcases Nat.lt_or_ge k (top eb fb - 1) with h6 | h6
        · obtain ⟨d1, d2⟩ := dist (k + 1) (by omega)
          have hlt := g_mono (eb := eb) (fb := fb) (Nat.lt_succ_self k)
          simp only [Nat.succ_eq_add_one] at hlt
          unfold mid
          have key : |x| ≤ (g eb fb k + g eb fb (k + 1)) / 2 := by
            by_contra hcon
            rw [not_le] at hcon
            rw [abs_of_nonneg (show 0 ≤ |x| - g eb fb k by linarith)] at d1
            rcases le_total (g eb fb (k + 1)) |x| with h5 | h5
            · rw [abs_of_nonneg (show 0 ≤ |x| - g eb fb (k + 1) by linarith)] at d1; linarith
            · rw [abs_of_nonpos (show |x| - g eb fb (k + 1) ≤ 0 by linarith)] at d1; linarith
          refine ⟨key, fun h5 => ?_⟩
          exact d2 (by
            rw [abs_of_nonneg (show 0 ≤ |x| - g eb fb k by linarith), abs_of_nonpos (show |x| - g eb fb (k + 1) ≤ 0 by linarith)]
            linarith) (by omega)
        · rw [show k = top eb fb - 1 by omega, hmt]
          exact ⟨hc.le, fun h5 => absurd h5 hc.ne⟩
  · intro hn
    refine ⟨join_lt hs2 hk2, by rw [join_div hk2]; exact hs, fun hc => ?_, fun hc => ?_⟩
    · have hk : k = top eb fb := by
        obtain ⟨h1, -, h2⟩ := hn
        by_contra hne
        obtain ⟨h3, h4⟩ := h2 (by omega)
        rcases Nat.lt_or_ge k (top eb fb - 1) with h6 | h6
        · have := mid_mono (eb := eb) (fb := fb) h6
          rw [hmt] at this
          linarith
        · have h7 : k = top eb fb - 1 := by omega
          rw [h7, hmt] at h3 h4
          have := h4 (by linarith)
          omega
      have hx0 : x ≠ 0 := by
        rintro rfl
        have := overflowAt_pos (eb := eb) (fb := fb)
        rw [abs_zero] at hc
        linarith
      rw [ieee_gen _ _ hs2 hk2, if_neg (by omega), if_pos hk]
      congr 1
      exact decide_eq_decide.mpr (hs hx0)
    · have hk : k < top eb fb := by
        obtain ⟨h1, h2, -⟩ := hn
        by_contra hne
        have := (h2 (top eb fb - 1) (by omega)).1
        rw [hmt] at this
        linarith
      refine ⟨(if s = 1 then -1 else 1) * g eb fb k, ?_, ?_⟩
      · rw [ieee_gen _ _ hs2 hk2, if_pos hk]
      · intro h' z hz
        obtain ⟨t', j, ht2, hj, -, hz'⟩ := ieee_num_gen hz
        rw [abs_sgn hs, hpar]
        have hdj := near_dist hn hk j
        have hd0 := near_dist hn hk 0
        rw [g_zero, sub_zero, abs_abs] at hd0
        by_cases hst : (s = 1 ↔ t' = 1)
        · have e : (if t' = 1 then (-1 : ℚ) else 1) = (if s = 1 then -1 else 1) := by simp only [hst]
          rw [hz', e, abs_sgn hs]
          refine ⟨hdj.1, fun h1 => ?_⟩
          rcases hdj.2 h1 with h2 | h2
          · left; rw [h2]
          · right; exact h2
        · have e : (if t' = 1 then (-1 : ℚ) else 1) = -(if s = 1 then -1 else 1) := by
            by_cases h1 : s = 1 <;> by_cases h2 : t' = 1 <;> simp_all
          have gj := g_nonneg (eb := eb) (fb := fb) j
          have e2 : |x - z| = |x| + g eb fb j := by
            rw [hz', e, neg_mul, ← mul_neg, abs_sgn hs, sub_neg_eq_add, abs_of_nonneg (by linarith)]
          rw [e2]
          refine ⟨by linarith [hd0.1], fun h1 => ?_⟩
          have gj0 : g eb fb j = 0 := by linarith [hd0.1]
          rcases hd0.2 (by linarith) with h2 | h2
          · left
            rw [hz', gj0, ← h2, g_zero]; simp
          · right; exact h2

theorem near_mono {v w : ℚ} {k k' : ℕ} (h : Near eb fb v k) (h' : Near eb fb w k') (hvw : v ≤ w) : k ≤ k' := by
  by_contra hlt
  obtain ⟨i, rfl⟩ : ∃ i, k = i + 1 := ⟨k - 1, by omega⟩
  obtain ⟨h1, h2⟩ := h.2.1 i rfl
  obtain ⟨h3, h4⟩ := h'.2.2 (by have := h.1; omega)
  have hm : mid eb fb k' ≤ mid eb fb i := mid_mono.monotone (by omega)
  have e : k' = i := (mid_mono (eb := eb) (fb := fb)).injective (by linarith)
  have := h2 (by linarith)
  have := h4 (by linarith)
  omega

theorem near_unique {v : ℚ} {k k' : ℕ} (h : Near eb fb v k) (h' : Near eb fb v k') : k = k' :=
  le_antisymm (near_mono h h' le_rfl) (near_mono h' h le_rfl)

/-- every number has a nearest float, with the sign bit asked for if it is zero -/
theorem exists_nearest (heb : 2 ≤ eb) (hfb : 1 ≤ fb) (x : ℚ) {s : ℕ} (hs2 : s < 2) (hs : x ≠ 0 → (s = 1 ↔ x < 0)) :
    ∃ b, IsNearestEven eb fb x b ∧ b / 2 ^ (eb + fb) = s := by
  obtain ⟨k, hk⟩ := exists_near heb hfb (abs_nonneg x)
  have hkl : k < 2 ^ (eb + fb) := lt_of_le_of_lt hk.1 top_lt
  exact ⟨_, (nearest_iff heb hfb hs2 hkl hs).2 hk, join_div hkl⟩

/-- the sign and the magnitude bits of the nearest float -/
theorem nearest_split (heb : 2 ≤ eb) (hfb : 1 ≤ fb) {x : ℚ} {b : ℕ} (h : IsNearestEven eb fb x b) :
    ∃ s k, s < 2 ∧ k ≤ top eb fb ∧ b = s * 2 ^ (eb + fb) + k ∧ (x ≠ 0 → (s = 1 ↔ x < 0)) ∧ Near eb fb |x| k := by
  obtain ⟨s, k, hs2, hk2, rfl⟩ := split_word h.1
  have hs := h.2.1
  rw [join_div hk2] at hs
  have hn := (nearest_iff heb hfb hs2 hk2 hs).1 h
  exact ⟨s, k, hs2, hn.1, rfl, hs, hn⟩

/-- it is unique, apart from the sign of zero -/
theorem nearest_unique (heb : 2 ≤ eb) (hfb : 1 ≤ fb) {x : ℚ} {b b' : ℕ} (h : IsNearestEven eb fb x b) (h' : IsNearestEven eb fb x b') :
    b % 2 ^ (eb + fb) = b' % 2 ^ (eb + fb) ∧ (x ≠ 0 → b = b') := by
  obtain ⟨s, k, hs2, hk, rfl, hs, hn⟩ := nearest_split heb hfb h
  obtain ⟨s', k', hs2', hk', rfl, hs', hn'⟩ := nearest_split heb hfb h'
  obtain rfl := near_unique hn hn'
  have htl := top_lt (eb := eb) (fb := fb)
  refine ⟨?_, fun h0 => ?_⟩
  · rw [mul_comm, Nat.mul_add_mod, mul_comm, Nat.mul_add_mod]
  · have : s = 1 ↔ s' = 1 := (hs h0).trans (hs' h0).symm
    have : s = s' := by omega
    rw [this]

end NearGen
end Verif
