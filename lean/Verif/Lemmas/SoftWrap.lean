import Verif.Spec.SoftWrap
import Verif.Lemmas.NearestGen

/-! Lemmas about the exact result, the error and the order of rounding to nearest, and about signs -/

namespace Verif
namespace NearGen

variable {eb fb : ℕ}

theorem maxFin_lt_overflowAt : maxFin eb fb < overflowAt eb fb := by
  unfold maxFin overflowAt
  have : (0 : ℚ) < 2 ^ ((2 : ℤ) ^ (eb - 1) - 1) := by positivity
  refine mul_lt_mul_of_pos_right ?_ this
  have h : (1 : ℚ) / 2 ^ (fb + 1) < 1 / 2 ^ fb := by
    rw [pow_succ]
    have : (0 : ℚ) < 2 ^ fb := by positivity
    rw [div_lt_div_iff₀ (by positivity) this]; linarith
  linarith

/-- numbers of the format are rounded to themselves -/
theorem nearest_exact (heb : 2 ≤ eb) {x : ℚ} {b c : ℕ} (h : IsNearestEven eb fb x b) (hc : ieee eb fb c = .num x) :
    ieee eb fb b = .num x := by
  obtain ⟨y, hy, hall⟩ := h.2.2.2 (lt_of_le_of_lt (ieee_le_maxFin heb hc) maxFin_lt_overflowAt)
  have := (hall c x hc).1
  rw [sub_self, abs_zero] at this
  have : x - y = 0 := abs_eq_zero.mp (le_antisymm this (abs_nonneg _))
  rw [hy]; congr 1; linarith

/-- the numbers of the format around a nonnegative number below the greatest -/
theorem exists_between (heb : 2 ≤ eb) {v : ℚ} (h0 : 0 ≤ v) (h1 : v < 2 ^ ((2 : ℤ) ^ (eb - 1))) :
    ∃ j, j + 1 ≤ top eb fb ∧ g eb fb j ≤ v ∧ v < g eb fb (j + 1) := by
  classical
  have hex : ∃ j, v < g eb fb (j + 1) := ⟨top eb fb - 1, by
    rw [show top eb fb - 1 + 1 = top eb fb by have := top_pos (fb := fb) heb; omega, g_top heb]; exact h1⟩
  refine ⟨Nat.find hex, ?_, ?_, Nat.find_spec hex⟩
  · have : Nat.find hex ≤ top eb fb - 1 := Nat.find_min' hex (by
      rw [show top eb fb - 1 + 1 = top eb fb by have := top_pos (fb := fb) heb; omega, g_top heb]; exact h1)
    have := top_pos (fb := fb) heb
    omega
  · rcases Nat.eq_zero_or_pos (Nat.find hex) with h | h
    · rw [h, g_zero]; exact h0
    · have := Nat.find_min hex (Nat.sub_lt h Nat.one_pos)
      rw [show Nat.find hex - 1 + 1 = Nat.find hex by omega] at this
      linarith

theorem minNorm_eq : g eb fb (2 ^ fb) = minNorm eb := by
  rw [g_sub _ le_rfl]
  unfold minNorm
  push_cast
  rw [← zpow_natCast, ← zpow_add₀ (by norm_num)]
  congr 1; ring

/-- distance of consecutive numbers -/
theorem gap_sub {j : ℕ} (h : j < 2 ^ fb) : g eb fb (j + 1) - g eb fb j = 2 ^ ((2 : ℤ) - 2 ^ (eb - 1) - fb) := by
  rw [g_sub _ h.le, g_sub _ h]; push_cast; ring

theorem gap_norm {j : ℕ} (h : 2 ^ fb ≤ j) : g eb fb (j + 1) - g eb fb j ≤ g eb fb j / 2 ^ fb := by
  have hB : 0 < 2 ^ fb := by positivity
  obtain ⟨E, i, hE, hi, rfl⟩ : ∃ E i, 1 ≤ E ∧ i < 2 ^ fb ∧ j = E * 2 ^ fb + i :=
    ⟨j / 2 ^ fb, j % 2 ^ fb, Nat.div_pos h hB, Nat.mod_lt _ hB, (Nat.div_add_mod' _ _).symm⟩
  rw [add_assoc, g_norm E i hE hi.le, g_norm E (i + 1) hE hi]
  have : (0 : ℚ) < 2 ^ ((E : ℤ) - (2 ^ (eb - 1) - 1) - fb) := by positivity
  generalize (2 : ℚ) ^ ((E : ℤ) - (2 ^ (eb - 1) - 1) - fb) = t at *
  have hB' : (0 : ℚ) < 2 ^ fb := by positivity
  rw [le_div_iff₀ hB']
  push_cast
  have : (0 : ℚ) ≤ i * t := by positivity
  linarith [show ((2 : ℚ) ^ fb + (i + 1)) * t - (2 ^ fb + i) * t = t by ring, show ((2 : ℚ) ^ fb + (i + 1)) * t * 2 ^ fb - (2 ^ fb + i) * t * 2 ^ fb = t * 2 ^ fb by ring, show (((2 : ℚ) ^ fb + (i + 1)) * t - (2 ^ fb + i) * t) * 2 ^ fb = t * 2 ^ fb by ring]

theorem overflow_lt : overflowAt eb fb < 2 ^ ((2 : ℤ) ^ (eb - 1)) := by
  unfold overflowAt
  rw [show ((2 : ℚ) ^ ((2 : ℤ) ^ (eb - 1))) = 2 * 2 ^ ((2 : ℤ) ^ (eb - 1) - 1) by
    rw [← zpow_one_add₀ (by norm_num)]; congr 1; ring]
  have : (0 : ℚ) < 2 ^ ((2 : ℤ) ^ (eb - 1) - 1) := by positivity
  refine mul_lt_mul_of_pos_right ?_ this
  have : (0 : ℚ) < 1 / 2 ^ (fb + 1) := by positivity
  linarith

/-- the error of rounding to nearest -/
theorem nearest_error (heb : 2 ≤ eb) (hfb : 1 ≤ fb) {x : ℚ} {b : ℕ} (h : IsNearestEven eb fb x b) (hx : |x| < overflowAt eb fb) :
    ∃ y, ieee eb fb b = .num y ∧ (minNorm eb ≤ |x| → |y - x| ≤ |x| / 2 ^ (fb + 1)) ∧
      (|x| < minNorm eb → |y - x| ≤ 2 ^ ((2 : ℤ) - 2 ^ (eb - 1) - fb) / 2) := by
  obtain ⟨s, k, hs2, hk, rfl, hs, hn⟩ := nearest_split heb hfb h
  obtain ⟨y, hy, -⟩ := h.2.2.2 hx
  refine ⟨y, hy, ?_⟩
  have hkl : k < 2 ^ (eb + fb) := lt_of_le_of_lt hk top_lt
  rw [ieee_gen s k hs2 hkl] at hy
  have hkt : k < top eb fb := by
    by_contra hc; rw [if_neg hc] at hy; split at hy <;> cases hy
  rw [if_pos hkt] at hy
  injection hy with hy
  have e : |y - x| = |(|x|) - g eb fb k| := by rw [← hy, abs_sub_comm, abs_sgn hs]
  obtain ⟨j, hj, h1, h2⟩ := exists_between (fb := fb) heb (abs_nonneg x) (hx.trans overflow_lt)
  have d1 := (near_dist hn hkt j).1
  have d2 := (near_dist hn hkt (j + 1)).1
  rw [← e] at d1 d2
  rw [abs_of_nonneg (show 0 ≤ |x| - g eb fb j by linarith)] at d1
  rw [abs_of_nonpos (show |x| - g eb fb (j + 1) ≤ 0 by linarith)] at d2
  have hB' : (0 : ℚ) < 2 ^ fb := by positivity
  constructor
  · intro hm
    rw [← minNorm_eq (fb := fb)] at hm
    have hj2 : 2 ^ fb ≤ j := by
      by_contra hc
      have : g eb fb (j + 1) ≤ g eb fb (2 ^ fb) := g_mono.monotone (by omega)
      linarith
    have hg := gap_norm (eb := eb) hj2
    have : g eb fb j / 2 ^ fb ≤ |x| / 2 ^ fb := by gcongr
    rw [pow_succ, ← div_div]
    linarith
  · intro hm
    rw [← minNorm_eq (fb := fb)] at hm
    have hj2 : j < 2 ^ fb := by
      by_contra hc
      have : g eb fb (2 ^ fb) ≤ g eb fb j := g_mono.monotone (by omega)
      linarith
    have hg := gap_sub (eb := eb) hj2
    linarith

/-- sign bit of a joined pattern -/
theorem signBit_join {s k : ℕ} (hs : s < 2) (hk : k < 2 ^ (eb + fb)) : signBit eb fb (s * 2 ^ (eb + fb) + k) = decide (s = 1) := by
  unfold signBit
  rw [join_div hk, Nat.mod_eq_of_lt hs]

/-- a pattern is determined by its value and its sign -/
theorem ieee_inj {a b : ℕ} (ha : a < 2 ^ (eb + fb + 1)) (hb : b < 2 ^ (eb + fb + 1)) (h : ieee eb fb a = ieee eb fb b)
    (hn : ieee eb fb a ≠ .nan) (hs : signBit eb fb a = signBit eb fb b) : a = b := by
  obtain ⟨s, k, hs2, hk2, rfl⟩ := split_word ha
  obtain ⟨t, j, ht2, hj2, rfl⟩ := split_word hb
  rw [signBit_join hs2 hk2, signBit_join ht2 hj2, decide_eq_decide] at hs
  obtain rfl : s = t := by omega
  rw [ieee_gen _ _ hs2 hk2] at h hn
  rw [ieee_gen _ _ hs2 hj2] at h
  congr 1
  by_cases h1 : k < top eb fb
  · rw [if_pos h1] at h
    by_cases h2 : j < top eb fb
    · rw [if_pos h2] at h
      injection h with h
      have : g eb fb k = g eb fb j := by
        by_cases hh : s = 1
        · rw [if_pos hh] at h; linarith
        · rw [if_neg hh] at h; linarith
      exact g_mono.injective this
    · rw [if_neg h2] at h
      by_cases h4 : j = top eb fb
      · rw [if_pos h4] at h; cases h
      · rw [if_neg h4] at h; cases h
  · rw [if_neg h1] at h hn
    by_cases h3 : k = top eb fb
    · rw [if_pos h3] at h
      by_cases h2 : j < top eb fb
      · rw [if_pos h2] at h; cases h
      · rw [if_neg h2] at h
        split at h
        · omega
        · cases h
    · rw [if_neg h3] at hn; exact absurd rfl hn

/-- the sign bit is that of the value -/
theorem signBit_num {a : ℕ} {x : ℚ} (ha : a < 2 ^ (eb + fb + 1)) (h : ieee eb fb a = .num x) (h0 : x ≠ 0) :
    signBit eb fb a = decide (x < 0) := by
  obtain ⟨s, k, hs2, hk2, rfl⟩ := split_word ha
  rw [ieee_gen _ _ hs2 hk2] at h
  rw [signBit_join hs2 hk2]
  split at h
  · injection h with h
    have gk := g_nonneg (eb := eb) (fb := fb) k
    refine decide_eq_decide.mpr ⟨fun h1 => ?_, fun h1 => ?_⟩
    · rw [if_pos h1] at h
      rcases gk.lt_or_eq with h2 | h2
      · linarith
      · exact absurd (by rw [← h, ← h2]; ring) h0
    · by_contra hc
      rw [if_neg hc] at h
      linarith
  · split at h <;> cases h

theorem signBit_inf {a : ℕ} {t : Bool} (ha : a < 2 ^ (eb + fb + 1)) (h : ieee eb fb a = .inf t) : signBit eb fb a = t := by
  obtain ⟨s, k, hs2, hk2, rfl⟩ := split_word ha
  rw [ieee_gen _ _ hs2 hk2] at h
  rw [signBit_join hs2 hk2]
  split at h
  · cases h
  · split at h
    · injection h
    · cases h

/-- flipping the top bit -/
theorem xor_join {s k : ℕ} (hs : s < 2) (hk : k < 2 ^ (eb + fb)) :
    (s * 2 ^ (eb + fb) + k) ^^^ 2 ^ (eb + fb) = (1 - s) * 2 ^ (eb + fb) + k := by
  have key : k ^^^ 2 ^ (eb + fb) = 2 ^ (eb + fb) + k := by
    rw [show 2 ^ (eb + fb) + k = 2 ^ (eb + fb) * 1 + k by ring, Nat.two_pow_add_eq_or_of_lt hk, mul_one]
    apply Nat.eq_of_testBit_eq
    intro i
    rw [Nat.testBit_xor, Nat.testBit_or, Nat.testBit_two_pow]
    by_cases hi : eb + fb = i
    · subst hi
      rw [Nat.testBit_lt_two_pow hk]; simp
    · simp [hi]
  obtain rfl | rfl : s = 0 ∨ s = 1 := by omega
  · rw [zero_mul, zero_add, key]; ring
  · rw [one_mul, ← key, Nat.xor_assoc, Nat.xor_self, Nat.xor_zero]; simp

theorem flip_lt {a : ℕ} (ha : a < 2 ^ (eb + fb + 1)) : a ^^^ 2 ^ (eb + fb) < 2 ^ (eb + fb + 1) := by
  obtain ⟨s, k, hs2, hk2, rfl⟩ := split_word ha
  rw [xor_join hs2 hk2]
  exact join_lt (by omega) hk2

theorem flip_val {a : ℕ} (ha : a < 2 ^ (eb + fb + 1)) : ieee eb fb (a ^^^ 2 ^ (eb + fb)) = (ieee eb fb a).neg := by
  obtain ⟨s, k, hs2, hk2, rfl⟩ := split_word ha
  rw [xor_join hs2 hk2, ieee_gen _ _ hs2 hk2, ieee_gen _ _ (by omega) hk2]
  obtain rfl | rfl : s = 0 ∨ s = 1 := by omega
  all_goals
    split
    · simp [XNum.neg]
    · split <;> simp [XNum.neg]

theorem flip_sign {a : ℕ} (ha : a < 2 ^ (eb + fb + 1)) : signBit eb fb (a ^^^ 2 ^ (eb + fb)) = !signBit eb fb a := by
  obtain ⟨s, k, hs2, hk2, rfl⟩ := split_word ha
  rw [xor_join hs2 hk2, signBit_join hs2 hk2, signBit_join (by omega) hk2]
  obtain rfl | rfl : s = 0 ∨ s = 1 := by omega
  all_goals simp

theorem rounded_lt {X : XNum} {b : ℕ} (h : NearestTo eb fb X b) : b < 2 ^ (eb + fb + 1) := by
  cases X <;> exact h.1

/-- the rounded result is unique unless it is NaN -/
theorem rounded_unique (heb : 2 ≤ eb) (hfb : 1 ≤ fb) {X : XNum} {s : Bool} {b b' : ℕ} (hX : X ≠ .nan)
    (h : RoundedAs eb fb X s b) (h' : RoundedAs eb fb X s b') : b = b' := by
  cases X with
  | num x =>
    by_cases h0 : x = 0
    · subst h0
      have e : ieee eb fb 0 = .num 0 := by
        have := ieee_gen (eb := eb) (fb := fb) 0 0 (by norm_num) (by positivity)
        rw [zero_mul, zero_add, if_pos (top_pos heb), g_zero, mul_zero] at this; exact this
      have v := nearest_exact heb h.1 e
      refine ieee_inj h.1.1 h'.1.1 (v.trans (nearest_exact heb h'.1 e).symm) (by rw [v]; simp) ((h.2 rfl).trans (h'.2 rfl).symm)
    · exact (nearest_unique heb hfb h.1 h'.1).2 h0
  | inf t =>
    exact ieee_inj h.1.1 h'.1.1 (h.1.2.trans h'.1.2.symm) (by rw [h.1.2]; simp) ((signBit_inf h.1.1 h.1.2).trans (signBit_inf h'.1.1 h'.1.2).symm)
  | nan => exact absurd rfl hX

theorem ieee_zero' (heb : 2 ≤ eb) : ieee eb fb 0 = .num 0 := by
  have := ieee_gen (eb := eb) (fb := fb) 0 0 (by norm_num) (by positivity)
  rw [zero_mul, zero_add, if_pos (top_pos heb), g_zero, mul_zero] at this; exact this

/-- there is a rounded result -/
theorem exists_roundedAs (heb : 2 ≤ eb) (hfb : 1 ≤ fb) (X : XNum) (s : Bool) : ∃ b, RoundedAs eb fb X s b := by
  have htl := top_lt (eb := eb) (fb := fb)
  cases X with
  | num x =>
    by_cases h0 : x = 0
    · obtain ⟨b, hb, hs⟩ := exists_nearest heb hfb x (s := if s then 1 else 0) (by split <;> omega) (fun h => absurd h0 h)
      refine ⟨b, hb, fun _ => ?_⟩
      unfold signBit
      rw [hs]; cases s <;> simp
    · obtain ⟨b, hb, -⟩ := exists_nearest heb hfb x (s := if x < 0 then 1 else 0) (by split <;> omega) (fun _ => by split <;> simp_all)
      exact ⟨b, hb, fun h => by injection h with h; exact absurd h h0⟩
  | inf t =>
    refine ⟨(if t then 1 else 0) * 2 ^ (eb + fb) + top eb fb, ⟨join_lt (by split <;> omega) htl, ?_⟩, fun h => by cases h⟩
    rw [ieee_gen _ _ (by split <;> omega) htl, if_neg (by omega), if_pos rfl]
    cases t <;> simp
  | nan =>
    have hlt : top eb fb + 1 < 2 ^ (eb + fb) := by
      have h1 := top_even (eb := eb) hfb
      have h2 := word_even (eb := eb) hfb
      omega
    refine ⟨0 * 2 ^ (eb + fb) + (top eb fb + 1), ⟨join_lt (by omega) hlt, ?_⟩, fun h => by cases h⟩
    rw [ieee_gen _ _ (by omega) hlt, if_neg (by omega), if_neg (by omega)]

theorem near_of_flip (heb : 2 ≤ eb) (hfb : 1 ≤ fb) {x : ℚ} {b : ℕ} (h : IsNearestEven eb fb x b) :
    IsNearestEven eb fb (-x) (b ^^^ 2 ^ (eb + fb)) := by
  obtain ⟨s, k, hs2, hk, rfl, hs, hn⟩ := nearest_split heb hfb h
  have hkl : k < 2 ^ (eb + fb) := lt_of_le_of_lt hk top_lt
  rw [xor_join hs2 hkl]
  refine (nearest_iff heb hfb (by omega) hkl (fun h0 => ?_)).2 (by rw [abs_neg]; exact hn)
  have := hs (by simpa using h0)
  have h0' : x ≠ 0 := by simpa using h0
  constructor
  · intro h1
    have : ¬ x < 0 := fun hc => by have := this.2 hc; omega
    rcases lt_trichotomy x 0 with h | h | h
    · exact absurd h this
    · exact absurd h h0'
    · linarith
  · intro h1
    have : s ≠ 1 := fun hc => by have := this.1 hc; linarith
    omega

theorem rounded_flip (heb : 2 ≤ eb) (hfb : 1 ≤ fb) {X : XNum} {s : Bool} {b : ℕ} (h : RoundedAs eb fb X s b) :
    RoundedAs eb fb X.neg (!s) (b ^^^ 2 ^ (eb + fb)) := by
  have hlt := rounded_lt h.1
  refine ⟨?_, fun h0 => ?_⟩
  · cases X with
    | num x => exact near_of_flip heb hfb h.1
    | inf t => exact ⟨flip_lt hlt, by rw [flip_val hlt, h.1.2]; rfl⟩
    | nan => exact ⟨flip_lt hlt, by rw [flip_val hlt, h.1.2]; rfl⟩
  · rw [flip_sign hlt, h.2]
    cases X with
    | num x => simp only [XNum.neg] at h0; injection h0 with h0; congr 1; linarith
    | inf t => cases h0
    | nan => cases h0

/-- rounding keeps the order -/
theorem nearest_mono (heb : 2 ≤ eb) (hfb : 1 ≤ fb) {x x' : ℚ} {b b' : ℕ} (h : IsNearestEven eb fb x b) (h' : IsNearestEven eb fb x' b')
    (hxx : x ≤ x') : ¬ (ieee eb fb b').Below (ieee eb fb b) := by
  have htl := top_lt (eb := eb) (fb := fb)
  obtain ⟨s, k, hs2, hk, rfl, hs, hn⟩ := nearest_split heb hfb h
  obtain ⟨t, j, ht2, hj, rfl, ht, hm⟩ := nearest_split heb hfb h'
  rw [ieee_gen _ _ hs2 (by omega), ieee_gen _ _ ht2 (by omega)]
  have gk := g_nonneg (eb := eb) (fb := fb) k
  have gj := g_nonneg (eb := eb) (fb := fb) j
  have mono : StrictMono (g eb fb) := g_mono
  -- zero magnitude on zero
  have z0 : ∀ {k}, Near eb fb 0 k → k = 0 := by
    intro k hk0
    by_contra hc
    obtain ⟨i, rfl⟩ : ∃ i, k = i + 1 := ⟨k - 1, by omega⟩
    have h1 := (hk0.2.1 i rfl).1
    have h2 := g_mono (eb := eb) (fb := fb) (Nat.lt_succ_self i)
    simp only [Nat.succ_eq_add_one] at h2
    have h3 := g_nonneg (eb := eb) (fb := fb) i
    unfold mid at h1
    linarith
  have hp := top_pos (fb := fb) heb
  have hle : (s = 1 ∧ t = 0) ∨ (s = 0 ∧ t = 0 ∧ k ≤ j) ∨ (s = 1 ∧ t = 1 ∧ j ≤ k) ∨ (k = 0 ∧ t = 0) ∨ (j = 0 ∧ s = 1) ∨ (k = 0 ∧ j = 0) := by
    by_cases hx0 : x = 0
    · have hk0 : k = 0 := z0 (by rw [hx0, abs_zero] at hn; exact hn)
      by_cases hx0' : x' = 0
      · exact Or.inr (Or.inr (Or.inr (Or.inr (Or.inr ⟨hk0, z0 (by rw [hx0', abs_zero] at hm; exact hm)⟩))))
      · have : ¬ t = 1 := fun hc => by have := (ht hx0').1 hc; linarith
        exact Or.inr (Or.inr (Or.inr (Or.inl ⟨hk0, by omega⟩)))
    · by_cases hx0' : x' = 0
      · have hj0 : j = 0 := z0 (by rw [hx0', abs_zero] at hm; exact hm)
        have : x < 0 := lt_of_le_of_ne (by linarith) hx0
        exact Or.inr (Or.inr (Or.inr (Or.inr (Or.inl ⟨hj0, (hs hx0).2 this⟩))))
      · rcases lt_or_gt_of_ne hx0 with h1 | h1
        · have h3 := (hs hx0).2 h1
          rcases lt_or_gt_of_ne hx0' with h2 | h2
          · have h4 := (ht hx0').2 h2
            rw [abs_of_neg h1] at hn
            rw [abs_of_neg h2] at hm
            exact Or.inr (Or.inr (Or.inl ⟨h3, h4, near_mono hm hn (by linarith)⟩))
          · have : ¬ t = 1 := fun hc => by have := (ht hx0').1 hc; linarith
            exact Or.inl ⟨h3, by omega⟩
        · have : ¬ s = 1 := fun hc => by have := (hs hx0).1 hc; linarith
          have : ¬ t = 1 := fun hc => by have := (ht hx0').1 hc; linarith
          rw [abs_of_pos h1] at hn
          rw [abs_of_pos (by linarith)] at hm
          exact Or.inr (Or.inl ⟨by omega, by omega, near_mono hn hm hxx⟩)
  rcases hle with ⟨rfl, rfl⟩ | ⟨rfl, rfl, hkj⟩ | ⟨rfl, rfl, hkj⟩ | ⟨rfl, rfl⟩ | ⟨rfl, rfl⟩ | ⟨rfl, rfl⟩
  all_goals try have hgg := mono.monotone hkj
  all_goals
    try rw [g_zero] at *
    split <;> split <;> (try split) <;> (try split) <;> simp_all [XNum.Below] <;> first | linarith | omega

end NearGen
end Verif
