import Verif.Lemmas.HalfPrecWiden

/-! # C84–C86: the half precision conversion routines -/

namespace Verif.HalfPrec

theorem fields32 (x : ℕ) (hx : x < 2 ^ 32) : ∃ s e m, s < 2 ∧ e < 2 ^ 8 ∧ m < 2 ^ 23 ∧ x = s * 2 ^ (8 + 23) + e * 2 ^ 23 + m ∧
    x / 2 ^ 31 = s :=
  ⟨x / 2 ^ 31, x / 2 ^ 23 % 2 ^ 8, x % 2 ^ 23, by omega, by omega, by omega, by omega, rfl⟩

theorem fields64 (x : ℕ) (hx : x < 2 ^ 32) : ∃ s e m, s < 2 ∧ e < 2 ^ 11 ∧ m < 2 ^ 20 ∧ x = s * 2 ^ 31 + e * 2 ^ 20 + m ∧
    x / 2 ^ 31 = s :=
  ⟨x / 2 ^ 31, x / 2 ^ 20 % 2 ^ 11, x % 2 ^ 20, by omega, by omega, by omega, by omega, rfl⟩

theorem fields16 (x : ℕ) (hx : x < 2 ^ 16) : ∃ s e m, s < 2 ∧ e < 2 ^ 5 ∧ m < 2 ^ 10 ∧ x = s * 2 ^ (5 + 10) + e * 2 ^ 10 + m ∧
    x / 2 ^ 15 = s :=
  ⟨x / 2 ^ 15, x / 2 ^ 10 % 2 ^ 5, x % 2 ^ 10, by omega, by omega, by omega, by omega, rfl⟩

/-- what a conversion to half has to return for a pattern that stands for `n` and has the sign bit `s` -/
def ConvertsTo (n : XNum) (s : Bool) (h : ℕ) : Prop :=
  match n with
  | .nan => h = 0xFE00 ∧ ieee 5 10 h = .nan
  | .inf t => ieee 5 10 h = .inf t ∧ h < 2 ^ 16
  | .num v => IsNearestHalf v s h

/-- **C84** (floats): the conversion of a float is defined, turns infinities into infinities and NaN into NaN, and rounds
every number to the nearest half, ties away from zero, to infinity from 65520 on, keeping the sign bit (also of zero). -/
theorem C84_single (x : ℕ) (hx : x < 2 ^ 32) :
    ∃ h, ofSingle x = .ok h ∧ ConvertsTo (ieee 8 23 x) (decide (x / 2 ^ 31 = 1)) h := by
  obtain ⟨s, e, m, hs, he, hm, rfl, hsign⟩ := fields32 x hx
  have heq := ofSingle_eq s e m hs he hm
  have hieee := ieee_fields 8 23 s e m hs he hm
  rw [show (8 : ℕ) + 23 = 31 by norm_num] at *
  rw [hsign, hieee, heq]
  clear hsign hieee heq hx
  by_cases c1 : e = 255
  · rw [if_pos c1, if_pos (show e = 2 ^ 8 - 1 from c1)]
    by_cases c2 : m = 0
    · rw [if_pos c2, if_pos c2]
      refine ⟨_, rfl, ?_, by omega⟩
      rw [ieee_half s 31744 hs (by norm_num)]
      simp
    · rw [if_neg c2, if_neg c2]
      refine ⟨_, rfl, rfl, ?_⟩
      have := ieee_half 1 32256 (by norm_num) (by norm_num)
      simpa using this
  rw [if_neg c1, if_neg (show ¬ e = 2 ^ 8 - 1 from c1)]
  have hm' : (m : ℚ) < 2 ^ 23 := by exact_mod_cast hm
  have hm0 : (0 : ℚ) ≤ m := by positivity
  by_cases c2 : e = 0
  · rw [if_pos (show e < 102 by omega), if_pos c2]
    refine ⟨_, rfl, ?_⟩
    have := isNearest_of_rounds (m * 2 ^ ((2 : ℤ) - 2 ^ (8 - 1) - (23 : ℕ))) s 0 hs (by positivity)
      (rounds_tiny _ (by positivity) (by
        have h2 : (2 : ℚ) ^ ((2 : ℤ) - 2 ^ (8 - 1) - (23 : ℕ)) * 2 ^ 23 < 2 ^ (-25 : ℤ) := by norm_num
        have h3 : (0 : ℚ) < 2 ^ ((2 : ℤ) - 2 ^ (8 - 1) - (23 : ℕ)) := by positivity
        nlinarith))
    simpa [ConvertsTo] using this
  rw [if_neg c2]
  have hexp : ((e : ℤ) - (2 ^ (8 - 1) - 1) - (23 : ℕ)) = e - 150 := by norm_num; ring
  have hMc : ((2 : ℚ) ^ 23 + m) = ((2 ^ 23 + m : ℕ) : ℚ) := by push_cast; rfl
  rw [hexp, hMc]
  have key : ∀ k, Rounds (((2 ^ 23 + m : ℕ) : ℚ) * 2 ^ ((e : ℤ) - 150)) k →
      ConvertsTo (.num ((if s = 1 then -1 else 1) * (((2 ^ 23 + m : ℕ) : ℚ) * 2 ^ ((e : ℤ) - 150)))) (decide (s = 1))
        (s * 2 ^ 15 + k) := fun k hk => isNearest_of_rounds _ s k hs (by positivity) hk
  by_cases c3 : e < 102
  · rw [if_pos c3]
    refine ⟨_, rfl, ?_⟩
    have := key 0 (rounds_tiny _ (by positivity) (by
      have h2 : (2 : ℚ) ^ ((e : ℤ) - 150) ≤ 2 ^ (-49 : ℤ) := zpow_le_zpow_right₀ (by norm_num) (by omega)
      have h3 : (2 : ℚ) ^ 24 * 2 ^ (-49 : ℤ) = 2 ^ (-25 : ℤ) := by norm_num
      have h4 : (0 : ℚ) < 2 ^ (-49 : ℤ) := by positivity
      have h5 : (0 : ℚ) < 2 ^ ((e : ℤ) - 150) := by positivity
      have hpow : (2 : ℚ) ^ 24 = 2 ^ 23 + 2 ^ 23 := by norm_num
      rw [← hMc]
      calc ((2 : ℚ) ^ 23 + m) * 2 ^ ((e : ℤ) - 150) < 2 ^ 24 * 2 ^ ((e : ℤ) - 150) :=
            mul_lt_mul_of_pos_right (by rw [hpow]; linarith) h5
        _ ≤ 2 ^ 24 * 2 ^ (-49 : ℤ) := mul_le_mul_of_nonneg_left h2 (by positivity)
        _ = _ := h3))
    simpa using this
  rw [if_neg c3]
  by_cases c4 : e ≤ 112
  · rw [if_pos c4]
    refine ⟨_, rfl, key _ ?_⟩
    have h := rounds_sub 23 (2 ^ 23 + m) (112 - e) (by norm_num) (by omega) (by omega)
    rw [show 23 - 9 + (112 - e) = 126 - e by omega, show 23 - 10 + (112 - e) = 125 - e by omega,
      show (-((112 - e : ℕ) : ℤ) - 15 - (23 : ℕ)) = e - 150 by omega] at h
    exact h
  rw [if_neg c4]
  by_cases c5 : e ≤ 142
  · rw [if_pos c5]
    refine ⟨_, rfl, key _ ?_⟩
    have h := rounds_norm 23 (2 ^ 23 + m) (e - 112) (by norm_num) (by omega) (by omega) (by omega) (by omega)
    rw [show (((e - 112 : ℕ) : ℤ) - 15 - (23 : ℕ)) = e - 150 by omega] at h
    exact h
  · rw [if_neg c5]
    refine ⟨_, rfl, key _ (Or.inl ⟨?_, rfl⟩)⟩
    have h2 : (2 : ℚ) ^ (-7 : ℤ) ≤ 2 ^ ((e : ℤ) - 150) := zpow_le_zpow_right₀ (by norm_num) (by omega)
    rw [← hMc]
    calc (65536 : ℚ) = 2 ^ 23 * 2 ^ (-7 : ℤ) := by norm_num
      _ ≤ (2 ^ 23 + m) * 2 ^ ((e : ℤ) - 150) := mul_le_mul (by linarith) h2 (by positivity) (by positivity)

/-- π as a float becomes the half 3.140625; a tie is rounded away from zero; 65520 becomes infinity -/
example : ofSingle 0x40490FDB = .ok 0x4248 ∧ ofSingle 0xBF801000 = .ok 0xBC01 ∧ ofSingle 0x477FF000 = .ok 0x7C00 ∧
    ofSingle 0x477FEFFF = .ok 0x7BFF ∧ ofSingle 0x33000000 = .ok 1 ∧ ofSingle 0xB2FFFFFF = .ok 0x8000 := by decide

/-- **C84** (doubles), except for NaNs whose payload lies in the lower word: as for floats; the lower word, which is not
read, never matters for the rounding. -/
theorem C84_double_partial (hi lo : ℕ) (hhi : hi < 2 ^ 32) (hlo : lo < 2 ^ 32)
    (hnan : ieee 11 52 (hi * 2 ^ 32 + lo) = .nan → hi % 2 ^ 20 ≠ 0) :
    ∃ h, ofDoubleHigh hi = .ok h ∧ ConvertsTo (ieee 11 52 (hi * 2 ^ 32 + lo)) (decide (hi / 2 ^ 31 = 1)) h := by
  obtain ⟨s, e, mh, hs, he, hmh, rfl, hsign⟩ := fields64 hi hhi
  have heq := ofDoubleHigh_eq s e mh hs he hmh
  obtain ⟨m, hmdef⟩ : ∃ m, m = mh * 2 ^ 32 + lo := ⟨_, rfl⟩
  have hm : m < 2 ^ 52 := by omega
  have hieee := ieee_fields 11 52 s e m hs he hm
  have hx : (s * 2 ^ 31 + e * 2 ^ 20 + mh) * 2 ^ 32 + lo = s * 2 ^ (11 + 52) + e * 2 ^ 52 + m := by rw [hmdef]; ring
  rw [hx] at hnan ⊢
  rw [hsign, hieee, heq]
  rw [hieee] at hnan
  have hmod : (s * 2 ^ 31 + e * 2 ^ 20 + mh) % 2 ^ 20 = mh := by omega
  rw [hmod] at hnan
  clear hsign hieee heq hx hmod hhi
  by_cases c1 : e = 2047
  · rw [if_pos c1, if_pos (show e = 2 ^ 11 - 1 from c1)]
    rw [if_pos (show e = 2 ^ 11 - 1 from c1)] at hnan
    by_cases c2 : m = 0
    · rw [if_pos (show mh = 0 by omega), if_pos c2]
      refine ⟨_, rfl, ?_, by omega⟩
      rw [ieee_half s 31744 hs (by norm_num)]
      simp
    · rw [if_neg c2] at hnan
      rw [if_neg (hnan rfl), if_neg c2]
      refine ⟨_, rfl, rfl, ?_⟩
      have := ieee_half 1 32256 (by norm_num) (by norm_num)
      simpa using this
  rw [if_neg c1, if_neg (show ¬ e = 2 ^ 11 - 1 from c1)]
  have hm' : (m : ℚ) < 2 ^ 52 := by exact_mod_cast hm
  have hm0 : (0 : ℚ) ≤ m := by positivity
  by_cases c2 : e = 0
  · rw [if_pos (show e < 998 by omega), if_pos c2]
    refine ⟨_, rfl, ?_⟩
    have := isNearest_of_rounds (m * 2 ^ ((2 : ℤ) - 2 ^ (11 - 1) - (52 : ℕ))) s 0 hs (by positivity)
      (rounds_tiny _ (by positivity) (by
        have h2 : (2 : ℚ) ^ ((2 : ℤ) - 2 ^ (11 - 1) - (52 : ℕ)) ≤ 2 ^ (-100 : ℤ) :=
          zpow_le_zpow_right₀ (by norm_num) (by norm_num)
        have h3 : (2 : ℚ) ^ (-100 : ℤ) * 2 ^ 52 < 2 ^ (-25 : ℤ) := by norm_num
        have h4 : (0 : ℚ) < 2 ^ (-100 : ℤ) := by positivity
        calc (m : ℚ) * 2 ^ ((2 : ℤ) - 2 ^ (11 - 1) - (52 : ℕ)) ≤ m * 2 ^ (-100 : ℤ) := mul_le_mul_of_nonneg_left h2 hm0
          _ ≤ 2 ^ 52 * 2 ^ (-100 : ℤ) := mul_le_mul_of_nonneg_right hm'.le h4.le
          _ < _ := by rw [mul_comm]; exact h3))
    simpa [ConvertsTo] using this
  rw [if_neg c2]
  have hexp : ((e : ℤ) - (2 ^ (11 - 1) - 1) - (52 : ℕ)) = e - 1075 := by norm_num; ring
  have hMc : ((2 : ℚ) ^ 52 + m) = ((2 ^ 52 + m : ℕ) : ℚ) := by push_cast; rfl
  have hdiv : ∀ d, (2 ^ 52 + m) / 2 ^ (32 + d) = (2 ^ 20 + mh) / 2 ^ d := by
    intro d
    rw [pow_add, ← Nat.div_div_eq_div_mul]
    congr 1
    omega
  rw [hexp, hMc]
  have key : ∀ k, Rounds (((2 ^ 52 + m : ℕ) : ℚ) * 2 ^ ((e : ℤ) - 1075)) k →
      ConvertsTo (.num ((if s = 1 then -1 else 1) * (((2 ^ 52 + m : ℕ) : ℚ) * 2 ^ ((e : ℤ) - 1075)))) (decide (s = 1))
        (s * 2 ^ 15 + k) := fun k hk => isNearest_of_rounds _ s k hs (by positivity) hk
  by_cases c3 : e < 998
  · rw [if_pos c3]
    refine ⟨_, rfl, ?_⟩
    have := key 0 (rounds_tiny _ (by positivity) (by
      have h2 : (2 : ℚ) ^ ((e : ℤ) - 1075) ≤ 2 ^ (-78 : ℤ) := zpow_le_zpow_right₀ (by norm_num) (by omega)
      have h3 : (2 : ℚ) ^ 53 * 2 ^ (-78 : ℤ) = 2 ^ (-25 : ℤ) := by norm_num
      have h4 : (0 : ℚ) < 2 ^ (-78 : ℤ) := by positivity
      have h5 : (0 : ℚ) < 2 ^ ((e : ℤ) - 1075) := by positivity
      have hpow : (2 : ℚ) ^ 53 = 2 ^ 52 + 2 ^ 52 := by norm_num
      rw [← hMc]
      calc ((2 : ℚ) ^ 52 + m) * 2 ^ ((e : ℤ) - 1075) < 2 ^ 53 * 2 ^ ((e : ℤ) - 1075) :=
            mul_lt_mul_of_pos_right (by rw [hpow]; linarith) h5
        _ ≤ 2 ^ 53 * 2 ^ (-78 : ℤ) := mul_le_mul_of_nonneg_left h2 (by positivity)
        _ = _ := h3))
    simpa using this
  rw [if_neg c3]
  by_cases c4 : e ≤ 1008
  · rw [if_pos c4]
    refine ⟨_, rfl, key _ ?_⟩
    have h := rounds_sub 52 (2 ^ 52 + m) (1008 - e) (by norm_num) (by omega) (by omega)
    rw [show 52 - 9 + (1008 - e) = 32 + (1019 - e) by omega, show 52 - 10 + (1008 - e) = 32 + (1018 - e) by omega,
      show (-((1008 - e : ℕ) : ℤ) - 15 - (52 : ℕ)) = e - 1075 by omega, hdiv, hdiv] at h
    exact h
  rw [if_neg c4]
  by_cases c5 : e ≤ 1038
  · rw [if_pos c5]
    refine ⟨_, rfl, key _ ?_⟩
    have h := rounds_norm 52 (2 ^ 52 + m) (e - 1008) (by norm_num) (by omega) (by omega) (by omega) (by omega)
    rw [show (((e - 1008 : ℕ) : ℤ) - 15 - (52 : ℕ)) = e - 1075 by omega, show 52 - 10 = 32 + 10 by norm_num,
      show 52 - 11 = 32 + 9 by norm_num, hdiv, hdiv] at h
    exact h
  · rw [if_neg c5]
    refine ⟨_, rfl, key _ (Or.inl ⟨?_, rfl⟩)⟩
    have h2 : (2 : ℚ) ^ (-36 : ℤ) ≤ 2 ^ ((e : ℤ) - 1075) := zpow_le_zpow_right₀ (by norm_num) (by omega)
    rw [← hMc]
    calc (65536 : ℚ) = 2 ^ 52 * 2 ^ (-36 : ℤ) := by norm_num
      _ ≤ (2 ^ 52 + m) * 2 ^ ((e : ℤ) - 1075) := mul_le_mul (by linarith) h2 (by positivity) (by positivity)

/-- π as a double, -65504.5, a tie -/
example : ofDoubleHigh 0x400921FB = .ok 0x4248 ∧ ofDoubleHigh 0xC0EFFC10 = .ok 0xFBFF ∧ ofDoubleHigh 0x3FF00200 = .ok 0x3C01 ∧
    (0xC0EFFC10 : ℕ) % 2 ^ 20 ≠ 0 := by decide

/-- **C84** fails for every NaN whose payload lies in the lower word: it becomes infinity. -/
theorem C84_double_nan_wrong (s lo : ℕ) (hs : s < 2) (h0 : 0 < lo) (hlo : lo < 2 ^ 32) :
    ieee 11 52 ((s * 2 ^ 31 + 0x7FF00000) * 2 ^ 32 + lo) = .nan ∧
    ∃ h, ofDoubleHigh (s * 2 ^ 31 + 0x7FF00000) = .ok h ∧ ieee 5 10 h = .inf (decide (s = 1)) := by
  constructor
  · have := ieee_fields 11 52 s 2047 lo hs (by norm_num) (by omega)
    rw [if_pos (by norm_num), if_neg (by omega)] at this
    rw [← this]
    exact congrArg (ieee 11 52) (by ring)
  · have := ofDoubleHigh_eq s 2047 0 hs (by norm_num) (by norm_num)
    rw [if_pos rfl, if_pos rfl] at this
    refine ⟨s * 2 ^ 15 + 31744, this, ?_⟩
    rw [ieee_half s 31744 hs (by norm_num)]
    simp

example : (1 : ℕ) < 2 ∧ 0 < 0xFFFFFFFF ∧ 0xFFFFFFFF < 2 ^ 32 := by decide

/-- **C84**: rounding to half preserves the order of the numbers (floats). -/
theorem C84_mono (x y h h' : ℕ) (v w q q' : ℚ) (hx : x < 2 ^ 32) (hy : y < 2 ^ 32) (ev : ieee 8 23 x = .num v)
    (ew : ieee 8 23 y = .num w) (hvw : v ≤ w) (e1 : ofSingle x = .ok h) (e2 : ofSingle y = .ok h')
    (q1 : ieee 5 10 h = .num q) (q2 : ieee 5 10 h' = .num q') : q ≤ q' := by
  obtain ⟨a, a1, a2⟩ := C84_single x hx
  obtain ⟨b, b1, b2⟩ := C84_single y hy
  rw [e1] at a1
  rw [e2] at b1
  injection a1 with a1
  injection b1 with b1
  subst a1 b1
  rw [ev] at a2
  rw [ew] at b2
  obtain ⟨-, -, a3, a4⟩ := a2
  obtain ⟨-, -, b3, b4⟩ := b2
  rcases lt_or_ge |v| 65520 with hv | hv
  swap
  · rw [a3 hv] at q1; cases q1
  rcases lt_or_ge |w| 65520 with hw | hw
  swap
  · rw [b3 hw] at q2; cases q2
  obtain ⟨r, r1, r2⟩ := a4 hv
  obtain ⟨t, t1, t2⟩ := b4 hw
  rw [q1] at r1
  rw [q2] at t1
  injection r1 with r1
  injection t1 with t1
  subst r1 t1
  by_contra hlt
  push Not at hlt
  have A := r2 h' q' q2
  have B := t2 h q q1
  -- both are at least as close to the other side, so `v = w` is the midpoint
  have A1 : q + q' ≤ 2 * v := by
    by_contra hc
    push Not at hc
    have := A.1
    rw [abs_le] at this
    rcases le_total 0 (v - q') with h0 | h0
    · rw [abs_of_nonneg h0] at this
      linarith [this.1]
    · rw [abs_of_nonpos h0] at this
      linarith [this.1]
  have B1 : 2 * w ≤ q + q' := by
    by_contra hc
    push Not at hc
    have := B.1
    rw [abs_le] at this
    rcases le_total 0 (w - q) with h0 | h0
    · rw [abs_of_nonneg h0] at this
      linarith [this.2]
    · rw [abs_of_nonpos h0] at this
      linarith [this.2]
  have hv2 : 2 * v = q + q' := by linarith
  have hw2 : w = v := by linarith
  subst hw2
  have d : |w - q| = |w - q'| := le_antisymm A.1 B.1
  have m1 := A.2 d
  have m2 := B.2 d.symm
  have hq : |q| = |q'| := le_antisymm m2 m1
  rcases abs_eq_abs.1 hq with h | h
  · linarith
  · have hw0 : w = 0 := by linarith
    have := (r2 0 0 (by simp [ieee])).1
    rw [hw0] at this
    simp at this
    rw [this] at h
    linarith

/-- 2048.3 and 2049.7 become 2048 and 2050 -/
example : ofSingle 0x450004CD = .ok 0x6800 ∧ ofSingle 0x45001B33 = .ok 0x6801 := by decide

/-- **C85** (floats): the conversion of a half to float ends, is defined, is exact for numbers, keeps infinities and NaN, and
keeps the sign bit of everything but NaN. -/
theorem C85_single (h : ℕ) (hh : h < 2 ^ 16) : ∃ x, toSingle h = some (.ok x) ∧ x < 2 ^ 32 ∧ ieee 8 23 x = ieee 5 10 h ∧
    (ieee 5 10 h ≠ .nan → x / 2 ^ 31 = h / 2 ^ 15) := by
  obtain ⟨s, e, m, hs, he, hm, rfl, hsign⟩ := fields16 h hh
  rw [hsign, ieee_fields 5 10 s e m hs he hm]
  rw [show (5 : ℕ) + 10 = 15 by norm_num] at *
  clear hsign hh
  obtain ⟨x, hx⟩ : ∃ x, x = s * 2 ^ 15 + e * 2 ^ 10 + m := ⟨_, rfl⟩
  rw [← hx]
  obtain ⟨q1, q2, q3, q4, q5, hse, hss⟩ : (x % 2 ^ 15 = e * 2 ^ 10 + m) ∧ (x / 2 ^ 15 % 2 ^ 1 * 2 ^ 15 = s * 2 ^ 15) ∧
      (x / 2 ^ 10 % 2 ^ 5 * 2 ^ 10 = e * 2 ^ 10) ∧ (x % 2 ^ 10 = m) ∧
      (e * 2 ^ 10 + m = 0 → x * 2 ^ 16 % 2 ^ 32 = s * 2 ^ 31) ∧ (e * 2 ^ 10 / 2 ^ 10 = e) ∧
      (s * 2 ^ 15 * 2 ^ 16 % 2 ^ 32 = s * 2 ^ 31) := by
    refine ⟨?_, ?_, ?_, ?_, ?_, ?_, ?_⟩ <;> omega
  have r1 : x &&& 0x7FFF = _ := and_low x 15
  have r2 : x &&& 0x8000 = _ := and_field x 1 15
  have r3 : x &&& 0x7C00 = _ := and_field x 5 10
  have r4 : x &&& 0x03FF = _ := and_low x 10
  unfold toSingle
  rw [r1, r2, r3, r4, q1, q2, q3, q4]
  simp only [Nat.shiftRight_eq_div_pow, Nat.shiftLeft_eq, hse, hss]
  clear r1 r2 r3 r4 q1 q2 q3 q4 hss hse
  by_cases c0 : e * 2 ^ 10 + m = 0
  · rw [if_pos c0, q5 c0]
    clear q5 hx
    have e0 : e = 0 := by omega
    have m0 : m = 0 := by omega
    subst e0 m0
    have hf := ieee_fields 8 23 s 0 0 hs (by norm_num) (by norm_num)
    clear c0 he hm
    refine ⟨_, rfl, by omega, ?_, fun _ => by omega⟩
    rw [show s * 2 ^ 31 = s * 2 ^ (8 + 23) + 0 * 2 ^ 23 + 0 by ring, hf]
    simp
  rw [if_neg c0]
  clear hx q5
  by_cases c1 : e = 0
  · subst c1
    rw [if_pos (by norm_num)]
    obtain ⟨j, j1, j2, j3, j4⟩ := normLoop_ok m (by omega) (by omega)
    have hr : m * 2 ^ (j + 1) &&& 0x03FF = m * 2 ^ (j + 1) - 1024 :=
      (and_low (m * 2 ^ (j + 1)) 10).trans (by omega)
    rw [j2]
    simp only [hr]
    obtain ⟨n, hn⟩ : ∃ n, m * 2 ^ (j + 1) = 1024 + n := ⟨_, (Nat.add_sub_cancel' j3).symm⟩
    rw [hn, Nat.add_sub_cancel_left]
    have hn2 : n < 1024 := by omega
    have hxes : (((0 : ℕ) : ℤ) - 15 + 127 - (j : ℤ)) = ((112 - j : ℕ) : ℤ) := by omega
    rw [hxes, show (23 : ℤ) = ((23 : ℕ) : ℤ) by rfl, shl_small _ 23 (by norm_num) (by omega)]
    have hmod : n * 2 ^ 13 % 2 ^ 32 = n * 2 ^ 13 := by omega
    refine ⟨s * 2 ^ 31 + (112 - j) * 2 ^ 23 + n * 2 ^ 13, ?_, by omega, ?_, fun _ => by omega⟩
    · show some (Except.ok _) = _
      rw [wrapU_small 32 _ (by omega), hmod]
      exact congrArg (fun z => some (Except.ok z)) (or3 s (112 - j) (n * 2 ^ 13) 8 23 (by omega) (by omega))
    · have hf := ieee_fields 8 23 s (112 - j) (n * 2 ^ 13) hs (by omega) (by omega)
      rw [show (8 : ℕ) + 23 = 31 by norm_num] at hf
      rw [hf, if_neg (show ¬ 112 - j = 2 ^ 8 - 1 by omega), if_neg (show ¬ 112 - j = 0 by omega),
        if_neg (show ¬ 0 = 2 ^ 5 - 1 by norm_num), if_pos trivial]
      congr 2
      have hmq : (m : ℚ) * 2 ^ (j + 1) = 1024 + n := by exact_mod_cast hn
      have h1 : (((112 - j : ℕ) : ℤ) - (2 ^ (8 - 1) - 1) - (23 : ℕ)) = -((j + 1 : ℕ) : ℤ) + -37 := by
        push_cast; omega
      have h2 : ((2 : ℚ) ^ 23 + ((n * 2 ^ 13 : ℕ) : ℚ)) = m * 2 ^ (j + 1) * 2 ^ 13 := by
        rw [hmq]; push_cast; ring
      have h3 : (2 : ℚ) ^ (j + 1) ≠ 0 := by positivity
      have h4 : (2 : ℚ) ^ 13 * 2 ^ (-37 : ℤ) = 2 ^ ((2 : ℤ) - 2 ^ (5 - 1) - (10 : ℕ)) := by norm_num
      rw [h1, zpow_add₀ (by norm_num), h2, zpow_neg, zpow_natCast, ← h4]
      field_simp
  · have c1' : ¬ e * 2 ^ 10 = 0 := Nat.mul_ne_zero c1 (by norm_num)
    rw [if_neg c1']
    by_cases c2 : e = 31
    · subst c2
      rw [if_pos (by norm_num), if_pos (show 31 = 2 ^ 5 - 1 by norm_num)]
      by_cases c3 : m = 0
      · subst c3
        rw [if_pos rfl, if_pos rfl]
        have ho : s * 2 ^ 31 ||| 0x7F800000 = s * 2 ^ (8 + 23) + 255 * 2 ^ 23 + 0 := or_add s 0x7F800000 31 (by norm_num)
        have hf := ieee_fields 8 23 s 255 0 hs (by norm_num) (by norm_num)
        rw [if_pos (by norm_num), if_pos rfl] at hf
        exact ⟨_, rfl, by rw [ho]; omega, by rw [ho, hf], fun _ => by rw [ho]; omega⟩
      · rw [if_neg c3, if_neg c3]
        refine ⟨_, rfl, by norm_num, ?_, fun h => absurd rfl h⟩
        have hf := ieee_fields 8 23 1 255 (2 ^ 22) (by norm_num) (by norm_num) (by norm_num)
        rw [if_pos (by norm_num), if_neg (by norm_num)] at hf
        exact hf
    · have c2' : ¬ e * 2 ^ 10 = 31744 := fun h => c2 (Nat.eq_of_mul_eq_mul_right (show 0 < 2 ^ 10 by norm_num) h)
      rw [if_neg c2', if_neg (show ¬ e = 2 ^ 5 - 1 by omega), if_neg c1]
      have hxes : ((e : ℤ) - 15 + 127) = ((112 + e : ℕ) : ℤ) := by omega
      rw [hxes, show (23 : ℤ) = ((23 : ℕ) : ℤ) by rfl, shl_small _ 23 (by norm_num) (by omega)]
      have hmod : m * 2 ^ 13 % 2 ^ 32 = m * 2 ^ 13 := by omega
      refine ⟨s * 2 ^ 31 + (112 + e) * 2 ^ 23 + m * 2 ^ 13, ?_, by omega, ?_, fun _ => by omega⟩
      · show some (Except.ok _) = _
        rw [wrapU_small 32 _ (by omega), hmod]
        exact congrArg (fun z => some (Except.ok z)) (or3 s (112 + e) (m * 2 ^ 13) 8 23 (by omega) (by omega))
      · have hf := ieee_fields 8 23 s (112 + e) (m * 2 ^ 13) hs (by omega) (by omega)
        rw [show (8 : ℕ) + 23 = 31 by norm_num] at hf
        rw [hf, if_neg (by omega), if_neg (by omega)]
        congr 2
        have h1 : (((112 + e : ℕ) : ℤ) - (2 ^ (8 - 1) - 1) - (23 : ℕ)) = ((e : ℤ) - (2 ^ (5 - 1) - 1) - (10 : ℕ)) + -13 := by
          push_cast; ring
        rw [h1, zpow_add₀ (by norm_num)]
        push_cast
        norm_num
        ring

example : toSingle 0x3555 = some (.ok 0x3EAAA000) ∧ toSingle 0x8001 = some (.ok 0xB3800000) := by decide

/-- **C85** (doubles): the conversion of a half to the upper word of a double, with a lower word of zero, ends, is defined, is exact for numbers, keeps infinities and NaN, and
keeps the sign bit of everything but NaN. -/
theorem C85_double (h : ℕ) (hh : h < 2 ^ 16) : ∃ x, toDoubleHigh h = some (.ok x) ∧ x < 2 ^ 32 ∧ ieee 11 52 (x * 2 ^ 32) = ieee 5 10 h ∧
    (ieee 5 10 h ≠ .nan → x / 2 ^ 31 = h / 2 ^ 15) := by
  obtain ⟨s, e, m, hs, he, hm, rfl, hsign⟩ := fields16 h hh
  rw [hsign, ieee_fields 5 10 s e m hs he hm]
  rw [show (5 : ℕ) + 10 = 15 by norm_num] at *
  clear hsign hh
  obtain ⟨x, hx⟩ : ∃ x, x = s * 2 ^ 15 + e * 2 ^ 10 + m := ⟨_, rfl⟩
  rw [← hx]
  obtain ⟨q1, q2, q3, q4, q5, hse, hss⟩ : (x % 2 ^ 15 = e * 2 ^ 10 + m) ∧ (x / 2 ^ 15 % 2 ^ 1 * 2 ^ 15 = s * 2 ^ 15) ∧
      (x / 2 ^ 10 % 2 ^ 5 * 2 ^ 10 = e * 2 ^ 10) ∧ (x % 2 ^ 10 = m) ∧
      (e * 2 ^ 10 + m = 0 → x * 2 ^ 16 % 2 ^ 32 = s * 2 ^ 31) ∧ (e * 2 ^ 10 / 2 ^ 10 = e) ∧
      (s * 2 ^ 15 * 2 ^ 16 % 2 ^ 32 = s * 2 ^ 31) := by
    refine ⟨?_, ?_, ?_, ?_, ?_, ?_, ?_⟩ <;> omega
  have r1 : x &&& 0x7FFF = _ := and_low x 15
  have r2 : x &&& 0x8000 = _ := and_field x 1 15
  have r3 : x &&& 0x7C00 = _ := and_field x 5 10
  have r4 : x &&& 0x03FF = _ := and_low x 10
  unfold toDoubleHigh
  rw [r1, r2, r3, r4, q1, q2, q3, q4]
  simp only [Nat.shiftRight_eq_div_pow, Nat.shiftLeft_eq, hse, hss]
  clear r1 r2 r3 r4 q1 q2 q3 q4 hss hse
  by_cases c0 : e * 2 ^ 10 + m = 0
  · rw [if_pos c0, q5 c0]
    clear q5 hx
    have e0 : e = 0 := by omega
    have m0 : m = 0 := by omega
    subst e0 m0
    have hf := ieee_fields 11 52 s 0 0 hs (by norm_num) (by norm_num)
    clear c0 he hm
    refine ⟨_, rfl, by omega, ?_, fun _ => by omega⟩
    rw [show s * 2 ^ 31 * 2 ^ 32 = s * 2 ^ (11 + 52) + 0 * 2 ^ 52 + 0 by ring, hf]
    simp
  rw [if_neg c0]
  clear hx q5
  by_cases c1 : e = 0
  · subst c1
    rw [if_pos (by norm_num)]
    obtain ⟨j, j1, j2, j3, j4⟩ := normLoop_ok m (by omega) (by omega)
    have hr : m * 2 ^ (j + 1) &&& 0x03FF = m * 2 ^ (j + 1) - 1024 :=
      (and_low (m * 2 ^ (j + 1)) 10).trans (by omega)
    rw [j2]
    simp only [hr]
    obtain ⟨n, hn⟩ : ∃ n, m * 2 ^ (j + 1) = 1024 + n := ⟨_, (Nat.add_sub_cancel' j3).symm⟩
    rw [hn, Nat.add_sub_cancel_left]
    have hn2 : n < 1024 := by omega
    have hxes : (((0 : ℕ) : ℤ) - 15 + 1023 - (j : ℤ)) = ((1008 - j : ℕ) : ℤ) := by omega
    rw [hxes, show (20 : ℤ) = ((20 : ℕ) : ℤ) by rfl, shl_small _ 20 (by norm_num) (by omega)]
    have hmod : n * 2 ^ 10 % 2 ^ 32 = n * 2 ^ 10 := by omega
    refine ⟨s * 2 ^ 31 + (1008 - j) * 2 ^ 20 + n * 2 ^ 10, ?_, by omega, ?_, fun _ => by omega⟩
    · show some (Except.ok _) = _
      rw [wrapU_small 32 _ (by omega), hmod]
      exact congrArg (fun z => some (Except.ok z)) (or3 s (1008 - j) (n * 2 ^ 10) 11 20 (by omega) (by omega))
    · have hf := ieee_fields 11 52 s (1008 - j) (n * 2 ^ 42) hs (by omega) (by omega)
      rw [show (11 : ℕ) + 52 = 63 by norm_num] at hf
      have hf2 : (s * 2 ^ 31 + (1008 - j) * 2 ^ 20 + n * 2 ^ 10) * 2 ^ 32 = s * 2 ^ 63 + (1008 - j) * 2 ^ 52 + n * 2 ^ 42 := by
        ring
      rw [hf2, hf, if_neg (show ¬ 1008 - j = 2 ^ 11 - 1 by omega), if_neg (show ¬ 1008 - j = 0 by omega),
        if_neg (show ¬ 0 = 2 ^ 5 - 1 by norm_num), if_pos trivial]
      congr 2
      have hmq : (m : ℚ) * 2 ^ (j + 1) = 1024 + n := by exact_mod_cast hn
      have h1 : (((1008 - j : ℕ) : ℤ) - (2 ^ (11 - 1) - 1) - (52 : ℕ)) = -((j + 1 : ℕ) : ℤ) + -66 := by
        push_cast; omega
      have h2 : ((2 : ℚ) ^ 52 + ((n * 2 ^ 42 : ℕ) : ℚ)) = m * 2 ^ (j + 1) * 2 ^ 42 := by
        rw [hmq]; push_cast; ring
      have h3 : (2 : ℚ) ^ (j + 1) ≠ 0 := by positivity
      have h4 : (2 : ℚ) ^ 42 * 2 ^ (-66 : ℤ) = 2 ^ ((2 : ℤ) - 2 ^ (5 - 1) - (10 : ℕ)) := by norm_num
      rw [h1, zpow_add₀ (by norm_num), h2, zpow_neg, zpow_natCast, ← h4]
      field_simp
  · have c1' : ¬ e * 2 ^ 10 = 0 := Nat.mul_ne_zero c1 (by norm_num)
    rw [if_neg c1']
    by_cases c2 : e = 31
    · subst c2
      rw [if_pos (by norm_num), if_pos (show 31 = 2 ^ 5 - 1 by norm_num)]
      by_cases c3 : m = 0
      · subst c3
        rw [if_pos rfl, if_pos rfl]
        have ho : s * 2 ^ 31 ||| 0x7FF00000 = s * 2 ^ (11 + 20) + 2047 * 2 ^ 20 + 0 := or_add s 0x7FF00000 31 (by norm_num)
        have hf := ieee_fields 11 52 s 2047 0 hs (by norm_num) (by norm_num)
        rw [if_pos (by norm_num), if_pos rfl] at hf
        exact ⟨_, rfl, by rw [ho]; omega, by
          have hf2 : (s * 2 ^ (11 + 20) + 2047 * 2 ^ 20 + 0) * 2 ^ 32 = s * 2 ^ (11 + 52) + 2047 * 2 ^ 52 + 0 := by ring
          rw [ho, hf2, hf], fun _ => by rw [ho]; omega⟩
      · rw [if_neg c3, if_neg c3]
        refine ⟨_, rfl, by norm_num, ?_, fun h => absurd rfl h⟩
        have hf := ieee_fields 11 52 1 2047 (2 ^ 51) (by norm_num) (by norm_num) (by norm_num)
        rw [if_pos (by norm_num), if_neg (by norm_num)] at hf
        exact hf
    · have c2' : ¬ e * 2 ^ 10 = 31744 := fun h => c2 (Nat.eq_of_mul_eq_mul_right (show 0 < 2 ^ 10 by norm_num) h)
      rw [if_neg c2', if_neg (show ¬ e = 2 ^ 5 - 1 by omega), if_neg c1]
      have hxes : ((e : ℤ) - 15 + 1023) = ((1008 + e : ℕ) : ℤ) := by omega
      rw [hxes, show (20 : ℤ) = ((20 : ℕ) : ℤ) by rfl, shl_small _ 20 (by norm_num) (by omega)]
      have hmod : m * 2 ^ 10 % 2 ^ 32 = m * 2 ^ 10 := by omega
      refine ⟨s * 2 ^ 31 + (1008 + e) * 2 ^ 20 + m * 2 ^ 10, ?_, by omega, ?_, fun _ => by omega⟩
      · show some (Except.ok _) = _
        rw [wrapU_small 32 _ (by omega), hmod]
        exact congrArg (fun z => some (Except.ok z)) (or3 s (1008 + e) (m * 2 ^ 10) 11 20 (by omega) (by omega))
      · have hf := ieee_fields 11 52 s (1008 + e) (m * 2 ^ 42) hs (by omega) (by omega)
        rw [show (11 : ℕ) + 52 = 63 by norm_num] at hf
        have hf2 : (s * 2 ^ 31 + (1008 + e) * 2 ^ 20 + m * 2 ^ 10) * 2 ^ 32 = s * 2 ^ 63 + (1008 + e) * 2 ^ 52 + m * 2 ^ 42 := by
          ring
        rw [hf2, hf, if_neg (by omega), if_neg (by omega)]
        congr 2
        have h1 : (((1008 + e : ℕ) : ℤ) - (2 ^ (11 - 1) - 1) - (52 : ℕ)) = ((e : ℤ) - (2 ^ (5 - 1) - 1) - (10 : ℕ)) + -42 := by
          push_cast; ring
        rw [h1, zpow_add₀ (by norm_num)]
        push_cast
        norm_num
        ring

example : toDoubleHigh 0x3555 = some (.ok 0x3FD55400) ∧ toDoubleHigh 0x8001 = some (.ok 0xBE700000) := by decide

end Verif.HalfPrec
