import Verif.Props.Float
import Verif.Props.PositF
import Verif.Lemmas.AnyFloat
import Verif.Lemmas.NoDenorm
import Verif.Model.FloatLimits

/-! # What the constants of the float traits are among all the floats (C138) -/

namespace Verif

variable {eb fb : ℕ} {dn : Bool}

/-- **C138**: no float is above `max_h` or below `lowest_h`. -/
theorem C138_ends (heb : 2 ≤ eb) (hfb : 1 ≤ fb) :
    ∃ m : ℚ, ieee eb fb (FTrait.any eb fb dn).max = .num m ∧ ieee eb fb (FTrait.any eb fb dn).lowest = .num (-m) ∧
      ∀ (b : ℕ) (y : ℚ), ieee eb fb b = .num y → -m ≤ y ∧ y ≤ m := by
  obtain ⟨-, -, -, h1, h2, -⟩ := C51_constants (dn := dn) heb hfb
  exact ⟨_, h1, h2, fun b y hy => abs_le.mp (ieee_le_maxFin heb hy)⟩

example : ieee 5 2 (FTrait.any 5 2).max = .num 57344 := by
  norm_num [ieee, show (FTrait.any 5 2).max = 0x7b by decide +kernel]

/-- **C138**: `min_h` is the least positive number whose exponent field is not zero; the numbers below it in magnitude are exactly
zero and the subnormal ones. -/
theorem C138_min (heb : 2 ≤ eb) (hfb : 1 ≤ fb) :
    ∃ m : ℚ, ieee eb fb (FTrait.any eb fb dn).min = .num m ∧ 0 < m ∧
      ∀ (b : ℕ) (y : ℚ), ieee eb fb b = .num y → (b / 2 ^ fb % 2 ^ eb ≠ 0 ↔ m ≤ |y|) := by
  obtain ⟨-, -, h1, -⟩ := C51_constants (dn := dn) heb hfb
  refine ⟨_, h1, by positivity, fun b y hy => ?_⟩
  obtain ⟨-, ⟨h0, hx⟩ | ⟨h0, hx⟩⟩ := ieee_num hy
  · exact ⟨fun h => absurd h0 h, fun h => absurd h (not_le.mpr (sub_abs hx).2)⟩
  · refine ⟨fun _ => ?_, fun _ => h0⟩
    have h0' : 1 ≤ fExp eb fb b := by omega
    have h1' : (1 : ℤ) ≤ fExp eb fb b := by exact_mod_cast h0'
    rw [hx, abs_sign_mul _ (by positivity)]
    calc (2 : ℚ) ^ ((2 : ℤ) - 2 ^ (eb - 1)) = 2 ^ fb * 2 ^ ((2 : ℤ) - 2 ^ (eb - 1) - fb) := by
          rw [zpow_sub₀ (by norm_num) _ (fb : ℤ), zpow_natCast]; field_simp
      _ ≤ 2 ^ fb * 2 ^ ((fExp eb fb b : ℤ) - (2 ^ (eb - 1) - 1) - fb) := by
          apply mul_le_mul_of_nonneg_left _ (by positivity)
          apply zpow_le_zpow_right₀ (by norm_num)
          omega
      _ ≤ _ := by
          apply mul_le_mul_of_nonneg_right _ (by positivity)
          have : (0 : ℚ) ≤ fMan fb b := by positivity
          linarith

example : ieee 8 23 (FTrait.any 8 23).min = .num (2 ^ (-126 : ℤ)) ∧ ieee 8 23 0x007fffff = .num (8388607 * 2 ^ (-149 : ℤ)) ∧
    (0x007fffff : ℕ) / 2 ^ 23 % 2 ^ 8 = 0 := by
  refine ⟨?_, ?_, by decide⟩ <;> norm_num [ieee, show (FTrait.any 8 23).min = 0x00800000 by decide +kernel]

/-- **C138**: `afterone_h` is the least number above 1. -/
theorem C138_afterone (heb : 2 ≤ eb) (hfb : 1 ≤ fb) :
    ieee eb fb (FTrait.afterone eb fb) = .num (1 + 1 / 2 ^ fb) ∧
      ∀ (b : ℕ) (y : ℚ), ieee eb fb b = .num y → 1 < y → 1 + 1 / 2 ^ fb ≤ y := by
  have h3 := two_le_pow heb
  have h2 := two_pow_pred_nat (w := eb) (by omega)
  have hb := cast_bias heb
  constructor
  · have hp : 2 ≤ 2 ^ fb := by
      calc 2 = 2 ^ 1 := by norm_num
        _ ≤ 2 ^ fb := Nat.pow_le_pow_right (by norm_num) hfb
    have e : FTrait.afterone eb fb = fJoin eb fb false (2 ^ (eb - 1) - 1) 1 := by
      unfold FTrait.afterone fJoin
      show (2 ^ (eb - 1) - 1) <<< fb + 1 = _
      rw [Nat.shiftLeft_eq]; simp
    rw [e, ieee_join (by omega) (by omega) (by omega)]
    congr 1
    rw [show ((2 ^ (eb - 1) - 1 : ℕ) : ℤ) - (2 ^ (eb - 1) - 1) - fb = -(fb : ℤ) by rw [hb]; ring, zpow_neg, zpow_natCast]
    have : (2 : ℚ) ^ fb ≠ 0 := by positivity
    simp; field_simp
  · intro b y hy h1
    obtain ⟨k, hk⟩ := ieee_grid (e := 0) hy (by rw [abs_of_pos (by linarith)]; simp; exact h1.le) (by
      have : (2 : ℤ) ≤ 2 ^ (eb - 1) := by exact_mod_cast h3
      omega)
    rw [abs_of_pos (by linarith), zero_sub, zpow_neg, zpow_natCast] at hk
    have hp : (0 : ℚ) < 2 ^ fb := by positivity
    have hk1 : 2 ^ fb < k := by
      have : (1 : ℚ) < k * (2 ^ fb)⁻¹ := hk ▸ h1
      rw [← div_eq_mul_inv, lt_div_iff₀ hp, one_mul] at this
      exact_mod_cast this
    have hk2 : (2 : ℚ) ^ fb + 1 ≤ k := by exact_mod_cast hk1
    rw [hk, ← div_eq_mul_inv, le_div_iff₀ hp]
    field_simp
    linarith

example : FTrait.afterone 5 10 = 0x3c01 ∧ ieee 5 10 0x3c01 = .num (1025 / 1024) := ⟨by decide, by norm_num [ieee]⟩

/-- **C138**: setting `signbit` in a pattern without it changes the sign of what the pattern denotes. -/
theorem C138_signbit (heb : 1 ≤ eb) {b : ℕ} (hb : b < 2 ^ (eb + fb)) :
    (∀ y : ℚ, ieee eb fb b = .num y → ieee eb fb (b ||| (FTrait.any eb fb dn).signbit) = .num (-y)) ∧
    (ieee eb fb b = .nan → ieee eb fb (b ||| (FTrait.any eb fb dn).signbit) = .nan) ∧
    ieee eb fb b ≠ .inf true ∧ (ieee eb fb b = .inf false → ieee eb fb (b ||| (FTrait.any eb fb dn).signbit) = .inf true) := by
  have e0 : b ||| (FTrait.any eb fb dn).signbit = 2 ^ (eb + fb) + b := by
    show b ||| 2 ^ (eb + fb) = _
    have := Nat.two_pow_add_eq_or_of_lt hb 1
    rw [mul_one] at this
    rw [Nat.or_comm, this]
  have hs : fSign eb fb b = false := by
    unfold fSign; rw [Nat.div_eq_of_lt hb]; simp
  have hx := fExp_lt eb fb b
  have hm := fMan_lt fb b
  have e1 : 2 ^ (eb + fb) + b = fJoin eb fb true (fExp eb fb b) (fMan fb b) := by
    conv_lhs => rw [← fJoin_fields (eb := eb) (fb := fb) (b := b) (by rw [pow_succ]; omega), hs]
    unfold fJoin; simp; ring
  rw [e0, e1]
  simp only [ieee_eq, fJoin_sign hx hm, fJoin_exp hx hm, fJoin_man hm, hs]
  by_cases h1 : fExp eb fb b = 2 ^ eb - 1
  · rw [if_pos h1, if_pos h1]
    by_cases h2 : fMan fb b = 0
    · simp [h2]
    · simp [h2]
  · rw [if_neg h1, if_neg h1]
    by_cases h2 : fExp eb fb b = 0
    · simp [h2]
    · simp [h2]

example : ieee 5 10 0x4200 = .num 3 ∧ (0x4200 ||| (FTrait.any 5 10).signbit) = 0xc200 ∧ ieee 5 10 0xc200 = .num (-3) :=
  ⟨by norm_num [ieee], by decide, by norm_num [ieee]⟩

/-- **C138**: `exponent_mask` takes out the exponent field; it is at most `exponent_max` exactly for the patterns that are numbers;
and the field less `exponent_bias` is the binary logarithm of a number from `min_h` on. -/
theorem C138_exponents (heb : 2 ≤ eb) (b : ℕ) :
    let t := FTrait.any eb fb dn
    let x := (b >>> fb) &&& t.expMask
    x = b / 2 ^ fb % 2 ^ eb ∧ ((x : ℤ) ≤ t.expMax ↔ ∃ y : ℚ, ieee eb fb b = .num y) ∧
    ∀ y : ℚ, ieee eb fb b = .num y → x ≠ 0 → (2 : ℚ) ^ ((x : ℤ) - t.bias) ≤ |y| ∧ |y| < 2 ^ ((x : ℤ) - t.bias + 1) := by
  intro t x
  have h3 := two_le_pow heb
  have h2 := two_pow_pred_nat (w := eb) (by omega)
  have ex : x = fExp eb fb b := by
    show (b >>> fb) &&& (2 ^ eb - 1) = _
    rw [Nat.and_two_pow_sub_one_eq_mod, Nat.shiftRight_eq_div_pow]; rfl
  have hlt := fExp_lt eb fb b
  rw [ex]
  refine ⟨rfl, ?_, fun y hy h0 => ?_⟩
  · have e1 : t.expMax = ((2 ^ eb - 2 : ℕ) : ℤ) := by
      show (2 : ℤ) ^ eb - 2 = _
      rw [Nat.cast_sub (by omega)]; push_cast; rfl
    rw [e1]
    constructor
    · intro h
      rw [ieee_eq, if_neg (by omega)]
      split_ifs <;> exact ⟨_, rfl⟩
    · rintro ⟨y, hy⟩
      have := (ieee_num hy).1
      omega
  · obtain ⟨-, ⟨h1, -⟩ | ⟨-, hx⟩⟩ := ieee_num hy
    · exact absurd h1 h0
    · have hm : (fMan fb b : ℚ) + 1 ≤ 2 ^ fb := by exact_mod_cast fMan_lt fb b
      have hm0 : (0 : ℚ) ≤ fMan fb b := by positivity
      have hp : (0 : ℚ) < 2 ^ ((fExp eb fb b : ℤ) - (2 ^ (eb - 1) - 1) - fb) := by positivity
      have e2 : (2 : ℚ) ^ ((fExp eb fb b : ℤ) - t.bias) = 2 ^ fb * 2 ^ ((fExp eb fb b : ℤ) - (2 ^ (eb - 1) - 1) - fb) := by
        show (2 : ℚ) ^ ((fExp eb fb b : ℤ) - (2 ^ (eb - 1) - 1)) = _
        rw [zpow_sub₀ (by norm_num) _ (fb : ℤ), zpow_natCast]; field_simp
      rw [zpow_add_one₀ (by norm_num), e2, hx, abs_sign_mul _ (by positivity)]
      constructor <;> nlinarith

example : (0x4248 >>> 10) &&& (FTrait.any 5 10).expMask = 16 ∧ (FTrait.any 5 10).bias = 15 ∧ ieee 5 10 0x4248 = .num (201 / 64) :=
  ⟨by decide, by decide, by norm_num [ieee]⟩

/-- **C138**: `denorm_min_h` of `single_trait` is the least positive float and `epsilon_h` the distance from 1 to the next. -/
theorem C138_single :
    (∃ d : ℚ, ieee 8 23 FTrait.singleDenormMin = .num d ∧ 0 < d ∧ ∀ (b : ℕ) (y : ℚ), ieee 8 23 b = .num y → 0 < y → d ≤ y) ∧
    ∃ e y : ℚ, ieee 8 23 FTrait.singleEpsilon = .num e ∧ ieee 8 23 (FTrait.single.one + 1) = .num y ∧ e = y - 1 := by
  refine ⟨⟨2 ^ (-149 : ℤ), by norm_num [ieee, FTrait.singleDenormMin], by positivity, fun b y hy h0 => ?_⟩,
    2 ^ (-23 : ℤ), 1 + 2 ^ (-23 : ℤ), by norm_num [ieee, FTrait.singleEpsilon], ?_, by ring⟩
  · obtain ⟨k, hk⟩ := ieee_multiple hy
    rw [abs_of_pos h0] at hk
    have hp := minSub_pos (eb := 8) (fb := 23)
    have hk1 : 1 ≤ k := by
      rcases Nat.eq_zero_or_pos k with rfl | h
      · simp at hk; linarith
      · exact h
    have hk2 : (1 : ℚ) ≤ k := by exact_mod_cast hk1
    have e : minSub 8 23 = 2 ^ (-149 : ℤ) := by unfold minSub; norm_num
    rw [hk, ← e]
    nlinarith
  · norm_num [ieee, FTrait.single]

example : ieee 8 23 FTrait.singleEpsilon = .num (1 / 8388608) := by norm_num [ieee, FTrait.singleEpsilon]

/-- **C138**: the assertions of tests/itest_anyvsreallimit.cpp hold for the types of `float2trait` but `__float128`. -/
theorem C138_same : ∀ t ∈ [FTrait.single, .double, .half, .halfAlt], t.sameAsAny = true := by decide +kernel

theorem quad_num {b : ℕ} (h : fExp 15 112 b ≠ 2 ^ 15 - 1) : ∃ y : ℚ, ieee 15 112 b = .num y := by
  rw [ieee_eq, if_neg h]
  split_ifs <;> exact ⟨_, rfl⟩

theorem quad_small {b : ℕ} (h : fExp 15 112 b ≠ 2 ^ 15 - 1) (hs : fSign 15 112 b = true ∨ fExp 15 112 b = 0) :
    ∃ y : ℚ, ieee 15 112 b = .num y ∧ y < 2 ^ (-16382 : ℤ) := by
  obtain ⟨y, hy⟩ := quad_num h
  refine ⟨y, hy, ?_⟩
  obtain ⟨-, ⟨-, hx⟩ | ⟨h0, hx⟩⟩ := ieee_num hy
  · exact lt_of_le_of_lt (le_abs_self y) (sub_abs hx).2
  · rw [hs.resolve_right h0, if_pos rfl, neg_one_mul] at hx
    rw [hx]
    have h1 : (0 : ℚ) < (2 ^ 112 + fMan 112 b) * 2 ^ ((fExp 15 112 b : ℤ) - (2 ^ (15 - 1) - 1) - (112 : ℕ)) := by positivity
    have h2 : (0 : ℚ) < 2 ^ (-16382 : ℤ) := by positivity
    linarith

theorem quad_least {b : ℕ} (hm : fMan 112 b = 0x4000) (he : fExp 15 112 b = 0) (hs : fSign 15 112 b = false) :
    ∃ x : ℚ, 0 < x ∧ x < 2 ^ (-16382 : ℤ) ∧ ieee 15 112 b = .num x := by
  have e : ieee 15 112 b = .num (1 * ((0x4000 : ℕ) * 2 ^ ((2 : ℤ) - 2 ^ (15 - 1) - (112 : ℕ)))) := by
    rw [ieee_eq, if_neg (by rw [he]; decide), if_pos he, hm, hs, if_neg (by decide)]
  refine ⟨_, by positivity, ?_, e⟩
  obtain ⟨y, hy, h2⟩ := quad_small (b := b) (by rw [he]; decide) (.inr he)
  rw [e] at hy
  exact (XNum.num.inj hy) ▸ h2

/-- **C138**, literals read as written or cut to 64 bits: of `float128_trait` only the sizes, the exponents and, as written,
`two_h` are right. `ninfinity_h`, `pinfinity_h` and `nan_h` are numbers, `one_h` is negative or subnormal, `max_h`, `lowest_h` and
`min_h` are the same positive subnormal number; the initialiser of `signbit` is undefined, and the assertions of
itest_anyvsreallimit.cpp fail. -/
theorem C138_quad_wrong (sb : ℕ) {lit : ℕ → ℕ} (hl : lit = id ∨ lit = (· % 2 ^ 64)) :
    let q := FTrait.quad lit sb
    (∃ x y z : ℚ, ieee 15 112 q.ninf = .num x ∧ ieee 15 112 q.pinf = .num y ∧ ieee 15 112 q.nan = .num z) ∧
    (∃ x : ℚ, ieee 15 112 q.one = .num x ∧ x < 2 ^ (-16382 : ℤ)) ∧
    (ieee 15 112 q.two = .num 2 ↔ lit = id) ∧
    (∃ x : ℚ, 0 < x ∧ x < 2 ^ (-16382 : ℤ) ∧ ieee 15 112 q.max = .num x ∧ ieee 15 112 q.lowest = .num x ∧ ieee 15 112 q.min = .num x) ∧
    FTrait.quadSignbit = .error .shiftAmount ∧ q.sameAsAny = false ∧
    q.eb = (FTrait.any 15 112).eb ∧ q.fb = (FTrait.any 15 112).fb ∧ q.dataBits = (FTrait.any 15 112).dataBits ∧
    q.bias = (FTrait.any 15 112).bias ∧ q.expMax = (FTrait.any 15 112).expMax ∧ q.expMask = (FTrait.any 15 112).expMask := by
  intro q
  rcases hl with rfl | rfl
  · obtain ⟨x, hx⟩ := quad_num (b := q.ninf) (by decide +kernel : fExp 15 112 (FTrait.quad id 0).ninf ≠ 2 ^ 15 - 1)
    obtain ⟨y, hy⟩ := quad_num (b := q.pinf) (by decide +kernel : fExp 15 112 (FTrait.quad id 0).pinf ≠ 2 ^ 15 - 1)
    obtain ⟨z, hz⟩ := quad_num (b := q.nan) (by decide +kernel : fExp 15 112 (FTrait.quad id 0).nan ≠ 2 ^ 15 - 1)
    refine ⟨⟨x, y, z, hx, hy, hz⟩, quad_small (b := q.one) (by decide +kernel : fExp 15 112 (FTrait.quad id 0).one ≠ 2 ^ 15 - 1)
      (.inl (by decide +kernel : fSign 15 112 (FTrait.quad id 0).one = true)), ?_, ?_, by decide +kernel, ?_, rfl,
      rfl, rfl, rfl, rfl, rfl⟩
    · refine ⟨fun _ => rfl, fun _ => ?_⟩
      have := (C51_constants (eb := 15) (fb := 112) (dn := true) (by decide) (by decide)).2.1
      rwa [show (FTrait.any 15 112 true).two = q.two from (by decide +kernel : (FTrait.any 15 112 true).two = (FTrait.quad id 0).two)] at this
    · obtain ⟨x, h1, h2, h3⟩ := quad_least (b := q.max) (by decide +kernel : fMan 112 (FTrait.quad id 0).max = 0x4000)
        (by decide +kernel : fExp 15 112 (FTrait.quad id 0).max = 0) (by decide +kernel : fSign 15 112 (FTrait.quad id 0).max = false)
      exact ⟨x, h1, h2, h3, h3, h3⟩
    · exact (by decide +kernel : (FTrait.quad id 0).sameAsAny = false)
  · obtain ⟨x, hx⟩ := quad_num (b := q.ninf) (by decide +kernel : fExp 15 112 (FTrait.quad (· % 2 ^ 64) 0).ninf ≠ 2 ^ 15 - 1)
    obtain ⟨y, hy⟩ := quad_num (b := q.pinf) (by decide +kernel : fExp 15 112 (FTrait.quad (· % 2 ^ 64) 0).pinf ≠ 2 ^ 15 - 1)
    obtain ⟨z, hz⟩ := quad_num (b := q.nan) (by decide +kernel : fExp 15 112 (FTrait.quad (· % 2 ^ 64) 0).nan ≠ 2 ^ 15 - 1)
    refine ⟨⟨x, y, z, hx, hy, hz⟩, quad_small (b := q.one) (by decide +kernel : fExp 15 112 (FTrait.quad (· % 2 ^ 64) 0).one ≠ 2 ^ 15 - 1)
      (.inr (by decide +kernel : fExp 15 112 (FTrait.quad (· % 2 ^ 64) 0).one = 0)), ?_, ?_, by decide +kernel, ?_, rfl,
      rfl, rfl, rfl, rfl, rfl⟩
    · refine ⟨fun h => ?_, fun h => ?_⟩
      · obtain ⟨y, hy, hl⟩ := quad_small (b := q.two) (by decide +kernel : fExp 15 112 (FTrait.quad (· % 2 ^ 64) 0).two ≠ 2 ^ 15 - 1)
          (.inr (by decide +kernel : fExp 15 112 (FTrait.quad (· % 2 ^ 64) 0).two = 0))
        rw [h] at hy
        have h1 : (2 : ℚ) < 2 ^ (-16382 : ℤ) := (XNum.num.inj hy) ▸ hl
        have h2 : (2 : ℚ) ^ (-16382 : ℤ) ≤ 2 ^ (0 : ℤ) := zpow_le_zpow_right₀ (by norm_num) (by norm_num)
        rw [zpow_zero] at h2
        linarith
      · exact absurd (congrFun h (2 ^ 64)) (by decide +kernel)
    · obtain ⟨x, h1, h2, h3⟩ := quad_least (b := q.max) (by decide +kernel : fMan 112 (FTrait.quad (· % 2 ^ 64) 0).max = 0x4000)
        (by decide +kernel : fExp 15 112 (FTrait.quad (· % 2 ^ 64) 0).max = 0) (by decide +kernel : fSign 15 112 (FTrait.quad (· % 2 ^ 64) 0).max = false)
      exact ⟨x, h1, h2, h3, h3, h3⟩
    · exact (by decide +kernel : (FTrait.quad (· % 2 ^ 64) 0).sameAsAny = false)

example : (FTrait.quad id 0).two = (FTrait.any 15 112).two ∧ (FTrait.quad id 0).one ≠ (FTrait.any 15 112).one ∧
    (FTrait.quad (· % 2 ^ 64) 0).two = 0 ∧ (FTrait.quad (· % 2 ^ 64) 0).one = 2 ^ 63 := by decide +kernel

/-- **C138**: tests/itest_lowlimits.cpp prints the constants of the formats of at most 64 bits. -/
theorem C138_printed (heb : 2 ≤ eb) (hfb : 1 ≤ fb) (h : eb + fb + 1 ≤ 64) :
    let t := FTrait.any eb fb
    FTrait.lowlimits eb fb = [t.one, t.two, t.max, t.min, t.nan, t.pinf] := by
  intro t
  have h3 := two_le_pow heb
  have h2 := two_pow_pred_nat (w := eb) (by omega)
  have hp := Nat.one_le_two_pow (n := fb)
  have hq : 2 ^ (eb + fb + 1) ≤ 2 ^ 64 := Nat.pow_le_pow_right (by norm_num) h
  have small : ∀ x m : ℕ, x < 2 ^ eb → m < 2 ^ fb → fJoin eb fb false x m % 2 ^ 64 = fJoin eb fb false x m := fun x m hx hm =>
    Nat.mod_eq_of_lt (lt_of_lt_of_le (fJoin_lt hx hm) hq)
  have j0 : ∀ x, fJoin eb fb false x 0 = x <<< fb := fun x => by unfold fJoin; rw [Nat.shiftLeft_eq]; simp
  have e1 : t.one = fJoin eb fb false (2 ^ (eb - 1) - 1) 0 := (j0 _).symm
  have e2 : t.two = fJoin eb fb false (2 ^ (eb - 1)) 0 := by
    rw [j0]
    show 1 <<< (eb - 1 + fb) = _
    rw [Nat.shiftLeft_eq, Nat.shiftLeft_eq, pow_add, one_mul]
  have e3 : t.max = fJoin eb fb false (2 ^ eb - 2) (2 ^ fb - 1) := by simpa using any_max (fb := fb) (dn := true) heb false
  have e4 : t.min = fJoin eb fb false 1 0 := (j0 _).symm
  have e5 : t.nan = fJoin eb fb false (2 ^ eb - 1) (2 ^ (fb - 1)) := any_nan hfb
  have e6 : t.pinf = fJoin eb fb false (2 ^ eb - 1) 0 := by simpa using any_inf (fb := fb) (dn := true) heb false
  have hf := two_pow_pred_nat (w := fb) hfb
  have hf1 := Nat.one_le_two_pow (n := fb - 1)
  show [t.one, t.two, t.max, t.min, t.nan, t.pinf].map (· % 2 ^ 64) = _
  simp only [List.map_cons, List.map_nil]
  rw [e1, e2, e3, e4, e5, e6, small _ _ (by omega) (by omega), small _ _ (by omega) (by omega), small _ _ (by omega) (by omega),
    small _ _ (by omega) (by omega), small _ _ (by omega) (by omega), small _ _ (by omega) (by omega)]

example : FTrait.lowlimits 8 7 = [0x3f80, 0x4000, 0x7f7f, 0x80, 0x7fc0, 0x7f80] := by decide +kernel

/-- **C138**: of the constants of the 128-bit format it prints only zeros, and ones for the greatest number. -/
theorem C138_printed_wrong : FTrait.lowlimits 15 112 = [0, 0, 0xffffffffffffffff, 0, 0, 0] := by decide +kernel

end Verif
