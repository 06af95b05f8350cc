import Verif.Lemmas.NoDenorm

/-! # Float formats declared without subnormals (C87)

`bfloat16_trait` sets `with_denorm` to false. Reading such a format takes subnormals for zero; writing it creates them, and
writing the formats that have subnormals does not: the flag is applied the wrong way round in `pack_xfloati`.
-/

namespace Verif
open Fmt

variable {F eb fb eb1 fb1 eb2 fb2 eb3 fb3 : ℕ} {dn dn1 dn3 : Bool}

/-- **C87**, reading: a subnormal of a format declared without them is zero in every other format. -/
theorem C87_read_subnormal (heb1 : 2 ≤ eb1) (heb1' : eb1 ≤ 16) (hfb1 : 1 ≤ fb1) (hF : 1 ≤ F) {b : ℕ} {x : ℚ}
    (hx : ieee eb1 fb1 b = .num x) (hs : |x| < minNorm eb1) :
    convVia F (.any eb1 fb1 false) (.any eb2 fb2 dn) b = .ok 0 := by
  have h0 : fExp eb1 fb1 b = 0 := by
    obtain ⟨-, ⟨h, -⟩ | ⟨h, hv⟩⟩ := ieee_num hx
    · exact h
    · exfalso
      have h1' : (1 : ℤ) ≤ fExp eb1 fb1 b := by omega
      have : minNorm eb1 ≤ |x| := by
        rw [hv, abs_sign_mul _ (by positivity)]
        calc minNorm eb1 ≤ 2 ^ ((fExp eb1 fb1 b : ℤ) - (2 ^ (eb1 - 1) - 1)) := by
              unfold minNorm; exact zpow_le_zpow_right₀ (by norm_num) (by omega)
          _ = 2 ^ fb1 * 2 ^ ((fExp eb1 fb1 b : ℤ) - (2 ^ (eb1 - 1) - 1) - fb1) := by
              rw [← zpow_natCast, ← zpow_add₀ (by norm_num)]; congr 1; omega
          _ ≤ _ := by
              apply mul_le_mul_of_nonneg_right _ (by positivity)
              linarith [show (0 : ℚ) ≤ fMan fb1 b by positivity]
      linarith
  obtain ⟨e, f, h⟩ := unpackFloat_zero (F := F) (E := 32) (dn := false) heb1 hfb1 hF (by omega) h0 (Or.inl rfl)
  unfold convVia
  rw [h]
  rfl

/-- the bfloat16 `2^-127` -/
example : ieee 8 7 0x40 = .num (2 ^ (-127 : ℤ)) ∧ |(2 : ℚ) ^ (-127 : ℤ)| < minNorm 8 ∧ convertFloats .bfloat16 .single 0x40 = .ok 0 :=
  ⟨by norm_num [ieee], by norm_num [minNorm, abs_of_pos], by decide +kernel⟩

/-- the exponent field of everything but zeros and subnormals -/
theorem fExp_ne_zero (heb : 2 ≤ eb) {b : ℕ} (h : ∀ x, ieee eb fb b = .num x → minNorm eb ≤ |x|) : fExp eb fb b ≠ 0 := by
  intro h0
  by_cases h2 : fExp eb fb b = 2 ^ eb - 1
  · have : 2 ^ 2 ≤ 2 ^ eb := Nat.pow_le_pow_right (by norm_num) heb
    omega
  · have := h _ (by rw [ieee_eq, if_neg h2, if_pos h0])
    exact absurd (sub_abs rfl).2 (not_lt.mpr this)

/-- **C87**, reading: everything but zeros and subnormals is read as by a format with subnormals. -/
theorem C87_read (heb1 : 2 ≤ eb1) (heb1' : eb1 ≤ 16) (hfb1 : 1 ≤ fb1) (hF : 1 ≤ F) {b : ℕ}
    (hx : ∀ x, ieee eb1 fb1 b = .num x → minNorm eb1 ≤ |x|) :
    convVia F (.any eb1 fb1 false) (.any eb2 fb2 dn) b = convVia F (.any eb1 fb1 true) (.any eb2 fb2 dn) b := by
  unfold convVia
  rw [unpackFloat_flag heb1 hfb1 hF (by omega) (fExp_ne_zero heb1 hx)]

/-- the bfloat16 3.140625 -/
example : ieee 8 7 0x4049 = .num (201 / 64) ∧ minNorm 8 ≤ |(201 / 64 : ℚ)| ∧ convertFloats .bfloat16 .single 0x4049 = .ok 0x40490000 ∧
    convertFloats (.any 8 7 true) .single 0x4049 = .ok 0x40490000 :=
  ⟨by norm_num [ieee], by norm_num [minNorm, abs_of_pos], by decide +kernel, by decide +kernel⟩

/-- **C87**, writing, the complete outcome for a number `x ≠ 0`: from the shift width on it is undefined; otherwise the result is
`x` rounded toward zero, subnormals included, except that the formats of 32 or more bits make a negative number that would
vanish the least negative one. -/
theorem C87_write (heb1 : 2 ≤ eb1) (heb1' : eb1 ≤ 16) (hfb1 : 1 ≤ fb1) (hfb1' : fb1 ≤ 2 ^ 20) (heb2 : 2 ≤ eb2) (heb2' : eb2 ≤ 16)
    (hfb2 : 1 ≤ fb2) (hF : fb2 ≤ F) {b : ℕ} {x : ℚ} (hx : ieee eb1 fb1 b = .num x) (hx0 : x ≠ 0)
    (hc : minNorm eb1 ≤ |x| ∨ (dn1 = true ∧ fb1 < F)) :
    ((2 : ℚ) ^ ((2 : ℤ) - 2 ^ (eb2 - 1) - pw (eb2 + fb2 + 1)) ≤ |x| →
      ∃ r, convVia F (.any eb1 fb1 dn1) (.any eb2 fb2 false) b = .ok r ∧ r < 2 ^ (eb2 + fb2 + 1) ∧
        (¬ (x < 0 ∧ |x| < minSub eb2 fb2 ∧ 32 ≤ eb2 + fb2 + 1) → IsTowardZero eb2 fb2 x r) ∧
        (x < 0 → |x| < minSub eb2 fb2 → 32 ≤ eb2 + fb2 + 1 → ieee eb2 fb2 r = .num (-minSub eb2 fb2))) ∧
    (|x| < (2 : ℚ) ^ ((2 : ℤ) - 2 ^ (eb2 - 1) - pw (eb2 + fb2 + 1)) →
      convVia F (.any eb1 fb1 dn1) (.any eb2 fb2 false) b = .error .shiftAmount) := by
  have two : (1 : ℚ) < 2 := by norm_num
  have hflag : Unp.unpackFloat F 32 (.any eb1 fb1 dn1) b = Unp.unpackFloat F 32 (.any eb1 fb1 true) b := by
    cases dn1
    · rcases hc with hc | hc
      · exact unpackFloat_flag heb1 hfb1 (by omega) (by omega) (fExp_ne_zero heb1 (fun y hy => by
          rw [hx] at hy; cases hy; exact hc))
      · exact absurd hc.1 (by simp)
    · rfl
  unfold convVia
  rw [hflag]
  rcases unpack_num heb1 heb1' hfb1 hfb1' (by omega) hx (Or.inr (hc.imp_right And.right)) with ⟨h0, -⟩ |
    ⟨-, s, e, f, hu, k2, k3, k4, k5, k6, -⟩
  · exact absurd h0 hx0
  rw [hu]
  have hlow : (2 : ℚ) ^ e ≤ |x| := by
    refine le_trans ?_ k5
    unfold mag
    have : (0 : ℚ) < 2 ^ e := by positivity
    have : (0 : ℚ) ≤ f / 2 ^ F := by positivity
    nlinarith
  have hup : |x| < 2 ^ (e + 1) := by
    refine lt_of_lt_of_le k6 ?_
    have hFp : (0 : ℚ) < 2 ^ F := by positivity
    unfold mag
    rw [zpow_add₀ (by norm_num) e 1, zpow_one, zpow_sub₀ (by norm_num), zpow_natCast, div_eq_mul_inv (2 ^ e : ℚ), ← mul_add]
    apply mul_le_mul_of_nonneg_left _ (by positivity)
    have : (f : ℚ) + 1 ≤ 2 ^ F := by exact_mod_cast k2
    have h3 : (f : ℚ) / 2 ^ F + (2 ^ F)⁻¹ ≤ 1 := by
      rw [← one_div, ← add_div, div_le_one hFp]; exact this
    linarith
  rcases pack_noDenorm (eb := eb2) (fb := fb2) heb2 heb2' hfb2 hF k2 k3 k4 k5 k6 with ⟨h1, r, h2, h3, h4, h5⟩ | ⟨h1, h2⟩
  · refine ⟨fun _ => ⟨r, h2, h3, h4, h5⟩, fun hlt => ?_⟩
    exfalso
    have := (zpow_lt_zpow_iff_right₀ two).mp (lt_of_le_of_lt hlow hlt)
    omega
  · refine ⟨fun hle => ?_, fun _ => h2⟩
    exfalso
    have := (zpow_lt_zpow_iff_right₀ two).mp (lt_of_le_of_lt hle hup)
    omega

/-- the float `3 * 2^-128` as a subnormal bfloat16 -/
example : ieee 8 23 0x00600000 = .num (3 * 2 ^ (-128 : ℤ)) ∧ convertFloats .single .bfloat16 0x00600000 = .ok 0x60 ∧
    ieee 8 7 0x60 = .num (3 * 2 ^ (-128 : ℤ)) ∧ (2 : ℚ) ^ ((2 : ℤ) - 2 ^ (8 - 1) - pw (8 + 7 + 1)) ≤ |3 * 2 ^ (-128 : ℤ)| := by
  refine ⟨by norm_num [ieee], by decide +kernel, by norm_num [ieee], ?_⟩
  rw [show pw (8 + 7 + 1) = 32 by decide +kernel]
  norm_num [abs_of_pos]

/-- what IEEE 754 calls rounding toward zero determines the number -/
theorem IsTowardZero.unique {x : ℚ} {b b' : ℕ} (h : IsTowardZero eb fb x b) (h' : IsTowardZero eb fb x b') (hx : x ≠ 0) :
    ieee eb fb b = ieee eb fb b' := by
  obtain ⟨y, hy, a1, a2, a3⟩ := h
  obtain ⟨y', hy', b1, b2, b3⟩ := h'
  rw [hy, hy']
  congr 1
  have e : |y| = |y'| := le_antisymm (b3 _ _ hy a2) (a3 _ _ hy' b2)
  rcases abs_eq_abs.mp e with e | e
  · exact e
  · rw [e] at a1
    have : x * y' = 0 := by linarith
    rcases mul_eq_zero.mp this with h | h
    · exact absurd h hx
    · rw [e, h, neg_zero]

/-- **C87** does not hold for the consistency of the two directions: a number between the least subnormal and the least normal
number of a format declared without subnormals is written as a subnormal, which is read back as zero. -/
theorem C87_roundtrip_wrong (heb1 : 2 ≤ eb1) (heb1' : eb1 ≤ 16) (hfb1 : 1 ≤ fb1) (hfb1' : fb1 ≤ 2 ^ 20) (heb2 : 2 ≤ eb2)
    (heb2' : eb2 ≤ 16) (hfb2 : 1 ≤ fb2) {b : ℕ} {x : ℚ} (hx : ieee eb1 fb1 b = .num x) (h1 : minSub eb2 fb2 ≤ |x|)
    (h2 : |x| < minNorm eb2) (hc : minNorm eb1 ≤ |x| ∨ dn1 = true) :
    ∃ r y, convertFloats (.any eb1 fb1 dn1) (.any eb2 fb2 false) b = .ok r ∧ ieee eb2 fb2 r = .num y ∧ y ≠ 0 ∧
      |y| < minNorm eb2 ∧ IsTowardZero eb2 fb2 x r ∧ convertFloats (.any eb2 fb2 false) (.any eb3 fb3 dn3) r = .ok 0 := by
  have hp0 := minSub_pos (eb := eb2) (fb := fb2)
  have hx0 : x ≠ 0 := by
    rintro rfl
    rw [abs_zero] at h1; linarith
  have hle : (2 : ℚ) ^ ((2 : ℤ) - 2 ^ (eb2 - 1) - pw (eb2 + fb2 + 1)) ≤ |x| := by
    refine le_trans ?_ h1
    unfold minSub
    apply zpow_le_zpow_right₀ (by norm_num)
    have := le_pw (eb2 + fb2 + 1)
    omega
  have hFm : fb1 < max (eb1 + fb1 + 1) (eb2 + fb2 + 1) := lt_of_lt_of_le (by omega : fb1 < eb1 + fb1 + 1) (le_max_left _ _)
  have hFm2 : fb2 ≤ max (eb1 + fb1 + 1) (eb2 + fb2 + 1) := le_trans (by omega : fb2 ≤ eb2 + fb2 + 1) (le_max_right _ _)
  obtain ⟨r, g1, -, g3, -⟩ := (C87_write (F := max (eb1 + fb1 + 1) (eb2 + fb2 + 1)) heb1 heb1' hfb1 hfb1' heb2 heb2' hfb2 hFm2 hx hx0
    (hc.imp_right fun h => ⟨h, hFm⟩)).1 hle
  have htz := g3 (fun h => by linarith [h.2.1])
  obtain ⟨y, hy, a1, a2, a3⟩ := id htz
  refine ⟨r, y, g1, hy, ?_, lt_of_le_of_lt a2 h2, htz, C87_read_subnormal heb2 heb2' hfb2
    (le_trans (by omega : 1 ≤ eb2 + fb2 + 1) (le_max_left _ _)) hy (lt_of_le_of_lt a2 h2)⟩
  have h1lt : 1 < 2 ^ fb2 := by
    calc 1 < 2 ^ 1 := by norm_num
      _ ≤ 2 ^ fb2 := Nat.pow_le_pow_right (by norm_num) hfb2
  have h5 := a3 _ _ (ieee_sub (s := false) (by omega : 1 ≤ eb2) h1lt) (by
    rw [abs_sign_mul _ (by positivity)]; simpa using h1)
  rw [abs_sign_mul _ (by positivity)] at h5
  rintro rfl
  rw [abs_zero] at h5
  push_cast at h5
  linarith

example : ieee 8 23 0x00600000 = .num (3 * 2 ^ (-128 : ℤ)) ∧ minSub 8 7 ≤ |(3 : ℚ) * 2 ^ (-128 : ℤ)| ∧
    |(3 : ℚ) * 2 ^ (-128 : ℤ)| < minNorm 8 ∧ convertFloats .single .bfloat16 0x00600000 = .ok 0x60 ∧
    convertFloats .bfloat16 .single 0x60 = .ok 0 := by
  refine ⟨by norm_num [ieee], ?_, ?_, by decide +kernel, by decide +kernel⟩ <;> norm_num [minSub, minNorm, abs_of_pos]

/-- **C87** for the one format of the library without subnormals: every `float` that is a number is written as `bfloat16`
without undefined behaviour, rounded toward zero. -/
theorem C87_bfloat16 {b : ℕ} {x : ℚ} (hx : ieee 8 23 b = .num x) :
    ∃ r, convertFloats .single .bfloat16 b = .ok r ∧ r < 2 ^ 16 ∧ IsTowardZero 8 7 x r := by
  rcases eq_or_ne x 0 with rfl | hx0
  · rcases unpack_num (F := 32) (by norm_num) (by norm_num) (by norm_num) (by norm_num) (by norm_num) hx (Or.inl rfl) with
      ⟨-, e, f, hu⟩ | ⟨h, -⟩
    · refine ⟨0, ?_, by norm_num, 0, ?_, by simp, by simp, fun g z _ hz => hz⟩
      · show convVia 32 (.any 8 23 true) (.any 8 7 false) b = _
        unfold convVia
        rw [hu]; rfl
      · rcases ieee_zero (eb := 8) (fb := 7) with h | h
        · exact h
        · omega
    · exact absurd rfl h
  · have hmin : (2 : ℚ) ^ (-149 : ℤ) ≤ |x| := by
      obtain ⟨k, hk⟩ := ieee_multiple hx
      have hk0 : k ≠ 0 := by
        rintro rfl
        rw [Nat.cast_zero, zero_mul] at hk
        exact hx0 (abs_eq_zero.mp hk)
      have : (1 : ℚ) ≤ k := by exact_mod_cast Nat.one_le_iff_ne_zero.mpr hk0
      have e : minSub 8 23 = 2 ^ (-149 : ℤ) := by unfold minSub; congr 1
      rw [hk, e]
      have : (0 : ℚ) < 2 ^ (-149 : ℤ) := by positivity
      nlinarith
    obtain ⟨r, g1, g2, g3, -⟩ := (C87_write (F := 32) (dn1 := true) (eb2 := 8) (fb2 := 7) (by norm_num) (by norm_num) (by norm_num)
      (by norm_num) (by norm_num) (by norm_num) (by norm_num) (by norm_num) hx hx0 (Or.inr ⟨rfl, by norm_num⟩)).1
      (le_trans (zpow_le_zpow_right₀ (by norm_num) (by decide)) hmin)
    exact ⟨r, g1, g2, g3 (fun h => by omega)⟩

/-- -pi -/
example : ieee 8 23 0xc0490fdb = .num (-13176795 / 2 ^ 22) ∧ convertFloats .single .bfloat16 0xc0490fdb = .ok 0xc049 ∧
    ieee 8 7 0xc049 = .num (-201 / 64) :=
  ⟨by norm_num [ieee], by decide +kernel, by norm_num [ieee]⟩

/-- … but a `double` below `2^-158` is shifted by 32 or more bits. -/
theorem C87_bfloat16_double_ub {b : ℕ} {x : ℚ} (hx : ieee 11 52 b = .num x) (hx0 : x ≠ 0) (hlt : |x| < 2 ^ (-158 : ℤ)) :
    convertFloats .double .bfloat16 b = .error .shiftAmount :=
  (C87_write (F := 64) (dn1 := true) (eb2 := 8) (fb2 := 7) (by norm_num) (by norm_num) (by norm_num)
      (by norm_num) (by norm_num) (by norm_num) (by norm_num) (by norm_num) hx hx0 (Or.inr ⟨rfl, by norm_num⟩)).2
      (lt_of_lt_of_le hlt (zpow_le_zpow_right₀ (by norm_num) (by decide)))

/-- 2^-127 and -2^-140 become bfloat16 subnormals and -0, reading them back gives zero; 2^-159 is undefined; a 32-bit format
without subnormals makes -2^-200 its least negative number -/
example : convertFloats .single .bfloat16 0x00400000 = .ok 0x0040 ∧ convertFloats .single .bfloat16 0x80000200 = .ok 0x8000 ∧
    convertFloats .bfloat16 .single 0x0040 = .ok 0 ∧ convertFloats .double .bfloat16 0x3600000000000000 = .error .shiftAmount ∧
    convertFloats (.any 11 52) (.any 8 23 false) 0xb690000000000000 = .ok 0x80000001 ∧
    convertFloats .bfloat16 .single 0x4049 = .ok 0x40490000 := by
  decide +kernel

example : ieee 8 23 0x00400000 = .num (2 ^ (-127 : ℤ)) ∧ minSub 8 7 ≤ |(2 : ℚ) ^ (-127 : ℤ)| ∧ |(2 : ℚ) ^ (-127 : ℤ)| < minNorm 8 ∧
    ieee 11 52 0x3600000000000000 = .num (2 ^ (-159 : ℤ)) := by
  norm_num [ieee, minNorm, minSub, abs_of_pos]

end Verif
