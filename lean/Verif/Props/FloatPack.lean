import Verif.Props.Float

/-! # Conversion to IEEE floats and back (C23, C33) -/

namespace Verif
open Fmt

variable {c : Cfg} {F E eb fb : ℕ} {dn : Bool}

/-! ## C23 -/

/-- `ieee` of the pattern `pack_xfloati` builds in the normal range -/
theorem join_value (heb : 2 ≤ eb) {s : Bool} {e : ℤ} {f x : ℕ}
    (hf : f < 2 ^ F) (hx : e + (2 ^ (eb - 1) - 1) = x) (h1 : 1 ≤ x) (h2 : x + 2 ≤ 2 ^ eb)
    (hd : F ≤ fb ∨ 2 ^ (F - fb) ∣ f) :
    ieee eb fb (fJoin eb fb s x (if fb < F then f / 2 ^ (F - fb) else f * 2 ^ (fb - F))) = .num (tripleVal F s e f) := by
  have hm : (if fb < F then f / 2 ^ (F - fb) else f * 2 ^ (fb - F)) < 2 ^ fb := by
    split_ifs with h
    · rw [Nat.div_lt_iff_lt_mul (by positivity), ← pow_add, show fb + (F - fb) = F by omega]; exact hf
    · calc f * 2 ^ (fb - F) < 2 ^ F * 2 ^ (fb - F) := Nat.mul_lt_mul_of_pos_right hf (by positivity)
        _ = 2 ^ fb := by rw [← pow_add]; congr 1; omega
  rw [ieee_join hm h1 h2]
  congr 1
  unfold tripleVal
  congr 1
  have he : (x : ℤ) - (2 ^ (eb - 1) - 1) = e := by omega
  rw [he, zpow_sub₀ (by norm_num), zpow_natCast]
  split_ifs with h
  · rcases hd with hd | ⟨g, rfl⟩
    · omega
    · rw [Nat.mul_div_cancel_left _ (by positivity)]
      have : (2 : ℚ) ^ F = 2 ^ (F - fb) * 2 ^ fb := by rw [← pow_add]; congr 1; omega
      rw [this]
      push_cast
      field_simp
  · have : (2 : ℚ) ^ fb = 2 ^ (fb - F) * 2 ^ F := by rw [← pow_add]; congr 1; omega
    rw [this]
    push_cast
    field_simp

/-- **C23**, objects: a number whose exponent is in the normal range and whose fraction fits is packed exactly. Missing: an
exponent type as narrow as the exponent field (`C23_float_wrong`). -/
theorem C23_packFloat_partial (heb : 2 ≤ eb) (heb30 : eb ≤ 30) (hfb : 1 ≤ fb) (hF : 1 ≤ F)
    (hE : eb < max E (Unp.leastBits eb)) {s : Bool} {e : ℤ} {f : ℕ} (hf : f < 2 ^ F)
    (he1 : 2 - 2 ^ (eb - 1) ≤ e) (he2 : e ≤ 2 ^ (eb - 1) - 1) (hd : F ≤ fb ∨ 2 ^ (F - fb) ∣ f) :
    ∃ b, Unp.packFloat F E (.any eb fb dn) ⟨.regular, s, e, f⟩ = .ok b ∧ b < 2 ^ (eb + fb + 1) ∧
      ieee eb fb b = .num (tripleVal F s e f) := by
  have hh := pow_half (eb := eb) (by omega)
  obtain ⟨x, hx⟩ := Int.eq_ofNat_of_zero_le (show 0 ≤ e + (2 ^ (eb - 1) - 1) by omega)
  have h2n : x + 2 ≤ 2 ^ eb := by
    have : (x : ℤ) + 2 ≤ 2 ^ eb := by omega
    exact_mod_cast this
  have hm : (if fb < F then f / 2 ^ (F - fb) else f * 2 ^ (fb - F)) < 2 ^ fb := by
    split_ifs with h
    · rw [Nat.div_lt_iff_lt_mul (by positivity), ← pow_add, show fb + (F - fb) = F by omega]; exact hf
    · calc f * 2 ^ (fb - F) < 2 ^ F * 2 ^ (fb - F) := Nat.mul_lt_mul_of_pos_right hf (by positivity)
        _ = 2 ^ fb := by rw [← pow_add]; congr 1; omega
  refine ⟨_, packFloat_normal heb hfb hF heb30 hf hx (by omega) h2n hE, fJoin_lt (by omega) hm, ?_⟩
  exact join_value heb hf hx (by omega) h2n hd

/-- -3.14 with 16 fraction bits as a float -/
example : 8 < max 32 (Unp.leastBits 8) ∧ 16 ≤ 23 ∧
    Unp.packFloat 16 32 .single ⟨.regular, true, 1, 37421⟩ = .ok 0xc0491680 := by
  decide +kernel

/-- **C23**, objects: without the condition on the fraction the result is the number truncated to the float's precision. -/
theorem C23_packFloat_trunc (heb : 2 ≤ eb) (heb30 : eb ≤ 30) (hfb : 1 ≤ fb) (hF : 1 ≤ F)
    (hE : eb < max E (Unp.leastBits eb)) {s : Bool} {e : ℤ} {f : ℕ} (hf : f < 2 ^ F)
    (he1 : 2 - 2 ^ (eb - 1) ≤ e) (he2 : e ≤ 2 ^ (eb - 1) - 1) :
    ∃ b m, Unp.packFloat F E (.any eb fb dn) ⟨.regular, s, e, f⟩ = .ok b ∧
      ieee eb fb b = .num ((if s then -1 else 1 : ℚ) * m) ∧ m ≤ mag F e f ∧ mag F e f < m + 2 ^ (e - fb) := by
  have hh := pow_half (eb := eb) (by omega)
  obtain ⟨x, hx⟩ := Int.eq_ofNat_of_zero_le (show 0 ≤ e + (2 ^ (eb - 1) - 1) by omega)
  have h2n : x + 2 ≤ 2 ^ eb := by
    have : (x : ℤ) + 2 ≤ 2 ^ eb := by omega
    exact_mod_cast this
  have hm : (if fb < F then f / 2 ^ (F - fb) else f * 2 ^ (fb - F)) < 2 ^ fb := by
    split_ifs with h
    · rw [Nat.div_lt_iff_lt_mul (by positivity), ← pow_add, show fb + (F - fb) = F by omega]; exact hf
    · calc f * 2 ^ (fb - F) < 2 ^ F * 2 ^ (fb - F) := Nat.mul_lt_mul_of_pos_right hf (by positivity)
        _ = 2 ^ fb := by rw [← pow_add]; congr 1; omega
  refine ⟨_, _, packFloat_normal heb hfb hF heb30 hf hx (by omega) h2n hE, ieee_join hm (by omega) h2n, ?_⟩
  have he : (x : ℤ) - (2 ^ (eb - 1) - 1) = e := by omega
  rw [he]
  have hf1 : 2 ^ F ≤ 2 ^ F + f := by omega
  -- the `F`-bit fraction truncated to `fb` bits
  have hfr : (if fb < F then f / 2 ^ (F - fb) else f * 2 ^ (fb - F)) = fracOf fb F (2 ^ F + f) := by
    unfold fracOf
    rw [Nat.add_sub_cancel_left]
    split_ifs with a b b
    · omega
    · rfl
    · rfl
    · omega
  rw [hfr]
  obtain ⟨_, b1, b2⟩ := fracOf_unit (F := fb) hf1 (e - F)
  have e1 : ((2 ^ F + f : ℕ) : ℚ) * 2 ^ (e - F) = mag F e f := by
    unfold mag
    rw [zpow_sub₀ (by norm_num), zpow_natCast]
    push_cast; field_simp
  rw [e1, show e - (F : ℤ) + F - fb = e - fb by ring] at b1 b2
  push_cast at b1 b2
  constructor
  · linarith
  · linarith

/-- 64 fraction bits do not fit a double: the low 12 are dropped -/
example : 11 < max 64 (Unp.leastBits 11) ∧
    Unp.packFloat 64 64 .double ⟨.regular, false, 0, 2 ^ 64 - 1⟩ = .ok 0x3fffffffffffffff := by
  decide +kernel

/-- **C23**: numbers beyond the normal range saturate to the greatest finite float of their sign. -/
theorem C23_saturates (heb : 2 ≤ eb) (hfb : 1 ≤ fb) {s : Bool} {e : ℤ} {f : ℕ} (he : 2 ^ (eb - 1) - 1 < e)
    (hin : InS (max E (Unp.leastBits eb)) (e + (2 ^ (eb - 1) - 1))) : ∃ b,
    Unp.packFloat F E (.any eb fb dn) ⟨.regular, s, e, f⟩ = .ok b ∧ b < 2 ^ (eb + fb + 1) ∧
      ieee eb fb b = .num ((if s then -1 else 1 : ℚ) * ((2 - 1 / 2 ^ fb) * 2 ^ ((2 : ℤ) ^ (eb - 1) - 1))) := by
  refine ⟨if s then (FTrait.any eb fb dn).lowest else (FTrait.any eb fb dn).max, ?_, ?_, ?_⟩
  · rw [packFloat_any]
    simp only [bind, Except.bind, pure, Except.pure]
    generalize hEX : max E (Unp.leastBits eb) = EX at hin ⊢
    have hE1 : 1 ≤ EX := by
      rw [← hEX]
      have : 1 ≤ Unp.leastBits eb := by unfold Unp.leastBits; split_ifs <;> norm_num
      omega
    rw [arithS_ok' hin]
    simp only []
    rw [wrapS_of_inS hE1 hin]
    have hh := pow_half (eb := eb) (by omega)
    rw [if_pos (by omega)]
  · rw [any_max heb]
    exact fJoin_lt (by have := Nat.one_le_two_pow (n := eb); omega) (by have := Nat.one_le_two_pow (n := fb); omega)
  · obtain ⟨_, _, _, h4, h5, _⟩ := C51_constants (dn := dn) heb hfb
    cases s
    · simpa using h4
    · simpa using h5

/-- `-2^200` becomes the lowest float -/
example : Unp.packFloat 16 32 .single ⟨.regular, true, 200, 5⟩ = .ok 0xff7fffff := by
  decide +kernel

/-- **C23** does not hold below the normal range: with `with_denorm` set (half, float, double) every such number becomes +0,
even if it is a subnormal float. -/
theorem C23_underflow_zero (heb : 2 ≤ eb) {s : Bool} {e : ℤ} {f : ℕ} (he : e ≤ 1 - 2 ^ (eb - 1))
    (hin : InS (max E (Unp.leastBits eb)) (e + (2 ^ (eb - 1) - 1))) :
    Unp.packFloat F E (.any eb fb true) ⟨.regular, s, e, f⟩ = .ok 0 := by
  rw [packFloat_any]
  simp only [bind, Except.bind, pure, Except.pure]
  generalize hEX : max E (Unp.leastBits eb) = EX at hin ⊢
  have hE1 : 1 ≤ EX := by
    rw [← hEX]
    have : 1 ≤ Unp.leastBits eb := by unfold Unp.leastBits; split_ifs <;> norm_num
    omega
  rw [arithS_ok' hin]
  simp only []
  rw [wrapS_of_inS hE1 hin]
  have hh := pow_half (eb := eb) (by omega)
  have : (2 : ℤ) ≤ 2 ^ (eb - 1) := by exact_mod_cast two_le_pow heb
  rw [if_neg (by omega), if_pos (by simp; omega)]

/-- `-2^-130` is a float, but its conversion gives +0 -/
example : ieee 8 23 (2 ^ 31 + 2 ^ 19) = .num (tripleVal 32 true (-130) 0) ∧
    Unp.packFloat 32 32 .single ⟨.regular, true, -130, 0⟩ = .ok 0 := by
  refine ⟨?_, by decide +kernel⟩
  norm_num [ieee, tripleVal]

theorem leastBits_max {eb E : ℕ} (hE : eb < E) : eb < max E (Unp.leastBits eb) := lt_of_lt_of_le hE (le_max_left _ _)

/-- **C23**, posits: `(float)p` and `(double)p` (in general a float with `eb`/`fb` field sizes) is exactly the posit's number
when its exponent is in the normal range and the float has at least as many fraction bits. -/
theorem C23_toFloat_partial (h : c.WF) (hF : c.fb ≤ c.F) (heb : 2 ≤ eb) (heb30 : eb ≤ 30) (hfb : 1 ≤ fb) (hfb2 : c.fb ≤ fb)
    (hE : eb < max c.E (Unp.leastBits eb)) {v : ℤ} (hv : c.fmt.IsReal v) (h0 : v ≠ 0)
    (he1 : (2 : ℚ) ^ ((2 : ℤ) - 2 ^ (eb - 1)) ≤ |c.fmt.val v|) (he2 : |c.fmt.val v| < 2 ^ ((2 : ℤ) ^ (eb - 1))) :
    ∃ b, Posit.toFloat c (.any eb fb dn) v = .ok b ∧ b < 2 ^ (eb + fb + 1) ∧ ieee eb fb b = .num (c.fmt.val v) := by
  obtain ⟨e, f, hu⟩ := unpack_real h hv h0
  have two : (1 : ℚ) < 2 := by norm_num
  have h1 : 2 - 2 ^ (eb - 1) ≤ e := by
    have := (zpow_lt_zpow_iff_right₀ two).mp (lt_of_le_of_lt he1 hu.upper)
    omega
  have h2 : e ≤ 2 ^ (eb - 1) - 1 := by
    have := (zpow_lt_zpow_iff_right₀ two).mp (lt_of_le_of_lt hu.lower he2)
    omega
  have hd : c.F ≤ fb ∨ 2 ^ (c.F - fb) ∣ f := by
    by_cases hc : c.F ≤ fb
    · exact Or.inl hc
    · exact Or.inr (Dvd.dvd.trans (pow_dvd_pow _ (by omega)) (hu.dvd hF))
  obtain ⟨b, hb, hlt, hi⟩ := C23_packFloat_partial (dn := dn) (E := c.E) heb heb30 hfb (by have := h.hF; omega) hE
    (s := v < 0) hu.f_lt h1 h2 hd
  refine ⟨b, ?_, hlt, ?_⟩
  · unfold Posit.toFloat
    rw [hu.eq]; exact hb
  · rw [hi]
    congr 1
    unfold tripleVal
    have := hu.sign_val hF hv h0
    unfold mag at this
    simpa using this.symm

example : P16.WF ∧ P16.fb ≤ P16.F ∧ P16.fb ≤ 23 ∧ P16.fmt.IsReal (-19600) ∧ P16.fmt.val (-19600) = -201 / 64 ∧
    Posit.toFloat P16 .single (-19600) = .ok 0xc0490000 := by decide +kernel

/-- **C23**, back and forth: `Posit((float)p)` is `p`, for every real posit whose number is a normal float. -/
theorem C23_roundtrip_partial (h : c.WF) (hF : c.fb ≤ c.F) (heb : 2 ≤ eb) (heb30 : eb ≤ 30) (hfb : 1 ≤ fb) (hfb2 : c.fb ≤ fb)
    (hE : eb < c.E) (hE2 : 2 ^ (eb - 1) + fb ≤ 2 ^ (c.E - 1)) {v : ℤ} (hv : c.fmt.IsReal v) (h0 : v ≠ 0)
    (he1 : (2 : ℚ) ^ ((2 : ℤ) - 2 ^ (eb - 1)) ≤ |c.fmt.val v|) (he2 : |c.fmt.val v| < 2 ^ ((2 : ℤ) ^ (eb - 1)))
    (hs : c.SafeMag (c.fmt.val v)) :
    ∃ b, Posit.toFloat c (.any eb fb true) v = .ok b ∧ Posit.ofFloat c (.any eb fb true) b = .ok v := by
  obtain ⟨b, hb, _, hi⟩ := C23_toFloat_partial (dn := true) h hF heb heb30 hfb hfb2 (leastBits_max hE) hv h0 he1 he2
  have hne : c.fmt.val v ≠ 0 := by
    intro hc
    rw [hc, abs_zero] at he1
    have : (0 : ℚ) < 2 ^ ((2 : ℤ) - 2 ^ (eb - 1)) := by positivity
    linarith
  obtain ⟨w, hw, ht⟩ := C22_ofFloat_partial h heb heb30 hfb hE hE2 hi hne (Or.inr ⟨hF, he1⟩) hs
  refine ⟨b, hb, ?_⟩
  rw [hw, ht.unique (Format.isTrunc_val hv h0)]

/-- a 32-bit posit, where C23_all_partial does not apply, through `double` -/
example : P32.WF ∧ P32.fb ≤ P32.F ∧ P32.fb ≤ 52 ∧ 11 < P32.E ∧ 2 ^ (11 - 1) + 52 ≤ 2 ^ (P32.E - 1) ∧
    P32.fmt.IsReal 1234567891 ∧ (Posit.toFloat P32 .double 1234567891 >>= Posit.ofFloat P32 .double) = .ok 1234567891 := by
  decide +kernel

/-- every nonzero number of the format is between `2^(2-B)` and `2^B` when the greatest exponent is at most `B-2` -/
theorem val_range (h : c.WF) {v : ℤ} (hv : c.fmt.IsReal v) (h0 : v ≠ 0) {B : ℕ} (hB : c.maxScale + 2 ≤ B) :
    (2 : ℚ) ^ ((2 : ℤ) - B) ≤ |c.fmt.val v| ∧ |c.fmt.val v| < 2 ^ (B : ℤ) := by
  obtain ⟨e, f, hu⟩ := unpack_real h hv h0
  have := hu.e_abs h
  rw [abs_le] at this
  constructor
  · exact le_trans (zpow_le_zpow_right₀ (by norm_num) (by omega)) hu.lower
  · exact lt_of_lt_of_le hu.upper (zpow_le_zpow_right₀ (by norm_num) (by omega))

/-- **C23** for `float` and `double` and all posits of a format whose greatest exponent is below 127 resp. 1023: conversion is
exact and reversible on every real posit. (`c.E ≥ 16`: see `C23_float_wrong` for the rest.) -/
theorem C23_all_partial (h : c.WF) (hN : c.N + 1 < pw c.H) (hF : c.fb ≤ c.F) (hE : 16 ≤ c.E) (t : FTrait)
    (ht : t = .single ∨ t = .double) (hfb : c.fb ≤ t.fb) (hms : c.maxScale + 2 ≤ 2 ^ (t.eb - 1)) {v : ℤ} (hv : c.fmt.IsReal v)
    (h0 : v ≠ 0) :
    ∃ b, Posit.toFloat c t v = .ok b ∧ ieee t.eb t.fb b = .num (c.fmt.val v) ∧ Posit.ofFloat c t b = .ok v := by
  have hp : 2 ^ 15 ≤ 2 ^ (c.E - 1) := Nat.pow_le_pow_right (by norm_num) (by omega)
  obtain ⟨r1, r2⟩ := val_range h hv h0 hms
  push_cast at r1 r2
  rcases ht with rfl | rfl
  · rw [C51_traits.2.1] at *
    have hE2 : 2 ^ (8 - 1) + 23 ≤ 2 ^ (c.E - 1) := by norm_num at hp ⊢; omega
    obtain ⟨b, hb, _, hi⟩ := C23_toFloat_partial (eb := 8) (fb := 23) (dn := true) h hF (by norm_num) (by norm_num) (by norm_num)
      hfb (leastBits_max (by omega)) hv h0 r1 r2
    obtain ⟨b', hb', hr⟩ := C23_roundtrip_partial (eb := 8) (fb := 23) h hF (by norm_num) (by norm_num) (by norm_num)
      hfb (by omega) hE2 hv h0 r1 r2 (safeMag_of_narrow h hN _)
    rw [hb] at hb'
    rw [← Except.ok.inj hb'] at hr
    exact ⟨b, hb, hi, hr⟩
  · rw [C51_traits.2.2] at *
    have hE2 : 2 ^ (11 - 1) + 52 ≤ 2 ^ (c.E - 1) := by norm_num at hp ⊢; omega
    obtain ⟨b, hb, _, hi⟩ := C23_toFloat_partial (eb := 11) (fb := 52) (dn := true) h hF (by norm_num) (by norm_num) (by norm_num)
      hfb (leastBits_max (by omega)) hv h0 r1 r2
    obtain ⟨b', hb', hr⟩ := C23_roundtrip_partial (eb := 11) (fb := 52) h hF (by norm_num) (by norm_num) (by norm_num)
      hfb (by omega) hE2 hv h0 r1 r2 (safeMag_of_narrow h hN _)
    rw [hb] at hb'
    rw [← Except.ok.inj hb'] at hr
    exact ⟨b, hb, hi, hr⟩

example : P16.WF ∧ P16.N + 1 < pw P16.H ∧ P16.fb ≤ P16.F ∧ 16 ≤ P16.E ∧ P16.fb ≤ FTrait.single.fb ∧
    P16.maxScale + 2 ≤ 2 ^ (FTrait.single.eb - 1) := by decide
example : P60.WF ∧ P60.N + 1 < pw P60.H ∧ P60.fb ≤ P60.F ∧ 16 ≤ P60.E ∧ P60.maxScale + 2 ≤ 2 ^ (FTrait.double.eb - 1) ∧
    ¬ P60.fb ≤ FTrait.double.fb := by decide

/-- **C23**, special patterns -/
theorem C23_special (h : c.WF) (heb : 2 ≤ eb) (hfb : 1 ≤ fb) {v : ℤ} (hv : c.fmt.IsCanonical v) :
    (v = 0 → Posit.toFloat c (.any eb fb dn) v = .ok 0) ∧
    (Posit.isNaN c v = true → ∃ b, Posit.toFloat c (.any eb fb dn) v = .ok b ∧ ieee eb fb b = .nan) ∧
    (Posit.isInfinity c v = true → ∃ b, Posit.toFloat c (.any eb fb dn) v = .ok b ∧ ieee eb fb b = .inf (v < 0)) := by
  obtain ⟨_, _, _, _, _, c6, c7, c8⟩ := C51_constants (dn := dn) heb hfb
  refine ⟨?_, ?_, ?_⟩
  · rintro rfl
    unfold Posit.toFloat
    rw [unpack_zero h]; rfl
  · intro hn
    rcases unpack_cases h hv with rfl | ⟨_, hc, _⟩ | ⟨_, hc, _⟩ | ⟨_, hu⟩
    · have hz : c.fmt.IsReal 0 := by unfold Format.IsReal; omega
      rw [(real_not_special h hz).2] at hn; cases hn
    · rw [(real_not_special h hc).2] at hn; cases hn
    · rw [hc] at hn; cases hn
    · refine ⟨(FTrait.any eb fb dn).nan, ?_, c8⟩
      unfold Posit.toFloat
      rw [hu]; rfl
  · intro hn
    rcases unpack_cases h hv with rfl | ⟨_, hc, _⟩ | ⟨_, _, hu⟩ | ⟨hc, hu⟩
    · have hz : c.fmt.IsReal 0 := by unfold Format.IsReal; omega
      rw [(real_not_special h hz).1] at hn; cases hn
    · rw [(real_not_special h hc).1] at hn; cases hn
    · refine ⟨if v < 0 then (FTrait.any eb fb dn).ninf else (FTrait.any eb fb dn).pinf, ?_, ?_⟩
      · unfold Posit.toFloat
        rw [hu]
        show Except.ok (if decide (v < 0) = true then _ else _) = _
        simp only [decide_eq_true_eq]
      · split_ifs with hs
        · rw [c7, decide_eq_true hs]
        · rw [c6, decide_eq_false hs]
    · exfalso
      have hg := h.pow_ge
      unfold Posit.isNaN at hc
      unfold Posit.isInfinity at hn
      rw [h.nan_eq] at hc
      rw [h.pinf_eq, h.ninf_eq] at hn
      rcases hs : c.spec with _ | _ | _ <;> simp [hs] at hc hn <;> omega

/-- NaN, and both infinities of a WithNanInf format -/
example : Posit.isNaN P8i (-128) = true ∧ Posit.isInfinity P8i 127 = true ∧ Posit.isInfinity P8i (-127) = true ∧
    Posit.toFloat P8i .half (-128) = .ok 0x7e00 ∧ Posit.toFloat P8i .half 127 = .ok 0x7c00 ∧
    Posit.toFloat P8i .half (-127) = .ok 0xfc00 := by
  decide +kernel

/-- **C23** does not hold for `float` when the exponent type has 8 bits: every posit with `|p| ≥ 2` is converted to 0. -/
theorem C23_float_wrong (h : c.WF) (hE : c.E = 8) {v : ℤ} (hv : c.fmt.IsReal v) (h2 : 2 ≤ |c.fmt.val v|) :
    Posit.toFloat c .single v = .ok 0 := by
  have h0 : v ≠ 0 := by
    rintro rfl
    rw [Format.val_zero, abs_zero] at h2; norm_num at h2
  obtain ⟨e, f, hu⟩ := unpack_real h hv h0
  have he1 : 1 ≤ e := by
    have : (2 : ℚ) ^ (1 : ℤ) < 2 ^ (e + 1) := lt_of_le_of_lt (by simpa using h2) hu.upper
    have := (zpow_lt_zpow_iff_right₀ (by norm_num : (1 : ℚ) < 2)).mp this
    omega
  have he2 : e ≤ 127 := by
    have h3 := hu.e_abs h
    have h4 := inS_wide h (x := e) (by rw [abs_le] at h3 ⊢; omega)
    rw [hE] at h4
    unfold InS at h4
    norm_num at h4
    omega
  unfold Posit.toFloat
  rw [hu.eq, hE, C51_traits.2.1]
  simp only [bind, Except.bind]
  rw [packFloat_any]
  simp only [bind, Except.bind, pure, Except.pure]
  have hEX : max 8 (Unp.leastBits 8) = 8 := by decide
  rw [hEX]
  have har : arithS 8 (e + (2 ^ (8 - 1) - 1)) = .ok (e + 127) := by
    rw [arithS_ok]
    · norm_num
    · unfold InS pw; norm_num; omega
  rw [har]
  simp only []
  have hw : wrapS 8 (e + 127) = e + 127 - 256 := wrapS_eq_of (by norm_num) 1 (by ring) ⟨by norm_num; omega, by norm_num; omega⟩
  rw [hw, if_neg (by norm_num; omega), if_pos (by simp; omega)]

example : (⟨8, 6, 1, 8, .withNan⟩ : Cfg).WF ∧ (⟨8, 6, 1, 8, .withNan⟩ : Cfg).E = 8 ∧
    (⟨8, 6, 1, 8, .withNan⟩ : Cfg).fmt.val 20 = 2 ∧ Posit.toFloat ⟨8, 6, 1, 8, .withNan⟩ .single 20 = .ok 0 := by
  decide +kernel

/-! ## C33 -/

/-- **C33**, normal numbers: the bits come back. -/
theorem C33_normal (heb : 2 ≤ eb) (heb30 : eb ≤ 30) (hfb : 1 ≤ fb) (hF : fb ≤ F) (hE : eb ≤ E)
    (hE' : eb < max E (Unp.leastBits eb)) {b : ℕ} (hb : b < 2 ^ (eb + fb + 1))
    (h1 : fExp eb fb b ≠ 0) (h2 : fExp eb fb b ≠ 2 ^ eb - 1) :
    ∃ u, Unp.unpackFloat F E (.any eb fb dn) b = .ok u ∧ Unp.packFloat F E (.any eb fb dn) u = .ok b := by
  have hn2 : 2 ^ fb + fMan fb b < 2 ^ (fb + 1) := by
    have := fMan_lt fb b
    rw [pow_succ]; omega
  have hlt := fExp_lt eb fb b
  refine ⟨_, unpackFloat_normal heb hfb (by omega) hE heb30 h1 h2, ?_⟩
  rw [packFloat_normal heb hfb (by omega) heb30 (fracOf_lt hn2) (x := fExp eb fb b) (by ring) (by omega) (by omega) hE']
  congr 1
  conv_rhs => rw [← fJoin_fields hb]
  congr 1
  unfold fracOf
  rw [if_pos hF, Nat.add_sub_cancel_left]
  split_ifs with hc
  · exact Nat.mul_div_cancel _ (by positivity)
  · rw [show F - fb = 0 by omega, show fb - F = 0 by omega]; simp

/-- -pi -/
example : fExp 8 23 0xc0490fdb = 128 ∧ 8 < max 16 (Unp.leastBits 8) ∧ 23 ≤ 32 ∧
    (Unp.unpackFloat 32 16 .single 0xc0490fdb >>= Unp.packFloat 32 16 .single) = .ok 0xc0490fdb := by decide +kernel

/-- **C33**, infinities and +0 -/
theorem C33_inf_zero (heb : 2 ≤ eb) (hfb : 1 ≤ fb) (hF : fb ≤ F) (hE : eb < E) {b : ℕ} (hb : b < 2 ^ (eb + fb + 1))
    (hc : b = 0 ∨ ∃ s, ieee eb fb b = .inf s) :
    ∃ u, Unp.unpackFloat F E (.any eb fb dn) b = .ok u ∧ Unp.packFloat F E (.any eb fb dn) u = .ok b := by
  rcases hc with rfl | ⟨s, hy⟩
  · have hx : fExp eb fb 0 = 0 := by unfold fExp; simp
    have hm : fMan fb 0 = 0 := by unfold fMan; simp
    obtain ⟨e, f, hu⟩ := unpackFloat_zero (F := F) (E := E) (dn := dn) heb hfb (by omega) hE hx
      (Or.inr (by rw [hm]; unfold fracOf; simp))
    exact ⟨_, hu, rfl⟩
  · rw [ieee_eq] at hy
    split_ifs at hy with h1 h2 h3
    have hs : fSign eb fb b = s := XNum.inf.inj hy
    obtain ⟨e, hu⟩ := unpackFloat_special (F := F) (E := E) (dn := dn) heb hfb (by omega) hE h1
    have hz : fracOf F fb (2 ^ fb + fMan fb b) = 0 := by rw [h2]; unfold fracOf; simp
    rw [hz, if_pos rfl] at hu
    refine ⟨_, hu, ?_⟩
    show Except.ok (if fSign eb fb b then (FTrait.any eb fb dn).ninf else (FTrait.any eb fb dn).pinf) = _
    rw [any_inf heb]
    conv_rhs => rw [← fJoin_fields hb]
    rw [h1, h2]

example : ieee 8 23 0xff800000 = .inf true ∧ (Unp.unpackFloat 32 16 .single 0xff800000 >>= Unp.packFloat 32 16 .single) = .ok 0xff800000 ∧
    (Unp.unpackFloat 32 16 .single 0 >>= Unp.packFloat 32 16 .single) = .ok 0 :=
  ⟨by norm_num [ieee], by decide +kernel, by decide +kernel⟩

/-- **C33**, NaN: comes back as the canonical NaN. -/
theorem C33_nan (heb : 2 ≤ eb) (hfb : 1 ≤ fb) (hF : fb ≤ F) (hE : eb < E) {b : ℕ} (hy : ieee eb fb b = .nan) :
    ∃ u, Unp.unpackFloat F E (.any eb fb dn) b = .ok u ∧ Unp.packFloat F E (.any eb fb dn) u = .ok (FTrait.any eb fb dn).nan ∧
      ieee eb fb (FTrait.any eb fb dn).nan = .nan := by
  rw [ieee_eq] at hy
  split_ifs at hy with h1 h2 h3
  obtain ⟨e, hu⟩ := unpackFloat_special (F := F) (E := E) (dn := dn) heb hfb (by omega) hE h1
  have hz : fracOf F fb (2 ^ fb + fMan fb b) ≠ 0 := by
    unfold fracOf
    rw [if_pos hF, Nat.add_sub_cancel_left]
    exact Nat.mul_ne_zero h2 (by positivity)
  rw [if_neg hz] at hu
  exact ⟨_, hu, rfl, (C51_constants (dn := dn) heb hfb).2.2.2.2.2.2.2⟩

example : ieee 8 23 0xff800001 = .nan ∧ (Unp.unpackFloat 32 16 .single 0xff800001 >>= Unp.packFloat 32 16 .single) = .ok 0x7fc00000 :=
  ⟨by norm_num [ieee], by decide +kernel⟩

/-- **C33** does not hold for -0, which becomes +0, -/
theorem C33_negzero_wrong (heb : 2 ≤ eb) (hfb : 1 ≤ fb) (hF : fb ≤ F) (hE : eb < E) :
    ∃ u, Unp.unpackFloat F E (.any eb fb dn) (2 ^ (eb + fb)) = .ok u ∧ Unp.packFloat F E (.any eb fb dn) u = .ok 0 := by
  have hx : fExp eb fb (2 ^ (eb + fb)) = 0 := by
    unfold fExp
    rw [pow_add, Nat.mul_div_cancel _ (by positivity), Nat.mod_self]
  have hm : fMan fb (2 ^ (eb + fb)) = 0 := by
    unfold fMan
    rw [pow_add, Nat.mul_mod_left]
  obtain ⟨e, f, hu⟩ := unpackFloat_zero (F := F) (E := E) (dn := dn) heb hfb (by omega) hE hx
    (Or.inr (by rw [hm]; unfold fracOf; simp))
  exact ⟨_, hu, rfl⟩

example : 23 ≤ 32 ∧ 8 < 16 ∧ (Unp.unpackFloat 32 16 .single 0x80000000 >>= Unp.packFloat 32 16 .single) = .ok 0 := by decide +kernel

/-- … nor for any subnormal number: all become +0. -/
theorem C33_subnormal_wrong (heb : 2 ≤ eb) (hfb : 1 ≤ fb) (hF : fb < F) (hE : eb < E) (hE2 : 2 ^ (eb - 1) + fb ≤ 2 ^ (E - 1))
    {b : ℕ} (h1 : fExp eb fb b = 0) (h2 : fMan fb b ≠ 0) :
    ∃ u, Unp.unpackFloat F E (.any eb fb true) b = .ok u ∧ Unp.packFloat F E (.any eb fb true) u = .ok 0 := by
  have hm : fracOf F fb (2 ^ fb + fMan fb b) = fMan fb b * 2 ^ (F - fb) := by
    unfold fracOf; rw [if_pos hF.le, Nat.add_sub_cancel_left]
  have hmlt : fMan fb b * 2 ^ (F - fb) < 2 ^ F := by
    rw [← hm]; apply fracOf_lt
    have := fMan_lt fb b
    rw [pow_succ]; omega
  generalize hmdef : fMan fb b * 2 ^ (F - fb) = m at *
  have hm1 : 2 ^ (F - fb) ≤ m := by rw [← hmdef]; exact Nat.le_mul_of_pos_left _ (by omega)
  have hm0 : m ≠ 0 := by have := Nat.one_le_two_pow (n := F - fb); omega
  have hL1 := Nat.log2_self_le hm0
  have hL2 := Nat.lt_log2_self (n := m)
  have hLge : F - fb ≤ m.log2 := by
    by_contra hc
    have : 2 ^ (m.log2 + 1) ≤ 2 ^ (F - fb) := Nat.pow_le_pow_right (by norm_num) (by omega)
    omega
  have hLF : m.log2 < F := (Nat.pow_lt_pow_iff_right (by norm_num : 1 < 2)).mp (lt_of_le_of_lt hL1 hmlt)
  refine ⟨_, unpackFloat_sub (F := F) (E := E) heb hfb (by omega) hE hE2 h1 hm.symm hL1 hL2
      (by have := le_pw F; omega) (by omega), ?_⟩
  refine C23_underflow_zero heb (by omega) ?_
  refine InS.mono (w := E) (le_max_left _ _) ?_
  have hE2z : (2 : ℤ) ^ (eb - 1) + fb ≤ 2 ^ (E - 1) := by exact_mod_cast hE2
  have : (0 : ℤ) < 2 ^ (eb - 1) := by positivity
  constructor <;> omega

/-- C33 on `float`: pi, +infinity, a NaN; the least subnormal and -0 are changed -/
example : (Unp.unpackFloat 32 16 .single 0x40490fdb >>= Unp.packFloat 32 16 .single) = .ok 0x40490fdb ∧
    (Unp.unpackFloat 32 16 .single 0x7f800000 >>= Unp.packFloat 32 16 .single) = .ok 0x7f800000 ∧
    (Unp.unpackFloat 32 16 .single 0xff800001 >>= Unp.packFloat 32 16 .single) = .ok 0x7fc00000 ∧
    (Unp.unpackFloat 32 16 .single 1 >>= Unp.packFloat 32 16 .single) = .ok 0 ∧
    (Unp.unpackFloat 32 16 .single 0x80000000 >>= Unp.packFloat 32 16 .single) = .ok 0 := by decide +kernel

end Verif
