import Verif.Lemmas.Scale
import Verif.Lemmas.Consts
import Verif.Props.Step
import Verif.Props.Arith

/-!
# Scaling by two: C18 (`half`, `twice`)
-/

namespace Verif
open Fmt

variable {c : Cfg}

theorem sgn_mul {v : ℤ} (hv : c.fmt.IsReal v) (h0 : v ≠ 0) (q : ℚ) :
    (if decide (v < 0) then -1 else 1 : ℚ) * (|c.fmt.val v| * q) = c.fmt.val v * q := by
  by_cases hn : v < 0
  · simp only [hn, decide_true, if_true]
    rw [abs_of_neg ((Format.val_neg_iff hv.inRange).mpr hn)]; ring
  · simp only [hn, decide_false, Bool.false_eq_true, if_false]
    rw [abs_of_pos ((Format.val_pos_iff hv.inRange).mpr (by omega))]; ring

theorem packLowRegular_of_packLow (c : Cfg) (neg : Bool) (r : ℤ) (x w : ℕ) :
    Posit.packLow c (Low.mk .regular neg r x w) = Posit.packLowRegular c (Low.mk .regular neg r x w) := rfl

/-- **C18**, `half`: for a nonzero real posit whose half is not below the least magnitude of the format, `half()` is `x/2`
rounded toward zero; it is undefined exactly if `x/2` is not a safe magnitude. Missing: the least magnitudes, where the
claim fails (`C18_half_least`). -/
theorem C18_half_partial (h : c.WF) {v : ℤ} (hv : c.fmt.IsReal v) (h0 : v ≠ 0)
    (hlo : ∃ u, c.fmt.IsReal u ∧ u ≠ 0 ∧ |c.fmt.val u| ≤ |c.fmt.val v / 2|) :
    (c.SafeMag (c.fmt.val v / 2) → ∃ w, Posit.half c v = .ok w ∧ c.fmt.IsTrunc (c.fmt.val v / 2) w) ∧
    (¬ c.SafeMag (c.fmt.val v / 2) → Posit.half c v = .error .shiftAmount) := by
  obtain ⟨r, x, w, hl⟩ := low_real h hv h0
  obtain ⟨r', x', hx', he', heq⟩ := half_low h hl
  have htop := topExp_le h
  have hle := two_pow_es_le h
  have hval : |c.fmt.val v / 2| = mag c.H (2 ^ c.es * r' + x') w := by
    rw [he', mag_pred, ← hl.val, abs_div, abs_two]
  have hge : -(c.maxScale : ℤ) ≤ 2 ^ c.es * r' + x' := by
    obtain ⟨u, hu, hu0, hle⟩ := hlo
    rw [hval, Format.abs_val hu.inRange hu0] at hle
    have h1 : posVal c.N c.es 1 ≤ posVal c.N c.es u.natAbs :=
      (posVal_le_iff le_rfl (lt_of_le_of_lt (one_le_maxBody h) (Format.maxBody_lt c.fmt)) (by omega) hu.natAbs_lt).mpr
        (by omega)
    rw [posVal_one h] at h1
    have h2 := mag_lt (e := 2 ^ c.es * r' + x') hl.w_lt
    have h3 := lt_of_le_of_lt (h1.trans hle) h2
    rw [zpow_lt_zpow_iff_right₀ (by norm_num)] at h3
    omega
  have hhi := hl.e_hi
  obtain ⟨k1, k2⟩ := packLow_trunc h (v < 0) hx' hl.w_lt hge (by omega) (fun hs => by omega)
  rw [← SafeMag_abs, hval, heq]
  refine ⟨fun hs => ?_, k2⟩
  obtain ⟨p, hp, ht⟩ := k1 hs
  refine ⟨_, hp, ?_⟩
  have := Format.IsTrunc.of_sign (v < 0) (mag_pos _ _ _) ht
  rw [← hval, abs_div, abs_two, div_eq_mul_inv, sgn_mul hv h0] at this
  rwa [div_eq_mul_inv]

example : P12.WF ∧ P12.fmt.IsReal (-3) ∧ P12.fmt.IsReal 1 ∧ |P12.fmt.val 1| ≤ |P12.fmt.val (-3) / 2| ∧
    P12.SafeMag (P12.fmt.val (-3) / 2) ∧ Posit.half P12 (-3) = .ok (-2) ∧
    ¬ P32.SafeMag (P32.fmt.val 5 / 2) ∧ |P32.fmt.val 1| ≤ |P32.fmt.val 5 / 2| ∧
    Posit.half P32 5 = .error .shiftAmount := by decide +kernel

/-- **C18**, `half` when the result is a posit: it is returned exactly. -/
theorem C18_half_exact (h : c.WF) {v w : ℤ} (hv : c.fmt.IsReal v) (hw : c.fmt.IsReal w)
    (he : c.fmt.val w = c.fmt.val v / 2) (hs : v = 0 ∨ c.SafeMag (c.fmt.val v / 2)) : Posit.half c v = .ok w := by
  by_cases h0 : v = 0
  · subst h0
    rw [Format.val_zero, zero_div, Format.val_eq_zero_iff hw.inRange] at he
    subst he
    unfold Posit.half
    have : Posit.unpackLow c 0 = .ok { ty := .zero } := by
      have hh := real_not_special h (v := 0) (by rw [isReal_bounds]; omega)
      unfold Posit.unpackLow
      rw [hh.1, hh.2]; simp
    rw [this]
    simp [bind, Except.bind, pure, Except.pure]
  · have hw0 : w ≠ 0 := by
      rintro rfl
      rw [Format.val_zero, eq_comm, div_eq_zero_iff, Format.val_eq_zero_iff hv.inRange] at he
      rcases he with he | he
      · exact h0 he
      · norm_num at he
    obtain ⟨u, hu, ht⟩ := (C18_half_partial h hv h0 ⟨w, hw, hw0, by rw [he]⟩).1 (hs.resolve_left h0)
    rw [hu, (he ▸ Format.isTrunc_val hw hw0 : c.fmt.IsTrunc (c.fmt.val v / 2) w).unique ht]

example : P8.WF ∧ P8.fmt.IsReal 96 ∧ P8.fmt.IsReal 64 ∧ P8.fmt.val 64 = P8.fmt.val 96 / 2 ∧
    P8.SafeMag (P8.fmt.val 96 / 2) := by decide +kernel

/-- **C18** fails for the least magnitudes: where `x/2` is below every nonzero posit, `half()` returns zero instead of
saturating (or is undefined, if `N+1 ≥ max(32,H)`). -/
theorem C18_half_least (h : c.WF) {v : ℤ} (hv : c.fmt.IsReal v) (h0 : v ≠ 0)
    (hlo : ∀ u, c.fmt.IsReal u → u ≠ 0 → |c.fmt.val v / 2| < |c.fmt.val u|) :
    (c.N + 1 < pw c.H → Posit.half c v = .ok 0) ∧ (pw c.H ≤ c.N + 1 → Posit.half c v = .error .shiftAmount) := by
  obtain ⟨r, x, w, hl⟩ := low_real h hv h0
  obtain ⟨r', x', hx', he', heq⟩ := half_low h hl
  have hN3 := h.N_ge
  have hN := h.hN
  have hpos : (0 : ℤ) < 2 ^ c.es := by positivity
  have hval : |c.fmt.val v / 2| = mag c.H (2 ^ c.es * r' + x') w := by
    rw [he', mag_pred, ← hl.val, abs_div, abs_two]
  have h1r : c.fmt.IsReal 1 := by have := one_le_maxBody h; rw [isReal_bounds]; omega
  have hlt := hlo 1 h1r (by norm_num)
  rw [hval, Format.abs_val h1r.inRange (by norm_num)] at hlt
  change _ < posVal c.N c.es 1 at hlt
  rw [posVal_one h] at hlt
  have h3 := lt_of_le_of_lt (le_mag c.H (2 ^ c.es * r' + x') w) hlt
  rw [zpow_lt_zpow_iff_right₀ (by norm_num), maxScale_eq h] at h3
  have hlo' := hl.e_lo
  have hxi : (x' : ℤ) < 2 ^ c.es := by exact_mod_cast hx'
  rw [maxScale_eq h] at hlo'
  have hr' : r' = -((c.N : ℤ) - 1) := by
    have a1 : 2 ^ c.es * r' < 2 ^ c.es * (-((c.N : ℤ) - 2)) := by nlinarith
    have a2 : r' < -((c.N : ℤ) - 2) := lt_of_mul_lt_mul_left a1 hpos.le
    have a3 : 2 ^ c.es * (-((c.N : ℤ) - 2) - 2) < 2 ^ c.es * r' := by nlinarith
    have a4 := lt_of_mul_lt_mul_left a3 hpos.le
    omega
  have hk : kOf r' = c.N - 1 := by unfold kOf; rw [if_pos (by omega)]; omega
  rw [heq, packLowRegular_of_packLow]
  constructor
  · intro hs
    rw [packLowRegular_eq h hx' hl.w_lt (by omega) (by omega) (by omega)]
    have hpk : packBody c r' (x' * 2 ^ c.H + w) = 0 := by
      unfold packBody
      rw [if_neg (by omega), if_pos (by omega)]
    rw [hpk]
    split_ifs <;> rfl
  · intro hs
    unfold Posit.packLowRegular
    simp only []
    rw [regBits_eq h (by omega) (by have := le_pw c.H; omega), msbExp_eq h hx']
    simp only [bind, Except.bind]
    by_cases ha : (if (c.N : ℤ) - (if -r' + 1 > r' + 2 then -r' + 1 else r' + 2) - 1 < c.es then
      (c.N : ℤ) - (if -r' + 1 > r' + 2 then -r' + 1 else r' + 2) - 1 else c.es) = -1
    · rw [ha]
      have hrs : (if -r' + 1 > r' + 2 then -r' + 1 else r' + 2) = (c.N : ℤ) := by rw [if_pos (by omega)]; omega
      rw [hrs]
      unfold shrU
      by_cases hb : (pw c.H : ℤ) ≤ c.N
      · rw [if_pos (by omega)]
      · rw [if_neg (by omega)]
        simp only []
        rw [if_pos (by omega)]
    · exfalso; apply ha
      rw [if_pos (by omega : -r' + 1 > r' + 2), if_pos (by omega)]; omega

example : P6.WF ∧ P6.fmt.IsReal (-1) ∧ P6.N + 1 < pw P6.H ∧ Posit.half P6 (-1) = .ok 0 ∧
    Posit.half P32 1 = .error .shiftAmount := by decide +kernel

/-- **C18** is false as stated: half of the least positive 8-bit posit is zero, where the product with one half is
rounded to the least posit. -/
theorem C18_half_not_always : P8.WF ∧ P8.fmt.IsReal 1 ∧ Posit.half P8 1 = .ok 0 ∧ Posit.mul P8 1 P8.half = .ok 1 ∧
    P8.fmt.val P8.half = 1 / 2 := by decide +kernel

/-- **C18**, `twice`: for a nonzero real posit `twice()` is `2x` rounded toward zero (saturating). Excluded are only the
extreme cases in which the code is wrong or undefined: `2x` not a safe magnitude; the greatest magnitude for `es = 0`
(there the regime of the result is one longer: infinity in the formats with two infinities, see `C18_twice_max`, and one
more bit of shift otherwise). -/
theorem C18_twice_partial (h : c.WF) {v : ℤ} (hv : c.fmt.IsReal v) (h0 : v ≠ 0) (hs : c.SafeMag (2 * c.fmt.val v))
    (hz : c.es = 0 → v.natAbs ≠ c.fmt.maxBody ∨ (c.spec ≠ .withNanInf ∧ c.N + 2 < pw c.H)) :
    ∃ w, Posit.twice c v = .ok w ∧ c.fmt.IsTrunc (2 * c.fmt.val v) w := by
  obtain ⟨r, x, w, hl⟩ := low_real h hv h0
  obtain ⟨r', x', hx', he', heq⟩ := twice_low h hl
  have htop := topExp_le h
  have hle := two_pow_es_le h
  have hN3 := h.N_ge
  have hN := h.hN
  have hpos : (0 : ℤ) < 2 ^ c.es := by positivity
  have hlo := hl.e_lo
  have hhi := hl.e_hi
  have hval : |2 * c.fmt.val v| = mag c.H (2 ^ c.es * r' + x') w := by
    rw [he', mag_succ, ← hl.val, abs_mul, abs_two]
  have hfin : ∀ p : ℕ, c.fmt.TruncB (mag c.H (2 ^ c.es * r' + x') w) p →
      c.fmt.IsTrunc (2 * c.fmt.val v) (if decide (v < 0) then -(p : ℤ) else p) := by
    intro p ht
    have := Format.IsTrunc.of_sign (v < 0) (mag_pos _ _ _) ht
    rw [← hval, abs_mul, abs_two, mul_comm 2, sgn_mul hv h0] at this
    rwa [mul_comm]
  -- the greatest exponent belongs to the greatest magnitude only
  have hmax : 2 ^ c.es * r + (x : ℤ) = c.topExp → v.natAbs = c.fmt.maxBody := by
    intro he
    have h1 : (2 : ℚ) ^ c.topExp ≤ posVal c.N c.es v.natAbs := by
      rw [← he]
      have := hl.val
      rw [Format.abs_val hv.inRange h0] at this
      simp only [fmt_N, fmt_es] at this
      rw [this]; exact le_mag _ _ _
    rw [← posVal_maxBody h] at h1
    have h2 := (posVal_le_iff (one_le_maxBody h) (Format.maxBody_lt c.fmt) (by omega) hv.natAbs_lt).mp h1
    have := hv.natAbs_le
    omega
  rw [← SafeMag_abs, hval] at hs
  by_cases hin : 2 ^ c.es * r' + (x' : ℤ) ≤ c.maxScale ∧ (c.spec = .withNanInf → 2 ^ c.es * r' + (x' : ℤ) < c.maxScale)
  · obtain ⟨p, hp, ht⟩ := (packLow_trunc h (v < 0) hx' hl.w_lt (by omega) hin.1 hin.2).1 hs
    exact ⟨_, heq ▸ hp, hfin p ht⟩
  · -- the greatest magnitude
    have hni : c.spec ≠ .withNanInf := by
      intro hsp
      have ht : c.topExp = c.maxScale - 2 ^ c.es := by unfold Cfg.topExp; rw [if_pos hsp]
      have hes0 : c.es = 0 := by
        by_contra hne
        have : (2 : ℤ) ^ 1 ≤ 2 ^ c.es := pow_le_pow_right₀ (by norm_num) (by omega)
        apply hin
        refine ⟨by omega, fun _ => by omega⟩
      have : 2 ^ c.es * r + (x : ℤ) = c.topExp := by
        by_contra hne
        apply hin
        have : (1 : ℤ) ≤ 2 ^ c.es := by omega
        refine ⟨by omega, fun _ => by omega⟩
      rcases hz hes0 with hz | hz
      · exact hz (hmax this)
      · exact hz.1 hsp
    have ht : c.topExp = c.maxScale := by unfold Cfg.topExp; rw [if_neg hni]
    have hexp : 2 ^ c.es * r' + (x' : ℤ) = c.maxScale + 1 := by
      by_contra hne
      apply hin
      exact ⟨by omega, fun hh => absurd hh hni⟩
    have hvm := hmax (by omega)
    have hxi : (x' : ℤ) < 2 ^ c.es := by exact_mod_cast hx'
    have hr' : r' = if c.es = 0 then (c.N : ℤ) - 1 else (c.N : ℤ) - 2 := by
      rw [maxScale_eq h] at hexp
      split_ifs with hes0
      · rw [hes0] at hexp hx'; norm_num at hexp hx'; omega
      · have : (2 : ℤ) ^ 1 ≤ 2 ^ c.es := pow_le_pow_right₀ (by norm_num) (by omega)
        have a1 : 2 ^ c.es * (r' - ((c.N : ℤ) - 2)) < 2 ^ c.es * 1 := by nlinarith
        have a2 := lt_of_mul_lt_mul_left a1 hpos.le
        have a3 : 2 ^ c.es * (-1) < 2 ^ c.es * (r' - ((c.N : ℤ) - 2)) := by nlinarith
        have a4 := lt_of_mul_lt_mul_left a3 hpos.le
        omega
    -- the shift amounts
    have hpb : c.N + 1 < pw c.H ∨ False := by
      left
      unfold Cfg.SafeMag at hs
      have h2 := hs.2
      rw [abs_of_pos (mag_pos _ _ _), hexp] at h2
      have h3 : c.topExp < c.packBound := by
        rcases h2 with h2 | h2
        · have h4 := lt_of_le_of_lt (le_mag _ _ _) h2
          rw [zpow_lt_zpow_iff_right₀ (by norm_num)] at h4
          omega
        · exact h2
      rw [ht, maxScale_eq h] at h3
      unfold Cfg.packBound at h3
      push_cast at h3
      have h5 := lt_of_mul_lt_mul_left h3 hpos.le
      omega
    have hpb := hpb.resolve_right id
    have hk : kOf r' = if c.es = 0 then c.N else c.N - 1 := by
      unfold kOf; rw [hr']; split_ifs <;> omega
    have hz' : c.es = 0 → c.N + 2 < pw c.H := fun he => ((hz he).resolve_left (by simp [hvm])).2
    rw [heq, packLowRegular_of_packLow, packLowRegular_eq h hx' hl.w_lt (by rw [hk]; split_ifs <;> omega)
      (by rw [hk]; split_ifs with he <;> [have := hz' he; skip] <;> omega) (by omega)]
    refine ⟨_, rfl, ?_⟩
    have hpk : packBody c r' (x' * 2 ^ c.H + w) = c.fmt.maxBody := by
      unfold packBody
      rw [if_neg (by rw [hk]; split_ifs <;> omega), if_neg (by rw [hr']; split_ifs <;> omega)]
      unfold Format.maxBody Cfg.fmt
      simp [hni]
    rw [hpk]
    apply hfin
    refine ⟨one_le_maxBody h, le_rfl, fun q _ hq _ => hq, Or.inl ?_⟩
    simp only [fmt_N, fmt_es]
    rw [posVal_maxBody h, ht]
    refine le_trans ?_ (le_mag _ _ _)
    exact zpow_le_zpow_right₀ (by norm_num) (by omega)

example : P12.WF ∧ P12.fmt.IsReal 2047 ∧ P12.SafeMag (2 * P12.fmt.val 2047) ∧ P12.es ≠ 0 ∧
    Posit.twice P12 2047 = .ok 2047 ∧ Posit.twice P12 (-1000) = .ok (-1256) := by decide +kernel

/-- **C18**, `twice` when the result is a posit: it is returned exactly. -/
theorem C18_twice_exact (h : c.WF) {v w : ℤ} (hv : c.fmt.IsReal v) (hw : c.fmt.IsReal w)
    (he : c.fmt.val w = 2 * c.fmt.val v) (hs : v = 0 ∨ c.SafeMag (2 * c.fmt.val v)) : Posit.twice c v = .ok w := by
  by_cases h0 : v = 0
  · subst h0
    rw [Format.val_zero, mul_zero, Format.val_eq_zero_iff hw.inRange] at he
    subst he
    unfold Posit.twice
    have : Posit.unpackLow c 0 = .ok { ty := .zero } := by
      have hh := real_not_special h (v := 0) (by rw [isReal_bounds]; omega)
      unfold Posit.unpackLow
      rw [hh.1, hh.2]; simp
    rw [this]
    simp [bind, Except.bind, pure, Except.pure]
  · have hw0 : w ≠ 0 := by
      rintro rfl
      rw [Format.val_zero, eq_comm, mul_eq_zero, Format.val_eq_zero_iff hv.inRange] at he
      rcases he with he | he
      · norm_num at he
      · exact h0 he
    have hne : v.natAbs ≠ c.fmt.maxBody := by
      intro hvm
      have h1 : |c.fmt.val w| = 2 * |c.fmt.val v| := by rw [he, abs_mul, abs_two]
      have h2 : |c.fmt.val w| ≤ |c.fmt.val v| := by
        rw [Format.abs_val hw.inRange hw0, Format.abs_val hv.inRange h0,
          posVal_le_iff (by omega) hw.natAbs_lt (by omega) hv.natAbs_lt, hvm]
        exact hw.natAbs_le
      have h3 : 0 < |c.fmt.val v| := by
        rw [abs_pos]; intro hh; exact h0 ((Format.val_eq_zero_iff hv.inRange).mp hh)
      linarith
    obtain ⟨u, hu, ht⟩ := C18_twice_partial h hv h0 (hs.resolve_left h0) (fun _ => Or.inl hne)
    rw [hu, (he ▸ Format.isTrunc_val hw hw0 : c.fmt.IsTrunc (2 * c.fmt.val v) w).unique ht]

example : P8i.WF ∧ P8i.fmt.IsReal 64 ∧ P8i.fmt.IsReal 72 ∧ P8i.fmt.val 72 = 2 * P8i.fmt.val 64 ∧
    P8i.SafeMag (2 * P8i.fmt.val 64) := by decide +kernel

/-- **C18** is false as stated for `twice`: with `es = 0` and two infinities twice the greatest posit is infinity; with
`es = 0`, `N = 30` in a 32-bit holder it is undefined although every product is fine; and in a filled 32-bit holder
doubling large posits is undefined. -/
theorem C18_twice_max :
    (Cfg.mk 8 8 0 8 .withNanInf).WF ∧ Posit.twice ⟨8, 8, 0, 8, .withNanInf⟩ 126 = .ok 127 ∧
    Posit.isInfinity ⟨8, 8, 0, 8, .withNanInf⟩ 127 = true ∧
    (Cfg.mk 32 30 0 32 .withNan).WF ∧ Posit.twice ⟨32, 30, 0, 32, .withNan⟩ (2 ^ 29 - 1) = .error .shiftAmount ∧
    Posit.mul ⟨32, 30, 0, 32, .withNan⟩ (2 ^ 29 - 1) (Cfg.two ⟨32, 30, 0, 32, .withNan⟩) = .ok (2 ^ 29 - 1) ∧
    Posit.twice P32 (2 ^ 31 - 5) = .error .shiftAmount := by decide +kernel

/-- **C18**, special patterns: `half` and `twice` return NaN, infinities and zero unchanged. -/
theorem C18_special (h : c.WF) {v : ℤ} (hs : Posit.isNaN c v = true ∨ Posit.isInfinity c v = true ∨ v = 0) :
    Posit.half c v = .ok v ∧ Posit.twice c v = .ok v := by
  have : ∃ t s, t ≠ Ty.regular ∧ Posit.unpackLow c v = .ok { ty := t, neg := s } := by
    unfold Posit.unpackLow
    by_cases h1 : Posit.isInfinity c v = true
    · exact ⟨.infinity, _, by simp, by rw [if_pos h1]⟩
    · rw [if_neg h1]
      by_cases h2 : Posit.isNaN c v = true
      · exact ⟨.nan, false, by simp, by rw [if_pos h2]⟩
      · rw [if_neg h2]
        have h3 : v = 0 := by tauto
        exact ⟨.zero, false, by simp, by rw [if_pos h3]⟩
  obtain ⟨t, s, ht, he⟩ := this
  unfold Posit.half Posit.twice
  rw [he]
  simp [ht, bind, Except.bind, pure, Except.pure]

example : P8i.WF ∧ Posit.isNaN P8i (-128) = true ∧ Posit.isInfinity P8i 127 = true ∧ Posit.half P8i 127 = .ok 127 := by
  decide +kernel

end Verif
