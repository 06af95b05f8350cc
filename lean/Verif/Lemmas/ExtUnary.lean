import Verif.Spec.ExtUnary
import Verif.Lemmas.ExtConvert
import Verif.Props.Scale

/-! # Helper lemmas for C90: the one-operand members on every pattern -/

namespace Verif
open Fmt

variable {c : Cfg}

/-- a regime run too long for the shifts of `pack_low` -/
theorem packLowRegular_long (h : c.WF) {neg : Bool} {reg : ℤ} {exp frac : ℕ} (hexp : exp < 2 ^ c.es)
    (hk2 : kOf reg ≤ c.N) (hk : pw c.H ≤ kOf reg + 2) :
    Posit.packLowRegular c (Low.mk .regular neg reg exp frac) = .error .shiftAmount := by
  have hpH := le_pw c.H
  have hN := h.hN
  have hH32 : 32 ≤ c.H := by
    have h32 := le_pw32 c.H
    rcases h.hH with hh | hh | hh | hh <;> rw [hh] at hN ⊢ <;> omega
  unfold Posit.packLowRegular
  have hrs : (if -reg + 1 > reg + 2 then -reg + 1 else reg + 2) = (kOf reg : ℤ) + 1 := by
    unfold kOf; split_ifs <;> omega
  simp only [hrs]
  have hrb : ∀ E, Posit.regBits c reg = .error E → E = .shiftAmount := by
    intro E
    unfold Posit.regBits shrU shlU
    simp only [bind, Except.bind, pure, Except.pure]
    split_ifs <;> simp <;> first | omega | (intro hh; exact hh.symm)
  rcases hr : Posit.regBits c reg with E | R
  · rw [hrb E hr]; rfl
  · simp only [bind, Except.bind]
    rw [msbExp_eq h hexp]
    simp only []
    have hb : ∀ z, shrU c.H z ((kOf reg : ℤ) + 1 + 1) = .error .shiftAmount := by
      intro z; unfold shrU; rw [if_pos (by omega)]
    rw [hb]
    generalize hz : shrU c.H frac _ = z
    rcases z with E | z
    · have : E = .shiftAmount := by
        unfold shrU at hz
        split_ifs at hz <;> first | (injection hz with hz; exact hz.symm) | cases hz
      rw [this]
    · rfl

/-- a positive regime run that leaves no room: the body is all ones -/
theorem packLowRegular_ones (h : c.WF) {neg : Bool} {reg : ℤ} {exp frac : ℕ} (hexp : exp < 2 ^ c.es)
    (hfrac : frac < 2 ^ c.H) (h0 : 0 ≤ reg) (hk1 : c.N - 1 ≤ kOf reg) (hk2 : kOf reg ≤ c.N) (hs : kOf reg + 2 < pw c.H) :
    Posit.packLowRegular c (Low.mk .regular neg reg exp frac) =
      .ok (if neg then -(2 ^ (c.N - 1) - 1) else 2 ^ (c.N - 1) - 1) := by
  have hN3 := h.N_ge
  rw [packLowRegular_eq h hexp hfrac hk2 hs (by omega)]
  have : packBody c reg (exp * 2 ^ c.H + frac) = 2 ^ (c.N - 1) - 1 := by
    unfold packBody
    rw [if_neg (by omega), if_neg (by omega)]
  rw [this]
  have h1 : 1 ≤ 2 ^ (c.N - 1) := Nat.one_le_two_pow
  push_cast [Nat.cast_sub h1]
  rfl

/-- the exponent of a power of two -/
theorem low_pow2 {v r k : ℤ} {x w : ℕ} (hl : Lows c v r x w) (hk : |c.fmt.val v| = 2 ^ k) :
    2 ^ c.es * r + (x : ℤ) = k ∧ w = 0 := by
  have h1 := le_mag c.H (2 ^ c.es * r + (x : ℤ)) w
  have h2 := mag_lt (e := 2 ^ c.es * r + (x : ℤ)) hl.w_lt
  rw [← hl.val, hk, zpow_le_zpow_iff_right₀ (by norm_num)] at h1
  rw [← hl.val, hk, zpow_lt_zpow_iff_right₀ (by norm_num)] at h2
  have he : 2 ^ c.es * r + (x : ℤ) = k := by omega
  refine ⟨he, ?_⟩
  have h3 := hl.val
  rw [hk, he] at h3
  unfold mag at h3
  have hp : (0 : ℚ) < 2 ^ k := by positivity
  have h4 : (1 : ℚ) + w / 2 ^ c.H = 1 := by
    have : (2 : ℚ) ^ k * 1 = 2 ^ k * (1 + w / 2 ^ c.H) := by linarith
    exact (mul_left_cancel₀ hp.ne' this).symm
  have h5 : (w : ℚ) / 2 ^ c.H = 0 := by linarith
  rw [div_eq_zero_iff] at h5
  rcases h5 with h5 | h5
  · exact_mod_cast h5
  · exact absurd h5 (by positivity)

theorem abs_val_one_pat (h : c.WF) {v : ℤ} (hv : v.natAbs = 1) : |c.fmt.val v| = 2 ^ (-(c.maxScale : ℤ)) := by
  have h4 : 4 ≤ 2 ^ (c.N - 1) := by have := h.pow_ge; exact_mod_cast this
  rw [Format.abs_val (by simp only [Format.InRange, fmt_N]; omega) (by omega), hv]
  exact posVal_one h

theorem abs_val_max (h : c.WF) {v : ℤ} (hv : v.natAbs = c.fmt.maxBody) : |c.fmt.val v| = 2 ^ c.topExp := by
  have := one_le_maxBody h
  rw [Format.abs_val (by have := Format.maxBody_lt c.fmt; simp only [Format.InRange]; omega) (by omega), hv]
  exact posVal_maxBody h

/-- `inv` of the least magnitudes in a format with two infinities -/
theorem inv_least (h : c.WF) (hs : c.spec = .withNanInf) {v : ℤ} (hv : v.natAbs = 1) :
    (c.N + 1 < pw c.H → Posit.inv c v = .ok (c.infPat (v < 0))) ∧
    (pw c.H ≤ c.N + 1 → Posit.inv c v = .error .shiftAmount) := by
  have hN3 := h.N_ge
  have hr : c.fmt.IsReal v := by have := one_le_maxBody h; rw [Format.isReal_iff]; omega
  obtain ⟨r, x, w, hl⟩ := low_real h hr (by omega)
  obtain ⟨he, hw⟩ := low_pow2 hl (abs_val_one_pat h hv)
  have hpos : (0 : ℤ) < 2 ^ c.es := by positivity
  have hxi : (x : ℤ) < 2 ^ c.es := by exact_mod_cast hl.x_lt
  rw [maxScale_eq h] at he
  have hrr : r = -((c.N : ℤ) - 2) := by
    have a1 : 2 ^ c.es * r < 2 ^ c.es * (-((c.N : ℤ) - 2) + 1) := by nlinarith
    have a2 := lt_of_mul_lt_mul_left a1 hpos.le
    have a3 : 2 ^ c.es * (-((c.N : ℤ) - 2) - 1) < 2 ^ c.es * r := by nlinarith
    have a4 := lt_of_mul_lt_mul_left a3 hpos.le
    omega
  have hx : x = 0 := by
    rw [hrr] at he
    have : (x : ℤ) = 0 := by linarith
    exact_mod_cast this
  subst hw hx hrr
  have heq : Posit.inv c v = Posit.packLowRegular c (Low.mk .regular (v < 0) ((c.N : ℤ) - 2) 0 0) := by
    unfold Posit.inv
    rw [hl.eq]
    simp only [bind, Except.bind, if_true]
    rw [neg_neg, arithS_ok' (inS_reg h (by omega) (by omega))]
    simp only []
    rw [wrapS_of_inS (by have := h.H_pos; omega) (inS_reg h (by omega) (by omega))]
    rfl
  have hk : kOf ((c.N : ℤ) - 2) = c.N - 1 := by unfold kOf; rw [if_neg (by omega)]; omega
  rw [heq]
  constructor
  · intro hlt
    rw [packLowRegular_ones h (by positivity) (by positivity) (by omega) (by omega) (by omega) (by omega)]
    unfold Cfg.infPat
    rw [if_pos hs]
    apply congrArg Except.ok
    by_cases hn : v < 0 <;> simp [hn] <;> omega
  · intro hle
    exact packLowRegular_long h (by positivity) (by omega) (by omega)

/-- `twice` of the greatest magnitudes for `es = 0` -/
theorem twice_greatest (h : c.WF) (he0 : c.es = 0) {v : ℤ} (hv : v.natAbs = c.fmt.maxBody) :
    (c.spec = .withNanInf → c.N + 1 < pw c.H → Posit.twice c v = .ok (c.infPat (v < 0))) ∧
    (c.spec = .withNanInf → pw c.H ≤ c.N + 1 → Posit.twice c v = .error .shiftAmount) ∧
    (c.spec ≠ .withNanInf → c.N + 2 < pw c.H → Posit.twice c v = .ok v) ∧
    (c.spec ≠ .withNanInf → pw c.H ≤ c.N + 2 → Posit.twice c v = .error .shiftAmount) := by
  have hN3 := h.N_ge
  have hm1 := one_le_maxBody h
  have hr : c.fmt.IsReal v := by rw [Format.isReal_iff]; omega
  obtain ⟨r, x, w, hl⟩ := low_real h hr (by omega)
  obtain ⟨he, hw⟩ := low_pow2 hl (abs_val_max h hv)
  obtain ⟨r', x', hx', he', heq⟩ := twice_low h hl
  rw [he] at he'
  have hx0 : x' = 0 := by rw [he0] at hx'; omega
  have hr' : r' = c.topExp + 1 := by rw [he0, hx0] at he'; simpa using he'
  have htop : c.topExp = if c.spec = .withNanInf then (c.N : ℤ) - 3 else (c.N : ℤ) - 2 := by
    unfold Cfg.topExp Cfg.maxScale
    rw [he0]
    split_ifs <;> push_cast [Nat.cast_sub (show 2 ≤ c.N by omega)] <;> ring
  rw [heq, packLowRegular_of_packLow]
  refine ⟨fun hs hlt => ?_, fun hs hle => ?_, fun hs hlt => ?_, fun hs hle => ?_⟩
  · rw [if_pos hs] at htop
    have hk : kOf r' = c.N - 1 := by unfold kOf; rw [if_neg (by omega)]; omega
    rw [packLowRegular_ones h hx' hl.w_lt (by omega) (by omega) (by omega) (by omega)]
    unfold Cfg.infPat
    rw [if_pos hs]
    apply congrArg Except.ok
    by_cases hn : v < 0 <;> simp [hn] <;> omega
  · rw [if_pos hs] at htop
    have hk : kOf r' = c.N - 1 := by unfold kOf; rw [if_neg (by omega)]; omega
    exact packLowRegular_long h hx' (by omega) (by omega)
  · rw [if_neg hs] at htop
    have hk : kOf r' = c.N := by unfold kOf; rw [if_neg (by omega)]; omega
    rw [packLowRegular_ones h hx' hl.w_lt (by omega) (by omega) (by omega) (by omega)]
    have hmx : (c.fmt.maxBody : ℤ) = 2 ^ (c.N - 1) - 1 := by
      rw [← maxpos_eq h]; unfold Cfg.maxpos; rw [h.topRight_eq, if_neg hs, sub_zero]
    rw [← hmx]
    apply congrArg Except.ok
    by_cases hn : v < 0 <;> simp only [hn, decide_true, decide_false, if_true, Bool.false_eq_true, if_false] <;> omega
  · rw [if_neg hs] at htop
    have hk : kOf r' = c.N := by unfold kOf; rw [if_neg (by omega)]; omega
    exact packLowRegular_long h hx' (by omega) (by omega)

/-- `twice` where the shifts of `pack_low` are out of range -/
theorem twice_ub (h : c.WF) {v : ℤ} (hv : c.fmt.IsReal v) (h0 : v ≠ 0) (hz : ¬ (c.es = 0 ∧ v.natAbs = c.fmt.maxBody))
    (hs : ¬ c.SafeMag (2 * c.fmt.val v)) : Posit.twice c v = .error .shiftAmount := by
  obtain ⟨r, x, w, hl⟩ := low_real h hv h0
  obtain ⟨r', x', hx', he', heq⟩ := twice_low h hl
  have htop := topExp_le h
  have hN3 := h.N_ge
  have hN := h.hN
  have hpos : (0 : ℤ) < 2 ^ c.es := by positivity
  have hlo := hl.e_lo
  have hhi := hl.e_hi
  have hval : |2 * c.fmt.val v| = mag c.H (2 ^ c.es * r' + x') w := by
    rw [he', mag_succ, ← hl.val, abs_mul, abs_two]
  have hmax : 2 ^ c.es * r + (x : ℤ) = c.topExp → v.natAbs = c.fmt.maxBody := by
    intro he
    have h1 : (2 : ℚ) ^ c.topExp ≤ posVal c.N c.es v.natAbs := by
      rw [← he]
      have := hl.val
      rw [Format.abs_val hv.inRange h0] at this
      simp only [fmt_N, fmt_es] at this
      rw [this]; exact le_mag _ _ _
    rw [← posVal_maxBody h] at h1
    have h2 := (posVal_le_iff (one_le_maxBody h) (Format.maxBody_lt c.fmt) (by omega) hv.natAbs_lt).mp h1
    have := hv.natAbs_le
    omega
  rw [← SafeMag_abs, hval] at hs
  rw [heq]
  by_cases hin : 2 ^ c.es * r' + (x' : ℤ) ≤ c.maxScale ∧ (c.spec = .withNanInf → 2 ^ c.es * r' + (x' : ℤ) < c.maxScale)
  · exact (packLow_trunc h (v < 0) hx' hl.w_lt (by omega) hin.1 hin.2).2 hs
  · have hni : c.spec ≠ .withNanInf := by
      intro hsp
      have ht : c.topExp = c.maxScale - 2 ^ c.es := by unfold Cfg.topExp; rw [if_pos hsp]
      have hes0 : c.es = 0 := by
        by_contra hne
        have : (2 : ℤ) ^ 1 ≤ 2 ^ c.es := pow_le_pow_right₀ (by norm_num) (by omega)
        apply hin
        refine ⟨by omega, fun _ => by omega⟩
      have : 2 ^ c.es * r + (x : ℤ) = c.topExp := by
        by_contra hne
        apply hin
        have : (1 : ℤ) ≤ 2 ^ c.es := by omega
        refine ⟨by omega, fun _ => by omega⟩
      exact hz ⟨hes0, hmax this⟩
    have ht : c.topExp = c.maxScale := by unfold Cfg.topExp; rw [if_neg hni]
    have hexp : 2 ^ c.es * r' + (x' : ℤ) = c.maxScale + 1 := by
      by_contra hne
      apply hin
      exact ⟨by omega, fun hh => absurd hh hni⟩
    have hvm := hmax (by omega)
    have hes0 : c.es ≠ 0 := fun hh => hz ⟨hh, hvm⟩
    have hxi : (x' : ℤ) < 2 ^ c.es := by exact_mod_cast hx'
    have hr' : r' = (c.N : ℤ) - 2 := by
      rw [maxScale_eq h] at hexp
      have : (2 : ℤ) ^ 1 ≤ 2 ^ c.es := pow_le_pow_right₀ (by norm_num) (by omega)
      have a1 : 2 ^ c.es * (r' - ((c.N : ℤ) - 2)) < 2 ^ c.es * 1 := by nlinarith
      have a2 := lt_of_mul_lt_mul_left a1 hpos.le
      have a3 : 2 ^ c.es * (-1) < 2 ^ c.es * (r' - ((c.N : ℤ) - 2)) := by nlinarith
      have a4 := lt_of_mul_lt_mul_left a3 hpos.le
      omega
    have hk : kOf r' = c.N - 1 := by unfold kOf; rw [if_neg (by omega)]; omega
    rw [packLowRegular_of_packLow]
    refine packLowRegular_long h hx' (by omega) ?_
    by_contra hc
    refine hs (safeMag_of_narrow h (by omega) _)

/-- a pattern that is no number -/
theorem special_of_not_real (h : c.WF) {v : ℤ} (hv : c.fmt.IsCanonical v) (hr : ¬ c.fmt.IsReal v) :
    Posit.isNaN c v = true ∨ Posit.isInfinity c v = true := by
  rcases unpack_cases h hv with rfl | ⟨-, hr', -⟩ | ⟨hi, -, -⟩ | ⟨hn, -⟩
  · exact absurd (by unfold Format.IsReal; omega) hr
  · exact absurd hr' hr
  · exact Or.inr hi
  · exact Or.inl hn

/-- `inv` gives a pattern that is no number back -/
theorem inv_special (h : c.WF) {v : ℤ} (hv : c.fmt.IsCanonical v) (hr : ¬ c.fmt.IsReal v) : Posit.inv c v = .ok v := by
  have hm := Format.maxBody_lt c.fmt
  rw [fmt_N] at hm
  zify at hm
  have hN1 := h.nan_eq
  by_cases hn : Posit.isNaN c v = true
  · have hi : Posit.isInfinity c v = false := by
      unfold Posit.isNaN at hn
      rw [h.nan_eq] at hn
      simp at hn
      have hg := h.pow_ge
      unfold Posit.isInfinity
      rw [h.pinf_eq, h.ninf_eq]
      cases hc : c.spec
      · rfl
      · exact absurd hc hn.1
      · have h1 : ¬ (v = 2 ^ (c.N - 1) - 1) := by omega
        have h2 : ¬ (v = -(2 ^ (c.N - 1)) + 1) := by omega
        simp [h1, h2]
    have hl : Posit.unpackLow c v = .ok { ty := .nan } := by
      unfold Posit.unpackLow
      rw [hi, hn]; rfl
    unfold Posit.inv
    rw [hl]
    simp only [bind, Except.bind, if_true]
    rw [show -(0 : ℤ) = 0 from rfl, arithS_ok' (inS_zero c.H)]
    simp only []
    unfold Posit.packLow
    simp only []
    unfold Posit.isNaN at hn
    simp at hn
    rw [hn.2, if_pos hn.1]
  · have hi := (special_of_not_real h hv hr).resolve_left hn
    have hs : c.spec ≠ .withNan := by
      intro hs
      unfold Posit.isInfinity at hi
      simp [hs] at hi
    obtain ⟨s, rfl⟩ : ∃ s, v = c.infPat s := by
      unfold Posit.isInfinity at hi
      rw [h.pinf_eq, h.ninf_eq] at hi
      unfold Cfg.infPat Cfg.topPat
      cases hc : c.spec
      · exact absurd hc hs
      · simp [hc] at hi
        exact ⟨true, by simp; omega⟩
      · simp [hc] at hi
        rcases hi with hi | hi
        · exact ⟨false, by simp; omega⟩
        · exact ⟨true, by simp; omega⟩
    exact (C16_inv_zero_inf h).2.2.2 hs s

end Verif
