import Verif.Lemmas.Ops

/-! # Operations on the low-level triple: `inv`, `half`, `twice` -/

namespace Verif
open Fmt

variable {c : Cfg}

/-- the same posit with the holder as fraction type and no infinities: what `pack_low` works with -/
def Cfg.full (c : Cfg) : Cfg := { c with F := c.H, spec := .withNan }

theorem full_wf (h : c.WF) : c.full.WF :=
  ⟨h.hH, h.hH, h.hN, h.hes, h.h64, h.hes30, h.hscale⟩

theorem full_packBound : c.full.packBound = c.packBound := rfl
theorem full_maxScale : c.full.maxScale = c.maxScale := rfl
theorem full_topExp : c.full.topExp = c.maxScale := rfl
theorem full_N : c.full.fmt.N = c.N := rfl
theorem full_es : c.full.fmt.es = c.es := rfl
theorem full_F : c.full.F = c.H := rfl
theorem full_maxBody : c.full.fmt.maxBody = 2 ^ (c.N - 1) - 1 := rfl

theorem packLow_full (x : Low) (hx : x.ty = .regular) : Posit.packLow c x = Posit.packLow c.full x := by
  unfold Posit.packLow
  rw [hx]
  rfl

/-- fields of a decoded real posit, low level -/
structure Lows (c : Cfg) (v : ℤ) (r : ℤ) (x w : ℕ) : Prop where
  eq : Posit.unpackLow c v = .ok (Low.mk .regular (v < 0) r x w)
  x_lt : x < 2 ^ c.es
  w_lt : w < 2 ^ c.H
  dvd : 2 ^ (c.H - c.fb) ∣ w
  val : |c.fmt.val v| = mag c.H (2 ^ c.es * r + x) w
  r_lo : -((c.N : ℤ) - 2) ≤ r
  r_hi : r ≤ (c.N : ℤ) - 2
  e_lo : -(c.maxScale : ℤ) ≤ 2 ^ c.es * r + x
  e_hi : 2 ^ c.es * r + x ≤ c.topExp
  unp : Unpacks c v (2 ^ c.es * r + x) (w * 2 ^ c.F / 2 ^ c.H)

theorem low_real (h : c.WF) {v : ℤ} (hv : c.fmt.IsReal v) (h0 : v ≠ 0) : ∃ r x w, Lows c v r x w := by
  have hN := h.hN
  have hN3 := h.N_ge
  obtain ⟨r, m, rest, hd⟩ := exists_dec (M := c.N - 1) (p := v.natAbs) (by omega) (real_inRange hv)
  obtain ⟨hinf, hnan⟩ := real_not_special h hv
  have hlow := unpackLow_body h (real_inRange hv) h0 hinf hnan hd
  obtain ⟨hx, hdvd, hval⟩ := lowW_fields h hd
  obtain ⟨hr1, hr2⟩ := hd.r_range
  obtain ⟨e, f, hu⟩ := unpack_real h hv h0
  have hwlt : lowW c m rest % 2 ^ c.H < 2 ^ c.H := Nat.mod_lt _ (by positivity)
  have heq := hu.eq
  unfold Posit.unpack at heq
  rw [hlow] at heq
  simp only [bind, Except.bind] at heq
  unfold Posit.low2full at heq
  rw [if_pos rfl, castMsb_eq h.H_pos h.hF hwlt] at heq
  simp only [bind, Except.bind, pure, Except.pure] at heq
  rw [joinRegExp_eq h (by omega) (by omega) hx] at heq
  simp only [Except.ok.injEq, Unp.mk.injEq, true_and] at heq
  refine ⟨r, _, _, hlow, hx, hwlt, hdvd, ?_, by omega, by omega, ?_, ?_, ?_⟩
  · rw [Format.abs_val hv.inRange h0]; exact hval
  · rw [heq.1]; exact hu.e_lo
  · rw [heq.1]; exact hu.e_hi
  · rw [heq.1, heq.2]; exact hu

/-- `pack_low` without clamping is `pack_posit` of the full-width posit -/
theorem packLow_eq_pack (h : c.WF) {neg : Bool} {r : ℤ} {x w : ℕ} (hx : x < 2 ^ c.es) (hw : w < 2 ^ c.H)
    (h1 : -(c.maxScale : ℤ) ≤ 2 ^ c.es * r + x) (h2 : 2 ^ c.es * r + x ≤ c.maxScale) :
    Posit.packLow c (Low.mk .regular neg r x w) = Posit.pack c.full ⟨.regular, neg, 2 ^ c.es * r + x, w⟩ := by
  have hf := full_wf h
  have hp : (0 : ℤ) < 2 ^ c.es := by positivity
  have hxi : (x : ℤ) < 2 ^ c.es := by exact_mod_cast hx
  rw [packLow_full _ rfl]
  unfold Posit.pack Posit.full2low
  simp only [if_true]
  have hcl : Posit.clamp (2 ^ c.es * r + x) c.full.minexponent c.full.maxexponent = 2 ^ c.es * r + x := by
    rw [minexponent_eq hf, maxexponent_eq hf]
    unfold Posit.clamp
    have : c.full.spec ≠ .withNanInf := by unfold Cfg.full; simp
    rw [if_neg this, full_maxScale, if_neg (by omega), if_neg (by omega)]
  rw [hcl, splitRegExp_eq hf (by rw [full_maxScale]; omega) (by rw [full_maxScale]; omega),
    castMsb_eq hf.F_pos hf.hH (by exact hw)]
  simp only [bind, Except.bind, pure, Except.pure]
  have e1 : (2 ^ c.es * r + (x : ℤ)) / 2 ^ c.full.es = r := by
    change (2 ^ c.es * r + (x : ℤ)) / 2 ^ c.es = r
    rw [add_comm, Int.add_mul_ediv_left _ _ hp.ne', Int.ediv_eq_zero_of_lt (by omega) hxi, zero_add]
  have e2 : ((2 ^ c.es * r + (x : ℤ)) % 2 ^ c.full.es).toNat = x := by
    change ((2 ^ c.es * r + (x : ℤ)) % 2 ^ c.es).toNat = x
    rw [add_comm, Int.add_mul_emod_self_left, Int.emod_eq_of_lt (by omega) hxi]; rfl
  have e3 : w * 2 ^ c.full.H / 2 ^ c.full.F = w := by
    change w * 2 ^ c.H / 2 ^ c.H = w
    exact Nat.mul_div_cancel _ (by positivity)
  rw [e1, e2, e3]

/-- a truncation in the full format that is not the top pattern is one in the format itself -/
theorem TruncB.of_full {y : ℚ} {p : ℕ} (ht : c.full.fmt.TruncB y p) (hp : p ≤ c.fmt.maxBody) : c.fmt.TruncB y p := by
  have hle : c.fmt.maxBody ≤ c.full.fmt.maxBody := by
    rw [full_maxBody]
    unfold Format.maxBody
    simp only [fmt_N]
    split_ifs <;> omega
  exact ⟨ht.one_le, hp, fun q h1 h2 h3 => ht.greatest q h1 (h2.trans hle) h3, ht.below⟩

theorem full_safe {e : ℤ} (hs : c.PackSafe e) (he : e ≤ c.topExp) : c.full.PackSafe e := by
  unfold Cfg.PackSafe at *
  rw [full_packBound, full_maxScale, full_topExp]
  omega

theorem safe_of_full (h : c.WF) {e : ℤ} (hs : c.full.PackSafe e) : c.PackSafe e := by
  have := topExp_le h
  unfold Cfg.PackSafe at *
  rw [full_packBound, full_maxScale, full_topExp] at hs
  omega

/-- `pack_low` on an exponent in the range of the format -/
theorem packLow_real (h : c.WF) (neg : Bool) {r : ℤ} {x w : ℕ} (hx : x < 2 ^ c.es) (hw : w < 2 ^ c.H)
    (h1 : -(c.maxScale : ℤ) ≤ 2 ^ c.es * r + x) (h2 : 2 ^ c.es * r + x ≤ c.topExp)
    (hlt : mag c.H (2 ^ c.es * r + x) w < 2 ^ c.maxScale ∨ c.spec ≠ .withNanInf)
    (hs : c.PackSafe (2 ^ c.es * r + x)) :
    ∃ p : ℕ, Posit.packLow c (Low.mk .regular neg r x w) = .ok (if neg then -(p : ℤ) else p) ∧
      c.fmt.TruncB (mag c.H (2 ^ c.es * r + x) w) p := by
  have htop := topExp_le h
  rw [packLow_eq_pack h hx hw h1 (by omega)]
  obtain ⟨p, hp, ht⟩ := pack_regular (full_wf h) neg (by exact hw) (full_safe hs h2)
  refine ⟨p, hp, TruncB.of_full ht ?_⟩
  have hle := ht.le_max
  rw [full_maxBody] at hle
  unfold Format.maxBody
  simp only [Cfg.fmt]
  by_cases hn : c.spec = .withNanInf
  · simp only [hn, decide_true, if_true]
    have hlt' := hlt.resolve_right (by simp [hn])
    by_contra hc
    have h4 : 4 ≤ 2 ^ (c.N - 1) := by have := h.pow_ge; exact_mod_cast this
    have hpe : p = c.full.fmt.maxBody := by rw [full_maxBody]; omega
    rcases ht.below with hb | hb
    · rw [hpe] at hb
      have := posVal_maxBody (full_wf h)
      rw [full_topExp] at this
      simp only [full_N, full_es] at hb
      change posVal c.N c.es _ = _ at this
      rw [this] at hb
      unfold mag at hlt'
      rw [zpow_natCast] at hb
      exact absurd (lt_of_le_of_lt hb hlt') (lt_irrefl _)
    · rw [full_maxBody] at hpe; omega
  · simp only [hn, decide_false, Bool.false_eq_true, if_false]; exact hle

theorem mag_zero (F : ℕ) (e : ℤ) : mag F e 0 = 2 ^ e := by unfold mag; simp

/-! ## `inv` -/

/-- `Unpacked::inv` of a number with a nonzero fraction is the division of one by it -/
theorem inv_eq_div {F E : ℕ} {neg : Bool} {e : ℤ} {f : ℕ} (hF : 1 ≤ F) (hf : f < 2 ^ F) (h2 : 2 ∣ f) (h0 : f ≠ 0)
    (hE : InS E (-e)) :
    Unp.inv F E ⟨.regular, neg, e, f⟩ = Unp.divRegular F E ⟨.regular, false, 0, 0⟩ ⟨.regular, neg, e, f⟩ := by
  have hp := two_pow_pred_nat hF
  unfold Unp.inv Unp.divRegular
  simp only [h0, if_false]
  rw [mant1 hF hf]
  have hlt : Unp.leftmost F < 2 ^ (F - 1) + f / 2 := by unfold Unp.leftmost; omega
  have hz : Unp.leftmost F ||| 0 >>> 1 = Unp.leftmost F := by simp
  simp only [hz, hlt, if_true, zero_sub, arithS_ok' hE, bind, Except.bind, Bool.false_xor]
  rfl

/-- `inv()` on real posits -/
theorem inv_real (h : c.WF) (hF : c.fb + 2 ≤ c.F) {v : ℤ} (hv : c.fmt.IsReal v) (h0 : v ≠ 0)
    (hni : c.spec = .withNanInf → |c.fmt.val v| ≠ 2 ^ (-(c.maxScale : ℤ))) :
    (c.SafeMag (1 / c.fmt.val v) →
      ∃ w, Posit.inv c v = .ok w ∧ c.fmt.IsTrunc (1 / c.fmt.val v) w) ∧
    (¬ c.SafeMag (1 / c.fmt.val v) → Posit.inv c v = .error .shiftAmount) := by
  obtain ⟨r, x, w, hl⟩ := low_real h hv h0
  have hE8 := E_ge h
  have hF8 := h.F_pos
  have hH8 := h.H_pos
  have hN3 := h.N_ge
  have hN := h.hN
  have htop := topExp_le h
  have hle := two_pow_es_le h
  have hp : (0 : ℤ) < 2 ^ c.es := by positivity
  have hxi : (x : ℤ) < 2 ^ c.es := by exact_mod_cast hl.x_lt
  have hvpos : 0 < |c.fmt.val v| := by rw [hl.val]; exact mag_pos _ _ _
  have hsgn : (if decide (v < 0) then -1 else 1 : ℚ) * (1 / |c.fmt.val v|) = 1 / c.fmt.val v := by
    by_cases hn : v < 0
    · simp only [hn, decide_true, if_true]
      rw [abs_of_neg ((Format.val_neg_iff hv.inRange).mpr hn), div_neg]; ring
    · simp only [hn, decide_false, Bool.false_eq_true, if_false]
      rw [abs_of_pos ((Format.val_pos_iff hv.inRange).mpr (by omega))]; ring
  have hsafe : c.SafeMag (1 / c.fmt.val v) ↔ c.SafeMag (1 / |c.fmt.val v|) := by
    rw [← SafeMag_abs, abs_div, abs_one]
  have hpos' : 0 < 1 / |c.fmt.val v| := by positivity
  unfold Posit.inv
  rw [hl.eq]
  simp only [bind, Except.bind]
  by_cases hw0 : w = 0
  · -- powers of two
    simp only [hw0, if_true]
    have hval : |c.fmt.val v| = 2 ^ (2 ^ c.es * r + (x : ℤ)) := by rw [hl.val, hw0, mag_zero]
    have hinv : 1 / |c.fmt.val v| = 2 ^ (-(2 ^ c.es * r + (x : ℤ))) := by rw [hval, zpow_neg, one_div]
    have hnlt : -(2 ^ c.es * r + (x : ℤ)) < c.maxScale ∨ c.spec ≠ .withNanInf := by
      by_cases hs : c.spec = .withNanInf
      · left
        have := hni hs
        rw [hval] at this
        have hne : 2 ^ c.es * r + (x : ℤ) ≠ -(c.maxScale : ℤ) := fun hh => this (by rw [hh])
        have := hl.e_lo
        omega
      · exact Or.inr hs
    have hend : ∀ {r' : ℤ} {x' : ℕ}, x' < 2 ^ c.es → 2 ^ c.es * r' + (x' : ℤ) = -(2 ^ c.es * r + (x : ℤ)) →
        (c.SafeMag (1 / c.fmt.val v) → ∃ w, Posit.packLow c (Low.mk .regular (v < 0) r' x' 0) = .ok w ∧
          c.fmt.IsTrunc (1 / c.fmt.val v) w) ∧
        (¬ c.SafeMag (1 / c.fmt.val v) → Posit.packLow c (Low.mk .regular (v < 0) r' x' 0) = .error .shiftAmount) := by
      intro r' x' hx' he'
      have hz : 0 < 2 ^ c.H := by positivity
      have hlo' : -(c.maxScale : ℤ) ≤ 2 ^ c.es * r' + x' := by have := hl.e_hi; omega
      have hhi' : 2 ^ c.es * r' + x' ≤ c.maxScale := by have := hl.e_lo; omega
      rw [packLow_eq_pack h hx' hz hlo' hhi', hsafe, hinv, ← he']
      have hb : ∀ e : ℤ, |(2 : ℚ) ^ e| = 2 ^ e := fun e => abs_of_pos (by positivity)
      constructor
      · intro hs
        have hps : c.PackSafe (2 ^ c.es * r' + x') := packSafe_of_safeMag hs (by rw [hb]) (by
          rw [hb]; exact zpow_lt_zpow_right₀ (by norm_num) (by omega))
        have hps' : c.full.PackSafe (2 ^ c.es * r' + x') := by
          by_cases hsp : c.spec = .withNanInf
          · have hlt := hnlt.resolve_right (by simp [hsp])
            -- an exponent above topExp is still below the bound
            unfold Cfg.PackSafe at *
            rw [full_packBound, full_maxScale, full_topExp]
            refine ⟨hps.1, ?_⟩
            rcases hps.2 with hh | hh
            · exact Or.inl hh
            · left
              unfold Cfg.topExp at hh
              rw [if_pos hsp] at hh
              have hd1 : (2 ^ c.es : ℤ) ∣ c.packBound := by
                unfold Cfg.packBound; push_cast; exact Dvd.intro _ rfl
              have hd2 : (2 ^ c.es : ℤ) ∣ c.maxScale := by
                unfold Cfg.maxScale; push_cast; exact Dvd.intro _ rfl
              obtain ⟨t1, ht1⟩ := hd1
              obtain ⟨t2, ht2⟩ := hd2
              rw [ht1, ht2] at hh
              rw [ht2] at hlt
              rw [ht1]
              have : t2 ≤ t1 := by
                by_contra hc
                have : t1 + 1 ≤ t2 := by omega
                nlinarith
              nlinarith
          · apply full_safe hps
            unfold Cfg.topExp; rw [if_neg hsp]; exact hhi'
        obtain ⟨p, hp, ht⟩ := pack_regular (full_wf h) (v < 0) (f := 0) (by positivity) hps'
        refine ⟨_, hp, ?_⟩
        have ht' : c.full.fmt.TruncB (1 / |c.fmt.val v|) p := by
          rw [hinv, ← he']; simpa using ht
        have hpm : p ≤ c.fmt.maxBody := by
          have hle := ht.le_max
          rw [full_maxBody] at hle
          unfold Format.maxBody
          simp only [Cfg.fmt]
          by_cases hn : c.spec = .withNanInf
          · simp only [hn, decide_true, if_true]
            have hlt' := hnlt.resolve_right (by simp [hn])
            by_contra hc
            have h4 : 4 ≤ 2 ^ (c.N - 1) := by have := h.pow_ge; exact_mod_cast this
            have hpe : p = c.full.fmt.maxBody := by rw [full_maxBody]; omega
            rcases ht'.below with hb' | hb'
            · rw [hpe] at hb'
              have := posVal_maxBody (full_wf h)
              rw [full_topExp] at this
              simp only [full_N, full_es] at hb'
              change posVal c.N c.es _ = _ at this
              rw [this, hinv, zpow_le_zpow_iff_right₀ (by norm_num)] at hb'
              omega
            · rw [full_maxBody] at hpe; omega
          · simp only [hn, decide_false, Bool.false_eq_true, if_false]; exact hle
        have := Format.IsTrunc.of_sign (v < 0) hpos' (TruncB.of_full ht' hpm)
        rwa [hsgn] at this
      · intro hs
        refine pack_regular_ub (full_wf h) _ hz fun hp => hs ?_
        exact safeMag_of_packSafe (by rw [hb]) (by
          rw [hb]; exact zpow_lt_zpow_right₀ (by norm_num) (by omega)) (safe_of_full h hp)
    have hrw : ∀ {y : ℤ}, -(c.N : ℤ) ≤ y → y ≤ c.N → InS c.H y := by
      intro y hy1 hy2
      have h4 : (c.N : ℤ) < 2 ^ (c.H - 1) := by
        have h1 : c.N < 2 ^ (c.H - 1) := by
          have : c.H - 1 < 2 ^ (c.H - 1) := Nat.lt_two_pow_self
          have hcases := h.hH
          rcases hcases with hh | hh | hh | hh <;> rw [hh] at hN ⊢ <;> norm_num <;> omega
        exact_mod_cast h1
      unfold InS; omega
    have r1 := hl.r_lo
    have r2 := hl.r_hi
    by_cases hx0 : x = 0
    · simp only [hx0, if_true]
      rw [arithS_ok' (hrw (by omega) (by omega))]
      simp only []
      rw [wrapS_of_inS (by omega) (hrw (by omega) (by omega))]
      apply hend
      · positivity
      · rw [hx0]; push_cast; ring
    · simp only [hx0, if_false]
      rw [arithS_ok' (hrw (by omega) (by omega))]
      simp only []
      rw [wrapS_of_inS (by omega) (hrw (by omega) (by omega))]
      have hes : 2 ^ c.es ≤ 2 ^ c.H := Nat.pow_le_pow_right (by norm_num) (by have := h.hes; omega)
      have hxl := hl.x_lt
      have e1 : wrapU c.H ((c.regScale : ℤ) - x) = 2 ^ c.es - x := by
        unfold Cfg.regScale
        rw [← Nat.cast_sub hxl.le, wrapU_natCast (by omega)]
      rw [e1]
      apply hend
      · omega
      · rw [Nat.cast_sub hxl.le]; push_cast; ring
  · -- general case
    simp only [hw0, if_false]
    have hu := hl.unp
    set e := 2 ^ c.es * r + (x : ℤ) with he
    set f := w * 2 ^ c.F / 2 ^ c.H with hf
    have hl2 : Posit.low2full c (Low.mk .regular (v < 0) r x w) = .ok ⟨.regular, v < 0, e, f⟩ := by
      have := hu.eq
      unfold Posit.unpack at this
      rw [hl.eq] at this
      simpa only [bind, Except.bind] using this
    rw [hl2]
    simp only []
    have hf0 : f ≠ 0 := by
      intro hf0
      have h1 := hu.val (by omega)
      rw [hf0, hl.val] at h1
      unfold mag at h1
      have h2 : (0 : ℚ) < 2 ^ e := by positivity
      have h3 := mul_left_cancel₀ h2.ne' h1
      have : (w : ℚ) / 2 ^ c.H = 0 := by push_cast at h3; simpa using h3
      rw [div_eq_zero_iff] at this
      rcases this with h4 | h4
      · exact hw0 (by exact_mod_cast h4)
      · exact absurd h4 (by positivity)
    have hea := hu.e_abs h
    rw [abs_le] at hea
    rw [inv_eq_div (by omega) hu.f_lt (hu.dvd_pow (k := 1) (by omega)) hf0 (inS_wide h (by rw [abs_le]; omega))]
    obtain ⟨e', f', u, Y, heq, hf', hu', hm, hy1, hy2⟩ := divRegular_eq (na := false) (nb := v < 0) (E := c.E) (ea := 0)
      (fa := 0) (by omega) (by omega) (by positivity) hu.f_lt (by norm_num) (hu.dvd_pow (k := 2) (by omega))
      (inS_wide h (x := 0 - e) (by rw [abs_le]; omega)) (inS_wide h (x := 0 - e - 1) (by rw [abs_le]; omega))
    rw [heq, Bool.false_xor]
    rw [mag_zero, zpow_zero, ← hu.abs_val (by omega)] at hy1 hy2
    simp only []
    rw [hsafe]
    constructor
    · intro hs
      obtain ⟨p, hp, ht⟩ := pack_of_unit h (v < 0) hf' (le_trans (Nat.pow_le_pow_right (by norm_num) (by omega)) hu') hm hy1 hy2 hs
      refine ⟨_, hp, ?_⟩
      have := Format.IsTrunc.of_sign (v < 0) hpos' ht
      rwa [hsgn] at this
    · intro hs
      exact pack_safe_iff h hf' (le_trans Nat.one_le_two_pow hu') hm hy1 hy2 hs

end Verif
