import Verif.Lemmas.Low

/-! # `half` and `twice` on the low-level triple -/

namespace Verif
open Fmt

variable {c : Cfg}

/-- `pack_low` for exponents up to `±maxScale` -/
theorem packLow_trunc (h : c.WF) (neg : Bool) {r : ℤ} {x w : ℕ} (hx : x < 2 ^ c.es) (hw : w < 2 ^ c.H)
    (h1 : -(c.maxScale : ℤ) ≤ 2 ^ c.es * r + x) (h2 : 2 ^ c.es * r + x ≤ c.maxScale)
    (hlt : c.spec = .withNanInf → 2 ^ c.es * r + (x : ℤ) < c.maxScale) :
    (c.SafeMag (mag c.H (2 ^ c.es * r + x) w) →
      ∃ p : ℕ, Posit.packLow c (Low.mk .regular neg r x w) = .ok (if neg then -(p : ℤ) else p) ∧
        c.fmt.TruncB (mag c.H (2 ^ c.es * r + x) w) p) ∧
    (¬ c.SafeMag (mag c.H (2 ^ c.es * r + x) w) →
      Posit.packLow c (Low.mk .regular neg r x w) = .error .shiftAmount) := by
  rw [packLow_eq_pack h hx hw h1 h2]
  set e := 2 ^ c.es * r + (x : ℤ) with he
  have hm1 := le_mag c.H e w
  have hm2 := mag_lt (e := e) hw
  have hmp := mag_pos c.H e w
  have habs : |mag c.H e w| = mag c.H e w := abs_of_pos hmp
  constructor
  · intro hs
    have hps : c.PackSafe e := packSafe_of_safeMag hs (by rw [habs]; exact hm1) (by rw [habs]; exact hm2)
    have hps' : c.full.PackSafe e := by
      by_cases hsp : c.spec = .withNanInf
      · have hlt := hlt hsp
        unfold Cfg.PackSafe at *
        rw [full_packBound, full_maxScale, full_topExp]
        refine ⟨hps.1, ?_⟩
        rcases hps.2 with hh | hh
        · exact Or.inl hh
        · left
          unfold Cfg.topExp at hh
          rw [if_pos hsp] at hh
          have hd1 : (2 ^ c.es : ℤ) ∣ c.packBound := by
            unfold Cfg.packBound; push_cast; exact Dvd.intro _ rfl
          have hd2 : (2 ^ c.es : ℤ) ∣ c.maxScale := by
            unfold Cfg.maxScale; push_cast; exact Dvd.intro _ rfl
          obtain ⟨t1, ht1⟩ := hd1
          obtain ⟨t2, ht2⟩ := hd2
          have hp : (0 : ℤ) < 2 ^ c.es := by positivity
          rw [ht1, ht2] at hh
          rw [ht2] at hlt
          rw [ht1]
          have : t2 ≤ t1 := by
            by_contra hc
            have : t1 + 1 ≤ t2 := by omega
            nlinarith
          nlinarith
      · apply full_safe hps
        unfold Cfg.topExp; rw [if_neg hsp]; exact h2
    obtain ⟨p, hp, ht⟩ := pack_regular (full_wf h) neg (f := w) (by exact hw) hps'
    refine ⟨p, hp, TruncB.of_full ht ?_⟩
    have hle := ht.le_max
    rw [full_maxBody] at hle
    unfold Format.maxBody
    simp only [Cfg.fmt]
    by_cases hn : c.spec = .withNanInf
    · simp only [hn, decide_true, if_true]
      have hlt' := hlt hn
      by_contra hc
      have h4 : 4 ≤ 2 ^ (c.N - 1) := by have := h.pow_ge; exact_mod_cast this
      have hpe : p = c.full.fmt.maxBody := by rw [full_maxBody]; omega
      rcases ht.below with hb' | hb'
      · rw [hpe] at hb'
        have := posVal_maxBody (full_wf h)
        rw [full_topExp] at this
        simp only [full_N, full_es] at hb'
        change posVal c.N c.es _ = _ at this
        rw [this] at hb'
        have h3 : (2 : ℚ) ^ (e + 1) ≤ 2 ^ (c.maxScale : ℤ) := zpow_le_zpow_right₀ (by norm_num) (by omega)
        exact absurd (lt_of_le_of_lt (le_trans h3 hb') hm2) (lt_irrefl _)
      · rw [full_maxBody] at hpe; omega
    · simp only [hn, decide_false, Bool.false_eq_true, if_false]; exact hle
  · intro hs
    refine pack_regular_ub (full_wf h) _ hw fun hp => hs ?_
    exact safeMag_of_packSafe (by rw [habs]; exact hm1) (by rw [habs]; exact hm2) (safe_of_full h hp)

theorem mag_succ (F : ℕ) (e : ℤ) (w : ℕ) : mag F (e + 1) w = 2 * mag F e w := by
  unfold mag; rw [zpow_add₀ (by norm_num), zpow_one]; ring

theorem mag_pred (F : ℕ) (e : ℤ) (w : ℕ) : mag F (e - 1) w = mag F e w / 2 := by
  unfold mag; rw [zpow_sub₀ (by norm_num), zpow_one]; ring

theorem inS_reg (h : c.WF) {y : ℤ} (hy1 : -(c.N : ℤ) ≤ y) (hy2 : y ≤ c.N) : InS c.H y := by
  have hN := h.hN
  have h4 : (c.N : ℤ) < 2 ^ (c.H - 1) := by
    have h1 : c.N < 2 ^ (c.H - 1) := by
      have hcases := h.hH
      rcases hcases with hh | hh | hh | hh <;> rw [hh] at hN ⊢ <;> norm_num <;> omega
    exact_mod_cast h1
  unfold InS; omega

/-- `half` is `pack_low` of the exponent minus one -/
theorem half_low (h : c.WF) {v r : ℤ} {x w : ℕ} (hl : Lows c v r x w) :
    ∃ r' : ℤ, ∃ x' : ℕ, x' < 2 ^ c.es ∧ 2 ^ c.es * r' + (x' : ℤ) = 2 ^ c.es * r + x - 1 ∧
      Posit.half c v = Posit.packLow c (Low.mk .regular (v < 0) r' x' w) := by
  have hH := h.H_pos
  have hp := Nat.one_le_two_pow (n := c.es)
  have hN3 := h.N_ge
  have r1 := hl.r_lo
  have r2 := hl.r_hi
  have hxl := hl.x_lt
  unfold Posit.half
  rw [hl.eq]
  simp only [bind, Except.bind, if_true]
  by_cases hx0 : x = 0
  · simp only [hx0, if_true]
    rw [arithS_ok' (inS_reg h (by omega) (by omega))]
    simp only []
    rw [wrapS_of_inS (by omega) (inS_reg h (by omega) (by omega))]
    have hes : 2 ^ c.es ≤ 2 ^ c.H := Nat.pow_le_pow_right (by norm_num) (by have := h.hes; have := h.hN; omega)
    have e1 : wrapU c.H ((c.regScale : ℤ) - 1) = 2 ^ c.es - 1 := by
      unfold Cfg.regScale
      rw [← Nat.cast_one (R := ℤ), ← Nat.cast_sub hp, wrapU_natCast (by omega)]
    rw [e1]
    refine ⟨r - 1, 2 ^ c.es - 1, by omega, ?_, rfl⟩
    rw [Nat.cast_sub hp]; push_cast; ring
  · simp only [hx0, if_false]
    exact ⟨r, x - 1, by omega, by push_cast [Nat.cast_sub (show 1 ≤ x by omega)]; ring, rfl⟩

/-- `twice` is `pack_low` of the exponent plus one -/
theorem twice_low (h : c.WF) {v r : ℤ} {x w : ℕ} (hl : Lows c v r x w) :
    ∃ r' : ℤ, ∃ x' : ℕ, x' < 2 ^ c.es ∧ 2 ^ c.es * r' + (x' : ℤ) = 2 ^ c.es * r + x + 1 ∧
      Posit.twice c v = Posit.packLow c (Low.mk .regular (v < 0) r' x' w) := by
  have hH := h.H_pos
  have hp := Nat.one_le_two_pow (n := c.es)
  have hN3 := h.N_ge
  have r1 := hl.r_lo
  have r2 := hl.r_hi
  have hxl := hl.x_lt
  have hes : 2 ^ c.es < 2 ^ c.H := Nat.pow_lt_pow_right (by norm_num) (by have := h.hes; have := h.hN; omega)
  unfold Posit.twice
  rw [hl.eq]
  simp only [bind, Except.bind, if_true]
  have hreg : ((c.regScale : ℕ) : ℤ) = ((2 ^ c.es : ℕ) : ℤ) := by unfold Cfg.regScale; rfl
  by_cases hx0 : (x : ℤ) = (c.regScale : ℤ) - 1
  · rw [if_pos hx0]
    rw [arithS_ok' (inS_reg h (by omega) (by omega))]
    simp only []
    rw [wrapS_of_inS (by omega) (inS_reg h (by omega) (by omega))]
    refine ⟨r + 1, 0, by omega, ?_, rfl⟩
    rw [hx0, hreg]; push_cast; ring
  · rw [if_neg hx0, Nat.mod_eq_of_lt (by omega)]
    exact ⟨r, x + 1, by omega, by push_cast; ring, rfl⟩

end Verif
