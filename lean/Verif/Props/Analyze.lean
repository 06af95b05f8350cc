import Verif.Lemmas.Analyze
import Verif.Model.Instances

/-! # C50: `analyze()` -/

namespace Verif
open Fmt

variable {c : Cfg}

/-- **C50**: for a nonzero real posit, `analyze()` reports the sign, the regime denoted by the run of equal bits after the
sign, its size (run and terminator, if there is room for it), the sizes of the exponent and fraction fields, which
together with the sign bit make up the `N` bits, and the same exponent and fraction as `unpack()`.
The exponent is converted to the `int` field. The hypotheses leave out only the instantiations where the function has
undefined behaviour for every nonzero number, see `C50_defined_iff`. -/
theorem C50_analyze (h : c.WF) (hes0 : 1 ≤ c.es ∨ c.H < 32) (hF : c.F < c.H + pw c.H)
    (hfit : c.H < 32 → c.F ≤ 32) {v : ℤ} (hv : c.fmt.IsReal v) (h0 : v ≠ 0) :
    let body := bitsMSB (c.N - 1) v.natAbs
    let k := runLength (body.headD false) body
    ∃ i, Posit.analyze c v = .ok i ∧ i.infinity = false ∧ i.nan = false ∧ (i.sign = true ↔ c.fmt.val v < 0) ∧
      i.k = regimeOf (body.headD false) k ∧ i.rs = min (k + 1) (c.N - 1) ∧
      i.es = min (c.es : ℤ) (c.N - 1 - i.rs) ∧ 0 ≤ i.fs ∧ 1 + i.rs + i.es + i.fs = c.N ∧
      Int.log 2 |c.fmt.val v| = 2 ^ c.es * i.k + i.exp ∧ 0 ≤ i.exp ∧ i.exp < 2 ^ c.es ∧
      i.exponent = Int.bmod (Int.log 2 |c.fmt.val v|) (2 ^ 32) ∧
      Posit.unpack c v = .ok ⟨.regular, i.sign, Int.log 2 |c.fmt.val v|, i.ifraction⟩ := by
  intro body k
  have hN3 := h.N_ge
  obtain ⟨r, m, rest, hd⟩ := exists_dec (M := c.N - 1) (p := v.natAbs) (by omega) (real_inRange hv)
  obtain ⟨hk1, hk2⟩ := hd.run
  have hm := hd.m_lt
  obtain ⟨e, f, x, hu, he, hx, ha⟩ := analyze_real h hes0 hF hfit hv h0 hd
  obtain ⟨e', f', hu'⟩ := unpack_real h hv h0
  have hee : e' = e := by
    have := hu'.eq.symm.trans hu
    injection this with this
    injection this
  have hlog := hu'.log
  rw [hee] at hlog
  have hbody : runLength (body.headD false) body = k := rfl
  refine ⟨_, ha, rfl, rfl, ?_, hk1.symm, ?_, ?_, ?_, ?_, hlog ▸ he, ?_, ?_, ?_, hlog ▸ hu⟩
  · rw [Format.val_neg_iff hv.inRange]; simp
  · change ((c.N - 1 - m : ℕ) : ℤ) = ((min (k + 1) (c.N - 1) : ℕ) : ℤ)
    exact congrArg _ hk2.symm
  · change ((min c.es m : ℕ) : ℤ) = min (c.es : ℤ) ((c.N : ℤ) - 1 - ((c.N - 1 - m : ℕ) : ℤ))
    omega
  · change (0 : ℤ) ≤ ((m - c.es : ℕ) : ℤ)
    omega
  · change (1 : ℤ) + ((c.N - 1 - m : ℕ) : ℤ) + ((min c.es m : ℕ) : ℤ) + ((m - c.es : ℕ) : ℤ) = c.N
    omega
  · exact Int.natCast_nonneg x
  · change (x : ℤ) < 2 ^ c.es
    exact_mod_cast hx
  · change wrapS 32 e = _
    rw [hlog]; rfl

example : P28.WF ∧ 1 ≤ P28.es ∧ P28.F < P28.H + pw P28.H ∧ P28.fmt.IsReal (-12345678) ∧
    Posit.analyze P28 (-12345678) = .ok ⟨false, false, true, -3, 4, 5, 18, 15, -81, 408125440⟩ := by decide +kernel
example : P8.WF ∧ P8.es = 0 ∧ P8.H < 32 ∧ P8.F ≤ 32 ∧ P8.fmt.IsReal 127 ∧
    Posit.analyze P8 127 = .ok ⟨false, false, false, 6, 7, 0, 0, 0, 6, 0⟩ := by decide +kernel

/-- 34 bits with 28 exponent bits: the exponent `2^33` of the greatest number is reported as zero -/
example : let c : Cfg := ⟨64, 34, 28, 64, .withNan⟩
    c.WF ∧ Posit.analyze c (2 ^ 33 - 1) = .ok ⟨false, false, false, 32, 33, 0, 0, 0, 0, 0⟩ ∧
    Posit.unpack c (2 ^ 33 - 1) = .ok ⟨.regular, false, 2 ^ 33, 0⟩ := by decide +kernel

/-- **C50** without wrapping: if the exponents fit the `int` field, it is that of `unpack()`. Excluded: the undefined cases
(`C50_defined_iff`) and exponents that do not fit (64-bit holder, `C50_analyze`). -/
theorem C50_analyze_partial (h : c.WF) (hes0 : 1 ≤ c.es ∨ c.H < 32) (hF : c.F < c.H + pw c.H)
    (hfit : c.H < 32 → c.F ≤ 32) (hi : c.H = 64 → c.maxScale < 2 ^ 31) {v : ℤ} (hv : c.fmt.IsReal v) (h0 : v ≠ 0) :
    ∃ i, Posit.analyze c v = .ok i ∧ i.exponent = 2 ^ c.es * i.k + i.exp ∧ i.exponent = Int.log 2 |c.fmt.val v| ∧
      Posit.unpack c v = .ok ⟨.regular, i.sign, i.exponent, i.ifraction⟩ := by
  obtain ⟨i, ha, -, -, -, -, -, -, -, -, g1, -, -, g2, g3⟩ := C50_analyze h hes0 hF hfit hv h0
  obtain ⟨e', f', hu⟩ := unpack_real h hv h0
  have he1 := hu.e_lo
  have he2 := hu.e_hi
  have htop := topExp_le h
  rw [← hu.log] at he1 he2
  have hscale : c.maxScale < 2 ^ 31 := by
    by_cases h64 : c.H = 64
    · exact hi h64
    · exact h.hscale (by have := h.hH; omega)
  have hwr : Int.bmod (Int.log 2 |c.fmt.val v|) (2 ^ 32) = Int.log 2 |c.fmt.val v| := by
    generalize Int.log 2 |c.fmt.val v| = z at *
    exact wrapS_of_inS (w := 32) (by norm_num) (by unfold InS; omega)
  rw [hwr] at g2
  exact ⟨i, ha, g2 ▸ g1, g2, g2 ▸ g3⟩

example : P28.WF ∧ 1 ≤ P28.es ∧ (P28.H = 64 → P28.maxScale < 2 ^ 31) ∧ P28.fmt.val (-12345678) ≠ 0 := by decide +kernel

/-- **C50**: the special patterns are reported by flags. -/
theorem C50_special (h : c.WF) :
    Posit.analyze c 0 = .ok {} ∧
    (c.spec ≠ .withInf → Posit.analyze c c.nan = .ok { nan := true }) ∧
    (c.spec = .withInf → Posit.analyze c c.pinf = .ok { infinity := true }) ∧
    (c.spec = .withNanInf → Posit.analyze c c.pinf = .ok { infinity := true } ∧
      Posit.analyze c c.ninf = .ok { infinity := true, sign := true }) := by
  have hg := h.pow_ge
  have hz : c.fmt.IsReal 0 := by unfold Format.IsReal; omega
  obtain ⟨z1, z2⟩ := real_not_special h hz
  have htest : ∀ v : ℤ, v.natAbs < 2 ^ (c.N - 1) → decide (wrapU c.H v &&& c.signBit ≠ 0) = decide (v < 0) :=
    fun v hv => by rw [decide_eq_decide]; exact signBit_test h hv
  refine ⟨?_, fun hs => ?_, fun hs => ?_, fun hs => ⟨?_, ?_⟩⟩
  · unfold Posit.analyze; rw [z1, z2]; rfl
  · have h1 : Posit.isNaN c c.nan = true := by simp [Posit.isNaN, hs]
    have h2 : Posit.isInfinity c c.nan = false := by
      unfold Posit.isInfinity
      rw [h.pinf_eq, h.ninf_eq, h.nan_eq]
      by_cases hw : c.spec = .withNan
      · simp [hw]
      · have : c.spec = .withNanInf := by cases hc : c.spec <;> simp_all
        simp [this]; omega
    unfold Posit.analyze; rw [h1, h2]; rfl
  · have h1 : Posit.isInfinity c c.pinf = true := by simp [Posit.isInfinity, hs]
    unfold Posit.analyze; rw [h1]; simp [hs]
  · have h1 : Posit.isInfinity c c.pinf = true := by simp [Posit.isInfinity, hs]
    have e : c.pinf = 2 ^ (c.N - 1) - 1 := by rw [h.pinf_eq]; simp [hs]
    unfold Posit.analyze
    rw [h1, if_pos rfl, htest _ (by rw [e]; zify; rw [abs_of_nonneg (by omega)]; omega), e]
    have : ¬ ((2 : ℤ) ^ (c.N - 1) - 1 < 0) := by omega
    simp [this]
  · have h1 : Posit.isInfinity c c.ninf = true := by simp [Posit.isInfinity, hs]
    have e : c.ninf = -(2 ^ (c.N - 1)) + 1 := by rw [h.ninf_eq]; simp [hs]
    unfold Posit.analyze
    rw [h1, if_pos rfl, htest _ (by rw [e]; zify; rw [abs_of_nonpos (by omega)]; omega), e]
    have : (-(2 : ℤ) ^ (c.N - 1) + 1 < 0) := by omega
    simp [this, hs]

example : P8i.WF ∧ P8i.spec = .withNanInf ∧ P16.WF ∧ P16.spec = .withInf := by decide

/-- **C50** fails without exponent bits in a 32- or 64-bit holder: for every nonzero real posit, `analyze()` shifts by the
full width of the holder. -/
theorem C50_ub_es0 (h : c.WF) (he : c.es = 0) (hH : 32 ≤ c.H) {v : ℤ} (hv : c.fmt.IsReal v) (h0 : v ≠ 0) :
    Posit.analyze c v = .error .shiftAmount := by
  have hN := h.hN
  have hN3 := h.N_ge
  have hH8 := h.H_pos
  obtain ⟨r, m, rest, hd⟩ := exists_dec (M := c.N - 1) (p := v.natAbs) (by omega) (real_inRange hv)
  obtain ⟨hinf, hnan⟩ := real_not_special h hv
  have hvn := real_inRange hv
  have hlow := unpackLow_body h hvn h0 hinf hnan hd
  -- `unpack_low` runs the same steps up to the read of the exponent field
  unfold Posit.unpackLow at hlow
  unfold Posit.analyze
  rw [hinf, hnan] at hlow ⊢
  simp only [Bool.false_eq_true, if_false, h0] at hlow ⊢
  have hst : decide (wrapU c.H v &&& c.signBit ≠ 0) = decide (v < 0) := by
    rw [decide_eq_decide]; exact signBit_test h hvn
  rw [hst] at hlow
  have hpc : Posit.pcabs c.H v = Posit.condNeg c.H (decide (v < 0)) v := rfl
  rw [hpc]
  have hget : ∀ x, Posit.bitsetGet c.H x (c.H - c.es) c.es = .error .shiftAmount := by
    intro x
    unfold Posit.bitsetGet
    rw [he]
    have : shrU c.H x ((c.H - 0 : ℕ) : ℤ) = .error .shiftAmount := by
      unfold shrU
      rw [if_pos]
      right
      unfold pw
      omega
    rw [this]
    rfl
  simp only [bind, Except.bind, pure, Except.pure] at hlow ⊢
  simp only [hget]
  split at hlow
  · cases hlow
  · split at hlow
    · cases hlow
    · split at hlow
      · cases hlow
      · split at hlow
        · cases hlow
        · rfl

example : P32z.WF ∧ P32z.es = 0 ∧ 32 ≤ P32z.H ∧ P32z.fmt.IsReal 77 ∧
    Posit.analyze P32z 77 = .error .shiftAmount := by decide +kernel

/-- **C50** fails for a 64-bit fraction type over a narrower holder: the alignment of the fraction is computed in the
holder type. -/
theorem C50_ub_frac : P32w.WF ∧ P32w.fmt.IsReal 77 ∧ Posit.analyze P32w 77 = .error .shiftAmount ∧
    (∃ u, Posit.unpack P32w 77 = .ok u) :=
  ⟨by decide +kernel, by decide +kernel, by decide +kernel, _, rfl⟩

/-- **C50** fails for a 64-bit fraction type over a narrower holder: for every nonzero real posit the alignment of the
fraction, computed in the holder type, shifts by at least its width. -/
theorem C50_ub_frac_all (h : c.WF) (hF : c.F = 64) (hH : c.H ≤ 32) {v : ℤ} (hv : c.fmt.IsReal v) (h0 : v ≠ 0) :
    Posit.analyze c v = .error .shiftAmount := by
  by_cases hes : 1 ≤ c.es ∨ c.H < 32
  swap
  · exact C50_ub_es0 h (by omega) (by omega) hv h0
  have hN3 := h.N_ge
  -- the same posit with a 32-bit fraction type is analyzed, by the same steps up to the alignment
  set d : Cfg := { c with F := 32 } with hd
  have hdw : d.WF := ⟨h.hH, .inr (.inr (.inl rfl)), h.hN, h.hes, h.h64, h.hes30, h.hscale⟩
  obtain ⟨r, m, rest, hdec⟩ := exists_dec (M := c.N - 1) (p := v.natAbs) (by omega) (real_inRange hv)
  obtain ⟨e, f, x, -, -, -, ha⟩ := analyze_real (c := d) hdw hes (show (32 : ℕ) < c.H + pw c.H by unfold pw; have := h.H_pos; omega)
    (fun _ => le_rfl) (v := v) hv h0 hdec
  have hfr : ∀ p, Posit.analyzeFrac c p = .error .shiftAmount := by
    intro p
    unfold Posit.analyzeFrac
    rw [if_pos (by omega)]
    have : shlU c.H p ((c.F : ℤ) - c.H) = .error .shiftAmount := by
      unfold shlU
      rw [if_pos]
      right
      unfold pw
      have := h.hH
      omega
    rw [this]; rfl
  have k1 : Posit.isInfinity d v = Posit.isInfinity c v := rfl
  have k2 : Posit.isNaN d v = Posit.isNaN c v := rfl
  obtain ⟨hinf, hnan⟩ := real_not_special h hv
  unfold Posit.analyze at ha ⊢
  rw [k1, k2, hinf, hnan] at ha
  rw [hinf, hnan]
  simp only [Bool.false_eq_true, if_false, h0] at ha ⊢
  have q1 : ∀ p, Posit.decodeRs d p = Posit.decodeRs c p := fun _ => rfl
  simp only [q1] at ha
  simp only [bind, Except.bind, pure, Except.pure, hfr] at ha ⊢
  split at ha
  · cases ha
  rename_i g1
  split at ha
  · cases ha
  rename_i g2
  split at ha
  · cases ha
  rename_i g3
  split at ha
  · cases ha
  rename_i g4
  split at ha
  · cases ha
  rename_i g5
  split at ha
  · cases ha
  rename_i g6
  rw [show Posit.pcabs c.H v = _ from g1]
  dsimp only
  rw [show shlS c.H _ ((c.extraBits : ℤ) + 1) = _ from g2]
  dsimp only
  rw [show Posit.decodeRs c (wrapU c.H _) = _ from g3]
  dsimp only
  rw [show shlU c.H (wrapU c.H _) _ = _ from g4]
  dsimp only
  rw [show Posit.bitsetGet c.H (_ % 2 ^ c.H) (c.H - c.es) c.es = _ from g5]
  dsimp only
  rw [show shlU c.H (_ % 2 ^ c.H) (c.es : ℤ) = _ from g6]

example : P32w.WF ∧ P32w.F = 64 ∧ P32w.H ≤ 32 ∧ P32w.fmt.IsReal 77 := by decide +kernel
/-- **C50**: `analyze()` of a nonzero number is defined exactly for the instantiations with exponent bits or a short
holder, and without a 64-bit fraction type over a shorter holder. -/
theorem C50_defined_iff (h : c.WF) {v : ℤ} (hv : c.fmt.IsReal v) (h0 : v ≠ 0) :
    (∃ i, Posit.analyze c v = .ok i) ↔ (1 ≤ c.es ∨ c.H < 32) ∧ (c.F = 64 → c.H = 64) := by
  have hH := h.hH
  have hFF := h.hF
  constructor
  · rintro ⟨i, hi⟩
    by_contra hc
    have : Posit.analyze c v = .error .shiftAmount := by
      by_cases h1 : 1 ≤ c.es ∨ c.H < 32
      · exact C50_ub_frac_all h (by omega) (by omega) hv h0
      · exact C50_ub_es0 h (by omega) (by omega) hv h0
    rw [hi] at this
    cases this
  · rintro ⟨h1, h2⟩
    obtain ⟨i, hi, -⟩ := C50_analyze h h1 (by unfold pw; omega) (by omega) hv h0
    exact ⟨i, hi⟩

example : P60.WF ∧ 1 ≤ P60.es ∧ P60.F = 64 ∧ P60.H = 64 ∧ P60.fmt.IsReal 5 := by decide +kernel

end Verif
