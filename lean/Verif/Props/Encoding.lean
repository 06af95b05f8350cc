import Verif.Lemmas.Unpack
import Verif.Model.Instances

/-!
# Encoding properties: C01 (decode), C02 (round trip), C03 (packing truncates)
-/

namespace Verif
open Fmt

variable {c : Cfg}

/-! ## C01 -/

/-- **C01**, regular patterns: `unpack()` returns the value the posit format assigns to the bits. -/
theorem C01_unpack_value (h : c.WF) (hF : c.fb ≤ c.F) {v : ℤ} (hv : c.fmt.IsReal v) (h0 : v ≠ 0) :
    ∃ e f, Posit.unpack c v = .ok ⟨.regular, v < 0, e, f⟩ ∧ f < 2 ^ c.F ∧
      tripleVal c.F (v < 0) e f = c.fmt.val v := by
  obtain ⟨e, f, hu⟩ := unpack_real h hv h0
  refine ⟨e, f, hu.eq, hu.f_lt, ?_⟩
  unfold tripleVal
  rw [← hu.val hF]
  rcases lt_or_gt_of_ne h0 with hn | hp
  · have : c.fmt.val v < 0 := (Format.val_neg_iff hv.inRange).mpr hn
    rw [abs_of_neg this]; simp [hn]
  · have : 0 < c.fmt.val v := (Format.val_pos_iff hv.inRange).mpr hp
    rw [abs_of_pos this]; simp [show ¬ v < 0 by omega]

example : P8.WF ∧ P8.fb ≤ P8.F ∧ P8.fmt.IsReal 72 ∧ (72 : ℤ) ≠ 0 ∧ P8.fmt.val 72 = 5 / 4 ∧
    Posit.unpack P8 72 = .ok ⟨.regular, false, 0, 64⟩ := by decide +kernel
example : P60.WF ∧ P60.fb ≤ P60.F ∧ P60.fmt.IsReal (-2 ^ 55) ∧ P60.fmt.val (-2 ^ 55) = -1 / 2 ^ 12 := by decide +kernel

/-- **C01** without a condition on the fraction type: the exponent is that of the value, and a fraction type that is too
narrow only drops low fraction bits, less than one unit of its last place. -/
theorem C01_unpack_truncated (h : c.WF) {v : ℤ} (hv : c.fmt.IsReal v) (h0 : v ≠ 0) :
    ∃ e f, Posit.unpack c v = .ok ⟨.regular, v < 0, e, f⟩ ∧ f < 2 ^ c.F ∧ e = Int.log 2 |c.fmt.val v| ∧
      |tripleVal c.F (v < 0) e f| ≤ |c.fmt.val v| ∧ |c.fmt.val v| < |tripleVal c.F (v < 0) e f| + 2 ^ (e - c.F : ℤ) := by
  obtain ⟨e, f, hu⟩ := unpack_real h hv h0
  have h2 : (0 : ℚ) < 2 ^ e := by positivity
  have hf : (0 : ℚ) ≤ (f : ℚ) / 2 ^ c.F := by positivity
  have habs : |tripleVal c.F (v < 0) e f| = 2 ^ e * (1 + (f : ℚ) / 2 ^ c.F) := by
    unfold tripleVal
    rw [abs_mul, abs_of_pos (show (0 : ℚ) < 2 ^ e * (1 + (f : ℚ) / 2 ^ c.F) by positivity)]
    split_ifs <;> norm_num
  refine ⟨e, f, hu.eq, hu.f_lt, hu.log.symm, ?_, ?_⟩
  · rw [habs]; exact hu.trunc
  · rw [habs]
    have := hu.close
    rw [zpow_sub₀ (by norm_num), zpow_natCast]
    calc |c.fmt.val v| < _ := this
      _ = _ := by ring

example : (⟨16, 16, 0, 8, .withNan⟩ : Cfg).WF ∧ (⟨16, 16, 0, 8, .withNan⟩ : Cfg).fmt.IsReal 20001 := by decide +kernel

/-- **C01**, zero. -/
theorem C01_unpack_zero (h : c.WF) : Posit.unpack c 0 = .ok (Unp.ofTy .zero) ∧ c.fmt.val 0 = 0 :=
  ⟨unpack_zero h, Format.val_zero⟩

example : P16.WF := by decide

/-- **C01**, NaN: in the formats that have it, the pattern `1000…0` is reported as NaN. -/
theorem C01_unpack_nan (h : c.WF) (hs : c.spec ≠ .withInf) :
    Posit.unpack c (-(2 ^ (c.N - 1))) = .ok (Unp.ofTy .nan) := by
  have hg := h.pow_ge
  have h1 : Posit.isInfinity c (-(2 ^ (c.N - 1))) = false := by
    unfold Posit.isInfinity
    rw [h.pinf_eq, h.ninf_eq]
    by_cases hw : c.spec = .withNan
    · simp [hw]
    · have : c.spec = .withNanInf := by cases hc : c.spec <;> simp_all
      simp [this]
      omega
  have h2 : Posit.isNaN c (-(2 ^ (c.N - 1))) = true := by
    unfold Posit.isNaN; rw [h.nan_eq]; simp [hs]
  unfold Posit.unpack Posit.unpackLow
  rw [h1, h2]
  rfl

example : P12.WF ∧ P12.spec ≠ .withInf := by decide

/-- **C01**, infinity: `1000…0` in the formats with one infinity, `0111…1` and `1000…01` in those with two. -/
theorem C01_unpack_inf (h : c.WF) :
    (c.spec = .withInf → Posit.unpack c (-(2 ^ (c.N - 1))) = .ok (Unp.ofTy .infinity true)) ∧
    (c.spec = .withNanInf → Posit.unpack c (2 ^ (c.N - 1) - 1) = .ok (Unp.ofTy .infinity false) ∧
      Posit.unpack c (-(2 ^ (c.N - 1)) + 1) = .ok (Unp.ofTy .infinity true)) := by
  have hg := h.pow_ge
  have key : ∀ v, Posit.isInfinity c v = true → Posit.unpack c v = .ok (Unp.ofTy .infinity (v < 0)) := by
    intro v hv
    unfold Posit.unpack Posit.unpackLow
    rw [hv]
    rfl
  refine ⟨fun hw => ?_, fun hw => ⟨?_, ?_⟩⟩
  · rw [key _ (by unfold Posit.isInfinity; rw [h.pinf_eq, h.ninf_eq]; simp [hw])]
    congr 2
    simp
  · rw [key _ (by unfold Posit.isInfinity; rw [h.pinf_eq, h.ninf_eq]; simp [hw])]
    congr 2
    simp; omega
  · rw [key _ (by unfold Posit.isInfinity; rw [h.pinf_eq, h.ninf_eq]; simp [hw])]
    congr 2
    simp; omega

example : P8i.WF ∧ P8i.spec = .withNanInf ∧ P16.WF ∧ P16.spec = .withInf := by decide

/-! ## C03 -/

/-- **C03**: packing any nonzero finite unpacked number rounds toward zero and saturates, with no undefined behaviour,
if the exponent is in the range `PackSafe` (every exponent, when `N+1 < max 32 H`). -/
theorem C03_pack_truncates_partial (h : c.WF) (neg : Bool) {e : ℤ} {f : ℕ} (hf : f < 2 ^ c.F) (hs : c.PackSafe e) :
    ∃ v, Posit.pack c ⟨.regular, neg, e, f⟩ = .ok v ∧ c.fmt.IsTrunc (tripleVal c.F neg e f) v := by
  obtain ⟨p, hp, ht⟩ := pack_regular h neg hf hs
  exact ⟨_, hp, Format.IsTrunc.of_sign neg (by positivity) ht⟩

example : P8.WF ∧ (200 : ℕ) < 2 ^ P8.F ∧ P8.PackSafe 1000 ∧ P8.PackSafe (-3) ∧
    Posit.pack P8 ⟨.regular, false, 1000, 200⟩ = .ok 127 ∧ Posit.pack P8 ⟨.regular, true, -3, 200⟩ = .ok (-14) := by
  decide +kernel
example : P32.WF ∧ P32.PackSafe 207 ∧ ¬ P32.PackSafe 208 := by decide +kernel

/-- **C03** holds unconditionally when the posit is at least two bits narrower than the promoted holder. -/
theorem C03_pack_truncates (h : c.WF) (hN : c.N + 1 < pw c.H) (neg : Bool) (e : ℤ) {f : ℕ} (hf : f < 2 ^ c.F) :
    ∃ v, Posit.pack c ⟨.regular, neg, e, f⟩ = .ok v ∧ c.fmt.IsTrunc (tripleVal c.F neg e f) v :=
  C03_pack_truncates_partial h neg hf (packSafe_of_narrow h hN e)

example : P28.WF ∧ P28.N + 1 < pw P28.H ∧ P60.WF ∧ P60.N + 1 < pw P60.H ∧ P8.N + 1 < pw P8.H := by decide

/-- **C03** fails outside `PackSafe`: packing executes an out-of-range shift there (so the precondition is exact). -/
theorem C03_pack_ub (h : c.WF) (neg : Bool) {e : ℤ} {f : ℕ} (hf : f < 2 ^ c.F) (hs : ¬ c.PackSafe e) :
    Posit.pack c ⟨.regular, neg, e, f⟩ = .error .shiftAmount :=
  pack_regular_ub h neg hf hs

example : P32.WF ∧ (5 : ℕ) < 2 ^ P32.F ∧ ¬ P32.PackSafe (-300) ∧
    Posit.pack P32 ⟨.regular, false, -300, 5⟩ = .error .shiftAmount := by decide +kernel

/-- **C03**, counterexample to the unrestricted claim: `Posit<int32_t,32,3,uint32_t>` hits undefined behaviour when
packing `2^208`. -/
theorem C03_not_always : ∃ c : Cfg, c.WF ∧ ∃ e f, f < 2 ^ c.F ∧ ∀ v, Posit.pack c ⟨.regular, false, e, f⟩ ≠ .ok v :=
  ⟨P32, by decide, 208, 0, by decide, fun v hv => by
    rw [C03_pack_ub (by decide) false (by decide) (by decide +kernel)] at hv; cases hv⟩

/-- **C03**, special values: packing a zero gives zero; NaN gives `1000…0` in every format; infinity gives `0111…1` /
`1000…01` by sign in the formats with two infinities and `1000…0` otherwise. -/
theorem C03_pack_special (h : c.WF) (neg : Bool) (e : ℤ) (f : ℕ) :
    Posit.pack c ⟨.zero, neg, e, f⟩ = .ok 0 ∧
    Posit.pack c ⟨.nan, neg, e, f⟩ = .ok (-(2 ^ (c.N - 1))) ∧
    Posit.pack c ⟨.infinity, neg, e, f⟩ = .ok (if c.spec = .withNanInf then
      (if neg then -(2 ^ (c.N - 1)) + 1 else 2 ^ (c.N - 1) - 1) else -(2 ^ (c.N - 1))) := by
  refine ⟨rfl, ?_, ?_⟩
  · unfold Posit.pack Posit.full2low Posit.packLow
    simp only [bind, Except.bind, reduceCtorEq, if_false]
    rw [h.nan_eq, h.pinf_eq]
    by_cases hw : c.spec = .withInf <;> simp [hw]
  · unfold Posit.pack Posit.full2low Posit.packLow
    simp only [bind, Except.bind, reduceCtorEq, if_false]
    rw [h.nan_eq, h.pinf_eq, h.ninf_eq]
    cases hc : c.spec <;> cases neg <;> simp

example : P8i.WF ∧ Posit.pack P8i ⟨.infinity, true, 3, 5⟩ = .ok (-127) := by decide +kernel

/-! ## C02 -/

/-- the canonical patterns that are not real numbers -/
theorem canonical_cases (h : c.WF) {v : ℤ} (hv : c.fmt.IsCanonical v) :
    c.fmt.IsReal v ∨ v = -(2 ^ (c.N - 1)) ∨
      (c.spec = .withNanInf ∧ (v = 2 ^ (c.N - 1) - 1 ∨ v = -(2 ^ (c.N - 1)) + 1)) := by
  have hg := h.pow_ge
  unfold Format.IsCanonical at hv
  unfold Format.IsReal Format.maxBody
  simp only [Cfg.fmt] at *
  have e1 : ((2 ^ (c.N - 1) - 1 : ℕ) : Int) = 2 ^ (c.N - 1) - 1 := by
    rw [Nat.cast_sub Nat.one_le_two_pow]; push_cast; rfl
  have e2 : ((2 ^ (c.N - 1) - 2 : ℕ) : Int) = 2 ^ (c.N - 1) - 2 := by
    rw [Nat.cast_sub (by zify; omega)]; push_cast; rfl
  by_cases hs : c.spec = .withNanInf
  · simp only [hs, decide_true, if_true, e2, true_and]; omega
  · simp only [hs, decide_false, if_false, e1, Bool.false_eq_true, false_and, or_false]; omega

/-- **C02**: unpacking and packing again returns the same bits, for every canonical pattern, if the fraction type holds
the fraction and the magnitude is in the safe range. What is missing is exactly `C02_roundtrip_ub`. -/
theorem C02_roundtrip_partial (h : c.WF) (hF : c.fb ≤ c.F) {v : ℤ} (hv : c.fmt.IsCanonical v)
    (hs : c.fmt.IsReal v → v ≠ 0 → c.SafeMag (c.fmt.val v)) :
    (do let u ← Posit.unpack c v; Posit.pack c u) = .ok v := by
  rcases canonical_cases h hv with hr | hr | ⟨hw, hr⟩
  · by_cases h0 : v = 0
    · subst h0
      rw [unpack_zero h]
      rfl
    · obtain ⟨e, f, hu⟩ := unpack_real h hr h0
      have hps := packSafe_of_safeMag (hs hr h0) hu.lower hu.upper
      obtain ⟨p, hp, ht⟩ := pack_regular h (v < 0) hu.f_lt hps
      rw [hu.eq]
      simp only [bind, Except.bind]
      rw [hp]
      rw [← hu.val hF, Format.abs_val hr.inRange h0] at ht
      have := ht.unique (Format.truncB_posVal (by omega) hr.natAbs_le)
      rw [this]
      congr 1
      by_cases hn : v < 0 <;> simp only [hn, decide_true, decide_false, if_true, if_false, Bool.false_eq_true] <;> omega
  · subst hr
    by_cases hw : c.spec = .withInf
    · rw [(C01_unpack_inf h).1 hw]
      have := (C03_pack_special h true 0 0).2.2
      simp only [hw, reduceCtorEq, if_false] at this
      exact this
    · rw [C01_unpack_nan h hw]
      exact (C03_pack_special h false 0 0).2.1
  · have h1 := (C01_unpack_inf h).2 hw
    rcases hr with hr | hr
    · rw [hr, h1.1]
      have := (C03_pack_special h false 0 0).2.2
      simp only [hw, if_true, Bool.false_eq_true, if_false] at this
      exact this
    · rw [hr, h1.2]
      have := (C03_pack_special h true 0 0).2.2
      simp only [hw, if_true] at this
      exact this

example : P32.WF ∧ P32.fb ≤ P32.F ∧ P32.fmt.IsCanonical 123456789 ∧ P32.maxScale = 240 ∧ P32.packBound = 208 ∧
    (do let u ← Posit.unpack P32 123456789; Posit.pack P32 u) = .ok 123456789 := by decide +kernel

/-- **C02** without restriction on the pattern, when the posit is at least two bits narrower than the promoted holder. -/
theorem C02_roundtrip (h : c.WF) (hF : c.fb ≤ c.F) (hN : c.N + 1 < pw c.H) {v : ℤ} (hv : c.fmt.IsCanonical v) :
    (do let u ← Posit.unpack c v; Posit.pack c u) = .ok v :=
  C02_roundtrip_partial h hF hv fun _ _ => safeMag_of_narrow h hN _

example : P8i.WF ∧ P8i.fb ≤ P8i.F ∧ P8i.N + 1 < pw P8i.H ∧ P8i.fmt.IsCanonical (-128) := by decide

/-- **C02** fails for the remaining patterns: repacking them is undefined behaviour. -/
theorem C02_roundtrip_ub (h : c.WF) {v : ℤ} (hv : c.fmt.IsReal v) (h0 : v ≠ 0) (hs : ¬ c.SafeMag (c.fmt.val v)) :
    (do let u ← Posit.unpack c v; Posit.pack c u) = .error .shiftAmount := by
  obtain ⟨e, f, hu⟩ := unpack_real h hv h0
  rw [hu.eq]
  exact pack_regular_ub h _ hu.f_lt fun hp => hs (safeMag_of_packSafe hu.lower hu.upper hp)

example : P32.WF ∧ P32.fmt.IsReal 7 ∧ ¬ P32.SafeMag (P32.fmt.val 7) := by decide +kernel

/-- **C02**, counterexamples: the least positive `Posit<int32_t,32,3,uint32_t>` cannot be repacked, and a fraction type
narrower than the fraction loses bits. -/
theorem C02_not_always :
    (P32.WF ∧ P32.fb ≤ P32.F ∧ (do let u ← Posit.unpack P32 1; Posit.pack P32 u) = .error .shiftAmount) ∧
    (∃ c : Cfg, c.WF ∧ c.fmt.IsReal 20001 ∧ (do let u ← Posit.unpack c 20001; Posit.pack c u) = .ok 20000) :=
  ⟨by decide +kernel, ⟨16, 16, 0, 8, .withNan⟩, by decide +kernel⟩

end Verif
