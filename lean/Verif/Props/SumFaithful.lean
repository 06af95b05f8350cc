import Verif.Lemmas.SumFaithful
import Verif.Props.ErrorBound

/-!
# C137: sums are faithful wherever they are defined

`C10_add_partial`, `C11_sub_partial` and `C30_fma_partial` assume that the operands are safe, which is sufficient for the sum to
be defined. Here only the outcome is assumed to be defined.
-/

namespace Verif
open Fmt

variable {c : Cfg}

theorem real_grid (h : c.WF) {a : ℤ} (ha : c.fmt.IsReal a) (h0 : c.fmt.val a ≠ 0) : OnGrid c.fb (c.fmt.val a) :=
  val_grid h ha (fun hh => h0 (by rw [hh, Format.val_zero]))

theorem aligned_faithful (h : c.WF) {K : ℕ} (hK : c.fb ≤ K) (hF : K + 3 ≤ c.F) {x y : ℚ} (hx : x ≠ 0 → OnGrid K x)
    (hy : y ≠ 0 → OnGrid K y) {v : ℤ} (hv : c.fmt.IsCut0 (alignedSum c.F x y) v) :
    c.fmt.IsFaithful (x + y) v ∧ (v = 0 ↔ x + y = 0) ∧ (0 < x * y → c.fmt.IsTrunc (x + y) v) := by
  have one : ∀ {z : ℚ}, c.fmt.IsCut0 z v → c.fmt.IsFaithful z v ∧ (v = 0 ↔ z = 0) := by
    rintro z (⟨rfl, rfl⟩ | hz)
    · refine ⟨?_, by simp⟩
      have := Format.isFaithful_val (f := c.fmt) (v := 0) (by unfold Format.IsReal; omega)
      rwa [Format.val_zero] at this
    · refine ⟨hz.faithful, ?_⟩
      rcases hz.sign with ⟨h1, h2⟩ | ⟨h1, h2⟩
      · exact ⟨fun h0 => by omega, fun h0 => by linarith⟩
      · exact ⟨fun h0 => by omega, fun h0 => by linarith⟩
  unfold alignedSum at hv
  by_cases hx0 : x = 0
  · rw [if_pos hx0] at hv
    obtain ⟨r1, r2⟩ := one hv
    rw [hx0, zero_add]
    exact ⟨r1, r2, fun hp => by simp at hp⟩
  rw [if_neg hx0] at hv
  by_cases hy0 : y = 0
  · rw [if_pos hy0] at hv
    obtain ⟨r1, r2⟩ := one hv
    rw [hy0, add_zero]
    exact ⟨r1, r2, fun hp => by simp at hp⟩
  rw [if_neg hy0] at hv
  exact cut_faithful h hK hF hx0 hy0 (hx hx0) (hy hy0) hv

theorem ok_of_iff {P : Prop} {r : M ℤ} {R : ℤ → Prop} {v : ℤ} (h : (P → ∃ w, r = .ok w ∧ R w) ∧ (¬ P → r = .error .shiftAmount))
    (hv : r = .ok v) : R v := by
  by_cases hP : P
  · obtain ⟨w, h1, h2⟩ := h.1 hP
    obtain rfl : v = w := by rw [hv] at h1; exact Except.ok.inj h1
    exact h2
  · rw [h.2 hP] at hv; cases hv

/-- **C137**, sums: whenever `a + b` is defined it is a faithful rounding of the exact sum, the posit itself if the sum is one,
zero only for a sum of zero, and rounded toward zero for operands of the same sign. -/
theorem C137_add (h : c.WF) (hF : c.fb + 3 ≤ c.F) {a b v : ℤ} (ha : c.fmt.IsReal a) (hb : c.fmt.IsReal b)
    (hv : Posit.add c a b = .ok v) :
    c.fmt.IsFaithful (c.fmt.val a + c.fmt.val b) v ∧ (v = 0 ↔ c.fmt.val a + c.fmt.val b = 0) ∧
      (∀ w, c.fmt.IsReal w → c.fmt.val w = c.fmt.val a + c.fmt.val b → v = w) ∧
      (0 < c.fmt.val a * c.fmt.val b → c.fmt.IsTrunc (c.fmt.val a + c.fmt.val b) v) := by
  obtain ⟨r1, r2, r3⟩ := aligned_faithful h le_rfl hF (real_grid h ha) (real_grid h hb) (ok_of_iff (C63_add h ha hb) hv)
  exact ⟨r1, r2, fun w hw he => r1.exact hw he, r3⟩

/-- posits whose fraction type has exactly three bits more than the longest fraction -/
abbrev P32f : Cfg := ⟨32, 32, 0, 32, .withNan⟩

/- operands that are not safe in the sense of C10, with a sum that is defined -/
example : P32f.WF ∧ P32f.fb + 3 ≤ P32f.F ∧ ¬ P32f.AddSafe (P32f.fmt.val 1234567890) (P32f.fmt.val (-1134567890)) ∧
    P32f.fmt.IsReal 1234567890 ∧ P32f.fmt.IsReal (-1134567890) ∧ Posit.add P32f 1234567890 (-1134567890) = .ok 200000000 := by
  decide +kernel

/-- **C137**, differences. -/
theorem C137_sub (h : c.WF) (hF : c.fb + 3 ≤ c.F) {a b v : ℤ} (ha : c.fmt.IsReal a) (hb : c.fmt.IsReal b)
    (hv : Posit.sub c a b = .ok v) :
    c.fmt.IsFaithful (c.fmt.val a - c.fmt.val b) v ∧ (v = 0 ↔ a = b) ∧
      (∀ w, c.fmt.IsReal w → c.fmt.val w = c.fmt.val a - c.fmt.val b → v = w) ∧
      (c.fmt.val a * c.fmt.val b < 0 → c.fmt.IsTrunc (c.fmt.val a - c.fmt.val b) v) := by
  obtain ⟨r1, r2, r3⟩ := aligned_faithful h le_rfl hF (real_grid h ha) (fun h0 => (real_grid h hb (neg_ne_zero.mp h0)).neg)
    (ok_of_iff (C63_sub h ha hb) hv)
  rw [← sub_eq_add_neg] at r1 r2 r3
  refine ⟨r1, r2.trans (sub_eq_zero.trans (Format.val_inj ha.inRange hb.inRange)), fun w hw he => r1.exact hw he, fun hp => r3 ?_⟩
  rw [mul_neg]; linarith

example : ¬ P32f.AddSafe (P32f.fmt.val 1234567890) (-P32f.fmt.val 134567890) ∧ Posit.sub P32f 1234567890 134567890 = .ok 1167283945 := by
  decide +kernel

/-- **C137**, a fraction type with one bit less: 1/128 - 1 is the posit -127/128 of nine bits, and the sum is -1. -/
theorem C137_narrow_wrong : (⟨16, 9, 0, 8, .withNan⟩ : Cfg).WF ∧ (⟨16, 9, 0, 8, .withNan⟩ : Cfg).fb + 2 = 8 ∧
    Posit.add ⟨16, 9, 0, 8, .withNan⟩ 1 (-128) = .ok (-128) ∧
    ¬ (⟨16, 9, 0, 8, .withNan⟩ : Cfg).fmt.IsFaithful ((⟨16, 9, 0, 8, .withNan⟩ : Cfg).fmt.val 1 + (⟨16, 9, 0, 8, .withNan⟩ : Cfg).fmt.val (-128)) (-128) := by
  refine ⟨by decide +kernel, by decide +kernel, by decide +kernel, fun hf => ?_⟩
  have := hf.exact (w := -127) (by decide +kernel) (by decide +kernel)
  omega

/-- **C137**, operands of the same sign: two bits more in the fraction type are enough for sums rounded toward zero, and for
differences of operands of different signs. -/
theorem C137_same_sign (h : c.WF) (hF : c.fb + 2 ≤ c.F) {a b v : ℤ} (ha : c.fmt.IsReal a) (hb : c.fmt.IsReal b) :
    (0 < c.fmt.val a * c.fmt.val b → Posit.add c a b = .ok v → c.fmt.IsTrunc (c.fmt.val a + c.fmt.val b) v) ∧
    (c.fmt.val a * c.fmt.val b < 0 → Posit.sub c a b = .ok v → c.fmt.IsTrunc (c.fmt.val a - c.fmt.val b) v) := by
  refine ⟨fun hp hv => ?_, fun hp hv => ?_⟩
  · have hv' := ok_of_iff (C63_add h ha hb) hv
    unfold alignedSum at hv'
    rw [if_neg (left_ne_zero_of_mul hp.ne'), if_neg (right_ne_zero_of_mul hp.ne')] at hv'
    exact cut_trunc h le_rfl hF hp (real_grid h ha (left_ne_zero_of_mul hp.ne')) (real_grid h hb (right_ne_zero_of_mul hp.ne')) hv'
  · have h1 := left_ne_zero_of_mul hp.ne
    have h2 := right_ne_zero_of_mul hp.ne
    have hv' := ok_of_iff (C63_sub h ha hb) hv
    unfold alignedSum at hv'
    rw [if_neg h1, if_neg (neg_ne_zero.mpr h2)] at hv'
    rw [sub_eq_add_neg]
    exact cut_trunc h le_rfl hF (by rw [mul_neg]; linarith) (real_grid h ha h1) (real_grid h hb h2).neg hv'

example : (⟨16, 9, 0, 8, .withNan⟩ : Cfg).WF ∧ (⟨16, 9, 0, 8, .withNan⟩ : Cfg).fb + 2 = 8 ∧
    Posit.add ⟨16, 9, 0, 8, .withNan⟩ 131 129 = .ok 193 ∧ Posit.sub ⟨16, 9, 0, 8, .withNan⟩ 131 (-129) = .ok 193 := by decide +kernel

/-- **C137**, one bit less still: 1+3/128 and 1+1/128 are posits of ten bits, their sum 2+1/32 is one, and the result is 2. -/
theorem C137_same_sign_wrong : (⟨16, 10, 0, 8, .withNan⟩ : Cfg).WF ∧ (⟨16, 10, 0, 8, .withNan⟩ : Cfg).fb + 1 = 8 ∧
    Posit.add ⟨16, 10, 0, 8, .withNan⟩ 259 257 = .ok 384 ∧
    ¬ (⟨16, 10, 0, 8, .withNan⟩ : Cfg).fmt.IsFaithful
      ((⟨16, 10, 0, 8, .withNan⟩ : Cfg).fmt.val 259 + (⟨16, 10, 0, 8, .withNan⟩ : Cfg).fmt.val 257) 384 := by
  refine ⟨by decide +kernel, by decide +kernel, by decide +kernel, fun hf => ?_⟩
  have := hf.exact (w := 385) (by decide +kernel) (by decide +kernel)
  omega

theorem product_grid (h : c.WF) {a b : ℤ} (ha : c.fmt.IsReal a) (hb : c.fmt.IsReal b) (h0 : c.fmt.val a * c.fmt.val b ≠ 0) :
    OnGrid (2 * c.fb + 1) (c.fmt.val a * c.fmt.val b) := by
  have h1 := left_ne_zero_of_mul h0
  have h2 := right_ne_zero_of_mul h0
  exact (real_grid h ha h1).mul (real_grid h hb h2) h1 h2

/-- **C137**, products with a sum: whenever `fma(a,b,d)` is defined it is a faithful rounding of `a*b+d`, if the fraction type
holds the product. -/
theorem C137_fma (h : c.WF) (hF : 2 * c.fb + 4 ≤ c.F) {a b d v : ℤ} (ha : c.fmt.IsReal a) (hb : c.fmt.IsReal b)
    (hd : c.fmt.IsReal d) (hv : Posit.fma c a b d = .ok v) :
    c.fmt.IsFaithful (c.fmt.val a * c.fmt.val b + c.fmt.val d) v ∧ (v = 0 ↔ c.fmt.val a * c.fmt.val b + c.fmt.val d = 0) ∧
      (∀ w, c.fmt.IsReal w → c.fmt.val w = c.fmt.val a * c.fmt.val b + c.fmt.val d → v = w) ∧
      (0 < c.fmt.val a * c.fmt.val b * c.fmt.val d → c.fmt.IsTrunc (c.fmt.val a * c.fmt.val b + c.fmt.val d) v) := by
  obtain ⟨r1, r2, r3⟩ := aligned_faithful h (K := 2 * c.fb + 1) (by omega) (by omega) (product_grid h ha hb)
    (fun h0 => (real_grid h hd h0).mono (by omega)) (ok_of_iff (C63_fma h (by omega) ha hb hd) hv)
  exact ⟨r1, r2, fun w hw he => r1.exact hw he, r3⟩

example : P8h.WF ∧ 2 * P8h.fb + 4 ≤ P8h.F ∧ Posit.fma P8h 72 74 (-100) = .ok (-55) := by decide +kernel

/-- **C137**, sums of two products: whenever `a*b+x*y` is defined it is a faithful rounding of the exact sum. -/
theorem C137_mulAddMul (h : c.WF) (hF : 2 * c.fb + 4 ≤ c.F) {a b x y v : ℤ} (ha : c.fmt.IsReal a) (hb : c.fmt.IsReal b)
    (hx : c.fmt.IsReal x) (hy : c.fmt.IsReal y) (hv : Posit.mulAddMul c a b x y = .ok v) :
    c.fmt.IsFaithful (c.fmt.val a * c.fmt.val b + c.fmt.val x * c.fmt.val y) v ∧
      (v = 0 ↔ c.fmt.val a * c.fmt.val b + c.fmt.val x * c.fmt.val y = 0) ∧
      (∀ w, c.fmt.IsReal w → c.fmt.val w = c.fmt.val a * c.fmt.val b + c.fmt.val x * c.fmt.val y → v = w) ∧
      (0 < c.fmt.val a * c.fmt.val b * (c.fmt.val x * c.fmt.val y) →
        c.fmt.IsTrunc (c.fmt.val a * c.fmt.val b + c.fmt.val x * c.fmt.val y) v) := by
  obtain ⟨r1, r2, r3⟩ := aligned_faithful h (K := 2 * c.fb + 1) (by omega) (by omega) (product_grid h ha hb)
    (product_grid h hx hy) (ok_of_iff (C63_mulAddMul h (by omega) ha hb hx hy) hv)
  exact ⟨r1, r2, fun w hw he => r1.exact hw he, r3⟩

example : P8h.WF ∧ 2 * P8h.fb + 4 ≤ P8h.F ∧ Posit.mulAddMul P8h 72 74 (-100) 33 = .ok 22 := by decide +kernel

/-- **C137**, differences of two products, the second one not zero (for a second product of zero see `C65_mulSubMul_wrong`). -/
theorem C137_mulSubMul_partial (h : c.WF) (hF : 2 * c.fb + 4 ≤ c.F) {a b x y v : ℤ} (ha : c.fmt.IsReal a) (hb : c.fmt.IsReal b)
    (hx : c.fmt.IsReal x) (hy : c.fmt.IsReal y) (hx0 : x ≠ 0) (hy0 : y ≠ 0) (hv : Posit.mulSubMul c a b x y = .ok v) :
    c.fmt.IsFaithful (c.fmt.val a * c.fmt.val b - c.fmt.val x * c.fmt.val y) v ∧
      (v = 0 ↔ c.fmt.val a * c.fmt.val b = c.fmt.val x * c.fmt.val y) ∧
      (∀ w, c.fmt.IsReal w → c.fmt.val w = c.fmt.val a * c.fmt.val b - c.fmt.val x * c.fmt.val y → v = w) ∧
      (c.fmt.val a * c.fmt.val b * (c.fmt.val x * c.fmt.val y) < 0 →
        c.fmt.IsTrunc (c.fmt.val a * c.fmt.val b - c.fmt.val x * c.fmt.val y) v) := by
  have hne : c.fmt.val x * c.fmt.val y ≠ 0 := mul_ne_zero (fun hh => hx0 ((Format.val_eq_zero_iff hx.inRange).mp hh))
    (fun hh => hy0 ((Format.val_eq_zero_iff hy.inRange).mp hh))
  obtain ⟨r1, r2, r3⟩ := aligned_faithful h (K := 2 * c.fb + 1) (by omega) (by omega) (product_grid h ha hb)
    (fun _ => (product_grid h hx hy hne).neg) (ok_of_iff (C63_mulSubMul h (by omega) ha hb hx hy (if_neg hne).symm) hv)
  rw [← sub_eq_add_neg] at r1 r2 r3
  exact ⟨r1, r2.trans sub_eq_zero, fun w hw he => r1.exact hw he, fun hp => r3 (by rw [mul_neg]; linarith)⟩

example : P8h.WF ∧ 2 * P8h.fb + 4 ≤ P8h.F ∧ Posit.mulSubMul P8h 72 74 100 33 = .ok 22 := by decide +kernel

/-! ## Errors -/

/-- **C67**, `+` and `-`: the errors of the sums and differences that are defined. -/
theorem C67_add_sub (h : c.WF) (hF : c.fb + 3 ≤ c.F) {a b v : ℤ} (ha : c.fmt.IsReal a) (hb : c.fmt.IsReal b) {J : ℕ} :
    (Posit.add c a b = .ok v → c.fmt.val a + c.fmt.val b ≠ 0 → fracBits c.N c.es (Int.log 2 |c.fmt.val a + c.fmt.val b|) = J →
      |c.fmt.val v - (c.fmt.val a + c.fmt.val b)| < 2 ^ (Int.log 2 |c.fmt.val a + c.fmt.val b| - J) ∧
      |c.fmt.val v - (c.fmt.val a + c.fmt.val b)| < |c.fmt.val a + c.fmt.val b| / 2 ^ J) ∧
    (Posit.sub c a b = .ok v → a ≠ b → fracBits c.N c.es (Int.log 2 |c.fmt.val a - c.fmt.val b|) = J →
      |c.fmt.val v - (c.fmt.val a - c.fmt.val b)| < 2 ^ (Int.log 2 |c.fmt.val a - c.fmt.val b| - J) ∧
      |c.fmt.val v - (c.fmt.val a - c.fmt.val b)| < |c.fmt.val a - c.fmt.val b| / 2 ^ J) :=
  ⟨fun hv hx hJ => faithful_errors (C137_add h hF ha hb hv).1 hx hJ, fun hv hx hJ => faithful_errors (C137_sub h hF ha hb hv).1
    (fun h0 => hx ((Format.val_inj ha.inRange hb.inRange).mp (sub_eq_zero.mp h0))) hJ⟩

example : P32f.WF ∧ P32f.fb + 3 ≤ P32f.F ∧ Posit.add P32f 1234567890 (-1134567890) = .ok 200000000 ∧
    fracBits P32f.N P32f.es (Int.log 2 |P32f.fmt.val 1234567890 + P32f.fmt.val (-1134567890)|) = (27 : ℕ) := by decide +kernel

/-- **C67**, `fma`: the error of the results that are defined. -/
theorem C67_fma (h : c.WF) (hF : 2 * c.fb + 4 ≤ c.F) {a b d v : ℤ} (ha : c.fmt.IsReal a) (hb : c.fmt.IsReal b)
    (hd : c.fmt.IsReal d) (hv : Posit.fma c a b d = .ok v) (hx : c.fmt.val a * c.fmt.val b + c.fmt.val d ≠ 0) {J : ℕ}
    (hJ : fracBits c.N c.es (Int.log 2 |c.fmt.val a * c.fmt.val b + c.fmt.val d|) = J) :
    |c.fmt.val v - (c.fmt.val a * c.fmt.val b + c.fmt.val d)| < 2 ^ (Int.log 2 |c.fmt.val a * c.fmt.val b + c.fmt.val d| - J) ∧
    |c.fmt.val v - (c.fmt.val a * c.fmt.val b + c.fmt.val d)| < |c.fmt.val a * c.fmt.val b + c.fmt.val d| / 2 ^ J :=
  faithful_errors (C137_fma h hF ha hb hd hv).1 hx hJ

example : P8h.WF ∧ 2 * P8h.fb + 4 ≤ P8h.F ∧ Posit.fma P8h 72 72 (-64) = .ok 36 ∧
    fracBits P8h.N P8h.es (Int.log 2 |P8h.fmt.val 72 * P8h.fmt.val 72 + P8h.fmt.val (-64)|) = (5 : ℕ) := by decide +kernel

end Verif
