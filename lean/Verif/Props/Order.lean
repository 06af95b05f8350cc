import Verif.Lemmas.Unpack
import Verif.Model.Instances

/-!
# Order and sign: C04 (comparisons), C05 (NaN), C06 (negation), C07 (abs), C28 (min, max)
-/

namespace Verif
open Fmt

variable {c : Cfg}

/-! ## C04 -/

/-- **C04**: on real posits the six comparison operators are the comparisons of the real values. -/
theorem C04_compare (h : c.WF) {a b : ℤ} (ha : c.fmt.IsReal a) (hb : c.fmt.IsReal b) :
    (Posit.lt c a b = true ↔ c.fmt.val a < c.fmt.val b) ∧
    (Posit.le c a b = true ↔ c.fmt.val a ≤ c.fmt.val b) ∧
    (Posit.gt c a b = true ↔ c.fmt.val a > c.fmt.val b) ∧
    (Posit.ge c a b = true ↔ c.fmt.val a ≥ c.fmt.val b) ∧
    (Posit.eq c a b = true ↔ c.fmt.val a = c.fmt.val b) ∧
    (Posit.ne c a b = true ↔ c.fmt.val a ≠ c.fmt.val b) := by
  have h1 := (real_not_special h ha).2
  have h2 := (real_not_special h hb).2
  unfold Posit.lt Posit.le Posit.gt Posit.ge Posit.ne Posit.eq
  rw [h1, h2]
  simp only [Bool.or_self, Bool.and_false, Bool.false_eq_true, if_false, decide_eq_true_eq, Bool.not_eq_true',
    decide_eq_false_iff_not, gt_iff_lt, ge_iff_le, ne_eq]
  rw [Format.val_lt_iff ha.inRange hb.inRange, Format.val_le_iff ha.inRange hb.inRange,
    Format.val_lt_iff hb.inRange ha.inRange, Format.val_le_iff hb.inRange ha.inRange,
    Format.val_inj ha.inRange hb.inRange]
  simp

example : P60.WF ∧ P60.fmt.IsReal (-5) ∧ P60.fmt.IsReal (2 ^ 58) ∧ Posit.lt P60 (-5) (2 ^ 58) = true ∧
    P60.fmt.val (-5) < P60.fmt.val (2 ^ 58) := by decide +kernel

/-! ## C05 -/

/-- **C05**: with NaN in the format, every comparison with the NaN pattern is false, except `!=`, which is true. -/
theorem C05_nan_unordered (h : c.WF) (hs : c.spec ≠ .withInf) (a b : ℤ)
    (hn : a = -(2 ^ (c.N - 1)) ∨ b = -(2 ^ (c.N - 1))) :
    Posit.lt c a b = false ∧ Posit.le c a b = false ∧ Posit.gt c a b = false ∧ Posit.ge c a b = false ∧
    Posit.eq c a b = false ∧ Posit.ne c a b = true := by
  have hw : c.withnan = true := by unfold Cfg.withnan; simp [hs]
  have hn' : (Posit.isNaN c a || Posit.isNaN c b) = true := by
    unfold Posit.isNaN
    rw [h.nan_eq]
    rcases hn with hn | hn <;> simp [hs, hn]
  unfold Posit.lt Posit.le Posit.gt Posit.ge Posit.ne Posit.eq
  rw [hw, hn']
  simp

example : P8.WF ∧ P8.spec ≠ .withInf ∧ Posit.ne P8 (-128) (-128) = true := by decide

/-- **C05**: without NaN the comparisons are the total order of the stored integers. -/
theorem C05_no_nan_total (hs : c.spec = .withInf) (a b : ℤ) :
    (Posit.lt c a b = true ↔ a < b) ∧ (Posit.le c a b = true ↔ a ≤ b) ∧ (Posit.gt c a b = true ↔ a > b) ∧
    (Posit.ge c a b = true ↔ a ≥ b) ∧ (Posit.eq c a b = true ↔ a = b) ∧ (Posit.ne c a b = true ↔ a ≠ b) := by
  have hw : c.withnan = false := by unfold Cfg.withnan; simp [hs]
  unfold Posit.lt Posit.le Posit.gt Posit.ge Posit.ne Posit.eq
  rw [hw]
  simp

example : P16.spec = .withInf ∧ Posit.lt P16 (-32768) 5 = true := by decide

/-- **C05**: NaN is the only source of unordered pairs: for other operands one of `<`, `==`, `>` holds. -/
theorem C05_trichotomy (h : c.WF) (a b : ℤ)
    (hn : c.spec = .withInf ∨ (a ≠ -(2 ^ (c.N - 1)) ∧ b ≠ -(2 ^ (c.N - 1)))) :
    Posit.lt c a b = true ∨ Posit.eq c a b = true ∨ Posit.gt c a b = true := by
  have hz : (c.withnan && (Posit.isNaN c a || Posit.isNaN c b)) = false := by
    unfold Cfg.withnan Posit.isNaN
    rw [h.nan_eq]
    rcases hn with hn | ⟨hn1, hn2⟩
    · simp [hn]
    · simp [hn1, hn2]
  unfold Posit.lt Posit.gt Posit.eq
  rw [hz]
  simp only [Bool.false_eq_true, if_false, decide_eq_true_eq]
  omega

example : P8i.WF ∧ (127 : ℤ) ≠ -(2 ^ (P8i.N - 1)) := by decide

/-! ## C06 -/

theorem neg_ok (h : c.WF) {v : ℤ} (hv : v.natAbs < 2 ^ (c.N - 1)) : Posit.neg c v = .ok (-v) := by
  have hP := h.pow_le
  have hb : (v.natAbs : ℤ) < 2 ^ (c.N - 1) := by exact_mod_cast hv
  have hin : InS c.H (-v) := by unfold InS; omega
  unfold Posit.neg
  rw [arithS_ok' hin]
  simp only [bind, Except.bind, pure, Except.pure]
  rw [wrapS_of_inS (by have := h.H_pos; omega) hin]

/-- **C06** for real posits: `-p` executes without undefined behaviour and denotes the negated number; twice negated it
has the same bits; `-0 = 0`. Missing: NaN, see `C06_neg_nan`. -/
theorem C06_neg_partial (h : c.WF) {v : ℤ} (hv : c.fmt.IsReal v) :
    ∃ w, Posit.neg c v = .ok w ∧ c.fmt.IsReal w ∧ c.fmt.val w = -c.fmt.val v ∧ Posit.neg c w = .ok v ∧
      (v = 0 → w = 0) := by
  refine ⟨-v, neg_ok h hv.inRange, hv.neg, Format.val_neg _ _, ?_, fun h => by omega⟩
  rw [neg_ok h hv.neg.inRange, neg_neg]

example : P6.WF ∧ P6.fmt.IsReal (-17) ∧ Posit.neg P6 (-17) = .ok 17 := by decide

/-- **C06** for the patterns `0111…1` and `1000…01` (the two infinities of `WithNanInf`): they are exchanged. -/
theorem C06_neg_inf (h : c.WF) :
    Posit.neg c (2 ^ (c.N - 1) - 1) = .ok (-(2 ^ (c.N - 1)) + 1) ∧
    Posit.neg c (-(2 ^ (c.N - 1)) + 1) = .ok (2 ^ (c.N - 1) - 1) := by
  have hg := h.pow_ge
  have hg' : 4 ≤ 2 ^ (c.N - 1) := by exact_mod_cast hg
  constructor
  · rw [neg_ok h (by zify; rw [abs_lt]; omega)]; congr 1; ring
  · rw [neg_ok h (by zify; rw [abs_lt]; omega)]; congr 1; ring

example : P8i.WF ∧ P8i.spec = .withNanInf ∧ Posit.neg P8i 127 = .ok (-127) := by decide

/-- **C06** fails for NaN unless the holder is an 8- or 16-bit integer filled by the posit: otherwise negating the NaN
pattern gives a non-canonical positive integer that is not NaN, or is signed overflow. -/
theorem C06_neg_nan (h : c.WF) :
    (c.N = c.H → c.H < 32 → Posit.neg c (-(2 ^ (c.N - 1))) = .ok (-(2 ^ (c.N - 1)))) ∧
    (c.N = c.H → 32 ≤ c.H → Posit.neg c (-(2 ^ (c.N - 1))) = .error .overflow) ∧
    (c.N < c.H → Posit.neg c (-(2 ^ (c.N - 1))) = .ok (2 ^ (c.N - 1)) ∧
      ¬ c.fmt.IsCanonical (2 ^ (c.N - 1)) ∧ Posit.isNaN c (2 ^ (c.N - 1)) = false) := by
  have hN := h.N_ge
  have hH := h.H_pos
  have hg := h.pow_ge
  refine ⟨fun he hlt => ?_, fun he hle => ?_, fun hlt => ⟨?_, ?_, ?_⟩⟩
  · unfold Posit.neg
    rw [he, neg_neg, arithS_ok (by
      have : (2 : ℤ) ^ (c.H - 1) < 2 ^ (pw c.H - 1) := pow_lt_pow_right₀ (by norm_num) (by unfold pw; omega)
      have : (0 : ℤ) < 2 ^ (c.H - 1) := by positivity
      unfold InS; omega)]
    simp only [bind, Except.bind, pure, Except.pure]
    congr 1
    have := two_pow_pred (w := c.H) (by omega)
    have h0 : (0 : ℤ) < 2 ^ (c.H - 1) := by positivity
    exact wrapS_eq (by omega) 1 (by rw [this]; ring) (by unfold InS; omega)
  · unfold Posit.neg arithS
    rw [he, neg_neg, if_neg]
    · rfl
    · rw [show pw c.H = c.H by unfold pw; omega]; omega
  · have : (2 : ℤ) ^ (c.N - 1) < 2 ^ (c.H - 1) := pow_lt_pow_right₀ (by norm_num) (by omega)
    have hin : InS c.H (2 ^ (c.N - 1)) := by unfold InS; omega
    unfold Posit.neg
    rw [neg_neg, arithS_ok' hin]
    simp only [bind, Except.bind, pure, Except.pure]
    rw [wrapS_of_inS (by omega) hin]
  · unfold Format.IsCanonical; simp
  · unfold Posit.isNaN
    rw [h.nan_eq]
    simp
    intro _; omega

example : P8.WF ∧ P8.N = P8.H ∧ P6.WF ∧ P6.N < P6.H ∧ P32.WF ∧ P32.N = P32.H ∧
    Posit.neg P6 (-32) = .ok 32 ∧ Posit.neg P32 (-2147483648) = .error .overflow := by decide

/-- **C06**, counterexample: `-NaN` is not NaN for `Posit<int16_t,6,0,uint8_t>` and undefined for 32-bit posits. -/
theorem C06_not_always :
    (P6.WF ∧ Posit.isNaN P6 P6.nan = true ∧ ∃ w, Posit.neg P6 P6.nan = .ok w ∧ Posit.isNaN P6 w = false) ∧
    (P32.WF ∧ Posit.isNaN P32 P32.nan = true ∧ Posit.neg P32 P32.nan = .error .overflow) :=
  ⟨⟨by decide, by decide, 32, by decide⟩, by decide⟩

/-! ## C07 -/

/-- **C07** for real posits: `abs()` / `std::abs` return the absolute value, never negative. -/
theorem C07_abs_partial (h : c.WF) {v : ℤ} (hv : c.fmt.IsReal v) :
    ∃ w, Posit.abs c v = .ok w ∧ c.fmt.IsReal w ∧ c.fmt.val w = |c.fmt.val v| ∧ Posit.isNegative w = false := by
  by_cases hn : v < 0
  · refine ⟨-v, ?_, hv.neg, ?_, ?_⟩
    · have := neg_ok h hv.inRange
      unfold Posit.abs Posit.pcabs Posit.condNeg
      simp only [hn, decide_true, if_true]
      exact this
    · rw [Format.val_neg, abs_of_neg ((Format.val_neg_iff hv.inRange).mpr hn)]
    · unfold Posit.isNegative; simp; omega
  · refine ⟨v, ?_, hv, ?_, ?_⟩
    · unfold Posit.abs Posit.pcabs Posit.condNeg
      simp [hn]
      rfl
    · rw [abs_of_nonneg]
      by_contra hc
      exact hn ((Format.val_neg_iff hv.inRange).mp (by linarith))
    · unfold Posit.isNegative; simp; omega

example : P28.WF ∧ P28.fmt.IsReal (-100) ∧ Posit.abs P28 (-100) = .ok 100 := by decide

/-- **C07** for NaN behaves like negation: NaN only when an 8- or 16-bit holder is filled by the posit. -/
theorem C07_abs_nan (h : c.WF) :
    (c.N = c.H → c.H < 32 → Posit.abs c (-(2 ^ (c.N - 1))) = .ok (-(2 ^ (c.N - 1)))) ∧
    (c.N = c.H → 32 ≤ c.H → Posit.abs c (-(2 ^ (c.N - 1))) = .error .overflow) ∧
    (c.N < c.H → Posit.abs c (-(2 ^ (c.N - 1))) = .ok (2 ^ (c.N - 1)) ∧
      ¬ c.fmt.IsCanonical (2 ^ (c.N - 1)) ∧ Posit.isNaN c (2 ^ (c.N - 1)) = false) := by
  have hg := h.pow_ge
  have e : Posit.abs c (-(2 ^ (c.N - 1))) = Posit.neg c (-(2 ^ (c.N - 1))) := by
    unfold Posit.abs Posit.pcabs Posit.condNeg Posit.neg
    simp only [show (-(2 ^ (c.N - 1)) : ℤ) < 0 by omega, decide_true, if_true]
  rw [e]
  exact C06_neg_nan h

example : P12.WF ∧ P12.N < P12.H ∧ Posit.abs P12 (-2048) = .ok 2048 := by decide

/-- **C07**, counterexample: `abs(NaN)` is not NaN for `Posit<int16_t,12,1,uint16_t>`. -/
theorem C07_not_always : P12.WF ∧ Posit.isNaN P12 P12.nan = true ∧
    ∃ w, Posit.abs P12 P12.nan = .ok w ∧ Posit.isNaN P12 w = false := ⟨by decide, by decide, 2048, by decide⟩

/-! ## C28 -/

/-- **C28**: `std::min` / `std::max` return an operand with the smaller / greater real value. -/
theorem C28_min_max (h : c.WF) {a b : ℤ} (ha : c.fmt.IsReal a) (hb : c.fmt.IsReal b) :
    (Posit.stdMin c a b = a ∨ Posit.stdMin c a b = b) ∧
    c.fmt.val (Posit.stdMin c a b) = min (c.fmt.val a) (c.fmt.val b) ∧
    (Posit.stdMax c a b = a ∨ Posit.stdMax c a b = b) ∧
    c.fmt.val (Posit.stdMax c a b) = max (c.fmt.val a) (c.fmt.val b) := by
  obtain ⟨-, hle, -, hge, -, -⟩ := C04_compare h ha hb
  unfold Posit.stdMin Posit.stdMax
  refine ⟨by split_ifs <;> simp, ?_, by split_ifs <;> simp, ?_⟩
  · split_ifs with hc
    · rw [min_eq_left (hle.mp hc)]
    · rw [min_eq_right (not_le.mp fun hh => hc (hle.mpr hh)).le]
  · split_ifs with hc
    · rw [max_eq_left (hge.mp hc)]
    · rw [max_eq_right (not_le.mp fun hh => hc (hge.mpr hh)).le]

example : P32.WF ∧ P32.fmt.IsReal 77 ∧ P32.fmt.IsReal (-2) ∧ Posit.stdMin P32 77 (-2) = -2 := by decide

end Verif
