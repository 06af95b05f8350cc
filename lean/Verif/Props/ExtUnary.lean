import Verif.Lemmas.ExtUnary
import Verif.Props.Extended
import Verif.Props.Step

/-!
# C90: the complete outcome of the members with one operand, on every pattern of the format
-/

namespace Verif
open Fmt

variable {c : Cfg}

/-- **C90**, `abs()` / `std::abs` and `std::sqrt` (which computes the absolute value): every pattern but `100…0` gives the
pattern of the extended absolute value; `100…0` gives itself in a format that fills an 8 or 16-bit integer, overflows in
one that fills a wider integer, and gives the pattern `2^(N-1)` outside the format in the others. -/
theorem C90_abs (h : c.WF) {v : ℤ} (hv : c.fmt.IsCanonical v) :
    Posit.stdSqrt c v = Posit.abs c v ∧
    (v ≠ c.topPat → ∃ w, Posit.abs c v = .ok w ∧ c.fmt.IsCanonical w ∧ c.ext w = (c.ext v).abs) ∧
    (v = c.topPat → c.N = c.H → c.H < 32 → Posit.abs c v = .ok v) ∧
    (v = c.topPat → c.N = c.H → 32 ≤ c.H → Posit.abs c v = .error .overflow) ∧
    (v = c.topPat → c.N < c.H → Posit.abs c v = .ok (2 ^ (c.N - 1)) ∧ ¬ c.fmt.IsCanonical (2 ^ (c.N - 1))) := by
  obtain ⟨a1, a2, a3⟩ := C07_abs_nan h
  refine ⟨rfl, fun hn => ?_, fun ht => ht ▸ a1, fun ht => ht ▸ a2, fun ht hl => ht ▸ ⟨(a3 hl).1, (a3 hl).2.1⟩⟩
  by_cases hr : c.fmt.IsReal v
  · obtain ⟨w, h1, h2, h3, -⟩ := C07_abs_partial h hr
    exact ⟨w, h1, h2.canonical, by rw [ext_real h2, ext_real hr, h3]; rfl⟩
  have hext : c.ext v = .inf (v < 0) := by
    unfold Cfg.ext; rw [if_neg hr, if_neg (fun hh => hn hh.1)]
  by_cases hneg : v < 0
  · obtain ⟨k1, k2, k3⟩ := C88_neg h hv hn
    refine ⟨-v, ?_, k2, by rw [k3, hext]; simp [EV.neg, EV.abs, hneg]⟩
    unfold Posit.abs Posit.pcabs Posit.condNeg
    simp only [hneg, decide_true, if_true]
    exact k1
  · refine ⟨v, ?_, hv, by rw [hext]; simp [EV.abs, hneg]⟩
    unfold Posit.abs Posit.pcabs Posit.condNeg
    simp [hneg]
    rfl

example : P60.WF ∧ P60.fmt.IsCanonical P60.ninf ∧ P60.ninf ≠ P60.topPat ∧ Posit.abs P60 P60.ninf = .ok P60.pinf ∧
    P60.ext P60.pinf = .inf false ∧ Posit.stdSqrt P16 16384 = .ok 16384 ∧ Posit.abs P32 P32.topPat = .error .overflow ∧
    Posit.abs P12 P12.topPat = .ok 2048 := by decide +kernel

/-- **C90**, `inv()`: zero, NaN and the infinities are returned unchanged. In a format with two infinities the reciprocals of
the two least magnitudes, which exceed the greatest posit, are infinities (or the shift is out of range); every other
number has the outcome of its reciprocal. -/
theorem C90_inv (h : c.WF) (hF : c.fb + 2 ≤ c.F) {v : ℤ} (hv : c.fmt.IsCanonical v) :
    (v = 0 ∨ ¬ c.fmt.IsReal v → Posit.inv c v = .ok v) ∧
    (c.spec = .withNanInf → v.natAbs = 1 → c.N + 1 < pw c.H → Posit.inv c v = .ok (c.infPat (v < 0))) ∧
    (c.spec = .withNanInf → v.natAbs = 1 → pw c.H ≤ c.N + 1 → Posit.inv c v = .error .shiftAmount) ∧
    (c.fmt.IsReal v → v ≠ 0 → ¬ (c.spec = .withNanInf ∧ v.natAbs = 1) →
      EV.Outcome c (.num (1 / c.fmt.val v)) (Posit.inv c v)) := by
  refine ⟨fun hs => ?_, fun hs h1 => (inv_least h hs h1).1, fun hs h1 => (inv_least h hs h1).2, fun hr h0 hn => ?_⟩
  · rcases hs with rfl | hr
    · exact (C16_inv_zero_inf h).1
    · exact inv_special h hv hr
  · rw [C16_inv_eq_div h hF hr h0 fun hw => by
      have : v.natAbs ≠ 1 := fun h1 => hn ⟨hw, h1⟩
      omega]
    have := outcome_div h hF (one_real h).1 hr h0
    rwa [val_one h] at this

example : P8i.WF ∧ P8i.fb + 2 ≤ P8i.F ∧ P8i.fmt.IsCanonical P8i.topPat ∧ Posit.inv P8i P8i.topPat = .ok P8i.topPat ∧
    P8i.spec = .withNanInf ∧ P8i.N + 1 < pw P8i.H ∧ Posit.inv P8i (-1) = .ok (P8i.infPat true) ∧
    P8i.fmt.IsReal 77 ∧ Posit.inv P8i 77 = .ok 49 ∧
    Posit.inv ⟨32, 32, 2, 32, .withNanInf⟩ 1 = .error .shiftAmount := by decide +kernel

/-- **C90**, `half()`: zero, NaN and the infinities are returned unchanged. A number has the outcome of its half, unless the
half is below every nonzero posit: then the result is zero, or the shift is out of range. -/
theorem C90_half (h : c.WF) {v : ℤ} (hv : c.fmt.IsCanonical v) :
    (v = 0 ∨ ¬ c.fmt.IsReal v → Posit.half c v = .ok v) ∧
    (c.fmt.IsReal v → v ≠ 0 → c.fmt.val 1 ≤ |c.fmt.val v / 2| →
      EV.Outcome c (.num (c.fmt.val v / 2)) (Posit.half c v)) ∧
    (c.fmt.IsReal v → v ≠ 0 → |c.fmt.val v / 2| < c.fmt.val 1 → c.N + 1 < pw c.H → Posit.half c v = .ok 0) ∧
    (c.fmt.IsReal v → v ≠ 0 → |c.fmt.val v / 2| < c.fmt.val 1 → pw c.H ≤ c.N + 1 →
      Posit.half c v = .error .shiftAmount) := by
  have h1r : c.fmt.IsReal 1 := by have := one_le_maxBody h; rw [isReal_bounds]; omega
  have h1p : 0 < c.fmt.val 1 := (Format.val_pos_iff h1r.inRange).mpr (by norm_num)
  have hleast : |c.fmt.val v / 2| < c.fmt.val 1 → ∀ u, c.fmt.IsReal u → u ≠ 0 → |c.fmt.val v / 2| < |c.fmt.val u| := by
    intro hlt u hu hu0
    refine lt_of_lt_of_le hlt ?_
    have hb := (posVal_le_iff (es := c.fmt.es) le_rfl (lt_of_le_of_lt (one_le_maxBody h) (Format.maxBody_lt c.fmt)) (by omega)
      hu.natAbs_lt).mpr (show 1 ≤ u.natAbs by omega)
    rw [Format.abs_val hu.inRange hu0]
    have h1 := Format.abs_val h1r.inRange (by norm_num)
    rw [abs_of_pos h1p] at h1
    rw [h1]
    exact hb
  refine ⟨fun hs => ?_, fun hr h0 hlo => ?_, fun hr h0 hlo => (C18_half_least h hr h0 (hleast hlo)).1,
    fun hr h0 hlo => (C18_half_least h hr h0 (hleast hlo)).2⟩
  · rcases hs with rfl | hr
    · exact (C18_special h (by simp)).1
    · have := special_of_not_real h hv hr
      exact (C18_special h (by tauto)).1
  · obtain ⟨k1, k2⟩ := C18_half_partial h hr h0 ⟨1, h1r, by norm_num, by rwa [abs_of_pos h1p]⟩
    have hne : c.fmt.val v / 2 ≠ 0 := by
      intro hc; rw [hc, abs_zero] at hlo; linarith
    refine ⟨fun hs => ?_, fun hs => k2 fun hh => hs (Or.inr hh)⟩
    obtain ⟨w, hw, ht⟩ := k1 (hs.resolve_left hne)
    exact ⟨w, hw, Or.inr ht⟩

example : P12.WF ∧ P12.fmt.IsReal (-3) ∧ P12.fmt.val 1 ≤ |P12.fmt.val (-3) / 2| ∧ Posit.half P12 (-3) = .ok (-2) ∧
    P12.fmt.IsReal (-1) ∧ |P12.fmt.val (-1) / 2| < P12.fmt.val 1 ∧ P12.N + 1 < pw P12.H ∧ Posit.half P12 (-1) = .ok 0 ∧
    Posit.half P32 1 = .error .shiftAmount ∧ Posit.half P12 P12.topPat = .ok P12.topPat := by decide +kernel

/-- **C90**, `twice()`: zero, NaN and the infinities are returned unchanged. A number has the outcome of its double, except
the greatest magnitude of a format without exponent bits: it is returned unchanged, or is an infinity in a format with two
of them, or the shift is out of range. -/
theorem C90_twice (h : c.WF) {v : ℤ} (hv : c.fmt.IsCanonical v) :
    (v = 0 ∨ ¬ c.fmt.IsReal v → Posit.twice c v = .ok v) ∧
    (c.fmt.IsReal v → v ≠ 0 → ¬ (c.es = 0 ∧ v.natAbs = c.fmt.maxBody) →
      EV.Outcome c (.num (2 * c.fmt.val v)) (Posit.twice c v)) ∧
    (c.es = 0 → v.natAbs = c.fmt.maxBody →
      (c.spec = .withNanInf → c.N + 1 < pw c.H → Posit.twice c v = .ok (c.infPat (v < 0))) ∧
      (c.spec = .withNanInf → pw c.H ≤ c.N + 1 → Posit.twice c v = .error .shiftAmount) ∧
      (c.spec ≠ .withNanInf → c.N + 2 < pw c.H → Posit.twice c v = .ok v) ∧
      (c.spec ≠ .withNanInf → pw c.H ≤ c.N + 2 → Posit.twice c v = .error .shiftAmount)) := by
  refine ⟨fun hs => ?_, fun hr h0 hz => ?_, fun he hm => twice_greatest h he hm⟩
  · rcases hs with rfl | hr
    · exact (C18_special h (by simp)).2
    · have := special_of_not_real h hv hr
      exact (C18_special h (by tauto)).2
  · have hne : 2 * c.fmt.val v ≠ 0 :=
      mul_ne_zero (by norm_num) fun hh => h0 ((Format.val_eq_zero_iff hr.inRange).mp hh)
    refine ⟨fun hs => ?_, fun hs => twice_ub h hr h0 hz fun hh => hs (Or.inr hh)⟩
    obtain ⟨w, hw, ht⟩ := C18_twice_partial h hr h0 (hs.resolve_left hne) (fun he => Or.inl fun hm => hz ⟨he, hm⟩)
    exact ⟨w, hw, Or.inr ht⟩

example : P12.WF ∧ P12.fmt.IsReal (-1000) ∧ P12.es ≠ 0 ∧ Posit.twice P12 (-1000) = .ok (-1256) ∧
    Posit.twice P12 P12.topPat = .ok P12.topPat := by decide +kernel
example : P8.WF ∧ P8.es = 0 ∧ P8.spec ≠ .withNanInf ∧ P8.fmt.maxBody = 127 ∧ P8.N + 2 < pw P8.H ∧
    Posit.twice P8 (-127) = .ok (-127) ∧
    Posit.twice ⟨8, 8, 0, 8, .withNanInf⟩ (-126) = .ok (Cfg.infPat ⟨8, 8, 0, 8, .withNanInf⟩ true) := by decide +kernel

/-- **C90**, `next()` and `prev()`: NaN and the infinities, and the least number, are returned unchanged by both; every other
number has as `prev` the greatest number below, and, unless it is the greatest one, as `next` the least number above. `next` of the
greatest number is the positive infinity of a format with two; otherwise the pattern `100…0` in a format that fills an 8
or 16-bit integer, overflow in one that fills a wider integer, and the pattern `2^(N-1)` outside the format in the others. -/
theorem C90_next_prev (h : c.WF) {v : ℤ} (hv : c.fmt.IsCanonical v) :
    (¬ c.fmt.IsReal v ∨ v = -(c.fmt.maxBody : ℤ) → Posit.next c v = .ok v ∧ Posit.prev c v = .ok v) ∧
    (c.fmt.IsReal v → v ≠ -(c.fmt.maxBody : ℤ) → ∃ w, Posit.prev c v = .ok w ∧ c.fmt.IsReal w ∧ c.fmt.IsSucc w v) ∧
    (c.fmt.IsReal v → v ≠ -(c.fmt.maxBody : ℤ) → v ≠ c.fmt.maxBody → ∃ w, Posit.next c v = .ok w ∧ c.fmt.IsSucc v w) ∧
    (v = c.fmt.maxBody →
      (c.spec = .withNanInf → Posit.next c v = .ok (c.infPat false)) ∧
      (c.spec ≠ .withNanInf → c.N = c.H → c.H < 32 → Posit.next c v = .ok c.topPat) ∧
      (c.spec ≠ .withNanInf → c.N = c.H → 32 ≤ c.H → Posit.next c v = .error .overflow) ∧
      (c.spec ≠ .withNanInf → c.N < c.H → Posit.next c v = .ok (2 ^ (c.N - 1)) ∧
        ¬ c.fmt.IsCanonical (2 ^ (c.N - 1)))) := by
  obtain ⟨e1, -, e3, e4, e5, e6, e7⟩ := C17_next_ends h
  refine ⟨fun hs => ?_, fun hr hlo => ?_, fun hr hlo hhi => ?_, ?_⟩
  · rcases hs with hr | rfl
    · rw [isReal_bounds] at hr
      unfold Posit.next Posit.prev
      rw [maxpos_eq h, minneg_eq h, if_pos (by omega), if_pos (by omega)]
      exact ⟨rfl, rfl⟩
    · exact ⟨e1, e3⟩
  · have hb := isReal_bounds.mp hr
    have hw : c.fmt.IsReal (v - 1) := by rw [isReal_bounds]; omega
    refine ⟨v - 1, prev_inside h (by omega) hb.2, hw, hr, ?_, fun s hs hlt => ?_⟩
    · rw [Format.val_lt_iff hw.inRange hr.inRange]; omega
    · rw [Format.val_lt_iff hw.inRange hs.inRange] at hlt
      rw [Format.val_le_iff hr.inRange hs.inRange]; omega
  · have hb := isReal_bounds.mp hr
    have hw : c.fmt.IsReal (v + 1) := by rw [isReal_bounds]; omega
    refine ⟨v + 1, next_inside h (by omega) (by omega), hw, ?_, fun s hs hlt => ?_⟩
    · rw [Format.val_lt_iff hr.inRange hw.inRange]; omega
    · rw [Format.val_lt_iff hr.inRange hs.inRange] at hlt
      rw [Format.val_le_iff hw.inRange hs.inRange]; omega
  · rintro rfl
    refine ⟨fun hs => ?_, fun hs he hl => ?_, e6, e7⟩
    · rw [e4 hs, h.pinf_eq]; unfold Cfg.infPat; simp [hs]
    · rw [e5 hs he hl, h.nan_eq]; rfl

example : P60.WF ∧ P60.fmt.IsCanonical P60.pinf ∧ Posit.next P60 P60.pinf = .ok P60.pinf ∧
    Posit.prev P60 P60.pinf = .ok P60.pinf ∧ P60.fmt.IsReal 5 ∧ Posit.next P60 5 = .ok 6 ∧ Posit.prev P60 (-5) = .ok (-6) ∧
    Posit.next P60 P60.fmt.maxBody = .ok (P60.infPat false) := by decide +kernel

end Verif
