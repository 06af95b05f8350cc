import Verif.Lemmas.Ulp
import Verif.Props.Sterbenz

/-!
# C67: spacing of the posits and relative error of the operations

`fracBits N es e` is the number of fraction bits of a posit of exponent `e`.
-/

namespace Verif
open Fmt

variable {c : Cfg}

/-- **C67**, spacing: the pattern after a positive posit of exponent `e` with `J ≥ 0` fraction bits denotes the number
`2^(e-J)` further. -/
theorem C67_spacing {f : Format} {a : ℤ} (ha : f.IsReal (a + 1)) (ha0 : 0 < a) {J : ℕ}
    (hJ : fracBits f.N f.es (f.scale a) = J) : f.val (a + 1) - f.val a = 2 ^ (f.scale a - J) := by
  have har : f.IsReal a := by unfold Format.IsReal at *; omega
  have hpos := (Format.val_pos_iff har.inRange).mpr ha0
  unfold Format.scale at *
  rw [abs_of_pos hpos] at *
  obtain ⟨p, p1, p2, p3, p4, p5⟩ := exists_floor hpos hJ
  have hlt := har.natAbs_lt
  have hva : f.val a = posVal f.N f.es a.natAbs := by rw [Format.val_pos' ha0]
  rw [hva] at p3 p4
  have h1 := (posVal_le_iff (es := f.es) p1 (by omega) (by omega) hlt).mp p3
  have h2 := (posVal_lt_iff (es := f.es) (by omega) hlt (by omega) p2).mp p4
  have hp : p = a.natAbs := by omega
  subst hp
  rw [← p5, Format.val_pos' ha0, Format.val_pos' (by omega : 0 < a + 1)]
  rw [show (a + 1).natAbs = a.natAbs + 1 by omega]

example : P16.fmt.IsReal (12001 + 1) ∧ P16.fmt.scale 12001 = -3 ∧ fracBits P16.fmt.N P16.fmt.es (-3) = (11 : ℕ) ∧
    P16.fmt.val (12001 + 1) - P16.fmt.val 12001 = 2 ^ (-3 - 11 : ℤ) := by decide +kernel

/-- a number rounded faithfully: absolute and relative error -/
theorem faithful_errors {f : Format} {y : ℚ} {v : ℤ} (h : f.IsFaithful y v) {J : ℕ} (hy : y ≠ 0)
    (hJ : fracBits f.N f.es (Int.log 2 |y|) = J) :
    |f.val v - y| < 2 ^ (Int.log 2 |y| - J) ∧ |f.val v - y| < |y| / 2 ^ J := by
  have h1 := h.error hy hJ
  refine ⟨h1, lt_of_lt_of_le h1 ?_⟩
  rw [zpow_sub₀ (by norm_num), zpow_natCast]
  exact div_le_div_of_nonneg_right (log_le hy le_rfl) (by positivity)

/-- **C67**, `*`: a defined product is less than a unit in the last place below the exact one in magnitude; its relative
error is below `2^-J`, `J` being the number of fraction bits at the exponent of the exact product. -/
theorem C67_mul (h : c.WF) (hF : c.fb + 2 ≤ c.F) {a b v : ℤ} (ha : c.fmt.IsReal a) (ha0 : a ≠ 0) (hb : c.fmt.IsReal b)
    (hb0 : b ≠ 0) (hv : Posit.mul c a b = .ok v) {J : ℕ}
    (hJ : fracBits c.N c.es (Int.log 2 |c.fmt.val a * c.fmt.val b|) = J) :
    |c.fmt.val v - c.fmt.val a * c.fmt.val b| < 2 ^ (Int.log 2 |c.fmt.val a * c.fmt.val b| - J) ∧
    |c.fmt.val v - c.fmt.val a * c.fmt.val b| < |c.fmt.val a * c.fmt.val b| / 2 ^ J := by
  have va : c.fmt.val a ≠ 0 := fun hh => ha0 ((Format.val_eq_zero_iff ha.inRange).mp hh)
  have vb : c.fmt.val b ≠ 0 := fun hh => hb0 ((Format.val_eq_zero_iff hb.inRange).mp hh)
  have hx : c.fmt.val a * c.fmt.val b ≠ 0 := mul_ne_zero va vb
  have hs : c.SafeMag (c.fmt.val a * c.fmt.val b) := by
    by_contra hs
    rw [C08_mul_ub h hF ha ha0 hb hb0 hs] at hv; cases hv
  obtain ⟨w, hw, ht⟩ := C08_mul_partial h hF ha ha0 hb hb0 hs
  rw [hv] at hw; cases hw
  exact faithful_errors ht.faithful hx hJ

example : P16.WF ∧ P16.fb + 2 ≤ P16.F ∧ Posit.mul P16 12001 12700 = .ok 8431 ∧
    fracBits P16.N P16.es (Int.log 2 |P16.fmt.val 12001 * P16.fmt.val 12700|) = (11 : ℕ) := by decide +kernel

/-- **C67**, `/`: likewise. -/
theorem C67_div (h : c.WF) (hF : c.fb + 2 ≤ c.F) {a b v : ℤ} (ha : c.fmt.IsReal a) (ha0 : a ≠ 0) (hb : c.fmt.IsReal b)
    (hb0 : b ≠ 0) (hv : Posit.div c a b = .ok v) {J : ℕ}
    (hJ : fracBits c.N c.es (Int.log 2 |c.fmt.val a / c.fmt.val b|) = J) :
    |c.fmt.val v - c.fmt.val a / c.fmt.val b| < 2 ^ (Int.log 2 |c.fmt.val a / c.fmt.val b| - J) ∧
    |c.fmt.val v - c.fmt.val a / c.fmt.val b| < |c.fmt.val a / c.fmt.val b| / 2 ^ J := by
  have va : c.fmt.val a ≠ 0 := fun hh => ha0 ((Format.val_eq_zero_iff ha.inRange).mp hh)
  have vb : c.fmt.val b ≠ 0 := fun hh => hb0 ((Format.val_eq_zero_iff hb.inRange).mp hh)
  have hx : c.fmt.val a / c.fmt.val b ≠ 0 := div_ne_zero va vb
  have hs : c.SafeMag (c.fmt.val a / c.fmt.val b) := by
    by_contra hs
    rw [C09_div_ub h hF ha ha0 hb hb0 hs] at hv; cases hv
  obtain ⟨w, hw, ht⟩ := C09_div_partial h hF ha ha0 hb hb0 hs
  rw [hv] at hw; cases hw
  exact faithful_errors ht.faithful hx hJ

example : P16.WF ∧ P16.fb + 2 ≤ P16.F ∧ Posit.div P16 12001 12700 = .ok 15459 ∧
    fracBits P16.N P16.es (Int.log 2 |P16.fmt.val 12001 / P16.fmt.val 12700|) = (11 : ℕ) := by decide +kernel

/-- **C67**, `+`, on the operands of `C10_add_partial`: likewise.
Missing: the operands outside `AddSafe`. -/
theorem C67_add_partial (h : c.WF) (hF : c.fb + 3 ≤ c.F) {a b : ℤ} (ha : c.fmt.IsReal a) (hb : c.fmt.IsReal b)
    (hs : c.AddSafe (c.fmt.val a) (c.fmt.val b)) (hx : c.fmt.val a + c.fmt.val b ≠ 0) {J : ℕ}
    (hJ : fracBits c.N c.es (Int.log 2 |c.fmt.val a + c.fmt.val b|) = J) :
    ∃ v, Posit.add c a b = .ok v ∧
      |c.fmt.val v - (c.fmt.val a + c.fmt.val b)| < 2 ^ (Int.log 2 |c.fmt.val a + c.fmt.val b| - J) ∧
      |c.fmt.val v - (c.fmt.val a + c.fmt.val b)| < |c.fmt.val a + c.fmt.val b| / 2 ^ J := by
  obtain ⟨v, hv, hf, -⟩ := C10_add_partial h hF ha hb hs
  exact ⟨v, hv, faithful_errors hf hx hJ⟩

example : P12.WF ∧ P12.fb + 3 ≤ P12.F ∧ P12.AddSafe (P12.fmt.val 1100) (P12.fmt.val 800) ∧
    P12.fmt.val 1100 + P12.fmt.val 800 ≠ 0 ∧
    fracBits P12.N P12.es (Int.log 2 |P12.fmt.val 1100 + P12.fmt.val 800|) = (8 : ℕ) := by decide +kernel

/-- **C67**, `fma`, on the operands of `C30_fma_partial`: a single error for both operations.
Missing: the operands outside `FmaSafe` and fraction types that do not hold the product. -/
theorem C67_fma_partial (h : c.WF) (hF : 2 * c.fb + 4 ≤ c.F) {a b d : ℤ} (ha : c.fmt.IsReal a) (hb : c.fmt.IsReal b)
    (hd : c.fmt.IsReal d) (hs : c.FmaSafe (c.fmt.val a * c.fmt.val b) (c.fmt.val d))
    (hx : c.fmt.val a * c.fmt.val b + c.fmt.val d ≠ 0) {J : ℕ}
    (hJ : fracBits c.N c.es (Int.log 2 |c.fmt.val a * c.fmt.val b + c.fmt.val d|) = J) :
    ∃ v, Posit.fma c a b d = .ok v ∧
      |c.fmt.val v - (c.fmt.val a * c.fmt.val b + c.fmt.val d)| < 2 ^ (Int.log 2 |c.fmt.val a * c.fmt.val b + c.fmt.val d| - J) ∧
      |c.fmt.val v - (c.fmt.val a * c.fmt.val b + c.fmt.val d)| < |c.fmt.val a * c.fmt.val b + c.fmt.val d| / 2 ^ J := by
  obtain ⟨v, hv, hf, -⟩ := C30_fma_partial h hF ha hb hd hs
  exact ⟨v, hv, faithful_errors hf hx hJ⟩

example : P8h.WF ∧ 2 * P8h.fb + 4 ≤ P8h.F ∧ P8h.FmaSafe (P8h.fmt.val 72 * P8h.fmt.val 72) (P8h.fmt.val (-64)) ∧
    P8h.fmt.val 72 * P8h.fmt.val 72 + P8h.fmt.val (-64) ≠ 0 ∧
    fracBits P8h.N P8h.es (Int.log 2 |P8h.fmt.val 72 * P8h.fmt.val 72 + P8h.fmt.val (-64)|) = (5 : ℕ) := by decide +kernel

/-- **C67** says nothing where exponent bits are missing (`fracBits` negative), and there the error is large: the product of the
posits 2^52 and 8 of 16 bits with two exponent bits is an eighth of the exact one. -/
theorem C67_long_regime : P16.WF ∧ P16.fb + 2 ≤ P16.F ∧ P16.fmt.val 32766 = 2 ^ 52 ∧ P16.fmt.val 22528 = 8 ∧
    fracBits P16.N P16.es 55 < 0 ∧ Posit.mul P16 32766 22528 = .ok 32766 := by decide +kernel

end Verif
