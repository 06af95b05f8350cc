import Verif.Model.PositFMore
import Verif.Props.PositF
import Verif.Props.Constants
import Verif.Props.Order
import Mathlib.Data.Prod.Lex

/-!
# C78: comparisons, special values and derived members of `PositF` (include/positf.h)
-/

namespace Verif
open Fmt

variable {c : Cfg} {t : FTrait} {o : FloatOps}

/-- The place of a pattern in a total order: `1000…0` (NaN or the single infinity) first, then minus infinity, the real numbers
by value, plus infinity. -/
def place (c : Cfg) (v : ℤ) : Lex (ℤ × ℚ) :=
  if v = c.topPat then toLex (-2, 0)
  else if c.fmt.IsReal v then toLex (0, c.fmt.val v)
  else if v < 0 then toLex (-1, 0) else toLex (1, 0)

theorem canonical_place {v : ℤ} (hv : c.fmt.IsCanonical v) : v = c.topPat ∨ c.fmt.IsReal v ∨
    (c.spec = .withNanInf ∧ (v = c.infPat true ∨ v = c.infPat false)) := by
  have hg : 1 ≤ 2 ^ (c.N - 1) := Nat.one_le_two_pow
  have e : (2 : ℤ) ^ (c.N - 1) = ((2 ^ (c.N - 1) : ℕ) : ℤ) := by push_cast; rfl
  unfold Format.IsCanonical at hv
  unfold Format.IsReal Format.maxBody Cfg.topPat Cfg.infPat
  simp only [Cfg.fmt] at hv ⊢
  rw [e] at hv ⊢
  generalize 2 ^ (c.N - 1) = P at *
  by_cases hs : c.spec = .withNanInf
  · simp only [hs, decide_true, if_true]; simp; omega
  · simp only [hs, decide_false, Bool.false_eq_true, if_false]; simp; omega

theorem place_lt (h : c.WF) {a b : ℤ} (ha : c.fmt.IsCanonical a) (hb : c.fmt.IsCanonical b) : place c a < place c b ↔ a < b := by
  have hg := h.pow_ge
  have e : (2 : ℤ) ^ (c.N - 1) = ((2 ^ (c.N - 1) : ℕ) : ℤ) := by push_cast; rfl
  have key : ∀ {v}, c.fmt.IsReal v → v ≠ c.topPat ∧ c.topPat < v ∧ (c.spec = .withNanInf → c.topPat + 1 < v ∧ v < -c.topPat - 1) := by
    intro v hv
    unfold Format.IsReal Format.maxBody at hv
    unfold Cfg.topPat
    simp only [Cfg.fmt] at hv
    rw [e] at hg ⊢
    generalize 2 ^ (c.N - 1) = P at *
    by_cases hs : c.spec = .withNanInf
    · simp only [hs, decide_true, if_true] at hv; simp only [hs, true_implies]; omega
    · simp only [hs, decide_false, Bool.false_eq_true, if_false] at hv
      simp only [hs, false_implies, and_true]; omega
  have hi : c.spec = .withNanInf → ∀ n, c.infPat n = (if n then c.topPat + 1 else -c.topPat - 1) := by
    intro hs n; unfold Cfg.infPat Cfg.topPat; simp only [hs, if_true]; cases n <;> simp
  have ht : c.topPat ≤ -4 := by unfold Cfg.topPat; omega
  have nr : ∀ {v}, c.fmt.IsReal v ∨ ¬ c.fmt.IsReal v := fun {v} => em _
  have cls : ∀ {v}, c.fmt.IsCanonical v → (v = c.topPat ∧ place c v = toLex (-2, 0)) ∨
      (c.fmt.IsReal v ∧ place c v = toLex (0, c.fmt.val v)) ∨
      (c.spec = .withNanInf ∧ v = c.topPat + 1 ∧ place c v = toLex (-1, 0)) ∨
      (c.spec = .withNanInf ∧ v = -c.topPat - 1 ∧ place c v = toLex (1, 0)) := by
    intro v hv
    rcases canonical_place hv with h1 | h1 | ⟨hs, h1 | h1⟩
    · left; exact ⟨h1, if_pos h1⟩
    · right; left; exact ⟨h1, (if_neg (key h1).1).trans (if_pos h1)⟩
    · right; right; left
      rw [hi hs] at h1
      simp at h1
      refine ⟨hs, h1, (if_neg (by omega)).trans ((if_neg fun hr => ?_).trans (if_pos (by omega)))⟩
      have := (key hr).2.2 hs; omega
    · right; right; right
      rw [hi hs] at h1
      simp at h1
      refine ⟨hs, h1, (if_neg (by omega)).trans ((if_neg fun hr => ?_).trans (if_neg (by omega)))⟩
      have := (key hr).2.2 hs; omega
  rcases cls ha with ⟨a1, a2⟩ | ⟨a1, a2⟩ | ⟨as, a1, a2⟩ | ⟨as, a1, a2⟩ <;>
    rcases cls hb with ⟨b1, b2⟩ | ⟨b1, b2⟩ | ⟨bs, b1, b2⟩ | ⟨bs, b1, b2⟩ <;>
    rw [a2, b2, Prod.Lex.toLex_lt_toLex]
  all_goals first
    | (have k1 := key a1; have k2 := key b1; simp only [lt_irrefl, false_or, true_and]
       exact Format.val_lt_iff a1.inRange b1.inRange)
    | (have k1 := key a1; norm_num; first | omega | (have := k1.2.2 bs; omega))
    | (have k1 := key b1; norm_num; first | omega | (have := k1.2.2 as; omega))
    | (norm_num; omega)

theorem place_le (h : c.WF) {a b : ℤ} (ha : c.fmt.IsCanonical a) (hb : c.fmt.IsCanonical b) : place c a ≤ place c b ↔ a ≤ b := by
  rw [← not_lt, place_lt h hb ha, not_lt]

theorem place_eq (h : c.WF) {a b : ℤ} (ha : c.fmt.IsCanonical a) (hb : c.fmt.IsCanonical b) : place c a = place c b ↔ a = b := by
  rw [le_antisymm_iff, place_le h ha hb, place_le h hb ha, ← le_antisymm_iff]

/-- **C78**, order: the six comparisons, `std::min` and `std::max` are those of one total order of all patterns: NaN (or the
single infinity) below everything, then minus infinity, the numbers by value, plus infinity. -/
theorem C78_order (h : c.WF) {a b : ℤ} (ha : c.fmt.IsCanonical a) (hb : c.fmt.IsCanonical b) :
    (PositF.lt a b = true ↔ place c a < place c b) ∧ (PositF.le a b = true ↔ place c a ≤ place c b) ∧
    (PositF.gt a b = true ↔ place c b < place c a) ∧ (PositF.ge a b = true ↔ place c b ≤ place c a) ∧
    (PositF.eq a b = true ↔ place c a = place c b) ∧ (PositF.ne a b = true ↔ place c a ≠ place c b) ∧
    place c (PositF.stdMin a b) = min (place c a) (place c b) ∧ place c (PositF.stdMax a b) = max (place c a) (place c b) := by
  rw [place_lt h ha hb, place_le h ha hb, place_lt h hb ha, place_le h hb ha, Ne, place_eq h ha hb]
  refine ⟨by simp [PositF.lt], by simp [PositF.le], by simp [PositF.gt], by simp [PositF.ge], by simp [PositF.eq],
    by simp [PositF.ne], ?_, ?_⟩
  · unfold PositF.stdMin PositF.le
    by_cases hc : a ≤ b
    · rw [min_eq_left ((place_le h ha hb).mpr hc)]; simp [hc]
    · rw [min_eq_right ((place_le h hb ha).mpr (by omega))]; simp [hc]
  · unfold PositF.stdMax PositF.ge
    by_cases hc : a ≥ b
    · rw [max_eq_left ((place_le h hb ha).mpr hc)]; simp [hc]
    · rw [max_eq_right ((place_le h ha hb).mpr (by omega))]; simp [hc]

example : P8i.WF ∧ P8i.fmt.IsCanonical (-128) ∧ P8i.fmt.IsCanonical (-127) ∧ place P8i (-128) = toLex (-2, 0) ∧
    place P8i (-127) = toLex (-1, 0) ∧ place P8i 127 = toLex (1, 0) ∧ place P8i 64 = toLex (0, 1) ∧
    PositF.lt (-128) (-127) = true ∧ PositF.stdMax (-127) 64 = 64 := by decide +kernel

/-- **C78**: away from NaN the comparisons agree with those of `Posit`; NaN, which `Posit` leaves unordered, equals itself and
is less than everything else. -/
theorem C78_order_posit (h : c.WF) {a b : ℤ} (ha : c.fmt.IsCanonical a) (hb : c.fmt.IsCanonical b) :
    (c.spec = .withInf ∨ (a ≠ c.topPat ∧ b ≠ c.topPat) →
      PositF.lt a b = Posit.lt c a b ∧ PositF.le a b = Posit.le c a b ∧ PositF.gt a b = Posit.gt c a b ∧
      PositF.ge a b = Posit.ge c a b ∧ PositF.eq a b = Posit.eq c a b ∧ PositF.ne a b = Posit.ne c a b ∧
      PositF.stdMin a b = Posit.stdMin c a b ∧ PositF.stdMax a b = Posit.stdMax c a b) ∧
    PositF.eq c.topPat c.topPat = true ∧ PositF.ne c.topPat c.topPat = false ∧
    (b ≠ c.topPat → PositF.lt c.topPat b = true ∧ PositF.gt b c.topPat = true ∧
      PositF.stdMin c.topPat b = c.topPat ∧ PositF.stdMin b c.topPat = c.topPat ∧
      PositF.stdMax c.topPat b = b ∧ PositF.stdMax b c.topPat = b) := by
  refine ⟨fun hn => ?_, by simp [PositF.eq], by simp [PositF.ne], fun hne => ?_⟩
  · have hz : (c.withnan && (Posit.isNaN c a || Posit.isNaN c b)) = false := by
      unfold Cfg.withnan Posit.isNaN
      rw [h.nan_eq]
      unfold Cfg.topPat at hn
      rcases hn with hn | ⟨hn1, hn2⟩
      · simp [hn]
      · simp [hn1, hn2]
    unfold Posit.stdMin Posit.stdMax Posit.lt Posit.le Posit.gt Posit.ge Posit.ne Posit.eq PositF.stdMin PositF.stdMax
      PositF.lt PositF.le PositF.gt PositF.ge PositF.ne PositF.eq
    rw [hz]
    simp
  · have hlt : c.topPat < b := by
      unfold Format.IsCanonical at hb
      simp only [Cfg.fmt] at hb
      unfold Cfg.topPat at hne ⊢
      omega
    unfold PositF.stdMin PositF.stdMax PositF.lt PositF.le PositF.gt PositF.ge
    simp [hlt, hlt.le, not_le.mpr hlt]

example : P12.WF ∧ P12.fmt.IsCanonical (-2048) ∧ P12.topPat = -2048 ∧ PositF.lt (-2048) 5 = true ∧
    Posit.lt P12 (-2048) 5 = false ∧ PositF.eq (-2048) (-2048) = true ∧ Posit.eq P12 (-2048) (-2048) = false := by decide

/-- **C78**, `isinfinity()`: it finds the infinities of the formats that have one. -/
theorem C78_infinity_partial (h : c.WF) (hs : c.spec ≠ .withNan) {v : ℤ} :
    PositF.isInfinity c v = true ↔ v = c.infPat true ∨ v = c.infPat false := by
  have e1 : c.pinf = c.infPat false := by
    have := (C19_special h).1
    unfold Cfg.pinf Cfg.infPat Cfg.topPat
    split_ifs with hc <;> simp_all [h.topRight_eq, h.top_eq]
  have e2 : c.ninf = c.infPat true := by
    unfold Cfg.ninf Cfg.infPat Cfg.topPat
    split_ifs with hc <;> simp_all [h.topLeft_eq, h.top_eq]
  unfold PositF.isInfinity
  rw [e1, e2]
  simp [or_comm]

example : P8i.WF ∧ P8i.spec ≠ .withNan ∧ PositF.isInfinity P8i 127 = true ∧ PositF.isInfinity P8i (-128) = false := by decide

/-- **C78** fails for `isinfinity()` of the formats without infinity: NaN is reported to be an infinity as well as NaN, and it is
the only such pattern; `Posit` reports none. -/
theorem C78_infinity_nan (h : c.WF) (hs : c.spec = .withNan) {v : ℤ} :
    (PositF.isInfinity c v = true ↔ v = c.topPat) ∧ (PositF.isInfinity c v = Posit.isNaN c v) ∧ Posit.isInfinity c v = false := by
  have e1 : c.pinf = c.topPat := by unfold Cfg.pinf Cfg.topPat; simp [hs, h.top_eq]
  have e2 : c.ninf = c.topPat := by unfold Cfg.ninf Cfg.topPat; simp [hs, h.top_eq]
  have e3 : c.nan = c.topPat := h.nan_eq
  unfold PositF.isInfinity Posit.isNaN Posit.isInfinity
  rw [e1, e2, e3]
  simp [hs]

example : P8.WF ∧ P8.spec = .withNan ∧ PositF.isInfinity P8 (-128) = true := by decide

/-- **C78**, `abs`: that of `Posit`, so the absolute value on numbers (`C07_abs_partial`) and as wrong as there on NaN. -/
theorem C78_abs (c : Cfg) (v : ℤ) : PositF.abs c v = Posit.abs c v := by
  unfold PositF.abs Posit.abs Posit.pcabs Posit.condNeg
  by_cases hv : v < 0 <;> simp [hv]

example : PositF.abs P8 (-33) = .ok 33 ∧ PositF.abs P32 (-2147483648) = .error .overflow := by decide

/-- **C78**, `epsilon()`: the distance from one to the next posit, itself a posit, in every correctly rounded arithmetic. Missing:
the three-bit format with two infinities (where one is the greatest posit). -/
theorem C78_epsilon_partial (h : FloatFor c t) (ho : o.Correct t.eb t.fb) (hr : c.maxScale + c.fb + 3 ≤ 2 ^ (t.eb - 1))
    (hn : c.spec = .withNanInf → 4 ≤ c.N) :
    ∃ n v, c.fmt.IsSucc c.one n ∧ PositF.epsilon c t o = .ok v ∧ c.fmt.IsReal v ∧
      c.fmt.val v = c.fmt.val n - 1 ∧ c.fmt.val v = 2 ^ (-(c.fb : ℤ)) := by
  have hw := h.wf
  have h1r := (one_real hw).1
  have hN3 := hw.N_ge
  obtain ⟨e1, e2, -⟩ := pow_split hw
  have h1 := Nat.one_le_two_pow (n := c.N - 3)
  have hmax : 2 ^ (c.N - 2) + 1 ≤ c.fmt.maxBody := by
    unfold Format.maxBody
    simp only [Cfg.fmt]
    by_cases hs : c.spec = .withNanInf
    · have hN4 := hn hs
      have h2 : 2 ^ 1 ≤ 2 ^ (c.N - 3) := Nat.pow_le_pow_right (by norm_num) (by omega)
      simp only [hs, decide_true, if_true]; omega
    · simp only [hs, decide_false, Bool.false_eq_true, if_false]; omega
  have hone : c.one = ((2 ^ (c.N - 2) : ℕ) : ℤ) := by rw [one_eq hw, natCast_pow2]
  have hnr : c.fmt.IsReal (c.one + 1) := by rw [hone, isReal_bounds]; omega
  have hnext : Posit.next c c.one = .ok (c.one + 1) := next_inside hw (by rw [hone]; omega) (by rw [hone]; omega)
  have hval : c.fmt.val (c.one + 1) = 1 + 2 ^ (-(c.fb : ℤ)) := by
    rw [hone, ← Nat.cast_one, ← Nat.cast_add, Format.val_natCast (by omega)]
    exact posVal_one_succ hw
  obtain ⟨p, hp1, hp2, hpv⟩ := eps_repr hw
  have hpr : c.fmt.IsReal (p : ℤ) := by rw [isReal_bounds]; omega
  have hpe : c.fmt.val (p : ℤ) = 2 ^ (-(c.fb : ℤ)) := by rw [Format.val_natCast hp1]; exact hpv
  obtain ⟨v, hv, hf, -⟩ := C54_sub_partial h ho hr hnr h1r
  have hvp := hf.exact hpr (by rw [hpe, hval, val_one hw]; ring)
  subst hvp
  refine ⟨c.one + 1, p, ⟨hnr, ?_, fun u hu hlt => ?_⟩, ?_, hpr, ?_, hpe⟩
  · rw [Format.val_lt_iff h1r.inRange hnr.inRange]; omega
  · rw [Format.val_lt_iff h1r.inRange hu.inRange] at hlt
    rw [Format.val_le_iff hnr.inRange hu.inRange]; omega
  · unfold PositF.epsilon
    rw [hnext]
    exact hv
  · rw [hpe, hval]; ring

example : FloatFor ⟨16, 12, 1, 32, .withNan⟩ .single ∧ (∃ o : FloatOps, o.Correct FTrait.single.eb FTrait.single.fb) ∧
    (⟨16, 12, 1, 32, .withNan⟩ : Cfg).maxScale + (⟨16, 12, 1, 32, .withNan⟩ : Cfg).fb + 3 ≤ 2 ^ (FTrait.single.eb - 1) :=
  ⟨floatFor_P12, floatOps_exists (by decide) (by decide), by decide⟩

/-- **C78**, `urDeltaPs()` without exponent bits: `x(1-x)` rounded to a neighbouring posit, toward zero if the float has one more
than twice the fraction bits; zero at the ends. Missing: `es > 0`, where `urOneMinus` is wrong, see `C25_urOneMinus_wrong`. -/
theorem C78_urDeltaPs_partial (h : FloatFor c t) (ho : o.Correct t.eb t.fb) (hr : 2 * c.maxScale + 3 ≤ 2 ^ (t.eb - 1))
    (he : c.es = 0) {v : ℤ} (hv : c.fmt.IsReal v) (h0 : 0 ≤ c.fmt.val v) (h1 : c.fmt.val v ≤ 1) :
    ∃ w, PositF.urDeltaPs c t o v = .ok w ∧ c.fmt.IsFaithful (c.fmt.val v * (1 - c.fmt.val v)) w ∧
      (w = 0 ↔ c.fmt.val v = 0 ∨ c.fmt.val v = 1) ∧
      (0 < c.fmt.val v → c.fmt.val v < 1 → 2 * c.fb + 1 ≤ t.fb → c.fmt.IsTrunc (c.fmt.val v * (1 - c.fmt.val v)) w) := by
  obtain ⟨a1, a2⟩ := C25_urOneMinus_partial h.wf he hv h0 h1
  have z0 : c.fmt.IsReal 0 := by rw [isReal_bounds]; omega
  have f0 : c.fmt.IsFaithful 0 0 := by have := Format.isFaithful_val z0; rwa [Format.val_zero] at this
  unfold PositF.urDeltaPs
  by_cases hz : v = 0 ∨ Posit.urOneMinus c v = 0
  · rw [C54_mul_zero_partial h ho hv a1 hz]
    have hz' : c.fmt.val v = 0 ∨ c.fmt.val v = 1 := by
      rcases hz with hz | hz
      · left; rw [hz, Format.val_zero]
      · right; rw [hz, Format.val_zero] at a2; linarith
    refine ⟨0, rfl, ?_, by simp [hz'], fun p q => ?_⟩
    · rcases hz' with hz' | hz' <;> rw [hz'] <;> simpa using f0
    · rcases hz' with hz' | hz' <;> rw [hz'] at p q <;> exact absurd rfl (by first | exact p.ne | exact q.ne)
  · rw [not_or] at hz
    obtain ⟨w, hw, hf, hw0, ht⟩ := C54_mul_partial h ho hr hv hz.1 a1 hz.2
    rw [a2] at hf ht
    refine ⟨w, hw, hf, ⟨fun hh => absurd hh hw0, fun hh => ?_⟩, fun _ _ => ht⟩
    rcases hh with hh | hh
    · rw [Format.val_eq_zero_iff hv.inRange] at hh; exact absurd hh hz.1
    · rw [hh, sub_self, Format.val_eq_zero_iff a1.inRange] at a2; exact absurd a2 hz.2

example : FloatFor ⟨8, 8, 0, 64, .withNan⟩ .double ∧ (∃ o : FloatOps, o.Correct FTrait.double.eb FTrait.double.fb) ∧
    2 * (⟨8, 8, 0, 64, .withNan⟩ : Cfg).maxScale + 3 ≤ 2 ^ (FTrait.double.eb - 1) ∧
    (⟨8, 8, 0, 64, .withNan⟩ : Cfg).fmt.IsReal 20 ∧ (⟨8, 8, 0, 64, .withNan⟩ : Cfg).fmt.val 20 = 5 / 16 :=
  ⟨floatFor_P8, floatOps_exists (by decide) (by decide), by decide, by decide, by decide +kernel⟩

end Verif
