import Verif.Spec.Standard
import Verif.Lemmas.Consts
import Verif.Lemmas.Ops
import Verif.Lemmas.NarrowFrac
import Mathlib.Algebra.Group.Int.Even

/-! # Rounding as in the posit standard -/

namespace Verif.Fmt

/-- a further bit 0 does not change the number -/
theorem posVal_double {N es p : ℕ} (hN : 1 ≤ N) (hp : 1 ≤ p) (hlt : p < 2 ^ (N - 1)) :
    posVal (N + 1) es (2 * p) = posVal N es p := by
  obtain ⟨s, h1, h2⟩ := exists_coord (es := es) hp hlt
  have e : N + 1 - 1 = (N - 1) + 1 := by omega
  rw [h2]
  refine posVal_of_G (by omega) (by rw [e, pow_succ]; omega) ?_
  rw [← h1, e, pow_succ]
  push_cast
  rw [mul_comm, mul_div_mul_right _ _ (by norm_num)]

end Verif.Fmt

namespace Verif.Fmt.Format


variable {f : Format}

theorem mid_gt (hN : 1 ≤ f.N) {p : ℕ} (hp : 1 ≤ p) (hl : p ≤ f.maxBody) : posVal f.N f.es p < f.mid p := by
  have hm := maxBody_lt f
  have e : f.N + 1 - 1 = (f.N - 1) + 1 := by omega
  rw [← posVal_double hN hp (by omega)]
  unfold mid
  rw [posVal_lt_iff (by omega) (by rw [e, pow_succ]; omega) (by omega) (by rw [e, pow_succ]; omega)]
  omega

theorem mid_lt (hN : 1 ≤ f.N) {p : ℕ} (hl : p + 1 ≤ f.maxBody) : f.mid p < posVal f.N f.es (p + 1) := by
  have hm := maxBody_lt f
  have e : f.N + 1 - 1 = (f.N - 1) + 1 := by omega
  rw [← posVal_double hN (by omega) (by omega)]
  unfold mid
  rw [posVal_lt_iff (by omega) (by rw [e, pow_succ]; omega) (by omega) (by rw [e, pow_succ]; omega)]
  omega

theorem mid_le (hN : 1 ≤ f.N) {p q : ℕ} (hpq : p ≤ q) (hl : q ≤ f.maxBody) : f.mid p ≤ f.mid q := by
  have hm := maxBody_lt f
  have e : f.N + 1 - 1 = (f.N - 1) + 1 := by omega
  unfold mid
  rw [posVal_le_iff (by omega) (by rw [e, pow_succ]; omega) (by omega) (by rw [e, pow_succ]; omega)]
  omega

theorem mid_lt_mid (hN : 1 ≤ f.N) {p q : ℕ} (hpq : p < q) (hl : q ≤ f.maxBody) : f.mid p < f.mid q := by
  have hm := maxBody_lt f
  have e : f.N + 1 - 1 = (f.N - 1) + 1 := by omega
  unfold mid
  rw [posVal_lt_iff (by omega) (by rw [e, pow_succ]; omega) (by omega) (by rw [e, pow_succ]; omega)]
  omega

theorem IsStd.neg {y : ℚ} {v : ℤ} (h : f.IsStd y v) : f.IsStd (-y) (-v) := by
  refine ⟨h.real.neg, ?_, ?_, ?_⟩
  · rcases h.sign with h | h
    · exact Or.inr ⟨by omega, by linarith [h.2]⟩
    · exact Or.inl ⟨by omega, by linarith [h.2]⟩
  · rw [abs_neg, Int.natAbs_neg, even_neg]; exact h.lower
  · rw [abs_neg, Int.natAbs_neg, even_neg]; exact h.upper

theorem IsStd.ne_zero {y : ℚ} {v : ℤ} (h : f.IsStd y v) : v ≠ 0 ∧ y ≠ 0 := by
  rcases h.sign with h | h
  · exact ⟨by omega, h.2.ne'⟩
  · exact ⟨by omega, h.2.ne⟩

theorem IsStd.natAbs_le {y : ℚ} {v w : ℤ} (hN : 1 ≤ f.N) (hv : f.IsStd y v) (hw : f.IsStd y w) : v.natAbs ≤ w.natAbs := by
  by_contra hlt
  push Not at hlt
  have hvm := hv.real.natAbs_le
  have hv1 : 1 ≤ w.natAbs := by have := hw.ne_zero.1; omega
  have h1 := hv.lower
  have h2 := hw.upper
  have hle := mid_le (f := f) hN (show w.natAbs ≤ v.natAbs - 1 by omega) (by omega)
  rcases h1 with h1 | h1
  · omega
  rcases h2 with h2 | h2
  · omega
  rcases h1 with h1 | ⟨h1, e1⟩ <;> rcases h2 with h2 | ⟨h2, e2⟩
  · linarith
  · linarith
  · linarith
  · rcases Nat.lt_or_ge w.natAbs (v.natAbs - 1) with h | h
    · have := mid_lt_mid (f := f) hN h (by omega)
      linarith
    · rw [Int.even_iff] at e1 e2
      omega

theorem IsStd.unique {y : ℚ} {v w : ℤ} (hN : 1 ≤ f.N) (hv : f.IsStd y v) (hw : f.IsStd y w) : v = w := by
  have h1 := hv.natAbs_le hN hw
  have h2 := hw.natAbs_le hN hv
  rcases hv.sign with h | h <;> rcases hw.sign with h' | h'
  · omega
  · linarith [h.2, h'.2]
  · linarith [h.2, h'.2]
  · omega

/-- from the number rounded toward zero -/
theorem IsTrunc.std_near {y : ℚ} {v : ℤ} (hN : 1 ≤ f.N) (h : f.IsTrunc y v) (hd : f.Near y v) : f.IsStd y v := by
  refine ⟨h.real, h.sign, ?_, hd⟩
  have ht := h.truncB
  rcases ht.below with hb | hb
  · by_cases h1 : v.natAbs = 1
    · exact Or.inl h1
    · have := mid_lt (f := f) hN (p := v.natAbs - 1) (by have := ht.one_le; have := ht.le_max; omega)
      rw [show v.natAbs - 1 + 1 = v.natAbs by have := ht.one_le; omega] at this
      exact Or.inr (Or.inl (by linarith))
  · exact Or.inl hb

theorem IsTrunc.std_far {y : ℚ} {v : ℤ} (hN : 1 ≤ f.N) (h : f.IsTrunc y v) (hd : ¬ f.Near y v) : f.IsStd y (v + v.sign) := by
  have ht := h.truncB
  unfold Near at hd
  push Not at hd
  obtain ⟨d1, d2, d3⟩ := hd
  have hle := ht.le_max
  have hs : (0 < v ∧ 0 < y ∧ v.sign = 1) ∨ (v < 0 ∧ y < 0 ∧ v.sign = -1) := by
    rcases h.sign with h | h
    · exact Or.inl ⟨h.1, h.2, Int.sign_eq_one_of_pos h.1⟩
    · exact Or.inr ⟨h.1, h.2, Int.sign_eq_neg_one_of_neg h.1⟩
  have ha : (v + v.sign).natAbs = v.natAbs + 1 := by rcases hs with h | h <;> omega
  have hev : ¬ Even v → Even (v + v.sign) := by
    rw [Int.even_iff, Int.even_iff]; rcases hs with h | h <;> omega
  refine ⟨?_, ?_, ?_, ?_⟩
  · have := h.real; unfold IsReal; rcases hs with h | h <;> omega
  · rcases hs with h | h
    · exact Or.inl ⟨by omega, h.2.1⟩
    · exact Or.inr ⟨by omega, h.2.1⟩
  · rw [ha, Nat.add_sub_cancel]
    rcases d2.lt_or_eq with h' | h'
    · exact Or.inr (Or.inl h')
    · exact Or.inr (Or.inr ⟨h', hev (d3 h'.symm)⟩)
  · rw [ha]
    by_cases hm : v.natAbs + 1 = f.maxBody
    · exact Or.inl hm
    · have h1 := mid_gt (f := f) hN (p := v.natAbs + 1) (by omega) (by omega)
      have h2 : |y| < posVal f.N f.es (v.natAbs + 1) := by
        by_contra hh
        have := ht.greatest (v.natAbs + 1) (by omega) (by omega) (not_lt.mp hh)
        omega
      exact Or.inr (Or.inl (by linarith))

theorem exists_isTrunc (hN : 1 ≤ f.maxBody) {y : ℚ} (hy : y ≠ 0) : ∃ v, f.IsTrunc y v := by
  have key : ∀ n, n ≤ f.maxBody → 1 ≤ n → ∃ p, 1 ≤ p ∧ p ≤ n ∧
      (∀ q, 1 ≤ q → q ≤ n → posVal f.N f.es q ≤ |y| → q ≤ p) ∧ (posVal f.N f.es p ≤ |y| ∨ p = 1) := by
    intro n
    induction n with
    | zero => omega
    | succ n ih =>
      intro h1 _
      by_cases hn : n = 0
      · subst hn
        exact ⟨1, le_rfl, le_rfl, fun q _ h _ => h, Or.inr rfl⟩
      by_cases hv : posVal f.N f.es (n + 1) ≤ |y|
      · exact ⟨n + 1, by omega, le_rfl, fun q _ h _ => h, Or.inl hv⟩
      · obtain ⟨p, p1, p2, p3, p4⟩ := ih (by omega) (by omega)
        refine ⟨p, p1, by omega, fun q q1 q2 q3 => ?_, p4⟩
        rcases Nat.lt_or_ge q (n + 1) with h | h
        · exact p3 q q1 (by omega) q3
        · have : q = n + 1 := by omega
          subst this; exact absurd q3 hv
  obtain ⟨p, p1, p2, p3, p4⟩ := key _ le_rfl hN
  have ht : f.TruncB |y| p := ⟨p1, p2, p3, p4⟩
  have := IsTrunc.of_sign (y < 0) (abs_pos.mpr hy) ht
  rcases lt_or_gt_of_ne hy with h | h
  · simp only [h, decide_true, if_true, abs_of_neg h, neg_neg, neg_mul, one_mul] at this
    exact ⟨_, this⟩
  · simp only [not_lt.mpr h.le, decide_false, Bool.false_eq_true, if_false, abs_of_pos h, one_mul] at this
    exact ⟨_, this⟩

theorem IsStd.le_faithful {y : ℚ} {v w : ℤ} (hN : 1 ≤ f.N) (hv : f.IsFaithful y v) (hw : f.IsStd y w) : w ≤ v + 1 := by
  by_contra hlt
  push Not at hlt
  have hr1 : f.IsReal (v + 1) := by
    have := hv.real; have := hw.real
    unfold IsReal at *; omega
  have hy := hv.above (v + 1) hr1 ((val_lt_iff hv.real.inRange hr1.inRange).mpr (by omega))
  rcases hw.sign with ⟨s1, s2⟩ | ⟨s1, s2⟩
  · have hpos : 0 < v + 1 := by
      by_contra h
      have := (val_pos_iff hr1.inRange).mp (by linarith)
      omega
    rcases hw.lower with h | h
    · omega
    · have hle : f.mid (w.natAbs - 1) ≤ |y| := by rcases h with h | h; exacts [h.le, h.1.le]
      rw [abs_of_pos s2] at hle
      have hm := hw.real.natAbs_le
      have h1 := mid_gt (f := f) hN (p := w.natAbs - 1) (by omega) (by omega)
      have h2 : posVal f.N f.es (v + 1).natAbs ≤ posVal f.N f.es (w.natAbs - 1) := by
        have := maxBody_lt f
        rw [posVal_le_iff (by omega) (by omega) (by omega) (by omega)]; omega
      rw [← abs_val hr1.inRange (by omega), abs_of_pos (by linarith)] at h2
      linarith
  · rcases hw.upper with h | h
    · have := hv.real
      unfold IsReal at this; omega
    · have hle : |y| ≤ f.mid w.natAbs := by rcases h with h | h; exacts [h.le, h.1.le]
      rw [abs_of_neg s2] at hle
      have hm := hr1.natAbs_le
      have h1 := mid_lt (f := f) hN (p := w.natAbs) (by omega)
      have h2 : posVal f.N f.es (w.natAbs + 1) ≤ posVal f.N f.es (v + 1).natAbs := by
        have := maxBody_lt f
        rw [posVal_le_iff (by omega) (by omega) (by omega) (by omega)]; omega
      rw [← abs_val hr1.inRange (by omega), abs_of_neg ((val_neg_iff hr1.inRange).mpr (by omega))] at h2
      linarith

theorem isTrunc_mid (hN : 1 ≤ f.N) {p : ℕ} (hp : 1 ≤ p) (hl : p + 1 ≤ f.maxBody) : f.IsTrunc (f.mid p) p := by
  have h1 := mid_gt (f := f) hN hp (by omega)
  have h2 := mid_lt (f := f) hN hl
  have hm := maxBody_lt f
  refine IsTrunc.of_pos (lt_trans (posVal_pos hp (by omega)) h1) ⟨hp, by omega, fun q q1 q2 q3 => ?_, Or.inl h1.le⟩
  by_contra hlt
  have : posVal f.N f.es (p + 1) ≤ posVal f.N f.es q := by
    rw [posVal_le_iff (by omega) (by omega) (by omega) (by omega)]; omega
  linarith

end Verif.Fmt.Format

namespace Verif
open Fmt

variable {c : Cfg}

/-- between one and two the number between two neighbours is the mean of both -/
theorem mid_one_add (h : c.WF) {k : ℕ} (hk : k < 2 ^ c.fb) :
    c.fmt.mid (2 ^ (c.N - 2) + k) = 1 + (2 * k + 1) * 2 ^ (-(c.fb : ℤ) - 1) := by
  have hN3 := h.N_ge
  have hes := h.hes
  obtain ⟨e1, e2, -⟩ := pow_split h
  have h1 := Nat.one_le_two_pow (n := c.N - 3)
  have hle : 2 ^ c.fb ≤ 2 ^ (c.N - 3) := Nat.pow_le_pow_right (by norm_num) (by unfold Cfg.fb; omega)
  have e4 : 2 ^ (c.N + 1 - 3) = 2 * 2 ^ (c.N - 3) := by rw [show c.N + 1 - 3 = (c.N - 3) + 1 by omega, pow_succ]; ring
  show posVal (c.N + 1) c.es _ = _
  rw [posVal_mid (by omega) (by omega) (by omega)]
  have e3 : (2 : ℚ) ^ (c.N - 2) = 2 * 2 ^ (c.N - 3) := by exact_mod_cast e2
  have e6 : (2 : ℚ) ^ (c.N + 1 - 3) = 2 * 2 ^ (c.N - 3) := by exact_mod_cast e4
  have e5 : (2 : ℚ) ^ (c.N - 3) = 2 ^ c.es * 2 ^ c.fb := by rw [← pow_add]; congr 1; unfold Cfg.fb; omega
  have e7 : (2 : ℚ) ^ (-(c.fb : ℤ) - 1) = (2 ^ c.fb)⁻¹ * (1 / 2) := by
    rw [zpow_sub₀ (by norm_num), zpow_neg, zpow_natCast]; norm_num; ring
  have hkq : (k : ℚ) + 1 ≤ 2 ^ c.fb := by exact_mod_cast hk
  have key : ∀ t : ℚ, t = (2 * k + 1) * 2 ^ (-(c.fb : ℤ) - 1) → L t = 1 + (2 * k + 1) * 2 ^ (-(c.fb : ℤ) - 1) := by
    rintro t rfl
    have hlt : ((2 : ℚ) * k + 1) * 2 ^ (-(c.fb : ℤ) - 1) < 1 := by
      rw [e7, ← mul_assoc, ← div_eq_mul_inv, mul_one_div, div_div, div_lt_one (by positivity)]
      linarith
    have := L_int_add 0 (x := ((2 : ℚ) * k + 1) * 2 ^ (-(c.fb : ℤ) - 1)) (by positivity) hlt
    simpa using this
  apply key
  rw [e7]
  push_cast
  simp only [e3, e6, e5]
  field_simp
  ring

end Verif
