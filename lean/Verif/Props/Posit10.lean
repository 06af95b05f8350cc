import Verif.Model.Posit10Gen
import Verif.Props.PositF
import Verif.Props.Tables
import Verif.Props.Fixed

/-!
# C55: the operations of the classes `posit10` and `posit12`

`posit10` looks its results up in tables written by src/posit10_gen.cpp, which computes with native floats (see C54 for the
assumption `FloatOps.Correct`); `posit12` mostly calls `Posit`.
-/

namespace Verif
open Fmt

variable {o : FloatOps}

theorem floatFor_posit10 : FloatFor Posit10.cfg .single :=
  ⟨Or.inl rfl, by decide, by decide, by decide, by decide, by decide, by decide⟩

namespace Posit10

theorem ofIdx_uu {v : ℤ} (hv : cfg.fmt.IsCanonical v) : ofIdx (uu v) = v := by
  have h : -512 ≤ v ∧ v < 512 := hv
  unfold ofIdx uu
  split_ifs with hc <;> omega

theorem canonical {v : ℤ} (hv : cfg.fmt.IsReal v) : cfg.fmt.IsCanonical v := by
  have h : v.natAbs < 512 := hv.inRange
  show -512 ≤ v ∧ v < 512
  omega

theorem mul_eq {a b : ℤ} (ha : cfg.fmt.IsCanonical a) (hb : cfg.fmt.IsCanonical b) :
    mul o a b = PositF.mul cfg .single o a b := by
  unfold mul genMul genFloat PositF.mul; rw [ofIdx_uu ha, ofIdx_uu hb]

theorem div_eq {a b : ℤ} (ha : cfg.fmt.IsCanonical a) (hb : cfg.fmt.IsCanonical b) :
    div o a b = PositF.div cfg .single o a b := by
  unfold div genDiv genFloat PositF.div; rw [ofIdx_uu ha, ofIdx_uu hb]

theorem add_eq {a b : ℤ} (ha : cfg.fmt.IsCanonical a) (hb : cfg.fmt.IsCanonical b) (ha0 : a ≠ 0) (hb0 : b ≠ 0) :
    add o a b = PositF.add cfg .single o a b := by
  unfold add genAdd genFloat PositF.add; rw [ofIdx_uu ha, ofIdx_uu hb, if_neg ha0, if_neg hb0]

theorem add_ok {a b : ℤ} {x y : ℕ} (hx : genFloat (uu a) = .ok x) (hy : genFloat (uu b) = .ok y) :
    add o a b = Posit.ofFloat cfg .single (o.add x y) := by
  unfold add genAdd
  exact (bind_ok _ hx).trans (bind_ok _ hy)

theorem square_ok {a : ℤ} {x : ℕ} (hx : genFloat (uu a) = .ok x) : square o a = mul o a a := by
  unfold square genSquare mul genMul
  exact (bind_ok _ hx).trans ((bind_ok _ hx).trans (bind_ok _ hx)).symm

theorem half_ok {a : ℤ} {x : ℕ} (hx : genFloat (uu a) = .ok x) :
    half o a = Posit.ofFloat cfg .single (o.div x FTrait.single.two) := by
  unfold half genHalf
  exact bind_ok _ hx

theorem genFloat_uu {a : ℤ} (ha : cfg.fmt.IsCanonical a) : genFloat (uu a) = Posit.toFloat cfg .single a := by
  unfold genFloat; rw [ofIdx_uu ha]

/-- a float that is a posit is converted to that posit -/
theorem ofFloat_exact {w : ℤ} (hw : cfg.fmt.IsReal w) {g : ℕ}
    (hg : ieee FTrait.single.eb FTrait.single.fb g = .num (cfg.fmt.val w)) :
    Posit.ofFloat cfg .single g = .ok w := by
  by_cases h0 : w = 0
  · subst h0
    rw [Format.val_zero] at hg
    exact floatFor_posit10.ofFloat_zero hg
  · obtain ⟨v, hv, -, -, ht⟩ := floatFor_posit10.ofFloat (IsRounded.of_num hg)
      (le_trans (zpow_le_zpow_right₀ (by norm_num) (by decide)) (val_abs_bounds floatFor_posit10.wf hw h0).1)
    rw [hv, (ht ⟨g, hg⟩).unique (Format.isTrunc_val hw h0)]

end Posit10

/-- **C55**: `posit10` multiplication rounds toward zero, and gives zero for a zero operand. -/
theorem C55_posit10_mul (ho : o.Correct 8 23) {a b : ℤ} (ha : Posit10.cfg.fmt.IsReal a) (hb : Posit10.cfg.fmt.IsReal b) :
    (a = 0 ∨ b = 0 → Posit10.mul o a b = .ok 0) ∧
    (a ≠ 0 → b ≠ 0 → ∃ v, Posit10.mul o a b = .ok v ∧
      Posit10.cfg.fmt.IsTrunc (Posit10.cfg.fmt.val a * Posit10.cfg.fmt.val b) v) := by
  rw [Posit10.mul_eq (Posit10.canonical ha) (Posit10.canonical hb)]
  refine ⟨fun h0 => C54_mul_zero_partial floatFor_posit10 ho ha hb h0, fun ha0 hb0 => ?_⟩
  obtain ⟨v, hv, -, -, ht⟩ := C54_mul_partial floatFor_posit10 ho (by decide) ha ha0 hb hb0
  exact ⟨v, hv, ht (by decide)⟩

example : (∃ o : FloatOps, o.Correct 8 23) ∧ Posit10.cfg.fmt.IsReal 300 ∧ Posit10.cfg.fmt.IsReal (-511) ∧
    Posit10.cfg.fmt.val 300 = 11 / 4 := ⟨floatOps_exists (by decide) (by decide), by decide, by decide, by decide +kernel⟩

/-- **C55**: `posit10` division rounds toward zero; zero divided by a number is zero, division by zero gives NaN. -/
theorem C55_posit10_div (ho : o.Correct 8 23) {a b : ℤ} (ha : Posit10.cfg.fmt.IsReal a) (hb : Posit10.cfg.fmt.IsReal b) :
    (b = 0 → Posit10.div o a b = .ok Posit10.nan) ∧ (a = 0 → b ≠ 0 → Posit10.div o a b = .ok 0) ∧
    (a ≠ 0 → b ≠ 0 → ∃ v, Posit10.div o a b = .ok v ∧
      Posit10.cfg.fmt.IsTrunc (Posit10.cfg.fmt.val a / Posit10.cfg.fmt.val b) v) := by
  rw [Posit10.div_eq (Posit10.canonical ha) (Posit10.canonical hb)]
  refine ⟨fun h0 => ?_, fun h0 hb0 => ?_, fun ha0 hb0 => ?_⟩
  · subst h0
    by_cases ha0 : a = 0
    · subst ha0
      exact (C54_div_zero_partial (a := 1) floatFor_posit10 ho (Or.inl (by decide)) (by decide) (by decide)).2.2
    · obtain ⟨s, hs⟩ := (C54_div_zero_partial floatFor_posit10 ho (Or.inl (by decide)) ha ha0).1
      rw [hs]; cases s <;> rfl
  · subst h0
    exact (C54_div_zero_partial floatFor_posit10 ho (Or.inl (by decide)) hb hb0).2.1
  · obtain ⟨v, hv, -, -, ht⟩ := C54_div_partial floatFor_posit10 ho (by decide) ha ha0 hb hb0
    exact ⟨v, hv, ht (by decide) (by decide)⟩

example : Posit10.cfg.fmt.IsReal 300 ∧ Posit10.cfg.fmt.IsReal (-511) := by decide

/-- **C55**: `posit10` addition gives a neighbouring posit of the exact sum, zero only if the exact sum is zero, and rounds
toward zero if the exact sum is a `float`. -/
theorem C55_posit10_add (ho : o.Correct 8 23) {a b : ℤ} (ha : Posit10.cfg.fmt.IsReal a) (hb : Posit10.cfg.fmt.IsReal b) :
    ∃ v, Posit10.add o a b = .ok v ∧ Posit10.cfg.fmt.IsFaithful (Posit10.cfg.fmt.val a + Posit10.cfg.fmt.val b) v ∧
      (v = 0 ↔ Posit10.cfg.fmt.val a + Posit10.cfg.fmt.val b = 0) ∧
      (Posit10.cfg.fmt.val a + Posit10.cfg.fmt.val b ≠ 0 → Fits 24 (Posit10.cfg.fmt.val a + Posit10.cfg.fmt.val b) →
        Posit10.cfg.fmt.IsTrunc (Posit10.cfg.fmt.val a + Posit10.cfg.fmt.val b) v) := by
  obtain ⟨v, hv, hh⟩ := C54_add_partial floatFor_posit10 ho (by decide) ha hb
  refine ⟨v, ?_, hh⟩
  rw [← hv]
  have hz : ∀ {a b : ℤ}, Posit10.cfg.fmt.IsReal a → Posit10.cfg.fmt.IsReal b → a = 0 ∨ b = 0 →
      Posit10.add o a b = PositF.add Posit10.cfg .single o a b := by
    intro a b ha hb h0
    obtain ⟨x, hx, hxv⟩ := floatFor_posit10.toFloat ha
    obtain ⟨y, hy, hyv⟩ := floatFor_posit10.toFloat hb
    -- the exact sum is the other operand
    obtain ⟨w, hw, hwe, hwr⟩ : ∃ w, Posit10.cfg.fmt.IsReal w ∧ Posit10.cfg.fmt.val a + Posit10.cfg.fmt.val b = Posit10.cfg.fmt.val w ∧
        PositF.add Posit10.cfg .single o a b = .ok w := by
      by_cases ha0 : a = 0
      · exact ⟨b, hb, by rw [ha0, Format.val_zero, zero_add], by unfold PositF.add; rw [if_pos ha0]⟩
      · have hb0 : b = 0 := h0.resolve_left ha0
        exact ⟨a, ha, by rw [hb0, Format.val_zero, add_zero], by unfold PositF.add; rw [if_neg ha0, if_pos hb0]⟩
    obtain ⟨g, -, hg⟩ := floatFor_posit10.toFloat hw
    have ho' : o.Correct FTrait.single.eb FTrait.single.fb := ho
    have hm := ho'.add hxv hyv (by rw [hwe]; exact ieee_le_maxFin (by decide) hg)
    rw [hwe] at hm
    rw [hwr]
    rw [Posit10.add_ok ((Posit10.genFloat_uu (Posit10.canonical ha)).trans hx) ((Posit10.genFloat_uu (Posit10.canonical hb)).trans hy)]
    exact Posit10.ofFloat_exact hw (hm.exact ⟨g, hg⟩)
  by_cases h0 : a = 0 ∨ b = 0
  · exact hz ha hb h0
  · exact Posit10.add_eq (Posit10.canonical ha) (Posit10.canonical hb) (fun e => h0 (Or.inl e)) (fun e => h0 (Or.inr e))

example : Posit10.cfg.fmt.IsReal 300 ∧ Posit10.cfg.fmt.IsReal (-511) ∧
    Posit10.cfg.fmt.val 300 + Posit10.cfg.fmt.val (-511) ≠ 0 := by decide +kernel

theorem Posit10.neg_real {b : ℤ} (hb : cfg.fmt.IsReal b) : Posit10.neg b = -b := by
  have h : b.natAbs < 512 := hb.inRange
  unfold Posit10.neg
  exact wrapS_of_inS (by norm_num) (by unfold InS; norm_num; omega)

/-- **C55**: `posit10` subtraction gives a neighbouring posit of the exact difference, zero only for equal operands. -/
theorem C55_posit10_sub (ho : o.Correct 8 23) {a b : ℤ} (ha : Posit10.cfg.fmt.IsReal a) (hb : Posit10.cfg.fmt.IsReal b) :
    ∃ v, Posit10.sub o a b = .ok v ∧ Posit10.cfg.fmt.IsFaithful (Posit10.cfg.fmt.val a - Posit10.cfg.fmt.val b) v ∧
      (v = 0 ↔ a = b) ∧
      (a ≠ b → Fits 24 (Posit10.cfg.fmt.val a - Posit10.cfg.fmt.val b) →
        Posit10.cfg.fmt.IsTrunc (Posit10.cfg.fmt.val a - Posit10.cfg.fmt.val b) v) := by
  obtain ⟨v, hv, h1, h2, h3⟩ := C55_posit10_add ho ha hb.neg
  rw [Format.val_neg, ← sub_eq_add_neg] at h1 h2 h3
  have he : Posit10.cfg.fmt.val a - Posit10.cfg.fmt.val b = 0 ↔ a = b := by
    rw [sub_eq_zero, Format.val_inj ha.inRange hb.inRange]
  rw [he] at h2
  refine ⟨v, ?_, h1, h2, fun hne hf => h3 (fun e => hne (he.mp e)) hf⟩
  unfold Posit10.sub
  rw [Posit10.neg_real hb]
  exact hv

example : Posit10.cfg.fmt.IsReal 300 ∧ Posit10.cfg.fmt.IsReal 511 ∧ (300 : ℤ) ≠ 511 := by decide

/-- **C55**: NaN operands of `posit10` give NaN, on either side of all four operations. -/
theorem C55_posit10_nan (ho : o.Correct 8 23) {a b : ℤ} (ha : Posit10.cfg.fmt.IsCanonical a) (hb : Posit10.cfg.fmt.IsCanonical b)
    (hn : a = Posit10.nan ∨ b = Posit10.nan) :
    Posit10.add o a b = .ok Posit10.nan ∧ Posit10.sub o a b = .ok Posit10.nan ∧
    Posit10.mul o a b = .ok Posit10.nan ∧ Posit10.div o a b = .ok Posit10.nan := by
  have hF : Posit10.cfg.spec ≠ .withNanInf ∨ FTrait.single.fb ≤ Posit10.cfg.F := Or.inl (by decide)
  have key : ∀ {a b : ℤ}, Posit10.cfg.fmt.IsCanonical a → Posit10.cfg.fmt.IsCanonical b → a = Posit10.nan ∨ b = Posit10.nan →
      Posit10.add o a b = .ok Posit10.nan := by
    intro a b ha hb hn
    obtain ⟨x, hx⟩ := floatFor_posit10.toFloat_any ha
    obtain ⟨y, hy⟩ := floatFor_posit10.toFloat_any hb
    have hxy : ieee 8 23 x = .nan ∨ ieee 8 23 y = .nan := by
      rcases hn with rfl | rfl
      · obtain ⟨x', hx', hxn⟩ := floatFor_posit10.toFloat_nan ha (by decide)
        rw [hx] at hx'; rw [Except.ok.inj hx']; exact Or.inl hxn
      · obtain ⟨x', hx', hxn⟩ := floatFor_posit10.toFloat_nan hb (by decide)
        rw [hy] at hx'; rw [Except.ok.inj hx']; exact Or.inr hxn
    rw [Posit10.add_ok ((Posit10.genFloat_uu ha).trans hx) ((Posit10.genFloat_uu hb).trans hy)]
    exact floatFor_posit10.ofFloat_nan hF (ho.nan hxy).1
  have hn' : Posit.isNaN Posit10.cfg a = true ∨ Posit.isNaN Posit10.cfg b = true := by
    rcases hn with rfl | rfl
    · exact Or.inl (by decide)
    · exact Or.inr (by decide)
  obtain ⟨-, h2, h3⟩ := C54_nan_partial floatFor_posit10 ho hF ha hb hn'
  refine ⟨key ha hb hn, ?_, ?_, ?_⟩
  · -- `-NaN` is not a canonical pattern but has the same table index
    unfold Posit10.sub
    have h : -512 ≤ b ∧ b < 512 := hb
    by_cases hbn : b = -512
    · subst hbn
      have e : Posit10.add o a (Posit10.neg (-512)) = Posit10.add o a (-512) := rfl
      rw [e]
      exact key ha (by decide) (Or.inr rfl)
    · have hr : Posit10.cfg.fmt.IsReal b := by
        unfold Format.IsReal
        show -511 ≤ b ∧ b ≤ 511
        omega
      rw [Posit10.neg_real hr]
      exact key ha (Posit10.canonical hr.neg) (hn.imp id fun e => absurd e hbn)
  · rw [Posit10.mul_eq ha hb]; exact h2
  · rw [Posit10.div_eq ha hb]; exact h3

example : Posit10.cfg.fmt.IsCanonical 300 ∧ Posit10.cfg.fmt.IsCanonical (-512) ∧ (-512 : ℤ) = Posit10.nan := by decide

/-- **C55**: reciprocal, half, square and conversion to `float` of `posit10`. -/
theorem C55_posit10_unary (ho : o.Correct 8 23) {a : ℤ} (ha : Posit10.cfg.fmt.IsReal a) (ha0 : a ≠ 0) :
    (∃ v, Posit10.inv a = .ok v ∧ Posit10.cfg.fmt.IsTrunc (1 / Posit10.cfg.fmt.val a) v) ∧
    (∃ v, Posit10.half o a = .ok v ∧ Posit10.cfg.fmt.IsTrunc (Posit10.cfg.fmt.val a / 2) v) ∧
    (∃ v, Posit10.square o a = .ok v ∧ Posit10.cfg.fmt.IsTrunc (Posit10.cfg.fmt.val a * Posit10.cfg.fmt.val a) v) ∧
    (∃ b, Posit10.toFloat a = .ok b ∧ ieee 8 23 b = .num (Posit10.cfg.fmt.val a)) := by
  have hc := Posit10.ofIdx_uu (Posit10.canonical ha)
  obtain ⟨x, hx, hxv⟩ := floatFor_posit10.toFloat ha
  have hxv' : ieee 8 23 x = .num (Posit10.cfg.fmt.val a) := hxv
  refine ⟨?_, ?_, ?_, x, by unfold Posit10.toFloat Posit10.genFloat; rw [hc]; exact hx, hxv'⟩
  · unfold Posit10.inv Posit10.genInv
    rw [hc]
    exact C16_inv_partial (c := Posit10.cfg) (by decide) (by decide) ha ha0 (fun e => by cases e)
      (safeMag_of_narrow (by decide) (by decide) _)
  · obtain ⟨l1, l2⟩ := val_abs_bounds floatFor_posit10.wf ha ha0
    rw [show (Posit10.cfg.maxScale : ℤ) = 32 by decide] at l1 l2
    have habs : |Posit10.cfg.fmt.val a / 2| = |Posit10.cfg.fmt.val a| / 2 := by
      rw [abs_div, abs_of_pos (by norm_num : (0 : ℚ) < 2)]
    have hlo : (2 : ℚ) ^ ((2 : ℤ) - 2 ^ (FTrait.single.eb - 1)) ≤ |Posit10.cfg.fmt.val a / 2| := by
      rw [habs, le_div_iff₀ (by norm_num)]
      refine le_trans ?_ l1
      norm_num [FTrait.single]
    have hhi : |Posit10.cfg.fmt.val a / 2| < 2 ^ ((2 : ℤ) ^ (FTrait.single.eb - 1)) := by
      rw [habs, div_lt_iff₀ (by norm_num)]
      refine lt_of_le_of_lt l2 ?_
      norm_num [FTrait.single]
    have hfit : Fits (FTrait.single.fb + 1) (Posit10.cfg.fmt.val a / 2) := by
      obtain ⟨n, X, hn, he⟩ := (fits_posit floatFor_posit10.wf ha).mono (show Posit10.cfg.fb + 1 ≤ FTrait.single.fb + 1 by decide)
      exact ⟨n, X - 1, hn, by rw [he, zpow_sub₀ (by norm_num)]; ring⟩
    obtain ⟨g, hg⟩ := float_of_fits (by decide) hfit hlo hhi
    have htwo : ieee FTrait.single.eb FTrait.single.fb FTrait.single.two = .num 2 := by norm_num [ieee, FTrait.single]
    have ho' : o.Correct FTrait.single.eb FTrait.single.fb := ho
    obtain ⟨v, hv, -, -, ht⟩ := floatFor_posit10.ofFloat (ho'.div hxv htwo (by norm_num) (ieee_le_maxFin (by decide) hg)) hlo
    refine ⟨v, ?_, ht ⟨g, hg⟩⟩
    rw [Posit10.half_ok ((Posit10.genFloat_uu (Posit10.canonical ha)).trans hx)]
    exact hv
  · rw [Posit10.square_ok ((Posit10.genFloat_uu (Posit10.canonical ha)).trans hx)]
    exact (C55_posit10_mul ho ha ha).2 ha0 ha0

example : Posit10.cfg.fmt.IsReal (-511) := by decide

/-- **C55**: the reciprocal table of `posit10` maps zero to zero, unlike the division. -/
theorem C55_posit10_inv_zero_wrong (ho : o.Correct 8 23) :
    Posit10.inv 0 = .ok 0 ∧ Posit10.div o Posit10.one 0 = .ok Posit10.nan :=
  ⟨by decide +kernel, (C55_posit10_div ho (by decide) (by decide)).1 rfl⟩

example : ∃ o : FloatOps, o.Correct 8 23 ∧ Posit10.div o Posit10.one 0 = .ok Posit10.nan := by
  obtain ⟨o, ho⟩ := floatOps_exists (eb := 8) (fb := 23) (by norm_num) (by norm_num)
  exact ⟨o, ho, (C55_posit10_inv_zero_wrong ho).2⟩

/-- **C55**: construction of `posit10` from numbers is that of `Posit`, the special cases for 0 and 1 changing nothing; from an
`int` it rounds toward zero. -/
theorem C55_posit10_constructors (a : ℤ) (b : ℕ) :
    Posit10.ofInt a = Posit.ofInt Posit10.cfg a ∧ Posit10.ofFloat b = Posit.ofFloat Posit10.cfg .single b ∧
    Posit10.ofDouble b = Posit.ofFloat Posit10.cfg .double b := by
  refine ⟨?_, ?_, ?_⟩
  · unfold Posit10.ofInt
    split_ifs with h1 h2
    · subst h1; decide +kernel
    · subst h2; decide +kernel
    · rfl
  · unfold Posit10.ofFloat
    split_ifs with h1 h2
    · rcases h1 with rfl | rfl <;> decide +kernel
    · subst h2; decide +kernel
    · rfl
  · unfold Posit10.ofDouble
    split_ifs with h1 h2
    · rcases h1 with rfl | rfl <;> decide +kernel
    · subst h2; decide +kernel
    · rfl

example : Posit10.ofInt (-5) = .ok (-328) ∧ Posit10.ofFloat 0x3fc00000 = .ok 272 := by decide +kernel

/-- **C55**: from a nonzero `int` other than the least, `posit10` and `posit12` are rounded toward zero. -/
theorem C55_ofInt_partial {i : ℤ} (h0 : i ≠ 0) (h1 : -2 ^ 31 < i) (h2 : i < 2 ^ 31) :
    (∃ v, Posit10.ofInt i = .ok v ∧ Posit10.cfg.fmt.IsTrunc i v) ∧
    (∃ v, Posit12.ofInt i = .ok v ∧ Posit12.cfg.fmt.IsTrunc i v) := by
  rw [(C55_posit10_constructors i 0).1]
  exact ⟨C20_ofInt_partial (by decide) h0 h1 h2 (Or.inl (by decide)) (safeMag_of_narrow (by decide) (by decide) _),
    C20_ofInt_partial (by decide) h0 h1 h2 (Or.inl (by decide)) (safeMag_of_narrow (by decide) (by decide) _)⟩

example : (123456 : ℤ) ≠ 0 ∧ -2 ^ 31 < (123456 : ℤ) := by decide

/-- **C55**: doubling rounds toward zero in `posit10` and `posit12`. -/
theorem C55_twice {a : ℤ} :
    (Posit10.cfg.fmt.IsReal a → a ≠ 0 →
      ∃ v, Posit10.twice a = .ok v ∧ Posit10.cfg.fmt.IsTrunc (2 * Posit10.cfg.fmt.val a) v) ∧
    (Posit12.cfg.fmt.IsReal a → a ≠ 0 →
      ∃ v, Posit12.twice a = .ok v ∧ Posit12.cfg.fmt.IsTrunc (2 * Posit12.cfg.fmt.val a) v) := by
  refine ⟨fun ha ha0 => ?_, fun ha ha0 => ?_⟩
  · have h2 : Posit.ofInt Posit10.cfg 2 = .ok 288 := by decide +kernel
    obtain ⟨v, hv, ht⟩ := C08_mul (c := Posit10.cfg) (by decide) (by decide) (by decide) ha ha0 (b := 288) (by decide) (by decide)
    refine ⟨v, ?_, ?_⟩
    · unfold Posit10.twice; rw [h2]; exact hv
    · rwa [show Posit10.cfg.fmt.val 288 = 2 by decide +kernel, mul_comm] at ht
  · have h2 : Posit.ofInt Posit12.cfg 2 = .ok 1152 := by decide +kernel
    obtain ⟨v, hv, ht⟩ := C08_mul (c := Posit12.cfg) (by decide) (by decide) (by decide) ha ha0 (b := 1152) (by decide) (by decide)
    refine ⟨v, ?_, ?_⟩
    · unfold Posit12.twice; rw [h2]; exact hv
    · rwa [show Posit12.cfg.fmt.val 1152 = 2 by decide +kernel, mul_comm] at ht

example : Posit10.twice (-300) = .ok (-332) ∧ Posit12.twice 1200 = .ok 1328 := by decide +kernel

/-- **C55**: product, quotient and half of `posit12` round toward zero. -/
theorem C55_posit12_mul_div {a b : ℤ} (ha : Posit12.cfg.fmt.IsReal a) (ha0 : a ≠ 0) (hb : Posit12.cfg.fmt.IsReal b) (hb0 : b ≠ 0) :
    (∃ v, Posit12.mul a b = .ok v ∧ Posit12.cfg.fmt.IsTrunc (Posit12.cfg.fmt.val a * Posit12.cfg.fmt.val b) v) ∧
    (∃ v, Posit12.div a b = .ok v ∧ Posit12.cfg.fmt.IsTrunc (Posit12.cfg.fmt.val a / Posit12.cfg.fmt.val b) v) ∧
    (∃ v, Posit12.half a = .ok v ∧ Posit12.cfg.fmt.IsTrunc (Posit12.cfg.fmt.val a / 2) v) := by
  refine ⟨C08_mul (by decide) (by decide) (by decide) ha ha0 hb hb0, C09_div (by decide) (by decide) (by decide) ha ha0 hb hb0, ?_⟩
  have h2 : Posit.ofInt Posit12.cfg 2 = .ok 1152 := by decide +kernel
  obtain ⟨v, hv, ht⟩ := C09_div (c := Posit12.cfg) (by decide) (by decide) (by decide) ha ha0 (b := 1152) (by decide) (by decide)
  refine ⟨v, ?_, ?_⟩
  · unfold Posit12.half; rw [h2]; exact hv
  · rwa [show Posit12.cfg.fmt.val 1152 = 2 by decide +kernel] at ht

example : Posit12.cfg.fmt.IsReal 1300 ∧ Posit12.cfg.fmt.IsReal (-777) ∧ Posit12.half 1300 = .ok 1172 := by decide +kernel

/-- **C55**: sum and difference of `posit12` for operands whose exponents differ by less than 32 (beyond that: C52_add_ub). -/
theorem C55_posit12_add_sub_partial {a b : ℤ} (ha : Posit12.cfg.fmt.IsReal a) (hb : Posit12.cfg.fmt.IsReal b)
    (hd : a ≠ 0 → b ≠ 0 → |Posit12.cfg.fmt.scale a - Posit12.cfg.fmt.scale b| < 32) :
    (∃ v, Posit12.add a b = .ok v ∧ Posit12.cfg.fmt.IsFaithful (Posit12.cfg.fmt.val a + Posit12.cfg.fmt.val b) v ∧
      (v = 0 ↔ Posit12.cfg.fmt.val a + Posit12.cfg.fmt.val b = 0)) ∧
    (∃ v, Posit12.sub a b = .ok v ∧ Posit12.cfg.fmt.IsFaithful (Posit12.cfg.fmt.val a - Posit12.cfg.fmt.val b) v ∧ (v = 0 ↔ a = b)) := by
  have hs := safeMag_of_narrow (c := Posit12.cfg) (by decide) (by decide)
  have key : ∀ {b : ℤ}, Posit12.cfg.fmt.IsReal b → (a ≠ 0 → b ≠ 0 → |Posit12.cfg.fmt.scale a - Posit12.cfg.fmt.scale b| < 32) →
      Posit12.cfg.AddSafe (Posit12.cfg.fmt.val a) (Posit12.cfg.fmt.val b) := by
    intro b hb hd
    by_cases ha0 : a = 0
    · left; rw [ha0, Format.val_zero]
    by_cases hb0 : b = 0
    · right; left; rw [hb0, Format.val_zero]
    refine Or.inr (Or.inr ⟨hd ha0 hb0, ?_⟩)
    rcases lt_trichotomy (Posit12.cfg.fmt.val a * Posit12.cfg.fmt.val b) 0 with hlt | heq | hgt
    · exact Or.inr ⟨hlt, by decide, hs _, hs _, Or.inr (hs _)⟩
    · rcases mul_eq_zero.mp heq with hz | hz
      · exact absurd ((Format.val_eq_zero_iff ha.inRange).mp hz) ha0
      · exact absurd ((Format.val_eq_zero_iff hb.inRange).mp hz) hb0
    · exact Or.inl ⟨hgt, hs _⟩
  obtain ⟨v, hv, h1, h2, -⟩ := C10_add_partial (c := Posit12.cfg) (by decide) (by decide) ha hb (key hb hd)
  have hsc : Posit12.cfg.fmt.scale (-b) = Posit12.cfg.fmt.scale b := by
    unfold Format.scale; rw [Format.val_neg, abs_neg]
  obtain ⟨w, hw, g1, g2, -⟩ := C10_add_partial (c := Posit12.cfg) (by decide) (by decide) ha hb.neg
    (key hb.neg fun ha0 hb0 => by rw [hsc]; exact hd ha0 (by omega))
  rw [Format.val_neg, ← sub_eq_add_neg] at g1 g2
  refine ⟨⟨v, hv, h1, h2⟩, w, ?_, g1, ?_⟩
  · unfold Posit12.sub Posit12.neg Posit12.add
    have h : b.natAbs < 2048 := hb.inRange
    rw [wrapS_of_inS (by norm_num) (by unfold InS; norm_num; omega)]
    exact hw
  · rw [g2, sub_eq_zero, Format.val_inj ha.inRange hb.inRange]

example : Posit12.cfg.fmt.IsReal 1300 ∧ Posit12.cfg.fmt.IsReal (-777) ∧
    Posit12.cfg.fmt.scale 1300 = 2 ∧ Posit12.cfg.fmt.scale (-777) = -2 ∧ Posit12.add 1300 (-777) = .ok 1291 := by decide +kernel

/-- **C55**: negation and absolute value of `posit10` and `posit12`. -/
theorem C55_neg_abs_partial {a : ℤ} :
    (Posit10.cfg.fmt.IsReal a → Posit10.cfg.fmt.val (Posit10.neg a) = -Posit10.cfg.fmt.val a ∧
      Posit10.cfg.fmt.val (Posit10.abs a) = |Posit10.cfg.fmt.val a|) ∧
    (Posit12.cfg.fmt.IsReal a → Posit12.cfg.fmt.val (Posit12.neg a) = -Posit12.cfg.fmt.val a ∧
      Posit12.cfg.fmt.val (Posit12.abs a) = |Posit12.cfg.fmt.val a|) := by
  have key : ∀ {f : Format} {B : ℤ} (hB : B ≤ 2 ^ 15 - 1), (∀ v, f.IsReal v → |v| ≤ B) → f.IsReal a →
      f.val (wrapS 16 (-a)) = -f.val a ∧ f.val (wrapS 16 (if a < 0 then -a else a)) = |f.val a| := by
    intro f B hB hf ha
    have h := abs_le.mp (hf a ha)
    have e1 : wrapS 16 (-a) = -a := wrapS_of_inS (by norm_num) (by unfold InS; norm_num at hB ⊢; omega)
    have e2 : wrapS 16 a = a := wrapS_of_inS (by norm_num) (by unfold InS; norm_num at hB ⊢; omega)
    refine ⟨by rw [e1, Format.val_neg], ?_⟩
    split_ifs with hc
    · rw [e1, Format.val_neg, abs_of_neg ((Format.val_neg_iff ha.inRange).mpr hc)]
    · rw [e2, abs_of_nonneg]
      by_contra hn
      exact hc ((Format.val_neg_iff ha.inRange).mp (not_le.mp hn))
  refine ⟨fun ha => key (B := 511) (by norm_num) (fun v hv => ?_) ha, fun ha => key (B := 2047) (by norm_num) (fun v hv => ?_) ha⟩
  · have h : v.natAbs < 512 := hv.inRange
    rw [abs_le]; omega
  · have h : v.natAbs < 2048 := hv.inRange
    rw [abs_le]; omega

example : Posit10.cfg.fmt.IsReal (-300) ∧ Posit10.neg (-300) = 300 ∧ Posit12.abs (-2000) = 2000 := by decide

/-- **C55**: `min()` of `posit10` is the least positive number. -/
theorem C55_posit10_min : Posit10.cfg.fmt.IsReal Posit10.min ∧ 0 < Posit10.cfg.fmt.val Posit10.min ∧
    ∀ w, Posit10.cfg.fmt.IsReal w → 0 < Posit10.cfg.fmt.val w → Posit10.cfg.fmt.val Posit10.min ≤ Posit10.cfg.fmt.val w := by
  have h1 : Posit10.cfg.fmt.IsReal Posit10.min := by decide
  refine ⟨h1, by decide +kernel, fun w hw h0 => ?_⟩
  have hp : 0 < w := by
    by_contra hc
    rcases lt_or_eq_of_le (not_lt.mp hc) with hn | rfl
    · exact absurd ((Format.val_neg_iff hw.inRange).mpr hn) (not_lt.mpr h0.le)
    · rw [Format.val_zero] at h0; exact lt_irrefl _ h0
  exact (Format.val_le_iff h1.inRange hw.inRange).mpr hp

/-- **C55**: negation and absolute value of NaN leave the range of patterns; `posit12` then subtracts NaN with undefined
behaviour, and takes -NaN for a number that is not NaN. -/
theorem C55_neg_nan_wrong :
    Posit10.neg Posit10.nan = 512 ∧ ¬ Posit10.cfg.fmt.IsCanonical 512 ∧ Posit10.isNan 512 = false ∧
    Posit12.neg Posit12.nan = 2048 ∧ ¬ Posit12.cfg.fmt.IsCanonical 2048 ∧ Posit12.isNan 2048 = false ∧
    Posit12.sub Posit12.one Posit12.nan = .error .shiftValue := by decide +kernel

end Verif
