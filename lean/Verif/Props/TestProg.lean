import Verif.Props.PositF
import Verif.Props.Sum
import Verif.Props.Sterbenz
import Verif.Props.Equiv
import Verif.Props.Special
import Verif.Props.EmuFull
import Verif.Props.Bits
import Verif.Props.SumFaithful
import Verif.Lemmas.NearestGen
import Verif.Model.TestProg

/-! # Small test programs: sums in `PositF` and in `Posit` (C116), the loop over an emulated float (C117), runs and bit fields (C118) -/

namespace Verif
open Fmt

variable {c : Cfg} {t : FTrait} {o : FloatOps}

/-! ## C116 -/

/-- sums of numbers with few bits and close exponents are not cut when they are aligned -/
theorem alignedSum_exact {F k : ℕ} {x y : ℚ} (hx0 : x ≠ 0) (hy0 : y ≠ 0) (hx : ∃ n : ℕ, |x| = n * 2 ^ (Int.log 2 |x| - k : ℤ))
    (hy : ∃ n : ℕ, |y| = n * 2 ^ (Int.log 2 |y| - k : ℤ)) (hD : |Int.log 2 |x| - Int.log 2 (|y|)| + k + 3 ≤ F) :
    alignedSum F x y = x + y ∧ SumOK F x y := by
  obtain ⟨n, hn⟩ := hx
  obtain ⟨m, hm⟩ := hy
  set lx := Int.log 2 |x|
  set ly := Int.log 2 |y|
  have hD' := abs_le.mp (show |lx - ly| ≤ F - k - 3 by linarith)
  set Y : ℤ := min lx ly - k with hY
  obtain ⟨n', hn'⟩ := multiple_of_le hn (show Y ≤ lx - k by omega)
  obtain ⟨m', hm'⟩ := multiple_of_le hm (show Y ≤ ly - k by omega)
  have hu : sumUnit F x y = 2 ^ (max lx ly + 2 - F : ℤ) := rfl
  have hlt : max lx ly + 2 - (F : ℤ) < Y := by omega
  have upos : (0 : ℚ) < sumUnit F x y := by rw [hu]; positivity
  obtain ⟨n2, hn2⟩ := multiple_of_le hn' hlt.le
  obtain ⟨m2, hm2⟩ := multiple_of_le hm' hlt.le
  rw [← hu] at hn2 hm2
  have hs : cutSum F x y = x + y := by unfold cutSum; rw [cutTo_multiple upos hn2, cutTo_multiple upos hm2]
  refine ⟨by unfold alignedSum; rw [if_neg hx0, if_neg hy0, hs], Or.inr (Or.inr ⟨?_, ?_⟩)⟩
  · have : (F : ℤ) ≤ pw F := by exact_mod_cast le_pw F
    exact abs_lt.mpr ⟨by omega, by omega⟩
  · rintro ⟨-, he⟩
    rw [hs] at he
    -- the sum is a multiple of a greater power of two than the unit
    obtain ⟨a, ha⟩ : ∃ a : ℤ, x = a * 2 ^ Y := by
      rcases abs_choice x with h | h
      · exact ⟨n', by rw [← h, hn']; push_cast; rfl⟩
      · exact ⟨-n', by rw [← neg_eq_iff_eq_neg.mpr h, hn']; push_cast; ring⟩
    obtain ⟨b, hb⟩ : ∃ b : ℤ, y = b * 2 ^ Y := by
      rcases abs_choice y with h | h
      · exact ⟨m', by rw [← h, hm']; push_cast; rfl⟩
      · exact ⟨-m', by rw [← neg_eq_iff_eq_neg.mpr h, hm']; push_cast; ring⟩
    have hYp : (0 : ℚ) < 2 ^ Y := by positivity
    have hsum : |x + y| = |((a + b : ℤ) : ℚ)| * 2 ^ Y := by
      rw [ha, hb, ← add_mul, abs_mul, abs_of_pos hYp]; push_cast; rfl
    have hul : sumUnit F x y < 2 ^ Y := by rw [hu]; exact zpow_lt_zpow_right₀ (by norm_num) hlt
    by_cases h0 : a + b = 0
    · rw [hsum, h0] at he; simp at he; linarith
    · have h1 : (1 : ℚ) ≤ |((a + b : ℤ) : ℚ)| := by
        have : 1 ≤ |a + b| := Int.one_le_abs h0
        exact_mod_cast this
      rw [hsum] at he
      nlinarith

theorem real_fits_sum (h : c.WF) {a b : ℤ} (ha : c.fmt.IsReal a) (ha0 : a ≠ 0) (hb : c.fmt.IsReal b) (hb0 : b ≠ 0) {D : ℕ}
    (hD : |Int.log 2 |c.fmt.val a| - Int.log 2 (|c.fmt.val b|)| ≤ D) : Fits (D + c.fb + 2) (c.fmt.val a + c.fmt.val b) := by
  obtain ⟨n, hn⟩ := val_grid h ha ha0
  obtain ⟨m, hm⟩ := val_grid h hb hb0
  have hva : c.fmt.val a ≠ 0 := fun hh => ha0 ((Format.val_eq_zero_iff ha.inRange).mp hh)
  have hvb : c.fmt.val b ≠ 0 := fun hh => hb0 ((Format.val_eq_zero_iff hb.inRange).mp hh)
  have la := Int.lt_zpow_succ_log_self (b := 2) (by norm_num) |c.fmt.val a|
  have lb := Int.lt_zpow_succ_log_self (b := 2) (by norm_num) |c.fmt.val b|
  set lx := Int.log 2 |c.fmt.val a|
  set ly := Int.log 2 |c.fmt.val b|
  have hD' := abs_le.mp hD
  set Y : ℤ := min lx ly - c.fb with hY
  obtain ⟨n', hn'⟩ := multiple_of_le hn (show Y ≤ lx - c.fb by omega)
  obtain ⟨m', hm'⟩ := multiple_of_le hm (show Y ≤ ly - c.fb by omega)
  obtain ⟨p, hp⟩ : ∃ p : ℤ, c.fmt.val a = p * 2 ^ Y := by
    rcases abs_choice (c.fmt.val a) with h | h
    · exact ⟨n', by rw [← h, hn']; push_cast; rfl⟩
    · exact ⟨-n', by rw [← neg_eq_iff_eq_neg.mpr h, hn']; push_cast; ring⟩
  obtain ⟨q, hq⟩ : ∃ q : ℤ, c.fmt.val b = q * 2 ^ Y := by
    rcases abs_choice (c.fmt.val b) with h | h
    · exact ⟨m', by rw [← h, hm']; push_cast; rfl⟩
    · exact ⟨-m', by rw [← neg_eq_iff_eq_neg.mpr h, hm']; push_cast; ring⟩
  refine ⟨p + q, Y, ?_, by rw [hp, hq]; push_cast; ring⟩
  have hYp : (0 : ℚ) < 2 ^ Y := by positivity
  have key : ∀ {r l : ℤ} {v : ℚ}, v = r * 2 ^ Y → |v| < (2 : ℚ) ^ (l + 1) → l + 1 ≤ Y + (D + c.fb + 1 : ℕ) → |r| < 2 ^ (D + c.fb + 1) := by
    intro r l v hv hl hle
    have h1 : |(r : ℚ)| * 2 ^ Y < 2 ^ (D + c.fb + 1) * 2 ^ Y := by
      calc |(r : ℚ)| * 2 ^ Y = |v| := by rw [hv, abs_mul, abs_of_pos hYp]
        _ < 2 ^ (l + 1) := hl
        _ ≤ 2 ^ (Y + (D + c.fb + 1 : ℕ)) := zpow_le_zpow_right₀ (by norm_num) hle
        _ = _ := by rw [zpow_add₀ (by norm_num), zpow_natCast]; ring
    have := lt_of_mul_lt_mul_right h1 hYp.le
    exact_mod_cast this
  have k1 := key hp (by exact_mod_cast la) (by push_cast; omega)
  have k2 := key hq (by exact_mod_cast lb) (by push_cast; omega)
  have := abs_add_le p q
  rw [pow_succ]
  linarith

/-- the template arguments of tests/itest_positf.cpp:6, `true` meaning that there is a NaN -/
def itestCfg : Cfg := ⟨32, 8, 3, 64, .withNan⟩

theorem floatFor_itest : FloatFor itestCfg .double := by
  refine ⟨Or.inr rfl, ?_, ?_, ?_, ?_, ?_, ?_⟩ <;> decide +kernel

/-- **C116**: `PositF` and its `Posit` give the same sum of two posits whose exponents are not too far apart and whose exact sum is a
native float: the sum rounded toward zero. -/
theorem C116_add (h : FloatFor c t) (ho : o.Correct t.eb t.fb) (hr : c.maxScale + c.fb + 3 ≤ 2 ^ (t.eb - 1)) {a b : ℤ}
    (ha : c.fmt.IsReal a) (hb : c.fmt.IsReal b) (hfit : Fits (t.fb + 1) (c.fmt.val a + c.fmt.val b))
    (hD : a ≠ 0 → b ≠ 0 → |Int.log 2 |c.fmt.val a| - Int.log 2 (|c.fmt.val b|)| + c.fb + 3 ≤ c.F) :
    ∃ v, PositF.add c t o a b = .ok v ∧ Posit.add c a b = .ok v ∧ c.fmt.IsCut0 (c.fmt.val a + c.fmt.val b) v := by
  by_cases ha0 : a = 0
  · subst ha0
    refine ⟨b, rfl, rfl, ?_⟩
    rw [Format.val_zero, zero_add]
    by_cases hb0 : b = 0
    · left; rw [hb0]; simp [Format.val_zero]
    · right; exact isTrunc_self hb hb0
  by_cases hb0 : b = 0
  · subst hb0
    refine ⟨a, by unfold PositF.add; rw [if_neg ha0, if_pos rfl], by simp [Posit.add, Posit.isZero, ha0], ?_⟩
    rw [Format.val_zero, add_zero]
    right; exact isTrunc_self ha ha0
  have hva : c.fmt.val a ≠ 0 := fun hh => ha0 ((Format.val_eq_zero_iff ha.inRange).mp hh)
  have hvb : c.fmt.val b ≠ 0 := fun hh => hb0 ((Format.val_eq_zero_iff hb.inRange).mp hh)
  obtain ⟨e1, e2⟩ := alignedSum_exact hva hvb (val_grid h.wf ha ha0) (val_grid h.wf hb hb0) (hD ha0 hb0)
  obtain ⟨w, hw, hwc⟩ := (C63_add h.wf ha hb).1 (Or.inr (Or.inr ⟨e2, Or.inr (safeMag_of_narrow h.wf h.narrow _)⟩))
  rw [e1] at hwc
  obtain ⟨v, hv, -, hv0, hvt⟩ := C54_add_partial h ho hr ha hb
  refine ⟨w, ?_, hw, hwc⟩
  rw [hv]; congr 1
  rcases hwc with ⟨hz, rfl⟩ | hwt
  · exact hv0.mpr hz
  · have hne : c.fmt.val a + c.fmt.val b ≠ 0 := by
      rcases hwt.sign with h | h
      · exact h.2.ne'
      · exact h.2.ne
    exact (hvt hne hfit).unique hwt

example (ho : o.Correct 11 52) : itestCfg.fmt.val 127 + itestCfg.fmt.val (-100) = 2 ^ 48 - 2 ^ 10 ∧
    ∃ v, PositF.add itestCfg .double o 127 (-100) = .ok v ∧ Posit.add itestCfg 127 (-100) = .ok v := by
  refine ⟨by decide +kernel, ?_⟩
  obtain ⟨v, h1, h2, -⟩ := C116_add (o := o) floatFor_itest ho (by decide +kernel) (a := 127) (b := -100) (by decide) (by decide)
    ⟨2 ^ 38 - 1, 10, by decide, by decide +kernel⟩ (fun _ _ => by decide +kernel)
  exact ⟨v, h1, h2⟩

/-- **C116**: in particular whenever the exponents differ by less than the spare bits of the native fraction. -/
theorem C116_add_close (h : FloatFor c t) (ho : o.Correct t.eb t.fb) (hr : c.maxScale + c.fb + 3 ≤ 2 ^ (t.eb - 1))
    (hF : t.fb + 2 ≤ c.F) {a b : ℤ} (ha : c.fmt.IsReal a) (hb : c.fmt.IsReal b)
    (hD : a ≠ 0 → b ≠ 0 → |Int.log 2 |c.fmt.val a| - Int.log 2 (|c.fmt.val b|)| + c.fb + 1 ≤ t.fb) :
    ∃ v, PositF.add c t o a b = .ok v ∧ Posit.add c a b = .ok v ∧ c.fmt.IsCut0 (c.fmt.val a + c.fmt.val b) v := by
  refine C116_add h ho hr ha hb ?_ fun ha0 hb0 => by have := hD ha0 hb0; omega
  by_cases ha0 : a = 0
  · subst ha0
    rw [Format.val_zero, zero_add]; exact (fits_posit h.wf hb).mono (by have := h.hfb; omega)
  by_cases hb0 : b = 0
  · subst hb0
    rw [Format.val_zero, add_zero]; exact (fits_posit h.wf ha).mono (by have := h.hfb; omega)
  have hD := hD ha0 hb0
  have hn := abs_nonneg (Int.log 2 |c.fmt.val a| - Int.log 2 |c.fmt.val b|)
  exact (real_fits_sum h.wf ha ha0 hb hb0 (D := (|Int.log 2 |c.fmt.val a| - Int.log 2 (|c.fmt.val b|)|).toNat) (by omega)).mono (by omega)

example (ho : o.Correct 11 52) : PositF.add itestCfg .double o 50 40 = .ok 51 ∧ Posit.add itestCfg 50 40 = .ok 51 := by
  obtain ⟨v, h1, h2, -⟩ := C116_add_close (o := o) floatFor_itest ho (by decide +kernel) (by decide) (a := 50) (b := 40)
    (by decide) (by decide) (fun _ _ => by decide +kernel)
  have h3 : Posit.add itestCfg 50 40 = .ok 51 := by decide +kernel
  exact ⟨h1.trans (h2.symm.trans h3), h3⟩

theorem filterM_ok {α : Type} {p : α → M Bool} {q : α → Bool} : ∀ {l : List α}, (∀ i ∈ l, p i = .ok (q i)) →
    l.filterM p = .ok (l.filter q) := by
  have aux : ∀ (l acc : List α), (∀ i ∈ l, p i = .ok (q i)) → l.filterAuxM p acc = .ok ((l.filter q).reverse ++ acc) := by
    intro l
    induction l with
    | nil => intro acc _; rfl
    | cons x l ih =>
      intro acc h
      unfold List.filterAuxM
      rw [h x (by simp)]
      simp only [bind, Except.bind]
      rw [ih _ fun i hi => h i (by simp [hi])]
      cases hq : q x <;> simp [hq]
  intro l h
  unfold List.filterM
  rw [aux l [] h]
  simp [bind, Except.bind, pure, Except.pure]

theorem itest_val50 : itestCfg.fmt.val 50 = 3 / 32 ∧ itestCfg.fmt.val (-127) = -(2 ^ 48) := by decide +kernel

theorem itest_logs : ∀ i ∈ (List.range 253).map fun n : ℕ => (n : ℤ) - 126,
    i ≠ 0 → |Int.log 2 (|itestCfg.fmt.val i|) - Int.log 2 (|itestCfg.fmt.val 50|)| ≤ 49 := by
  decide +kernel

/-- **C116**: the test tests/itest_positf.cpp never prints "!": for every correctly rounding native arithmetic the 255 sums computed
with doubles are those computed with integers. -/
theorem C116_itest (ho : o.Correct 11 52) : PositF.itest itestCfg .double o = .ok [] := by
  have hfor := floatFor_itest
  refine (filterM_ok (q := fun _ => false) ?_).trans (by simp)
  intro i hi
  have hi' : -128 ≤ i ∧ i ≤ 126 := by
    obtain ⟨n, hn, rfl⟩ := List.mem_map.mp hi
    have := List.mem_range.mp hn
    constructor <;> omega
  have h50 : itestCfg.fmt.IsReal 50 := by decide
  suffices hh : ∃ v, PositF.add itestCfg .double o i 50 = .ok v ∧ Posit.add itestCfg i 50 = .ok v by
    obtain ⟨v, h1, h2⟩ := hh
    unfold PositF.itestPass
    rw [h1, h2]
    simp [bind, Except.bind, pure, Except.pure]
  by_cases h1 : i = -128
  · subst h1
    refine ⟨-128, ?_, by decide +kernel⟩
    exact (C54_nan_partial hfor ho (Or.inl (by decide)) (a := -128) (b := 50) (by decide +kernel) (by decide +kernel)
      (Or.inl (by decide +kernel))).1
  have hre : itestCfg.fmt.IsReal i := by
    have hm : (itestCfg.fmt.maxBody : ℤ) = 127 := by decide
    unfold Format.IsReal
    omega
  by_cases h2 : i = -127
  · subst h2
    obtain ⟨v, a1, a2, -⟩ := C116_add hfor ho (by decide +kernel) (a := -127) (b := 50) hre h50 (by
      rw [itest_val50.1, itest_val50.2]
      exact ⟨-(2 ^ 53 - 3), -5, by norm_num [FTrait.double], by norm_num⟩) (fun _ _ => by decide +kernel)
    exact ⟨v, a1, a2⟩
  · obtain ⟨v, a1, a2, -⟩ := C116_add_close hfor ho (by decide +kernel) (by decide) (a := i) (b := 50) hre h50 (fun hi0 _ => by
      have := itest_logs i (List.mem_map.mpr ⟨(i + 126).toNat, by simp; omega, by omega⟩) hi0
      have e1 : (itestCfg.fb : ℤ) = 2 := by decide
      have e2 : (FTrait.double.fb : ℤ) = 52 := by decide
      omega)
    exact ⟨v, a1, a2⟩

example : (∃ o : FloatOps, o.Correct 11 52) ∧ ∃ b, itestCfg.fmt.val 50 + itestCfg.fmt.val 40 = 7 / 64 ∧
    Posit.add itestCfg 40 50 = .ok b ∧ b = 51 :=
  ⟨floatOps_exists (by decide) (by decide), 51, by decide +kernel, by decide +kernel, rfl⟩

/-- **C116**: the sum with native floats is always defined; where the integer sum is defined too, the two differ by one unit at most. -/
theorem C116_add_neighbours (h : FloatFor c t) (ho : o.Correct t.eb t.fb) (hr : c.maxScale + c.fb + 3 ≤ 2 ^ (t.eb - 1))
    (hF : c.fb + 3 ≤ c.F) {a b : ℤ} (ha : c.fmt.IsReal a) (hb : c.fmt.IsReal b) :
    ∃ v, PositF.add c t o a b = .ok v ∧ ∀ w, Posit.add c a b = .ok w → |v - w| ≤ 1 := by
  obtain ⟨v, hv, fv, -⟩ := C54_add_partial h ho hr ha hb
  refine ⟨v, hv, fun w hw => ?_⟩
  have fw := (C137_add h.wf hF ha hb hw).1
  have key : ∀ {v w : ℤ}, c.fmt.IsFaithful (c.fmt.val a + c.fmt.val b) v → c.fmt.IsFaithful (c.fmt.val a + c.fmt.val b) w →
      w ≤ v + 1 := by
    intro v w fv fw
    by_contra hc
    have hv := fv.real
    have hw := fw.real
    have hu : c.fmt.IsReal (v + 1) := by unfold Format.IsReal at hv hw ⊢; omega
    have h1 := fv.above _ hu ((Format.val_lt_iff hv.inRange hu.inRange).mpr (by omega))
    have h2 := fw.below _ hu ((Format.val_lt_iff hu.inRange hw.inRange).mpr (by omega))
    linarith
  have k1 := key fv fw
  have k2 := key fw fv
  exact abs_le.mpr ⟨by omega, by omega⟩

example (ho : o.Correct 11 52) : ∃ v w, PositF.add itestCfg .double o 127 (-20) = .ok v ∧ Posit.add itestCfg 127 (-20) = .ok w ∧
    |v - w| ≤ 1 := by
  obtain ⟨v, hv, hw⟩ := C116_add_neighbours floatFor_itest ho (a := 127) (b := -20) (by decide +kernel) (by decide +kernel) (by decide)
    (by decide)
  have e : Posit.add itestCfg 127 (-20) = .ok 126 := by decide +kernel
  exact ⟨v, 126, hv, e, hw 126 e⟩

/-- the native additions round to nearest, ties to even -/
def AddsNearest (o : FloatOps) : Prop := ∀ {a b : ℕ} {x y : ℚ}, ieee 11 52 a = .num x → ieee 11 52 b = .num y →
  IsNearestEven 11 52 (x + y) (o.add a b)

theorem positF_add {a b : ℤ} {x y : ℕ} (ha : a ≠ 0) (hb : b ≠ 0) (hx : Posit.toFloat c t a = .ok x)
    (hy : Posit.toFloat c t b = .ok y) : PositF.add c t o a b = Posit.ofFloat c t (o.add x y) := by
  unfold PositF.add
  rw [if_neg ha, if_neg hb, hx, hy]
  rfl

theorem overflowAt_ge : (2 : ℚ) ^ 49 ≤ overflowAt 11 52 := by
  unfold overflowAt
  have h1 : (2 : ℚ) ^ (49 : ℤ) ≤ 2 ^ ((2 : ℤ) ^ (11 - 1) - 1) := zpow_le_zpow_right₀ (by norm_num) (by norm_num)
  have h2 : (1 : ℚ) ≤ 2 - 1 / 2 ^ (52 + 1) := by norm_num
  calc (2 : ℚ) ^ 49 = 1 * 2 ^ (49 : ℤ) := by norm_num
    _ ≤ _ := mul_le_mul h2 h1 (by positivity) (by linarith)

theorem near_2pow48 {b : ℕ} {z : ℚ} (hz : ieee 11 52 b = .num z) (hz1 : (2 : ℚ) ^ 48 - 1 / 2 ^ 13 ≤ z) (hz2 : z ≤ (2 : ℚ) ^ 48) :
    z = 2 ^ 48 := by
  by_contra hne
  have hlt : z < (2 : ℚ) ^ 48 := lt_of_le_of_ne hz2 hne
  have hpos : 0 < z := lt_of_lt_of_le (by norm_num) hz1
  have hfit : Fits 53 z := by
    obtain ⟨n, A, h1, h2, -⟩ := ieee_int hz
    exact ⟨n, A, h1, h2⟩
  have := fits_unit hfit (u := 2 ^ 53 - 1) (Y := -5) (by norm_num)
    (by rw [abs_of_pos hpos]; norm_num at hz1 ⊢; linarith) (by rw [abs_of_pos hpos]; norm_num at hlt ⊢; linarith)
  rw [abs_of_pos hpos] at this
  rw [this] at hz1
  norm_num at hz1

/-- **C116** does not hold beyond: with the default rounding of doubles, the greatest posit of the test's format minus `2^-14` is
the greatest posit in `PositF`, as it should be in a nearest rounding, and the posit below in `Posit`, which rounds toward zero. -/
theorem C116_add_wrong (ho : AddsNearest o) : itestCfg.fmt.val 127 = 2 ^ 48 ∧ itestCfg.fmt.val (-20) = -(1 / 2 ^ 14) ∧
    PositF.add itestCfg .double o 127 (-20) = .ok 127 ∧ Posit.add itestCfg 127 (-20) = .ok 126 := by
  have hfor := floatFor_itest
  have v1 : itestCfg.fmt.val 127 = 2 ^ 48 := by decide +kernel
  have v2 : itestCfg.fmt.val (-20) = -(1 / 2 ^ 14) := by decide +kernel
  refine ⟨v1, v2, ?_, by decide +kernel⟩
  have r1 : itestCfg.fmt.IsReal 127 := by decide
  have r2 : itestCfg.fmt.IsReal (-20) := by decide
  obtain ⟨x, hx, hxv⟩ := hfor.toFloat r1
  obtain ⟨y, hy, hyv⟩ := hfor.toFloat r2
  rw [v1] at hxv
  rw [v2] at hyv
  obtain ⟨-, -, -, hn⟩ := ho hxv hyv
  obtain ⟨z, hz, hnear⟩ := hn (lt_of_lt_of_le (by norm_num [abs_lt]) overflowAt_ge)
  have hd := (hnear x _ hxv).1
  have e1 : |(2 : ℚ) ^ 48 + -(1 / 2 ^ 14) - 2 ^ 48| = 1 / 2 ^ 14 := by norm_num [abs_of_neg]
  rw [e1] at hd
  have hd' := abs_le.mp hd
  have hz48 : z = 2 ^ 48 := near_2pow48 hz (by have := hd'.2; norm_num at this ⊢; linarith)
    (by have := hd'.1; norm_num at this ⊢; linarith)
  rw [hz48] at hz
  have hlow : (2 : ℚ) ^ ((2 : ℤ) - 2 ^ (FTrait.double.eb - 1)) ≤ |itestCfg.fmt.val 127| := by
    rw [v1, abs_of_pos (by positivity)]
    calc (2 : ℚ) ^ ((2 : ℤ) - 2 ^ (FTrait.double.eb - 1)) ≤ 2 ^ (48 : ℤ) :=
          zpow_le_zpow_right₀ (by norm_num) (by norm_num [FTrait.double])
      _ = _ := by norm_num
  rw [← v1] at hz hxv
  obtain ⟨v, hv, -, -, ht⟩ := hfor.ofFloat ⟨_, hz, fun _ _ _ => ⟨id, id⟩⟩ hlow
  have h127 := (ht ⟨x, hxv⟩).unique (isTrunc_self r1 (by norm_num))
  rw [positF_add (by norm_num) (by norm_num) hx hy, hv, h127]

/-- such additions exist -/
example : ∃ o : FloatOps, AddsNearest o := by
  obtain ⟨o, -⟩ := floatOps_exists (eb := 11) (fb := 52) (by decide) (by decide)
  have h : ∀ a b : ℕ, ∃ r, ∀ x y, ieee 11 52 a = .num x → ieee 11 52 b = .num y → IsNearestEven 11 52 (x + y) r := by
    intro a b
    cases ha : ieee 11 52 a with
    | num x =>
      cases hb : ieee 11 52 b with
      | num y =>
        obtain ⟨r, hr, -⟩ := NearGen.exists_nearest (eb := 11) (fb := 52) (by decide) (by decide) (x + y)
          (s := if x + y < 0 then 1 else 0) (by split <;> omega) (fun _ => by split <;> simp_all)
        exact ⟨r, fun x' y' h1 h2 => by cases h1; cases h2; exact hr⟩
      | _ => exact ⟨0, fun _ _ _ h => by cases h⟩
    | _ => exact ⟨0, fun _ _ h => by cases h⟩
  choose f hf using h
  exact ⟨{ o with add := f }, fun h1 h2 => hf _ _ _ _ h1 h2⟩

/-- **C116** does not hold for a NaN on the right: `PositF` gives NaN, `Posit` the left operand. -/
theorem C116_nan_wrong (h : FloatFor c t) (ho : o.Correct t.eb t.fb) (hs : c.spec = .withNan) {a : ℤ} (ha : c.fmt.IsReal a)
    (ha0 : a ≠ 0) : Posit.isNaN c c.nan = true ∧ PositF.add c t o a c.nan = .ok c.nan ∧ Posit.add c a c.nan = .ok a := by
  have hsp : c.spec ≠ .withInf := by rw [hs]; decide
  have hn : c.topPat = c.nan := by rw [h.wf.nan_eq]; rfl
  have hnn : Posit.isNaN c c.nan = true := by
    unfold Posit.isNaN
    simp [hs]
  have hcan : c.fmt.IsCanonical c.nan := by
    rw [h.wf.nan_eq]
    unfold Format.IsCanonical
    have : (0 : ℤ) < 2 ^ (c.fmt.N - 1) := by positivity
    exact ⟨le_rfl, by show -(2 : ℤ) ^ (c.N - 1) < 2 ^ (c.fmt.N - 1); linarith [show (2 : ℤ) ^ (c.N - 1) = 2 ^ (c.fmt.N - 1) from rfl]⟩
  refine ⟨hnn, (C54_nan_partial h ho (Or.inl (by rw [hs]; decide)) ha.canonical hcan (Or.inr hnn)).1, ?_⟩
  rw [← hn]
  exact (C14_nan_right h.wf h.hF hsp ha ha0 (safeMag_of_narrow h.wf h.narrow _)).1

example (ho : o.Correct 11 52) : PositF.add itestCfg .double o 50 (-128) = .ok (-128) ∧ Posit.add itestCfg 50 (-128) = .ok 50 :=
  (C116_nan_wrong (a := 50) floatFor_itest ho rfl (by decide) (by decide)).2

/-! ## C117 -/

variable {eb fb : ℕ}

/-- a NaN becomes the quiet NaN of the native type -/
theorem toNative_nan (h : EmuFor eb fb 11 52) {v : ℕ} (hx : ieee eb fb v = .nan) :
    AnyFloat.toNative (.any eb fb) (.any 11 52) v = .ok (FTrait.any 11 52).nan := by
  obtain ⟨h1, h2, h3, h4, h5, h6, h7⟩ := h
  rw [ieee_eq] at hx
  split_ifs at hx with hx1 hx2
  obtain ⟨e, hu⟩ := unpackFloat_special (F := eb + fb + 1) (E := 32) (dn := true) h1 h4 (by omega) (by omega) hx1
  have hz : fracOf (eb + fb + 1) fb (2 ^ fb + fMan fb v) ≠ 0 := by
    unfold fracOf
    rw [if_pos (by omega), Nat.add_sub_cancel_left]; exact Nat.mul_ne_zero hx2 (by positivity)
  unfold AnyFloat.toNative convVia
  rw [show (FTrait.any eb fb).dataBits = eb + fb + 1 from rfl, hu, if_neg hz]
  rfl

theorem double_any : FTrait.double = .any 11 52 := by decide +kernel

theorem itestPass_gen {v d x dd : ℕ} {t n : FTrait} (h1 : AnyFloat.toNative t n v = .ok d)
    (h2 : AnyFloat.ofNative t n d = .ok x) (h3 : AnyFloat.toNative t n x = .ok dd)
    (hn : FTrait.double = n) :
    AnyFloat.itestPass t v = .ok (!AnyFloat.natEq n d dd) := by
  unfold AnyFloat.itestPass
  rw [hn, h1]
  show (do
    let x ← AnyFloat.ofNative t n d
    let dd ← AnyFloat.toNative t n x
    return !AnyFloat.natEq n d dd) = _
  rw [h2]
  show (do
    let dd ← AnyFloat.toNative t n x
    return !AnyFloat.natEq n d dd) = _
  rw [h3]
  rfl

theorem itestPass_run {v d x dd : ℕ} {t : FTrait} (h1 : AnyFloat.toNative t (.any 11 52) v = .ok d)
    (h2 : AnyFloat.ofNative t (.any 11 52) d = .ok x) (h3 : AnyFloat.toNative t (.any 11 52) x = .ok dd) :
    AnyFloat.itestPass t v = .ok (!AnyFloat.xEq (ieee 11 52 d) (ieee 11 52 dd)) :=
  itestPass_gen h1 h2 h3 double_any

/-- a value that a conversion from `double` to a format with `eb` exponent bits does not keep although it is one of the format and was
read as that double: NaN (which is not equal to itself) and the subnormal numbers, unless they are subnormal doubles (which are read
as zero) -/
def Loses (eb : ℕ) : XNum → Prop
  | .num x => minNorm 11 ≤ |x| ∧ |x| < minNorm eb
  | .inf _ => False
  | .nan => True

/-- **C117**: a pass of the loop prints an arrow exactly for NaN and for subnormal numbers. -/
theorem C117_pass (h : EmuFor eb fb 11 52) (v : ℕ) :
    ∃ b, AnyFloat.itestPass (.any eb fb) v = .ok b ∧ (b = true ↔ Loses eb (ieee eb fb v)) := by
  have h00 : ieee eb fb 0 = .num 0 := (ieee_zero (eb := eb) (fb := fb)).resolve_right (by have := h.heb; omega)
  have d00 : ieee 11 52 0 = .num 0 := by norm_num [ieee]
  obtain ⟨d, hd, -, hdv, hd0⟩ := C99_toNative h v
  cases hv : ieee eb fb v with
  | nan =>
    rw [hv] at hdv
    have hdn : d = (FTrait.any 11 52).nan := Except.ok.inj (hd.symm.trans (toNative_nan h hv))
    obtain ⟨x, hx, -, hxv⟩ := C57_ofNative_nan h hdv (by rw [hdn]; decide)
    obtain ⟨dd, hdd, -⟩ := C99_toNative h x
    refine ⟨_, itestPass_run hd hx hdd, ?_⟩
    rw [show ieee 11 52 d = .nan from hdv]
    simp [AnyFloat.xEq, Loses]
  | inf s =>
    rw [hv] at hdv
    obtain ⟨x, hx, -, hxv⟩ := C57_ofNative_inf h (s := s) hdv
    obtain ⟨dd, hdd, -, hddv, -⟩ := C99_toNative h x
    rw [hxv] at hddv
    refine ⟨_, itestPass_run hd hx hdd, ?_⟩
    rw [show ieee 11 52 d = .inf s from hdv, show ieee 11 52 dd = .inf s from hddv]
    simp [AnyFloat.xEq, Loses]
  | num z =>
    rw [hv] at hdv
    by_cases hz : |z| < minNorm 11
    · -- read as zero
      have hdv' : ieee 11 52 d = .num 0 := by rw [hdv]; unfold XNum.flush; simp only [if_pos hz]
      obtain rfl := hd0 hdv'
      obtain ⟨x, hx, -, -, hx0⟩ := C57_ofNative h d00
      obtain rfl := hx0 (by rw [abs_zero]; exact minNorm_pos)
      obtain ⟨dd, hdd, -, hddv, hdd0⟩ := C99_toNative h 0
      obtain rfl := hdd0 (by rw [hddv, h00]; unfold XNum.flush; simp)
      refine ⟨_, itestPass_run hd hx hdd, ?_⟩
      rw [d00]
      simp only [AnyFloat.xEq, Loses]
      simp [not_le.mpr hz]
    have hz' := not_lt.mp hz
    have hdv' : ieee 11 52 d = .num z := by rw [hdv]; unfold XNum.flush; simp only [if_neg hz]
    obtain ⟨x, hx, -, hxc, hx0⟩ := C57_ofNative h hdv'
    obtain ⟨dd, hdd, -, hddv, -⟩ := C99_toNative h x
    refine ⟨_, itestPass_run hd hx hdd, ?_⟩
    have hzne : z ≠ 0 := by rintro rfl; rw [abs_zero] at hz; exact hz minNorm_pos
    rw [hdv', hddv]
    by_cases hs : |z| < minNorm eb
    · obtain rfl := hx0 hs
      rw [h00]
      unfold XNum.flush
      simp [AnyFloat.xEq, Loses, hzne, hz', hs]
    · have hxz := hxc.exact hv (Or.inr (not_lt.mp hs))
      rw [hxz]
      unfold XNum.flush
      simp [AnyFloat.xEq, Loses, hs, if_neg hz]

example : EmuFor 5 10 11 52 ∧ AnyFloat.itestPass (.any 5 10) 0x3ff = .ok true ∧ AnyFloat.itestPass (.any 5 10) 0x400 = .ok false := by
  refine ⟨⟨by decide, by decide, by decide, by decide, by decide, by decide, by decide⟩, by decide +kernel, by decide +kernel⟩

/-- **C117**: so the loop of the test over a type of one byte marks exactly the NaNs and the subnormal numbers. -/
theorem C117_itest (h : EmuFor eb fb 11 52) :
    ∃ l, AnyFloat.itest (.any eb fb) = .ok l ∧ ∀ i, i ∈ l ↔ i < 256 ∧ Loses eb (ieee eb fb i) := by
  choose q hq1 hq2 using C117_pass h
  refine ⟨(List.range 256).filter q, filterM_ok fun i _ => hq1 i, fun i => ?_⟩
  simp only [List.mem_filter, List.mem_range, hq2]

example : EmuFor 4 3 11 52 ∧ Loses 4 (ieee 4 3 7) ∧ ¬ Loses 4 (ieee 4 3 8) := by
  refine ⟨⟨by decide, by decide, by decide, by decide, by decide, by decide, by decide⟩, ?_, ?_⟩
  · rw [show ieee 4 3 7 = .num (7 / 512) by norm_num [ieee]]
    unfold Loses
    norm_num [minNorm]
    exact (zpow_le_zpow_right₀ (by norm_num) (by norm_num : (-1022 : ℤ) ≤ -7)).trans (by norm_num)
  · rw [show ieee 4 3 8 = .num (1 / 64) by norm_num [ieee]]
    unfold Loses
    norm_num [minNorm]

/-- **C117** on `binary8_emu`, the default of the test -/
theorem C117_binary8 : AnyFloat.itest (.any 5 2) = .ok [1, 2, 3, 125, 126, 127, 129, 130, 131, 253, 254, 255] := by decide +kernel

/-- **C117**: `rawexp` is the exponent field for formats with five exponent bits, -/
theorem C117_rawexp (fb i : ℕ) : AnyFloat.rawexp (.any 5 fb) i = fExp 5 fb i := by
  unfold AnyFloat.rawexp fExp
  rw [show (0x1F : ℕ) = 2 ^ 5 - 1 by norm_num, Nat.and_two_pow_sub_one_eq_mod, Nat.shiftRight_eq_div_pow]
  rfl

example : AnyFloat.rawexp (.any 5 2) 0xBC = 15 := by decide +kernel

/-- … and not for others: with four exponent bits the sign bit is read with them, with six the highest one is missing. -/
theorem C117_rawexp_wrong : AnyFloat.rawexp (.any 4 3) 0xB8 = 23 ∧ fExp 4 3 0xB8 = 7 ∧
    AnyFloat.rawexp (.any 6 1) 0x40 = 0 ∧ fExp 6 1 0x40 = 32 := by decide +kernel

/-! ## C118 -/

/-- the first `n` bits of the `w`-bit word `x`, from the top, are equal, and the next one, if there is one, is different -/
def LeadRun (w x n : ℕ) : Prop :=
  1 ≤ n ∧ n ≤ w ∧ (∀ i, i < n → x.testBit (w - 1 - i) = x.testBit (w - 1)) ∧
    (n < w → x.testBit (w - 1 - n) ≠ x.testBit (w - 1))

theorem LeadRun.unique {w x n m : ℕ} (hn : LeadRun w x n) (hm : LeadRun w x m) : n = m := by
  rcases Nat.lt_trichotomy n m with h | h | h
  · exact absurd (hm.2.2.1 n h) (hn.2.2.2 (by have := hm.2.1; omega))
  · exact h
  · exact absurd (hn.2.2.1 m h) (hm.2.2.2 (by have := hn.2.1; omega))

theorem and_msb (x : ℕ) : decide ((x &&& 2 ^ 31) ≠ 0) = x.testBit 31 := by
  rw [Nat.and_two_pow]
  cases x.testBit 31 <;> simp

theorem testBit_compl {x : ℕ} (hx : x < 2 ^ 32) (i : ℕ) : (2 ^ 32 - 1 - x).testBit i = (decide (i < 32) && !x.testBit i) := by
  rw [show 2 ^ 32 - 1 - x = 2 ^ 32 - (x + 1) by omega]
  exact Nat.testBit_two_pow_sub_succ hx i

/-- the word given to `findbitleftmostC`: it is below `2^32`, its top bit is clear and it differs from `x` in all bits or in none -/
theorem flipped {x : ℕ} (hx : x < 2 ^ 32) :
    (if x.testBit 31 then 2 ^ 32 - 1 - x else x) < 2 ^ 32 ∧
    ∀ i, i < 32 → (if x.testBit 31 then 2 ^ 32 - 1 - x else x).testBit i = (x.testBit i ^^ x.testBit 31) := by
  cases h : x.testBit 31
  · simpa using hx
  · refine ⟨by simp; omega, fun i hi => ?_⟩
    rw [if_pos rfl, testBit_compl hx]
    simp [hi]

theorem leadRun_of_lz {x y n : ℕ} (hn : IsLeadingZeros 32 y n)
    (hb : ∀ i, i < 32 → y.testBit i = (x.testBit i ^^ x.testBit 31)) : LeadRun 32 x n := by
  obtain ⟨h1, h2, h3⟩ := hn
  refine ⟨?_, h1.le, fun i hi => ?_, fun _ => ?_⟩
  · rcases Nat.eq_zero_or_pos n with rfl | h
    · rw [hb 31 (by omega)] at h2; simp at h2
    · exact h
  · have h := h3 (32 - 1 - i) (by omega)
    rw [hb _ (by omega)] at h
    simpa using h
  · rw [hb _ (by omega)] at h2
    simpa using h2

/-- **C118**: `extract` returns the regime of the run of equal bits at the top of the word, and its length with the stop bit. -/
theorem C118_extract {x : ℕ} (hx : x < 2 ^ 32) :
    ∃ n : ℕ, LeadRun 32 x n ∧
      TestRegime.extract x = .ok (if x.testBit 31 then (n : ℤ) - 1 else -n, min (n + 1) 32) := by
  obtain ⟨hy, hb⟩ := flipped hx
  unfold TestRegime.extract
  simp only [and_msb]
  generalize (if x.testBit 31 then 2 ^ 32 - 1 - x else x) = y at hy hb
  by_cases hy0 : y = 0
  · subst hy0
    refine ⟨32, ⟨by omega, le_rfl, fun i hi => ?_, fun h => absurd h (by omega)⟩, ?_⟩
    · have := hb (32 - 1 - i) (by omega)
      rw [Nat.zero_testBit] at this
      simpa using this.symm
    · simp [TestRegime.runIndex, TestRegime.positSize, bind, Except.bind, pure, Except.pure]
  · obtain ⟨n, hn, hl⟩ := (C34_findbitleftmost hy0).2.2.1 hy
    refine ⟨n, leadRun_of_lz hl hb, ?_⟩
    have := hl.1
    unfold TestRegime.runIndex TestRegime.positSize
    rw [if_neg hy0, hn]
    simp only [bind, Except.bind, pure, Except.pure]
    rw [if_neg (show ¬ ((n : ℤ) > 32) by omega), if_neg (show ¬ ((n : ℤ) = 32) by omega), min_eq_left (by omega)]

/-- the pattern of the test: three ones and the zero that ends them -/
example : LeadRun 32 0xe0000000 3 ∧ TestRegime.extract 0xe0000000 = .ok (2, 4) := by
  refine ⟨?_, by decide +kernel⟩
  unfold LeadRun
  refine ⟨by omega, by omega, ?_, by decide⟩
  intro i hi
  interval_cases i <;> decide

/-- **C118**: on every 32-bit pattern that has a stop bit it agrees with `decode_posit_rs` of the posits of 32 bits of holder, except
that the latter limits the length to that of the regime field, -/
theorem C118_decodeRs (hH : c.H = 32) {x : ℕ} (h0 : x ≠ 0) (h1 : x < 2 ^ 32 - 1) :
    ∃ reg rs, TestRegime.extract x = .ok (reg, rs) ∧ 1 < rs ∧ rs ≤ 32 ∧
      Posit.decodeRs c x = .ok (reg, min rs c.maxRegimeBits) := by
  have hx : x < 2 ^ 32 := by omega
  obtain ⟨hy, hb⟩ := flipped hx
  unfold TestRegime.extract Posit.decodeRs Cfg.holderMsb
  rw [hH]
  simp only [Nat.add_one_sub_one, show (32 : ℕ) - 1 = 31 from rfl, and_msb]
  have hy0 : (if x.testBit 31 then 2 ^ 32 - 1 - x else x) ≠ 0 := by split_ifs <;> omega
  generalize (if x.testBit 31 then 2 ^ 32 - 1 - x else x) = y at hy hb hy0
  obtain ⟨n, hn, hl⟩ := (C34_findbitleftmost hy0).2.2.1 hy
  have hf := (C34_model y).2.2.1 hy
  have hr := leadRun_of_lz hl hb
  rw [hn] at hf
  have hf' : Unp.findLeft 32 y = .ok n := by
    cases h : Unp.findLeft 32 y with
    | error e => rw [h] at hf; cases hf
    | ok m =>
      rw [h] at hf
      have := Except.ok.inj hf
      rw [Int.ofNat_inj.mp this]
  have := hl.1
  have := hr.1
  unfold TestRegime.runIndex TestRegime.positSize Posit.runIndex
  rw [if_neg hy0, if_neg hy0, hn, hH, hf']
  refine ⟨if x.testBit 31 then (n : ℤ) - 1 else -n, n + 1, ?_, by omega, by omega, ?_⟩
  · simp only [bind, Except.bind, pure, Except.pure]
    rw [if_neg (show ¬ ((n : ℤ) > 32) by omega), if_neg (show ¬ ((n : ℤ) = 32) by omega)]
  · simp only [bind, Except.bind, pure, Except.pure]
    congr 2
    split_ifs <;> omega

example : Posit.decodeRs ⟨32, 16, 2, 64, .withNan⟩ 0x00010000 = .ok (-15, 15) ∧ TestRegime.extract 0x00010000 = .ok (-15, 16) := by
  decide +kernel

/-- … but not on the two patterns without one: there the regime differs as well. -/
theorem C118_noStop (hH : c.H = 32) :
    TestRegime.extract 0 = .ok (-32, 32) ∧ Posit.decodeRs c 0 = .ok (-c.maxRegimeBits, c.maxRegimeBits) ∧
    TestRegime.extract (2 ^ 32 - 1) = .ok (31, 32) ∧
    Posit.decodeRs c (2 ^ 32 - 1) = .ok ((c.maxRegimeBits : ℤ) - 1, c.maxRegimeBits) := by
  have h1 : (2 ^ 32 - 1 : ℕ).testBit 31 = true := by decide
  refine ⟨by decide +kernel, ?_, by decide +kernel, ?_⟩
  · unfold Posit.decodeRs Cfg.holderMsb Posit.runIndex
    rw [hH]
    simp [bind, Except.bind, pure, Except.pure]
  · unfold Posit.decodeRs Cfg.holderMsb Posit.runIndex
    rw [hH]
    simp only [show (32 : ℕ) - 1 = 31 from rfl, and_msb, h1]
    simp [bind, Except.bind, pure, Except.pure]

/-- **C118**: the field extracted with the BMI instruction, bit by bit, for offsets and sizes that fit in a byte: bits beyond the
word are zero. -/
theorem C118_gethw {w x o s : ℕ} (hw : w = 8 ∨ w = 16 ∨ w = 32 ∨ w = 64) (hx : x < 2 ^ w) (ho : o < 256) (hs : s < 256) (i : ℕ) :
    (Bits.bitsetGethw w x o s).testBit i = (decide (i < s) && x.testBit (o + i)) := by
  have hb : ∀ j, w ≤ j → x.testBit j = false := fun j hj =>
    Nat.testBit_lt_two_pow (hx.trans_le (Nat.pow_le_pow_right (by norm_num) hj))
  have hW : x % 2 ^ (if w = 64 then 64 else 32) = x := by
    apply Nat.mod_eq_of_lt
    refine hx.trans_le (Nat.pow_le_pow_right (by norm_num) ?_)
    split_ifs <;> omega
  have e : ∀ k : ℕ, k < 256 → wrapU 32 (k : ℤ) % 256 = k := by
    intro k hk
    unfold wrapU
    omega
  unfold Bits.bitsetGethw Bits.bextr
  rw [hW, e o ho, e s hs, Nat.testBit_mod_two_pow, Nat.testBit_mod_two_pow, Nat.testBit_shiftRight]
  by_cases hi : i < w
  · simp [hi]
  · rw [hb (o + i) (by omega)]; simp

example : Bits.bitsetGethw 16 0xABCD 12 8 = 0xA ∧ Bits.bitsetGethw 16 0xABCD 4 0 = 0 := by decide +kernel

/-- **C118**: so wherever `bitset_get` of a field inside the word is defined, the hardware version returns the same, -/
theorem C118_gethw_get {w x o s : ℕ} (hw : w = 8 ∨ w = 16 ∨ w = 32 ∨ w = 64) (hx : x < 2 ^ w) (hs : 1 ≤ s) (hos : o + s ≤ w) :
    Posit.bitsetGet w x o s = .ok (Bits.bitsetGethw w x o s) := by
  obtain ⟨r, hr, hr1, hr2⟩ := C35_get (x := x) hs hos
  rw [hr]
  congr 1
  apply Nat.eq_of_testBit_eq
  intro i
  rw [C118_gethw hw hx (by omega) (by omega)]
  by_cases hi : i < s
  · rw [hr2 i hi]; simp [hi]
  · rw [Nat.testBit_lt_two_pow (hr1.trans_le (Nat.pow_le_pow_right (by norm_num) (not_lt.mp hi)))]; simp [hi]

example : Posit.bitsetGet 32 0x0A 2 3 = .ok 2 ∧ Bits.bitsetGethw 32 0x0A 2 3 = 2 := by decide +kernel

/-- … and an empty field, undefined with `bitset_get` for 32 and 64 bits (C35), is zero. -/
theorem C118_gethw_empty {w x o : ℕ} (hw : w = 32 ∨ w = 64) (ho : o < w) :
    Bits.bitsetGethw w x o 0 = 0 ∧ Posit.bitsetGet w x o 0 = .error .shiftAmount := by
  refine ⟨?_, (C35_empty_ub (by omega) ho).1⟩
  unfold Bits.bitsetGethw Bits.bextr wrapU
  simp [Nat.mod_one]

example : Bits.bitsetGethw 64 0x0A 2 0 = 0 := by decide +kernel

/-- **C118**: an offset beyond a byte is reduced: at 256 the field at 0 is read. -/
theorem C118_gethw_wraps : Bits.bitsetGethw 32 0xABCD 256 8 = 0xCD ∧ Posit.bitsetGet 32 0xABCD 256 8 = .error .shiftAmount := by
  decide +kernel

end Verif
