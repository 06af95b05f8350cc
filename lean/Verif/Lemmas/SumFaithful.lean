import Verif.Props.Sterbenz

/-! # A cut sum rounded toward zero is a faithful rounding of the exact sum -/

namespace Verif
open Fmt

variable {c : Cfg}

/-- `x` has at most `K + 1` significant bits -/
def OnGrid (K : ℕ) (x : ℚ) : Prop := ∃ n : ℕ, |x| = n * 2 ^ (Int.log 2 |x| - K : ℤ)

theorem OnGrid.mono {K K' : ℕ} {x : ℚ} (h : OnGrid K x) (hK : K ≤ K') : OnGrid K' x := by
  obtain ⟨n, hn⟩ := h
  obtain ⟨m, hm⟩ := multiple_of_le hn (show Int.log 2 |x| - (K' : ℤ) ≤ Int.log 2 |x| - K by omega)
  exact ⟨m, hm⟩

theorem OnGrid.neg {K : ℕ} {x : ℚ} (h : OnGrid K x) : OnGrid K (-x) := by
  unfold OnGrid; rw [abs_neg]; exact h

theorem OnGrid.mul {K : ℕ} {x y : ℚ} (hx : OnGrid K x) (hy : OnGrid K y) (hx0 : x ≠ 0) (hy0 : y ≠ 0) : OnGrid (2 * K + 1) (x * y) := by
  obtain ⟨n, hn⟩ := hx
  obtain ⟨m, hm⟩ := hy
  have h1 := lt_log hx0 le_rfl
  have h2 := lt_log hy0 le_rfl
  have hlt : |x * y| < 2 ^ (Int.log 2 |x| + 1 + (Int.log 2 |y| + 1)) := by
    rw [abs_mul, zpow_add₀ (by norm_num)]
    exact mul_lt_mul'' h1 h2 (abs_nonneg _) (abs_nonneg _)
  have hl := (Int.lt_zpow_iff_log_lt (b := 2) (by norm_num) (abs_pos.mpr (mul_ne_zero hx0 hy0))).mp (by exact_mod_cast hlt)
  have he : |x * y| = ((n * m : ℕ) : ℚ) * 2 ^ (Int.log 2 |x| - K + (Int.log 2 |y| - K) : ℤ) := by
    rw [abs_mul, zpow_add₀ (by norm_num)]
    nth_rewrite 1 [hn, hm]
    push_cast; ring
  exact multiple_of_le he (by push_cast; omega)

/-- two multiples of a unit are at least a unit apart -/
theorem units_apart {u a b : ℚ} {n m : ℕ} (hu : 0 < u) (ha : a = n * u) (hb : b = m * u) (h : a < b) : a + u ≤ b := by
  rw [ha, hb] at *
  have h1 : (n : ℚ) < m := lt_of_mul_lt_mul_right h hu.le
  have h2 : n + 1 ≤ m := by exact_mod_cast h1
  have h3 : (n : ℚ) + 1 ≤ m := by exact_mod_cast h2
  nlinarith

theorem real_multiple (h : c.WF) {w : ℤ} (hw : c.fmt.IsReal w) (hw0 : w ≠ 0) {j X : ℤ} (hj : (2 : ℚ) ^ j ≤ |c.fmt.val w|)
    (hX : X ≤ j - c.fb) : ∃ n : ℕ, |c.fmt.val w| = n * 2 ^ X := by
  obtain ⟨n, hn⟩ := val_grid h hw hw0
  have hne : c.fmt.val w ≠ 0 := fun hh => hw0 ((Format.val_eq_zero_iff hw.inRange).mp hh)
  have hl := (Int.zpow_le_iff_le_log (b := 2) (by norm_num) (abs_pos.mpr hne)).mp (by exact_mod_cast hj)
  exact multiple_of_le hn (by omega)

theorem cut_faithful_pos (h : c.WF) {F K : ℕ} (hK : c.fb ≤ K) (hF : K + 3 ≤ F) {x y : ℚ} (hx : 0 < x) (hy0 : y ≠ 0)
    (hxg : OnGrid K x) (hyg : OnGrid K y) (hle : |y| ≤ x) {v : ℤ} (hv : c.fmt.IsCut0 (cutSum F x y) v) :
    c.fmt.IsFaithful (x + y) v ∧ (v = 0 ↔ x + y = 0) ∧ (0 < y → c.fmt.IsTrunc (x + y) v) := by
  have hax : |x| = x := abs_of_pos hx
  have hlog : Int.log 2 |y| ≤ Int.log 2 |x| := Int.log_mono_right (abs_pos.mpr hy0) (by rw [hax]; exact hle)
  set e := Int.log 2 |x| with he
  have hu : sumUnit F x y = 2 ^ (e + 2 - F : ℤ) := by unfold sumUnit; rw [max_eq_left hlog]
  have hup : (0 : ℚ) < 2 ^ (e + 2 - F : ℤ) := by positivity
  obtain ⟨n, hn⟩ := hxg
  obtain ⟨n', hn'⟩ := multiple_of_le hn (show e + 2 - (F : ℤ) ≤ e - K by omega)
  have hs : cutSum F x y = x + cutTo (2 ^ (e + 2 - F : ℤ)) y := by unfold cutSum; rw [hu, cutTo_multiple hup hn']
  rw [hs] at hv
  rw [hax] at hn'
  have h2e : (2 : ℚ) ^ e ≤ x := by rw [← hax]; exact log_le hx.ne' le_rfl
  by_cases hex : cutTo (2 ^ (e + 2 - F : ℤ)) y = y
  · rw [hex] at hv
    rcases hv with ⟨h0, rfl⟩ | hv
    · refine ⟨?_, by simp [h0], fun hy => by linarith⟩
      rw [h0, ← Format.val_zero (f := c.fmt)]
      exact Format.isFaithful_val (by unfold Format.IsReal; omega)
    · refine ⟨hv.faithful, ?_, fun _ => hv⟩
      rcases hv.sign with ⟨h1, h2⟩ | ⟨h1, h2⟩
      · exact ⟨fun h0 => by omega, fun h0 => by linarith⟩
      · exact ⟨fun h0 => by omega, fun h0 => by linarith⟩
  -- a cut operand is less than half as great
  obtain ⟨m, hm⟩ := hyg
  have hsmall : Int.log 2 |y| ≤ e - 2 := by
    by_contra hc
    obtain ⟨m', hm'⟩ := multiple_of_le hm (show e + 2 - (F : ℤ) ≤ Int.log 2 |y| - K by omega)
    exact hex (cutTo_multiple hup hm')
  have hylt : |y| < 2 ^ (e - 1) := by
    have := lt_log hy0 hsmall
    rwa [show e - 2 + 1 = e - 1 by ring] at this
  have hee : (2 : ℚ) ^ e = 2 * 2 ^ (e - 1) := by
    rw [← zpow_one_add₀ (by norm_num)]; congr 1; ring
  have hep : (0 : ℚ) < 2 ^ (e - 1) := by positivity
  set U : ℚ := 2 ^ (e + 2 - F : ℤ) with hU
  rcases lt_or_gt_of_ne hy0 with hy | hy
  · -- opposite signs
    have hay : |y| = -y := abs_of_neg hy
    set k := ⌊-y / U⌋₊ with hk
    have hc : cutTo U y = -(k * U) := by
      have h1 := cutTo_neg U (-y)
      rw [neg_neg] at h1
      rw [h1, cutTo_nonneg_eq (by linarith)]
    have hk1 : k * U ≤ -y := by
      have := Nat.floor_le (a := -y / U) (div_nonneg (by linarith) hup.le)
      rwa [le_div_iff₀ hup] at this
    have hk2 : -y < (k + 1) * U := by
      have := Nat.lt_floor_add_one (-y / U)
      rwa [div_lt_iff₀ hup] at this
    rw [hc] at hv
    have hS : 0 < x + y := by linarith
    have hS' : x + y ≤ x + -(k * U) := by linarith
    have hkn : k ≤ n' := by
      have h1 : (k : ℚ) * U < n' * U := by linarith
      exact_mod_cast (lt_of_mul_lt_mul_right h1 hup.le).le
    have hSm : x + -(k * U) = ((n' - k : ℕ) : ℚ) * U := by
      rw [Nat.cast_sub hkn, hn']; ring
    rcases hv with ⟨h0, rfl⟩ | hv
    · linarith
    have hvs : 0 < v := by
      rcases hv.sign with ⟨h1, -⟩ | ⟨-, h2⟩
      · exact h1
      · linarith
    have hvp := (Format.val_pos_iff hv.real.inRange).mpr hvs
    refine ⟨⟨hv.real, fun w hw hlt => lt_of_le_of_lt hS' (hv.faithful.above w hw hlt), fun w hw hlt => ?_⟩,
      ⟨fun h0 => by omega, fun h0 => by linarith⟩, fun hy' => by linarith⟩
    have hb := hv.faithful.below w hw hlt
    by_cases hbig : (2 : ℚ) ^ (e - 1) ≤ c.fmt.val w
    · have hw0 : w ≠ 0 := by
        rintro rfl
        rw [Format.val_zero] at hbig; linarith
      obtain ⟨q, hq⟩ := real_multiple h hw hw0 (j := e - 1) (X := e + 2 - F) (by rw [abs_of_pos (by linarith)]; exact hbig) (by omega)
      rw [abs_of_pos (by linarith)] at hq
      have := units_apart hup hq hSm hb
      linarith
    · linarith
  · -- the same sign
    set k := ⌊y / U⌋₊ with hk
    have hc : cutTo U y = k * U := cutTo_nonneg_eq hy.le
    have hk1 : k * U ≤ y := by
      have := Nat.floor_le (a := y / U) (div_nonneg hy.le hup.le)
      rwa [le_div_iff₀ hup] at this
    have hk2 : y < (k + 1) * U := by
      have := Nat.lt_floor_add_one (y / U)
      rwa [div_lt_iff₀ hup] at this
    rw [hc] at hv
    have hkU : 0 ≤ (k : ℚ) * U := by positivity
    have hSm : x + k * U = ((n' + k : ℕ) : ℚ) * U := by push_cast; rw [add_mul, ← hn']
    rcases hv with ⟨h0, rfl⟩ | hv
    · linarith
    have hvs : 0 < v := by
      rcases hv.sign with ⟨h1, -⟩ | ⟨-, h2⟩
      · exact h1
      · linarith
    have ht : c.fmt.IsTrunc (x + y) v := by
      refine ⟨hv.real, Or.inl ⟨hvs, by linarith⟩, fun w hw hw0 hle' => ?_, ?_⟩
      · refine hv.greatest w hw hw0 ?_
        rw [abs_of_pos (show 0 < x + y by linarith)] at hle'
        rw [abs_of_pos (show 0 < x + k * U by linarith)]
        by_contra hc'
        push Not at hc'
        obtain ⟨q, hq⟩ := real_multiple h hw hw0 (j := e - 1) (X := e + 2 - F) (by linarith) (by omega)
        have := units_apart hup hSm hq hc'
        linarith
      · rcases hv.below with hb | hb
        · left
          rw [abs_of_pos (a := x + y) (by linarith)]
          rw [abs_of_pos (a := x + k * U) (by linarith)] at hb
          linarith
        · exact Or.inr hb
    exact ⟨ht.faithful, ⟨fun h0 => by omega, fun h0 => by linarith⟩, fun _ => ht⟩

/-- rounding the aligned sum of two numbers of few bits toward zero rounds their sum faithfully -/
theorem cut_faithful (h : c.WF) {F K : ℕ} (hK : c.fb ≤ K) (hF : K + 3 ≤ F) {x y : ℚ} (hx0 : x ≠ 0) (hy0 : y ≠ 0)
    (hxg : OnGrid K x) (hyg : OnGrid K y) {v : ℤ} (hv : c.fmt.IsCut0 (cutSum F x y) v) :
    c.fmt.IsFaithful (x + y) v ∧ (v = 0 ↔ x + y = 0) ∧ (0 < x * y → c.fmt.IsTrunc (x + y) v) := by
  have key : ∀ {x y : ℚ}, x ≠ 0 → y ≠ 0 → OnGrid K x → OnGrid K y → ∀ {v : ℤ}, c.fmt.IsCut0 (cutSum F x y) v → |y| ≤ |x| →
      c.fmt.IsFaithful (x + y) v ∧ (v = 0 ↔ x + y = 0) ∧ (0 < x * y → c.fmt.IsTrunc (x + y) v) := by
    intro x y hx0 hy0 hxg hyg v hv hle
    rcases lt_or_gt_of_ne hx0 with hx | hx
    · have hv' : c.fmt.IsCut0 (cutSum F (-x) (-y)) (-v) := by
        rw [cutSum_neg]
        rcases hv with ⟨h1, h2⟩ | hv
        · exact Or.inl ⟨by rw [h1]; simp, by rw [h2]; simp⟩
        · exact Or.inr hv.neg
      obtain ⟨r1, r2, r3⟩ := cut_faithful_pos h hK hF (x := -x) (y := -y) (by linarith) (neg_ne_zero.mpr hy0) hxg.neg hyg.neg
        (by rw [abs_neg]; rwa [abs_of_neg hx] at hle) hv'
      have e : -x + -y = -(x + y) := by ring
      rw [e] at r1 r2 r3
      refine ⟨by simpa using r1.neg, ?_, fun hp => ?_⟩
      · rw [neg_eq_zero, neg_eq_zero] at r2; exact r2
      · have hy : y < 0 := by by_contra hc; nlinarith
        simpa using (r3 (by linarith)).neg
    · obtain ⟨r1, r2, r3⟩ := cut_faithful_pos h hK hF hx hy0 hxg hyg (by rwa [abs_of_pos hx] at hle) hv
      exact ⟨r1, r2, fun hp => r3 ((mul_pos_iff_of_pos_left hx).mp hp)⟩
  rcases le_total |y| |x| with hle | hle
  · exact key hx0 hy0 hxg hyg hv hle
  · rw [cutSum_comm] at hv
    have := key hy0 hx0 hyg hxg hv hle
    rwa [add_comm y x, mul_comm y x] at this

/-- with one bit less in the fraction type, numbers of the same sign: the sum of the first operand and the cut second one -/
theorem cut_trunc_pos (h : c.WF) {F K : ℕ} (hK : c.fb ≤ K) (hF : K + 2 ≤ F) {x y : ℚ} (hx : 0 < x) (hy : 0 < y)
    (hxg : OnGrid K x) (hle : y ≤ x) {v : ℤ} (hv : c.fmt.IsCut0 (cutSum F x y) v) : c.fmt.IsTrunc (x + y) v := by
  have hax : |x| = x := abs_of_pos hx
  have hay : |y| = y := abs_of_pos hy
  have hlog : Int.log 2 |y| ≤ Int.log 2 |x| := Int.log_mono_right (by rw [hay]; exact hy) (by rw [hax, hay]; exact hle)
  set e := Int.log 2 |x| with he
  have hu : sumUnit F x y = 2 ^ (e + 2 - F : ℤ) := by unfold sumUnit; rw [max_eq_left hlog]
  have hup : (0 : ℚ) < 2 ^ (e + 2 - F : ℤ) := by positivity
  obtain ⟨n, hn⟩ := hxg
  obtain ⟨n', hn'⟩ := multiple_of_le hn (show e + 2 - (F : ℤ) ≤ e - K by omega)
  have hs : cutSum F x y = x + cutTo (2 ^ (e + 2 - F : ℤ)) y := by unfold cutSum; rw [hu, cutTo_multiple hup hn']
  rw [hs] at hv
  rw [hax] at hn'
  have h2e : (2 : ℚ) ^ e ≤ x := by rw [← hax]; exact log_le hx.ne' le_rfl
  set U : ℚ := 2 ^ (e + 2 - F : ℤ) with hU
  set k := ⌊y / U⌋₊ with hk
  have hc : cutTo U y = k * U := cutTo_nonneg_eq hy.le
  have hk1 : k * U ≤ y := by
    have := Nat.floor_le (a := y / U) (div_nonneg hy.le hup.le)
    rwa [le_div_iff₀ hup] at this
  have hk2 : y < (k + 1) * U := by
    have := Nat.lt_floor_add_one (y / U)
    rwa [div_lt_iff₀ hup] at this
  rw [hc] at hv
  have hkU : 0 ≤ (k : ℚ) * U := by positivity
  have hSm : x + k * U = ((n' + k : ℕ) : ℚ) * U := by push_cast; rw [add_mul, ← hn']
  rcases hv with ⟨h0, rfl⟩ | hv
  · linarith
  have hvs : 0 < v := by
    rcases hv.sign with ⟨h1, -⟩ | ⟨-, h2⟩
    · exact h1
    · linarith
  refine ⟨hv.real, Or.inl ⟨hvs, by linarith⟩, fun w hw hw0 hle' => ?_, ?_⟩
  · refine hv.greatest w hw hw0 ?_
    rw [abs_of_pos (show 0 < x + y by linarith)] at hle'
    rw [abs_of_pos (show 0 < x + k * U by linarith)]
    by_contra hc'
    push Not at hc'
    obtain ⟨q, hq⟩ := real_multiple h hw hw0 (j := e) (X := e + 2 - F) (by linarith) (by omega)
    have := units_apart hup hSm hq hc'
    linarith
  · rcases hv.below with hb | hb
    · left
      rw [abs_of_pos (a := x + y) (by linarith)]
      rw [abs_of_pos (a := x + k * U) (by linarith)] at hb
      linarith
    · exact Or.inr hb

theorem cut_trunc (h : c.WF) {F K : ℕ} (hK : c.fb ≤ K) (hF : K + 2 ≤ F) {x y : ℚ} (hxy : 0 < x * y)
    (hxg : OnGrid K x) (hyg : OnGrid K y) {v : ℤ} (hv : c.fmt.IsCut0 (cutSum F x y) v) : c.fmt.IsTrunc (x + y) v := by
  have pos : ∀ {x y : ℚ} {v : ℤ}, 0 < x → 0 < y → OnGrid K x → OnGrid K y → c.fmt.IsCut0 (cutSum F x y) v →
      c.fmt.IsTrunc (x + y) v := by
    intro x y v hx hy hxg hyg hv
    rcases le_total y x with hle | hle
    · exact cut_trunc_pos h hK hF hx hy hxg hle hv
    · rw [cutSum_comm] at hv
      rw [add_comm]
      exact cut_trunc_pos h hK hF hy hx hyg hle hv
  rcases (mul_pos_iff.mp hxy) with ⟨hx, hy⟩ | ⟨hx, hy⟩
  · exact pos hx hy hxg hyg hv
  · have hv' : c.fmt.IsCut0 (cutSum F (-x) (-y)) (-v) := by
      rw [cutSum_neg]
      rcases hv with ⟨h1, h2⟩ | hv
      · exact Or.inl ⟨by rw [h1]; simp, by rw [h2]; simp⟩
      · exact Or.inr hv.neg
    have := (pos (x := -x) (y := -y) (by linarith) (by linarith) hxg.neg hyg.neg hv').neg
    rw [neg_neg, show -(-x + -y) = x + y by ring] at this
    exact this

end Verif
