import Verif.Lemmas.Overview
import Verif.Props.SoftFloat

/-!
# C130: what the listing tool and main.cpp print about posits
-/

namespace Verif
open Fmt ListPosits

variable {c : Cfg}

theorem pow31 (h : c.WF) (hH : c.H ≤ 32) : (2 : ℤ) ^ (c.N - 1) ≤ 2 ^ 31 :=
  pow_le_pow_right₀ (by norm_num) (by have := h.hN; omega)

theorem Lows.log {v r : ℤ} {x w : ℕ} (hl : Lows c v r x w) : Int.log 2 |c.fmt.val v| = 2 ^ c.es * r + x := by
  rw [hl.val]
  have hm0 : 0 < mag c.H (2 ^ c.es * r + x) w := mag_pos _ _ _
  have l1 : 2 ^ c.es * r + (x : ℤ) ≤ Int.log 2 (mag c.H (2 ^ c.es * r + x) w) :=
    (Int.zpow_le_iff_le_log (by norm_num) hm0).mp (by exact_mod_cast le_mag _ _ _)
  have l2 : Int.log 2 (mag c.H (2 ^ c.es * r + x) w) < 2 ^ c.es * r + (x : ℤ) + 1 :=
    (Int.lt_zpow_iff_log_lt (by norm_num) hm0).mp (by exact_mod_cast mag_lt hl.w_lt)
  omega

/-- `cells` once its four steps are known -/
theorem cells_eq {x : ℤ} {up : Unp} {l : Low} {r : ℤ} {v : ℕ} (h1 : Posit.unpack c x = .ok up) (h2 : Posit.unpackLow c x = .ok l)
    (h3 : arithS (ptBits c) ((c.regScale : ℤ) * wrapS (ptBits c) l.reg) = .ok r) (h4 : Posit.toFloat c .double x = .ok v) :
    cells c x = .ok ⟨wrapS (ptBits c) x, wrapS (ptBits c) (wrapU c.H x), wrapU c.N x, wrapS (ptBits c) l.reg, r,
      wrapS (ptBits c) up.exp, v⟩ := by
  unfold cells
  rw [h1, h2]
  simp only [bind, Except.bind]
  rw [h3, h4]
  rfl

theorem cells_parts {x : ℤ} {t : Cells} (ht : cells c x = .ok t) : Posit.toFloat c .double x = .ok t.v ∧
    t.o = wrapS (ptBits c) (wrapU c.H x) := by
  unfold cells at ht
  cases h1 : Posit.unpack c x with
  | error e => rw [h1] at ht; cases ht
  | ok u =>
    cases h2 : Posit.unpackLow c x with
    | error e => rw [h1, h2] at ht; cases ht
    | ok l =>
      rw [h1, h2] at ht
      simp only [bind, Except.bind] at ht
      cases h3 : arithS (ptBits c) ((c.regScale : ℤ) * wrapS (ptBits c) l.reg) with
      | error e => rw [h3] at ht; cases ht
      | ok r =>
        rw [h3] at ht
        cases h4 : Posit.toFloat c .double x with
        | error e => rw [h4] at ht; cases ht
        | ok v =>
          rw [h4] at ht
          obtain rfl := Except.ok.inj ht
          exact ⟨rfl, rfl⟩

/-- the fields that depend on the pattern alone -/
theorem pattern_cells (h : c.WF) {x : ℤ} (hx : c.fmt.IsCanonical x) :
    wrapS (ptBits c) x = x ∧ wrapS (ptBits c) (wrapU c.H x) = (if c.H = 8 then x % 2 ^ 8 else x) ∧
      (wrapU c.N x : ℤ) = x % 2 ^ c.N := by
  have hI : InS c.H x := inS_real h hx.1 hx.2
  refine ⟨wrap_pt h hI, ?_, ?_⟩
  · split_ifs with h8
    · have : (wrapU c.H x : ℤ) = x % 2 ^ 8 := by
        unfold wrapU; rw [h8, Int.toNat_of_nonneg (Int.emod_nonneg _ (by norm_num))]
      rw [this]
      have h1 := Int.emod_nonneg x (show (2 : ℤ) ^ 8 ≠ 0 by norm_num)
      have h2 := Int.emod_lt_of_pos x (show (0 : ℤ) < 2 ^ 8 by norm_num)
      refine wrapS_of_inS (by unfold ptBits; rw [if_pos h8]; norm_num) ?_
      unfold ptBits InS; rw [if_pos h8]; norm_num at h1 h2 ⊢; omega
    · have hpt : ptBits c = c.H := by unfold ptBits; rw [if_neg h8]
      rw [hpt]
      refine wrapS_eq (by have := h.H_pos; omega) (-(x / 2 ^ c.H)) ?_ hI
      unfold wrapU
      rw [Int.toNat_of_nonneg (Int.emod_nonneg _ (by positivity))]
      have := Int.emod_add_mul_ediv x (2 ^ c.H)
      linarith
  · unfold wrapU
    rw [Int.toNat_of_nonneg (Int.emod_nonneg _ (by positivity))]

/-- **C130**, a real posit other than zero: columns `i` and `b` are its pattern, signed and as `N` bits; `k` is the number with
`2^(k·2^es) ≤ |x| < 2^((k+1)·2^es)` and `r` is `2^(k·2^es)`; `e` is the exponent of the number, wrapped to the printed type;
and `v` is the number cut to the fraction type and to a double. -/
theorem C130_row (h : c.WF) (hH : c.H ≤ 32) {x : ℤ} (hx : c.fmt.IsReal x) (h0 : x ≠ 0) :
    ∃ t, cells c x = .ok t ∧ t.i = x ∧ (t.b : ℤ) = x % 2 ^ c.N ∧ t.r = 2 ^ c.es * t.k ∧
      (2 : ℚ) ^ t.r ≤ |c.fmt.val x| ∧ |c.fmt.val x| < 2 ^ (t.r + 2 ^ c.es) ∧
      t.e = Int.bmod (Int.log 2 |c.fmt.val x|) (2 ^ (if c.H = 8 then 16 else c.H)) ∧
      ieee 11 52 t.v = .num (floatCut 11 52 (cutSig (c.F + 1) (c.fmt.val x))) := by
  obtain ⟨r, y, w, hl⟩ := low_real h hx h0
  obtain ⟨d, hd, hcut⟩ := toDouble_real h hx
  have hN := h.hN
  have hH8 := h.H_pos
  have hpt := H_le_pt (c := c)
  have hsc : c.maxScale = 2 ^ c.es * (c.N - 2) := rfl
  have hscale := h.hscale hH
  have hwr : wrapS (ptBits c) r = r := by
    refine wrap_pt h ?_
    have h1 := hl.r_lo
    have h2 := hl.r_hi
    have h3 : (c.N : ℤ) ≤ 2 ^ (c.H - 1) := by
      have : c.H - 1 < 2 ^ (c.H - 1) := Nat.lt_two_pow_self
      have : c.N ≤ 2 ^ (c.H - 1) := by omega
      exact_mod_cast this
    exact ⟨by omega, by omega⟩
  have hp : (0 : ℤ) < 2 ^ c.es := by positivity
  have hmul : arithS (ptBits c) ((c.regScale : ℤ) * wrapS (ptBits c) r) = .ok (2 ^ c.es * r) := by
    rw [hwr]
    have : ((c.regScale : ℕ) : ℤ) = 2 ^ c.es := by unfold Cfg.regScale; push_cast; rfl
    rw [this]
    refine arithS_ok (InS.mono (le_pw32 _) ?_)
    have h1 : (2 : ℤ) ^ c.es * r ≤ 2 ^ c.es * ((c.N : ℤ) - 2) := mul_le_mul_of_nonneg_left hl.r_hi hp.le
    have h2 : (2 : ℤ) ^ c.es * (-((c.N : ℤ) - 2)) ≤ 2 ^ c.es * r := mul_le_mul_of_nonneg_left hl.r_lo hp.le
    have h3 : ((2 : ℤ) ^ c.es * ((c.N : ℤ) - 2)) < 2 ^ 31 := by
      have := hscale
      zify [show 2 ≤ c.N by have := h.N_ge; omega] at this
      exact this
    rw [mul_neg] at h2
    exact ⟨by norm_num at h3 ⊢; omega, by norm_num at h3 ⊢; omega⟩
  obtain ⟨p1, p2, p3⟩ := pattern_cells h hx.canonical
  refine ⟨_, cells_eq hl.unp.eq hl.eq hmul hd, p1, p3, by simp only [hwr], ?_, ?_, ?_, hcut.float (by norm_num) (by norm_num)⟩
  · rw [hl.val]
    exact (zpow_le_zpow_right₀ (by norm_num) (by simp only; omega)).trans (le_mag _ _ _)
  · rw [hl.val]
    refine (mag_lt hl.w_lt).trans_le (zpow_le_zpow_right₀ (by norm_num) ?_)
    have : (y : ℤ) < 2 ^ c.es := by exact_mod_cast hl.x_lt
    simp only; omega
  · rw [hl.log]
    rfl

example : P16.WF ∧ P16.H ≤ 32 ∧ P16.fmt.IsReal (-20001) ∧
    cells P16 (-20001) = .ok ⟨-20001, -20001, 45535, 0, 0, 1, 13838508322770124800⟩ ∧
    cells P8i 3 = .ok ⟨3, 3, 3, -5, -20, -18, 4526117625507348480⟩ := by
  decide +kernel

/-- **C130**: for zero, NaN and the infinities columns `k` and `e` are 0 and `r` is 2^0. -/
theorem C130_special (h : c.WF) {x : ℤ} (hx : c.fmt.IsCanonical x) (h0 : x = 0 ∨ ¬ c.fmt.IsReal x) :
    ∃ t, cells c x = .ok t ∧ t.i = x ∧ (t.b : ℤ) = x % 2 ^ c.N ∧ t.k = 0 ∧ t.r = 0 ∧ t.e = 0 ∧
      ieee 11 52 t.v = (match c.ext x with | .num _ => .num 0 | .inf s => .inf s | .nan => .nan) := by
  have hs : Posit.isNaN c x = true ∨ Posit.isInfinity c x = true ∨ x = 0 := by
    rcases h0 with h0 | h0
    · exact Or.inr (Or.inr h0)
    · rcases special_of_not_real h hx h0 with h1 | h1
      · exact Or.inl h1
      · exact Or.inr (Or.inl h1)
  have : ∃ t s, t ≠ Ty.regular ∧ Posit.unpackLow c x = .ok { ty := t, neg := s } := by
    unfold Posit.unpackLow
    by_cases h1 : Posit.isInfinity c x = true
    · exact ⟨.infinity, _, by simp, by rw [if_pos h1]⟩
    · rw [if_neg h1]
      by_cases h2 : Posit.isNaN c x = true
      · exact ⟨.nan, false, by simp, by rw [if_pos h2]⟩
      · rw [if_neg h2]
        have h3 : x = 0 := by tauto
        exact ⟨.zero, false, by simp, by rw [if_pos h3]⟩
  obtain ⟨t, s, ht, he⟩ := this
  have hu : ∃ u, Posit.unpack c x = .ok u ∧ u.exp = 0 := by
    unfold Posit.unpack
    rw [he]
    unfold Posit.low2full
    simp [ht, bind, Except.bind]
  obtain ⟨u, hu, hue⟩ := hu
  have hw : wrapS (ptBits c) 0 = 0 := wrap_pt h (inS_zero c.H)
  have hr : arithS (ptBits c) ((c.regScale : ℤ) * wrapS (ptBits c) ({ ty := t, neg := s } : Low).reg) = .ok 0 := by
    show arithS (ptBits c) ((c.regScale : ℤ) * wrapS (ptBits c) 0) = _
    rw [hw, mul_zero]
    exact arithS_ok' (inS_zero _)
  obtain ⟨d, hd, hm⟩ := C128_toFloat (eb := 11) (fb := 52) h (by norm_num) (by norm_num) (by norm_num) (dbl_wide h).1 (dbl_wide h).2 hx
  obtain ⟨p1, p2, p3⟩ := pattern_cells h hx
  refine ⟨_, cells_eq hu he hr hd, p1, p3, hw, rfl, by simp only [hue]; exact hw, ?_⟩
  rcases h0 with rfl | h0
  · have hr0 : c.fmt.IsReal 0 := by unfold Format.IsReal; omega
    rw [ext_real hr0, Format.val_zero] at *
    change _ ∧ IsCut 11 52 (cutSig (c.F + 1) 0) d ∧ _ at hm
    have := hm.2.1.float (by norm_num) (by norm_num)
    rw [cutSig_zero, floatCut_zero] at this
    exact this
  · have hne : ∀ q, c.ext x ≠ .num q := by
      intro q hq
      unfold Cfg.ext at hq
      rw [if_neg h0] at hq
      split_ifs at hq
    cases hX : c.ext x with
    | num q => exact absurd hX (hne q)
    | inf s => rw [hX] at hm; exact hm
    | nan => rw [hX] at hm; exact hm

example : P8i.WF ∧ [0, -128, 127, -127].map (cells P8i) =
    [.ok ⟨0, 0, 0, 0, 0, 0, 0⟩, .ok ⟨-128, 128, 128, 0, 0, 0, 9221120237041090560⟩,
     .ok ⟨127, 127, 127, 0, 0, 0, 9218868437227405312⟩, .ok ⟨-127, 129, 129, 0, 0, 0, 18442240474082181120⟩] := by
  decide +kernel

/-- **C130**: column `e` is the exponent of the number if no exponent of the format exceeds the printed type. -/
theorem C130_exponent (h : c.WF) (hH : c.H ≤ 32) (hm : c.maxScale < 2 ^ (max c.H 16 - 1)) {x : ℤ} (hx : c.fmt.IsReal x) (h0 : x ≠ 0)
    {t : Cells} (ht : cells c x = .ok t) : (2 : ℚ) ^ t.e ≤ |c.fmt.val x| ∧ |c.fmt.val x| < 2 ^ (t.e + 1) := by
  obtain ⟨t', ht', -, -, -, -, -, he, -⟩ := C130_row h hH hx h0
  rw [ht] at ht'
  obtain rfl := Except.ok.inj ht'
  have hpos : 0 < |c.fmt.val x| := abs_pos.mpr ((Format.val_eq_zero_iff hx.inRange).not.mpr h0)
  have l1 : (2 : ℚ) ^ Int.log 2 |c.fmt.val x| ≤ |c.fmt.val x| := by
    exact_mod_cast Int.zpow_log_le_self (b := 2) (by norm_num) hpos
  have l2 : |c.fmt.val x| < (2 : ℚ) ^ (Int.log 2 |c.fmt.val x| + 1) := by
    exact_mod_cast Int.lt_zpow_succ_log_self (b := 2) (by norm_num) |c.fmt.val x|
  obtain ⟨r, y, w, hl⟩ := low_real h hx h0
  have b1 := hl.e_lo
  have b2 := hl.e_hi
  have b3 := topExp_le h
  have hpt : (if c.H = 8 then 16 else c.H) = max c.H 16 := by have := h.hH; split_ifs <;> omega
  have hmz : (c.maxScale : ℤ) < 2 ^ (max c.H 16 - 1) := by exact_mod_cast hm
  have hw : t.e = Int.log 2 |c.fmt.val x| := by
    rw [he, hpt]
    have g := hl.log
    exact wrapS_of_inS (w := max c.H 16) (by omega) ⟨by omega, by omega⟩
  rw [hw]
  exact ⟨l1, l2⟩

example : P16.WF ∧ P16.H ≤ 32 ∧ P16.maxScale < 2 ^ (max P16.H 16 - 1) ∧ P16.fmt.IsReal 1 ∧
    (cells P16 1).map Cells.e = .ok (-56) := by decide +kernel

/-- **C130**: with 16 bits and 13 exponent bits the exponents do not fit: the least number, 2^(-114688), is listed with
exponent 16384. -/
theorem C130_exponent_wrong : (⟨16, 16, 13, 16, .withNan⟩ : Cfg).WF ∧
    (cells ⟨16, 16, 13, 16, .withNan⟩ 1).map (fun t => (t.k, t.r, t.e)) = .ok (-14, -114688, 16384) := by decide +kernel

/-- **C130**: if the fraction type holds all fraction bits and the range is within that of a double, column `v` is the number. -/
theorem C130_value (h : c.WF) (hH : c.H ≤ 32) (hF : c.fb ≤ c.F) (hm : c.maxScale ≤ 1022) {x : ℤ} (hx : c.fmt.IsReal x)
    {t : Cells} (ht : cells c x = .ok t) : ieee 11 52 t.v = .num (c.fmt.val x) := by
  have key : floatCut 11 52 (cutSig (c.F + 1) (c.fmt.val x)) = c.fmt.val x := by
    rw [cutSig_fits (fits_posit h hx) hF]
    by_cases h0 : x = 0
    · rw [h0, Format.val_zero, floatCut_zero]
    · obtain ⟨b1, b2⟩ := cut_bounds h hx h0
      rw [cutSig_fits (fits_posit h hx) hF] at b1 b2
      refine floatCut_fits (by norm_num) ((fits_posit h hx).mono ?_) (Or.inr (le_trans ?_ b1)) (lt_of_lt_of_le b2 ?_)
      · have : c.fb = c.N - 3 - c.es := rfl
        have := h.hN
        omega
      · unfold minNorm
        exact zpow_le_zpow_right₀ (by norm_num) (by norm_num; omega)
      · exact zpow_le_zpow_right₀ (by norm_num) (by norm_num; omega)
  obtain ⟨d, hd, hcut⟩ := toDouble_real h hx
  have hv : t.v = d := Except.ok.inj ((cells_parts ht).1.symm.trans hd)
  rw [hv, hcut.float (by norm_num) (by norm_num), key]

example : P16.WF ∧ P16.H ≤ 32 ∧ P16.fb ≤ P16.F ∧ P16.maxScale ≤ 1022 ∧ P16.fmt.IsReal 20001 ∧
    (cells P16 20001).map Cells.v = .ok 4615136285915348992 := by decide +kernel

/-- **C130**: column `o`, announced as unsigned, is unsigned for holders of 8 bits; for wider ones it is the signed pattern
again. -/
theorem C130_unsigned (h : c.WF) {x : ℤ} (hx : c.fmt.IsCanonical x) {t : Cells} (ht : cells c x = .ok t) :
    (c.H = 8 → t.o = x % 2 ^ 8) ∧ (c.H ≠ 8 → t.o = x) := by
  have ho := (pattern_cells h hx).2.1
  rw [← (cells_parts ht).2] at ho
  exact ⟨fun h8 => by rw [ho, if_pos h8], fun h8 => by rw [ho, if_neg h8]⟩

example : (cells P8i (-77)).map Cells.o = .ok 179 ∧ (cells P16 (-20001)).map Cells.o = .ok (-20001) := by decide +kernel

/-- **C130**: what is printed for `(double)X(i)` with an integer `i` other than zero: a number with the sign of `i`, of a
magnitude of at most that of `i` and at least that of every power of two in the format that is not above it. -/
theorem C130_shown (h : c.WF) {i : ℤ} (h0 : i ≠ 0) (h1 : -2 ^ 31 ≤ i) (h2 : i < 2 ^ 31) {d : ℕ} (hd : shown c i = .ok d) :
    ∃ y, ieee 11 52 d = .num y ∧ 0 < i * y ∧ 1 ≤ |y| ∧ |y| ≤ |(i : ℚ)| ∧
      ∀ p (e : ℤ), c.fmt.IsReal p → c.fmt.val p = 2 ^ e → (2 : ℚ) ^ e ≤ |(i : ℚ)| → (2 : ℚ) ^ e ≤ |y| := by
  obtain ⟨w, hw, ht, hc⟩ := shown_ok h h0 h1 h2 hd
  have hq : (i : ℚ) ≠ 0 := by exact_mod_cast h0
  have hi1 : (2 : ℚ) ^ (0 : ℤ) ≤ |(i : ℚ)| := by
    rw [zpow_zero]
    have : (1 : ℤ) ≤ |i| := Int.one_le_abs h0
    exact_mod_cast this
  have hi2 : |(i : ℚ)| ≤ 2 ^ (31 : ℤ) := by
    have : |i| ≤ 2 ^ 31 := by rw [abs_le]; omega
    exact_mod_cast this
  have hone := one_real h
  have hy := hc.float (by norm_num) (by norm_num)
  have key : ∀ p (e : ℤ), c.fmt.IsReal p → c.fmt.val p = 2 ^ e → (2 : ℚ) ^ e ≤ |(i : ℚ)| → (2 : ℚ) ^ e ≤ |c.fmt.val w| := by
    intro p e hp hv he
    have hpos : (0 : ℚ) < 2 ^ e := by positivity
    have hp0 : p ≠ 0 := by rintro rfl; rw [Format.val_zero] at hv; linarith
    have := ht.greatest p hp hp0 (by rw [hv, abs_of_pos hpos]; exact pow_le_cutSig c.F he)
    rwa [hv, abs_of_pos hpos] at this
  have hw1 : (2 : ℚ) ^ (0 : ℤ) ≤ |c.fmt.val w| := key c.one 0 hone.1 (by rw [val_one h, zpow_zero]) hi1
  have hcw := pow_le_cutSig c.F hw1
  obtain ⟨y1, y2, y3⟩ := pow_le_double hc hy (by norm_num) (by norm_num) hcw
  have hwne : c.fmt.val w ≠ 0 := by intro hz; rw [hz, abs_zero, zpow_zero] at hw1; norm_num at hw1
  have hwle : |c.fmt.val w| ≤ |(i : ℚ)| := by
    rcases ht.below with hb | hb
    · exact hb.trans (cutSig_err hq).1
    · have := hb c.one hone.1 hone.2
      rw [val_one h, abs_one] at this
      rw [zpow_zero] at hi1
      exact this.trans hi1
  have s1 := cutSig_sign c.F hq
  have s2 := cutSig_sign c.F hwne
  refine ⟨_, hy, ?_, by rwa [zpow_zero] at y1, (y2.trans (cutSig_err hwne).1).trans hwle, fun p e hp hv he => ?_⟩
  · have hs : (0 < c.fmt.val w ∧ 0 < cutSig (c.F + 1) (i : ℚ)) ∨ (c.fmt.val w < 0 ∧ cutSig (c.F + 1) (i : ℚ) < 0) := by
      rcases ht.sign with ⟨a, b⟩ | ⟨a, b⟩
      · exact Or.inl ⟨(Format.val_pos_iff ht.real.inRange).mpr a, b⟩
      · exact Or.inr ⟨(Format.val_neg_iff ht.real.inRange).mpr a, b⟩
    generalize floatCut 11 52 (cutSig (c.F + 1) (c.fmt.val w)) = y at *
    rcases hs with ⟨a, b⟩ | ⟨a, b⟩
    · have := pos_of_mul_pos_left s1 b.le
      have hx := (pos_iff_pos_of_mul_pos s2).mp a
      exact mul_pos ((pos_iff_pos_of_mul_pos s1).mpr b) ((pos_iff_pos_of_mul_pos y3).mp hx)
    · have hx := (neg_iff_neg_of_mul_pos s2).mp a
      exact mul_pos_of_neg_of_neg ((neg_iff_neg_of_mul_pos s1).mpr b) ((neg_iff_neg_of_mul_pos y3).mp hx)
  · by_cases hneg : e < 0
    · refine le_trans (zpow_le_zpow_right₀ (by norm_num) hneg.le) y1
    · have he2 := (zpow_le_zpow_iff_right₀ (by norm_num : (1 : ℚ) < 2)).mp (he.trans hi2)
      exact (pow_le_double hc hy (by omega) (by omega) (pow_le_cutSig c.F (key p e hp hv he))).1

example : P16.WF ∧ P16.half ≠ 0 ∧ shown P16 P16.half = .ok 4669106913676361728 := by decide +kernel

/-- **C130**: `half=` never shows 1/2: the pattern of the constant is read as an integer, and what is shown is at least 1. -/
theorem C130_half_wrong (h : c.WF) (hH : c.H ≤ 32) {d : ℕ} (hd : shown c c.half = .ok d) :
    ∃ y, ieee 11 52 d = .num y ∧ 1 ≤ y := by
  have e := half_eq h
  have hN := h.hN
  have h8 := h.H_pos
  have hes := h.hes
  have a1 : (2 : ℤ) ^ (c.N - 3 - c.es) < 2 ^ (c.H - 2) := pow_lt_pow_right₀ (by norm_num) (by omega)
  have a2 : (2 : ℤ) ^ (c.H - 2) ≤ 2 ^ 30 := pow_le_pow_right₀ (by norm_num) (by omega)
  have a3 : (0 : ℤ) < 2 ^ (c.N - 3 - c.es) := by positivity
  have hpos : 0 < c.half := by rw [e]; omega
  obtain ⟨y, hy, y1, y2, -, -⟩ := C130_shown h hpos.ne' (by omega) (by rw [e]; norm_num at a2 ⊢; omega) hd
  have hq : (0 : ℚ) < c.half := by exact_mod_cast hpos
  have : 0 < y := (pos_iff_pos_of_mul_pos y1).mp hq
  rw [abs_of_pos this] at y2
  exact ⟨y, hy, y2⟩

/-- 32 is shown for posits of 8 bits without exponent bits, 14336 for 16 bits and two exponent bits -/
example : P8.WF ∧ P16.WF ∧ shown P8 P8.half = .ok 0x4040000000000000 ∧ shown P16 P16.half = .ok 0x40cc000000000000 := by
  decide +kernel

/-- **C130**: `twice=` does not show 2 in a format of at least four bits that has the number 4: at least 4 is shown. -/
theorem C130_twice_wrong (h : c.WF) (hH : c.H ≤ 32) (hN4 : 4 ≤ c.N) {p : ℤ} (hp : c.fmt.IsReal p) (hv : c.fmt.val p = 4) {d : ℕ}
    (hd : shown c c.two = .ok d) : ∃ y, ieee 11 52 d = .num y ∧ 4 ≤ y := by
  have e := two_eq h
  have hN := h.hN
  have hes := h.hes
  have a1 : (2 : ℤ) ^ (c.N - 3 - c.es) < 2 ^ (c.N - 2) := pow_lt_pow_right₀ (by norm_num) (by omega)
  have a2 : (2 : ℤ) ^ (c.N - 2) ≤ 2 ^ 30 := pow_le_pow_right₀ (by norm_num) (by omega)
  have a3 : (0 : ℤ) < 2 ^ (c.N - 3 - c.es) := by positivity
  have a4 : (2 : ℤ) ^ 2 ≤ 2 ^ (c.N - 2) := pow_le_pow_right₀ (by norm_num) (by omega)
  norm_num at a2 a4
  have hpos : 4 ≤ c.two := by rw [e]; omega
  have hq : (4 : ℚ) ≤ c.two := by exact_mod_cast hpos
  obtain ⟨y, hy, y1, -, -, y4⟩ := C130_shown h (by omega) (by omega) (by rw [e]; omega) hd
  have := y4 p 2 hp (by rw [hv]; norm_num) (by rw [abs_of_pos (by linarith)]; norm_num; exact hq)
  have hy0 : 0 < y := (pos_iff_pos_of_mul_pos y1).mp (by linarith)
  rw [abs_of_pos hy0] at this
  norm_num at this
  exact ⟨y, hy, this⟩

/-- 64 is shown for posits of 8 bits without exponent bits; with three bits it happens to be 2, the greatest number -/
example : P8.WF ∧ P8.fmt.IsReal 112 ∧ P8.fmt.val 112 = 4 ∧ shown P8 P8.two = .ok 0x4050000000000000 ∧
    (⟨8, 3, 0, 8, .withNan⟩ : Cfg).WF ∧ shown ⟨8, 3, 0, 8, .withNan⟩ (Cfg.two ⟨8, 3, 0, 8, .withNan⟩) = .ok 0x4000000000000000 := by
  decide +kernel

/-- **C130**, `min=` and `max=`: without exponent bits the integers are at least as great as the greatest posit, and the least
and the greatest posit are shown. -/
theorem C130_ends_partial (h : c.WF) (hH : c.H ≤ 32) (hes : c.es = 0) :
    (∀ d, shown c c.minneg = .ok d → ieee 11 52 d = .num (c.fmt.val c.minneg)) ∧
    (∀ w, Posit.ofInt c c.maxpos = .ok w → w = c.maxpos) := by
  have hb := maxBody_ge h
  have hN := h.hN
  have hN3 := h.N_ge
  have p31 := pow31 h hH
  have hlt := Format.maxBody_lt c.fmt
  have hge : (2 : ℕ) ^ (c.N - 2) ≤ c.fmt.maxBody := by
    have e1 : (2 : ℕ) ^ (c.N - 1) = 2 * 2 ^ (c.N - 2) := by rw [show c.N - 1 = c.N - 2 + 1 by omega, pow_succ]; ring
    have e2 : (2 : ℕ) ^ 1 ≤ 2 ^ (c.N - 2) := Nat.pow_le_pow_right (by norm_num) (by omega)
    omega
  have hltz : (c.fmt.maxBody : ℤ) < 2 ^ (c.N - 1) := by exact_mod_cast hlt
  have htop : c.topExp ≤ (c.N - 2 : ℕ) := by
    have := topExp_le h
    have hs : c.maxScale = 2 ^ c.es * (c.N - 2) := rfl
    rw [hes] at hs
    omega
  have hpow : (2 : ℚ) ^ c.topExp ≤ c.fmt.maxBody := by
    refine (zpow_le_zpow_right₀ (by norm_num) htop).trans ?_
    rw [zpow_natCast]
    exact_mod_cast hge
  have hge1 := one_le_maxBody h
  have key : ∀ i w : ℤ, (i = c.fmt.maxBody ∨ i = -(c.fmt.maxBody : ℤ)) → c.fmt.IsTrunc (cutSig (c.F + 1) (i : ℚ)) w → w = i := by
    intro i w hi ht
    have hiz : i ≠ 0 := by omega
    have hq : (i : ℚ) ≠ 0 := by exact_mod_cast hiz
    have hia : |(i : ℚ)| = c.fmt.maxBody := by
      rcases hi with rfl | rfl
      · simp
      · simp
    refine ht.unique ⟨by unfold Format.IsReal; omega, ?_, fun v hv hv0 _ => ?_, Or.inl ?_⟩
    · have s1 := cutSig_sign c.F hq
      rcases lt_or_gt_of_ne hiz with hneg | hpos
      · have : (i : ℚ) < 0 := by exact_mod_cast hneg
        exact Or.inr ⟨hneg, (neg_iff_neg_of_mul_pos s1).mp this⟩
      · have : (0 : ℚ) < i := by exact_mod_cast hpos
        exact Or.inl ⟨hpos, (pos_iff_pos_of_mul_pos s1).mp this⟩
    · rw [abs_val_max h (v := i) (by omega)]
      have := abs_le_max h hv
      exact this
    · rw [abs_val_max h (v := i) (by omega)]
      exact pow_le_cutSig c.F (by rw [hia]; exact hpow)
  rw [minneg_eq h, maxpos_eq h]
  refine ⟨fun d hd => ?_, fun w hw => ?_⟩
  · obtain ⟨w, -, ht, hc⟩ := shown_ok h (by omega) (by omega) (by omega) hd
    have hw := key _ w (Or.inr rfl) ht
    rw [hw] at hc
    rw [hc.float (by norm_num) (by norm_num)]
    have hv : c.fmt.val (-(c.fmt.maxBody : ℤ)) = -2 ^ c.topExp := by
      have h1 := abs_val_max h (v := -(c.fmt.maxBody : ℤ)) (by omega)
      have h2 := (Format.val_neg_iff (f := c.fmt) (v := -(c.fmt.maxBody : ℤ)) (by rw [← hw]; exact ht.real.inRange)).mpr (by omega)
      rw [abs_of_neg h2] at h1
      linarith
    have hfit : ∀ m : ℕ, Fits (m + 1) (-(2 : ℚ) ^ c.topExp) := fun m => ⟨-1, c.topExp, by simpa using one_lt_pow₀ (by norm_num : (1 : ℤ) < 2) (by omega), by push_cast; ring⟩
    have ht0 := topExp_nonneg h
    rw [hv, cutSig_fits (hfit 0) (by omega), floatCut_fits (by norm_num) (hfit 52)]
    · refine Or.inr ?_
      rw [abs_neg, abs_of_pos (by positivity)]
      unfold minNorm
      exact zpow_le_zpow_right₀ (by norm_num) (by norm_num; omega)
    · rw [abs_neg, abs_of_pos (by positivity)]
      exact zpow_lt_zpow_right₀ (by norm_num) (by norm_num; omega)
  · exact key _ w (Or.inl rfl) (ofInt_trunc h (by omega) (by omega) (by omega) hw)

example : P8.WF ∧ P8.H ≤ 32 ∧ P8.es = 0 ∧ shown P8 P8.minneg = .ok 0xc050000000000000 ∧ Posit.ofInt P8 P8.maxpos = .ok P8.maxpos := by
  decide +kernel

/-- **C130**: with exponent bits neither the least nor the greatest posit is shown: what is shown is at most the integer, which
is less than the greatest posit. -/
theorem C130_ends_wrong (h : c.WF) (hH : c.H ≤ 32) (hes : 1 ≤ c.es) (hN : 5 ≤ c.N ∨ c.spec ≠ .withNanInf) :
    (∀ d, shown c c.minneg = .ok d → ∃ y, ieee 11 52 d = .num y ∧ c.fmt.val c.minneg < y) ∧
    (∀ w, Posit.ofInt c c.maxpos = .ok w → c.fmt.val w < c.fmt.val c.maxpos) := by
  have hb := maxBody_ge h
  have hN' := h.hN
  have hN3 := h.hes
  have p31 := pow31 h hH
  have hlt := Format.maxBody_lt c.fmt
  have hge1 := one_le_maxBody h
  have hltz : (c.fmt.maxBody : ℤ) < 2 ^ (c.N - 1) := by exact_mod_cast hlt
  have htop : ((c.N - 1 : ℕ) : ℤ) ≤ c.topExp := by
    have hs : c.maxScale = 2 ^ c.es * (c.N - 2) := rfl
    have h2 : 2 ≤ 2 ^ c.es := by
      calc 2 = 2 ^ 1 := by norm_num
        _ ≤ 2 ^ c.es := Nat.pow_le_pow_right (by norm_num) hes
    have h3 : 2 * (c.N - 2) ≤ c.maxScale := by rw [hs]; exact Nat.mul_le_mul_right _ h2
    unfold Cfg.topExp
    split_ifs with hsp
    · have hN5 := hN.resolve_right (by simp [hsp])
      have h4 : c.maxScale = 2 ^ c.es * (c.N - 3) + 2 ^ c.es := by
        rw [hs, show c.N - 2 = c.N - 3 + 1 by omega]; ring
      have h5 : 2 * (c.N - 3) ≤ 2 ^ c.es * (c.N - 3) := Nat.mul_le_mul_right _ h2
      have h6 : (c.maxScale : ℤ) = 2 ^ c.es * ((c.N - 3 : ℕ) : ℤ) + 2 ^ c.es := by rw [h4]; push_cast; ring
      have h7 : (2 * (c.N - 3 : ℕ) : ℤ) ≤ 2 ^ c.es * ((c.N - 3 : ℕ) : ℤ) := by exact_mod_cast h5
      rw [h6]
      omega
    · omega
  have hpow : (c.fmt.maxBody : ℚ) < 2 ^ c.topExp := by
    refine lt_of_lt_of_le ?_ (zpow_le_zpow_right₀ (by norm_num) htop)
    rw [zpow_natCast]
    exact_mod_cast hlt
  have hm : c.fmt.IsReal (c.fmt.maxBody : ℤ) := by unfold Format.IsReal; omega
  have hvm : c.fmt.val (c.fmt.maxBody : ℤ) = 2 ^ c.topExp := by
    have h1 := abs_val_max h (v := (c.fmt.maxBody : ℤ)) (by omega)
    rwa [abs_of_pos ((Format.val_pos_iff hm.inRange).mpr (by omega))] at h1
  rw [minneg_eq h, maxpos_eq h]
  refine ⟨fun d hd => ?_, fun w hw => ?_⟩
  · obtain ⟨y, hy, -, -, y3, -⟩ := C130_shown h (by omega) (by omega) (by omega) hd
    refine ⟨y, hy, ?_⟩
    rw [Format.val_neg, hvm]
    have hz : |((-(c.fmt.maxBody : ℤ) : ℤ) : ℚ)| = c.fmt.maxBody := by simp
    rw [hz] at y3
    linarith [neg_abs_le y]
  · have ht := ofInt_trunc h (i := c.fmt.maxBody) (by omega) (by omega) (by omega) hw
    have hq : ((c.fmt.maxBody : ℤ) : ℚ) ≠ 0 := by
      have : (c.fmt.maxBody : ℤ) ≠ 0 := by omega
      exact_mod_cast this
    have hone := one_real h
    have hq1 : (1 : ℚ) ≤ c.fmt.maxBody := by exact_mod_cast hge1
    rw [hvm]
    refine lt_of_le_of_lt (le_abs_self _) (lt_of_le_of_lt ?_ hpow)
    rcases ht.below with hb | hb
    · refine (hb.trans (cutSig_err hq).1).trans ?_
      push_cast
      rw [abs_of_nonneg (by positivity)]
    · have := hb c.one hone.1 hone.2
      rw [val_one h, abs_one] at this
      exact this.trans hq1

example : P16.WF ∧ P16.H ≤ 32 ∧ 1 ≤ P16.es ∧ 5 ≤ P16.N ∧ P16.maxpos = 32767 ∧
    samples P16 = .ok ⟨4669106913676361728, 4670795763536625664, 13898090857879306240, 31487⟩ := by decide +kernel

end Verif
