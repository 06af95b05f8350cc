import Verif.Lemmas.Den
import Verif.Spec.FloatArith
import Verif.Props.FloatPack

/-! # Posit operations through correctly rounded floats -/

namespace Verif
open Fmt

variable {c : Cfg} {eb fb : ℕ}

/-- a number of few significant bits in the normal range is a float -/
theorem float_of_fits (heb : 2 ≤ eb) {x : ℚ} (hx : Fits (fb + 1) x) (h1 : (2 : ℚ) ^ ((2 : ℤ) - 2 ^ (eb - 1)) ≤ |x|)
    (h2 : |x| < 2 ^ ((2 : ℤ) ^ (eb - 1))) : ∃ g, ieee eb fb g = .num x := by
  obtain ⟨n, X, hn, hX⟩ := hx.abs
  have h0 : (0 : ℚ) < |x| := lt_of_lt_of_le (by positivity) h1
  have hn0 : n ≠ 0 := by rintro rfl; rw [hX] at h0; simp at h0
  have two : (1 : ℚ) < 2 := by norm_num
  have hl1 := Nat.log2_self_le hn0
  have hl2 := Nat.lt_log2_self (n := n)
  have hlf : n.log2 ≤ fb := by
    have := lt_of_le_of_lt hl1 hn
    have := (Nat.pow_lt_pow_iff_right (by norm_num)).mp this
    omega
  generalize n.log2 = l at *
  have hq1 : (2 : ℚ) ^ (l : ℤ) ≤ n := by rw [zpow_natCast]; exact_mod_cast hl1
  have hq2 : (n : ℚ) < (2 : ℚ) ^ ((l : ℤ) + 1) := by
    rw [show (l : ℤ) + 1 = ((l + 1 : ℕ) : ℤ) by push_cast; rfl, zpow_natCast]; exact_mod_cast hl2
  have hX0 : (0 : ℚ) < 2 ^ X := by positivity
  have e1 : 2 - 2 ^ (eb - 1) < (l : ℤ) + 1 + X := by
    rw [← zpow_lt_zpow_iff_right₀ two, zpow_add₀ (by norm_num) _ X]
    calc _ ≤ |x| := h1
      _ = n * 2 ^ X := hX
      _ < _ := by exact mul_lt_mul_of_pos_right hq2 hX0
  have e2 : (l : ℤ) + X < 2 ^ (eb - 1) := by
    rw [← zpow_lt_zpow_iff_right₀ two, zpow_add₀ (by norm_num) _ X]
    calc _ ≤ (n : ℚ) * 2 ^ X := by exact mul_le_mul_of_nonneg_right hq1 hX0.le
      _ = |x| := hX.symm
      _ < _ := h2
  obtain ⟨ex, hex⟩ := Int.eq_ofNat_of_zero_le (show 0 ≤ (l : ℤ) + X + (2 ^ (eb - 1) - 1) by omega)
  have hh := pow_half (eb := eb) (by omega)
  have hex2 : ex + 2 ≤ 2 ^ eb := by
    have : (ex : ℤ) + 2 ≤ 2 ^ eb := by omega
    exact_mod_cast this
  have hsplit : 2 ^ fb = 2 ^ l * 2 ^ (fb - l) := by rw [← pow_add]; congr 1; omega
  have hm1 : 2 ^ fb ≤ n * 2 ^ (fb - l) := by rw [hsplit]; exact Nat.mul_le_mul_right _ hl1
  have hm2 : n * 2 ^ (fb - l) < 2 * 2 ^ fb := by
    rw [hsplit, ← mul_assoc, ← pow_succ']
    exact Nat.mul_lt_mul_of_pos_right hl2 (by positivity)
  refine ⟨fJoin eb fb (x < 0) ex (n * 2 ^ (fb - l) - 2 ^ fb), ?_⟩
  rw [ieee_join (by omega) (by omega) hex2]
  congr 1
  have hmag : ((2 : ℚ) ^ fb + ((n * 2 ^ (fb - l) - 2 ^ fb : ℕ) : ℚ)) * 2 ^ ((ex : ℤ) - (2 ^ (eb - 1) - 1) - fb) = |x| := by
    rw [Nat.cast_sub hm1]
    push_cast
    rw [hX, show (ex : ℤ) - (2 ^ (eb - 1) - 1) - fb = X + (-((fb - l : ℕ) : ℤ)) by omega, zpow_add₀ (by norm_num), zpow_neg,
      zpow_natCast]
    field_simp
    ring
  rw [hmag]
  by_cases hs : x < 0
  · simp [hs, abs_of_neg hs]
  · simp [hs, abs_of_nonneg (not_lt.mp hs)]

theorem IsRounded.exact {x : ℚ} {b : ℕ} (h : IsRounded eb fb x b) (hx : ∃ g, ieee eb fb g = .num x) : ieee eb fb b = .num x := by
  obtain ⟨y, hy, hr⟩ := h
  obtain ⟨g, hg⟩ := hx
  have := hr g x hg
  rw [hy, le_antisymm (this.2 le_rfl) (this.1 le_rfl)]

theorem ieee_zero : ieee eb fb 0 = .num 0 ∨ eb = 0 := by
  rcases Nat.eq_zero_or_pos eb with h | h
  · exact Or.inr h
  · left
    have : (2 : ℕ) ^ eb - 1 ≠ 0 := by
      have : 2 ≤ 2 ^ eb := by calc 2 = 2 ^ 1 := by norm_num
        _ ≤ 2 ^ eb := Nat.pow_le_pow_right (by norm_num) h
      omega
    simp [ieee, this.symm]

theorem ieee_num_zero {b : ℕ} (hb : ieee eb fb b = .num 0) : fExp eb fb b = 0 ∧ fMan fb b = 0 := by
  obtain ⟨-, ⟨h1, h2⟩ | ⟨-, h2⟩⟩ := ieee_num hb
  · refine ⟨h1, ?_⟩
    obtain ⟨h3, -⟩ := sub_abs h2
    rw [abs_zero] at h3
    have : (fMan fb b : ℚ) = 0 := by
      rcases mul_eq_zero.mp h3.symm with h | h
      · exact h
      · exact absurd h (by positivity)
    exact_mod_cast this
  · exfalso
    have : (0 : ℚ) < (2 ^ fb + fMan fb b) * 2 ^ ((fExp eb fb b : ℤ) - (2 ^ (eb - 1) - 1) - fb) := by positivity
    split_ifs at h2 <;> linarith

/-- rounding before truncation keeps a result faithful if posits survive the rounding -/
theorem Fmt.Format.IsFaithful.of_rounded {f : Format} {x y : ℚ} {v : ℤ} (h : f.IsFaithful y v)
    (hr : ∀ w, f.IsReal w → (f.val w ≤ x → f.val w ≤ y) ∧ (x ≤ f.val w → y ≤ f.val w)) : f.IsFaithful x v :=
  ⟨h.real, fun w hw hlt => by
    have := h.above w hw hlt
    by_contra hc
    linarith [(hr w hw).1 (not_lt.mp hc)], fun w hw hlt => by
    have := h.below w hw hlt
    by_contra hc
    linarith [(hr w hw).2 (not_lt.mp hc)]⟩

/-- the float formats `PositF` is used with, and the posit formats all of whose numbers are normal floats -/
structure FloatFor (c : Cfg) (t : FTrait) : Prop where
  tr : t = .single ∨ t = .double
  wf : c.WF
  narrow : c.N + 1 < pw c.H
  hE : 16 ≤ c.E
  hF : c.fb ≤ c.F
  hfb : c.fb ≤ t.fb
  range : c.maxScale + 2 ≤ 2 ^ (t.eb - 1)

variable {t : FTrait}

theorem FloatFor.heb (h : FloatFor c t) : 2 ≤ t.eb ∧ t.eb ≤ 30 ∧ 1 ≤ t.fb ∧ t = .any t.eb t.fb true := by
  rcases h.tr with rfl | rfl <;> decide +kernel

theorem FloatFor.toFloat (h : FloatFor c t) {v : ℤ} (hv : c.fmt.IsReal v) :
    ∃ b, Posit.toFloat c t v = .ok b ∧ ieee t.eb t.fb b = .num (c.fmt.val v) := by
  by_cases h0 : v = 0
  · subst h0
    refine ⟨0, ?_, ?_⟩
    · unfold Posit.toFloat
      rw [unpack_zero h.wf]
      rfl
    · rw [Format.val_zero]
      exact ieee_zero.resolve_right (by have := h.heb; omega)
  · obtain ⟨b, h1, h2, -⟩ := C23_all_partial h.wf h.narrow h.hF h.hE t h.tr h.hfb h.range hv h0
    exact ⟨b, h1, h2⟩

theorem FloatFor.toFloat_nan (h : FloatFor c t) {v : ℤ} (hv : c.fmt.IsCanonical v) (hn : Posit.isNaN c v = true) :
    ∃ b, Posit.toFloat c t v = .ok b ∧ ieee t.eb t.fb b = .nan := by
  obtain ⟨heb, -, hfb, ht⟩ := h.heb
  rw [ht]
  exact (C23_special h.wf heb hfb hv).2.1 hn

/-- every posit is a multiple of `2^-(maxScale+fb)` -/
theorem posit_grid (h : c.WF) {v : ℤ} (hv : c.fmt.IsReal v) :
    ∃ k : ℤ, c.fmt.val v = k * 2 ^ (-((c.maxScale + c.fb : ℕ) : ℤ)) := by
  by_cases h0 : v = 0
  · exact ⟨0, by rw [h0, Format.val_zero]; simp⟩
  obtain ⟨e, f, hu⟩ := unpack_real h hv h0
  obtain ⟨n, X, -, hn, he⟩ := posVal_grid h (q := v.natAbs) (by omega) (real_inRange hv)
  have habs : |c.fmt.val v| = n * 2 ^ X := by rw [Format.abs_val hv.inRange h0, fmt_N, fmt_es, he]
  have hX : -((c.maxScale + c.fb : ℕ) : ℤ) ≤ X := by
    have h1 := hu.lower
    have h2 : (n : ℚ) < 2 ^ ((c.fb : ℤ) + 1) := by
      rw [show (c.fb : ℤ) + 1 = ((c.fb + 1 : ℕ) : ℤ) by push_cast; rfl, zpow_natCast]; exact_mod_cast hn
    have h3 : (2 : ℚ) ^ e < 2 ^ ((c.fb : ℤ) + 1 + X) := by
      rw [zpow_add₀ (by norm_num) _ X]
      exact lt_of_le_of_lt (h1.trans_eq habs) (mul_lt_mul_of_pos_right h2 (by positivity))
    rw [zpow_lt_zpow_iff_right₀ (by norm_num)] at h3
    have := hu.e_lo
    push_cast
    omega
  obtain ⟨j, hj⟩ := Int.eq_ofNat_of_zero_le (show 0 ≤ X + ((c.maxScale + c.fb : ℕ) : ℤ) by omega)
  have hpow : (2 : ℚ) ^ X = 2 ^ j * 2 ^ (-((c.maxScale + c.fb : ℕ) : ℤ)) := by
    rw [← zpow_natCast (2 : ℚ) j, ← hj, ← zpow_add₀ (by norm_num)]
    congr 1; ring
  rcases abs_choice (c.fmt.val v) with h1 | h1
  · refine ⟨n * 2 ^ j, ?_⟩
    rw [← h1, habs, hpow]; push_cast; ring
  · refine ⟨-(n * 2 ^ j), ?_⟩
    have : c.fmt.val v = -|c.fmt.val v| := by rw [h1, neg_neg]
    rw [this, habs, hpow]; push_cast; ring

/-- a nonzero sum of two posits is at least `2^-(maxScale+fb)` -/
theorem sum_lower (h : c.WF) {a b : ℤ} (ha : c.fmt.IsReal a) (hb : c.fmt.IsReal b) (hne : c.fmt.val a + c.fmt.val b ≠ 0) :
    (2 : ℚ) ^ (-((c.maxScale + c.fb : ℕ) : ℤ)) ≤ |c.fmt.val a + c.fmt.val b| := by
  obtain ⟨k, hk⟩ := posit_grid h ha
  obtain ⟨l, hl⟩ := posit_grid h hb
  have hp : (0 : ℚ) < 2 ^ (-((c.maxScale + c.fb : ℕ) : ℤ)) := by positivity
  rw [hk, hl, ← add_mul] at hne ⊢
  rw [abs_mul, abs_of_pos hp]
  have h0 : k + l ≠ 0 := by
    intro h0
    apply hne
    have : (k : ℚ) + l = 0 := by exact_mod_cast h0
    rw [this, zero_mul]
  have : (1 : ℤ) ≤ |k + l| := Int.one_le_abs h0
  have : (1 : ℚ) ≤ |(k : ℚ) + l| := by exact_mod_cast this
  nlinarith

/-- converting a correctly rounded normal result -/
theorem FloatFor.ofFloat (h : FloatFor c t) {x : ℚ} {b : ℕ} (hr : IsRounded t.eb t.fb x b)
    (hx : (2 : ℚ) ^ ((2 : ℤ) - 2 ^ (t.eb - 1)) ≤ |x|) :
    ∃ v, Posit.ofFloat c t b = .ok v ∧ c.fmt.IsFaithful x v ∧ v ≠ 0 ∧
      ((∃ g, ieee t.eb t.fb g = .num x) → c.fmt.IsTrunc x v) := by
  obtain ⟨y, hy, hr⟩ := hr
  obtain ⟨heb, -, hfb, -⟩ := h.heb
  have hmin := (C51_constants (dn := true) heb hfb).2.2.1
  have hpos : (0 : ℚ) < 2 ^ ((2 : ℤ) - 2 ^ (t.eb - 1)) := by positivity
  have hmin' : ∃ g, ieee t.eb t.fb g = .num (-2 ^ ((2 : ℤ) - 2 ^ (t.eb - 1))) := by
    apply float_of_fits heb
    · exact ⟨-1, _, by rw [abs_neg, abs_one]; exact one_lt_pow₀ (by norm_num) (by omega), by push_cast; rw [neg_one_mul]⟩
    · rw [abs_neg, abs_of_pos hpos]
    · rw [abs_neg, abs_of_pos hpos]
      apply zpow_lt_zpow_right₀ (by norm_num)
      have : (2 : ℤ) ≤ 2 ^ (t.eb - 1) := by
        calc (2 : ℤ) = 2 ^ 1 := by norm_num
          _ ≤ 2 ^ (t.eb - 1) := pow_le_pow_right₀ (by norm_num) (by omega)
      omega
  obtain ⟨g', hg'⟩ := hmin'
  have hyabs : (2 : ℚ) ^ ((2 : ℤ) - 2 ^ (t.eb - 1)) ≤ |y| := by
    rcases le_abs.mp hx with hc | hc
    · exact le_abs.mpr (Or.inl ((hr _ _ hmin).1 hc))
    · exact le_abs.mpr (Or.inr (by linarith [(hr _ _ hg').2 (by linarith)]))
  have hy0 : y ≠ 0 := by rintro rfl; rw [abs_zero] at hyabs; linarith
  obtain ⟨v, hv, ht⟩ := C22_ieee_partial h.wf h.narrow h.hE t (Or.inr h.tr) hy hy0 (Or.inr ⟨h.hF, hyabs⟩)
  refine ⟨v, hv, ht.faithful.of_rounded ?_, ?_, ?_⟩
  · intro w hw
    obtain ⟨g, -, hg⟩ := h.toFloat hw
    exact hr g _ hg
  · have := ht.sign; omega
  · rintro ⟨g, hg⟩
    have := hr g x hg
    rwa [le_antisymm (this.1 le_rfl) (this.2 le_rfl)]

theorem FloatFor.ofFloat_zero (h : FloatFor c t) {b : ℕ} (hb : ieee t.eb t.fb b = .num 0) : Posit.ofFloat c t b = .ok 0 := by
  obtain ⟨heb, -, hfb, ht⟩ := h.heb
  obtain ⟨h1, h2⟩ := ieee_num_zero hb
  rw [ht]
  have hE : t.eb < c.E := by have := h.hE; rcases h.tr with rfl | rfl <;> simp [FTrait.single, FTrait.double] <;> omega
  exact C22_zero h.wf heb hfb hE h1 h2

theorem FloatFor.ofFloat_nan (h : FloatFor c t) (hF : c.spec ≠ .withNanInf ∨ t.fb ≤ c.F) {b : ℕ} (hb : ieee t.eb t.fb b = .nan) :
    Posit.ofFloat c t b = .ok c.topPat := by
  obtain ⟨heb, -, hfb, ht⟩ := h.heb
  rw [ht]
  have hE : t.eb < c.E := by have := h.hE; rcases h.tr with rfl | rfl <;> simp [FTrait.single, FTrait.double] <;> omega
  exact C22_nan_partial h.wf heb hfb hE hb (hF.imp_right Or.inl)

theorem FloatFor.ofFloat_inf (h : FloatFor c t) {b : ℕ} {s : Bool} (hb : ieee t.eb t.fb b = .inf s) :
    Posit.ofFloat c t b = .ok (c.infPat s) := by
  obtain ⟨heb, -, hfb, ht⟩ := h.heb
  rw [ht]
  have hE : t.eb < c.E := by have := h.hE; rcases h.tr with rfl | rfl <;> simp [FTrait.single, FTrait.double] <;> omega
  exact C22_inf h.wf heb hfb hE hb


theorem maxFin_ge {m : ℤ} (hm : m < 2 ^ (eb - 1)) : (2 : ℚ) ^ m ≤ maxFin eb fb := by
  unfold maxFin
  have h1 : (2 : ℚ) ^ m ≤ 2 ^ ((2 : ℤ) ^ (eb - 1) - 1) := zpow_le_zpow_right₀ (by norm_num) (by omega)
  have h2 : (1 : ℚ) / 2 ^ fb ≤ 1 := by
    rw [div_le_one (by positivity)]; exact one_le_pow₀ (by norm_num)
  have h3 : (0 : ℚ) < 2 ^ ((2 : ℤ) ^ (eb - 1) - 1) := by positivity
  generalize (2 : ℚ) ^ ((2 : ℤ) ^ (eb - 1) - 1) = M at *
  generalize (1 : ℚ) / 2 ^ fb = u at *
  nlinarith

theorem val_abs_bounds (h : c.WF) {v : ℤ} (hv : c.fmt.IsReal v) (h0 : v ≠ 0) :
    (2 : ℚ) ^ (-(c.maxScale : ℤ)) ≤ |c.fmt.val v| ∧ |c.fmt.val v| ≤ 2 ^ ((c.maxScale : ℤ) + 1) := by
  obtain ⟨e, f, hu⟩ := unpack_real h hv h0
  have := hu.e_abs h
  rw [abs_le] at this
  exact ⟨le_trans (zpow_le_zpow_right₀ (by norm_num) (by omega)) hu.lower,
    le_trans hu.upper.le (zpow_le_zpow_right₀ (by norm_num) (by omega))⟩

/-- the float of the opposite sign -/
theorem ieee_neg {g : ℕ} {x : ℚ} (hg : ieee eb fb g = .num x) : ∃ g', ieee eb fb g' = .num (-x) := by
  refine ⟨fJoin eb fb (!fSign eb fb g) (fExp eb fb g) (fMan fb g), ?_⟩
  rw [ieee_eq] at hg ⊢
  rw [fJoin_sign (fExp_lt _ _ _) (fMan_lt _ _), fJoin_exp (fExp_lt _ _ _) (fMan_lt _ _), fJoin_man (fMan_lt _ _)]
  by_cases h1 : fExp eb fb g = 2 ^ eb - 1
  · rw [if_pos h1] at hg; split_ifs at hg
  · rw [if_neg h1] at hg ⊢
    split_ifs at hg ⊢ with h2 h3 <;> simp_all [← XNum.num.inj hg]

/-- rounding does not cross a float in magnitude -/
theorem IsRounded.abs_le {x y Z : ℚ} {b : ℕ} (h : IsRounded eb fb x b) (hy : ieee eb fb b = .num y) (hZ0 : 0 ≤ Z)
    (hZ : ∃ g, ieee eb fb g = .num Z) : (|x| ≤ Z → |y| ≤ Z) ∧ (Z ≤ |x| → Z ≤ |y|) := by
  obtain ⟨y', hy', hr⟩ := h
  obtain rfl : y = y' := XNum.num.inj (hy.symm.trans hy')
  obtain ⟨g, hg⟩ := hZ
  obtain ⟨g', hg'⟩ := ieee_neg hg
  have h1 := hr g Z hg
  have h2 := hr g' (-Z) hg'
  constructor
  · intro hx
    rw [_root_.abs_le] at hx ⊢
    exact ⟨h2.1 hx.1, h1.2 hx.2⟩
  · intro hx
    rcases le_abs.mp hx with hc | hc
    · exact le_abs.mpr (Or.inl (h1.1 hc))
    · exact le_abs.mpr (Or.inr (by linarith [h2.2 (by linarith)]))

/-- if moreover no posit lies between a number and its rounding, truncating either gives the same -/
theorem Fmt.Format.IsTrunc.of_rounded {f : Format} {x y : ℚ} {v : ℤ} (h : f.IsTrunc y v)
    (hs : (0 < x ↔ 0 < y) ∧ (x < 0 ↔ y < 0)) (hr : ∀ w, f.IsReal w → w ≠ 0 → (|f.val w| ≤ |x| ↔ |f.val w| ≤ |y|)) :
    f.IsTrunc x v := by
  have hv0 : v ≠ 0 := by have := h.sign; omega
  refine ⟨h.real, ?_, fun w hw h0 hwx => h.greatest w hw h0 ((hr w hw h0).mp hwx), ?_⟩
  · rcases h.sign with ⟨h1, h2⟩ | ⟨h1, h2⟩
    · exact Or.inl ⟨h1, hs.1.mpr h2⟩
    · exact Or.inr ⟨h1, hs.2.mpr h2⟩
  · rcases h.below with h1 | h1
    · exact Or.inl ((hr v h.real hv0).mpr h1)
    · exact Or.inr h1

/-- the arithmetic of `quotient_gap` when the grid of the quotient is coarser -/
theorem gap_far {na u y w q S : ℚ} (hna : na ≤ u * 2) (hS : u * 2 ≤ S) (hw : y * u ≤ w) (hu : 1 ≤ u) (hna0 : 0 < na) (hy : 0 < y)
    (hq : 0 < q) (e : q * (na + 1) ≤ w * na) (hlt : q < w) (hS4 : 4 ≤ S) : y ≤ (w - q) * S := by
  have hyw : y ≤ w := by nlinarith
  by_cases hc : q ≤ w / 2
  · calc y ≤ w := hyw
      _ ≤ (w - q) * 4 := by linarith
      _ ≤ (w - q) * S := mul_le_mul_of_nonneg_left hS4 (by linarith)
  · -- (w - q)·na ≥ q ≥ w/2
    have h3 : w / 2 ≤ (w - q) * na := by
      have : (w - q) * na = w * na - q * (na + 1) + q := by ring
      linarith
    have h4 : (w - q) * na ≤ (w - q) * (u * 2) := mul_le_mul_of_nonneg_left hna (by linarith)
    have h5 : y ≤ (w - q) * 4 := by
      have : y * u ≤ (w - q) * 4 * u := by linarith
      exact le_of_mul_le_mul_right this (by linarith)
    exact h5.trans (mul_le_mul_of_nonneg_left hS4 (by linarith))

/-- between the quotient of two numbers of `p+1` bits and a greater such number there is a float, if the float has a little
more than twice the fraction bits -/
theorem quotient_gap_nat {p : ℕ} (heb : 2 ≤ eb) (h1 : 2 * p + 1 ≤ fb) (h2 : p + 2 ≤ fb) {na nb nw : ℕ} {A B W : ℤ} {q : ℚ}
    (hna : na < 2 ^ (p + 1)) (hnb : nb < 2 ^ (p + 1)) (hnb' : 0 < nb) (hnw' : 2 ^ p ≤ nw) (hnw : nw < 2 ^ (p + 1))
    (hqe : q * (nb * 2 ^ B) = na * 2 ^ A) (hlt : q < nw * 2 ^ W)
    (hlo : (2 : ℚ) ^ ((2 : ℤ) - 2 ^ (eb - 1)) ≤ q) (hhi : (nw : ℚ) * 2 ^ W ≤ 2 ^ ((2 : ℤ) ^ (eb - 1))) :
    ∃ z g, ieee eb fb g = .num z ∧ q ≤ z ∧ z < nw * 2 ^ W := by
  have hpA : (0 : ℚ) < 2 ^ A := by positivity
  have hpB : (0 : ℚ) < 2 ^ B := by positivity
  have hpW : (0 : ℚ) < 2 ^ W := by positivity
  have hnb0 : (0 : ℚ) < nb := by exact_mod_cast hnb'
  have hq0 : 0 < q := lt_of_lt_of_le (by positivity) hlo
  have hna0 : (0 : ℚ) < na := by
    have : (0 : ℚ) < na * 2 ^ A := by rw [← hqe]; positivity
    exact pos_of_mul_pos_left this hpA.le
  have hnaq : (na : ℚ) ≤ 2 ^ (p + 1) := by exact_mod_cast hna.le
  have hnbq : (nb : ℚ) ≤ 2 ^ (p + 1) := by exact_mod_cast hnb.le
  have hnwq : (2 : ℚ) ^ p ≤ nw := by exact_mod_cast hnw'
  -- the unit of the float below `w`
  obtain ⟨s, hs⟩ : ∃ s, fb = p + s := ⟨fb - p, by omega⟩
  have hs1 : p + 1 ≤ s := by omega
  have hs2 : 2 ≤ s := by omega
  have hps : (0 : ℚ) < 2 ^ s := by positivity
  have hps1 : (2 : ℚ) ^ (p + 1) ≤ 2 ^ s := pow_le_pow_right₀ (by norm_num) hs1
  have hps2 : (4 : ℚ) ≤ 2 ^ s := by
    calc (4 : ℚ) = 2 ^ 2 := by norm_num
      _ ≤ 2 ^ s := pow_le_pow_right₀ (by norm_num) hs2
  have hgap : 2 ^ W / 2 ^ s ≤ nw * 2 ^ W - q := by
    rcases le_or_gt (W + B) A with hc | hc
    · obtain ⟨j, hj⟩ := Int.eq_ofNat_of_zero_le (show 0 ≤ A - (W + B) by omega)
      have hA' : (2 : ℚ) ^ A = 2 ^ j * (2 ^ W * 2 ^ B) := by
        rw [← zpow_natCast (2 : ℚ) j, ← hj, ← zpow_add₀ (by norm_num), ← zpow_add₀ (by norm_num)]; congr 1; ring
      have hi : na * 2 ^ j < nw * nb := by
        have : (na : ℚ) * 2 ^ j * (2 ^ W * 2 ^ B) < nw * nb * (2 ^ W * 2 ^ B) := by
          rw [mul_assoc, ← hA', ← hqe]; nlinarith [mul_pos hnb0 hpB]
        have := lt_of_mul_lt_mul_right this (by positivity)
        exact_mod_cast this
      have hi' : (na : ℚ) * 2 ^ j + 1 ≤ nw * nb := by exact_mod_cast hi
      have e1 : q = na * 2 ^ j * 2 ^ W / nb := by
        rw [eq_div_iff hnb0.ne']
        have := hqe
        rw [hA'] at this
        have h3 : (q * nb - na * 2 ^ j * 2 ^ W) * 2 ^ B = 0 := by linarith
        rcases mul_eq_zero.mp h3 with h4 | h4
        · linarith
        · exact absurd h4 hpB.ne'
      have e2 : (nw : ℚ) * 2 ^ W - q ≥ 2 ^ W / nb := by
        rw [e1, ge_iff_le, div_le_iff₀ hnb0, sub_mul, div_mul_cancel₀ _ hnb0.ne']
        nlinarith
      calc (2 : ℚ) ^ W / 2 ^ s ≤ 2 ^ W / nb := by
            apply div_le_div_of_nonneg_left hpW.le hnb0; linarith
        _ ≤ _ := e2
    · obtain ⟨j, hj⟩ := Int.eq_ofNat_of_zero_le (show 0 ≤ W + B - A by omega)
      have hWB : (2 : ℚ) ^ W * 2 ^ B = 2 ^ j * 2 ^ A := by
        rw [← zpow_natCast (2 : ℚ) j, ← hj, ← zpow_add₀ (by norm_num), ← zpow_add₀ (by norm_num)]; congr 1; ring
      have hi : na < nw * nb * 2 ^ j := by
        have : (na : ℚ) * 2 ^ A < nw * nb * 2 ^ j * 2 ^ A := by
          rw [← hqe, mul_assoc _ ((2 : ℚ) ^ j), ← hWB]; nlinarith [mul_pos hnb0 hpB]
        have := lt_of_mul_lt_mul_right this (by positivity)
        exact_mod_cast this
      have hi' : (na : ℚ) + 1 ≤ nw * nb * 2 ^ j := by exact_mod_cast hi
      -- so w exceeds q by at least q / na
      have e2 : q * (na + 1) ≤ nw * 2 ^ W * na := by
        have hX : 0 < (nb : ℚ) * 2 ^ B := by positivity
        apply le_of_mul_le_mul_right _ hX
        calc q * (na + 1) * (nb * 2 ^ B) = (na + 1) * (na * 2 ^ A) := by rw [← hqe]; ring
          _ ≤ nw * nb * 2 ^ j * (na * 2 ^ A) := mul_le_mul_of_nonneg_right hi' (by positivity)
          _ = nw * na * nb * (2 ^ j * 2 ^ A) := by ring
          _ = nw * 2 ^ W * na * (nb * 2 ^ B) := by rw [← hWB]; ring
      rw [div_le_iff₀ hps]
      have hw2 : (2 : ℚ) ^ W * 2 ^ p ≤ nw * 2 ^ W := by nlinarith
      have hfb0 : (1 : ℚ) ≤ 2 ^ p := one_le_pow₀ (by norm_num)
      rw [pow_succ] at hnaq hps1
      exact gap_far hnaq hps1 hw2 hfb0 hna0 hpW hq0 e2 hlt hps2
  have hz : ((nw * 2 ^ s - 1 : ℤ) : ℚ) * 2 ^ (W - s) = nw * 2 ^ W - 2 ^ W / 2 ^ s := by
    rw [zpow_sub₀ (by norm_num), zpow_natCast]; push_cast; field_simp
  have hge : q ≤ ((nw * 2 ^ s - 1 : ℤ) : ℚ) * 2 ^ (W - s) := by rw [hz]; linarith
  have hl : ((nw * 2 ^ s - 1 : ℤ) : ℚ) * 2 ^ (W - s) < nw * 2 ^ W := by
    rw [hz]; have : (0 : ℚ) < 2 ^ W / 2 ^ s := by positivity
    linarith
  have hzp : 0 < ((nw * 2 ^ s - 1 : ℤ) : ℚ) * 2 ^ (W - s) := lt_of_lt_of_le hq0 hge
  obtain ⟨g, hg⟩ := float_of_fits (eb := eb) (fb := fb) heb (x := ((nw * 2 ^ s - 1 : ℤ) : ℚ) * 2 ^ (W - s))
    ⟨nw * 2 ^ s - 1, W - s, by
      have h3 : (1 : ℤ) ≤ nw * 2 ^ s := by
        have : 1 ≤ nw := le_trans Nat.one_le_two_pow hnw'
        have : 1 ≤ nw * 2 ^ s := Nat.one_le_iff_ne_zero.mpr (by positivity)
        exact_mod_cast this
      rw [abs_of_nonneg (by omega), hs, show p + s + 1 = p + 1 + s by ring, pow_add]
      have h4 : (nw : ℤ) * 2 ^ s ≤ 2 ^ (p + 1) * 2 ^ s := by
        have : nw * 2 ^ s ≤ 2 ^ (p + 1) * 2 ^ s := Nat.mul_le_mul_right _ hnw.le
        exact_mod_cast this
      omega, rfl⟩ (by rw [abs_of_pos hzp]; linarith) (by rw [abs_of_pos hzp]; linarith)
  exact ⟨_, g, hg, hge, hl⟩

/-- between the quotient of two posits and a greater posit there is a float, if the float has a little more than twice the
fraction bits -/
theorem quotient_gap (h : c.WF) (heb : 2 ≤ eb) (h1 : 2 * c.fb + 1 ≤ fb) (h2 : c.fb + 2 ≤ fb)
    {a b w : ℤ} (ha : c.fmt.IsReal a) (ha0 : a ≠ 0) (hb : c.fmt.IsReal b) (hb0 : b ≠ 0) (hw : c.fmt.IsReal w) (hw0 : w ≠ 0)
    (hlt : |c.fmt.val a / c.fmt.val b| < |c.fmt.val w|)
    (hlo : (2 : ℚ) ^ ((2 : ℤ) - 2 ^ (eb - 1)) ≤ |c.fmt.val a / c.fmt.val b|) (hhi : |c.fmt.val w| ≤ 2 ^ ((2 : ℤ) ^ (eb - 1))) :
    ∃ z g, ieee eb fb g = .num z ∧ |c.fmt.val a / c.fmt.val b| ≤ z ∧ z < |c.fmt.val w| := by
  obtain ⟨na, A, -, hna, hea⟩ := posVal_grid h (q := a.natAbs) (by omega) (real_inRange ha)
  obtain ⟨nb, B, hnb', hnb, heb'⟩ := posVal_grid h (q := b.natAbs) (by omega) (real_inRange hb)
  obtain ⟨nw, W, hnw', hnw, hew⟩ := posVal_grid h (q := w.natAbs) (by omega) (real_inRange hw)
  have hA : |c.fmt.val a| = na * 2 ^ A := by rw [Format.abs_val ha.inRange ha0, fmt_N, fmt_es, hea]
  have hB : |c.fmt.val b| = nb * 2 ^ B := by rw [Format.abs_val hb.inRange hb0, fmt_N, fmt_es, heb']
  have hW : |c.fmt.val w| = nw * 2 ^ W := by rw [Format.abs_val hw.inRange hw0, fmt_N, fmt_es, hew]
  rw [abs_div] at hlt hlo ⊢
  rw [hW] at hlt hhi ⊢
  have hpB : (0 : ℚ) < 2 ^ B := by positivity
  have hnb0 : 0 < nb := lt_of_lt_of_le (by positivity) hnb'
  have hnbq : (0 : ℚ) < nb := by exact_mod_cast hnb0
  refine quotient_gap_nat (A := A) (B := B) heb h1 h2 hna hnb hnb0 hnw' hnw ?_ hlt hlo hhi
  rw [hA, hB]; field_simp

/-- no float is greater than `maxFin` -/
theorem ieee_le_maxFin (heb : 2 ≤ eb) {g : ℕ} {x : ℚ} (hg : ieee eb fb g = .num x) : |x| ≤ maxFin eb fb := by
  have h3 := two_le_pow heb
  have h2 := two_pow_pred_nat (w := eb) (by omega)
  have hb := cast_bias heb
  obtain ⟨h1, ⟨-, hx⟩ | ⟨-, hx⟩⟩ := ieee_num hg
  · have h4 := (sub_abs hx).2
    have h5 : ((2 : ℤ) ^ (eb - 1)) = ((2 ^ (eb - 1) : ℕ) : ℤ) := by push_cast; rfl
    exact h4.le.trans (maxFin_ge (by omega))
  · rw [hx, abs_sign_mul _ (by positivity)]
    unfold maxFin
    have hm : (fMan fb g : ℚ) + 1 ≤ 2 ^ fb := by exact_mod_cast fMan_lt fb g
    have hlt := fExp_lt eb fb g
    have e1 : ((2 : ℚ) - 1 / 2 ^ fb) * 2 ^ ((2 : ℤ) ^ (eb - 1) - 1) = (2 * 2 ^ fb - 1) * 2 ^ ((2 : ℤ) ^ (eb - 1) - 1 - fb) := by
      rw [zpow_sub₀ (by norm_num) _ (fb : ℤ), zpow_natCast]; field_simp
    rw [e1]
    apply mul_le_mul _ _ (by positivity)
    · have : (1 : ℚ) ≤ 2 ^ fb := one_le_pow₀ (by norm_num)
      linarith
    · linarith
    · apply zpow_le_zpow_right₀ (by norm_num)
      have h5 : ((2 : ℤ) ^ (eb - 1)) = ((2 ^ (eb - 1) : ℕ) : ℤ) := by push_cast; rfl
      omega

theorem bind_ok {A B : Type} {m : M A} {x : A} (f : A → M B) (h : m = .ok x) : (m >>= f) = f x := by subst h; rfl

theorem IsRounded.of_num {g : ℕ} {x : ℚ} (hg : ieee eb fb g = .num x) : IsRounded eb fb x g :=
  ⟨x, hg, fun _ _ _ => ⟨id, id⟩⟩

/-- the exponent range of `float` is that of `double` cut down -/
theorem FloatFor.double (h : FloatFor c t) : FloatFor c .double := by
  refine ⟨Or.inr rfl, h.wf, h.narrow, h.hE, h.hF, ?_, ?_⟩
  · have := h.hfb; rcases h.tr with rfl | rfl <;> simp [FTrait.single, FTrait.double] at * <;> omega
  · have := h.range; rcases h.tr with rfl | rfl <;> simp [FTrait.single, FTrait.double] at * <;> omega

/-- a posit divided by a posit, rounded and converted -/
theorem FloatFor.ofFloat_div (h : FloatFor c t) (hr : 2 * c.maxScale + 3 ≤ 2 ^ (t.eb - 1)) {a b : ℤ} (ha : c.fmt.IsReal a)
    (ha0 : a ≠ 0) (hb : c.fmt.IsReal b) (hb0 : b ≠ 0) {g : ℕ} (hg : IsRounded t.eb t.fb (c.fmt.val a / c.fmt.val b) g) :
    ∃ v, Posit.ofFloat c t g = .ok v ∧ c.fmt.IsFaithful (c.fmt.val a / c.fmt.val b) v ∧ v ≠ 0 ∧
      (2 * c.fb + 1 ≤ t.fb → c.fb + 2 ≤ t.fb → c.fmt.IsTrunc (c.fmt.val a / c.fmt.val b) v) := by
  obtain ⟨heb, -, hfb, -⟩ := h.heb
  have hB : ((2 : ℤ) ^ (t.eb - 1)) = ((2 ^ (t.eb - 1) : ℕ) : ℤ) := by push_cast; rfl
  obtain ⟨a1, a2⟩ := val_abs_bounds h.wf ha ha0
  obtain ⟨b1, b2⟩ := val_abs_bounds h.wf hb hb0
  have hbp : 0 < |c.fmt.val b| := lt_of_lt_of_le (by positivity) b1
  have hap : 0 < |c.fmt.val a| := lt_of_lt_of_le (by positivity) a1
  have hlo : (2 : ℚ) ^ ((2 : ℤ) - 2 ^ (t.eb - 1)) ≤ |c.fmt.val a / c.fmt.val b| := by
    rw [abs_div, le_div_iff₀ hbp]
    calc (2 : ℚ) ^ ((2 : ℤ) - 2 ^ (t.eb - 1)) * |c.fmt.val b| ≤ 2 ^ ((2 : ℤ) - 2 ^ (t.eb - 1)) * 2 ^ ((c.maxScale : ℤ) + 1) :=
          mul_le_mul_of_nonneg_left b2 (by positivity)
      _ ≤ 2 ^ (-(c.maxScale : ℤ)) := by
          rw [← zpow_add₀ (by norm_num)]; exact zpow_le_zpow_right₀ (by norm_num) (by omega)
      _ ≤ _ := a1
  obtain ⟨v, hv, hfa, hv0, -⟩ := h.ofFloat hg hlo
  refine ⟨v, hv, hfa, hv0, fun h1 h2 => ?_⟩
  obtain ⟨y, hy, hg'⟩ := id hg
  -- the rounded quotient is converted with truncation
  have habs := fun Z hZ0 hZ => IsRounded.abs_le (Z := Z) hg hy hZ0 hZ
  obtain ⟨gm, hgm⟩ : ∃ g, ieee t.eb t.fb g = .num ((2 : ℚ) ^ ((2 : ℤ) - 2 ^ (t.eb - 1))) :=
    ⟨_, (C51_constants (dn := true) heb hfb).2.2.1⟩
  have hylo := (habs _ (by positivity) ⟨gm, hgm⟩).2 hlo
  obtain ⟨v', hv', -, -, ht⟩ := h.ofFloat (IsRounded.of_num hy) hylo
  obtain rfl : v' = v := by rw [hv] at hv'; exact (Except.ok.inj hv').symm
  obtain ⟨gz, hgz⟩ : ∃ g, ieee t.eb t.fb g = .num 0 := ⟨0, ieee_zero.resolve_right (by omega)⟩
  have hz := hg' gz 0 hgz
  have hy0 : y ≠ 0 := by rintro rfl; rw [abs_zero] at hylo; exact absurd hylo (not_le.mpr (by positivity))
  have hq0 : c.fmt.val a / c.fmt.val b ≠ 0 := by
    intro hc; rw [hc, abs_zero] at hlo; exact absurd hlo (not_le.mpr (by positivity))
  refine (ht ⟨g, hy⟩).of_rounded ⟨⟨fun hp => lt_of_le_of_ne (hz.1 hp.le) hy0.symm, fun hp => ?_⟩,
    ⟨fun hp => lt_of_le_of_ne (hz.2 hp.le) hy0, fun hp => ?_⟩⟩ fun w hw hw0 => ⟨fun hle => ?_, fun hle => ?_⟩
  · by_contra hc
    exact absurd (hz.2 (not_lt.mp hc)) (not_le.mpr hp)
  · by_contra hc
    exact absurd (hz.1 (not_lt.mp hc)) (not_le.mpr hp)
  · -- a posit is a float
    obtain ⟨gw, -, hgw⟩ := h.toFloat hw
    have : ∃ g, ieee t.eb t.fb g = .num |c.fmt.val w| := by
      rcases abs_choice (c.fmt.val w) with hc | hc <;> rw [hc]
      · exact ⟨gw, hgw⟩
      · exact ieee_neg hgw
    exact (habs _ (abs_nonneg _) this).2 hle
  · by_contra hc
    obtain ⟨z, gz', hz1, hz2, hz3⟩ := quotient_gap h.wf heb h1 h2 ha ha0 hb hb0 hw hw0 (not_le.mp hc) hlo
      ((val_abs_bounds h.wf hw hw0).2.trans (zpow_le_zpow_right₀ (by norm_num) (by omega)))
    have := (habs z (le_trans (abs_nonneg _) hz2) ⟨gz', hz1⟩).1 hz2
    linarith

end Verif
