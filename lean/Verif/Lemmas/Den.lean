import Verif.Lemmas.AddReal
import Verif.Spec.Fits

/-! # Exact unpacked arithmetic: products, and sums that fit the fraction type -/

namespace Verif
open Fmt

variable {c : Cfg} {F E : ℕ}

theorem log_mag {e : ℤ} {f : ℕ} (hf : f < 2 ^ F) : Int.log 2 (mag F e f) = e := by
  have hpos := mag_pos F e f
  apply le_antisymm
  · have := (Int.lt_zpow_iff_log_lt (b := 2) (by norm_num) hpos (x := e + 1)).mp (by exact_mod_cast mag_lt hf)
    omega
  · exact (Int.zpow_le_iff_le_log (b := 2) (by norm_num) hpos).mp (by exact_mod_cast le_mag F e f)

theorem abs_sign_mul (s : Bool) {x : ℚ} (hx : 0 ≤ x) : |(if s then -1 else 1 : ℚ) * x| = x := by
  cases s <;> simp [abs_of_nonneg hx]

/-! ## `Fits` -/

theorem Fmt.Fits.abs {m : ℕ} {x : ℚ} (h : Fits m x) : ∃ (n : ℕ) (X : ℤ), n < 2 ^ m ∧ |x| = n * 2 ^ X := by
  obtain ⟨n, X, hn, rfl⟩ := h
  refine ⟨n.natAbs, X, ?_, ?_⟩
  · have : ((n.natAbs : ℕ) : ℤ) < 2 ^ m := by rwa [Int.natCast_natAbs]
    exact_mod_cast this
  · rw [abs_mul, abs_of_pos (by positivity : (0 : ℚ) < 2 ^ X), Nat.cast_natAbs, Int.cast_abs]

theorem Fmt.Fits.mono {m m' : ℕ} {x : ℚ} (h : Fits m x) (hm : m ≤ m') : Fits m' x := by
  obtain ⟨n, X, hn, rfl⟩ := h
  exact ⟨n, X, lt_of_lt_of_le hn (pow_le_pow_right₀ (by norm_num) hm), rfl⟩

theorem Fmt.Fits.mul {m m' : ℕ} {x y : ℚ} (h : Fits m x) (h' : Fits m' y) : Fits (m + m') (x * y) := by
  obtain ⟨n, X, hn, rfl⟩ := h
  obtain ⟨k, Y, hk, rfl⟩ := h'
  refine ⟨n * k, X + Y, ?_, ?_⟩
  · rw [abs_mul, pow_add]
    exact mul_lt_mul'' hn hk (abs_nonneg _) (abs_nonneg _)
  · rw [zpow_add₀ (by norm_num)]; push_cast; ring

theorem Fmt.Fits.neg {m : ℕ} {x : ℚ} (h : Fits m x) : Fits m (-x) := by
  obtain ⟨n, X, hn, rfl⟩ := h
  exact ⟨-n, X, by rwa [abs_neg], by push_cast; ring⟩

theorem fits_zero (m : ℕ) : Fits m 0 := ⟨0, 0, by simp, by simp⟩

theorem fits_posit (h : c.WF) {v : ℤ} (hv : c.fmt.IsReal v) : Fits (c.fb + 1) (c.fmt.val v) := by
  by_cases h0 : v = 0
  · subst h0; rw [Format.val_zero]; exact fits_zero _
  · obtain ⟨n, X, -, hn, he⟩ := posVal_grid h (q := v.natAbs) (by omega) (real_inRange hv)
    have key : Fits (c.fb + 1) |c.fmt.val v| := by
      rw [Format.abs_val hv.inRange h0]
      exact ⟨n, X, by rw [abs_of_nonneg (by positivity)]; exact_mod_cast hn, by rw [fmt_N, fmt_es, he]; simp⟩
    rcases abs_choice (c.fmt.val v) with h1 | h1 <;> rw [h1] at key
    · exact key
    · simpa using key.neg

/-- a number with at most `m` bits that agrees with `u·2^Y` up to a unit, `u` having at least `m` bits, is equal to it -/
theorem fits_unit {m : ℕ} {y : ℚ} (hm : Fits m y) {u : ℕ} {Y : ℤ} (hu : 2 ^ m ≤ 2 * u) (h1 : (u : ℚ) * 2 ^ Y ≤ |y|)
    (h2 : |y| < (u + 1 : ℚ) * 2 ^ Y) : |y| = u * 2 ^ Y := by
  obtain ⟨n, X, hn, hy⟩ := hm.abs
  rw [hy] at h1 h2 ⊢
  have hY : (0 : ℚ) < 2 ^ Y := by positivity
  rcases le_or_gt Y X with hXY | hXY
  · obtain ⟨d, hd⟩ : ∃ d : ℕ, X = Y + d := ⟨(X - Y).toNat, by omega⟩
    rw [hd, zpow_add₀ (by norm_num), zpow_natCast] at h1 h2 ⊢
    have h3 : (u : ℚ) ≤ n * 2 ^ d := le_of_mul_le_mul_right (by linarith) hY
    have h4 : (n * 2 ^ d : ℚ) < u + 1 := lt_of_mul_lt_mul_right (by linarith) hY.le
    have h3' : u ≤ n * 2 ^ d := by exact_mod_cast h3
    have h4' : n * 2 ^ d < u + 1 := by exact_mod_cast h4
    have h5 : n * 2 ^ d = u := by omega
    have h6 : (n : ℚ) * 2 ^ d = u := by exact_mod_cast h5
    rw [← h6]; ring
  · exfalso
    have e1 : (2 : ℚ) ^ X ≤ 2 ^ (Y - 1) := zpow_le_zpow_right₀ (by norm_num) (by omega)
    have e2 : (2 : ℚ) ^ (Y - 1) * 2 = 2 ^ Y := by rw [← zpow_add_one₀ (by norm_num)]; congr 1; omega
    have e4 : (0 : ℚ) < 2 ^ (Y - 1) := by positivity
    have e5 : (n : ℚ) < 2 * u := by
      have : n < 2 * u := by omega
      exact_mod_cast this
    have : (n : ℚ) * 2 ^ X ≤ n * 2 ^ (Y - 1) := mul_le_mul_of_nonneg_left e1 (by positivity)
    have : (n : ℚ) * 2 ^ (Y - 1) < (2 * u) * 2 ^ (Y - 1) := mul_lt_mul_of_pos_right e5 e4
    rw [← e2] at h1
    linarith

/-- the fraction field of a number with few significant bits ends in zeros -/
theorem dvd_of_fits {m : ℕ} {e : ℤ} {f : ℕ} (hf : f < 2 ^ F) (hm : m ≤ F + 1) (h : Fits m (mag F e f)) :
    2 ^ (F + 1 - m) ∣ f := by
  obtain ⟨n, X, hn, hy⟩ := h.abs
  rw [abs_of_pos (mag_pos _ _ _)] at hy
  have hmag : mag F e f = ((2 ^ F + f : ℕ) : ℚ) * 2 ^ (e - F) := by
    have := mag_sub (F := F) (e := e) (x := 2 ^ F + f) (by omega)
    rwa [show 2 ^ F + f - 2 ^ F = f by omega] at this
  rw [hmag] at hy
  have hp : (0 : ℚ) < 2 ^ (e - (F : ℤ)) := by positivity
  -- the unit of the short form is a large multiple of the unit of the field
  have hX : e - F + (F + 1 - m) ≤ X := by
    by_contra hc
    have e1 : (2 : ℚ) ^ X ≤ 2 ^ (e - F + (F - m)) := zpow_le_zpow_right₀ (by norm_num) (by omega)
    have e2 : ((2 ^ F + f : ℕ) : ℚ) * 2 ^ (e - F) < 2 ^ m * 2 ^ (e - F + (F - m)) := by
      rw [hy]
      calc (n : ℚ) * 2 ^ X ≤ n * 2 ^ (e - F + (F - m)) := mul_le_mul_of_nonneg_left e1 (by positivity)
        _ < _ := mul_lt_mul_of_pos_right (by exact_mod_cast hn) (by positivity)
    have e3 : (2 : ℚ) ^ m * 2 ^ (e - F + (F - m)) = 2 ^ F * 2 ^ (e - F) := by
      rw [← zpow_natCast, ← zpow_add₀ (by norm_num), ← zpow_natCast, ← zpow_add₀ (by norm_num)]; congr 1; ring
    rw [e3] at e2
    have e4 : ((2 ^ F + f : ℕ) : ℚ) < 2 ^ F := lt_of_mul_lt_mul_right e2 hp.le
    have e5 : 2 ^ F + f < 2 ^ F := by exact_mod_cast e4
    omega
  obtain ⟨d, hd⟩ : ∃ d : ℕ, X = e - F + d := ⟨(X - (e - F)).toNat, by omega⟩
  have hd2 : F + 1 - m ≤ d := by omega
  rw [hd, zpow_add₀ (by norm_num), zpow_natCast] at hy
  have e6 : ((2 ^ F + f : ℕ) : ℚ) = n * 2 ^ d := mul_right_cancel₀ hp.ne' (by rw [hy]; ring)
  have e7 : 2 ^ F + f = n * 2 ^ d := by exact_mod_cast e6
  have hdv : 2 ^ (F + 1 - m) ∣ 2 ^ F + f := by rw [e7]; exact Dvd.dvd.mul_left (pow_dvd_pow _ hd2) _
  by_cases hm0 : m = 0
  · subst hm0
    simp at hn; subst hn
    have := Nat.one_le_two_pow (n := F)
    omega
  · exact (Nat.dvd_add_right (pow_dvd_pow _ (by omega))).mp hdv

/-! ## decoded numbers -/

/-- `u` is the decoded form of `x`: zero, or a regular number whose fraction field ends in at least `k` zeros -/
inductive Den (F k : ℕ) : Unp → ℚ → Prop
  | zero : Den F k ⟨.zero, false, 0, 0⟩ 0
  | reg (s : Bool) (e : ℤ) (f : ℕ) (hf : f < 2 ^ F) (hd : 2 ^ k ∣ f) :
      Den F k ⟨.regular, s, e, f⟩ ((if s then -1 else 1) * mag F e f)

theorem Den.reg' {k : ℕ} {s : Bool} {e : ℤ} {f : ℕ} {x : ℚ} (hf : f < 2 ^ F) (hk : k ≤ F) (hx : x = (if s then -1 else 1) * mag F e f)
    (hfit : Fits (F + 1 - k) x) : Den F k ⟨.regular, s, e, f⟩ x := by
  rw [hx]
  refine .reg s e f hf ?_
  have : Fits (F + 1 - k) (mag F e f) := by
    rw [hx] at hfit
    cases s
    · simpa using hfit
    · simpa using hfit.neg
  have := dvd_of_fits hf (by omega) this
  rwa [show F + 1 - (F + 1 - k) = k by omega] at this

theorem den_unpack (h : c.WF) {k : ℕ} (hF : c.fb + k ≤ c.F) {v : ℤ} (hv : c.fmt.IsReal v) :
    ∃ u, Posit.unpack c v = .ok u ∧ Den c.F k u (c.fmt.val v) ∧ |u.exp| ≤ c.maxScale := by
  by_cases h0 : v = 0
  · subst h0
    refine ⟨_, unpack_zero h, ?_, by simp⟩
    rw [Format.val_zero]; exact .zero
  · obtain ⟨e, f, hu⟩ := unpack_real h hv h0
    refine ⟨_, hu.eq, ?_, hu.e_abs h⟩
    rw [hu.sign_val (by omega) hv h0]
    have := Den.reg (decide (v < 0)) e f hu.f_lt (hu.dvd_pow hF)
    simpa using this

/-- the product of two decoded posits is exact if the fraction type holds it -/
theorem den_mul (h : c.WF) {k : ℕ} (hk : 2 ≤ k) (hF : 2 * c.fb + 1 + k ≤ c.F) {a b : ℤ} (ha : c.fmt.IsReal a)
    (hb : c.fmt.IsReal b) :
    ∃ ua ub u, Posit.unpack c a = .ok ua ∧ Posit.unpack c b = .ok ub ∧ Unp.mul c.F c.E ua ub = .ok u ∧
      Den c.F k u (c.fmt.val a * c.fmt.val b) ∧ |u.exp| ≤ 2 * c.maxScale + 1 := by
  have hfit : Fits (c.F + 1 - k) (c.fmt.val a * c.fmt.val b) :=
    ((fits_posit h ha).mul (fits_posit h hb)).mono (by omega)
  by_cases ha0 : a = 0
  · subst ha0
    rw [Format.val_zero, zero_mul]
    by_cases hb0 : b = 0
    · subst hb0
      exact ⟨_, _, _, unpack_zero h, unpack_zero h, rfl, .zero, by simp [Unp.ofTy]; omega⟩
    · obtain ⟨e, f, hu⟩ := unpack_real h hb hb0
      exact ⟨_, _, _, unpack_zero h, hu.eq, rfl, .zero, by simp [Unp.ofTy]; omega⟩
  · obtain ⟨ea, fa, hua⟩ := unpack_real h ha ha0
    by_cases hb0 : b = 0
    · subst hb0
      rw [Format.val_zero, mul_zero]
      exact ⟨_, _, _, hua.eq, unpack_zero h, rfl, .zero, by simp [Unp.ofTy]; omega⟩
    · obtain ⟨eb, fb, hub⟩ := unpack_real h hb hb0
      obtain ⟨e, f, u, Y, heq, hf, hu, hm, hy1, hy2, he⟩ := mul_unp h (by omega) hua hub
      refine ⟨_, _, _, hua.eq, hub.eq, heq, ?_, ?_⟩
      · have h2 : 2 ^ (c.F + 1 - k) ≤ 2 * u := by
          calc 2 ^ (c.F + 1 - k) ≤ 2 ^ (c.F - 2 + 1) := Nat.pow_le_pow_right (by norm_num) (by omega)
            _ = 2 * 2 ^ (c.F - 2) := by rw [pow_succ]; ring
            _ ≤ _ := by omega
        have hex := fits_unit hfit h2 hy1 hy2
        refine Den.reg' hf (by omega) ?_ hfit
        rw [hm, ← hex, mul_real_sign ha ha0 hb hb0]
      · have h1 := hua.e_abs h
        have h2 := hub.e_abs h
        simp only
        rw [abs_le] at *
        omega

/-- what is needed for `Unpacked::operator+` on decoded numbers not to shift out of range -/
structure AddOK (c : Cfg) (k : ℕ) (x y : ℚ) : Prop where
  close : x = 0 ∨ y = 0 ∨ |Int.log 2 (|x|) - Int.log 2 (|y|)| < (pw c.F : ℤ)
  spare : x * y < 0 → c.F < 32 ∨ 4 ≤ k

theorem Den.cases {k : ℕ} {u : Unp} {x : ℚ} (h : Den F k u x) :
    (u = ⟨.zero, false, 0, 0⟩ ∧ x = 0) ∨ ∃ s e f, u = ⟨.regular, s, e, f⟩ ∧ f < 2 ^ F ∧ 2 ^ k ∣ f ∧
      x = (if s then -1 else 1) * mag F e f ∧ |x| = mag F e f ∧ x ≠ 0 := by
  cases h with
  | zero => exact Or.inl ⟨rfl, rfl⟩
  | reg s e f hf hd =>
    refine Or.inr ⟨s, e, f, rfl, hf, hd, rfl, abs_sign_mul s (mag_pos _ _ _).le, ?_⟩
    have := mag_pos F e f
    cases s <;> simp [this.ne']

theorem pw_F_le (h : c.WF) : pw c.F ≤ 64 := by rcases h.hF with hF | hF | hF | hF <;> rw [hF] <;> decide

/-- ranges for the addition of decoded numbers -/
theorem addRange_close (h : c.WF) {ea eb : ℤ} (ha : |ea| ≤ 2 * c.maxScale + 1) (hb : |eb| ≤ 2 * c.maxScale + 1)
    (hd : |ea - eb| < pw c.F) : AddRange c.E c.F ea eb := by
  refine addRange_of h ha hb le_rfl ?_
  have := pw_F_le h
  omega

theorem add_unp {E : ℕ} {sa sb : Bool} {ea eb : ℤ} {fa fb : ℕ} :
    Unp.add F E ⟨.regular, sa, ea, fa⟩ ⟨.regular, sb, eb, fb⟩ =
      Unp.addRegular F E ⟨.regular, sa, ea, fa⟩ ⟨.regular, sb, eb, fb⟩ := by
  unfold Unp.add; simp only [reduceCtorEq, or_self, if_false]

/-- the sum of two decoded numbers is exact if the fraction type holds it -/
theorem den_add (h : c.WF) {k : ℕ} (hk : 3 ≤ k) (hkF : k ≤ c.F) {u w : Unp} {x y : ℚ} (hu : Den c.F k u x) (hw : Den c.F k w y)
    (heu : |u.exp| ≤ 2 * c.maxScale + 1) (hew : |w.exp| ≤ 2 * c.maxScale + 1) (ho : AddOK c k x y)
    (hfit : Fits (c.F + 1 - k) (x + y)) :
    ∃ r, Unp.add c.F c.E u w = .ok r ∧ Den c.F k r (x + y) := by
  have hE := E_ge h
  rcases hu.cases with ⟨rfl, rfl⟩ | ⟨sa, ea, fa, rfl, hfa, hda, hx, hax, hx0⟩
  · refine ⟨w, ?_, by rwa [zero_add]⟩
    rcases hw.cases with ⟨rfl, -⟩ | ⟨sb, eb, fb, rfl, -⟩ <;> rfl
  · rcases hw.cases with ⟨rfl, rfl⟩ | ⟨sb, eb, fb, rfl, hfb, hdb, hy, hay, hy0⟩
    · exact ⟨_, rfl, by rwa [add_zero]⟩
    · have hcl := ho.close
      rw [hax, hay, log_mag hfa, log_mag hfb] at hcl
      have hcl' : |ea - eb| < pw c.F := by
        rcases hcl with h1 | h1 | h1
        · exact absurd h1 hx0
        · exact absurd h1 hy0
        · exact h1
      have hr := addRange_close h heu hew hcl'
      have hd8a : 8 ∣ fa := Dvd.dvd.trans (pow_dvd_pow 2 hk) hda
      have hd8b : 8 ∣ fb := Dvd.dvd.trans (pow_dvd_pow 2 hk) hdb
      rw [add_unp]
      by_cases hs : sa = sb
      · subst hs
        obtain ⟨e, f, v, heq, hf, hv, hm, hy1, hy2, -, -⟩ := addRegular_same (s := sa) h.hF (by omega) hfa hfb
          (Dvd.dvd.trans (by norm_num) hd8a) (Dvd.dvd.trans (by norm_num) hd8b) hcl' hr
        have hxy : x + y = (if sa then -1 else 1) * (mag c.F ea fa + mag c.F eb fb) := by rw [hx, hy]; ring
        have habs : |x + y| = mag c.F ea fa + mag c.F eb fb := by
          rw [hxy]; exact abs_sign_mul _ (add_pos (mag_pos _ _ _) (mag_pos _ _ _)).le
        rw [← habs] at hy1 hy2
        refine ⟨_, heq, Den.reg' hf hkF ?_ hfit⟩
        have h2 : 2 ^ (c.F + 1 - k) ≤ 2 * v := by
          calc 2 ^ (c.F + 1 - k) ≤ 2 ^ (c.F - 2 + 1) := Nat.pow_le_pow_right (by norm_num) (by omega)
            _ = 2 * 2 ^ (c.F - 2) := by rw [pow_succ]; ring
            _ ≤ _ := by omega
        rw [hm, ← fits_unit hfit h2 hy1 hy2, habs, hxy]
      · have hs' : sb = !sa := by cases sa <;> cases sb <;> simp_all
        subst hs'
        have hneg : x * y < 0 := by
          have h1 := mag_pos c.F ea fa
          have h2 := mag_pos c.F eb fb
          have := mul_pos h1 h2
          rw [hx, hy]
          cases sa <;> simp <;> linarith
        have hsm : c.F < 32 ∨ (16 ∣ fa ∧ 16 ∣ fb) := (ho.spare hneg).imp id fun h4 =>
          ⟨Dvd.dvd.trans (pow_dvd_pow 2 h4) hda, Dvd.dvd.trans (pow_dvd_pow 2 h4) hdb⟩
        obtain ⟨hzero, hnz⟩ := addRegular_opp (s := sa) h.hF (by omega) hfa hfb hd8a hd8b hsm hcl' hr
        have hxy : x + y = (if sa then -1 else 1) * (mag c.F ea fa - mag c.F eb fb) := by
          rw [hx, hy]; cases sa <;> simp <;> ring
        by_cases hne : mag c.F ea fa = mag c.F eb fb
        · refine ⟨_, hzero hne, ?_⟩
          rw [hxy, hne, sub_self, mul_zero]; exact .zero
        · obtain ⟨e, f, v, Y, heq, hf, hv, hm, hcase, -, -, -⟩ := hnz hne
          have habs : |x + y| = |mag c.F ea fa - mag c.F eb fb| := by
            rw [hxy, abs_mul]; cases sa <;> simp
          have hex : |mag c.F ea fa - mag c.F eb fb| = v * 2 ^ Y := by
            rcases hcase with h1 | ⟨h1, h2, h3⟩
            · exact h1
            · exfalso
              obtain ⟨v', rfl⟩ : ∃ v', v = v' + 1 := ⟨v - 1, by omega⟩
              push_cast at h2 h3
              rw [add_sub_cancel_right] at h2
              rw [← habs] at h2 h3
              have h4 : 2 ^ (c.F + 1 - k) ≤ 2 * v' := by
                calc 2 ^ (c.F + 1 - k) ≤ 2 ^ (c.F - 3 + 1) := Nat.pow_le_pow_right (by norm_num) (by omega)
                  _ = 2 * 2 ^ (c.F - 3) := by rw [pow_succ]; ring
                  _ ≤ _ := by omega
              have := fits_unit hfit h4 h2.le h3
              linarith
          refine ⟨_, heq, Den.reg' hf hkF ?_ hfit⟩
          rw [hm, ← hex, hxy]
          by_cases hlt : mag c.F eb fb < mag c.F ea fa
          · rw [if_pos hlt, abs_of_pos (by linarith)]
          · have := lt_of_le_of_ne (not_lt.mp hlt) hne
            rw [if_neg hlt, abs_of_neg (by linarith)]
            cases sa <;> simp

/-- packing a decoded number truncates it -/
theorem den_pack (h : c.WF) {k : ℕ} {u : Unp} {x : ℚ} (hu : Den c.F k u x) (hs : x = 0 ∨ c.SafeMag x) :
    ∃ v, Posit.pack c u = .ok v ∧ c.fmt.IsFaithful x v ∧ (v = 0 ↔ x = 0) ∧ (x ≠ 0 → c.fmt.IsTrunc x v) := by
  rcases hu.cases with ⟨rfl, rfl⟩ | ⟨s, e, f, rfl, hf, hd, hx, hax, hx0⟩
  · refine ⟨0, rfl, ?_, by simp, fun hh => absurd rfl hh⟩
    have := Format.isFaithful_val (f := c.fmt) (v := 0) (by unfold Format.IsReal; omega)
    rwa [Format.val_zero] at this
  · have hs' : c.SafeMag (mag c.F e f) := by
      rw [← hax, SafeMag_abs]; exact hs.resolve_left hx0
    have hps : c.PackSafe e := packSafe_of_safeMag hs' (by rw [abs_of_pos (mag_pos _ _ _)]; exact le_mag _ _ _)
      (by rw [abs_of_pos (mag_pos _ _ _)]; exact mag_lt hf)
    obtain ⟨p, hp, ht⟩ := pack_regular h s hf hps
    have ht' := Format.IsTrunc.of_sign s (mag_pos c.F e f) ht
    rw [hx]
    refine ⟨_, hp, ht'.faithful, ?_, fun _ => ht'⟩
    have := ht.one_le
    rw [← hx]
    constructor
    · intro hh; exfalso; revert hh; split_ifs <;> omega
    · intro hh; exact absurd hh hx0

/-- the packed sum of two decoded numbers is a faithful rounding of the exact sum -/
theorem den_add_pack (h : c.WF) {k : ℕ} (hk : 3 ≤ k) (hF : c.fb + 3 ≤ c.F) {u w : Unp} {x y : ℚ}
    (hu : Den c.F k u x) (hw : Den c.F k w y)
    (heu : |u.exp| ≤ 2 * c.maxScale + 1) (hew : |w.exp| ≤ 2 * c.maxScale + 1) (ho : AddOK c k x y)
    (hsxy : x * y < 0 → c.SafeMag x ∧ c.SafeMag y) (hs : x + y = 0 ∨ c.SafeMag (x + y)) :
    ∃ v, (do let r ← Unp.add c.F c.E u w; Posit.pack c r) = .ok v ∧ c.fmt.IsFaithful (x + y) v ∧ (v = 0 ↔ x + y = 0) ∧
      (0 < x * y → c.fmt.IsTrunc (x + y) v) := by
  have hE := E_ge h
  rcases hu.cases with ⟨rfl, rfl⟩ | ⟨sa, ea, fa, rfl, hfa, hda, hx, hax, hx0⟩
  · have : Unp.add c.F c.E ⟨.zero, false, 0, 0⟩ w = .ok w := by
      rcases hw.cases with ⟨rfl, -⟩ | ⟨sb, eb, fb, rfl, -⟩ <;> rfl
    rw [this]
    rw [zero_add] at hs ⊢
    obtain ⟨v, hv, h1, h2, h3⟩ := den_pack h hw hs
    exact ⟨v, hv, h1, h2, fun hh => by simp at hh⟩
  · rcases hw.cases with ⟨rfl, rfl⟩ | ⟨sb, eb, fb, rfl, hfb, hdb, hy, hay, hy0⟩
    · rw [add_zero] at hs ⊢
      obtain ⟨v, hv, h1, h2, h3⟩ := den_pack h hu hs
      exact ⟨v, hv, h1, h2, fun hh => by simp at hh⟩
    · have hcl := ho.close
      rw [hax, hay, log_mag hfa, log_mag hfb] at hcl
      have hcl' : |ea - eb| < pw c.F := by
        rcases hcl with h1 | h1 | h1
        · exact absurd h1 hx0
        · exact absurd h1 hy0
        · exact h1
      have hr := addRange_close h heu hew hcl'
      have hd8a : 8 ∣ fa := Dvd.dvd.trans (pow_dvd_pow 2 hk) hda
      have hd8b : 8 ∣ fb := Dvd.dvd.trans (pow_dvd_pow 2 hk) hdb
      have hma := mag_pos c.F ea fa
      have hmb := mag_pos c.F eb fb
      have hmm := mul_pos hma hmb
      rw [add_unp]
      by_cases hsg : sa = sb
      · subst hsg
        have hxy : x + y = (if sa then -1 else 1) * (mag c.F ea fa + mag c.F eb fb) := by rw [hx, hy]; ring
        have hne : x + y ≠ 0 := by rw [hxy]; cases sa <;> simp <;> linarith
        have hs' : c.SafeMag (mag c.F ea fa + mag c.F eb fb) := by
          have := hs.resolve_left hne
          rw [← SafeMag_abs, hxy, abs_sign_mul _ (by linarith)] at this
          exact this
        obtain ⟨v, hv, ht⟩ := (add_pack_same (s := sa) h (by omega) hfa hfb (Dvd.dvd.trans (by norm_num) hd8a)
          (Dvd.dvd.trans (by norm_num) hd8b) hcl' hr).1 hs'
        rw [← hxy] at ht
        refine ⟨v, hv, ht.faithful, ⟨fun hv0 => ?_, fun hh => absurd hh hne⟩, fun _ => ht⟩
        rcases ht.sign with h1 | h1 <;> omega
      · have hs' : sb = !sa := by cases sa <;> cases sb <;> simp_all
        subst hs'
        have hneg : x * y < 0 := by
          rw [hx, hy]
          cases sa <;> simp <;> linarith
        have hsm : c.F < 32 ∨ (16 ∣ fa ∧ 16 ∣ fb) := (ho.spare hneg).imp id fun h4 =>
          ⟨Dvd.dvd.trans (pow_dvd_pow 2 h4) hda, Dvd.dvd.trans (pow_dvd_pow 2 h4) hdb⟩
        have hxy : x + y = (if sa then -1 else 1) * (mag c.F ea fa - mag c.F eb fb) := by
          rw [hx, hy]; cases sa <;> simp <;> ring
        by_cases hne : mag c.F ea fa = mag c.F eb fb
        · rw [(addRegular_opp (s := sa) h.hF (by omega) hfa hfb hd8a hd8b hsm hcl' hr).1 hne]
          have h0 : x + y = 0 := by rw [hxy, hne, sub_self, mul_zero]
          rw [h0]
          have := Format.isFaithful_val (f := c.fmt) (v := 0) (by unfold Format.IsReal; omega)
          rw [Format.val_zero] at this
          exact ⟨0, rfl, this, by simp, fun hh => by linarith⟩
        · have habs : |x + y| = |mag c.F ea fa - mag c.F eb fb| := by
            rw [hxy, abs_mul]; cases sa <;> simp
          have hne' : x + y ≠ 0 := by
            rw [← abs_pos, habs]; exact abs_pos.mpr (sub_ne_zero.mpr hne)
          obtain ⟨hsx, hsy⟩ := hsxy hneg
          obtain ⟨v, hv, h1, h2⟩ := add_pack_opp (s := sa) h hF hfa hfb hd8a hd8b hsm hcl' hr hne
            (by rw [← hax]; exact SafeMag_abs.mpr hsx) (by rw [← hay]; exact SafeMag_abs.mpr hsy)
            (by rw [← SafeMag_abs, ← habs]; exact SafeMag_abs.mpr (hs.resolve_left hne'))
          rw [← hxy] at h1
          exact ⟨v, hv, h1, ⟨fun hh => absurd hh h2, fun hh => absurd hh hne'⟩, fun hh => by linarith⟩

end Verif
