import Verif.Lemmas.Arith
import Mathlib.Data.Nat.Cast.Field

/-! # The regular case of `Unpacked::operator+` -/

namespace Verif
open Fmt

variable {F E : ℕ}

theorem pow_F4 (hF : 2 ≤ F) : 2 ^ F = 4 * 2 ^ (F - 2) := by
  rw [show F = (F - 2) + 2 by omega, pow_add]; simp; ring

theorem mant2_bounds (hF : 2 ≤ F) {f : ℕ} (hf : f < 2 ^ F) :
    2 ^ (F - 2) ≤ 2 ^ (F - 2) + f / 4 ∧ 2 ^ (F - 2) + f / 4 < 2 * 2 ^ (F - 2) := by
  have := pow_F4 hF
  omega

/-- aligned sum -/
theorem core_same {P A B d : ℕ} (hA : P ≤ A ∧ A < 2 * P) (hB : P ≤ B ∧ B < 2 * P) :
    P ≤ A + B / 2 ^ d ∧ A + B / 2 ^ d < 4 * P ∧ ((A + B / 2 ^ d : ℕ) : ℚ) ≤ A + (B : ℚ) / 2 ^ d ∧
      A + (B : ℚ) / 2 ^ d < ((A + B / 2 ^ d : ℕ) : ℚ) + 1 := by
  have h1 : B / 2 ^ d ≤ B := Nat.div_le_self _ _
  obtain ⟨h2, h3⟩ := div_bounds B (2 ^ d) (by positivity)
  have hp : (0 : ℚ) < 2 ^ d := by positivity
  refine ⟨by generalize B / 2 ^ d = q at *; omega, by generalize B / 2 ^ d = q at *; omega, ?_, ?_⟩
  · rw [Nat.cast_add]
    gcongr
    rw [le_div_iff₀ hp]; push_cast at h2 ⊢; exact h2
  · have : (B : ℚ) / 2 ^ d < (B / 2 ^ d : ℕ) + 1 := by
      rw [div_lt_iff₀ hp]; push_cast at h3 ⊢; exact h3
    rw [Nat.cast_add]
    linarith

/-- aligned difference, the shifted operand being the smaller one -/
theorem core_opp {P A B d : ℕ} (hP : 2 ∣ P) (hA : P ≤ A ∧ A < 2 * P) (hB : P ≤ B ∧ B < 2 * P) (hB2 : 2 ∣ B) (hd : 1 ≤ d) :
    B / 2 ^ d < A ∧ (((A - B / 2 ^ d : ℕ) : ℚ) = A - (B : ℚ) / 2 ^ d ∨
      (P / 2 + 1 ≤ A - B / 2 ^ d ∧ ((A - B / 2 ^ d : ℕ) : ℚ) - 1 < A - (B : ℚ) / 2 ^ d ∧
        A - (B : ℚ) / 2 ^ d < ((A - B / 2 ^ d : ℕ) : ℚ))) ∧ (4 ∣ A → 4 ∣ B → 2 ≤ A - B / 2 ^ d ∨ P / 2 ≤ A - B / 2 ^ d) := by
  have h2d : 2 ≤ 2 ^ d := by
    calc 2 = 2 ^ 1 := by norm_num
      _ ≤ 2 ^ d := Nat.pow_le_pow_right (by norm_num) hd
  have h1 : B / 2 ^ d ≤ B / 2 := Nat.div_le_div_left h2d (by norm_num)
  obtain ⟨b, hb⟩ := hB2
  obtain ⟨p, hp⟩ := hP
  have hlt : B / 2 ^ d < A := by omega
  have hpos : (0 : ℚ) < 2 ^ d := by positivity
  refine ⟨hlt, ?_, ?_⟩
  · rw [Nat.cast_sub hlt.le]
    obtain ⟨h2, h3⟩ := div_bounds B (2 ^ d) (by positivity)
    rcases Nat.lt_or_ge 1 d with hd2 | hd2
    · have h4 : B / 2 ^ d ≤ B / 4 := Nat.div_le_div_left (by
        calc 4 = 2 ^ 2 := by norm_num
          _ ≤ 2 ^ d := Nat.pow_le_pow_right (by norm_num) hd2) (by norm_num)
      by_cases hdv : 2 ^ d ∣ B
      · left
        rw [Nat.cast_div hdv (by positivity)]; push_cast; rfl
      · right
        have hne : ((B / 2 ^ d : ℕ) : ℚ) ≠ (B : ℚ) / 2 ^ d := by
          intro he
          rw [eq_div_iff (by positivity)] at he
          exact hdv ⟨B / 2 ^ d, by rw [mul_comm]; exact_mod_cast he.symm⟩
        have h5 : ((B / 2 ^ d : ℕ) : ℚ) ≤ (B : ℚ) / 2 ^ d := by
          rw [le_div_iff₀ hpos]; push_cast at h2 ⊢; exact h2
        have h6 : (B : ℚ) / 2 ^ d < (B / 2 ^ d : ℕ) + 1 := by
          rw [div_lt_iff₀ hpos]; push_cast at h3 ⊢; exact h3
        have h7 := lt_of_le_of_ne h5 hne
        refine ⟨by omega, by linarith, by linarith⟩
    · left
      have hd1 : d = 1 := by omega
      subst hd1
      rw [Nat.cast_div (by rw [pow_one]; exact ⟨b, hb⟩) (by norm_num)]
      push_cast; rfl
  · intro ⟨x, hx⟩ ⟨y, hy⟩
    rcases Nat.lt_or_ge 1 d with hd2 | hd2
    · right
      have h4 : B / 2 ^ d ≤ B / 4 := Nat.div_le_div_left (by
        calc 4 = 2 ^ 2 := by norm_num
          _ ≤ 2 ^ d := Nat.pow_le_pow_right (by norm_num) hd2) (by norm_num)
      omega
    · left
      have hd1 : d = 1 := by omega
      subst hd1
      rw [pow_one] at *
      omega

theorem condShr_false (x : ℕ) (n : ℤ) : Unp.condShr F false x n = .ok x := rfl

theorem condShr_true {x : ℕ} {n : ℤ} {d : ℕ} (hd : n = d) (h : d < pw F) :
    Unp.condShr F true x n = .ok (x / 2 ^ d) := by
  unfold Unp.condShr
  simp only [if_true]
  exact shrU_ok hd h

/-- the range of exponents that `operator+` passes through -/
def AddRange (E F : ℕ) (ea eb : ℤ) : Prop :=
  InS E (ea - eb) ∧ ∀ x : ℤ, max ea eb - F ≤ x → x ≤ max ea eb + 1 → InS E x

theorem wrapU_sub {x y : ℕ} (h : y ≤ x) (hx : x < 2 ^ F) : wrapU F ((x : ℤ) - y) = x - y := by
  rw [← Nat.cast_sub h, wrapU_natCast (by omega)]

theorem mag_shift (hF : 2 ≤ F) {e e' : ℤ} {f d : ℕ} (h : 4 ∣ f) (he : e = e' + d) :
    mag F e' f = ((2 ^ (F - 2) + f / 4 : ℕ) : ℚ) / 2 ^ d * 2 ^ (e + 2 - F) := by
  rw [mag_quarter hF h, he, show e' + (d : ℤ) + 2 - F = (e' + 2 - F) + d by ring, zpow_add₀ (by norm_num), zpow_natCast]
  field_simp

/-- equal signs -/
theorem addRegular_same (hF : F = 8 ∨ F = 16 ∨ F = 32 ∨ F = 64) (hE : 1 ≤ E) {s : Bool} {ea eb : ℤ} {fa fb : ℕ}
    (hfa : fa < 2 ^ F) (hfb : fb < 2 ^ F) (h4a : 4 ∣ fa) (h4b : 4 ∣ fb) (hd : |ea - eb| < pw F)
    (hr : AddRange E F ea eb) :
    ∃ e f u, Unp.addRegular F E ⟨.regular, s, ea, fa⟩ ⟨.regular, s, eb, fb⟩ = .ok ⟨.regular, s, e, f⟩ ∧
      f < 2 ^ F ∧ 2 ^ (F - 2) ≤ u ∧ mag F e f = (u : ℕ) * 2 ^ (max ea eb + 2 - F) ∧
      (u : ℚ) * 2 ^ (max ea eb + 2 - F) ≤ mag F ea fa + mag F eb fb ∧
      mag F ea fa + mag F eb fb < (u + 1 : ℚ) * 2 ^ (max ea eb + 2 - F) ∧ e ≤ max ea eb + 1 ∧ max ea eb ≤ e := by
  have hF2 : 2 ≤ F := by omega
  have hA := mant2_bounds hF2 hfa
  have hB := mant2_bounds hF2 hfb
  have h4 := pow_F4 hF2
  have hF8 : 2 ^ 6 ≤ 2 ^ (F - 2) := Nat.pow_le_pow_right (by norm_num) (by omega)
  have hposY : (0 : ℚ) < 2 ^ (max ea eb + 2 - (F : ℤ)) := by positivity
  obtain ⟨hr1, hr2⟩ := hr
  have hx := hr2 (max ea eb + 1) (by omega) le_rfl
  -- the two alignments
  have key : ∃ u, 2 ^ (F - 2) ≤ u ∧ u < 2 ^ F ∧
      Unp.addRegular F E ⟨.regular, s, ea, fa⟩ ⟨.regular, s, eb, fb⟩ =
        Unp.normalized F E ⟨.regular, s, max ea eb + 1, u⟩ ∧
      (u : ℚ) * 2 ^ (max ea eb + 2 - F) ≤ mag F ea fa + mag F eb fb ∧
      mag F ea fa + mag F eb fb < (u + 1 : ℚ) * 2 ^ (max ea eb + 2 - F) := by
    unfold Unp.addRegular
    simp only [mant2 hF2 hfa, mant2 hF2 hfb]
    rw [arithS_ok' hr1]
    simp only [bind, Except.bind, pure, Except.pure]
    rcases lt_or_ge (ea - eb) 0 with hneg | hnn
    · obtain ⟨d, hde⟩ : ∃ d : ℕ, eb = ea + d := ⟨(eb - ea).toNat, by omega⟩
      have hmax : max ea eb = eb := by omega
      rw [hmax] at hx ⊢
      have hdp : d < pw F := by rw [abs_lt] at hd; omega
      obtain ⟨c1, c2, c3, c4⟩ := core_same (d := d) hB hA
      simp only [hneg, if_true, decide_true, not_true, decide_false, condShr_false]
      rw [arithS_ok' hx, condShr_true (d := d) (by omega) hdp]
      simp only [ge_iff_le, le_refl, if_true]
      rw [wrapS_of_inS hE hx]
      refine ⟨_, c1, by omega, by rw [Nat.add_comm, Nat.mod_eq_of_lt (by omega)], ?_, ?_⟩
      all_goals rw [mag_quarter hF2 h4b, mag_shift hF2 h4a hde, add_comm (_ * _) (_ * _), ← add_mul]
      · exact mul_le_mul_of_nonneg_right c3 (by positivity)
      · exact mul_lt_mul_of_pos_right c4 (by positivity)
    · obtain ⟨d, hde⟩ : ∃ d : ℕ, ea = eb + d := ⟨(ea - eb).toNat, by omega⟩
      have hmax : max ea eb = ea := by omega
      rw [hmax] at hx ⊢
      have hdp : d < pw F := by rw [abs_lt] at hd; omega
      obtain ⟨c1, c2, c3, c4⟩ := core_same (d := d) hA hB
      simp only [not_lt.mpr hnn, if_false, decide_true, not_false_eq_true, decide_false, condShr_false]
      rw [arithS_ok' hx, condShr_true (d := d) (by omega) hdp]
      simp only [ge_iff_le, le_refl, if_true]
      rw [wrapS_of_inS hE hx]
      refine ⟨_, c1, by omega, by rw [Nat.mod_eq_of_lt (by omega)], ?_, ?_⟩
      all_goals rw [mag_quarter hF2 h4a, mag_shift hF2 h4b hde, ← add_mul]
      · exact mul_le_mul_of_nonneg_right c3 (by positivity)
      · exact mul_lt_mul_of_pos_right c4 (by positivity)
  obtain ⟨u, hu1, hu2, heq, hy1, hy2⟩ := key
  obtain ⟨e, f, hn, hf, hm, he1, he2⟩ := normalized_eq (ty := .regular) (neg := s) hF hE (by omega : 1 ≤ u) hu2
    (Or.inr (by omega)) (e := max ea eb + 1) (fun k hk => hr2 _ (by omega) (by omega))
  have hm' : mag F e f = u * 2 ^ (max ea eb + 2 - F) := by rw [hm]; congr 2; ring
  refine ⟨e, f, u, by rw [heq, hn], hf, hu1, hm', hy1, hy2, he2, ?_⟩
  -- the leading bit of the greater operand is kept
  by_contra hc
  have h1 : mag F e f < 2 ^ (e + 1) := by
    unfold mag
    have : (f : ℚ) / 2 ^ F < 1 := by rw [div_lt_one (by positivity)]; exact_mod_cast hf
    rw [zpow_add_one₀ (by norm_num)]
    have : (0 : ℚ) < 2 ^ e := by positivity
    nlinarith
  have h2 : (2 : ℚ) ^ (max ea eb) ≤ mag F e f := by
    rw [hm']
    have : ((2 ^ (F - 2) : ℕ) : ℚ) ≤ u := by exact_mod_cast hu1
    calc (2 : ℚ) ^ (max ea eb) = ((2 ^ (F - 2) : ℕ) : ℚ) * 2 ^ (max ea eb + 2 - (F : ℤ)) := by
          push_cast
          rw [← zpow_natCast, ← zpow_add₀ (by norm_num)]; congr 1; omega
      _ ≤ _ := mul_le_mul_of_nonneg_right this hposY.le
  have h3 : (2 : ℚ) ^ (e + 1) ≤ 2 ^ (max ea eb) := zpow_le_zpow_right₀ (by norm_num) (by omega)
  linarith

/-- opposite signs -/
theorem addRegular_opp (hF : F = 8 ∨ F = 16 ∨ F = 32 ∨ F = 64) (hE : 1 ≤ E) {s : Bool} {ea eb : ℤ} {fa fb : ℕ}
    (hfa : fa < 2 ^ F) (hfb : fb < 2 ^ F) (h8a : 8 ∣ fa) (h8b : 8 ∣ fb)
    (hsm : F < 32 ∨ (16 ∣ fa ∧ 16 ∣ fb)) (hd : |ea - eb| < pw F) (hr : AddRange E F ea eb) :
    (mag F ea fa = mag F eb fb → Unp.addRegular F E ⟨.regular, s, ea, fa⟩ ⟨.regular, !s, eb, fb⟩ = .ok (Unp.ofTy .zero)) ∧
    (mag F ea fa ≠ mag F eb fb →
      ∃ e f u Y, Unp.addRegular F E ⟨.regular, s, ea, fa⟩ ⟨.regular, !s, eb, fb⟩ =
          .ok ⟨.regular, if mag F eb fb < mag F ea fa then s else !s, e, f⟩ ∧
        f < 2 ^ F ∧ 1 ≤ u ∧ mag F e f = (u : ℕ) * 2 ^ (Y : ℤ) ∧
        (|mag F ea fa - mag F eb fb| = u * 2 ^ Y ∨
          (2 ^ (F - 3) + 1 ≤ u ∧ (u - 1 : ℚ) * 2 ^ Y < |mag F ea fa - mag F eb fb| ∧
            |mag F ea fa - mag F eb fb| < u * 2 ^ Y)) ∧
        mag F e f ≤ max (mag F ea fa) (mag F eb fb) ∧ e ≤ max ea eb ∧ max ea eb + 1 - F < e) := by
  have hF2 : 2 ≤ F := by omega
  have hA := mant2_bounds hF2 hfa
  have hB := mant2_bounds hF2 hfb
  have h4 := pow_F4 hF2
  have h4a : 4 ∣ fa := Dvd.dvd.trans (by norm_num) h8a
  have h4b : 4 ∣ fb := Dvd.dvd.trans (by norm_num) h8b
  have hP2 : 2 ^ (F - 2) = 2 * 2 ^ (F - 3) := by
    rw [show F - 2 = (F - 3) + 1 by omega, pow_succ]; ring
  have hP5 : 2 ^ (F - 2) = 4 * 2 ^ (F - 4) := by
    rw [show F - 2 = (F - 4) + 2 by omega, pow_add]; norm_num; ring
  have hF8 : 2 ^ 5 ≤ 2 ^ (F - 3) := Nat.pow_le_pow_right (by norm_num) (by omega)
  have hPe : 2 ∣ 2 ^ (F - 2) := ⟨_, hP2⟩
  have hP3 : 2 ^ (F - 2) / 2 = 2 ^ (F - 3) := by omega
  have hAe : 2 ∣ 2 ^ (F - 2) + fa / 4 := by omega
  have hBe : 2 ∣ 2 ^ (F - 2) + fb / 4 := by omega
  have hA4 : 16 ∣ fa → 4 ∣ 2 ^ (F - 2) + fa / 4 := by omega
  have hB4 : 16 ∣ fb → 4 ∣ 2 ^ (F - 2) + fb / 4 := by omega
  obtain ⟨hr1, hr2⟩ := hr
  have hx := hr2 (max ea eb + 1) (by omega) le_rfl
  have hposY : (0 : ℚ) < 2 ^ (max ea eb + 2 - (F : ℤ)) := by positivity
  -- the two alignments
  have key : ∃ u, u < 2 ^ F ∧
      Unp.addRegular F E ⟨.regular, s, ea, fa⟩ ⟨.regular, !s, eb, fb⟩ =
        Unp.normalized F E ⟨.regular, if mag F eb fb < mag F ea fa then s else !s, max ea eb + 1, u⟩ ∧
      (|mag F ea fa - mag F eb fb| = u * 2 ^ (max ea eb + 2 - F) ∨
          (2 ^ (F - 3) + 1 ≤ u ∧ (u - 1 : ℚ) * 2 ^ (max ea eb + 2 - F) < |mag F ea fa - mag F eb fb| ∧
            |mag F ea fa - mag F eb fb| < u * 2 ^ (max ea eb + 2 - F))) ∧
      (u : ℚ) * 2 ^ (max ea eb + 2 - F) ≤ max (mag F ea fa) (mag F eb fb) ∧
      (u = 0 ↔ mag F ea fa = mag F eb fb) ∧ (u ≠ 0 → F < 32 ∨ 2 ≤ u) := by
    unfold Unp.addRegular
    simp only [mant2 hF2 hfa, mant2 hF2 hfb]
    rw [arithS_ok' hr1]
    simp only [bind, Except.bind, pure, Except.pure]
    have hss : ¬ (s = !s) := by cases s <;> simp
    rcases lt_trichotomy (ea - eb) 0 with hneg | hz | hpos
    · -- the first operand is shifted
      obtain ⟨d, hde⟩ : ∃ d : ℕ, eb = ea + d := ⟨(eb - ea).toNat, by omega⟩
      have hmax : max ea eb = eb := by omega
      rw [hmax] at hx hposY ⊢
      have hdp : d < pw F := by rw [abs_lt] at hd; omega
      obtain ⟨c1, c2, c3⟩ := core_opp (d := d) hPe hB hA hAe (by omega)
      simp only [hneg, if_true, decide_true, not_true, decide_false, condShr_false, hss, if_false]
      rw [arithS_ok' hx, condShr_true (d := d) (by omega) hdp]
      simp only []
      rw [wrapS_of_inS hE hx, mag_quarter hF2 h4b, mag_shift hF2 h4a hde]
      set A := 2 ^ (F - 2) + fa / 4 with hAdef
      set B := 2 ^ (F - 2) + fb / 4 with hBdef
      have hng : ¬ A / 2 ^ d > B := by omega
      have hlt : (A : ℚ) / 2 ^ d < B := by
        rw [div_lt_iff₀ (by positivity)]
        have h2d : 2 ≤ 2 ^ d := by
          calc 2 = 2 ^ 1 := by norm_num
            _ ≤ 2 ^ d := Nat.pow_le_pow_right (by norm_num) (by omega)
        have : A < B * 2 ^ d := by nlinarith
        exact_mod_cast this
      have hlt' := mul_lt_mul_of_pos_right hlt hposY
      have habs : |(A : ℚ) / 2 ^ d * 2 ^ (eb + 2 - (F : ℤ)) - B * 2 ^ (eb + 2 - (F : ℤ))| =
          (B - (A : ℚ) / 2 ^ d) * 2 ^ (eb + 2 - (F : ℤ)) := by
        rw [abs_of_neg (by linarith)]; ring
      simp only [hng, show ¬ ((-1 : ℤ) ≥ 0) by norm_num, show ¬ ((-1 : ℤ) = 0) by norm_num, show ¬ ((-1 : ℤ) > 0) by norm_num, if_false, if_true]
      rw [wrapU_sub c1.le (by omega), habs, if_neg (not_lt.mpr hlt'.le)]
      refine ⟨B - A / 2 ^ d, lt_of_le_of_lt (Nat.sub_le _ _) (by omega), rfl, ?_, ?_, ?_, ?_⟩
      · rcases c2 with c2 | ⟨c2, c2', c2''⟩
        · left; rw [← c2]
        · right
          exact ⟨by omega, mul_lt_mul_of_pos_right c2' hposY, mul_lt_mul_of_pos_right c2'' hposY⟩
      · apply le_max_of_le_right
        have : ((B - A / 2 ^ d : ℕ) : ℚ) ≤ B := by exact_mod_cast Nat.sub_le _ _
        exact mul_le_mul_of_nonneg_right this hposY.le
      · constructor
        · intro; omega
        · intro he; linarith
      · intro _
        rcases hsm with hsm | ⟨hsa, hsb⟩
        · exact Or.inl hsm
        · right
          rcases c3 (hB4 hsb) (hA4 hsa) with h | h <;> omega
    · -- no shift: the difference is exact
      have hee : ea = eb := by omega
      subst hee
      have hmax : max ea ea = ea := by omega
      rw [hmax] at hx hposY ⊢
      simp only [sub_self, lt_irrefl, if_false, decide_true, not_false_eq_true, decide_false, condShr_false, hss]
      rw [arithS_ok' hx, condShr_true (d := 0) (by omega) (by unfold pw; omega)]
      simp only []
      rw [wrapS_of_inS hE hx, mag_quarter hF2 h4b, mag_quarter hF2 h4a, pow_zero, Nat.div_one]
      set A := 2 ^ (F - 2) + fa / 4 with hAdef
      set B := 2 ^ (F - 2) + fb / 4 with hBdef
      have hmul : ((B : ℚ) * 2 ^ (ea + 2 - (F : ℤ)) < A * 2 ^ (ea + 2 - (F : ℤ))) ↔ B < A := by
        rw [mul_lt_mul_iff_left₀ hposY]; exact Nat.cast_lt
      have hmul' : ((A : ℚ) * 2 ^ (ea + 2 - (F : ℤ)) = B * 2 ^ (ea + 2 - (F : ℤ))) ↔ A = B := by
        rw [mul_left_inj' hposY.ne']; exact Nat.cast_inj
      have hmain : ∀ {x y : ℕ}, y ≤ x → x < 2 ^ F → |(x : ℚ) * 2 ^ (ea + 2 - (F : ℤ)) - y * 2 ^ (ea + 2 - (F : ℤ))| =
          ((x - y : ℕ) : ℚ) * 2 ^ (ea + 2 - (F : ℤ)) := by
        intro x y hyx _
        rw [← sub_mul, ← Nat.cast_sub hyx, abs_of_nonneg (by positivity)]
      have hbig : ∀ {x : ℕ}, (F < 32 ∨ 2 ∣ x) → x ≠ 0 → F < 32 ∨ 2 ≤ x := by
        intro x hx h0
        omega
      by_cases hgt : B < A
      · simp only [hmul, show A > B from hgt, show ((1 : ℤ) ≥ 0) by norm_num, show ¬ ((1 : ℤ) = 0) by norm_num, show ((1 : ℤ) > 0) by norm_num, if_false, if_true]
        rw [wrapU_sub hgt.le (by omega)]
        refine ⟨A - B, by omega, rfl, Or.inl (hmain hgt.le (by omega)), le_max_of_le_left ?_, ?_, ?_⟩
        · have : ((A - B : ℕ) : ℚ) ≤ A := by exact_mod_cast Nat.sub_le _ _
          exact mul_le_mul_of_nonneg_right this hposY.le
        · rw [hmul']; omega
        · apply hbig; omega
      · simp only [hmul, hgt, show ¬ A > B from hgt, show ¬ ((-1 : ℤ) ≥ 0) by norm_num, show ¬ ((-1 : ℤ) = 0) by norm_num, show ¬ ((-1 : ℤ) > 0) by norm_num, if_false, if_true]
        rw [wrapU_sub (by omega) (by omega)]
        refine ⟨B - A, by omega, rfl, Or.inl ?_, le_max_of_le_right ?_, ?_, ?_⟩
        · rw [abs_sub_comm]; exact hmain (by omega) (by omega)
        · have : ((B - A : ℕ) : ℚ) ≤ B := by exact_mod_cast Nat.sub_le _ _
          exact mul_le_mul_of_nonneg_right this hposY.le
        · rw [hmul']; omega
        · apply hbig; omega
    · -- the second operand is shifted
      obtain ⟨d, hde⟩ : ∃ d : ℕ, ea = eb + d := ⟨(ea - eb).toNat, by omega⟩
      have hmax : max ea eb = ea := by omega
      rw [hmax] at hx hposY ⊢
      have hdp : d < pw F := by rw [abs_lt] at hd; omega
      obtain ⟨c1, c2, c3⟩ := core_opp (d := d) hPe hA hB hBe (by omega)
      simp only [not_lt.mpr hpos.le, if_false, decide_true, not_false_eq_true, decide_false, condShr_false, hss]
      rw [arithS_ok' hx, condShr_true (d := d) (by omega) hdp]
      simp only []
      rw [wrapS_of_inS hE hx, mag_quarter hF2 h4a, mag_shift hF2 h4b hde]
      set A := 2 ^ (F - 2) + fa / 4 with hAdef
      set B := 2 ^ (F - 2) + fb / 4 with hBdef
      have hlt : (B : ℚ) / 2 ^ d < A := by
        rw [div_lt_iff₀ (by positivity)]
        have h2d : 2 ≤ 2 ^ d := by
          calc 2 = 2 ^ 1 := by norm_num
            _ ≤ 2 ^ d := Nat.pow_le_pow_right (by norm_num) (by omega)
        have : B < A * 2 ^ d := by nlinarith
        exact_mod_cast this
      have hlt' := mul_lt_mul_of_pos_right hlt hposY
      have habs : |(A : ℚ) * 2 ^ (ea + 2 - (F : ℤ)) - B / 2 ^ d * 2 ^ (ea + 2 - (F : ℤ))| =
          (A - (B : ℚ) / 2 ^ d) * 2 ^ (ea + 2 - (F : ℤ)) := by
        rw [abs_of_pos (by linarith)]; ring
      simp only [show A > B / 2 ^ d from c1, show ((1 : ℤ) ≥ 0) by norm_num, show ¬ ((1 : ℤ) = 0) by norm_num, show ((1 : ℤ) > 0) by norm_num, if_false, if_true]
      rw [wrapU_sub c1.le (by omega), habs, if_pos hlt']
      refine ⟨A - B / 2 ^ d, lt_of_le_of_lt (Nat.sub_le _ _) (by omega), rfl, ?_, ?_, ?_, ?_⟩
      · rcases c2 with c2 | ⟨c2, c2', c2''⟩
        · left; rw [← c2]
        · right
          exact ⟨by omega, mul_lt_mul_of_pos_right c2' hposY, mul_lt_mul_of_pos_right c2'' hposY⟩
      · apply le_max_of_le_left
        have : ((A - B / 2 ^ d : ℕ) : ℚ) ≤ A := by exact_mod_cast Nat.sub_le _ _
        exact mul_le_mul_of_nonneg_right this hposY.le
      · constructor
        · intro; omega
        · intro he; linarith
      · intro _
        rcases hsm with hsm | ⟨hsa, hsb⟩
        · exact Or.inl hsm
        · right
          rcases c3 (hA4 hsa) (hB4 hsb) with h | h <;> omega
  obtain ⟨u, hu2, heq, hy, hle, hz, hbig⟩ := key
  constructor
  · intro he
    have hu0 := hz.mpr he
    rw [heq, hu0]
    rfl
  · intro hne
    have hu0 : u ≠ 0 := fun h => hne (hz.mp h)
    obtain ⟨e, f, hn, hf, hm, he1, he2⟩ := normalized_eq (ty := .regular)
      (neg := if mag F eb fb < mag F ea fa then s else !s) hF hE (by omega : 1 ≤ u) hu2
      (hbig hu0) (e := max ea eb + 1) (fun k hk => hr2 _ (by omega) (by omega))
    have hm' : mag F e f = u * 2 ^ (max ea eb + 2 - F) := by rw [hm]; congr 2; ring
    refine ⟨e, f, u, max ea eb + 2 - F, by rw [heq, hn], hf, by omega, hm', hy, by rw [hm']; exact hle, ?_, by omega⟩
    by_contra hc
    have h1 : (2 : ℚ) ^ e ≤ mag F e f := by
      unfold mag
      have : (0 : ℚ) ≤ (f : ℚ) / 2 ^ F := by positivity
      have : (0 : ℚ) < 2 ^ e := by positivity
      nlinarith
    have hb : ∀ {e' : ℤ} {f' : ℕ}, f' < 2 ^ F → mag F e' f' < 2 ^ (e' + 1) := by
      intro e' f' hf'
      unfold mag
      have : (f' : ℚ) / 2 ^ F < 1 := by rw [div_lt_one (by positivity)]; exact_mod_cast hf'
      rw [zpow_add_one₀ (by norm_num)]
      have : (0 : ℚ) < 2 ^ e' := by positivity
      nlinarith
    have h2 : max (mag F ea fa) (mag F eb fb) < 2 ^ e := by
      apply max_lt
      · exact lt_of_lt_of_le (hb hfa) (zpow_le_zpow_right₀ (by norm_num) (by omega))
      · exact lt_of_lt_of_le (hb hfb) (zpow_le_zpow_right₀ (by norm_num) (by omega))
    rw [hm'] at h1
    linarith

/-- exponents too far apart: out-of-range shift -/
theorem addRegular_ub {sa sb : Bool} {ea eb : ℤ} {fa fb : ℕ} (hd : pw F ≤ |ea - eb|) (hr : AddRange E F ea eb) :
    Unp.addRegular F E ⟨.regular, sa, ea, fa⟩ ⟨.regular, sb, eb, fb⟩ = .error .shiftAmount := by
  obtain ⟨hr1, hr2⟩ := hr
  have hx := hr2 (max ea eb + 1) (by omega) le_rfl
  unfold Unp.addRegular
  rw [arithS_ok' hr1]
  simp only [bind, Except.bind, pure, Except.pure]
  have h32 := le_pw32 F
  rcases lt_or_ge (ea - eb) 0 with hneg | hnn
  · have hmax : max ea eb = eb := by omega
    rw [hmax] at hx
    rw [abs_of_neg hneg] at hd
    simp only [hneg, if_true, decide_true, arithS_ok' hx]
    unfold Unp.condShr shrU
    rw [if_pos rfl, if_pos (Or.inr hd)]
  · have hmax : max ea eb = ea := by omega
    rw [hmax] at hx
    rw [abs_of_nonneg hnn] at hd
    simp only [not_lt.mpr hnn, if_false, decide_true, not_false_eq_true, decide_false, condShr_false, arithS_ok' hx]
    unfold Unp.condShr shrU
    rw [if_pos rfl, if_pos (Or.inr hd)]

end Verif
