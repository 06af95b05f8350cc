import Verif.Lemmas.Spacing
import Verif.Props.Equiv

/-!
# C66: differences of posits that are close to each other are exact
-/

namespace Verif
open Fmt

variable {c : Cfg}

/-- **C66**, the format: the difference of two real posits of equal sign within a factor of two of each other is a posit. -/
theorem C66_format {f : Format} {a b : ℤ} (ha : f.IsReal a) (hb : f.IsReal b) (hab : 0 < f.val a * f.val b)
    (h1 : |f.val a| ≤ 2 * |f.val b|) (h2 : |f.val b| ≤ 2 * |f.val a|) :
    ∃ w, f.IsReal w ∧ f.val w = f.val a - f.val b := by
  have ha0 : a ≠ 0 := by rintro rfl; rw [Format.val_zero, zero_mul] at hab; exact lt_irrefl _ hab
  have hb0 : b ≠ 0 := by rintro rfl; rw [Format.val_zero, mul_zero] at hab; exact lt_irrefl _ hab
  have la := ha.natAbs_lt
  have lb := hb.natAbs_lt
  -- positive operands
  have key : ∀ {a b : ℤ}, f.IsReal a → f.IsReal b → 0 < b → b < a → f.val a ≤ 2 * f.val b →
      ∃ w, f.IsReal w ∧ f.val w = f.val a - f.val b := by
    intro a b ha hb hb0 hab hle
    have hlt := (Format.val_lt_iff hb.inRange ha.inRange).mpr hab
    rw [Format.val_pos' hb0, Format.val_pos' (by omega : 0 < a)] at *
    obtain ⟨k, k1, k2, k3⟩ := posVal_sub (by omega) ha.natAbs_lt (by omega) hb.natAbs_lt hlt hle
    refine ⟨k, Format.isReal_iff.mpr ?_, by rw [Format.val_natCast k1, k3]⟩
    have := hb.natAbs_le
    omega
  have pos : ∀ {a b : ℤ}, f.IsReal a → f.IsReal b → 0 < a → 0 < b → f.val a ≤ 2 * f.val b → f.val b ≤ 2 * f.val a →
      ∃ w, f.IsReal w ∧ f.val w = f.val a - f.val b := by
    intro a b ha hb ha0 hb0 h1 h2
    rcases lt_trichotomy a b with h | h | h
    · obtain ⟨w, w1, w2⟩ := key hb ha ha0 h h2
      exact ⟨-w, w1.neg, by rw [Format.val_neg, w2]; ring⟩
    · subst h
      exact ⟨0, by unfold Format.IsReal; omega, by rw [Format.val_zero, sub_self]⟩
    · exact key ha hb hb0 h h1
  rcases lt_or_gt_of_ne ha0 with hn | hp
  · have va := (Format.val_neg_iff ha.inRange).mpr hn
    have vb : f.val b < 0 := by nlinarith
    have hbn := (Format.val_neg_iff hb.inRange).mp vb
    rw [abs_of_neg va, abs_of_neg vb] at h1 h2
    obtain ⟨w, w1, w2⟩ := pos hb.neg ha.neg (by omega) (by omega) (by rw [Format.val_neg, Format.val_neg]; linarith)
      (by rw [Format.val_neg, Format.val_neg]; linarith)
    exact ⟨w, w1, by rw [w2, Format.val_neg, Format.val_neg]; ring⟩
  · have va := (Format.val_pos_iff ha.inRange).mpr hp
    have vb : 0 < f.val b := by nlinarith
    have hbn := (Format.val_pos_iff hb.inRange).mp vb
    rw [abs_of_pos va, abs_of_pos vb] at h1 h2
    exact pos ha hb hp hbn h1 h2

example : P16.fmt.IsReal 12001 ∧ P16.fmt.IsReal 12700 ∧ 0 < P16.fmt.val 12001 * P16.fmt.val 12700 ∧
    |P16.fmt.val 12001| ≤ 2 * |P16.fmt.val 12700| ∧ |P16.fmt.val 12700| ≤ 2 * |P16.fmt.val 12001| := by decide +kernel

theorem val_grid (h : c.WF) {a : ℤ} (ha : c.fmt.IsReal a) (ha0 : a ≠ 0) :
    ∃ n : ℕ, |c.fmt.val a| = n * 2 ^ (Int.log 2 |c.fmt.val a| - c.fb : ℤ) := by
  obtain ⟨n, X, n1, n2, hv⟩ := posVal_grid h (q := a.natAbs) (by omega) ha.natAbs_lt
  have habs : |c.fmt.val a| = n * 2 ^ X := by rw [Format.abs_val ha.inRange ha0, ← hv]; rfl
  have n1' : (2 : ℚ) ^ c.fb ≤ n := by exact_mod_cast n1
  have n2' : (n : ℚ) < 2 ^ (c.fb + 1) := by exact_mod_cast n2
  have hX : (0 : ℚ) < 2 ^ X := by positivity
  have vne : c.fmt.val a ≠ 0 := fun hh => ha0 ((Format.val_eq_zero_iff ha.inRange).mp hh)
  have e1 : (2 : ℚ) ^ (c.fb + X : ℤ) ≤ |c.fmt.val a| := by
    rw [habs, zpow_add₀ (by norm_num), zpow_natCast]; exact mul_le_mul_of_nonneg_right n1' hX.le
  have e2 : |c.fmt.val a| < (2 : ℚ) ^ (c.fb + X + 1 : ℤ) := by
    rw [habs, show (c.fb + X + 1 : ℤ) = ((c.fb + 1 : ℕ) : ℤ) + X by push_cast; ring, zpow_add₀ (by norm_num), zpow_natCast]
    exact mul_lt_mul_of_pos_right n2' hX
  have l1 := (Int.zpow_le_iff_le_log (b := 2) (by norm_num) (abs_pos.mpr vne)).mp (by exact_mod_cast e1)
  have l2 := (Int.lt_zpow_iff_log_lt (b := 2) (by norm_num) (abs_pos.mpr vne)).mp (by exact_mod_cast e2)
  refine ⟨n, ?_⟩
  rw [show Int.log 2 |c.fmt.val a| - (c.fb : ℤ) = X by omega]
  exact habs

theorem multiple_of_le {x : ℚ} {n : ℕ} {X Y : ℤ} (hx : x = n * 2 ^ X) (h : Y ≤ X) : ∃ m : ℕ, x = m * 2 ^ Y := by
  obtain ⟨d, hd⟩ : ∃ d : ℕ, X = Y + d := ⟨(X - Y).toNat, by omega⟩
  refine ⟨n * 2 ^ d, ?_⟩
  rw [hx, hd, zpow_add₀ (by norm_num), zpow_natCast]; push_cast; ring

/-- **C66**: if `a` and `b` are real posits of equal sign within a factor of two of each other then `a - b` is exact; it is
undefined exactly if the difference is not zero and cannot be packed. -/
theorem C66_sub (h : c.WF) (hF : c.fb + 3 ≤ c.F) (hsm : c.F < 32 ∨ c.fb + 4 ≤ c.F) {a b : ℤ} (ha : c.fmt.IsReal a)
    (hb : c.fmt.IsReal b) (hab : 0 < c.fmt.val a * c.fmt.val b) (h1 : |c.fmt.val a| ≤ 2 * |c.fmt.val b|)
    (h2 : |c.fmt.val b| ≤ 2 * |c.fmt.val a|) :
    ∃ w, c.fmt.IsReal w ∧ c.fmt.val w = c.fmt.val a - c.fmt.val b ∧
      (w = 0 ∨ c.SafeMag (c.fmt.val a - c.fmt.val b) → Posit.sub c a b = .ok w) ∧
      (w ≠ 0 → ¬ c.SafeMag (c.fmt.val a - c.fmt.val b) → Posit.sub c a b = .error .shiftAmount) := by
  obtain ⟨w, w1, w2⟩ := C66_format ha hb hab h1 h2
  have ha0 : a ≠ 0 := by rintro rfl; rw [Format.val_zero, zero_mul] at hab; exact lt_irrefl _ hab
  have hb0 : b ≠ 0 := by rintro rfl; rw [Format.val_zero, mul_zero] at hab; exact lt_irrefl _ hab
  have va : c.fmt.val a ≠ 0 := fun hh => ha0 ((Format.val_eq_zero_iff ha.inRange).mp hh)
  have vb : c.fmt.val b ≠ 0 := fun hh => hb0 ((Format.val_eq_zero_iff hb.inRange).mp hh)
  obtain ⟨na, ga⟩ := val_grid h ha ha0
  obtain ⟨nb, gb⟩ := val_grid h hb hb0
  have step : ∀ {x y : ℚ}, x ≠ 0 → y ≠ 0 → |x| ≤ 2 * |y| → Int.log 2 |x| ≤ Int.log 2 |y| + 1 := by
    intro x y hx hy hh
    have e1 := log_le hx le_rfl
    have e2 := lt_log hy le_rfl
    have : (2 : ℚ) ^ (Int.log 2 |x|) < 2 ^ (Int.log 2 |y| + 1 + 1) := by
      refine lt_of_le_of_lt (e1.trans hh) ?_
      rw [zpow_add₀ (a := (2 : ℚ)) (by norm_num) (Int.log 2 |y| + 1) 1, zpow_one]
      linarith
    have := (zpow_lt_zpow_iff_right₀ (by norm_num : (1 : ℚ) < 2)).mp this
    omega
  have s1 := step va vb h1
  have s2 := step vb va h2
  set la := Int.log 2 |c.fmt.val a| with hla
  set lb := Int.log 2 |c.fmt.val b| with hlb
  have hlb' : Int.log 2 |-c.fmt.val b| = lb := by rw [abs_neg]
  -- both operands are multiples of the unit
  have hu : (0 : ℚ) < 2 ^ (max la lb + 2 - c.F : ℤ) := by positivity
  have hunit : sumUnit c.F (c.fmt.val a) (-c.fmt.val b) = 2 ^ (max la lb + 2 - c.F : ℤ) := by
    unfold sumUnit; rw [hlb', ← hla]
  have hcut : cutSum c.F (c.fmt.val a) (-c.fmt.val b) = c.fmt.val a - c.fmt.val b := by
    obtain ⟨ma, hma⟩ := multiple_of_le ga (Y := max la lb + 2 - c.F) (by omega)
    obtain ⟨mb, hmb⟩ := multiple_of_le gb (Y := max la lb + 2 - c.F) (by omega)
    unfold cutSum
    rw [hunit, cutTo_multiple hu hma, cutTo_multiple hu (by rw [abs_neg]; exact hmb)]; ring
  have hok : SumOK c.F (c.fmt.val a) (-c.fmt.val b) := by
    refine Or.inr (Or.inr ⟨?_, ?_⟩)
    · rw [hlb', ← hla]
      have : (32 : ℤ) ≤ pw c.F := by unfold pw; push_cast; omega
      rw [abs_lt]; omega
    · rintro ⟨h32, he⟩
      rw [hcut, hunit] at he
      have h4 : c.fb + 4 ≤ c.F := by omega
      obtain ⟨ma, hma⟩ := multiple_of_le ga (Y := max la lb + 3 - c.F) (by omega)
      obtain ⟨mb, hmb⟩ := multiple_of_le gb (Y := max la lb + 3 - c.F) (by omega)
      have e3 : (2 : ℚ) ^ (max la lb + 3 - c.F : ℤ) = 2 * 2 ^ (max la lb + 2 - c.F : ℤ) := by
        rw [show max la lb + 3 - (c.F : ℤ) = 1 + (max la lb + 2 - c.F) by ring, zpow_add₀ (by norm_num), zpow_one]
      rw [e3] at hma hmb
      have habs : |c.fmt.val a - c.fmt.val b| = |((ma : ℤ) - mb : ℤ)| * (2 * 2 ^ (max la lb + 2 - c.F : ℤ)) := by
        have hp : (0 : ℚ) < 2 * 2 ^ (max la lb + 2 - c.F : ℤ) := by linarith
        have e4 : |c.fmt.val a - c.fmt.val b| = |(|c.fmt.val a| - |c.fmt.val b|)| := by
          rcases lt_or_gt_of_ne va with hn | hp
          · have vb' : c.fmt.val b < 0 := by nlinarith
            rw [abs_of_neg hn, abs_of_neg vb', ← abs_neg]; congr 1; ring
          · have vb' : 0 < c.fmt.val b := by nlinarith
            rw [abs_of_pos hp, abs_of_pos vb']
        rw [e4, hma, hmb, ← sub_mul, abs_mul, abs_of_pos hp]
        push_cast; rfl
      rw [habs] at he
      have e5 : ((2 * |(ma : ℤ) - mb| : ℤ) : ℚ) * 2 ^ (max la lb + 2 - c.F : ℤ) = ((1 : ℤ) : ℚ) * 2 ^ (max la lb + 2 - c.F : ℤ) := by
        push_cast at he ⊢; linarith
      have e6 := mul_right_cancel₀ hu.ne' e5
      have e7 : 2 * |(ma : ℤ) - mb| = 1 := by exact_mod_cast e6
      omega
  have hadd := outcome_add h ha ha0 hb.neg (by omega) (by rw [Format.val_neg]; exact hok)
  rw [Format.val_neg, hcut, ← sub_as_add h a hb, ← w2] at hadd
  refine ⟨w, w1, w2, fun hs => ?_, fun hw0 hs => ?_⟩
  · refine hadd.exact w1 ?_
    rcases hs with rfl | hs
    · exact Or.inl Format.val_zero
    · exact Or.inr (by rw [w2]; exact hs)
  · refine hadd.2 ?_
    rintro (h0 | h0)
    · exact hw0 ((Format.val_eq_zero_iff w1.inRange).mp h0)
    · exact hs (by rw [← w2]; exact h0)

example : P16.WF ∧ P16.fb + 3 ≤ P16.F ∧ P16.F < 32 ∧ P16.SafeMag (P16.fmt.val 12001 - P16.fmt.val 12700) ∧
    Posit.sub P16 12001 12700 = .ok (-8366) ∧ P16.fmt.val (-8366) = P16.fmt.val 12001 - P16.fmt.val 12700 := by decide +kernel
example : P32.WF ∧ P32.fb + 3 ≤ P32.F ∧ P32.fb + 4 ≤ P32.F ∧ P32.fmt.IsReal 1234567890 ∧ P32.fmt.IsReal 1234567891 ∧
    |P32.fmt.val 1234567891| ≤ 2 * |P32.fmt.val 1234567890| := by decide +kernel
/- a difference that cannot be packed -/
example : P32.WF ∧ P32.fb + 3 ≤ P32.F ∧ P32.fb + 4 ≤ P32.F ∧ 0 < P32.fmt.val 17 * P32.fmt.val 16 ∧
    |P32.fmt.val 17| ≤ 2 * |P32.fmt.val 16| ∧ ¬ P32.SafeMag (P32.fmt.val 17 - P32.fmt.val 16) := by decide +kernel

/-- **C66** for posits at least two bits narrower than their promoted holder: always defined. -/
theorem C66_sub_narrow (h : c.WF) (hF : c.fb + 3 ≤ c.F) (hsm : c.F < 32 ∨ c.fb + 4 ≤ c.F) (hN : c.N + 1 < pw c.H) {a b : ℤ}
    (ha : c.fmt.IsReal a) (hb : c.fmt.IsReal b) (hab : 0 < c.fmt.val a * c.fmt.val b)
    (h1 : |c.fmt.val a| ≤ 2 * |c.fmt.val b|) (h2 : |c.fmt.val b| ≤ 2 * |c.fmt.val a|) :
    ∃ w, Posit.sub c a b = .ok w ∧ c.fmt.IsReal w ∧ c.fmt.val w = c.fmt.val a - c.fmt.val b := by
  obtain ⟨w, w1, w2, w3, -⟩ := C66_sub h hF hsm ha hb hab h1 h2
  exact ⟨w, w3 (Or.inr (safeMag_of_narrow h hN _)), w1, w2⟩

example : P12.WF ∧ P12.fb + 3 ≤ P12.F ∧ P12.F < 32 ∧ P12.N + 1 < pw P12.H ∧ Posit.sub P12 5 3 = .ok 4 ∧
    P12.fmt.val 4 = P12.fmt.val 5 - P12.fmt.val 3 := by decide +kernel

/-- **C66** is sharp: already at the ratio 136/63 the difference need not be a posit, and the code rounds it. -/
theorem C66_sharp : P8.WF ∧ P8.fmt.val 97 = 17 / 8 ∧ P8.fmt.val 63 = 63 / 64 ∧ Posit.sub P8 97 63 = .ok 69 ∧
    P8.fmt.val 69 ≠ P8.fmt.val 97 - P8.fmt.val 63 ∧
    ∀ w, P8.fmt.IsReal w → P8.fmt.val w ≠ P8.fmt.val 97 - P8.fmt.val 63 := by
  refine ⟨by decide +kernel, by decide +kernel, by decide +kernel, by decide +kernel, by decide +kernel, fun w hw hv => ?_⟩
  have h1 : P8.fmt.val 68 < P8.fmt.val w := by rw [hv]; decide +kernel
  have h2 : P8.fmt.val w < P8.fmt.val 69 := by rw [hv]; decide +kernel
  rw [Format.val_lt_iff (Format.IsReal.inRange (by decide +kernel)) hw.inRange] at h1
  rw [Format.val_lt_iff hw.inRange (Format.IsReal.inRange (by decide +kernel))] at h2
  omega

end Verif
