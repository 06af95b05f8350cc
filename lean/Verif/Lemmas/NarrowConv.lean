import Verif.Spec.NarrowConv
import Verif.Lemmas.ExtConvert
import Verif.Lemmas.NarrowFrac

/-! # Lemmas for C128: conversions with fraction types of any width -/

namespace Verif
open Fmt

variable {c : Cfg} {F E eb fb : ℕ}

theorem sq_eq (s : Bool) : sq s = (if s then -1 else 1 : ℚ) := rfl

/-- the triple made from the digits of an integer times a power of two -/
theorem fracOf_val (neg : Bool) {L n : ℕ} (h1 : 2 ^ L ≤ n) (h2 : n < 2 ^ (L + 1)) (X : ℤ) :
    (⟨.regular, neg, X + L, fracOf F L n⟩ : Unp).val F = cutSig (F + 1) ((if neg then -1 else 1 : ℚ) * (n * 2 ^ X)) := by
  have hf := fracOf_lt (F := F) h2
  have hX : (0 : ℚ) < 2 ^ X := by positivity
  have hb : ((2 ^ F + fracOf F L n : ℕ) : ℚ) * 2 ^ (X + L - F : ℤ) ≤ n * 2 ^ X ∧
      (n : ℚ) * 2 ^ X < ((2 ^ F + fracOf F L n : ℕ) + 1 : ℚ) * 2 ^ (X + L - F : ℤ) := by
    unfold fracOf
    split_ifs with hc
    · have he : 2 ^ F + (n - 2 ^ L) * 2 ^ (F - L) = n * 2 ^ (F - L) := by
        rw [Nat.sub_mul, ← pow_add, Nat.add_sub_cancel' hc]
        have : 2 ^ F ≤ n * 2 ^ (F - L) := by
          calc 2 ^ F = 2 ^ L * 2 ^ (F - L) := by rw [← pow_add, Nat.add_sub_cancel' hc]
            _ ≤ _ := Nat.mul_le_mul_right _ h1
        omega
      have hq : (2 : ℚ) ^ (F - L) * 2 ^ (X + L - F : ℤ) = 2 ^ X := by
        rw [← zpow_natCast, ← zpow_add₀ (by norm_num)]
        congr 1
        push_cast [Nat.cast_sub hc]; ring
      rw [he]
      push_cast
      rw [add_mul, mul_assoc, hq]
      have : (0 : ℚ) < 2 ^ (X + L - F : ℤ) := by positivity
      exact ⟨le_rfl, by linarith⟩
    · push Not at hc
      have he : 2 ^ F + (n - 2 ^ L) / 2 ^ (L - F) = n / 2 ^ (L - F) := by
        have : n = (n - 2 ^ L) + 2 ^ (L - F) * 2 ^ F := by
          rw [← pow_add, Nat.sub_add_cancel hc.le]; omega
        conv_rhs => rw [this]
        rw [Nat.add_mul_div_left _ _ (by positivity)]
        omega
      have hq : (2 : ℚ) ^ (X + L - F : ℤ) = 2 ^ (L - F) * 2 ^ X := by
        rw [← zpow_natCast, ← zpow_add₀ (by norm_num)]
        congr 1
        push_cast [Nat.cast_sub hc.le]; ring
      rw [he, hq, ← mul_assoc, ← mul_assoc]
      have d1 := Nat.div_mul_le_self n (2 ^ (L - F))
      have d2 := Nat.lt_div_mul_add (a := n) (b := 2 ^ (L - F)) (by positivity)
      constructor
      · exact mul_le_mul_of_nonneg_right (by exact_mod_cast d1) hX.le
      · refine mul_lt_mul_of_pos_right ?_ hX
        rw [add_mul, one_mul]
        exact_mod_cast d2
  have := cutSig_of_bounds neg (by omega : 2 ^ F ≤ 2 ^ F + fracOf F L n) (by rw [pow_succ]; omega) hb.1 hb.2
  rw [sq_eq] at this
  rw [this, val_eq, sq_eq]
  congr 1
  unfold mag
  simp only []
  rw [zpow_sub₀ (by norm_num), zpow_natCast]
  have : (0 : ℚ) < 2 ^ F := by positivity
  push_cast
  field_simp

/-- packing an integer times a power of two, whatever the fraction type -/
theorem outcome_cut (h : c.WF) (neg : Bool) {L n : ℕ} (h1 : 2 ^ L ≤ n) (h2 : n < 2 ^ (L + 1)) (X : ℤ) :
    Outcome c (cutSig (c.F + 1) ((if neg then -1 else 1 : ℚ) * (n * 2 ^ X)))
      (Posit.pack c ⟨.regular, neg, X + L, fracOf c.F L n⟩) := by
  rw [← fracOf_val neg h1 h2 X]
  exact isNum_pack h (.reg ⟨rfl, fracOf_lt h2⟩)

/-- the number one place after one, cut before that place -/
theorem cutSig_after_one {F fb : ℕ} (h : F < fb) : cutSig (F + 1) (1 + 2 ^ (-(fb : ℤ))) = 1 := by
  have p : (2 : ℚ) ^ F * 2 ^ (-(F : ℤ)) = 1 := by
    rw [← zpow_natCast, ← zpow_add₀ (by norm_num)]; simp
  have q : (2 : ℚ) ^ (-(fb : ℤ)) < 2 ^ (-(F : ℤ)) := zpow_lt_zpow_right₀ (by norm_num) (by omega)
  have q0 : (0 : ℚ) < 2 ^ (-(fb : ℤ)) := by positivity
  have := cutSig_of_bounds (m := F) (n := 2 ^ F) (Y := -F) (x := 1 + 2 ^ (-(fb : ℤ))) false le_rfl
    (Nat.pow_lt_pow_right (by norm_num) (by omega)) (by push_cast; rw [p]; linarith) (by push_cast; rw [add_mul, p]; linarith)
  simp only [sq, Bool.false_eq_true, if_false, one_mul] at this
  rw [this]
  push_cast
  exact p

/-- the integer a triple is converted to -/
theorem packFixed_toInt (hF : 1 ≤ F) {u : Unp} (hu : u.IsReg F) : Unp.packFixed F 32 0 u = (EV.num (u.val F)).toInt := by
  obtain ⟨s, e, f, rfl⟩ : ∃ s e f, u = ⟨.regular, s, e, f⟩ := ⟨_, _, _, reg_eq hu⟩
  have hf : f < 2 ^ F := hu.2
  have hlog : Int.log 2 |(⟨.regular, s, e, f⟩ : Unp).val F| = e := log_val hu
  have hval : (⟨.regular, s, e, f⟩ : Unp).val F = tripleVal F s e f * 2 ^ 0 := by
    rw [val_eq, sq_eq, pow_zero, mul_one]; unfold tripleVal mag; ring
  have hpos' : 0 < (⟨.regular, s, e, f⟩ : Unp).val F ↔ s = false := by
    rw [val_eq, sq_eq]
    have := mag_pos F e f
    cases s <;> simp <;> linarith
  have hne : (⟨.regular, s, e, f⟩ : Unp).val F ≠ 0 := by rw [val_eq]; exact mul_ne_zero (sq_ne _) (mag_pos _ _ _).ne'
  generalize (⟨.regular, s, e, f⟩ : Unp).val F = x at *
  have hpos : 0 < |x| := abs_pos.mpr hne
  have key := C21_packFixed_partial (N := 32) (q := 0) (by omega) hF (s := s) (e := e) hf hval
  unfold EV.toInt
  simp only []
  by_cases c1 : |x| < 1
  · rw [if_pos c1, key (Or.inl c1)]
    have : truncZ x = 0 := by
      rw [abs_lt] at c1
      unfold truncZ
      split_ifs with h0
      · exact Int.floor_eq_zero_iff.mpr ⟨h0, c1.2⟩
      · exact Int.ceil_eq_zero_iff.mpr ⟨by linarith [c1.1], by linarith⟩
    rw [this]; rfl
  rw [if_neg c1]
  by_cases c2 : |x| < 2
  · have he : e = 0 := by
      rw [← hlog]
      apply le_antisymm
      · have := (Int.lt_zpow_iff_log_lt (b := 2) (by norm_num) hpos (x := 1)).mp (by exact_mod_cast c2)
        omega
      · exact (Int.zpow_le_iff_le_log (b := 2) (by norm_num) hpos (x := 0)).mp (by exact_mod_cast not_lt.mp c1)
    rw [if_pos c2, C21_one_ub (by omega) hF hf (by omega)]
  rw [if_neg c2]
  by_cases c3 : |x| < 2 ^ 31
  · rw [if_pos c3, key (Or.inr (Or.inl ⟨Or.inl (not_lt.mp c2), c3⟩))]
    congr 1
    apply satZ_id
    obtain ⟨g1, g2⟩ := abs_lt.mp c3
    unfold truncZ InS
    split_ifs with h0
    · have h1 : 0 ≤ ⌊x⌋ := Int.floor_nonneg.mpr h0
      have h2 : ⌊x⌋ < 2 ^ 31 := Int.floor_lt.mpr (by exact_mod_cast g2)
      constructor <;> norm_num at h2 ⊢ <;> omega
    · have h1 : -2 ^ 31 < ⌈x⌉ := Int.lt_ceil.mpr (by exact_mod_cast g1)
      have h2 : ⌈x⌉ ≤ 0 := Int.ceil_le.mpr (by push_cast; linarith)
      constructor <;> norm_num at h1 ⊢ <;> omega
  rw [if_neg c3]
  by_cases c4 : |x| < 2 ^ 32
  · rw [if_pos c4]
    have he : e = 31 := by
      rw [← hlog]
      apply le_antisymm
      · have := (Int.lt_zpow_iff_log_lt (b := 2) (by norm_num) hpos (x := 32)).mp (by exact_mod_cast c4)
        omega
      · exact (Int.zpow_le_iff_le_log (b := 2) (by norm_num) hpos (x := 31)).mp (by exact_mod_cast not_lt.mp c3)
    obtain ⟨a, b, d⟩ := C21_top_wrong (N := 32) (q := 0) (s := s) (F := F) (e := e) (f := f) (by omega) hF hf (by omega) hval
    by_cases hs : 0 < x
    · rw [if_pos hs]
      obtain ⟨r, -, hr, e⟩ := a (hpos'.mp hs)
      rw [hr, e]
    · have hv0 : s = true := by
        have := mt hpos'.mpr hs
        simpa using this
      rw [if_neg hs]
      by_cases ht : truncZ x = -2 ^ 31
      · rw [if_pos ht, b hv0 ht]
      · rw [if_neg ht]
        obtain ⟨r, -, hr, e⟩ := d hv0 ht
        rw [hr, e]
  · rw [if_neg c4, key (Or.inr (Or.inr (not_lt.mp c4)))]
    congr 1
    by_cases hs : 0 < x
    · rw [if_pos hs]
      have h1 : 2 ^ 32 ≤ truncZ x := by
        unfold truncZ
        rw [if_pos hs.le, Int.le_floor]
        rw [abs_of_pos hs] at c4
        exact_mod_cast not_lt.mp c4
      unfold satZ
      norm_num at h1 ⊢
      omega
    · rw [if_neg hs]
      have hlt : x < 0 := lt_of_le_of_ne (not_lt.mp hs) hne
      have h1 : truncZ x ≤ -2 ^ 32 := by
        unfold truncZ
        rw [if_neg (not_le.mpr hlt), Int.ceil_le]
        rw [abs_of_neg hlt] at c4
        have := not_lt.mp c4
        push_cast
        linarith
      unfold satZ
      norm_num at h1 ⊢
      omega

end Verif
