import Verif.Lemmas.TabExp2
import Mathlib.Analysis.SpecialFunctions.Pow.Real
import Mathlib.Analysis.Convex.SpecificFunctions.Basic
import Mathlib.Analysis.Complex.ExponentialBounds

/-! # Powers of two between posit12 numbers -/

namespace Verif.Posit12
open Fmt

/-- `y` is at least the number of pattern `t` (if that is not 0) and below the next one (if there is one) -/
def Br (t : ℕ) (y : ℝ) : Prop := (t = 0 ∨ (W t : ℝ) / 2 ^ 40 ≤ y) ∧ (t = 2047 ∨ y < (W (t + 1) : ℝ) / 2 ^ 40)

theorem W_le {a b : ℕ} (h1 : 1 ≤ a) (h2 : b ≤ 2047) (h : a ≤ b) : W a ≤ W b := by
  have ha := W_spec a h1 (by omega)
  have hb := W_spec b (by omega) h2
  have hN : cfg.fmt.N = 12 := rfl
  have := (posVal_le_iff (N := cfg.fmt.N) (es := cfg.fmt.es) (p := a) (q := b) h1 (by rw [hN]; norm_num; omega) (by omega) (by rw [hN]; norm_num; omega)).mpr h
  have h3 : (W a : ℚ) ≤ W b := by rw [← ha, ← hb]; gcongr
  exact_mod_cast h3

/-- the numbers of the format not above `y` -/
theorem Br.iff {t : ℕ} {y : ℝ} (h : Br t y) (ht : t ≤ 2047) (hy : 0 < y) {v : ℤ} (hv : cfg.fmt.IsReal v) :
    (cfg.fmt.val v : ℝ) ≤ y ↔ v ≤ t := by
  have hr := real_iff.mp hv
  rcases le_or_gt v 0 with h0 | h0
  · refine ⟨fun _ => by omega, fun _ => le_trans ?_ hy.le⟩
    rcases eq_or_lt_of_le h0 with rfl | hl
    · rw [Format.val_zero]; norm_num
    · have := (Format.val_neg_iff (f := cfg.fmt) hv.inRange).mpr hl
      exact_mod_cast this.le
  obtain ⟨hv1, -⟩ := val12 hv (by omega)
  rw [if_neg (by omega), one_mul] at hv1
  have hv2 : (cfg.fmt.val v : ℝ) = (W v.natAbs : ℝ) / 2 ^ 40 := by rw [hv1]; push_cast; rfl
  rw [hv2]
  constructor
  · intro hle
    by_contra hc
    rcases h.2 with h2 | h2
    · omega
    · have : W (t + 1) ≤ W v.natAbs := W_le (by omega) (by omega) (by omega)
      have h3 : (W (t + 1) : ℝ) / 2 ^ 40 ≤ (W v.natAbs : ℝ) / 2 ^ 40 := by gcongr
      linarith
  · intro hle
    rcases h.1 with h1 | h1
    · omega
    · have : W v.natAbs ≤ W t := W_le (by omega) ht (by omega)
      have h3 : (W v.natAbs : ℝ) / 2 ^ 40 ≤ (W t : ℝ) / 2 ^ 40 := by gcongr
      linarith

theorem Br.same {t : ℕ} {y z : ℝ} (h : Br t y) (h' : Br t z) (ht : t ≤ 2047) (hy : 0 < y) (hz : 0 < z) {v : ℤ}
    (hv : cfg.fmt.IsReal v) : (cfg.fmt.val v : ℝ) ≤ y ↔ (cfg.fmt.val v : ℝ) ≤ z := by
  rw [h.iff ht hy hv, h'.iff ht hz hv]

/-- `2^x` raised to a power of two -/
theorem pow_two (neg : Bool) {w d : ℕ} (hd : d ≤ 40) (hw : w % 2 ^ (40 - d) = 0) :
    ((2 : ℝ) ^ ((if neg then -1 else 1) * ((w : ℝ) / 2 ^ 40))) ^ (2 ^ d) * (if neg then (2 : ℝ) ^ (w / 2 ^ (40 - d)) else 1) =
      (if neg then 1 else (2 : ℝ) ^ (w / 2 ^ (40 - d))) := by
  obtain ⟨n, rfl⟩ := Nat.dvd_of_mod_eq_zero hw
  rw [Nat.mul_div_cancel_left _ (by positivity), ← Real.rpow_natCast ((2 : ℝ) ^ _), ← Real.rpow_mul (by norm_num)]
  have e : (((2 ^ (40 - d) * n : ℕ) : ℝ) / 2 ^ 40) * ((2 ^ d : ℕ) : ℝ) = n := by
    have : (2 : ℝ) ^ 40 = 2 ^ (40 - d) * 2 ^ d := by rw [← pow_add]; congr 1; omega
    rw [this]; push_cast; field_simp
  rw [mul_assoc, e]
  cases neg
  · simp
  · simp only [if_true, neg_mul, one_mul]
    rw [Real.rpow_neg (by norm_num), Real.rpow_natCast, inv_mul_cancel₀ (by positivity)]

theorem div_eq' (a b : ℕ) : Nat.div a b = a / b := rfl

theorem loChk_spec {neg : Bool} {w t d : ℕ} (hd : d ≤ 40) (hw : w % 2 ^ (40 - d) = 0) (h : loChk neg w t d = true) :
    (W t : ℝ) / 2 ^ 40 * ((slack w : ℝ) / 2 ^ 20) ≤ (2 : ℝ) ^ ((if neg then -1 else 1) * ((w : ℝ) / 2 ^ 40)) := by
  have hp := pow_two neg hd hw
  have hy : (0 : ℝ) < (2 : ℝ) ^ ((if neg then -1 else 1) * ((w : ℝ) / 2 ^ 40)) := Real.rpow_pos_of_pos (by norm_num) _
  generalize (2 : ℝ) ^ ((if neg then -1 else 1) * ((w : ℝ) / 2 ^ 40)) = y at *
  unfold loChk at h
  rw [Nat.ble_eq] at h
  simp only [Nat.mul_eq, Nat.pow_eq, Nat.add_eq, div_eq', Nat.sub_eq, Bool.cond_eq_ite] at h
  generalize w / 2 ^ (40 - d) = n at *
  rw [← pow_le_pow_iff_left₀ (by positivity) hy.le (n := 2 ^ d) (by positivity)]
  have e : ((W t : ℝ) / 2 ^ 40 * ((slack w : ℝ) / 2 ^ 20)) ^ (2 ^ d) = ((W t * slack w : ℕ) : ℝ) ^ (2 ^ d) / 2 ^ (60 * 2 ^ d) := by
    rw [pow_mul, ← div_pow]; congr 1; push_cast; ring
  rw [e, div_le_iff₀ (by positivity)]
  cases neg
  · simp only [Bool.false_eq_true, if_false, mul_one] at h hp
    rw [hp, ← pow_add, Nat.add_comm n]
    exact_mod_cast h
  · simp only [if_true, Nat.add_zero] at h hp
    have h' : ((W t * slack w : ℕ) : ℝ) ^ (2 ^ d) * 2 ^ n ≤ 2 ^ (60 * 2 ^ d) := by exact_mod_cast h
    have h2 : (0 : ℝ) < 2 ^ n := by positivity
    rw [← mul_le_mul_iff_left₀ h2]
    calc _ ≤ _ := h'
      _ = y ^ 2 ^ d * 2 ^ n * 2 ^ (60 * 2 ^ d) := by rw [hp, one_mul]
      _ = _ := by ring

theorem hiChk_spec {neg : Bool} {w t d : ℕ} (hd : d ≤ 40) (hw : w % 2 ^ (40 - d) = 0) (h : hiChk neg w t d = true) :
    (2 : ℝ) ^ ((if neg then -1 else 1) * ((w : ℝ) / 2 ^ 40)) * ((slack w : ℝ) / 2 ^ 20) < (W t : ℝ) / 2 ^ 40 := by
  have hp := pow_two neg hd hw
  have hy : (0 : ℝ) < (2 : ℝ) ^ ((if neg then -1 else 1) * ((w : ℝ) / 2 ^ 40)) := Real.rpow_pos_of_pos (by norm_num) _
  generalize (2 : ℝ) ^ ((if neg then -1 else 1) * ((w : ℝ) / 2 ^ 40)) = y at *
  unfold hiChk at h
  rw [Nat.ble_eq, Nat.succ_le_iff] at h
  simp only [Nat.mul_eq, Nat.pow_eq, div_eq', Nat.sub_eq, Bool.cond_eq_ite] at h
  generalize w / 2 ^ (40 - d) = n at *
  have key : (y * ((2 ^ 40 * slack w : ℕ) : ℝ)) ^ (2 ^ d) < ((W t * 2 ^ 20 : ℕ) : ℝ) ^ (2 ^ d) := by
    rw [mul_pow]
    cases neg
    · simp only [Bool.false_eq_true, if_false, mul_one] at h hp
      rw [hp, mul_comm]
      exact_mod_cast h
    · simp only [if_true, mul_one] at h hp
      have h' : ((2 ^ 40 * slack w : ℕ) : ℝ) ^ (2 ^ d) < ((W t * 2 ^ 20 : ℕ) : ℝ) ^ (2 ^ d) * 2 ^ n := by exact_mod_cast h
      have h2 : (0 : ℝ) < 2 ^ n := by positivity
      rw [← mul_lt_mul_iff_left₀ h2]
      calc _ = y ^ 2 ^ d * 2 ^ n * ((2 ^ 40 * slack w : ℕ) : ℝ) ^ (2 ^ d) := by ring
        _ = ((2 ^ 40 * slack w : ℕ) : ℝ) ^ (2 ^ d) := by rw [hp, one_mul]
        _ < _ := h'
  have key := lt_of_pow_lt_pow_left₀ _ (by positivity) key
  push_cast at key
  rw [lt_div_iff₀ (by positivity)]
  have h2 : (0 : ℝ) < 2 ^ 20 := by positivity
  rw [← mul_lt_mul_iff_left₀ h2]
  calc _ = y * (2 ^ 40 * (slack w : ℝ)) := by field_simp
    _ < _ := by norm_num; exact key

/-- what the table says about `2^x`, and about numbers close to it -/
theorem exp2_br {s : ℤ} (hs : cfg.fmt.IsReal s) : ∃ t0 : ℕ, t0 ≤ 2047 ∧ Br t0 ((2 : ℝ) ^ (cfg.fmt.val s : ℝ)) ∧
    (∀ z : ℝ, |z - (2 : ℝ) ^ (cfg.fmt.val s : ℝ)| ≤ (2 : ℝ) ^ (cfg.fmt.val s : ℝ) / 2 ^ 22 →
      (∀ n : ℤ, cfg.fmt.val s = n → z = (2 : ℝ) ^ (cfg.fmt.val s : ℝ)) → (0 < cfg.fmt.val s → 1 ≤ z) → (cfg.fmt.val s < 0 → z < 1) →
      Br t0 z) ∧
    (-14 ≤ s → s < 0 → exp2 s = 1024 ∧ t0 = 1023) ∧
    (128 ≤ cfg.fmt.val s → exp2 s = -2048 ∧ t0 = 2047) ∧
    (cfg.fmt.val s ≤ -143 → exp2 s = 0 ∧ t0 = 0) ∧
    (¬ (-14 ≤ s ∧ s < 0) → cfg.fmt.val s < 128 → -143 < cfg.fmt.val s → exp2 s = if t0 = 0 then 1 else t0) := by
  have hc := at1_chk exp2_ok hs.canonical
  have A := idx hs.canonical
  have hr := real_iff.mp hs
  have ht := Posit8.tabGet_lt 16 64 opexp2Tab (uu s)
  have hback : ∀ t : ℕ, t ≤ 2047 → wrapS 16 (t : ℤ) = t := fun t h =>
    wrapS_eq (by norm_num) 0 (by ring) ⟨by norm_num, by norm_num; omega⟩
  unfold exp2 at1
  generalize tabGet 16 64 opexp2Tab (uu s) = t at *
  unfold exp2Chk at hc
  simp only [idx_split, Bool.cond_eq_ite, beq_iff, decide_eq_true_eq, A.nan, A.mag] at hc
  rw [if_neg (by omega)] at hc
  have hb : Nat.ble 2048 (uu s) = decide (s < 0) := by
    rw [Bool.eq_iff_iff, Nat.ble_eq, decide_eq_true_eq, A.sign]
  rw [hb] at hc
  have hW1024 : W 1024 = 2 ^ 40 := by decide +kernel
  have hW1025 : W 1025 = 2 ^ 40 + 2 ^ 33 := by decide +kernel
  have hW1023 : W 1023 = 2 ^ 40 - 2 ^ 32 := by decide +kernel
  have hW1 : W 1 = 1 := by decide +kernel
  have hW2047 : W 2047 = 2 ^ 80 := by decide +kernel
  unfold exp2Val at hc
  simp only [Bool.cond_eq_ite, beq_iff, decide_eq_true_eq, Nat.ble_eq, Nat.pow_eq, Nat.mul_eq, Nat.sub_eq, Nat.succ_eq_add_one, Nat.pred_eq_sub_one, show ∀ a b, Nat.mod a b = a % b from fun _ _ => rfl] at hc
  by_cases h0 : s = 0
  · subst h0
    rw [if_pos (show Int.natAbs 0 = 0 from rfl)] at hc
    have e0 : cfg.fmt.val 0 = 0 := Format.val_zero
    have b : Br 1024 1 := by
      refine ⟨Or.inr ?_, Or.inr ?_⟩
      · rw [hW1024]; norm_num
      · rw [hW1025]; norm_num
    rw [e0]
    norm_num only [Rat.cast_zero, Real.rpow_zero]
    refine ⟨1024, by norm_num, b, fun z _ hz _ _ => ?_, fun h1 h2 => absurd h2 (by norm_num), fun h => absurd h (by norm_num), fun h => absurd h (by norm_num),
      fun _ _ _ => ?_⟩
    · rw [hz 0 (by simp)]; exact b
    · rw [of_decide_eq_true hc, hback _ (by norm_num)]; rfl
  obtain ⟨hx, hwp⟩ := val12 hs h0
  rw [if_neg (by omega)] at hc
  have h14 : -14 ≤ s → s < 0 → W s.natAbs ≤ 2 ^ 32 := fun h1 h2 => by
    have := W_le (a := s.natAbs) (b := 14) (by omega) (by omega) (by omega)
    have hW14 : W 14 = 2 ^ 15 := by decide +kernel
    omega
  generalize W s.natAbs = w at *
  have hxr : (cfg.fmt.val s : ℝ) = (if s < 0 then -1 else 1) * ((w : ℝ) / 2 ^ 40) := by
    rw [hx]; split_ifs <;> push_cast <;> ring
  generalize cfg.fmt.val s = x at *
  have hy : (0 : ℝ) < (2 : ℝ) ^ (x : ℝ) := Real.rpow_pos_of_pos (by norm_num) _
  have hwq : (0 : ℚ) < w := by exact_mod_cast hwp
  by_cases hbig : 2 ^ 46 ≤ w
  · rw [if_pos hbig] at hc
    by_cases hm : w % 2 ^ 40 = 0
    swap
    · rw [if_neg hm] at hc; cases hc
    rw [if_pos hm] at hc
    obtain ⟨n, hn⟩ := Nat.dvd_of_mod_eq_zero hm
    have hwn : (w : ℚ) / 2 ^ 40 = n := by rw [hn, Nat.cast_mul]; push_cast; exact mul_div_cancel_left₀ _ (by positivity)
    rw [hwn] at hx
    by_cases hneg : s < 0
    · rw [if_pos hneg] at hc hx
      replace hx : x = ((-n : ℤ) : ℚ) := by rw [hx]; push_cast; ring
      have b : Br 0 ((2 : ℝ) ^ (x : ℝ)) := by
        refine ⟨Or.inl rfl, Or.inr ?_⟩
        rw [hW1, hx]
        have : (2 : ℝ) ^ (((-n : ℤ) : ℚ) : ℝ) ≤ (2 : ℝ) ^ ((-64 : ℤ) : ℝ) := by
          apply Real.rpow_le_rpow_of_exponent_le (by norm_num)
          have : (-n : ℤ) ≤ -64 := by omega
          rw [Rat.cast_intCast]; exact_mod_cast this
        refine lt_of_le_of_lt this ?_
        rw [Real.rpow_intCast]; norm_num
      refine ⟨0, by norm_num, b, fun z _ hz _ _ => ?_, fun h1 h2 => ?_, fun h => ?_, fun h => ?_, fun _ _ h => ?_⟩
      · rw [hz _ hx]; exact b
      · have := h14 h1 h2; omega
      · exfalso
        rw [hx] at h
        have : (128 : ℤ) ≤ -n := by exact_mod_cast h
        omega
      · have : (-n : ℤ) ≤ -143 := by rw [hx] at h; exact_mod_cast h
        rw [if_pos (by omega)] at hc
        rw [of_decide_eq_true hc]; exact ⟨by decide +kernel, rfl⟩
      · have : -143 < (-n : ℤ) := by rw [hx] at h; exact_mod_cast h
        rw [if_neg (by omega)] at hc
        rw [of_decide_eq_true hc]; decide +kernel
    · rw [if_neg hneg] at hc hx
      replace hx : x = ((n : ℤ) : ℚ) := by rw [hx]; push_cast; ring
      have b : Br 2047 ((2 : ℝ) ^ (x : ℝ)) := by
        refine ⟨Or.inr ?_, Or.inl rfl⟩
        rw [hW2047, hx]
        have : (2 : ℝ) ^ ((40 : ℤ) : ℝ) ≤ (2 : ℝ) ^ (((n : ℤ) : ℚ) : ℝ) := by
          apply Real.rpow_le_rpow_of_exponent_le (by norm_num)
          have : (40 : ℤ) ≤ n := by omega
          rw [Rat.cast_intCast]; exact_mod_cast this
        refine le_trans ?_ this
        rw [Real.rpow_intCast]; norm_num
      refine ⟨2047, by norm_num, b, fun z _ hz _ _ => ?_, fun h1 h2 => ?_, fun h => ?_, fun h => ?_, fun _ h _ => ?_⟩
      · rw [hz _ hx]; exact b
      · omega
      · have : (128 : ℤ) ≤ n := by rw [hx] at h; exact_mod_cast h
        rw [if_pos (by omega)] at hc
        rw [of_decide_eq_true hc]; exact ⟨by decide +kernel, rfl⟩
      · exfalso
        rw [hx] at h
        have : (n : ℤ) ≤ -143 := by exact_mod_cast h
        omega
      · have : (n : ℤ) < 128 := by rw [hx] at h; exact_mod_cast h
        rw [if_neg (by omega)] at hc
        rw [of_decide_eq_true hc]; decide +kernel
  rw [if_neg hbig] at hc
  have hw64 : (w : ℚ) / 2 ^ 40 < 64 := by
    rw [div_lt_iff₀ (by positivity)]
    have : w < 64 * 2 ^ 40 := by omega
    exact_mod_cast this
  have hnot1 : ¬ 128 ≤ x := fun h => by
    rw [hx] at h
    have : 0 < (w : ℚ) / 2 ^ 40 := by positivity
    split_ifs at h <;> linarith
  have hnot2 : ¬ x ≤ -143 := fun h => by
    rw [hx] at h
    have : 0 < (w : ℚ) / 2 ^ 40 := by positivity
    split_ifs at h <;> linarith
  by_cases hsm : w ≤ 2 ^ 32
  · rw [if_pos hsm] at hc
    have hh : (w : ℝ) / 2 ^ 40 ≤ 1 / 2 ^ 8 := by
      rw [div_le_div_iff₀ (by positivity) (by positivity)]
      have : w * 2 ^ 8 ≤ 1 * 2 ^ 40 := by omega
      exact_mod_cast this
    have hh0 : 0 < (w : ℝ) / 2 ^ 40 := by positivity
    have hup : (2 : ℝ) ^ ((w : ℝ) / 2 ^ 40) ≤ 1 + 1 / 2 ^ 8 := by
      have := rpow_one_add_le_one_add_mul_self (s := (1 : ℝ)) (by norm_num) hh0.le (by linarith)
      rw [show (1 : ℝ) + 1 = 2 by norm_num] at this
      linarith
    by_cases hneg : s < 0
    · rw [if_pos hneg] at hc hx hxr
      have hyl : (1 - 1 / 2 ^ 8) * (1 + 1 / 2 ^ 16) ≤ (2 : ℝ) ^ (x : ℝ) := by
        rw [hxr, neg_one_mul, Real.rpow_neg (by norm_num)]
        have := inv_anti₀ (Real.rpow_pos_of_pos (by norm_num) _) hup
        refine le_trans ?_ this
        norm_num
      have hy1 : (2 : ℝ) ^ (x : ℝ) < 1 := Real.rpow_lt_one_of_one_lt_of_neg (by norm_num) (by rw [hxr]; linarith)
      have hb' : ∀ z : ℝ, 1 - 1 / 2 ^ 8 ≤ z → z < 1 → Br 1023 z := by
        intro z h1 h2
        refine ⟨Or.inr ?_, Or.inr ?_⟩
        · rw [hW1023]; norm_num at h1 ⊢; exact h1
        · rw [hW1024]; norm_num; exact h2
      have hxneg : x < 0 := by rw [hx]; have : 0 < (w : ℚ) / 2 ^ 40 := by positivity
                               linarith
      refine ⟨1023, by norm_num, hb' _ (by norm_num at hyl ⊢; linarith) hy1, fun z hz _ _ h1 => hb' z ?_ (h1 hxneg), fun h1 h2 => ?_,
        fun h => absurd h hnot1, fun h => absurd h hnot2, fun h _ _ => ?_⟩
      · have := (abs_le.mp hz).1
        norm_num at hyl this ⊢
        linarith
      · rw [if_pos (by omega)] at hc
        rw [of_decide_eq_true hc]; exact ⟨by decide +kernel, rfl⟩
      · rw [if_neg (by omega)] at hc
        rw [of_decide_eq_true hc]; decide +kernel
    · rw [if_neg hneg] at hc hx hxr
      rw [one_mul] at hxr
      have hy1 : 1 ≤ (2 : ℝ) ^ (x : ℝ) := Real.one_le_rpow (by norm_num) (by rw [hxr]; exact hh0.le)
      rw [← hxr] at hup
      have hb' : ∀ z : ℝ, 1 ≤ z → z < 1 + 1 / 2 ^ 7 → Br 1024 z := by
        intro z h1 h2
        refine ⟨Or.inr ?_, Or.inr ?_⟩
        · rw [hW1024]; norm_num; exact h1
        · rw [hW1025]; norm_num at h2 ⊢; exact h2
      have hxpos : 0 < x := by rw [hx]; positivity
      refine ⟨1024, by norm_num, hb' _ hy1 (by norm_num at hup ⊢; linarith), fun z hz _ h1 _ => hb' z (h1 hxpos) ?_, fun h1 h2 => by omega,
        fun h => absurd h hnot1, fun h => absurd h hnot2, fun h _ _ => ?_⟩
      · have := (abs_le.mp hz).2
        norm_num at hup this ⊢
        linarith
      · rw [of_decide_eq_true hc]; decide +kernel
  rw [if_neg hsm] at hc
  have hd : dig w ≤ 40 := by unfold dig; cases Nat.ble (Nat.pow 2 36) w <;> cases Nat.ble (Nat.pow 2 40) w <;> norm_num
  by_cases hm : w % 2 ^ (40 - dig w) = 0
  swap
  · rw [if_neg hm] at hc; cases hc
  rw [if_pos hm] at hc
  have hxd : (2 : ℝ) ^ (x : ℝ) = (2 : ℝ) ^ ((if decide (s < 0) = true then -1 else 1) * ((w : ℝ) / 2 ^ 40)) := by
    rw [hxr]; simp only [decide_eq_true_eq]
  -- numbers close to `2^x` are within the slack
  have hslack : ∀ z : ℝ, |z - (2 : ℝ) ^ (x : ℝ)| ≤ (2 : ℝ) ^ (x : ℝ) / 2 ^ 22 → (∀ n : ℤ, x = n → z = (2 : ℝ) ^ (x : ℝ)) →
      (∀ p : ℝ, 0 ≤ p → p * ((slack w : ℝ) / 2 ^ 20) ≤ (2 : ℝ) ^ (x : ℝ) → p ≤ z) ∧
      (∀ p : ℝ, (2 : ℝ) ^ (x : ℝ) * ((slack w : ℝ) / 2 ^ 20) < p → z < p) := by
    intro z h1 h2
    generalize (2 : ℝ) ^ (x : ℝ) = y at *
    by_cases hi : w % 2 ^ 40 = 0
    · obtain ⟨n, hn⟩ := Nat.dvd_of_mod_eq_zero hi
      have hz : z = y := h2 (if s < 0 then -n else n) (by
        have : (w : ℚ) / 2 ^ 40 = n := by rw [hn, Nat.cast_mul]; push_cast; exact mul_div_cancel_left₀ _ (by positivity)
        rw [hx, this]; push_cast; split_ifs <;> simp)
      have : slack w = 2 ^ 20 := by
        unfold slack
        rw [show Nat.mod w (Nat.pow 2 40) = w % 2 ^ 40 from rfl, hi]; rfl
      rw [this, hz]
      norm_num
    · have : slack w = 2 ^ 20 + 1 := by
        unfold slack
        rw [show Nat.mod w (Nat.pow 2 40) = w % 2 ^ 40 from rfl, show Nat.beq (w % 2 ^ 40) 0 = false by
          rw [← Bool.not_eq_true, Nat.beq_eq]; exact hi]; rfl
      rw [this]
      rw [abs_le] at h1
      push_cast
      constructor
      · intro p hp hle
        norm_num at hle h1
        linarith
      · intro p hlt
        norm_num at hlt h1
        linarith
  have hself := hslack _ (by simp; positivity) (fun _ _ => rfl)
  have hnb : ∀ h1 : -14 ≤ s, s < 0 → False := fun h1 h2 => by have := h14 h1 h2; omega
  by_cases ht0 : s < 0 ∧ 40 * 2 ^ 40 ≤ w - 1
  · have : (if s < 0 then (40 * 2 ^ 40).ble (w - 1) else false) = true := by
      rw [if_pos ht0.1, Nat.ble_eq]; exact ht0.2
    rw [if_pos this] at hc
    by_cases ht1 : t = 1
    swap
    · rw [if_neg ht1] at hc; cases hc
    rw [if_pos ht1] at hc
    have hhi := hiChk_spec hd hm hc
    rw [← hxd] at hhi
    refine ⟨0, by norm_num, ⟨Or.inl rfl, Or.inr (hself.2 _ hhi)⟩, fun z h1 h2 _ _ => ⟨Or.inl rfl, Or.inr ((hslack z h1 h2).2 _ hhi)⟩,
      fun h1 h2 => (hnb h1 h2).elim, fun h => absurd h hnot1, fun h => absurd h hnot2, fun _ _ _ => ?_⟩
    rw [ht1]; decide +kernel
  · have : ¬ (if s < 0 then (40 * 2 ^ 40).ble (w - 1) else false) = true := by
      intro h
      by_cases hneg : s < 0
      · rw [if_pos hneg, Nat.ble_eq] at h; exact ht0 ⟨hneg, h⟩
      · rw [if_neg hneg] at h; cases h
    rw [if_neg this] at hc
    by_cases ht1 : 1 ≤ t
    swap
    · rw [if_neg ht1] at hc; cases hc
    rw [if_pos ht1] at hc
    by_cases ht2 : t ≤ 2047
    swap
    · rw [if_neg ht2] at hc; cases hc
    rw [if_pos ht2] at hc
    by_cases hl : loChk (decide (s < 0)) w t (dig w) = true
    swap
    · rw [if_neg hl] at hc; cases hc
    rw [if_pos hl] at hc
    have hlo := loChk_spec hd hm hl
    rw [← hxd] at hlo
    have hhi : t = 2047 ∨ (2 : ℝ) ^ (x : ℝ) * ((slack w : ℝ) / 2 ^ 20) < (W (t + 1) : ℝ) / 2 ^ 40 := by
      by_cases h2047 : t = 2047
      · exact Or.inl h2047
      · rw [if_neg h2047] at hc
        right
        rw [hxd]
        exact hiChk_spec hd hm hc
    refine ⟨t, ht2, ⟨Or.inr (hself.1 _ (by positivity) hlo), hhi.imp_right (hself.2 _)⟩, fun z h1 h2 _ _ =>
      ⟨Or.inr ((hslack z h1 h2).1 _ (by positivity) hlo), hhi.imp_right ((hslack z h1 h2).2 _)⟩,
      fun h1 h2 => (hnb h1 h2).elim, fun h => absurd h hnot1, fun h => absurd h hnot2, fun _ _ _ => ?_⟩
    rw [hback _ ht2, if_neg (by omega)]

end Verif.Posit12
