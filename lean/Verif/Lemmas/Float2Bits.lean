import Verif.Model.Float2Bits
import Verif.Lemmas.AnyFloat
import Verif.Props.Bits

namespace Verif
namespace Float2Bits

variable {o : FloatOps}

/-- multiples of powers of two in the normal range are floats -/
theorem repr {m : ℕ} {t : ℤ} (h0 : 0 < m) (hm : m < 2 ^ 24) (ht : -126 ≤ t) (h1 : (m : ℚ) * 2 ^ t < 2 ^ (128 : ℤ)) :
    ∃ g, ieee 8 23 g = .num ((m : ℚ) * 2 ^ t) := by
  have hp : (0 : ℚ) < 2 ^ t := by positivity
  have hm1 : (1 : ℚ) ≤ m := by exact_mod_cast h0
  have hpos : (0 : ℚ) < m * 2 ^ t := by positivity
  apply float_of_fits (by norm_num) 
  · exact ⟨m, t, by rw [abs_of_nonneg (by positivity)]; exact_mod_cast hm, by push_cast; rfl⟩
  · rw [abs_of_pos hpos]
    calc (2 : ℚ) ^ ((2 : ℤ) - 2 ^ (8 - 1)) ≤ 2 ^ t := zpow_le_zpow_right₀ (by norm_num) (by norm_num; omega)
      _ ≤ m * 2 ^ t := le_mul_of_one_le_left hp.le hm1
  · rw [abs_of_pos hpos]
    exact h1.trans_eq (by norm_num)

theorem scale (ho : o.Correct 8 23) {a p m : ℕ} {t s : ℤ} (h0 : 0 < m) (hm : m < 2 ^ 24) (ha : ieee 8 23 a = .num ((m : ℚ) * 2 ^ t))
    (hp : ieee 8 23 p = .num (2 ^ s)) (ht : -126 ≤ t + s) (h1 : (m : ℚ) * 2 ^ (t + s) < 2 ^ (128 : ℤ)) :
    ieee 8 23 (o.mul a p) = .num ((m : ℚ) * 2 ^ (t + s)) := by
  have e : (m : ℚ) * 2 ^ t * 2 ^ s = m * 2 ^ (t + s) := by rw [mul_assoc, ← zpow_add₀ (by norm_num)]
  obtain ⟨g, hg⟩ := repr h0 hm ht h1
  have h2 := ieee_le_maxFin (by norm_num) hg
  rw [← e] at h2 hg
  have h3 := (ho.mul ha hp h2).exact ⟨g, hg⟩
  rw [h3, e]

theorem p41 : ieee 8 23 0x54000000 = .num (2 ^ (41 : ℤ)) := by norm_num [ieee]
theorem p87 : ieee 8 23 0x6b000000 = .num (2 ^ (87 : ℤ)) := by norm_num [ieee]
theorem pm64 : ieee 8 23 0x1f800000 = .num (2 ^ (-64 : ℤ)) := by norm_num [ieee]

theorem loop_spec (ho : o.Correct 8 23) {m : ℕ} (h0 : 0 < m) (hm : m < 2 ^ 24) : ∀ (n : ℕ) {t : ℤ} {a : ℕ} {e : ℤ} {fuel : ℕ},
    n < fuel → ieee 8 23 a = .num ((m : ℚ) * 2 ^ t) → -149 ≤ t → (m : ℚ) * 2 ^ t < 2 ^ (128 : ℤ) →
    (2 : ℚ) ^ (87 : ℤ) ≤ (m : ℚ) * 2 ^ (t + 41 * n) →
    ∃ k : ℕ, k ≤ n ∧ ∃ a', loop o fuel a e = some (a', e - 41 * k) ∧ ieee 8 23 a' = .num ((m : ℚ) * 2 ^ (t + 41 * k)) ∧
      (2 : ℚ) ^ (87 : ℤ) ≤ (m : ℚ) * 2 ^ (t + 41 * k) ∧ (m : ℚ) * 2 ^ (t + 41 * k) < 2 ^ (128 : ℤ)
  | n, t, a, e, fuel => by
    intro hf ha ht h1 h2
    obtain ⟨fl, rfl⟩ : ∃ fl, fuel = fl + 1 := ⟨fuel - 1, by omega⟩
    unfold loop
    have hlt : AnyFloat.natLt .single a 0x6b000000 = decide ((m : ℚ) * 2 ^ t < 2 ^ (87 : ℤ)) := by
      show AnyFloat.xLt (ieee 8 23 a) (ieee 8 23 0x6b000000) = _
      rw [ha, p87]; rfl
    by_cases hc : (m : ℚ) * 2 ^ t < 2 ^ (87 : ℤ)
    · rw [hlt, decide_eq_true hc, if_pos rfl]
      match n, hf, h2 with
      | 0, _, h2 => simp only [Nat.cast_zero, mul_zero, add_zero] at h2; exact absurd hc (not_lt.mpr h2)
      | n + 1, hf, h2 =>
        have h3 : (m : ℚ) * 2 ^ (t + 41) < 2 ^ (128 : ℤ) := by
          rw [zpow_add₀ (by norm_num), ← mul_assoc]
          calc (m : ℚ) * 2 ^ t * 2 ^ (41 : ℤ) < 2 ^ (87 : ℤ) * 2 ^ (41 : ℤ) := mul_lt_mul_of_pos_right hc (by positivity)
            _ = 2 ^ (128 : ℤ) := by rw [← zpow_add₀ (by norm_num)]; norm_num
        have h4 := scale ho h0 hm ha p41 (by omega) h3
        obtain ⟨k, hk, a', e1, e2, e3, e4⟩ := loop_spec ho h0 hm n (e := e - 41) (fuel := fl) (by omega) h4 (by omega) h3
          (by rw [show t + 41 + 41 * (n : ℤ) = t + 41 * ((n + 1 : ℕ) : ℤ) by push_cast; ring]; exact h2)
        have e5 : t + 41 + 41 * (k : ℤ) = t + 41 * ((k + 1 : ℕ) : ℤ) := by push_cast; ring
        rw [e5] at e2 e3 e4
        exact ⟨k + 1, by omega, a', by rw [e1]; congr 2; push_cast; ring, e2, e3, e4⟩
    · rw [hlt, decide_eq_false hc, if_neg (by simp)]
      exact ⟨0, by omega, a, by simp, by simpa using ha, by simpa using hc, by simpa using h1⟩

theorem join_or (s : Bool) {e m : ℕ} (he : e < 256) (hm : m < 2 ^ 23) :
    (s.toNat <<< 31 ||| e * 2 ^ 23 ||| m) = fJoin 8 23 s e m := by
  have h1 : e * 2 ^ 23 ||| m = e * 2 ^ 23 + m := by
    rw [mul_comm]; exact (Nat.two_pow_add_eq_or_of_lt hm e).symm
  have h2 : e * 2 ^ 23 + m < 2 ^ 31 := by omega
  have h3 := (Nat.two_pow_add_eq_or_of_lt h2 s.toNat)
  rw [Nat.or_assoc, h1, Nat.shiftLeft_eq, mul_comm s.toNat, ← h3]
  unfold fJoin
  cases s <;> simp <;> omega

theorem clz_of {A l : ℕ} (h1 : 2 ^ l ≤ A) (h2 : A < 2 ^ (l + 1)) (hl : l < 64) : Bits.countLeadingZeroes A = 63 - l := by
  have h0 : A ≠ 0 := by have := Nat.two_pow_pos l; omega
  obtain ⟨n, hn, hn1, hn2, hn3⟩ := C34_count_leading_zeroes h0 (h2.trans_le (Nat.pow_le_pow_right (by norm_num) (by omega)))
  have h3 : A.testBit l = true := by
    rw [Nat.testBit_eq_decide_div_mod_eq]
    have : A / 2 ^ l = 1 := by
      rw [pow_succ] at h2
      exact Nat.div_eq_of_lt_le (by omega) (by omega)
    simp [this]
  have h4 : 64 - 1 - n = l := by
    rcases lt_trichotomy (64 - 1 - n) l with h | h | h
    · rw [hn3 l h] at h3; cases h3
    · exact h
    · rw [Nat.testBit_lt_two_pow (h2.trans_le (Nat.pow_le_pow_right (by norm_num) (by omega)))] at hn2; cases hn2
  rw [hn]; omega

theorem toU64_nat {A : ℕ} (h : A < 2 ^ 64) : toU64 (.num (A : ℚ)) = .ok A := by
  unfold toU64
  have h1 : (A : ℚ) < 2 ^ 64 := by exact_mod_cast h
  simp only [if_pos (show (-1 : ℚ) < (A : ℚ) ∧ (A : ℚ) < 2 ^ 64 from ⟨by have : (0 : ℚ) ≤ A := by positivity
                                                                         linarith, h1⟩)]
  simp

theorem finish_eq {sign : Bool} {a A l : ℕ} {e : ℤ} {r : ℤ × ℤ} (ha : ieee 8 23 (o.mul a 0x1f800000) = .num (A : ℚ))
    (h1 : 2 ^ l ≤ A) (h2 : A < 2 ^ (l + 1)) (hl : l < 64) {x k man : ℕ}
    (hr : (if e - (63 - l) ≤ 0 then ((0 : ℤ), (8 : ℤ) - 1) else (e - (63 - l), 63 - (l : ℤ))) = r) (hx : r.1 = x) (hx' : x < 256)
    (hk : r.2 + 1 = k) (hk' : k < 64) (hman : A * 2 ^ k % 2 ^ 64 / 2 ^ 41 = man) (hman' : man < 2 ^ 23) :
    finish o sign a e = .ok (fJoin 8 23 sign x man) := by
  have hA : A < 2 ^ 64 := h2.trans_le (Nat.pow_le_pow_right (by norm_num) (by omega))
  unfold finish
  rw [ha, bind_ok _ (toU64_nat hA)]
  simp only [clz_of h1 h2 hl, hr, hx, hk]
  have e1 : shlU 64 A (k : ℤ) = .ok (A * 2 ^ k % 2 ^ 64) := by
    unfold shlU
    rw [if_neg (by unfold pw; omega), if_neg (by norm_num), Int.toNat_natCast, Nat.shiftLeft_eq]
  have e2 : shrU 64 (A * 2 ^ k % 2 ^ 64) (64 - 23) = .ok man := by
    rw [shrU_ok (k := 41) (by norm_num) (by unfold pw; omega), hman]
  have e3 : shlU 32 sign.toNat 31 = .ok (sign.toNat <<< 31) := by cases sign <;> decide +kernel
  have e4 : shlS 32 (x : ℤ) 23 = .ok ((x * 2 ^ 23 : ℕ) : ℤ) := by
    unfold shlS
    rw [if_neg (by unfold pw; omega), if_neg (by unfold pw; push_cast; norm_num; omega)]
    have e5 : wrapS (pw 32) ((x : ℤ) * 2 ^ (23 : ℤ).toNat) = ((x * 2 ^ 23 : ℕ) : ℤ) := by
      rw [show (23 : ℤ).toNat = 23 from rfl, wrapS_of_inS (by unfold pw; omega) (by unfold InS pw; norm_num; omega)]
      push_cast; rfl
    rw [e5]
  rw [bind_ok _ e1, bind_ok _ e2, bind_ok _ e3, bind_ok _ e4, wrapU_natCast (by omega), Nat.mod_eq_of_lt (a := man) (by omega),
    join_or sign hx' hman']
  rfl

end Float2Bits
end Verif
