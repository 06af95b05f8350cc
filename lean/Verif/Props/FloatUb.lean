import Verif.Props.Float

/-!
# C22 — where the conversion from floats is undefined
-/

namespace Verif
open Fmt

variable {c : Cfg} {eb fb : ℕ}

theorem pack_nat_ub {n L : ℕ} (h : c.WF) (neg : Bool) (h1 : 2 ^ L ≤ n) (h2 : n < 2 ^ (L + 1)) (X : ℤ) (hs : ¬ c.SafeMag ((n : ℚ) * 2 ^ X)) :
    Posit.pack c ⟨.regular, neg, X + L, fracOf c.F L n⟩ = .error .shiftAmount := by
  refine pack_regular_ub h neg (fracOf_lt h2) fun hp => hs ?_
  have h0 : (0 : ℚ) < 2 ^ X := by positivity
  have h1' : (2 : ℚ) ^ L ≤ n := by exact_mod_cast h1
  have h2' : (n : ℚ) < 2 ^ (L + 1) := by exact_mod_cast h2
  have hl : (2 : ℚ) ^ (X + L) ≤ |(n : ℚ) * 2 ^ X| := by
    rw [abs_of_nonneg (by positivity), zpow_add₀ (by norm_num), zpow_natCast, mul_comm]
    exact mul_le_mul_of_nonneg_right h1' h0.le
  have hu : |(n : ℚ) * 2 ^ X| < (2 : ℚ) ^ (X + L + 1) := by
    rw [abs_of_nonneg (by positivity), show X + L + 1 = X + ((L + 1 : ℕ) : ℤ) by push_cast; ring, zpow_add₀ (by norm_num), zpow_natCast,
      mul_comm]
    exact mul_lt_mul_of_pos_left h2' h0
  refine ⟨hp.1.imp (fun h => le_trans (zpow_le_zpow_right₀ (by norm_num) h) hl) id,
    hp.2.imp (fun h => lt_of_lt_of_le hu (zpow_le_zpow_right₀ (by norm_num) (by omega))) id⟩

/-- **C22** fails at magnitudes outside `SafeMag`: the conversion executes an out-of-range shift there, for normal floats, and for subnormal
ones if the fraction type is wider than the float's fraction. -/
theorem C22_ofFloat_ub (h : c.WF) (heb : 2 ≤ eb) (heb30 : eb ≤ 30) (hfb : 1 ≤ fb) (hE : eb < c.E)
    (hE2 : 2 ^ (eb - 1) + fb ≤ 2 ^ (c.E - 1)) {b : ℕ} {y : ℚ} (hy : ieee eb fb b = .num y) (h0 : y ≠ 0)
    (hF : fb < c.F ∨ 2 ^ ((2 : ℤ) - 2 ^ (eb - 1)) ≤ |y|) (hs : ¬ c.SafeMag y) :
    Posit.ofFloat c (.any eb fb true) b = .error .shiftAmount := by
  have hF1 : 1 ≤ c.F := by have := h.hF; omega
  obtain ⟨h1, ⟨h2, h3⟩ | ⟨h2, h3⟩⟩ := ieee_num hy
  · obtain ⟨ha, hlt⟩ := sub_abs h3
    have hFb : fb < c.F := hF.resolve_right (not_le.mpr hlt)
    have hman : fMan fb b ≠ 0 := by
      intro hz
      rw [hz] at h3
      exact h0 (by rw [h3]; simp)
    have hm : fracOf c.F fb (2 ^ fb + fMan fb b) = fMan fb b * 2 ^ (c.F - fb) := by
      unfold fracOf; rw [if_pos hFb.le, Nat.add_sub_cancel_left]
    set m := fMan fb b * 2 ^ (c.F - fb) with hmdef
    have hm1 : 2 ^ (c.F - fb) ≤ m := Nat.le_mul_of_pos_left _ (by omega)
    have hm0 : m ≠ 0 := by have := Nat.one_le_two_pow (n := c.F - fb); omega
    have hL1 := Nat.log2_self_le hm0
    have hL2 := Nat.lt_log2_self (n := m)
    have hLge : c.F - fb ≤ m.log2 := by
      by_contra hc
      have : 2 ^ (m.log2 + 1) ≤ 2 ^ (c.F - fb) := Nat.pow_le_pow_right (by norm_num) (by omega)
      omega
    have hu := unpackFloat_sub (F := c.F) (E := c.E) heb hfb hF1 hE hE2 h2 hm.symm hL1 hL2
      (by have := le_pw c.F; omega) (by omega)
    unfold Posit.ofFloat
    rw [hu]
    have hval : (m : ℚ) * 2 ^ ((1 : ℤ) - (2 ^ (eb - 1) - 1) - c.F) = |y| := by
      rw [ha, hmdef]
      push_cast
      rw [mul_assoc]
      congr 1
      rw [← zpow_natCast, ← zpow_add₀ (by norm_num)]
      congr 1
      push_cast [hFb.le]; ring
    exact pack_nat_ub h _ hL1 hL2 _ (by rw [hval]; exact fun hc => hs (SafeMag_abs.mp hc))
  · have hu := unpackFloat_normal (F := c.F) (E := c.E) (dn := true) heb hfb hF1 hE.le heb30 h2 h1
    unfold Posit.ofFloat
    rw [hu]
    have hn2 : 2 ^ fb + fMan fb b < 2 ^ (fb + 1) := by
      have := fMan_lt fb b
      rw [pow_succ]; omega
    have ha : |y| = ((2 ^ fb + fMan fb b : ℕ) : ℚ) * 2 ^ ((fExp eb fb b : ℤ) - (2 ^ (eb - 1) - 1) - fb) := by
      rw [h3, abs_sign_mul _ (by positivity)]; push_cast; ring
    exact pack_nat_ub h _ (by omega) hn2 _ (by rw [← ha]; exact fun hc => hs (SafeMag_abs.mp hc))

/-- 2^240 -/
example : P32.WF ∧ 11 < P32.E ∧ 2 ^ (11 - 1) + 52 ≤ 2 ^ (P32.E - 1) ∧ ieee 11 52 0x4ef0000000000000 = .num (2 ^ 240) ∧
    ¬ P32.SafeMag (2 ^ 240) ∧ Posit.ofFloat P32 .double 0x4ef0000000000000 = .error .shiftAmount := by
  refine ⟨by decide, by decide, by decide, by norm_num [ieee], by decide +kernel, by decide +kernel⟩

end Verif
