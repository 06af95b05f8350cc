import Verif.Lemmas.Table
import Verif.Lemmas.Float

/-! # Checking a table of floats -/

namespace Verif
open Fmt

/-- the float with bits `t` is the number of the pattern `a` with sign bit `M`; `W` lists the numbers in units of
`2^(sh - 150)` -/
def f2Chk (W : Nat → Nat) (M sh a t : Nat) : Bool :=
  bif Nat.beq a 0 then Nat.beq t 0
  else bif Nat.beq a M then Nat.beq t 0x7fc00000
  else bif (bif Nat.ble M a then Nat.ble 0x80000000 t else Nat.ble (Nat.succ t) 0x80000000) then
    bif Nat.beq (Nat.mod (Nat.div t 8388608) 256) 0 then false
    else bif Nat.beq (Nat.mod (Nat.div t 8388608) 256) 255 then false
    else Nat.beq (Nat.mul (Nat.add 8388608 (Nat.mod t 8388608)) (Nat.pow 2 (Nat.mod (Nat.div t 8388608) 256)))
      (Nat.mul (W (mg M a)) (Nat.pow 2 sh))
  else false

theorem beq_iff {a b : ℕ} : Nat.beq a b = decide (a = b) := by
  rw [Bool.eq_iff_iff, decide_eq_true_eq]; rw [Nat.beq_eq]

theorem f2Chk_spec {W : ℕ → ℕ} {M sh a t : ℕ} (ha0 : a ≠ 0) (haM : a ≠ M) (ht : t < 2 ^ 32) (hsh : sh ≤ 150)
    (h : f2Chk W M sh a t = true) :
    ieee 8 23 t = .num ((if M ≤ a then -1 else 1 : ℚ) * ((W (mg M a) : ℚ) / 2 ^ (150 - sh))) := by
  unfold f2Chk at h
  simp only [Bool.cond_eq_ite, beq_iff, decide_eq_true_eq] at h
  rw [if_neg ha0, if_neg haM] at h
  have hs : (if Nat.ble M a = true then Nat.ble 0x80000000 t else Nat.ble (Nat.succ t) 0x80000000) = true := by
    by_contra hc
    rw [if_neg hc] at h
    cases h
  rw [if_pos hs] at h
  have hx0 : (t / 8388608).mod 256 ≠ 0 := by
    intro hc
    rw [show (Nat.div t 8388608).mod 256 = (t / 8388608).mod 256 from rfl, if_pos hc] at h
    cases h
  rw [show (Nat.div t 8388608).mod 256 = (t / 8388608).mod 256 from rfl, if_neg hx0] at h
  have hx1 : (t / 8388608).mod 256 ≠ 255 := by
    intro hc
    rw [if_pos hc] at h
    cases h
  rw [if_neg hx1] at h
  replace h := of_decide_eq_true h
  replace h : (8388608 + t % 8388608) * 2 ^ (t / 8388608 % 256) = W (mg M a) * 2 ^ sh := h
  replace hx0 : t / 8388608 % 256 ≠ 0 := hx0
  replace hx1 : t / 8388608 % 256 ≠ 255 := hx1
  have hsign : fSign 8 23 t = decide (M ≤ a) := by
    unfold fSign
    by_cases hc : M ≤ a
    · rw [if_pos (Nat.ble_eq.mpr hc), Nat.ble_eq] at hs
      simp only [hc, decide_true, decide_eq_true_eq]
      norm_num at ht ⊢
      omega
    · rw [if_neg (by rw [Nat.ble_eq]; exact hc), Nat.ble_eq] at hs
      simp only [hc, decide_false, decide_eq_false_iff_not]
      norm_num at ht ⊢
      omega
  rw [ieee_eq]
  have e1 : fExp 8 23 t = t / 8388608 % 256 := by unfold fExp; norm_num
  have e2 : fMan 23 t = t % 8388608 := by unfold fMan; norm_num
  rw [e1, e2, hsign, if_neg (by norm_num; exact hx1), if_neg hx0]
  congr 1
  simp only [decide_eq_true_eq]
  congr 1
  have h' : ((8388608 : ℚ) + (t % 8388608 : ℕ)) * 2 ^ (t / 8388608 % 256) = W (mg M a) * 2 ^ sh := by exact_mod_cast h
  generalize t / 8388608 % 256 = x at *
  generalize ((t % 8388608 : ℕ) : ℚ) = m at *
  have e3 : (2 : ℚ) ^ ((x : ℤ) - (2 ^ (8 - 1) - 1) - (23 : ℕ)) = 2 ^ x / 2 ^ 150 := by
    rw [show ((x : ℤ) - (2 ^ (8 - 1) - 1) - (23 : ℕ)) = x - (150 : ℕ) by norm_num; ring, zpow_sub₀ (by norm_num), zpow_natCast,
      zpow_natCast]
  have e4 : (2 : ℚ) ^ 150 = 2 ^ sh * 2 ^ (150 - sh) := by rw [← pow_add]; congr 1; omega
  rw [e3, show (2 : ℚ) ^ 23 = 8388608 by norm_num, ← mul_div_assoc, h', e4]
  field_simp

end Verif
