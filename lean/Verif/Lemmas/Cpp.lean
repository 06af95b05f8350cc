import Verif.Model.Posit
import Mathlib.Data.Nat.Bitwise
import Mathlib.Tactic.Linarith
import Mathlib.Tactic.Ring
import Mathlib.Tactic.Positivity
import Mathlib.Tactic.NormNum
import Mathlib.Tactic.Push

/-! # Lemmas about the C++ integer semantics and the trait constants -/

namespace Verif

/-- the closed interval of a signed `w`-bit type -/
def InS (w : Nat) (x : Int) : Prop := -(2 ^ (w - 1) : Int) ≤ x ∧ x < 2 ^ (w - 1)

theorem two_pow_pred {w : Nat} (hw : 1 ≤ w) : (2 : Int) ^ w = 2 * 2 ^ (w - 1) := by
  rw [← pow_succ']; congr 1; omega

theorem two_pow_pred_nat {w : Nat} (hw : 1 ≤ w) : (2 : Nat) ^ w = 2 * 2 ^ (w - 1) := by
  rw [← pow_succ']; congr 1; omega

theorem wrapS_eq {w : Nat} (hw : 1 ≤ w) {x y : Int} (k : Int) (hx : x = y + 2 ^ w * k) (hy : InS w y) :
    wrapS w x = y := by
  obtain ⟨h1, h2⟩ := hy
  have h3 := two_pow_pred hw
  unfold wrapS
  have h4 : ((2 ^ w : Nat) : Int) = 2 ^ w := by push_cast; rfl
  rw [hx, ← h4, Int.add_mul_bmod_self_left]
  exact Int.bmod_eq_of_le (by rw [h4, h3]; omega) (by rw [h4, h3]; omega)

theorem wrapS_of_inS {w : Nat} (hw : 1 ≤ w) {x : Int} (h : InS w x) : wrapS w x = x :=
  wrapS_eq hw 0 (by ring) h

theorem wrapU_natCast {w x : Nat} (h : x < 2 ^ w) : wrapU w (x : Int) = x := by
  unfold wrapU
  have : ((x : Int) % 2 ^ w) = x := Int.emod_eq_of_lt (by omega) (by exact_mod_cast h)
  rw [this]; rfl

theorem wrapU_of_nonneg {w : Nat} {x : Int} (h0 : 0 ≤ x) (h : x < 2 ^ w) : wrapU w x = x.toNat := by
  unfold wrapU
  rw [Int.emod_eq_of_lt h0 h]

theorem wrapU_of_neg {w : Nat} {x : Int} (h0 : x < 0) (h : -(2 ^ w) ≤ x) : wrapU w x = (x + 2 ^ w).toNat := by
  unfold wrapU
  rw [← Int.add_emod_right, Int.emod_eq_of_lt (by omega) (by omega)]

theorem wrapU_wrapS {w w' : Nat} (h : w ≤ w') (x : Int) : wrapU w (wrapS w' x) = wrapU w x := by
  unfold wrapU wrapS
  congr 1
  rw [Int.bmod_eq_self_sub_mul_bdiv]
  obtain ⟨d, rfl⟩ := Nat.exists_eq_add_of_le h
  push_cast
  rw [pow_add, mul_assoc, Int.sub_mul_emod_self_left]

theorem wrapU_lt (w : Nat) (x : Int) : wrapU w x < 2 ^ w := by
  unfold wrapU
  have h1 := Int.emod_nonneg x (b := 2 ^ w) (by positivity)
  have h2 := Int.emod_lt_of_pos x (b := 2 ^ w) (by positivity)
  zify
  rw [Int.toNat_of_nonneg h1]; exact h2

theorem arithS_ok {w : Nat} {x : Int} (h : InS (pw w) x) : arithS w x = .ok x := by
  unfold arithS; unfold InS at h; rw [if_pos h]

theorem le_pw (w : Nat) : w ≤ pw w := by unfold pw; omega
theorem le_pw32 (w : Nat) : 32 ≤ pw w := by unfold pw; omega

theorem InS.mono {w w' : Nat} (h : w ≤ w') {x : Int} (hx : InS w x) : InS w' x := by
  have : (2 : Int) ^ (w - 1) ≤ 2 ^ (w' - 1) := pow_le_pow_right₀ (by norm_num) (by omega)
  unfold InS at *; omega

theorem arithS_ok' {w : Nat} {x : Int} (h : InS w x) : arithS w x = .ok x := arithS_ok (h.mono (le_pw w))

theorem shrU_ok {w x : Nat} {n : Int} {k : Nat} (hk : n = k) (h : k < pw w) : shrU w x n = .ok (x / 2 ^ k) := by
  unfold shrU
  rw [if_neg (by omega), hk, Int.toNat_natCast, Nat.shiftRight_eq_div_pow]

theorem shlU_ok_mod {w x : Nat} {n : Int} {k : Nat} (hk : n = k) (h : k < pw w)
    (hfit : w < 32 → x * 2 ^ k < 2 ^ 32) : ∃ y, shlU w x n = .ok y ∧ y % 2 ^ w = (x * 2 ^ k) % 2 ^ w := by
  unfold shlU
  rw [if_neg (by omega), hk, Int.toNat_natCast, Nat.shiftLeft_eq]
  split_ifs with h1 h2
  · exact ⟨_, rfl, rfl⟩
  · exact absurd (hfit h1) h2
  · exact ⟨_, rfl, Nat.mod_mod _ _⟩

theorem log2_eq {x m : Nat} (h1 : 2 ^ m ≤ x) (h2 : x < 2 ^ (m + 1)) : Nat.log2 x = m := by
  have h0 : x ≠ 0 := by have := Nat.one_le_two_pow (n := m); omega
  have a := Nat.log2_self_le h0
  have b := Nat.lt_log2_self (n := x)
  have c : Nat.log2 x < m + 1 := (Nat.pow_lt_pow_iff_right (by norm_num : 1 < 2)).mp (lt_of_le_of_lt a h2)
  have d : m < Nat.log2 x + 1 := (Nat.pow_lt_pow_iff_right (by norm_num : 1 < 2)).mp (lt_of_le_of_lt h1 b)
  omega

theorem and_two_pow_eq_zero_iff (x i : Nat) : x &&& 2 ^ i = 0 ↔ x / 2 ^ i % 2 = 0 := by
  rw [Nat.and_two_pow, Nat.testBit_eq_decide_div_mod_eq]
  have : 0 < 2 ^ i := by positivity
  rcases Nat.mod_two_eq_zero_or_one (x / 2 ^ i) with h | h <;> simp [h]

namespace Cfg.WF
variable {c : Cfg}

theorem H_pos (h : c.WF) : 8 ≤ c.H := by have := h.hH; omega
theorem F_pos (h : c.WF) : 8 ≤ c.F := by have := h.hF; omega
theorem N_ge (h : c.WF) : 3 ≤ c.N := by have := h.hes; omega

theorem pow_le (h : c.WF) : (2 : Int) ^ (c.N - 1) ≤ 2 ^ (c.H - 1) :=
  pow_le_pow_right₀ (by norm_num) (by have := h.hN; omega)

theorem pow_ge (h : c.WF) : (4 : Int) ≤ 2 ^ (c.N - 1) := by
  have := h.N_ge
  calc (4 : Int) = 2 ^ 2 := by norm_num
    _ ≤ _ := pow_le_pow_right₀ (by norm_num) (by omega)

theorem top_eq (h : c.WF) : c.top = -(2 ^ (c.N - 1)) := by
  unfold Cfg.top
  have := h.pow_le
  have := h.pow_ge
  exact wrapS_eq (by have := h.H_pos; omega) (2 ^ (c.N - 1)) (by ring) (by unfold InS; omega)

theorem topRight_eq (h : c.WF) : c.topRight = 2 ^ (c.N - 1) - 1 := by
  unfold Cfg.topRight
  have := h.pow_le
  have := h.pow_ge
  exact wrapS_of_inS (by have := h.H_pos; omega) (by unfold InS; omega)

theorem topLeft_eq (h : c.WF) : c.topLeft = -(2 ^ (c.N - 1)) + 1 := by
  unfold Cfg.topLeft
  rw [h.top_eq]
  have := h.pow_le
  have := h.pow_ge
  exact wrapS_of_inS (by have := h.H_pos; omega) (by unfold InS; omega)

theorem nan_eq (h : c.WF) : c.nan = -(2 ^ (c.N - 1)) := h.top_eq

theorem pinf_eq (h : c.WF) : c.pinf = if c.spec = .withNanInf then 2 ^ (c.N - 1) - 1 else -(2 ^ (c.N - 1)) := by
  unfold Cfg.pinf; rw [h.topRight_eq, h.top_eq]

theorem ninf_eq (h : c.WF) : c.ninf = if c.spec = .withNanInf then -(2 ^ (c.N - 1)) + 1 else -(2 ^ (c.N - 1)) := by
  unfold Cfg.ninf; rw [h.topLeft_eq, h.top_eq]

end Cfg.WF
end Verif
