import Mathlib.Data.Rat.Floor
import Mathlib.Algebra.Order.Field.Power
import Mathlib.Algebra.Order.Floor.Ring
import Mathlib.Tactic.Linarith
import Mathlib.Tactic.Ring
import Mathlib.Tactic.Positivity
import Mathlib.Tactic.FieldSimp
import Mathlib.Tactic.NormNum
import Mathlib.Tactic.Push

/-! # The piecewise linear exponential `L` and the regime map `G` -/

namespace Verif

/-- `2^⌊t⌋·(1 + fract t)` -/
def L (t : ℚ) : ℚ := 2 ^ ⌊t⌋ * (1 + Int.fract t)

theorem L_pos (t : ℚ) : 0 < L t := by
  unfold L
  have := Int.fract_nonneg t
  positivity

theorem L_lower (t : ℚ) : (2 : ℚ) ^ ⌊t⌋ ≤ L t := by
  unfold L
  have := Int.fract_nonneg t
  have h : (0 : ℚ) < 2 ^ ⌊t⌋ := by positivity
  nlinarith

theorem L_upper (t : ℚ) : L t < (2 : ℚ) ^ (⌊t⌋ + 1) := by
  unfold L
  have := Int.fract_lt_one t
  have h : (0 : ℚ) < 2 ^ ⌊t⌋ := by positivity
  rw [zpow_add₀ (by norm_num), zpow_one]
  nlinarith

theorem L_strictMono : StrictMono L := by
  intro t u h
  rcases lt_or_eq_of_le (Int.floor_le_floor h.le) with hf | hf
  · calc L t < (2 : ℚ) ^ (⌊t⌋ + 1) := L_upper t
      _ ≤ 2 ^ ⌊u⌋ := zpow_le_zpow_right₀ (by norm_num) hf
      _ ≤ L u := L_lower u
  · unfold L
    rw [hf]
    have h1 : Int.fract t < Int.fract u := by
      have := Int.floor_add_fract t
      have := Int.floor_add_fract u
      have : (⌊t⌋ : ℚ) = ⌊u⌋ := by rw [hf]
      linarith
    have h : (0 : ℚ) < 2 ^ ⌊u⌋ := by positivity
    nlinarith

theorem L_le_iff {t u : ℚ} : L t ≤ L u ↔ t ≤ u := L_strictMono.le_iff_le
theorem L_lt_iff {t u : ℚ} : L t < L u ↔ t < u := L_strictMono.lt_iff_lt

theorem L_int_add (e : ℤ) {x : ℚ} (h0 : 0 ≤ x) (h1 : x < 1) : L (e + x) = 2 ^ e * (1 + x) := by
  have hf : ⌊(e : ℚ) + x⌋ = e := by
    rw [Int.floor_intCast_add, Int.floor_eq_zero_iff.mpr ⟨h0, h1⟩, add_zero]
  unfold L
  rw [Int.fract, hf]
  ring

theorem L_add_int (t : ℚ) (n : ℤ) : L (t + n) = 2 ^ n * L t := by
  unfold L
  rw [Int.floor_add_intCast, Int.fract_add_intCast, zpow_add₀ (by norm_num)]
  ring

theorem L_intCast (e : ℤ) : L e = 2 ^ e := by
  have := L_int_add e (x := 0) le_rfl one_pos
  simpa using this

/-- regime coordinate → position in `(0,1)` -/
def G (s : ℚ) : ℚ := if s < 0 then L s / 2 else 1 - L (-s) / 2

theorem L_zero : L 0 = 1 := by simpa using L_intCast 0

theorem G_strictMono : StrictMono G := by
  intro s t h
  unfold G
  split_ifs with h1 h2 h2
  · have := L_strictMono h; linarith
  · have a : L s < 1 := by rw [← L_zero]; exact L_strictMono h1
    have b : L (-t) ≤ 1 := by rw [← L_zero]; exact L_le_iff.mpr (by linarith)
    linarith
  · linarith
  · have := L_strictMono (neg_lt_neg h); linarith

theorem G_le_iff {t u : ℚ} : G t ≤ G u ↔ t ≤ u := G_strictMono.le_iff_le
theorem G_lt_iff {t u : ℚ} : G t < G u ↔ t < u := G_strictMono.lt_iff_lt

/-- `G` on a regime interval below zero -/
theorem G_neg (k : ℕ) (hk : 1 ≤ k) {x : ℚ} (h0 : 0 ≤ x) (h1 : x < 1) :
    G (-(k : ℚ) + x) = (1 + x) / 2 ^ (k + 1) := by
  have hk' : (1 : ℚ) ≤ k := by exact_mod_cast hk
  unfold G
  rw [if_pos (by linarith)]
  have := L_int_add (-(k : ℤ)) h0 h1
  push_cast at this
  rw [this, zpow_neg, zpow_natCast, pow_succ]
  field_simp

/-- `G` on a regime interval from zero up -/
theorem G_nonneg (r : ℕ) {x : ℚ} (h0 : 0 ≤ x) (h1 : x < 1) :
    G ((r : ℚ) + x) = 1 - (2 - x) / 2 ^ (r + 2) := by
  have hr : (0 : ℚ) ≤ r := by positivity
  unfold G
  rw [if_neg (by linarith)]
  rcases eq_or_lt_of_le h0 with h | h
  · subst h
    have := L_intCast (-(r : ℤ))
    push_cast at this
    rw [add_zero, this, zpow_neg, zpow_natCast, pow_add]
    field_simp
    ring
  · have h2 := L_int_add (-((r : ℤ) + 1)) (x := 1 - x) (by linarith) (by linarith)
    have h3 : -((r : ℚ) + x) = ((-((r : ℤ) + 1) : ℤ) : ℚ) + (1 - x) := by push_cast; ring
    rw [h3, h2, zpow_neg]
    have : ((2 : ℚ) ^ ((r : ℤ) + 1)) = 2 ^ (r + 1) := by exact_mod_cast zpow_natCast (2 : ℚ) (r + 1)
    rw [this, pow_succ _ (r + 1)]
    field_simp
    ring

end Verif
