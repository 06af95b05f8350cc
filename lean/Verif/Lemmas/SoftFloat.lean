import Verif.Lemmas.AddExact
import Verif.Spec.SoftFloat

/-! # The regular cases of the `Unpacked` operators, for arbitrary fractions -/

namespace Verif
open Fmt

variable {F E : ℕ}

/-- sign factor -/
def sq (s : Bool) : ℚ := if s then -1 else 1

theorem sq_xor (s t : Bool) : sq (xor s t) = sq s * sq t := by cases s <;> cases t <;> simp [sq]

theorem sq_ne (s : Bool) : sq s ≠ 0 := by cases s <;> simp [sq]

theorem sq_div (s t : Bool) : sq (xor s t) = sq s / sq t := by cases s <;> cases t <;> simp [sq]

theorem abs_sq (s : Bool) {x : ℚ} (hx : 0 ≤ x) : |sq s * x| = x := abs_sign_mul s hx

theorem sq_neg_iff (s : Bool) {x : ℚ} (hx : 0 < x) : sq s * x < 0 ↔ s = true := by
  cases s
  · simp [sq]; exact hx.le
  · simp [sq]; exact hx

theorem val_eq (u : Unp) : u.val F = sq u.neg * mag F u.exp u.frac := rfl

theorem sign_of_cut (s : Bool) {x : ℚ} (hx : 0 < x) (u : ℚ) : cutTo u (sq s * x) = sq s * (⌊x / u⌋₊ * u) := by
  unfold cutTo
  rw [abs_sq s hx.le]
  simp only [sq_neg_iff s hx]
  rfl

theorem log_val {u : Unp} (hu : u.IsReg F) : Int.log 2 |u.val F| = u.exp := by
  rw [val_eq, abs_sq _ (mag_pos _ _ _).le, log_mag hu.2]

theorem signif_val {u : Unp} (hu : u.IsReg F) : signif (u.val F) = 1 + (u.frac : ℚ) / 2 ^ F := by
  unfold signif
  rw [log_val hu, val_eq, abs_sq _ (mag_pos _ _ _).le]
  unfold mag
  have : (0 : ℚ) < 2 ^ u.exp := by positivity
  field_simp

/-- cutting to all but `j` of the bits -/
theorem cutSig_val {u : Unp} (hu : u.IsReg F) {j : ℕ} (hj : j ≤ F) :
    cutSig (F + 1 - j) (u.val F) = sq u.neg * (((2 ^ (F - j) + u.frac / 2 ^ j : ℕ) : ℚ) * 2 ^ (u.exp + j - F : ℤ)) := by
  unfold cutSig
  rw [log_val hu, val_eq, sign_of_cut _ (mag_pos _ _ _)]
  have hu1 : u.exp + 1 - ((F + 1 - j : ℕ) : ℤ) = u.exp + j - F := by
    rw [Nat.cast_sub (by omega)]; push_cast; ring
  rw [hu1]
  congr 2
  have hm : mag F u.exp u.frac = ((2 ^ F + u.frac : ℕ) : ℚ) * 2 ^ (u.exp - F : ℤ) := by
    have := mag_sub (F := F) (e := u.exp) (x := 2 ^ F + u.frac) (by omega)
    rwa [show 2 ^ F + u.frac - 2 ^ F = u.frac by omega] at this
  have h1 : mag F u.exp u.frac / 2 ^ (u.exp + j - F : ℤ) = ((2 ^ F + u.frac : ℕ) : ℚ) / ((2 ^ j : ℕ) : ℚ) := by
    rw [hm, show u.exp + j - F = (u.exp - F) + (j : ℤ) by ring, zpow_add₀ (by norm_num), zpow_natCast]
    push_cast
    have : (0 : ℚ) < 2 ^ (u.exp - F : ℤ) := by positivity
    field_simp
  rw [h1, Nat.floor_div_natCast, Nat.floor_natCast]
  have h2 : 2 ^ F = 2 ^ j * 2 ^ (F - j) := by rw [← pow_add]; congr 1; omega
  rw [h2, Nat.mul_add_div (by positivity)]

theorem cutSig_one {u : Unp} (hF : 1 ≤ F) (hu : u.IsReg F) :
    cutSig F (u.val F) = sq u.neg * (((2 ^ (F - 1) + u.frac / 2 : ℕ) : ℚ) * 2 ^ (u.exp + 1 - F : ℤ)) := by
  have := cutSig_val hu hF
  simpa using this

theorem cutSig_two {u : Unp} (hF : 2 ≤ F) (hu : u.IsReg F) :
    cutSig (F - 1) (u.val F) = sq u.neg * (((2 ^ (F - 2) + u.frac / 4 : ℕ) : ℚ) * 2 ^ (u.exp + 2 - F : ℤ)) := by
  have := cutSig_val hu hF
  simpa [show F + 1 - 2 = F - 1 by omega] using this

theorem log_of_bounds {n m : ℕ} {Y : ℤ} {x : ℚ} (h1 : 2 ^ m ≤ n) (h2 : n < 2 ^ (m + 1)) (l : (n : ℚ) * 2 ^ Y ≤ x)
    (r : x < (n + 1 : ℚ) * 2 ^ Y) : Int.log 2 x = m + Y := by
  have hY : (0 : ℚ) < 2 ^ Y := by positivity
  have a1 : (2 : ℚ) ^ (m + Y : ℤ) ≤ x := by
    rw [zpow_add₀ (by norm_num), zpow_natCast]
    refine le_trans (mul_le_mul_of_nonneg_right ?_ hY.le) l
    exact_mod_cast h1
  have a2 : x < (2 : ℚ) ^ (m + Y + 1 : ℤ) := by
    rw [show (m : ℤ) + Y + 1 = ((m + 1 : ℕ) : ℤ) + Y by push_cast; ring, zpow_add₀ (by norm_num), zpow_natCast]
    refine lt_of_lt_of_le r (mul_le_mul_of_nonneg_right ?_ hY.le)
    exact_mod_cast h2
  have hx : 0 < x := lt_of_lt_of_le (by positivity) a1
  apply le_antisymm
  · have := (Int.lt_zpow_iff_log_lt (b := 2) (by norm_num) hx (x := (m : ℤ) + Y + 1)).mp (by exact_mod_cast a2)
    omega
  · exact (Int.zpow_le_iff_le_log (b := 2) (by norm_num) hx).mp (by exact_mod_cast a1)

/-- a number bracketed by consecutive multiples of a unit that have `m+1` bits -/
theorem cutSig_of_bounds {n m : ℕ} {Y : ℤ} {x : ℚ} (s : Bool) (h1 : 2 ^ m ≤ n) (h2 : n < 2 ^ (m + 1))
    (l : (n : ℚ) * 2 ^ Y ≤ x) (r : x < (n + 1 : ℚ) * 2 ^ Y) : cutSig (m + 1) (sq s * x) = sq s * (n * 2 ^ Y) := by
  have hY : (0 : ℚ) < 2 ^ Y := by positivity
  have hn : 0 < n := lt_of_lt_of_le (by positivity) h1
  have hx : 0 < x := lt_of_lt_of_le (by have : (0 : ℚ) < n := by exact_mod_cast hn
                                        positivity) l
  unfold cutSig
  rw [abs_sq s hx.le, log_of_bounds h1 h2 l r, sign_of_cut s hx,
    show (m : ℤ) + Y + 1 - ((m + 1 : ℕ) : ℤ) = Y by push_cast; ring]
  congr 2
  have : ⌊x / 2 ^ Y⌋₊ = n := by
    rw [Nat.floor_eq_iff (by positivity), le_div_iff₀ hY, div_lt_iff₀ hY]
    exact ⟨l, r⟩
  rw [this]

/-- the significand of a number given as a bracketed multiple of a unit -/
theorem signif_of_mul {n m : ℕ} {Y : ℤ} (s : Bool) (h1 : 2 ^ m ≤ n) (h2 : n < 2 ^ (m + 1)) :
    signif (sq s * (n * 2 ^ Y)) = n / 2 ^ m := by
  have hY : (0 : ℚ) < 2 ^ Y := by positivity
  unfold signif
  rw [abs_sq s (by positivity), log_of_bounds h1 h2 le_rfl (by nlinarith), zpow_add₀ (by norm_num), zpow_natCast]
  field_simp

/-- the regular case of `operator/` -/
theorem divRegular_gen (hF : 2 ≤ F) (hE : 1 ≤ E) {u v : Unp} (hu : u.IsReg F) (hv : v.IsReg F) (h1 : InS E (u.exp - v.exp))
    (h2 : InS E (u.exp - v.exp - 1)) {A B C : ℕ} (hA : A = 2 ^ (F - 1) + u.frac / 2) (hB : B = 2 ^ (F - 1) + v.frac / 2)
    (hC : C = 2 ^ (F - 2) + v.frac / 4) :
    (B ≤ A → Unp.divRegular F E u v = .ok ⟨.regular, xor u.neg v.neg, u.exp - v.exp, A * 2 ^ F / B - 2 ^ F⟩ ∧
      2 ^ F ≤ A * 2 ^ F / B ∧ A * 2 ^ F / B < 2 ^ (F + 1)) ∧
    (A < 2 * C → Unp.divRegular F E u v = .ok ⟨.regular, xor u.neg v.neg, u.exp - v.exp - 1, A * 2 ^ F / C - 2 ^ F⟩ ∧
      2 ^ F ≤ A * 2 ^ F / C ∧ A * 2 ^ F / C < 2 ^ (F + 1)) ∧
    (A = 2 * C → A < B → Unp.divRegular F E u v = .ok ⟨.regular, xor u.neg v.neg, u.exp - v.exp - 1, 0⟩) := by
  have hP := two_pow_pred_nat (w := F) (by omega)
  have hP2 : 2 ^ (F - 1) = 2 * 2 ^ (F - 2) := two_pow_pred_nat (w := F - 1) (by omega)
  have hp0 : 0 < 2 ^ (F - 2) := by positivity
  have hBC : B / 2 = C := by omega
  have hu2 := hu.2
  have hv2 := hv.2
  unfold Unp.divRegular
  simp only [mant1 (by omega : 1 ≤ F) hu.2, mant1 (by omega : 1 ≤ F) hv.2]
  rw [← hA, ← hB, arithS_ok' h1]
  simp only [bind, Except.bind, pure, Except.pure]
  refine ⟨fun hle => ?_, fun hlt => ?_, fun heq hlt => ?_⟩
  · simp only [not_lt.mpr hle, if_false, add_zero]
    rw [arithS_ok' h1]
    simp only []
    rw [if_neg (by omega), Nat.shiftLeft_eq]
    have hu1 : 2 ^ F ≤ A * 2 ^ F / B := by
      rw [Nat.le_div_iff_mul_le (by omega), mul_comm]
      exact Nat.mul_le_mul_right _ (by omega)
    have hu2 : A * 2 ^ F / B < 2 ^ (F + 1) := by
      rw [Nat.div_lt_iff_lt_mul (by omega), pow_succ, mul_assoc, mul_comm (2 ^ F) (2 * B)]
      exact Nat.mul_lt_mul_of_pos_right (by omega) (by positivity)
    exact ⟨by rw [mk3_mod hE h1 hu1 hu2], hu1, hu2⟩
  · have hlt' : A < B := by omega
    simp only [hlt', if_true]
    rw [show u.exp - v.exp + -1 = u.exp - v.exp - 1 by ring, arithS_ok' h2]
    simp only []
    have hC' : B >>> 1 = C := by rw [Nat.shiftRight_eq_div_pow]; omega
    rw [hC', if_neg (by omega), Nat.shiftLeft_eq]
    have hu1 : 2 ^ F ≤ A * 2 ^ F / C := by
      rw [Nat.le_div_iff_mul_le (by omega), mul_comm]
      exact Nat.mul_le_mul_right _ (by omega)
    have hu2 : A * 2 ^ F / C < 2 ^ (F + 1) := by
      rw [Nat.div_lt_iff_lt_mul (by omega), pow_succ, mul_assoc, mul_comm (2 ^ F) (2 * C)]
      exact Nat.mul_lt_mul_of_pos_right (by omega) (by positivity)
    exact ⟨by rw [mk3_mod hE h2 hu1 hu2], hu1, hu2⟩
  · simp only [hlt, if_true]
    rw [show u.exp - v.exp + -1 = u.exp - v.exp - 1 by ring, arithS_ok' h2]
    simp only []
    have hC' : B >>> 1 = C := by rw [Nat.shiftRight_eq_div_pow]; omega
    rw [hC', if_neg (by omega), Nat.shiftLeft_eq]
    have : A * 2 ^ F / C = 2 * 2 ^ F := by
      rw [heq, show 2 * C * 2 ^ F = C * (2 * 2 ^ F) by ring, Nat.mul_div_cancel_left _ (by omega)]
    rw [this]
    unfold Unp.mk3
    rw [wrapS_of_inS hE h2, Nat.mul_mod_left]

/-- magnitude of the quotient field -/
theorem mag_quot {e : ℤ} {x : ℕ} (h : 2 ^ F ≤ x) (s : Bool) : (⟨.regular, s, e, x - 2 ^ F⟩ : Unp).val F = sq s * (x * 2 ^ (e - F : ℤ)) := by
  rw [val_eq, mag_sub h]

end Verif
