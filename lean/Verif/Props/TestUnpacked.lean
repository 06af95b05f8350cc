import Verif.Props.SoftFloat
import Verif.Props.Unpacked
import Verif.Props.FloatPack
import Verif.Lemmas.Float2Posit
import Verif.Spec.FloatArith
import Verif.Model.TestUnpacked

/-! # The checks of tests/testunpacked.cpp, for every float: C112 -/

namespace Verif
open Fmt

variable {F E eb fb : ℕ}

/-! ## reading a float -/

theorem sign_num (s : Bool) {y : ℚ} (hy : 0 < y) : s = decide (sq s * y < 0) := by
  have := sq_neg_iff s hy
  cases s <;> simp_all

/-- a float that is not zero is held exactly, and the fraction has `F - fb` trailing zero bits -/
theorem read_exact (heb : 2 ≤ eb) (heb30 : eb ≤ 30) (hfb : 1 ≤ fb) (hF : fb < F) (hE : eb < E)
    (hE2 : 2 ^ (eb - 1) + fb ≤ 2 ^ (E - 1)) {b : ℕ} {x : ℚ} (hx : ieee eb fb b = .num x) (h0 : x ≠ 0) :
    ∃ u, Unp.unpackFloat F E (.any eb fb true) b = .ok u ∧ u.IsReg F ∧ u.val F = x ∧ 2 ^ (F - fb) ∣ u.frac := by
  obtain ⟨h1, ⟨h2, h3⟩ | ⟨h2, h3⟩⟩ := ieee_num hx
  · have hm0 : fMan fb b ≠ 0 := by
      intro h; apply h0; rw [h3, h]; simp
    have hm : fracOf F fb (2 ^ fb + fMan fb b) = fMan fb b * 2 ^ (F - fb) := by
      unfold fracOf; rw [if_pos hF.le, Nat.add_sub_cancel_left]
    have hmlt : fMan fb b * 2 ^ (F - fb) < 2 ^ F := by
      rw [← hm]; apply fracOf_lt
      have := fMan_lt fb b
      rw [pow_succ]; omega
    have hm0' : fMan fb b * 2 ^ (F - fb) ≠ 0 := Nat.mul_ne_zero hm0 (by positivity)
    have l1 := Nat.pow_log_le_self 2 hm0'
    have l2 := Nat.lt_pow_succ_log_self (b := 2) (by norm_num) (fMan fb b * 2 ^ (F - fb))
    have l3 : F - fb ≤ Nat.log 2 (fMan fb b * 2 ^ (F - fb)) :=
      (Nat.le_log_iff_pow_le (by norm_num) hm0').mpr (Nat.le_mul_of_pos_left _ (by omega))
    have l4 : Nat.log 2 (fMan fb b * 2 ^ (F - fb)) < F := Nat.log_lt_of_lt_pow hm0' hmlt
    generalize hL : Nat.log 2 (fMan fb b * 2 ^ (F - fb)) = L at *
    have hu := unpackFloat_sub (F := F) heb hfb (by omega) hE hE2 h2 hm.symm l1 l2 (by unfold pw; omega) (by omega)
    refine ⟨_, hu, ⟨rfl, fracOf_lt l2⟩, ?_, ?_⟩
    · rw [val_eq]
      simp only []
      rw [fracOf_exact l1 l4.le, h3]
      unfold sq
      congr 1
      push_cast
      rw [mul_assoc, ← zpow_natCast, ← zpow_add₀ (by norm_num)]
      congr 2
      rw [Nat.cast_sub hF.le]; ring
    · simp only []
      unfold fracOf
      rw [if_pos l4.le]
      apply Dvd.dvd.mul_right
      apply Nat.dvd_sub (dvd_mul_left _ _) (pow_dvd_pow _ l3)
  · have hu := unpackFloat_normal (F := F) (dn := true) heb hfb (by omega) hE.le heb30 h2 h1
    have hn2 : 2 ^ fb + fMan fb b < 2 ^ (fb + 1) := by
      have := fMan_lt fb b
      rw [pow_succ]; omega
    refine ⟨_, hu, ⟨rfl, fracOf_lt hn2⟩, ?_, ?_⟩
    · rw [val_eq]
      simp only []
      rw [fracOf_exact (by omega) hF.le, h3]
      unfold sq
      push_cast
      rfl
    · simp only []
      unfold fracOf
      rw [if_pos hF.le]
      exact dvd_mul_left _ _

/-- the exponent of a float that is not zero -/
theorem log_float (heb : 2 ≤ eb) {b : ℕ} {x : ℚ} (hx : ieee eb fb b = .num x) (h0 : x ≠ 0) :
    2 - 2 ^ (eb - 1) - fb ≤ Int.log 2 |x| ∧ Int.log 2 |x| < 2 ^ (eb - 1) := by
  have hpos : 0 < |x| := abs_pos.mpr h0
  have hh := pow_half (show 1 ≤ eb by omega)
  rw [← Int.zpow_le_iff_le_log (by norm_num) hpos, ← Int.lt_zpow_iff_log_lt (by norm_num) hpos]
  obtain ⟨h1, ⟨h2, h3⟩ | ⟨h2, h3⟩⟩ := ieee_num hx
  · obtain ⟨h4, h5⟩ := sub_abs h3
    constructor
    · have hm0 : 1 ≤ fMan fb b := by
        rcases Nat.eq_zero_or_pos (fMan fb b) with h | h
        · exact absurd (by rw [h3, h]; simp) h0
        · exact h
      rw [h4]
      have : (1 : ℚ) ≤ fMan fb b := by exact_mod_cast hm0
      push_cast
      exact le_mul_of_one_le_left (by positivity) this
    · push_cast
      refine lt_of_lt_of_le h5 (zpow_le_zpow_right₀ (by norm_num) ?_)
      have : (2 : ℤ) ≤ 2 ^ (eb - 1) := by exact_mod_cast two_le_pow heb
      omega
  · have hlt := fExp_lt eb fb b
    have hm := fMan_lt fb b
    rw [h3, abs_sign_mul _ (by positivity)]
    have e1 : (1 : ℚ) ≤ 2 ^ fb + fMan fb b := by
      have : (1 : ℚ) ≤ 2 ^ fb := one_le_pow₀ (by norm_num)
      have : (0 : ℚ) ≤ fMan fb b := by positivity
      linarith
    have e2 : (2 ^ fb + fMan fb b : ℚ) < 2 ^ ((fb : ℤ) + 1) := by
      rw [zpow_add₀ (by norm_num), zpow_natCast, zpow_one]
      have : (fMan fb b : ℚ) < 2 ^ fb := by exact_mod_cast hm
      linarith
    have hltz : (fExp eb fb b : ℤ) < 2 ^ eb := by exact_mod_cast hlt
    have h1z : (fExp eb fb b : ℤ) ≠ 2 ^ eb - 1 := by
      intro h
      apply h1
      have : ((2 ^ eb - 1 : ℕ) : ℤ) = 2 ^ eb - 1 := by
        rw [Nat.cast_sub Nat.one_le_two_pow]; push_cast; rfl
      omega
    push_cast
    constructor
    · calc (2 : ℚ) ^ ((2 : ℤ) - 2 ^ (eb - 1) - fb) ≤ 2 ^ ((fExp eb fb b : ℤ) - (2 ^ (eb - 1) - 1) - fb) :=
            zpow_le_zpow_right₀ (by norm_num) (by omega)
        _ ≤ _ := le_mul_of_one_le_left (by positivity) e1
    · calc (2 ^ fb + fMan fb b : ℚ) * 2 ^ ((fExp eb fb b : ℤ) - (2 ^ (eb - 1) - 1) - fb)
          < 2 ^ ((fb : ℤ) + 1) * 2 ^ ((fExp eb fb b : ℤ) - (2 ^ (eb - 1) - 1) - fb) :=
            mul_lt_mul_of_pos_right e2 (by positivity)
        _ = 2 ^ ((fExp eb fb b : ℤ) - (2 ^ (eb - 1) - 1) + 1) := by
            rw [← zpow_add₀ (by norm_num)]; congr 1; ring
        _ ≤ _ := zpow_le_zpow_right₀ (by norm_num) (by omega)

/-- **C112**, `fu.type`, `frexp` and `signbit`: a float that is not zero is read as a regular number of exactly its value,
sign and exponent. -/
theorem C112_read (heb : 2 ≤ eb) (heb30 : eb ≤ 30) (hfb : 1 ≤ fb) (hF : fb < F) (hE : eb < E)
    (hE2 : 2 ^ (eb - 1) + fb ≤ 2 ^ (E - 1)) {b : ℕ} {x : ℚ} (hx : ieee eb fb b = .num x) (h0 : x ≠ 0) :
    ∃ u, Unp.unpackFloat F E (.any eb fb true) b = .ok u ∧ u.ty = .regular ∧ u.frac < 2 ^ F ∧ u.neg = decide (x < 0) ∧
      u.exp = Int.log 2 |x| ∧ u.val F = x := by
  obtain ⟨u, h1, h2, h3, -⟩ := read_exact heb heb30 hfb hF hE hE2 hx h0
  refine ⟨u, h1, h2.1, h2.2, ?_, ?_, h3⟩
  · rw [← h3, val_eq]
    exact sign_num _ (mag_pos _ _ _)
  · rw [← h3, log_val h2]

/-- `-10.0f` in `Unpacked<uint32_t>`: the exponent is 3 -/
example : ∃ u, Unp.unpackFloat 32 32 (.any 8 23 true) 0xC1200000 = .ok u ∧ u.ty = .regular ∧ u.frac < 2 ^ 32 ∧
    u.neg = decide ((-10 : ℚ) < 0) ∧ u.exp = Int.log 2 |(-10 : ℚ)| ∧ u.val 32 = -10 :=
  C112_read (by norm_num) (by norm_num) (by norm_num) (by norm_num) (by norm_num) (by norm_num) (by norm_num [ieee]) (by norm_num)

/-! ## reciprocals, products, doubles -/

theorem cut_exact (hF : 2 ≤ F) {u : Unp} (hu : u.IsReg F) (hd : 4 ∣ u.frac) :
    cutSig F (u.val F) = u.val F ∧ cutSig (F - 1) (u.val F) = u.val F := by
  have hP := two_pow_pred_nat (w := F) (by omega)
  have hP2 : 2 ^ (F - 1) = 2 * 2 ^ (F - 2) := two_pow_pred_nat (w := F - 1) (by omega)
  obtain ⟨q, hq⟩ := hd
  have hm : mag F u.exp u.frac = ((2 ^ F + u.frac : ℕ) : ℚ) * 2 ^ (u.exp - F : ℤ) := by
    have := mag_sub (F := F) (e := u.exp) (x := 2 ^ F + u.frac) (by omega)
    rwa [Nat.add_sub_cancel_left] at this
  rw [cutSig_one (by omega) hu, cutSig_two hF hu, val_eq, hm]
  constructor
  · congr 1
    rw [show 2 ^ F + u.frac = (2 ^ (F - 1) + u.frac / 2) * 2 by omega, Nat.cast_mul, mul_assoc,
      show u.exp + 1 - (F : ℤ) = 1 + (u.exp - F) by ring, zpow_add₀ (by norm_num)]
    norm_num
  · congr 1
    rw [show 2 ^ F + u.frac = (2 ^ (F - 2) + u.frac / 4) * 4 by omega, Nat.cast_mul, mul_assoc,
      show u.exp + 2 - (F : ℤ) = 2 + (u.exp - F) by ring, zpow_add₀ (by norm_num)]
    norm_num

/-- the reciprocal of a number whose last two fraction bits are zero is its reciprocal cut to `F + 1` bits -/
theorem inv_exact (hF : 2 ≤ F) (hE : 1 ≤ E) {u : Unp} (hu : u.IsReg F) (hd : 4 ∣ u.frac) (h1 : InS E (-u.exp))
    (h2 : InS E (-u.exp - 1)) :
    ∃ r, Unp.inv F E u = .ok r ∧ r.IsReg F ∧ r.val F = cutSig (F + 1) (1 / u.val F) := by
  obtain ⟨r, h3, h4, h5, h6, -⟩ := C68_inv hF hE hu h1 h2
  obtain ⟨c1, c2⟩ := cut_exact hF hu hd
  rw [c1] at h5
  rw [c2] at h6
  refine ⟨r, h3, h4, ?_⟩
  have hs := signif_val hu
  rcases Nat.eq_zero_or_pos u.frac with hz | hz
  · exact h5 (by rw [hs, hz]; simp)
  · refine h6 ?_
    rw [hs]
    have : (0 : ℚ) < u.frac / 2 ^ F := by positivity
    linarith

/-- cutting at least one bit below the leading one keeps the sign -/
theorem cutTo_sign {u x : ℚ} (hu : 0 < u) (h : u ≤ |x|) : 0 < cutTo u x * x := by
  have hf : (0 : ℚ) < ⌊|x| / u⌋₊ := by
    have : 1 ≤ ⌊|x| / u⌋₊ := by
      rw [Nat.one_le_floor_iff, le_div_iff₀ hu]; simpa using h
    exact_mod_cast this
  have hx : x ≠ 0 := by rintro rfl; simp at h; linarith
  unfold cutTo
  split_ifs with hn
  · have : 0 < ⌊|x| / u⌋₊ * u := by positivity
    nlinarith
  · have hx0 : 0 < x := lt_of_le_of_ne (not_lt.mp hn) (Ne.symm hx)
    have : 0 < ⌊|x| / u⌋₊ * u := by positivity
    rw [one_mul]; positivity

/-- `z` is `y` less at most a part `ε` of it -/
def CloseBelow (ε y z : ℚ) : Prop := 0 < z * y ∧ |z| ≤ |y| ∧ |y| - |z| ≤ ε * |y|

theorem below_abs {ε y z : ℚ} (h : CloseBelow ε y z) : |z - y| ≤ ε * |y| := by
  obtain ⟨h1, h2, h3⟩ := h
  rcases lt_trichotomy y 0 with hy | hy | hy
  · have hz : z < 0 := by nlinarith
    rw [abs_of_neg hy, abs_of_neg hz] at *
    rw [abs_le]; constructor <;> linarith
  · simp [hy] at h1
  · have hz : 0 < z := by nlinarith
    rw [abs_of_pos hy, abs_of_pos hz] at *
    rw [abs_le]; constructor <;> linarith

theorem cutSig_below {m : ℕ} (hm : 1 ≤ m) {x : ℚ} (hx : x ≠ 0) : CloseBelow (2 ^ (1 - m : ℤ)) x (cutSig m x) := by
  obtain ⟨h1, h2⟩ := cutSig_err (m := m) hx
  refine ⟨?_, h1, h2.le⟩
  unfold cutSig
  apply cutTo_sign (by positivity)
  refine le_trans (zpow_le_zpow_right₀ (by norm_num) (show Int.log 2 |x| + 1 - (m : ℤ) ≤ Int.log 2 |x| by omega)) ?_
  have := Int.zpow_log_le_self (b := 2) (by norm_num) (abs_pos.mpr hx)
  exact_mod_cast this

theorem cutSig_ge {m : ℕ} (hm : 1 ≤ m) {k : ℤ} {y : ℚ} (h : (2 : ℚ) ^ k ≤ |y|) : (2 : ℚ) ^ k ≤ |cutSig m y| := by
  have hpos : 0 < |y| := lt_of_lt_of_le (by positivity) h
  have hk : k ≤ Int.log 2 |y| := (Int.zpow_le_iff_le_log (by norm_num) hpos).mp (by exact_mod_cast h)
  refine le_trans (zpow_le_zpow_right₀ (by norm_num) hk) ?_
  have hl : (2 : ℚ) ^ Int.log 2 |y| ≤ |y| := by
    have := Int.zpow_log_le_self (b := 2) (by norm_num) hpos
    exact_mod_cast this
  have habs : |cutSig m y| = ⌊|y| / 2 ^ (Int.log 2 |y| + 1 - m : ℤ)⌋₊ * 2 ^ (Int.log 2 |y| + 1 - m : ℤ) := by
    unfold cutSig cutTo
    rw [abs_mul, abs_of_nonneg (by positivity : (0 : ℚ) ≤ ⌊|y| / 2 ^ (Int.log 2 |y| + 1 - m : ℤ)⌋₊ *
      2 ^ (Int.log 2 |y| + 1 - m : ℤ))]
    split_ifs <;> simp
  rw [habs]
  have hU : (2 : ℚ) ^ Int.log 2 |y| = (2 ^ (m - 1) : ℕ) * 2 ^ (Int.log 2 |y| + 1 - m : ℤ) := by
    push_cast
    rw [← zpow_natCast, ← zpow_add₀ (by norm_num), Nat.cast_sub hm]
    congr 1; push_cast; ring
  calc (2 : ℚ) ^ Int.log 2 |y| = (2 ^ (m - 1) : ℕ) * 2 ^ (Int.log 2 |y| + 1 - m : ℤ) := hU
    _ ≤ _ := by
      refine mul_le_mul_of_nonneg_right ?_ (by positivity)
      have : 2 ^ (m - 1) ≤ ⌊|y| / 2 ^ (Int.log 2 |y| + 1 - m : ℤ)⌋₊ := by
        apply Nat.le_floor
        rw [le_div_iff₀ (by positivity), ← hU]; exact hl
      exact_mod_cast this

theorem cutSig_twice {m : ℕ} {y : ℚ} (hy : y ≠ 0) : cutSig m (2 * y) = 2 * cutSig m y := by
  have hpos : 0 < |y| := abs_pos.mpr hy
  have h2 : |2 * y| = |y| * 2 ^ (1 : ℤ) := by rw [abs_mul]; norm_num; ring
  have hlog : Int.log 2 |2 * y| = Int.log 2 |y| + 1 := by
    have l1 := Int.zpow_log_le_self (b := 2) (by norm_num) hpos
    have l2 := Int.lt_zpow_succ_log_self (b := 2) (by norm_num) |y|
    push_cast at l1 l2
    have hpos2 : 0 < |2 * y| := by rw [h2]; positivity
    apply le_antisymm
    · have : Int.log 2 |2 * y| < Int.log 2 |y| + 1 + 1 := by
        apply (Int.lt_zpow_iff_log_lt (by norm_num) hpos2).mp
        push_cast
        rw [h2, zpow_add₀ (by norm_num)]
        exact mul_lt_mul_of_pos_right l2 (by positivity)
      omega
    · apply (Int.zpow_le_iff_le_log (by norm_num) hpos2).mp
      push_cast
      rw [h2, zpow_add₀ (by norm_num)]
      exact mul_le_mul_of_nonneg_right l1 (by positivity)
  unfold cutSig cutTo
  rw [hlog, show Int.log 2 |y| + 1 + 1 - (m : ℤ) = (Int.log 2 |y| + 1 - m) + 1 by ring, zpow_add₀ (by norm_num) _ 1, h2,
    mul_div_mul_right _ _ (by positivity)]
  have : (2 * y < 0) ↔ y < 0 := by constructor <;> intro h <;> linarith
  simp only [this, zpow_one]
  ring

/-- **C112**, the checks on `inv()`, `*`, `/` and `+`, on the objects: for every float `x` that is not zero, in a fraction
type of at least three more bits than the float has: `fui` is `1/x` cut to `F+1` bits, `fuii` differs from `x` by at most
`2^(3-F)|x|`, `fu*fui` is in `[1-2^(3-F),1]`, `2*fu` is `2x`, `2*fu/fu` is 2 and `fu+fu` is the same object as `2*fu`. -/
theorem C112_checks (heb : 2 ≤ eb) (heb30 : eb ≤ 30) (hfb : 1 ≤ fb) (hF : fb + 3 ≤ F) (hE : eb < E)
    (hE2 : 2 ^ (eb - 1) + fb ≤ 2 ^ (E - 1)) {b : ℕ} {x : ℚ} (hx : ieee eb fb b = .num x) (h0 : x ≠ 0) :
    ∃ u ui uii p d, Unp.unpackFloat F E (.any eb fb true) b = .ok u ∧
      Unp.inv F E u = .ok ui ∧ ui.IsReg F ∧ ui.val F = cutSig (F + 1) (1 / x) ∧
      Unp.inv F E ui = .ok uii ∧ uii.IsReg F ∧ |uii.val F - x| ≤ 2 ^ (3 - F : ℤ) * |x| ∧
      Unp.mul F E u ui = .ok p ∧ p.IsReg F ∧ 1 - 2 ^ (3 - F : ℤ) ≤ p.val F ∧ p.val F ≤ 1 ∧
      Unp.mul F E ⟨.regular, false, 1, 0⟩ u = .ok d ∧ d.IsReg F ∧ d.val F = 2 * x ∧
      Unp.div F E d u = .ok ⟨.regular, false, 1, 0⟩ ∧
      Unp.add F E u u = .ok d := by
  obtain ⟨u, hu, hreg, hval, hdvd⟩ := read_exact (F := F) heb heb30 hfb (by omega) hE hE2 hx h0
  obtain ⟨l1, l2⟩ := log_float heb hx h0
  rw [← hval, log_val hreg] at l1 l2
  have hE2z : (2 : ℤ) ^ (eb - 1) + fb ≤ 2 ^ (E - 1) := by exact_mod_cast hE2
  have h8 : 8 ∣ u.frac := dvd_trans (show 2 ^ 3 ∣ 2 ^ (F - fb) from pow_dvd_pow _ (by omega)) hdvd
  have h4 : 4 ∣ u.frac := dvd_trans (by norm_num) h8
  have hfbz : (1 : ℤ) ≤ fb := by exact_mod_cast hfb
  have hEp : (1 : ℤ) ≤ 2 ^ (eb - 1) := one_le_pow₀ (by norm_num)
  have i1 : InS E (-u.exp) := by unfold InS; omega
  have i2 : InS E (-u.exp - 1) := by unfold InS; omega
  have i3 : InS E u.exp := by unfold InS; omega
  have i4 : InS E (u.exp - 1) := by unfold InS; omega
  have i5 : InS E (u.exp + 1) := by unfold InS; omega
  obtain ⟨ui, hui, hreg2, hval2⟩ := inv_exact (by omega : 2 ≤ F) (by omega : 1 ≤ E) hreg h4 i1 i2
  obtain ⟨ui', uii, hui', huii, hreg3, -, hcl, -, -⟩ := C68_inv_inv (by omega : 4 ≤ F) (by omega : 1 ≤ E) hreg i1 i2 i3 i4 i5
  obtain rfl : ui = ui' := by rw [hui] at hui'; exact Except.ok.inj hui'
  have hcl' := hcl (by obtain ⟨k, hk⟩ := h4; omega) (by
    have hu2 := hreg.2
    have : 8 ∣ 2 ^ F := show 2 ^ 3 ∣ 2 ^ F from pow_dvd_pow _ (by omega)
    obtain ⟨k, hk⟩ := h8
    obtain ⟨l, hl⟩ := this
    omega)
  -- the product
  have hx1 : 1 / x ≠ 0 := one_div_ne_zero h0
  have hb1 := cutSig_below (m := F + 1) (by omega) hx1
  rw [← hval, ← hval2] at hb1
  have hexp : ui.exp = -u.exp ∨ ui.exp = -u.exp - 1 := by
    obtain ⟨a1, a2, a3⟩ := inv_small (by omega : 2 ≤ F) (by omega : 1 ≤ E) hreg i1 i2
    rcases lt_or_ge u.frac 2 with h | h
    · left; have := a1 h; rw [hui] at this; rw [Except.ok.inj this]
    · right; have := (a3 (by obtain ⟨k, hk⟩ := h4; omega)).1; rw [hui] at this; rw [Except.ok.inj this]
  have hE1 : (2 : ℤ) ≤ 2 ^ (E - 1) := by omega
  obtain ⟨p, hp, hpreg, hpsgn, hple, hperr⟩ := C68_mul_error (by omega : 2 ≤ F) (by omega : 1 ≤ E) hreg hreg2
    (by unfold InS; omega) (by unfold InS; omega)
  obtain ⟨p', hp', -, hpv⟩ := C68_mul (by omega : 2 ≤ F) (by omega : 1 ≤ E) hreg hreg2 (by unfold InS; omega)
    (by unfold InS; omega)
  obtain rfl : p = p' := by rw [hp] at hp'; exact Except.ok.inj hp'
  have hpb : p.val F ≤ 1 ∧ 1 - p.val F ≤ 2 ^ (3 - F : ℤ) := by
    have hpos : 0 < ui.val F * (1 / u.val F) := hb1.1
    have hun : u.val F ≠ 0 := val_ne u
    have huin : ui.val F ≠ 0 := val_ne ui
    have hprod : 0 < u.val F * ui.val F := by
      have h1 : 0 < u.val F * u.val F := mul_self_pos.mpr hun
      have h2 : u.val F * ui.val F = (u.val F * u.val F) * (ui.val F * (1 / u.val F)) := by field_simp
      rw [h2]; positivity
    have hp0 : 0 < p.val F := by
      rcases lt_or_ge 0 (p.val F) with h | h
      · exact h
      · nlinarith
    rw [(cut_exact (by omega : 2 ≤ F) hreg h4).1] at hpv
    obtain ⟨c1, c2⟩ := cutTo_err (u := 2 ^ (u.exp + ui.exp + 2 - F : ℤ)) (x := u.val F * cutSig F (ui.val F)) (by positivity)
    rw [← hpv, abs_of_pos hp0, abs_mul] at c1 c2
    obtain ⟨-, g1, g2⟩ := cutSig_below (m := F) (by omega) huin
    obtain ⟨-, f1, f2⟩ := hb1
    have ha : 0 < |u.val F| := abs_pos.mpr hun
    rw [abs_div, abs_one] at f1 f2
    generalize |u.val F| = a at *
    generalize |ui.val F| = y at *
    generalize |cutSig F (ui.val F)| = z at *
    have hU : (2 : ℚ) ^ (u.exp + ui.exp + 2 - F : ℤ) ≤ 4 * 2 ^ (-F : ℤ) := by
      calc (2 : ℚ) ^ (u.exp + ui.exp + 2 - F : ℤ) ≤ 2 ^ (2 + -F : ℤ) := zpow_le_zpow_right₀ (by norm_num) (by omega)
        _ = _ := by rw [zpow_add₀ (by norm_num)]; norm_num
    have e1 : (2 : ℚ) ^ (1 - (F + 1 : ℕ) : ℤ) = 2 ^ (-F : ℤ) := by congr 1; push_cast; ring
    have e2 : (2 : ℚ) ^ (1 - F : ℤ) = 2 * 2 ^ (-F : ℤ) := by
      rw [sub_eq_add_neg, zpow_add₀ (by norm_num)]; norm_num
    have e3 : (2 : ℚ) ^ (3 - F : ℤ) = 8 * 2 ^ (-F : ℤ) := by
      rw [sub_eq_add_neg, zpow_add₀ (by norm_num)]; norm_num
    rw [e1] at f2
    rw [e2] at g2
    rw [e3]
    have hee : (0 : ℚ) < 2 ^ (-F : ℤ) := by positivity
    generalize (2 : ℚ) ^ (-F : ℤ) = ε at *
    have hay : a * y ≤ 1 := by
      have := mul_le_mul_of_nonneg_left f1 ha.le
      rwa [mul_one_div_cancel ha.ne'] at this
    have hay2 : 1 - a * y ≤ ε := by
      have := mul_le_mul_of_nonneg_left f2 ha.le
      rw [mul_sub, mul_one_div_cancel ha.ne', mul_left_comm, mul_one_div_cancel ha.ne', mul_one] at this
      exact this
    have haz : a * z ≤ a * y := mul_le_mul_of_nonneg_left g1 ha.le
    have haz2 : a * y - a * z ≤ 2 * ε * (a * y) := by
      have := mul_le_mul_of_nonneg_left g2 ha.le
      linarith
    have : 2 * ε * (a * y) ≤ 2 * ε := by nlinarith
    constructor <;> linarith
  -- twice
  have hd := two_mul_eq (by omega : 2 ≤ F) (by omega : 1 ≤ E) hreg i5
  obtain ⟨d', hd', hq⟩ := C68_div_two (by omega : 2 ≤ F) (by omega : 2 ≤ E) hreg i5
  rw [hd] at hd'
  have hdd := Except.ok.inj hd'
  subst hdd
  refine ⟨u, ui, uii, p, _, hu, hui, hreg2, by rw [hval2, hval], huii, hreg3, ?_, hp, hpreg, ?_, ?_, hd, ?_, ?_, ?_, ?_⟩
  · rw [← hval]
    refine hcl'.trans ?_
    rw [show u.exp + 3 - (F : ℤ) = (3 - F) + u.exp by ring, zpow_add₀ (by norm_num)]
    refine mul_le_mul_of_nonneg_left ?_ (by positivity)
    rw [val_eq, abs_sq _ (mag_pos _ _ _).le]
    exact le_mag _ _ _
  · have := hpb.2; rwa [sub_le_comm]
  · exact hpb.1
  · refine ⟨rfl, ?_⟩
    simp only []
    rw [Nat.mul_div_cancel' h4]; exact hreg.2
  · simp only [Nat.mul_div_cancel' h4]
    rw [← hval, val_eq, val_eq]
    simp only [mag]
    rw [zpow_add₀ (by norm_num), zpow_one]; ring
  · rw [hq, if_pos (by obtain ⟨k, hk⟩ := h4; omega)]
  · rw [C68_double (by omega) (by omega) hreg, hd]

/-- `10.0` in `Unpacked<uint64_t>` -/
example : ∃ u ui uii p d, Unp.unpackFloat 64 32 (.any 11 52 true) 0x4024000000000000 = .ok u ∧
    Unp.inv 64 32 u = .ok ui ∧ ui.IsReg 64 ∧ ui.val 64 = cutSig (64 + 1) (1 / 10) ∧
    Unp.inv 64 32 ui = .ok uii ∧ uii.IsReg 64 ∧ |uii.val 64 - 10| ≤ 2 ^ (3 - (64 : ℕ) : ℤ) * |(10 : ℚ)| ∧
    Unp.mul 64 32 u ui = .ok p ∧ p.IsReg 64 ∧ 1 - 2 ^ (3 - (64 : ℕ) : ℤ) ≤ p.val 64 ∧ p.val 64 ≤ 1 ∧
    Unp.mul 64 32 ⟨.regular, false, 1, 0⟩ u = .ok d ∧ d.IsReg 64 ∧ d.val 64 = 2 * 10 ∧
    Unp.div 64 32 d u = .ok ⟨.regular, false, 1, 0⟩ ∧ Unp.add 64 32 u u = .ok d :=
  C112_checks (by norm_num) (by norm_num) (by norm_num) (by norm_num) (by norm_num) (by norm_num) (by norm_num [ieee]) (by norm_num)

/-! ## back to floats -/

/-- a regular number in the normal range of a narrower float format is cut to the bits of that format -/
theorem pack_cut_narrow (heb : 2 ≤ eb) (heb30 : eb ≤ 30) (hfb : 1 ≤ fb) (hF : fb < F) (hE : eb < E) {r : Unp} (hr : r.IsReg F)
    (h1 : minNorm eb ≤ |r.val F|) (h2 : |r.val F| < 2 ^ ((2 : ℤ) ^ (eb - 1))) :
    ∃ b, Unp.packFloat F E (.any eb fb true) r = .ok b ∧ b < 2 ^ (eb + fb + 1) ∧ ieee eb fb b = .num (cutSig (fb + 1) (r.val F)) := by
  have hpos : 0 < |r.val F| := abs_pos.mpr (val_ne r)
  have e1 : 2 - 2 ^ (eb - 1) ≤ r.exp := by
    rw [← log_val hr]
    apply (Int.zpow_le_iff_le_log (by norm_num) hpos).mp
    unfold minNorm at h1
    exact_mod_cast h1
  have e2 : r.exp < 2 ^ (eb - 1) := by
    rw [← log_val hr]
    apply (Int.lt_zpow_iff_log_lt (by norm_num) hpos).mp
    exact_mod_cast h2
  have hh := pow_half (eb := eb) (by omega)
  obtain ⟨x, hx⟩ := Int.eq_ofNat_of_zero_le (show 0 ≤ r.exp + (2 ^ (eb - 1) - 1) by omega)
  have h2n : x + 2 ≤ 2 ^ eb := by
    have : (x : ℤ) + 2 ≤ 2 ^ eb := by omega
    exact_mod_cast this
  have hm : (if fb < F then r.frac / 2 ^ (F - fb) else r.frac * 2 ^ (fb - F)) < 2 ^ fb := by
    rw [if_pos hF, Nat.div_lt_iff_lt_mul (by positivity), ← pow_add, show fb + (F - fb) = F by omega]; exact hr.2
  have hp := packFloat_normal (E := E) (dn := true) (s := r.neg) heb hfb (by omega : 1 ≤ F) heb30 hr.2 hx (by omega) h2n (by omega)
  rw [← reg_eq hr] at hp
  refine ⟨_, hp, fJoin_lt (by omega) hm, ?_⟩
  have hcut := cutSig_val hr (j := F - fb) (by omega)
  rw [show F + 1 - (F - fb) = fb + 1 by omega, show F - (F - fb) = fb by omega] at hcut
  have hj := join_value (fb := fb) heb (s := r.neg) (e := r.exp) (f := r.frac / 2 ^ (F - fb) * 2 ^ (F - fb)) (F := F)
    (lt_of_le_of_lt (Nat.div_mul_le_self _ _) hr.2) hx (by omega) h2n (Or.inr (dvd_mul_left _ _))
  rw [if_pos hF, Nat.mul_div_cancel _ (by positivity)] at hj
  rw [if_pos hF, hj, hcut]
  congr 1
  unfold tripleVal sq
  congr 1
  have hz : ((F - fb : ℕ) : ℤ) = F - fb := by rw [Nat.cast_sub hF.le]
  have hp2 : (2 : ℚ) ^ F = 2 ^ (F - fb) * 2 ^ fb := by rw [← pow_add]; congr 1; omega
  rw [hz, show r.exp + (F - fb : ℤ) - F = r.exp - fb by ring, zpow_sub₀ (by norm_num), zpow_natCast, hp2]
  push_cast
  field_simp

theorem pack_close (heb : 2 ≤ eb) (heb30 : eb ≤ 30) (hfb : 1 ≤ fb) (hF : fb < F) (hE : eb < E) {r : Unp} (hr : r.IsReg F)
    (h1 : minNorm eb ≤ |r.val F|) (h2 : |r.val F| < 2 ^ ((2 : ℤ) ^ (eb - 1))) {y : ℚ}
    (hy : |r.val F - y| ≤ 2 ^ (-fb : ℤ) * |y|) :
    ∃ b z, Unp.packFloat F E (.any eb fb true) r = .ok b ∧ ieee eb fb b = .num z ∧ |z - y| ≤ 3 * 2 ^ (-fb : ℤ) * |y| := by
  obtain ⟨b, hb, -, hz⟩ := pack_cut_narrow heb heb30 hfb hF hE hr h1 h2
  refine ⟨b, _, hb, hz, ?_⟩
  have hc := below_abs (cutSig_below (m := fb + 1) (by omega) (val_ne (F := F) r))
  rw [show (1 - ((fb + 1 : ℕ) : ℤ)) = -fb by push_cast; ring] at hc
  have hε : (2 : ℚ) ^ (-fb : ℤ) ≤ 1 := zpow_le_one_of_nonpos₀ (by norm_num) (by omega)
  have hε0 : (0 : ℚ) < 2 ^ (-fb : ℤ) := by positivity
  generalize (2 : ℚ) ^ (-fb : ℤ) = ε at *
  have t1 : |cutSig (fb + 1) (r.val F) - y| ≤ |cutSig (fb + 1) (r.val F) - r.val F| + |r.val F - y| := abs_sub_le _ _ _
  have t2 : |r.val F| ≤ |r.val F - y| + |y| := by
    have := abs_add_le (r.val F - y) y
    rwa [sub_add_cancel] at this
  have hy0 : 0 ≤ |y| := abs_nonneg _
  have t3 : |r.val F| ≤ 2 * |y| := by nlinarith
  nlinarith

/-- **C112**, the same checks after the conversion back to the float type, as the test makes them: `fu` comes back as `f`
itself, `2*fu/fu` as 2, `fu+fu` as `2f`, and `fui`, `fuii`, `fu*fui` come back within `3·2^-fb` of `1/f`, `f`, `1`,
relatively. `f` is a normal number at least a factor two away from the least and four from the overflow threshold, so
that the reciprocal is normal. -/
theorem C112_packed (heb : 3 ≤ eb) (heb30 : eb ≤ 30) (hfb : 1 ≤ fb) (hF : fb + 3 ≤ F) (hE : eb < E)
    (hE2 : 2 ^ (eb - 1) + fb ≤ 2 ^ (E - 1)) {b : ℕ} (hb : b < 2 ^ (eb + fb + 1)) {x : ℚ} (hx : ieee eb fb b = .num x)
    (h1 : 2 * minNorm eb ≤ |x|) (h2 : |x| < 2 ^ ((2 : ℤ) ^ (eb - 1) - 2)) :
    ∃ u ui uii p d, Unp.unpackFloat F E (.any eb fb true) b = .ok u ∧ Unp.inv F E u = .ok ui ∧ Unp.inv F E ui = .ok uii ∧
      Unp.mul F E u ui = .ok p ∧ Unp.mul F E ⟨.regular, false, 1, 0⟩ u = .ok d ∧ Unp.div F E d u = .ok ⟨.regular, false, 1, 0⟩ ∧
      Unp.packFloat F E (.any eb fb true) u = .ok b ∧
      (∃ b' z, Unp.packFloat F E (.any eb fb true) uii = .ok b' ∧ ieee eb fb b' = .num z ∧
        |z - x| ≤ 3 * 2 ^ (-fb : ℤ) * |x|) ∧
      (∃ b' z, Unp.packFloat F E (.any eb fb true) ui = .ok b' ∧ ieee eb fb b' = .num z ∧
        |z - 1 / x| ≤ 3 * 2 ^ (-fb : ℤ) * |1 / x|) ∧
      (∃ b' z, Unp.packFloat F E (.any eb fb true) p = .ok b' ∧ ieee eb fb b' = .num z ∧ |z - 1| ≤ 3 * 2 ^ (-fb : ℤ)) ∧
      (∃ b', Unp.packFloat F E (.any eb fb true) ⟨.regular, false, 1, 0⟩ = .ok b' ∧ ieee eb fb b' = .num 2) ∧
      (∃ b', Unp.packFloat F E (.any eb fb true) d = .ok b' ∧ ieee eb fb b' = .num (2 * x)) := by
  have hmn : 0 < minNorm eb := by unfold minNorm; positivity
  have hxp : 0 < |x| := by linarith
  have h0 : x ≠ 0 := abs_pos.mp hxp
  obtain ⟨u, ui, uii, p, d, hu, hui, rui, vui, huii, ruii, vuii, hp, rp, p1, p2, hd, rd, vd, hq, -⟩ :=
    C112_checks (F := F) (by omega) heb30 hfb hF hE hE2 hx h0
  have hE4 : (4 : ℤ) ≤ 2 ^ (eb - 1) := by
    calc (4 : ℤ) = 2 ^ 2 := by norm_num
      _ ≤ _ := pow_le_pow_right₀ (by norm_num) (by omega)
  have hε : (2 : ℚ) ^ (3 - F : ℤ) ≤ 2 ^ (-fb : ℤ) := zpow_le_zpow_right₀ (by norm_num) (by omega)
  have hε2 : (2 : ℚ) ^ (-fb : ℤ) ≤ 2⁻¹ := by
    rw [← zpow_neg_one]; exact zpow_le_zpow_right₀ (by norm_num) (by omega)
  have hmin : minNorm eb * 4 ≤ 1 := by
    unfold minNorm
    calc (2 : ℚ) ^ ((2 : ℤ) - 2 ^ (eb - 1)) * 4 = 2 ^ ((2 : ℤ) - 2 ^ (eb - 1) + 2) := by rw [zpow_add₀ (by norm_num)]; norm_num
      _ ≤ 2 ^ (0 : ℤ) := zpow_le_zpow_right₀ (by norm_num) (by omega)
      _ = 1 := by norm_num
  have hB : (2 : ℚ) ^ ((2 : ℤ) ^ (eb - 1)) = 4 * 2 ^ ((2 : ℤ) ^ (eb - 1) - 2) := by
    rw [zpow_sub₀ (by norm_num)]; norm_num; ring
  have hinv : (2 : ℚ) ^ ((2 : ℤ) ^ (eb - 1) - 2) = 1 / minNorm eb := by
    unfold minNorm
    rw [one_div, ← zpow_neg]; congr 1; ring
  have hBig : (4 : ℚ) ≤ 2 ^ ((2 : ℤ) ^ (eb - 1) - 2) := by
    rw [hinv, le_div_iff₀ hmn]; linarith
  have hpu : Unp.packFloat F E (.any eb fb true) u = .ok b := by
    obtain ⟨f1, ⟨f2, f3⟩ | ⟨f2, f3⟩⟩ := ieee_num hx
    · obtain ⟨-, h5⟩ := sub_abs f3
      unfold minNorm at h1 hmn
      linarith
    · obtain ⟨u', h3, h4⟩ := C33_normal (F := F) (E := E) (dn := true) (by omega) heb30 hfb (by omega) hE.le (by omega) hb f2 f1
      rw [hu] at h3
      rw [Except.ok.inj h3]; exact h4
  refine ⟨u, ui, uii, p, d, hu, hui, huii, hp, hd, hq, hpu, ?_, ?_, ?_, ?_, ?_⟩
  · have t2 : |uii.val F| ≤ |uii.val F - x| + |x| := by
      have := abs_add_le (uii.val F - x) x
      rwa [sub_add_cancel] at this
    have t3 : |x| ≤ |uii.val F| + |uii.val F - x| := by
      have := abs_sub_abs_le_abs_sub x (uii.val F)
      rw [abs_sub_comm] at this; linarith
    have t4 : |uii.val F - x| ≤ 2⁻¹ * |x| := vuii.trans (mul_le_mul_of_nonneg_right (hε.trans hε2) hxp.le)
    exact pack_close (by omega) heb30 hfb (by omega) hE ruii (by linarith) (by rw [hB]; linarith)
      (vuii.trans (mul_le_mul_of_nonneg_right hε hxp.le))
  · have hx1 : 1 / x ≠ 0 := one_div_ne_zero h0
    have hcb := cutSig_below (m := F + 1) (by omega) hx1
    rw [← vui] at hcb
    have hlog : minNorm eb ≤ |ui.val F| := by
      rw [vui]
      unfold minNorm
      apply cutSig_ge (by omega)
      rw [abs_div, abs_one, le_div_iff₀ hxp]
      calc (2 : ℚ) ^ ((2 : ℤ) - 2 ^ (eb - 1)) * |x| ≤ 2 ^ ((2 : ℤ) - 2 ^ (eb - 1)) * 2 ^ ((2 : ℤ) ^ (eb - 1) - 2) :=
            mul_le_mul_of_nonneg_left h2.le (by positivity)
        _ = 1 := by rw [← zpow_add₀ (by norm_num), show (2 : ℤ) - 2 ^ (eb - 1) + (2 ^ (eb - 1) - 2) = 0 by ring, zpow_zero]
    refine pack_close (by omega) heb30 hfb (by omega) hE rui hlog ?_ ?_
    · refine lt_of_le_of_lt hcb.2.1 ?_
      rw [abs_div, abs_one, hB, hinv, div_lt_iff₀ hxp]
      have : 1 / minNorm eb * (2 * minNorm eb) = 2 := by field_simp
      have h3 : 1 / minNorm eb * (2 * minNorm eb) ≤ 1 / minNorm eb * |x| := mul_le_mul_of_nonneg_left h1 (by positivity)
      linarith
    · refine (below_abs hcb).trans (mul_le_mul_of_nonneg_right ?_ (abs_nonneg _))
      exact zpow_le_zpow_right₀ (by norm_num) (by push_cast; omega)
  · have hp0 : 2⁻¹ ≤ p.val F := by
      have : (2 : ℚ) ^ (3 - F : ℤ) ≤ 2⁻¹ := hε.trans hε2
      linarith
    have hpa : |p.val F| = p.val F := abs_of_pos (by linarith)
    obtain ⟨b', z, k1, k2, k3⟩ := pack_close (by omega) heb30 hfb (by omega) hE rp (y := 1) (by rw [hpa]; linarith)
      (by rw [hpa, hB]; linarith) (by
        rw [abs_one, mul_one, abs_sub_comm, abs_of_nonneg (by linarith)]; linarith)
    exact ⟨b', z, k1, k2, by simpa using k3⟩
  · have r2 : (⟨.regular, false, 1, 0⟩ : Unp).IsReg F := ⟨rfl, by positivity⟩
    have v2 : (⟨.regular, false, 1, 0⟩ : Unp).val F = 2 := by norm_num [Unp.val, tripleVal]
    obtain ⟨b', k1, -, k2⟩ := pack_cut_narrow (by omega) heb30 hfb (by omega) hE r2 (by rw [v2]; norm_num; linarith)
      (by rw [v2, hB]; norm_num; linarith)
    refine ⟨b', k1, ?_⟩
    rw [k2]
    congr 1
    have hcut := cutSig_val r2 (j := F - fb) (by omega)
    rw [show F + 1 - (F - fb) = fb + 1 by omega, show F - (F - fb) = fb by omega] at hcut
    rw [hcut]
    simp only [sq, Nat.zero_div, add_zero]
    push_cast [Nat.cast_sub (show fb ≤ F by omega)]
    rw [← zpow_natCast, ← zpow_add₀ (by norm_num), show (fb : ℤ) + (1 + (F - fb) - F) = 1 by ring]
    norm_num
  · have hd2 : |d.val F| = 2 * |x| := by rw [vd, abs_mul]; norm_num
    obtain ⟨b', k1, -, k2⟩ := pack_cut_narrow (by omega) heb30 hfb (by omega) hE rd (by rw [hd2]; linarith)
      (by rw [hd2, hB]; linarith)
    refine ⟨b', k1, ?_⟩
    rw [k2, vd]
    congr 1
    obtain ⟨w, hw, hwr, hwv, -⟩ := read_exact (F := F) (by omega) heb30 hfb (by omega) hE hE2 hx h0
    rw [hu] at hw
    obtain rfl := Except.ok.inj hw
    obtain ⟨b'', j1, -, j2⟩ := pack_cut_narrow (by omega) heb30 hfb (by omega) hE hwr (by rw [hwv]; linarith)
      (by rw [hwv, hB]; linarith)
    rw [hpu] at j1
    rw [← Except.ok.inj j1, hx, hwv] at j2
    rw [cutSig_twice h0, ← (XNum.num.inj j2)]

/-- the conditions hold for `1200.0f` in `Unpacked<uint32_t>`, the greatest part being far from the ends of the range -/
example : ∃ u ui b' z, Unp.unpackFloat 32 32 (.any 8 23 true) 0x44960000 = .ok u ∧ Unp.inv 32 32 u = .ok ui ∧
    Unp.packFloat 32 32 (.any 8 23 true) ui = .ok b' ∧ ieee 8 23 b' = .num z ∧
    |z - 1 / 1200| ≤ 3 * 2 ^ (-(23 : ℕ) : ℤ) * |(1 / 1200 : ℚ)| := by
  obtain ⟨u, ui, uii, p, d, h1, h2, -, -, -, -, -, -, ⟨b', z, h3, h4, h5⟩, -⟩ := C112_packed (F := 32) (E := 32) (eb := 8) (fb := 23)
    (b := 0x44960000) (x := 1200) (by norm_num) (by norm_num) (by norm_num) (by norm_num) (by norm_num) (by norm_num) (by norm_num)
    (by norm_num [ieee]) (by norm_num [minNorm]) (by norm_num)
  exact ⟨u, ui, b', z, h1, h2, h3, h4, h5⟩

/-! ## sums -/

theorem reg_inj {u v : Unp} (hu : u.IsReg F) (hv : v.IsReg F) (h : u.val F = v.val F) : u = v := by
  rw [val_eq, val_eq] at h
  have hs : u.neg = v.neg := by
    have h1 := sq_neg_iff u.neg (mag_pos F u.exp u.frac)
    have h2 := sq_neg_iff v.neg (mag_pos F v.exp v.frac)
    rw [h] at h1
    rw [Bool.eq_iff_iff, ← h1, ← h2]
  rw [hs] at h
  obtain ⟨h3, h4⟩ := mag_inj hu.2 hv.2 (mul_left_cancel₀ (sq_ne _) h)
  rw [reg_eq hu, reg_eq hv, hs, h3, h4]

theorem val_neg' {u : Unp} : (Unp.neg' u).val F = -u.val F := by
  rw [val_eq, val_eq]
  unfold Unp.neg' sq
  cases u.neg <;> simp

/-- a float that is zero is read as zero -/
theorem read_zero (heb : 2 ≤ eb) (hfb : 1 ≤ fb) (hF : fb < F) (hE : eb < E) {b : ℕ} (hx : ieee eb fb b = .num 0) :
    ∃ e f, Unp.unpackFloat F E (.any eb fb true) b = .ok ⟨.zero, false, e, f⟩ := by
  obtain ⟨h1, h2⟩ := ieee_num_zero hx
  exact unpackFloat_zero heb hfb (by omega) hE h1 (Or.inr (by rw [h2]; unfold fracOf; simp))

theorem sum_eq (hF8 : F = 8 ∨ F = 16 ∨ F = 32 ∨ F = 64) (heb : 2 ≤ eb) (heb30 : eb ≤ 30) (hfb : 1 ≤ fb) (hF : fb < F)
    (hE : eb < E) (hE2 : 2 ^ eb + fb + F ≤ 2 ^ (E - 1)) {u v : Unp} (hu : u.IsReg F) (hv : v.IsReg F)
    (hu1 : 2 - 2 ^ (eb - 1) - fb ≤ u.exp) (hu2 : u.exp < 2 ^ (eb - 1)) (hv1 : 2 - 2 ^ (eb - 1) - fb ≤ v.exp)
    (hv2 : v.exp < 2 ^ (eb - 1)) {n m k : ℤ} (hn : |n| < 2 ^ (F - 2)) (hm : |m| < 2 ^ (F - 2))
    (hx : u.val F = n * 2 ^ k) (hy : v.val F = m * 2 ^ k) {s : ℕ} (hs : ieee eb fb s = .num (u.val F + v.val F)) :
    ∃ r w, Unp.add F E u v = .ok r ∧ Unp.unpackFloat F E (.any eb fb true) s = .ok w ∧ Unp.eq r w = true := by
  have hh := pow_half (show 1 ≤ eb by omega)
  have hE2z : (2 : ℤ) ^ eb + fb + F ≤ 2 ^ (E - 1) := by exact_mod_cast hE2
  have hpn := two_pow_pred_nat (w := eb) (by omega)
  have hp : (0 : ℤ) < 2 ^ (eb - 1) := by positivity
  obtain ⟨r, hr, ⟨h1, rfl⟩ | ⟨h1, h2⟩⟩ := C68_add_exact hF8 (by omega : 1 ≤ E) hu hv (by unfold InS; omega)
    (by intro x hx1 hx2; unfold InS; omega) hn hm hx hy
  · have hz : u.val F + v.val F = 0 := by
      rw [hx, hy, ← add_mul, ← Int.cast_add, h1]; simp
    rw [hz] at hs
    obtain ⟨e, f, hw⟩ := read_zero (F := F) heb hfb hF hE hs
    exact ⟨_, _, hr, hw, rfl⟩
  · have hne : u.val F + v.val F ≠ 0 := by rw [← h2]; exact val_ne r
    obtain ⟨w, hw, hwr, hwv, -⟩ := read_exact (F := F) heb heb30 hfb hF hE (by omega) hs hne
    refine ⟨r, w, hr, hw, ?_⟩
    rw [reg_inj h1 hwr (by rw [h2, hwv])]
    simp [Unp.eq, hwr.1]

/-- **C112**, "Sum": the sum and the differences of two floats of which all are floats again are the same objects as the
unpacked results, when `F - 2` bits hold both operands on a common grid. Here the results may be zero and `==` is the one of
the library. -/
theorem C112_sum (hF8 : F = 8 ∨ F = 16 ∨ F = 32 ∨ F = 64) (heb : 2 ≤ eb) (heb30 : eb ≤ 30) (hfb : 1 ≤ fb) (hF : fb < F)
    (hE : eb < E) (hE2 : 2 ^ eb + fb + F ≤ 2 ^ (E - 1)) {a b : ℕ} {x y : ℚ} (hx : ieee eb fb a = .num x)
    (hy : ieee eb fb b = .num y) (hx0 : x ≠ 0) (hy0 : y ≠ 0) {n m k : ℤ} (hn : |n| < 2 ^ (F - 2)) (hm : |m| < 2 ^ (F - 2))
    (hxn : x = n * 2 ^ k) (hym : y = m * 2 ^ k) {s d d' : ℕ} (hs : ieee eb fb s = .num (x + y))
    (hd : ieee eb fb d = .num (x - y)) (hd' : ieee eb fb d' = .num (-x + y)) :
    ∃ u v ab amb mab r1 r2 r3, Unp.unpackFloat F E (.any eb fb true) a = .ok u ∧
      Unp.unpackFloat F E (.any eb fb true) b = .ok v ∧ Unp.unpackFloat F E (.any eb fb true) s = .ok ab ∧
      Unp.unpackFloat F E (.any eb fb true) d = .ok amb ∧ Unp.unpackFloat F E (.any eb fb true) d' = .ok mab ∧
      Unp.add F E u v = .ok r1 ∧ Unp.eq r1 ab = true ∧
      Unp.sub F E u v = .ok r2 ∧ Unp.eq r2 amb = true ∧
      Unp.add F E (Unp.neg' u) v = .ok r3 ∧ Unp.eq r3 mab = true := by
  have hpn := two_pow_pred_nat (w := eb) (by omega)
  obtain ⟨u, hu, ur, uv, -⟩ := read_exact (F := F) heb heb30 hfb hF hE (by omega) hx hx0
  obtain ⟨v, hv, vr, vv, -⟩ := read_exact (F := F) heb heb30 hfb hF hE (by omega) hy hy0
  obtain ⟨u1, u2⟩ := log_float heb hx hx0
  obtain ⟨v1, v2⟩ := log_float heb hy hy0
  rw [← uv, log_val ur] at u1 u2
  rw [← vv, log_val vr] at v1 v2
  have nur : (Unp.neg' u).IsReg F := ⟨rfl, ur.2⟩
  have nvr : (Unp.neg' v).IsReg F := ⟨rfl, vr.2⟩
  obtain ⟨r1, ab, a1, a2, a3⟩ := sum_eq hF8 heb heb30 hfb hF hE hE2 ur vr u1 u2 v1 v2 hn hm (by rw [uv, hxn]) (by rw [vv, hym])
    (s := s) (by rw [uv, vv]; exact hs)
  obtain ⟨r2, amb, b1, b2, b3⟩ := sum_eq hF8 heb heb30 hfb hF hE hE2 ur nvr u1 u2 v1 v2 hn (m := -m) (by rwa [abs_neg])
    (by rw [uv, hxn]) (by rw [val_neg', vv, hym]; push_cast; ring) (s := d) (by rw [val_neg', uv, vv, ← sub_eq_add_neg]; exact hd)
  obtain ⟨r3, mab, c1, c2, c3⟩ := sum_eq hF8 heb heb30 hfb hF hE hE2 nur vr u1 u2 v1 v2 (n := -n) (by rwa [abs_neg]) hm
    (by rw [val_neg', uv, hxn]; push_cast; ring) (by rw [vv, hym]) (s := d') (by rw [val_neg', uv, vv]; exact hd')
  exact ⟨u, v, ab, amb, mab, r1, r2, r3, hu, hv, a2, b2, c2, a1, a3, b1, b3, c1, c3⟩

/-- `3200.0` and `2.0` in `Unpacked<uint64_t>` -/
example : ∃ u v ab amb mab r1 r2 r3, Unp.unpackFloat 64 32 (.any 11 52 true) 0x40A9000000000000 = .ok u ∧
    Unp.unpackFloat 64 32 (.any 11 52 true) 0x4000000000000000 = .ok v ∧
    Unp.unpackFloat 64 32 (.any 11 52 true) 0x40A9040000000000 = .ok ab ∧
    Unp.unpackFloat 64 32 (.any 11 52 true) 0x40A8FC0000000000 = .ok amb ∧
    Unp.unpackFloat 64 32 (.any 11 52 true) 0xC0A8FC0000000000 = .ok mab ∧
    Unp.add 64 32 u v = .ok r1 ∧ Unp.eq r1 ab = true ∧ Unp.sub 64 32 u v = .ok r2 ∧ Unp.eq r2 amb = true ∧
    Unp.add 64 32 (Unp.neg' u) v = .ok r3 ∧ Unp.eq r3 mab = true :=
  C112_sum (x := 3200) (y := 2) (n := 3200) (m := 2) (k := 0) (by norm_num) (by norm_num) (by norm_num) (by norm_num) (by norm_num)
    (by norm_num) (by norm_num) (by norm_num [ieee]) (by norm_num [ieee]) (by norm_num) (by norm_num) (by norm_num) (by norm_num)
    (by norm_num) (by norm_num) (by norm_num [ieee]) (by norm_num [ieee]) (by norm_num [ieee])

/-! ## sums of products -/

/-- the value an accumulator or a product holds -/
def HoldsInt (F : ℕ) (r : Unp) (S : ℤ) : Prop := (S = 0 ∧ r = Unp.ofTy .zero) ∨ (r.IsReg F ∧ r.val F = S)

theorem holds_log {r : Unp} {S : ℤ} (hr : r.IsReg F) (h : r.val F = S) {m : ℕ} (hS : |S| < 2 ^ m) : 0 ≤ r.exp ∧ r.exp < m := by
  have h0 : S ≠ 0 := by rintro rfl; exact val_ne r (by rw [h]; simp)
  have hpos : 0 < |r.val F| := abs_pos.mpr (val_ne r)
  have h1 : (1 : ℤ) ≤ |S| := Int.one_le_abs h0
  have habs : |r.val F| = (|S| : ℤ) := by rw [h]; push_cast; rfl
  rw [← log_val hr]
  constructor
  · apply (Int.zpow_le_iff_le_log (by norm_num) hpos).mp
    rw [habs, zpow_zero]; exact_mod_cast h1
  · apply (Int.lt_zpow_iff_log_lt (by norm_num) hpos).mp
    rw [habs, zpow_natCast]; exact_mod_cast hS

theorem holds_mul (heb : 2 ≤ eb) (heb30 : eb ≤ 30) (hfb : 1 ≤ fb) (hF : fb < F) (hE : eb < E)
    (hE2 : 2 ^ (eb - 1) + fb + F ≤ 2 ^ (E - 1)) {a b : ℕ} {n m : ℤ} (ha : ieee eb fb a = .num n) (hb : ieee eb fb b = .num m)
    (hnm : |n * m| < 2 ^ (F - 2)) :
    ∃ u v z, Unp.unpackFloat F E (.any eb fb true) a = .ok u ∧ Unp.unpackFloat F E (.any eb fb true) b = .ok v ∧
      Unp.mul F E u v = .ok z ∧ HoldsInt F z (n * m) := by
  have hE2z : (2 : ℤ) ^ (eb - 1) + fb + F ≤ 2 ^ (E - 1) := by exact_mod_cast hE2
  have hp : (0 : ℤ) < 2 ^ (eb - 1) := by positivity
  by_cases hn : n = 0
  · subst hn
    obtain ⟨e, f, hu⟩ := read_zero (F := F) (E := E) heb hfb hF hE (b := a) (by simpa using ha)
    by_cases hm : m = 0
    · subst hm
      obtain ⟨e', f', hv⟩ := read_zero (F := F) (E := E) heb hfb hF hE (b := b) (by simpa using hb)
      exact ⟨_, _, _, hu, hv, rfl, Or.inl ⟨by simp, rfl⟩⟩
    · obtain ⟨v, hv, vr, -, -⟩ := read_exact (F := F) heb heb30 hfb hF hE (by omega) hb (by exact_mod_cast hm)
      refine ⟨_, _, _, hu, hv, ?_, Or.inl ⟨by simp, rfl⟩⟩
      unfold Unp.mul; simp [vr.1]
  · obtain ⟨u, hu, ur, uv, -⟩ := read_exact (F := F) heb heb30 hfb hF hE (by omega) ha (by exact_mod_cast hn)
    by_cases hm : m = 0
    · subst hm
      obtain ⟨e', f', hv⟩ := read_zero (F := F) (E := E) heb hfb hF hE (b := b) (by simpa using hb)
      refine ⟨_, _, _, hu, hv, ?_, Or.inl ⟨by simp, rfl⟩⟩
      unfold Unp.mul; simp [ur.1]
    · obtain ⟨v, hv, vr, vv, -⟩ := read_exact (F := F) heb heb30 hfb hF hE (by omega) hb (by exact_mod_cast hm)
      have n1 : (1 : ℤ) ≤ |n| := Int.one_le_abs hn
      have m1 : (1 : ℤ) ≤ |m| := Int.one_le_abs hm
      have hn2 : |n| < 2 ^ (F - 2) := by rw [abs_mul] at hnm; nlinarith
      have hm2 : |m| < 2 ^ (F - 2) := by rw [abs_mul] at hnm; nlinarith
      have l1 := holds_log ur uv hn2
      have l2 := holds_log vr vv hm2
      have l3 : u.exp + v.exp < (F - 2 : ℕ) := by
        have g1 := le_mag F u.exp u.frac
        have g2 := le_mag F v.exp v.frac
        rw [← abs_sq u.neg (mag_pos F u.exp u.frac).le, ← val_eq, uv] at g1
        rw [← abs_sq v.neg (mag_pos F v.exp v.frac).le, ← val_eq, vv] at g2
        have g3 : (2 : ℚ) ^ (u.exp + v.exp) < 2 ^ ((F - 2 : ℕ) : ℤ) := by
          rw [zpow_add₀ (by norm_num), zpow_natCast]
          calc (2 : ℚ) ^ u.exp * 2 ^ v.exp ≤ |(n : ℚ)| * |(m : ℚ)| := mul_le_mul g1 g2 (by positivity) (abs_nonneg _)
            _ < 2 ^ (F - 2) := by rw [← abs_mul]; exact_mod_cast hnm
        exact (zpow_lt_zpow_iff_right₀ (by norm_num)).mp g3
      obtain ⟨z, hz, zr, zv⟩ := C68_mul_exact (by omega : 2 ≤ F) (by omega : 1 ≤ E) ur vr (n := n) (m := m) (k := 0) (l := 0)
        (by unfold InS; omega) (by unfold InS; omega) (lt_of_lt_of_le hnm (pow_le_pow_right₀ (by norm_num) (by omega))) (by rw [uv]; simp) (by rw [vv]; simp)
      exact ⟨u, v, z, hu, hv, hz, Or.inr ⟨zr, by rw [zv, uv, vv]; push_cast; rfl⟩⟩

theorem holds_add (hF8 : F = 8 ∨ F = 16 ∨ F = 32 ∨ F = 64) (hE : 1 ≤ E) (hE2 : F ≤ 2 ^ (E - 1)) {r z : Unp} {S T : ℤ}
    (hr : HoldsInt F r S) (hz : HoldsInt F z T) (hS : |S| < 2 ^ (F - 2)) (hT : |T| < 2 ^ (F - 2)) :
    ∃ r', Unp.add F E r z = .ok r' ∧ HoldsInt F r' (S + T) := by
  have hE2z : (F : ℤ) ≤ 2 ^ (E - 1) := by exact_mod_cast hE2
  rcases hr with ⟨rfl, rfl⟩ | ⟨rr, rv⟩
  · rcases hz with ⟨rfl, rfl⟩ | ⟨zr, zv⟩
    · exact ⟨_, rfl, Or.inl ⟨by simp, rfl⟩⟩
    · refine ⟨z, ?_, Or.inr ⟨zr, by rw [zv]; simp⟩⟩
      unfold Unp.add; simp [Unp.ofTy, zr.1]
  · rcases hz with ⟨rfl, rfl⟩ | ⟨zr, zv⟩
    · refine ⟨r, ?_, Or.inr ⟨rr, by rw [rv]; simp⟩⟩
      unfold Unp.add; simp [Unp.ofTy, rr.1]
    · have l1 := holds_log rr rv hS
      have l2 := holds_log zr zv hT
      obtain ⟨r', h1, ⟨h2, rfl⟩ | ⟨h2, h3⟩⟩ := C68_add_exact hF8 hE rr zr (by unfold InS; omega)
        (by intro x hx1 hx2; unfold InS; omega) (k := 0) hS hT (by rw [rv]; simp) (by rw [zv]; simp)
      · exact ⟨_, h1, Or.inl ⟨h2, rfl⟩⟩
      · exact ⟨_, h1, Or.inr ⟨h2, by rw [h3, rv, zv]; push_cast; rfl⟩⟩

theorem holds_loop (hF8 : F = 8 ∨ F = 16 ∨ F = 32 ∨ F = 64) (heb : 2 ≤ eb) (heb30 : eb ≤ 30) (hfb : 1 ≤ fb) (hF : fb < F)
    (hE : eb < E) (hE2 : 2 ^ (eb - 1) + fb + F ≤ 2 ^ (E - 1)) {l : List (ℕ × ℕ)} {z : List (ℤ × ℤ)}
    (hl : List.Forall₂ (fun p q => ieee eb fb p.1 = .num (q.1 : ℤ) ∧ ieee eb fb p.2 = .num (q.2 : ℤ)) l z) {r : Unp} {S : ℤ}
    (hr : HoldsInt F r S) (hz : ∀ q ∈ z, |q.1 * q.2| < 2 ^ (F - 2))
    (hp : ∀ i, |S + ((z.take i).map fun q => q.1 * q.2).sum| < 2 ^ (F - 2)) :
    ∃ r', Unp.dotLoop F E (.any eb fb true) l r = .ok r' ∧ HoldsInt F r' (S + (z.map fun q => q.1 * q.2).sum) := by
  induction hl generalizing r S with
  | nil => exact ⟨r, rfl, by simpa using hr⟩
  | @cons p q l z hpq hl ih =>
    obtain ⟨a, b⟩ := p
    obtain ⟨u, v, w, h1, h2, h3, h4⟩ := holds_mul heb heb30 hfb hF hE hE2 hpq.1 hpq.2 (hz q (by simp))
    have hp0 : 0 < 2 ^ (eb - 1) := by positivity
    obtain ⟨r', h5, h6⟩ := holds_add hF8 (by omega : 1 ≤ E) (by omega) hr h4 (by simpa using hp 0) (hz q (by simp))
    obtain ⟨r'', h7, h8⟩ := ih h6 (fun q hq => hz q (by simp [hq])) (fun i => by
      have := hp (i + 1)
      simpa [add_assoc] using this)
    refine ⟨r'', ?_, ?_⟩
    · unfold Unp.dotLoop
      simp only [h1, h2, h3, h5, bind, Except.bind]
      exact h7
    · simpa [add_assoc] using h8

theorem cutSig_int {m : ℕ} {S : ℤ} (hS : |S| < 2 ^ m) : cutSig m (S : ℚ) = S := by
  by_cases h0 : S = 0
  · subst h0; simp [cutSig, cutTo]
  have hpos : (0 : ℚ) < |(S : ℚ)| := abs_pos.mpr (by exact_mod_cast h0)
  have hlog : Int.log 2 |(S : ℚ)| < m := by
    apply (Int.lt_zpow_iff_log_lt (by norm_num) hpos).mp
    rw [zpow_natCast]; exact_mod_cast hS
  obtain ⟨j, hj⟩ := Int.eq_ofNat_of_zero_le (show 0 ≤ m - 1 - Int.log 2 |(S : ℚ)| by omega)
  unfold cutSig cutTo
  rw [show Int.log 2 |(S : ℚ)| + 1 - (m : ℤ) = -(j : ℤ) by omega, zpow_neg, zpow_natCast, div_inv_eq_mul]
  have hn : |(S : ℚ)| * 2 ^ j = ((S.natAbs * 2 ^ j : ℕ) : ℚ) := by
    rw [Nat.cast_mul, Nat.cast_natAbs]; push_cast; ring
  rw [hn, Nat.floor_natCast, ← hn, mul_assoc, mul_inv_cancel₀ (by positivity), mul_one]
  split_ifs with h
  · rw [abs_of_neg h]; ring
  · rw [abs_of_nonneg (not_lt.mp h), one_mul]

/-- **C112**, "High Precision Test": a sum of products of integers held as floats is exact, whatever the order and the
cancellation, as long as each product and each partial sum stays below `2^(F-2)`; the result comes back as the float of
that integer if it has at most `fb + 1` bits. The test has four products and the result 2. -/
theorem C112_dot (hF8 : F = 8 ∨ F = 16 ∨ F = 32 ∨ F = 64) (heb : 2 ≤ eb) (heb30 : eb ≤ 30) (hfb : 1 ≤ fb) (hF : fb < F)
    (hfe : fb < 2 ^ (eb - 1)) (hE : eb < E) (hE2 : 2 ^ (eb - 1) + fb + F ≤ 2 ^ (E - 1)) {l : List (ℕ × ℕ)} {z : List (ℤ × ℤ)}
    (hl : List.Forall₂ (fun p q => ieee eb fb p.1 = .num (q.1 : ℤ) ∧ ieee eb fb p.2 = .num (q.2 : ℤ)) l z)
    (hz : ∀ q ∈ z, |q.1 * q.2| < 2 ^ (F - 2)) (hp : ∀ i, |((z.take i).map fun q => q.1 * q.2).sum| < 2 ^ (F - 2))
    (hS : |(z.map fun q => q.1 * q.2).sum| < 2 ^ (fb + 1)) :
    ∃ b, Unp.dotTest F E (.any eb fb true) l = .ok b ∧ ieee eb fb b = .num ((z.map fun q => q.1 * q.2).sum : ℤ) := by
  obtain ⟨r, h1, h2⟩ := holds_loop hF8 heb heb30 hfb hF hE hE2 hl (r := Unp.ofTy .zero) (S := 0) (Or.inl ⟨rfl, rfl⟩) hz
    (by simpa using hp)
  rw [zero_add] at h2
  unfold Unp.dotTest
  simp only [h1, bind, Except.bind]
  generalize (z.map fun q => q.1 * q.2).sum = S at *
  rcases h2 with ⟨rfl, rfl⟩ | ⟨rr, rv⟩
  · refine ⟨0, rfl, ?_⟩
    rw [ieee_eq]
    have h3 : fExp eb fb 0 = 0 := by unfold fExp; simp
    have h4 : fMan fb 0 = 0 := by unfold fMan; simp
    have h5 : 0 ≠ 2 ^ eb - 1 := by
      have := two_le_pow heb
      have : 2 ^ (eb - 1) ≤ 2 ^ eb := Nat.pow_le_pow_right (by norm_num) (by omega)
      omega
    rw [h3, if_neg h5, if_pos rfl, h4]; simp
  · have hfz : (fb : ℤ) < 2 ^ (eb - 1) := by exact_mod_cast hfe
    obtain ⟨l1, l2⟩ := holds_log rr rv hS
    have hmin : minNorm eb ≤ |r.val F| := by
      unfold minNorm
      rw [val_eq, abs_sq _ (mag_pos _ _ _).le]
      refine le_trans (zpow_le_zpow_right₀ (by norm_num) ?_) (le_mag _ _ _)
      have : (2 : ℤ) ≤ 2 ^ (eb - 1) := by exact_mod_cast two_le_pow heb
      omega
    have hmax : |r.val F| < 2 ^ ((2 : ℤ) ^ (eb - 1)) := by
      rw [val_eq, abs_sq _ (mag_pos _ _ _).le]
      refine lt_of_lt_of_le (mag_lt rr.2) (zpow_le_zpow_right₀ (by norm_num) ?_)
      push_cast at l2
      omega
    obtain ⟨b, h3, -, h4⟩ := pack_cut_narrow heb heb30 hfb hF hE rr hmin hmax
    exact ⟨b, h3, by rw [h4, rv, cutSig_int hS]⟩

/-- the test itself: 3.2e8·4e7 + 1·1 + (-1)·(-1) + 8e7·(-1.6e8) = 2 in `Unpacked<uint64_t>` -/
example : ∃ b, Unp.dotTest 64 32 (.any 11 52 true) [(0x41B312D000000000, 0x418312D000000000), (0x3FF0000000000000, 0x3FF0000000000000),
      (0xBFF0000000000000, 0xBFF0000000000000), (0x419312D000000000, 0xC1A312D000000000)] = .ok b ∧ ieee 11 52 b = .num 2 := by
  have := C112_dot (F := 64) (E := 32) (eb := 11) (fb := 52)
    (l := [(0x41B312D000000000, 0x418312D000000000), (0x3FF0000000000000, 0x3FF0000000000000),
      (0xBFF0000000000000, 0xBFF0000000000000), (0x419312D000000000, 0xC1A312D000000000)])
    (z := [(320000000, 40000000), (1, 1), (-1, -1), (80000000, -160000000)])
    (by norm_num) (by norm_num) (by norm_num) (by norm_num) (by norm_num) (by norm_num) (by norm_num) (by norm_num)
    (by refine .cons ⟨?_, ?_⟩ (.cons ⟨?_, ?_⟩ (.cons ⟨?_, ?_⟩ (.cons ⟨?_, ?_⟩ .nil))) <;> norm_num [ieee])
    (by
      intro q hq
      simp only [List.mem_cons, List.not_mem_nil, or_false] at hq
      rcases hq with rfl | rfl | rfl | rfl <;> norm_num)
    (by
      intro i
      rcases i with _ | _ | _ | _ | i <;> norm_num)
    (by norm_num)
  simpa using this

/-! ## infinities, NaNs and zeros -/

/-- **C112**, the other classes of `fpclassify`: infinities keep their sign, NaNs are NaN, zeros are zero and come back as a
zero. -/
theorem C112_special (heb : 2 ≤ eb) (hfb : 1 ≤ fb) (hF : fb < F) (hE : eb < E) {b : ℕ} :
    (∀ s, ieee eb fb b = .inf s → ∃ u, Unp.unpackFloat F E (.any eb fb true) b = .ok u ∧ u.ty = .infinity ∧ u.neg = s) ∧
    (ieee eb fb b = .nan → ∃ u, Unp.unpackFloat F E (.any eb fb true) b = .ok u ∧ u.ty = .nan) ∧
    (ieee eb fb b = .num 0 → ∃ u, Unp.unpackFloat F E (.any eb fb true) b = .ok u ∧ u.ty = .zero ∧ u.neg = false ∧
      Unp.packFloat F E (.any eb fb true) u = .ok 0) := by
  have hfr : fracOf F fb (2 ^ fb + fMan fb b) = 0 ↔ fMan fb b = 0 := by
    unfold fracOf
    rw [if_pos hF.le, Nat.add_sub_cancel_left]
    simp
  refine ⟨fun s h => ?_, fun h => ?_, fun h => ?_⟩
  · rw [ieee_eq] at h
    split_ifs at h with h1 h2
    obtain ⟨e, hu⟩ := unpackFloat_special (F := F) (E := E) (dn := true) heb hfb (by omega) hE h1
    rw [if_pos (hfr.mpr h2)] at hu
    exact ⟨_, hu, rfl, by injection h⟩
  · rw [ieee_eq] at h
    split_ifs at h with h1 h2
    obtain ⟨e, hu⟩ := unpackFloat_special (F := F) (E := E) (dn := true) heb hfb (by omega) hE h1
    rw [if_neg (fun hz => h2 (hfr.mp hz))] at hu
    exact ⟨_, hu, rfl⟩
  · obtain ⟨e, f, hu⟩ := read_zero (F := F) (E := E) heb hfb hF hE h
    exact ⟨_, hu, rfl, rfl, rfl⟩

example : ∃ u, Unp.unpackFloat 32 32 (.any 8 23 true) 0xFF800000 = .ok u ∧ u.ty = .infinity ∧ u.neg = true :=
  (C112_special (by norm_num) (by norm_num) (by norm_num) (by norm_num)).1 true (by norm_num [ieee])

/-- **C112** fails for `signbit` of a zero: minus zero, which is not among the values of the test, is read as plus zero. -/
theorem C112_signbit_wrong : ieee 8 23 0x80000000 = .num 0 ∧ fSign 8 23 0x80000000 = true ∧
    ∃ u, Unp.unpackFloat 32 32 (.any 8 23 true) 0x80000000 = .ok u ∧ u.neg = false := by
  have h : ieee 8 23 0x80000000 = .num 0 := by norm_num [ieee]
  obtain ⟨u, h1, -, h2, -⟩ := (C112_special (F := 32) (E := 32) (eb := 8) (fb := 23) (by norm_num) (by norm_num) (by norm_num)
    (by norm_num)).2.2 h
  exact ⟨h, by norm_num [fSign], u, h1, h2⟩

/-- **C112** fails for a float type that does not leave three spare bits: for the float `1 + 2^-15` in
`Unpacked<uint16_t>`, `2*fu/fu` is 1 and the reciprocal is 1/2. -/
theorem C112_narrow_wrong : ieee 8 23 0x3F800100 = .num (1 + 1 / 2 ^ 15) ∧
    ∃ u d, Unp.unpackFloat 16 32 (.any 8 23 true) 0x3F800100 = .ok u ∧
      Unp.mul 16 32 ⟨.regular, false, 1, 0⟩ u = .ok d ∧ Unp.div 16 32 d u = .ok ⟨.regular, false, 0, 0⟩ ∧
      Unp.inv 16 32 u = .ok ⟨.regular, false, -1, 0⟩ := by
  refine ⟨by norm_num [ieee], ⟨.regular, false, 0, 2⟩, ⟨.regular, false, 1, 0⟩, ?_, ?_, ?_, ?_⟩ <;> decide +kernel

end Verif
