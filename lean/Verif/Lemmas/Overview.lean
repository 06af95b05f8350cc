import Verif.Model.Overview
import Verif.Lemmas.ViaFloat
import Verif.Lemmas.ExtUnary
import Verif.Props.NarrowConv
import Verif.Props.Step

/-! # Lemmas on what the listing tool prints -/

namespace Verif
open Fmt

variable {c : Cfg}

/-- the exponent types suffice for doubles -/
theorem dbl_wide (h : c.WF) : 11 < max c.E (Unp.leastBits 11) ∧
    c.maxScale + 2 ^ (11 - 1) ≤ 2 ^ (max c.E (Unp.leastBits 11) - 1) := by
  have hl : Unp.leastBits 11 = 16 := rfl
  have h1 := maxScale_bound h
  have h2 : (2 : ℕ) ^ (c.E - 1) ≤ 2 ^ (max c.E 16 - 1) := Nat.pow_le_pow_right (by norm_num) (by omega)
  have h3 : (2 : ℕ) ^ 15 ≤ 2 ^ (max c.E 16 - 1) := Nat.pow_le_pow_right (by norm_num) (by omega)
  have h4 : c.maxScale * 8 ≤ 2 ^ (c.E - 1) := by exact_mod_cast h1
  rw [hl]
  refine ⟨by omega, ?_⟩
  norm_num at h3 ⊢
  omega

theorem toDouble_real (h : c.WF) {v : ℤ} (hv : c.fmt.IsReal v) :
    ∃ b, Posit.toFloat c .double v = .ok b ∧ IsCut 11 52 (cutSig (c.F + 1) (c.fmt.val v)) b := by
  obtain ⟨b, hb, hm⟩ := C128_toFloat (eb := 11) (fb := 52) h (by norm_num) (by norm_num) (by norm_num) (dbl_wide h).1 (dbl_wide h).2
    hv.canonical
  rw [ext_real hv] at hm
  change _ ∧ IsCut 11 52 (cutSig (c.F + 1) (c.fmt.val v)) b ∧ _ at hm
  exact ⟨b, hb, hm.2.1⟩

/-- cutting keeps the leading power of two -/
theorem pow_le_cutSig {x : ℚ} {e : ℤ} (n : ℕ) (h : (2 : ℚ) ^ e ≤ |x|) : (2 : ℚ) ^ e ≤ |cutSig (n + 1) x| := by
  have hp : (0 : ℚ) < 2 ^ e := by positivity
  have h0 : x ≠ 0 := by intro hx; rw [hx, abs_zero] at h; linarith
  obtain ⟨k, Y, k1, k2, k3, k4⟩ := first_bits h0 n
  have hc : |cutSig (n + 1) x| = (k : ℚ) * 2 ^ Y := by
    rw [signed_abs x, cutSig_of_bounds (decide (x < 0)) k1 k2 k3 k4, abs_sq _ (by positivity)]
  rw [hc]
  have hY : (0 : ℚ) < 2 ^ Y := by positivity
  have hk1 : (2 : ℚ) ^ n ≤ k := by exact_mod_cast k1
  have hk2 : (k : ℚ) + 1 ≤ 2 ^ (n + 1) := by exact_mod_cast k2
  have hlt : (2 : ℚ) ^ e < 2 ^ ((n : ℤ) + 1 + Y) := by
    rw [zpow_add₀ (by norm_num)]
    refine lt_of_le_of_lt h (lt_of_lt_of_le k4 ?_)
    have : (2 : ℚ) ^ ((n : ℤ) + 1) = 2 ^ (n + 1) := by rw [← zpow_natCast]; norm_cast
    rw [this]
    exact mul_le_mul_of_nonneg_right hk2 hY.le
  have he := (zpow_lt_zpow_iff_right₀ (by norm_num : (1 : ℚ) < 2)).mp hlt
  calc (2 : ℚ) ^ e ≤ 2 ^ ((n : ℤ) + Y) := zpow_le_zpow_right₀ (by norm_num) (by omega)
    _ = 2 ^ n * 2 ^ Y := by rw [zpow_add₀ (by norm_num), zpow_natCast]
    _ ≤ _ := mul_le_mul_of_nonneg_right hk1 hY.le

theorem cutSig_sign {x : ℚ} (n : ℕ) (h0 : x ≠ 0) : 0 < x * cutSig (n + 1) x := by
  obtain ⟨k, Y, k1, k2, k3, k4⟩ := first_bits h0 n
  have hk : (0 : ℚ) < k := by exact_mod_cast lt_of_lt_of_le (by positivity) k1
  have hc := cutSig_of_bounds (decide (x < 0)) k1 k2 k3 k4
  rw [← signed_abs x] at hc
  rw [hc]
  have hkY : 0 < (k : ℚ) * 2 ^ Y := by positivity
  rcases lt_or_gt_of_ne h0 with hx | hx
  · simp only [hx, decide_true, sq, if_true]; nlinarith
  · simp only [not_lt.mpr hx.le, decide_false, sq, Bool.false_eq_true, if_false]; nlinarith

/-- a power of two within the normal range is not lost by cutting to a double -/
theorem pow_le_double {x y : ℚ} {b : ℕ} {e : ℤ} (hb : IsCut 11 52 x b) (hy : ieee 11 52 b = .num y) (h1 : -1022 ≤ e) (h2 : e ≤ 1023)
    (hx : (2 : ℚ) ^ e ≤ |x|) : (2 : ℚ) ^ e ≤ |y| ∧ |y| ≤ |x| ∧ 0 < x * y := by
  obtain ⟨y', hy', -, hh⟩ := hb
  rw [hy'] at hy
  obtain rfl := XNum.num.inj hy
  have hm : minNorm 11 = 2 ^ (-1022 : ℤ) := by unfold minNorm; norm_num
  have hle : (2 : ℚ) ^ (-1022 : ℤ) ≤ 2 ^ e := zpow_le_zpow_right₀ (by norm_num) h1
  obtain ⟨a1, a2, a3⟩ := hh (by rw [hm]; exact hle.trans hx)
  have hfits : Fits (52 + 1) ((2 : ℚ) ^ e) := ⟨1, e, by norm_num, by norm_num⟩
  have hpos : (0 : ℚ) < 2 ^ e := by positivity
  obtain ⟨g, hg⟩ := float_of_fits (eb := 11) (fb := 52) (by norm_num) hfits (by rw [abs_of_pos hpos]; exact hm ▸ hle)
    (by rw [abs_of_pos hpos]; exact zpow_lt_zpow_right₀ (by norm_num) (by norm_num; omega))
  have := a3 g _ hg (by rw [abs_of_pos hpos]; exact hx)
  rw [abs_of_pos hpos] at this
  exact ⟨this, a2, a1⟩

theorem abs_le_max (h : c.WF) {v : ℤ} (hv : c.fmt.IsReal v) : |c.fmt.val v| ≤ 2 ^ c.topExp := by
  by_cases h0 : v = 0
  · rw [h0, Format.val_zero, abs_zero]; positivity
  have hm : c.fmt.IsReal (c.fmt.maxBody : ℤ) := by unfold Format.IsReal; omega
  have hv' : c.fmt.IsReal (v.natAbs : ℤ) := by have := hv.natAbs_le; unfold Format.IsReal; omega
  have h1 := (Format.val_le_iff hv'.inRange hm.inRange).mpr (by have := hv.natAbs_le; omega)
  have h2 := abs_val_max h (v := (c.fmt.maxBody : ℤ)) (by omega)
  have h3 : |c.fmt.val v| = c.fmt.val (v.natAbs : ℤ) := by
    rw [Format.abs_val hv.inRange h0, Format.val_natCast (by omega)]
  rw [h3]
  exact h1.trans ((le_abs_self _).trans h2.le)

namespace ListPosits

theorem H_le_pt : c.H ≤ ptBits c := by unfold ptBits; split_ifs <;> omega

theorem wrap_pt (h : c.WF) {x : ℤ} (hx : InS c.H x) : wrapS (ptBits c) x = x :=
  wrapS_of_inS (by have := h.H_pos; have := H_le_pt (c := c); omega) (hx.mono H_le_pt)

/-- the posit made from an integer -/
theorem ofInt_trunc (h : c.WF) {i : ℤ} (h0 : i ≠ 0) (h1 : -2 ^ 31 ≤ i) (h2 : i < 2 ^ 31) {w : ℤ} (hw : Posit.ofInt c i = .ok w) :
    c.fmt.IsTrunc (cutSig (c.F + 1) i) w := by
  have hi := C128_ofInt h h1 h2
  by_cases hm : i = -2 ^ 31
  · rw [hi.1 hm] at hw; cases hw
  · have ho := hi.2 hm
    rw [hw] at ho
    have hq : (i : ℚ) ≠ 0 := by exact_mod_cast h0
    have hne : cutSig (c.F + 1) (i : ℚ) ≠ 0 := by
      intro hc
      have := cutSig_sign c.F hq
      rw [hc, mul_zero] at this
      exact lt_irrefl _ this
    change Outcome c (cutSig (c.F + 1) i) (.ok w) at ho
    by_cases hx : cutSig (c.F + 1) (i : ℚ) = 0 ∨ c.SafeMag (cutSig (c.F + 1) i)
    · obtain ⟨u, e1, e2⟩ := ho.1 hx
      obtain rfl := Except.ok.inj e1
      exact e2.resolve_left fun hz => hne hz.1
    · exact absurd (ho.2 hx) (by simp)

/-- what is seen of an integer made into a posit and then into a double -/
theorem shown_ok (h : c.WF) {i : ℤ} (h0 : i ≠ 0) (h1 : -2 ^ 31 ≤ i) (h2 : i < 2 ^ 31) {d : ℕ} (hd : shown c i = .ok d) :
    ∃ w, Posit.ofInt c i = .ok w ∧ c.fmt.IsTrunc (cutSig (c.F + 1) i) w ∧ IsCut 11 52 (cutSig (c.F + 1) (c.fmt.val w)) d := by
  unfold shown at hd
  cases hw : Posit.ofInt c i with
  | error e => rw [hw] at hd; cases hd
  | ok w =>
    rw [hw] at hd
    change Posit.toFloat c .double w = .ok d at hd
    have ht := ofInt_trunc h h0 h1 h2 hw
    obtain ⟨b, hb, hc⟩ := toDouble_real h ht.real
    rw [hd] at hb
    obtain rfl := Except.ok.inj hb
    exact ⟨w, rfl, ht, hc⟩

end ListPosits
end Verif
