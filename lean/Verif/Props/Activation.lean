import Mathlib.Analysis.SpecialFunctions.Log.Basic
import Mathlib.Analysis.Complex.ExponentialBounds
import Verif.Lemmas.Activation
import Verif.Props.Constants

/-!
# Activation functions: C26 (`pseudosigmoid`, continued) and C53 (`pseudosoftplus`)
-/

namespace Verif
open Fmt

variable {c : Cfg}

/-- the value of a posit of magnitude at most one, without exponent bits -/
theorem val_unit0' (h : c.WF) (he : c.es = 0) {v : ℤ} (hv : c.fmt.IsReal v) (hle : |c.fmt.val v| ≤ 1) :
    c.fmt.val v = (v : ℚ) / 2 ^ (c.N - 2) ∧ |v| ≤ 2 ^ (c.N - 2) := by
  obtain ⟨ha, hb⟩ := abs_le.mp hle
  have h1 : v ≤ c.one := by rw [← Format.val_le_iff hv.inRange (one_real h).1.inRange, val_one h]; exact hb
  have h2 : -v ≤ c.one := by
    rw [← Format.val_le_iff hv.neg.inRange (one_real h).1.inRange, val_one h, Format.val_neg]; linarith
  refine ⟨?_, by rw [one_eq h] at h1 h2; rw [abs_le]; omega⟩
  rcases le_or_gt 0 v with h0 | h0
  · exact val_unit0 h he h0 h1
  · have := val_unit0 h he (v := -v) (by omega) h2
    rw [Format.val_neg] at this
    push_cast at this
    rw [neg_div] at this
    linarith

/-- `(v ^ POSIT_SIGNBIT) >> n` wherever promotion and padding do not disturb it -/
theorem xorSignShr_eq (h : c.WF) {x : ℤ} (hx : c.fmt.IsReal x) (hx' : 0 ≤ x ∨ (c.N = c.H ∧ 32 ≤ c.H)) {n : ℕ}
    (hn : 1 ≤ n) : Posit.xorSignShr c x n = (x + 2 ^ (c.N - 1)) / 2 ^ n := by
  have hm := maxBody_lt' c
  rw [isReal_bounds] at hx
  rcases lt_or_ge x 0 with hneg | hnn
  · have := hx'.resolve_left (by omega)
    exact xorSignShr_neg h this.2 this.1 hneg (by omega)
  · exact xorSignShr_nonneg h hnn (by omega) hn

theorem nonneg_of_val (hx : c.fmt.IsReal x) (h0 : 0 ≤ c.fmt.val x) : 0 ≤ x := by
  by_contra hc
  have := (Format.val_neg_iff hx.inRange).mpr (by omega)
  linarith

/-- **C26**, for `es = 0` and `|x| ≤ 1`: `pseudosigmoid(x)` is `(2+x)/4`, the tangent of the sigmoid function at 0, rounded
toward zero — for nonnegative posits, and for all posits that fill a 32- or 64-bit holder. -/
theorem C26_tangent_partial (h : c.WF) (he : c.es = 0) (hN : 4 ≤ c.N) {v : ℤ} (hv : c.fmt.IsReal v)
    (hle : |c.fmt.val v| ≤ 1) (hs : 0 ≤ c.fmt.val v ∨ (c.N = c.H ∧ 32 ≤ c.H)) :
    c.fmt.IsTrunc ((2 + c.fmt.val v) / 4) (Posit.pseudosigmoid c v) := by
  obtain ⟨hval, hb⟩ := val_unit0' h he hv hle
  obtain ⟨e1, e2, -⟩ := pow_split h
  have e1' : (2 : ℤ) ^ (c.N - 1) = 4 * 2 ^ (c.N - 3) := by exact_mod_cast e1
  have e2' : (2 : ℤ) ^ (c.N - 2) = 2 * 2 ^ (c.N - 3) := by exact_mod_cast e2
  have e3' : (2 : ℤ) ^ (c.N - 3) = 2 * 2 ^ (c.N - 4) := by rw [← pow_succ']; congr 1; omega
  have hp4 : (0 : ℤ) < 2 ^ (c.N - 4) := by positivity
  have hs' : 0 ≤ v ∨ (c.N = c.H ∧ 32 ≤ c.H) := hs.imp_left (nonneg_of_val hv)
  unfold Posit.pseudosigmoid
  rw [xorSignShr_eq h hv hs' (by norm_num)]
  rw [abs_le] at hb
  obtain ⟨p, hp⟩ : ∃ p : ℕ, (v + 2 ^ (c.N - 1)) / 2 ^ 2 = p := ⟨((v + 2 ^ (c.N - 1)) / 2 ^ 2).toNat, by omega⟩
  rw [hp]
  obtain ⟨hv1, hv2⟩ := abs_le.mp hle
  have hQ : (0 : ℚ) < 2 ^ (c.N - 2) := by positivity
  have hkey : (2 : ℚ) ^ (c.N - 2) * ((2 + c.fmt.val v) / 4) = ((v + 2 ^ (c.N - 1) : ℤ) : ℚ) / 4 := by
    rw [hval]
    have : (2 : ℚ) ^ (c.N - 1) = 2 * 2 ^ (c.N - 2) := by
      have e1q : (2 : ℚ) ^ (c.N - 1) = 4 * 2 ^ (c.N - 3) := by exact_mod_cast e1
      have e2q : (2 : ℚ) ^ (c.N - 2) = 2 * 2 ^ (c.N - 3) := by exact_mod_cast e2
      rw [e1q, e2q]; ring
    push_cast
    rw [this]
    field_simp
    ring
  apply Format.IsTrunc.of_pos (by linarith)
  apply truncB_unit0 h he (by linarith) (by omega)
  · rw [hkey, le_div_iff₀ (by norm_num)]
    have : (p : ℤ) * 4 ≤ v + 2 ^ (c.N - 1) := by omega
    exact_mod_cast this
  · rw [hkey, div_lt_iff₀ (by norm_num)]
    have : v + 2 ^ (c.N - 1) < ((p : ℤ) + 1) * 4 := by omega
    exact_mod_cast this

example : P8.WF ∧ P8.es = 0 ∧ 4 ≤ P8.N ∧ P8.fmt.IsReal 51 ∧ |P8.fmt.val 51| ≤ 1 ∧ 0 ≤ P8.fmt.val 51 ∧
    P8.fmt.val 51 = 51 / 64 ∧ Posit.pseudosigmoid P8 51 = 44 ∧ P8.fmt.val 44 = 11 / 16 := by decide +kernel

/-! ## C53 -/

/-- **C53**: on nonnegative posits, and on all posits that fill a 32- or 64-bit holder, `pseudosoftplus()` gives a
nonnegative pattern, is monotone in it, and maps 0 to 1. Missing: negative posits in the other holders
(`C53_negative_wrong`). -/
theorem C53_monotone_partial (h : c.WF) {a b : ℤ} (ha : c.fmt.IsReal a) (hb : c.fmt.IsReal b)
    (hab : c.fmt.val a ≤ c.fmt.val b) (hs : 0 ≤ c.fmt.val a ∨ (c.N = c.H ∧ 32 ≤ c.H)) :
    c.fmt.IsCanonical (Posit.pseudosoftplus c a) ∧ 0 ≤ c.fmt.val (Posit.pseudosoftplus c a) ∧
    c.fmt.val (Posit.pseudosoftplus c a) ≤ c.fmt.val (Posit.pseudosoftplus c b) ∧
    c.fmt.val (Posit.pseudosoftplus c 0) = 1 := by
  have hm := maxBody_lt' c
  have hN3 := h.N_ge
  obtain ⟨e1, e2, -⟩ := pow_split h
  have e1' : (2 : ℤ) ^ (c.N - 1) = 4 * 2 ^ (c.N - 3) := by exact_mod_cast e1
  have e2' : (2 : ℤ) ^ (c.N - 2) = 2 * 2 ^ (c.N - 3) := by exact_mod_cast e2
  have hp : (0 : ℤ) < 2 ^ (c.N - 3) := by positivity
  rw [Format.val_le_iff ha.inRange hb.inRange] at hab
  have hs' : 0 ≤ a ∨ (c.N = c.H ∧ 32 ≤ c.H) := hs.imp_left (nonneg_of_val ha)
  have hz : c.fmt.IsReal 0 := by rw [isReal_bounds]; omega
  unfold Posit.pseudosoftplus
  rw [xorSignShr_eq h ha hs' le_rfl, xorSignShr_eq h hb (by omega) le_rfl, xorSignShr_eq h hz (Or.inl le_rfl) le_rfl]
  have e0 : (0 + (2 : ℤ) ^ (c.N - 1)) / 2 ^ 1 = c.one := by rw [one_eq h]; omega
  have ha' := isReal_bounds.mp ha
  have hb' := isReal_bounds.mp hb
  have hr : ∀ x : ℤ, -(2 ^ (c.N - 1)) < x → x < 2 ^ (c.N - 1) →
      c.fmt.InRange ((x + 2 ^ (c.N - 1)) / 2 ^ 1) ∧ 0 ≤ (x + 2 ^ (c.N - 1)) / 2 ^ 1 := by
    intro x h1 h2
    unfold Format.InRange
    have : ((2 ^ (c.fmt.N - 1) : ℕ) : ℤ) = 2 ^ (c.N - 1) := by push_cast; rfl
    omega
  have hra := hr a (by omega) (by omega)
  have hrb := hr b (by omega) (by omega)
  refine ⟨?_, ?_, ?_, by rw [e0, val_one h]⟩
  · unfold Format.IsCanonical
    have : (2 : ℤ) ^ (c.fmt.N - 1) = 2 ^ (c.N - 1) := rfl
    omega
  · rcases eq_or_lt_of_le hra.2 with h0 | h0
    · rw [← h0]; simp [Format.val]
    · exact ((Format.val_pos_iff hra.1).mpr h0).le
  · rw [Format.val_le_iff hra.1 hrb.1]
    apply Int.ediv_le_ediv (by norm_num); omega

example : P32z.WF ∧ P32z.fmt.IsReal (-5) ∧ P32z.fmt.IsReal 7 ∧ P32z.fmt.val (-5) ≤ P32z.fmt.val 7 ∧
    P32z.N = P32z.H ∧ 32 ≤ P32z.H ∧ Posit.pseudosoftplus P32z (-5) = 1073741821 ∧
    Posit.pseudosoftplus P32z 7 = 1073741827 := by decide +kernel

/-- **C53**, what it computes from one upwards: `useed·x` rounded toward zero, `useed = 2^(2^es)` — except that `maxpos` of
a WithNanInf format gives the pattern of infinity. -/
theorem C53_large_partial (h : c.WF) {v : ℤ} (hv : c.fmt.IsReal v) (h1 : 1 ≤ c.fmt.val v)
    (ht : c.spec ≠ .withNanInf ∨ v ≠ c.fmt.maxBody) :
    c.fmt.IsTrunc (2 ^ 2 ^ c.es * c.fmt.val v) (Posit.pseudosoftplus c v) := by
  have hm := maxBody_lt' c
  have hN3 := h.N_ge
  obtain ⟨e1, e2, -⟩ := pow_split h
  have e1' : (2 : ℤ) ^ (c.N - 1) = 4 * 2 ^ (c.N - 3) := by exact_mod_cast e1
  have hp3 : (0 : ℤ) < 2 ^ (c.N - 3) := by positivity
  have hv1 : c.one ≤ v := by rw [← Format.val_le_iff (one_real h).1.inRange hv.inRange, val_one h]; exact h1
  have hv' := isReal_bounds.mp hv
  have hpos : 0 < v := by rw [one_eq h] at hv1; have : (0 : ℤ) < 2 ^ (c.N - 2) := by positivity
                          omega
  have hmax : (c.spec = .withNanInf → (c.fmt.maxBody : ℤ) = 2 ^ (c.N - 1) - 2) ∧
      (c.spec ≠ .withNanInf → (c.fmt.maxBody : ℤ) = 2 ^ (c.N - 1) - 1) := by
    have hpn := Nat.one_le_two_pow (n := c.N - 3)
    constructor <;> intro hsp
    · have : c.fmt.maxBody = 2 ^ (c.N - 1) - 2 := by simp [Format.maxBody, Cfg.fmt, hsp]
      rw [this, Nat.cast_sub (by omega)]; push_cast; ring
    · have : c.fmt.maxBody = 2 ^ (c.N - 1) - 1 := by simp [Format.maxBody, Cfg.fmt, hsp]
      rw [this, Nat.cast_sub (by omega)]; push_cast; ring
  unfold Posit.pseudosoftplus
  rw [xorSignShr_eq h hv (Or.inl hpos.le) le_rfl]
  obtain ⟨p, hp⟩ : ∃ p : ℕ, (v + 2 ^ (c.N - 1)) / 2 ^ 1 = p := ⟨((v + 2 ^ (c.N - 1)) / 2 ^ 1).toNat, by omega⟩
  obtain ⟨q, rfl⟩ : ∃ q : ℕ, v = q := ⟨v.toNat, by omega⟩
  rw [hp]
  have hq1 : 1 ≤ q := by omega
  have hqlt : q < 2 ^ (c.N - 1) := by
    have : (q : ℤ) < ((2 ^ (c.N - 1) : ℕ) : ℤ) := by push_cast; omega
    exact_mod_cast this
  obtain ⟨s, hs1, hs2⟩ := exists_coord (N := c.N) (es := c.es) hq1 hqlt
  have hvq : c.fmt.val (q : ℤ) = L (2 ^ c.es * s) := by rw [Format.val_natCast hq1]; exact hs2
  have hs0 : 0 ≤ s := by
    rw [hvq, ← L_zero, L_le_iff] at h1
    have : (0 : ℚ) < 2 ^ c.es := by positivity
    by_contra hc
    nlinarith
  have hy : (2 : ℚ) ^ 2 ^ c.es * c.fmt.val (q : ℤ) = L (2 ^ c.es * (s + 1)) := by
    have := L_add_int (2 ^ c.es * s) (2 ^ c.es : ℕ)
    rw [hvq, show (2 : ℚ) ^ c.es * (s + 1) = 2 ^ c.es * s + ((2 ^ c.es : ℕ) : ℤ) by push_cast; ring, this, zpow_natCast]
  have hg : (2 : ℚ) ^ (c.N - 1) * G (s + 1) = (q + 2 ^ (c.N - 1)) / 2 := by
    rw [G_succ hs0, ← hs1]; field_simp; ring
  rw [hy]
  apply Format.IsTrunc.of_pos (L_pos _)
  refine truncB_of_G (f := c.fmt) (by omega) ?_ ?_ (Or.inl ?_)
  · have : (p : ℤ) ≤ c.fmt.maxBody := by
      by_cases hsp : c.spec = .withNanInf
      · have := hmax.1 hsp
        have hne := ht.resolve_left (by simp [hsp])
        omega
      · have := hmax.2 hsp; omega
    exact_mod_cast this
  · change (p : ℚ) ≤ 2 ^ (c.N - 1) * G (s + 1)
    rw [hg, le_div_iff₀ (by norm_num)]
    have : (p : ℤ) * 2 ≤ q + 2 ^ (c.N - 1) := by omega
    exact_mod_cast this
  · change (2 : ℚ) ^ (c.N - 1) * G (s + 1) < p + 1
    rw [hg, div_lt_iff₀ (by norm_num)]
    have : (q : ℤ) + 2 ^ (c.N - 1) < (p + 1) * 2 := by omega
    exact_mod_cast this

example : P12.WF ∧ P12.fmt.IsReal 1200 ∧ 1 ≤ P12.fmt.val 1200 ∧ P12.spec ≠ .withNanInf ∧
    P12.fmt.val 1200 = 27 / 16 ∧ Posit.pseudosoftplus P12 1200 = 1624 ∧ P12.fmt.val 1624 = 27 / 4 := by decide +kernel

/-- … and `maxpos` of a WithNanInf format gives infinity -/
theorem C53_maxpos_inf (h : c.WF) (hs : c.spec = .withNanInf) :
    Posit.pseudosoftplus c c.fmt.maxBody = 2 ^ (c.N - 1) - 1 := by
  have hN3 := h.N_ge
  obtain ⟨e1, -, -⟩ := pow_split h
  have e1' : (2 : ℤ) ^ (c.N - 1) = 4 * 2 ^ (c.N - 3) := by exact_mod_cast e1
  have hpn := Nat.one_le_two_pow (n := c.N - 3)
  have hp : (0 : ℤ) < 2 ^ (c.N - 3) := by positivity
  have hmb : (c.fmt.maxBody : ℤ) = 2 ^ (c.N - 1) - 2 := by
    have : c.fmt.maxBody = 2 ^ (c.N - 1) - 2 := by simp [Format.maxBody, Cfg.fmt, hs]
    rw [this, Nat.cast_sub (by omega)]; push_cast; ring
  unfold Posit.pseudosoftplus
  rw [xorSignShr_eq h (by rw [isReal_bounds]; omega) (Or.inl (by omega)) le_rfl]
  omega

example : P8i.WF ∧ P8i.spec = .withNanInf ∧ P8i.fmt.maxBody = 126 ∧ P8i.pinf = 127 := by decide +kernel

/-- **C53**, what it computes on the unit interval for `es = 0`: `1+x` rounded toward zero for `0 ≤ x ≤ 1` and, for posits
that fill a 32- or 64-bit holder, `1+x/2` for `-1 ≤ x < 0`. -/
theorem C53_unit_partial (h : c.WF) (he : c.es = 0) (hN : 4 ≤ c.N) {v : ℤ} (hv : c.fmt.IsReal v)
    (hle : |c.fmt.val v| ≤ 1) :
    (0 ≤ c.fmt.val v → c.fmt.IsTrunc (1 + c.fmt.val v) (Posit.pseudosoftplus c v)) ∧
    (c.fmt.val v < 0 → c.N = c.H → 32 ≤ c.H → c.fmt.IsTrunc (1 + c.fmt.val v / 2) (Posit.pseudosoftplus c v)) := by
  obtain ⟨hval, hb⟩ := val_unit0' h he hv hle
  obtain ⟨e1, e2, -⟩ := pow_split h
  have e1' : (2 : ℤ) ^ (c.N - 1) = 4 * 2 ^ (c.N - 3) := by exact_mod_cast e1
  have e2' : (2 : ℤ) ^ (c.N - 2) = 2 * 2 ^ (c.N - 3) := by exact_mod_cast e2
  have e3' : (2 : ℤ) ^ (c.N - 3) = 2 * 2 ^ (c.N - 4) := by rw [← pow_succ']; congr 1; omega
  have hp4 : (0 : ℤ) < 2 ^ (c.N - 4) := by positivity
  have e1q : (2 : ℚ) ^ (c.N - 1) = 2 * 2 ^ (c.N - 2) := by
    have : (2 : ℤ) ^ (c.N - 1) = 2 * 2 ^ (c.N - 2) := by omega
    exact_mod_cast this
  have hQ : (0 : ℚ) < 2 ^ (c.N - 2) := by positivity
  have hmb := (maxBody_ge h).1
  have hp4n := Nat.one_le_two_pow (n := c.N - 3)
  have e1n : 2 ^ (c.N - 1) = 4 * 2 ^ (c.N - 3) := e1
  have e3n : 2 ^ (c.N - 3) = 2 * 2 ^ (c.N - 4) := by exact_mod_cast e3'
  obtain ⟨hv1, hv2⟩ := abs_le.mp hle
  rw [abs_le] at hb
  obtain ⟨p, hp⟩ : ∃ p : ℕ, (v + 2 ^ (c.N - 1)) / 2 ^ 1 = p := ⟨((v + 2 ^ (c.N - 1)) / 2 ^ 1).toNat, by omega⟩
  have hkey : (2 : ℚ) ^ (c.N - 2) * (1 + c.fmt.val v / 2) = ((v + 2 ^ (c.N - 1) : ℤ) : ℚ) / 2 := by
    rw [hval]
    push_cast
    rw [e1q]
    field_simp
    ring
  have hlo : (p : ℚ) ≤ ((v + 2 ^ (c.N - 1) : ℤ) : ℚ) / 2 := by
    rw [le_div_iff₀ (by norm_num)]
    have : (p : ℤ) * 2 ≤ v + 2 ^ (c.N - 1) := by omega
    exact_mod_cast this
  have hhi : ((v + 2 ^ (c.N - 1) : ℤ) : ℚ) / 2 < p + 1 := by
    rw [div_lt_iff₀ (by norm_num)]
    have : v + 2 ^ (c.N - 1) < ((p : ℤ) + 1) * 2 := by omega
    exact_mod_cast this
  have hpm : p ≤ c.fmt.maxBody := by
    have : (2 : ℤ) ^ (c.N - 4) = ((2 ^ (c.N - 4) : ℕ) : ℤ) := by push_cast; rfl
    omega
  unfold Posit.pseudosoftplus
  constructor
  · intro h0
    rw [xorSignShr_eq h hv (Or.inl (nonneg_of_val hv h0)) le_rfl, hp]
    have hL : 1 + c.fmt.val v = L (2 ^ c.es * c.fmt.val v) := by
      rw [he, pow_zero, one_mul]
      rcases eq_or_lt_of_le hv2 with h1 | h1
      · rw [h1]
        have := L_intCast 1
        push_cast at this
        rw [this]; norm_num
      · have := L_int_add 0 h0 h1
        simpa using this.symm
    have hg : (2 : ℚ) ^ (c.N - 1) * G (c.fmt.val v) = ((v + 2 ^ (c.N - 1) : ℤ) : ℚ) / 2 := by
      rw [G_unit (by linarith) hv2, e1q, ← hkey]; ring
    rw [hL]
    apply Format.IsTrunc.of_pos (L_pos _)
    refine truncB_of_G (f := c.fmt) (by omega) hpm ?_ (Or.inl ?_)
    · exact hlo.trans_eq hg.symm
    · exact hg.trans_lt hhi
  · intro h0 hNH hH
    rw [xorSignShr_eq h hv (Or.inr ⟨hNH, hH⟩) le_rfl, hp]
    apply Format.IsTrunc.of_pos (by linarith)
    apply truncB_unit0 h he (by linarith) (by omega)
    · rw [hkey]; exact hlo
    · rw [hkey]; exact hhi

example : P8.WF ∧ P8.es = 0 ∧ 4 ≤ P8.N ∧ P8.fmt.IsReal 51 ∧ |P8.fmt.val 51| ≤ 1 ∧ 0 ≤ P8.fmt.val 51 ∧
    Posit.pseudosoftplus P8 51 = 89 ∧ P8.fmt.val 89 = 57 / 32 := by decide +kernel
example : P32z.WF ∧ P32z.es = 0 ∧ 4 ≤ P32z.N ∧ P32z.fmt.IsReal (-2 ^ 29) ∧ P32z.fmt.val (-2 ^ 29) = -1 / 2 ∧
    P32z.N = P32z.H ∧ 32 ≤ P32z.H ∧ Posit.pseudosoftplus P32z (-2 ^ 29) = 805306368 := by decide +kernel

/-- **C53** fails for every negative posit in an 8- or 16-bit holder, and for every posit narrower than its holder: the
result is never in `[0, 1)`. -/
theorem C53_negative_wrong (h : c.WF) {v : ℤ} (hv : c.fmt.IsReal v) (h0 : v < 0) (hn : c.H < 32 ∨ c.N < c.H) :
    ¬ (c.fmt.IsReal (Posit.pseudosoftplus c v) ∧ 0 ≤ c.fmt.val (Posit.pseudosoftplus c v) ∧
      c.fmt.val (Posit.pseudosoftplus c v) < 1) := by
  rintro ⟨hr, hr0, hr1⟩
  rw [← val_one h, Format.val_lt_iff hr.inRange (one_real h).1.inRange, one_eq h] at hr1
  have hr0' : ¬ Posit.pseudosoftplus c v < 0 := fun hlt => by
    have := (Format.val_neg_iff hr.inRange).mpr hlt; linarith
  clear hr hr0
  revert hr1 hr0'
  have hm := maxBody_lt' c
  have hN := h.hN
  have hN3 := h.N_ge
  have hH := h.H_pos
  have hP := h.pow_le
  rw [isReal_bounds] at hv
  obtain ⟨k, rfl⟩ : ∃ k : ℕ, v = -(k : ℤ) := ⟨(-v).toNat, by omega⟩
  have hk : k ≤ 2 ^ (c.N - 1) := by
    have : (k : ℤ) ≤ 2 ^ (c.N - 1) := by omega
    exact_mod_cast this
  unfold Posit.pseudosoftplus Posit.xorSignShr Cfg.signBit
  obtain ⟨e1, e2, -⟩ := pow_split h
  have e1' : (2 : ℤ) ^ (c.N - 1) = 4 * 2 ^ (c.N - 3) := by exact_mod_cast e1
  have e2' : (2 : ℤ) ^ (c.N - 2) = 2 * 2 ^ (c.N - 3) := by exact_mod_cast e2
  have hp : (0 : ℤ) < 2 ^ (c.N - 3) := by positivity
  have hneg : ∀ w, c.N ≤ w → (wrapU w (-(k : ℤ)) ^^^ 2 ^ (c.N - 1) : ℕ) = (2 : ℤ) ^ w - k - 2 ^ (c.N - 1) := by
    intro w hw
    have h2w := two_pow_pred (w := w) (by omega)
    have hle : (2 : ℤ) ^ (c.N - 1) ≤ 2 ^ (w - 1) := pow_le_pow_right₀ (by norm_num) (by omega)
    rw [wrapU_of_neg h0 (by omega)]
    have e1 : (-(k : ℤ) + 2 ^ w).toNat = 2 ^ w - k := by
      have : ((2 ^ w : ℕ) : ℤ) = 2 ^ w := by push_cast; rfl
      omega
    rw [e1, xor_two_pow_high (by omega) (by omega) hk]
    have h3 : ((2 ^ w : ℕ) : ℤ) = 2 ^ w := by push_cast; rfl
    have h4 : ((2 ^ (c.N - 1) : ℕ) : ℤ) = 2 ^ (c.N - 1) := by push_cast; rfl
    omega
  split_ifs with hlt
  · have hk' : (k : ℤ) ≤ 2 ^ (c.N - 1) := by exact_mod_cast hk
    have hk0 : (0 : ℤ) ≤ k := Int.natCast_nonneg k
    have hpp : (0 : ℤ) < 2 ^ (c.N - 1) := by positivity
    have hdiv : (-(k : ℤ) - 2 ^ (c.N - 1)) / 2 ^ 1 < 0 := Int.ediv_neg_of_neg_of_pos (by linarith) (by norm_num)
    have hdiv2 : -(2 : ℤ) ^ (c.H - 1) ≤ (-(k : ℤ) - 2 ^ (c.N - 1)) / 2 ^ 1 := by
      rw [Int.le_ediv_iff_mul_le (by norm_num)]; linarith
    have hb : (2 : ℤ) ^ (c.N - 1) ≤ 2 ^ 15 := pow_le_pow_right₀ (by norm_num) (by have := h.hH; omega)
    have hw : wrapS 32 ((wrapU 32 (-(k : ℤ)) ^^^ 2 ^ (c.N - 1) : ℕ) : ℤ) = -(k : ℤ) - 2 ^ (c.N - 1) := by
      rw [hneg 32 (by omega)]
      exact wrapS_eq (by norm_num) 1 (by ring) (by unfold InS; omega)
    rw [hw]
    rw [wrapS_of_inS (by omega) ⟨hdiv2, lt_trans hdiv (by positivity)⟩]
    exact fun _ hB => hB hdiv
  · have hNH : c.N < c.H := hn.resolve_left (by omega)
    rw [Nat.shiftRight_eq_div_pow]
    have h2H := two_pow_pred (w := c.H) (by omega)
    have h2H1 := two_pow_pred (w := c.H - 1) (by omega)
    have hle : (2 : ℤ) ^ (c.N - 1) ≤ 2 ^ (c.H - 1 - 1) := pow_le_pow_right₀ (by norm_num) (by omega)
    have hcast : (((wrapU c.H (-(k : ℤ)) ^^^ 2 ^ (c.N - 1)) / 2 ^ 1 : ℕ) : ℤ) = ((2 : ℤ) ^ c.H - k - 2 ^ (c.N - 1)) / 2 ^ 1 := by
      rw [← hneg c.H (by omega)]; push_cast; rfl
    rw [hcast, wrapS_of_inS (by omega) (by unfold InS; omega)]
    omega

example : P8.WF ∧ P8.fmt.IsReal (-5) ∧ P8.H < 32 ∧ Posit.pseudosoftplus P8 (-5) = -67 := by decide +kernel

/-- **C53** fails: `pseudosoftplus(4)` is 8 for an 8-bit posit, while `ln(1+e^4)` is below 5. -/
theorem C53_not_softplus : P8.WF ∧ P8.fmt.val 112 = 4 ∧ P8.fmt.val (Posit.pseudosoftplus P8 112) = 8 ∧
    Real.log (1 + Real.exp ((P8.fmt.val 112 : ℚ) : ℝ)) < 5 := by
  have h4 : P8.fmt.val 112 = 4 := by decide +kernel
  refine ⟨by decide +kernel, h4, by decide +kernel, ?_⟩
  rw [h4, Real.log_lt_iff_lt_exp (by positivity)]
  have h1 : (1 : ℝ) ≤ Real.exp 4 := Real.one_le_exp (by norm_num)
  have h2 : (2 : ℝ) < Real.exp 1 := by have := Real.exp_one_gt_d9; linarith
  have h3 : Real.exp 5 = Real.exp 4 * Real.exp 1 := by rw [← Real.exp_add]; norm_num
  push_cast
  rw [h3]
  nlinarith

end Verif
