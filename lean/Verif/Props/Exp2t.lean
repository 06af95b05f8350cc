import Verif.Model.Exp2t
import Verif.Spec.Exp2t
import Verif.Lemmas.TabExp2Gen
import Verif.Props.SoftExp2
import Verif.Props.Step
import Verif.Props.Narrow
import Verif.Props.FloatUb

/-!
# C111 — `exp2t` of posits

include/exp2t.hpp. `IsExp2D` states what is assumed of the C function.
-/

namespace Verif
open Fmt NearGen

variable {c : Cfg} {e : ℕ → ℕ}

/-- The assumption on `exp2` can be met, with a quiet NaN. -/
theorem C111_exists : ∃ e, IsExp2D e ∧ ∀ f, ieee 11 52 (e f) = .nan → 2 ^ 51 ≤ e f % 2 ^ 52 := by
  classical
  have htv : g 11 52 (top 11 52) = 2 ^ (1024 : ℤ) := by rw [g_top (by norm_num)]; norm_num
  have ht32 : top 11 52 + 1 < 2 ^ (11 + 52) := by norm_num [top]
  -- magnitude bits of the greatest number not above `v`
  have J : ∀ v : ℝ, ∃ j, j ≤ top 11 52 ∧ (0 ≤ v → v < 2 ^ (1024 : ℤ) →
      j < top 11 52 ∧ ((g 11 52 j : ℚ) : ℝ) ≤ v ∧ v < ((g 11 52 (j + 1) : ℚ) : ℝ)) ∧ (2 ^ (1024 : ℤ) ≤ v → j = top 11 52) := by
    intro v
    by_cases hv : 0 ≤ v ∧ v < 2 ^ (1024 : ℤ)
    · obtain ⟨j, h1, h2, h3⟩ := exists_between_real (eb := 11) (fb := 52) (by norm_num) hv.1 (by
        have : ((2 ^ ((2 : ℤ) ^ (11 - 1)) : ℚ) : ℝ) = 2 ^ (1024 : ℤ) := by norm_num
        rw [this]; exact hv.2)
      exact ⟨j, by omega, fun _ _ => ⟨by omega, h2, h3⟩, fun h => by linarith [hv.2]⟩
    · exact ⟨top 11 52, le_rfl, fun h1 h2 => absurd ⟨h1, h2⟩ hv, fun _ => rfl⟩
  choose J hJt hJ hJb using J
  have hpos : ∀ x : ℚ, (0 : ℝ) < (2 : ℝ) ^ (x : ℝ) := fun x => Real.rpow_pos_of_pos (by norm_num) _
  have hJm : ∀ v w : ℝ, 0 ≤ v → v ≤ w → J v ≤ J w := by
    intro v w h0 h
    rcases lt_or_ge w (2 ^ (1024 : ℤ)) with hw | hw
    · obtain ⟨-, h1, -⟩ := hJ v h0 (lt_of_le_of_lt h hw)
      obtain ⟨-, -, h2⟩ := hJ w (h0.trans h) hw
      have : g 11 52 (J v) < g 11 52 (J w + 1) := by
        have : ((g 11 52 (J v) : ℚ) : ℝ) < ((g 11 52 (J w + 1) : ℚ) : ℝ) := by linarith
        exact_mod_cast this
      have := (g_mono (eb := 11) (fb := 52)).lt_iff_lt.1 this
      omega
    · rw [hJb w hw]; exact hJt v
  have val : ∀ k, k ≤ top 11 52 → ieee 11 52 k = if k < top 11 52 then .num (g 11 52 k) else .inf false := by
    intro k hk
    have := ieee_gen (eb := 11) (fb := 52) 0 k (by norm_num) (by omega)
    rw [zero_mul, zero_add] at this
    rw [this]
    by_cases h : k < top 11 52
    · rw [if_pos h, if_pos h]; simp
    · rw [if_neg h, if_neg h, if_pos (by omega)]; simp
  refine ⟨fun f => match ieee 11 52 f with
    | .num x => J ((2 : ℝ) ^ (x : ℝ))
    | .inf false => top 11 52
    | .inf true => 0
    | .nan => top 11 52 + 2 ^ 51, ?_, fun f => ?_⟩
  · refine ⟨fun f => ?_, fun {f x} hx => ?_, fun {f f' x x'} hx hx' h => ?_, fun {f n} hx h1 h2 => ?_, fun {f x} hx h1 h2 => ?_,
      fun {f x} hx h => ?_, fun {f x} hx h => ?_, fun {f} hf => ?_, fun {f} hf => ?_, fun {f} hf => ?_⟩
    · split
      · exact (hJt _).trans_lt (by norm_num [top])
      all_goals norm_num [top]
    · rw [hx]
      dsimp only
      rw [val _ (hJt _)]
      split
      · exact Or.inl ⟨_, rfl, g_nonneg _⟩
      · exact Or.inr rfl
    · rw [hx, hx']
      dsimp only
      have hm := hJm ((2 : ℝ) ^ (x : ℝ)) ((2 : ℝ) ^ (x' : ℝ)) (hpos x).le
        (Real.rpow_le_rpow_of_exponent_le (by norm_num) (by exact_mod_cast h))
      rw [val _ (hJt _), val _ (hJt _)]
      have hg := (g_mono (eb := 11) (fb := 52)).monotone hm
      split <;> split
      · simp only [XNum.Below, not_lt]; exact hg
      · have := hJt ((2 : ℝ) ^ (x : ℝ)); omega
      · simp [XNum.Below]
      · simp [XNum.Below]
    · rw [hx]
      dsimp only
      have ev : (2 : ℝ) ^ (((n : ℚ)) : ℝ) = (((2 : ℚ) ^ n : ℚ) : ℝ) := two_pow_int n
      obtain ⟨d, hd⟩ := ieee_of_int (eb := 11) (fb := 52) (by norm_num) (n := 1) (A := n) (by norm_num) (by norm_num; omega) (by
        rw [Int.cast_one, one_mul, abs_of_pos (by positivity)]
        exact zpow_lt_zpow_right₀ (by norm_num) (by norm_num; omega))
      rw [Int.cast_one, one_mul] at hd
      obtain ⟨s, k, hs, hk, -, hq⟩ := ieee_num_gen hd
      have hs1 : ¬ s = 1 := fun h => by
        rw [if_pos h] at hq
        have := g_nonneg (eb := 11) (fb := 52) k
        have : (0 : ℚ) < 2 ^ n := by positivity
        linarith
      rw [if_neg hs1, one_mul] at hq
      have hlt : (((2 : ℚ) ^ n : ℚ) : ℝ) < 2 ^ (1024 : ℤ) := by
        push_cast
        exact zpow_lt_zpow_right₀ (by norm_num) h2
      rw [ev]
      obtain ⟨h3, h4, h5⟩ := hJ (((2 : ℚ) ^ n : ℚ) : ℝ) (by positivity) hlt
      have h4' : g 11 52 (J (((2 : ℚ) ^ n : ℚ) : ℝ)) ≤ 2 ^ n := by exact_mod_cast h4
      have h5' : (2 : ℚ) ^ n < g 11 52 (J (((2 : ℚ) ^ n : ℚ) : ℝ) + 1) := by exact_mod_cast h5
      rw [hq] at h4' h5'
      have i1 := (g_mono (eb := 11) (fb := 52)).le_iff_le.1 h4'
      have i2 := (g_mono (eb := 11) (fb := 52)).lt_iff_lt.1 h5'
      have i3 : J (g 11 52 k : ℝ) = k := by omega
      rw [hq, i3, val k hk.le, if_pos hk]
    · rw [hx]
      dsimp only
      have hlt : (2 : ℝ) ^ (x : ℝ) < 2 ^ (1024 : ℤ) := by
        rw [← Real.rpow_intCast]
        exact Real.rpow_lt_rpow_of_exponent_lt (by norm_num) (by exact_mod_cast h2)
      have hge : (((2 : ℚ) ^ (-1022 : ℤ) : ℚ) : ℝ) ≤ (2 : ℝ) ^ (x : ℝ) := by
        rw [← two_pow_int]
        exact two_pow_mono (by exact_mod_cast h1)
      obtain ⟨h3, h4, h5⟩ := hJ _ (hpos x).le hlt
      generalize J ((2 : ℝ) ^ (x : ℝ)) = j at *
      refine ⟨g 11 52 j, by rw [val j h3.le, if_pos h3], ?_⟩
      have hj : 2 ^ 52 ≤ j := by
        by_contra hc
        have : g 11 52 (j + 1) ≤ g 11 52 (2 ^ 52) := g_mono.monotone (by omega)
        rw [minNorm_eq] at this
        have e : minNorm 11 = 2 ^ (-1022 : ℤ) := by unfold minNorm; norm_num
        rw [e] at this
        have : ((g 11 52 (j + 1) : ℚ) : ℝ) ≤ (((2 : ℚ) ^ (-1022 : ℤ) : ℚ) : ℝ) := by exact_mod_cast this
        linarith
      have hg := gap_norm (eb := 11) hj
      have hg' : ((g 11 52 (j + 1) : ℚ) : ℝ) - ((g 11 52 j : ℚ) : ℝ) ≤ ((g 11 52 j : ℚ) : ℝ) / 2 ^ 52 := by exact_mod_cast hg
      rw [abs_of_nonpos (by linarith)]
      have hp := hpos x
      have : ((g 11 52 j : ℚ) : ℝ) / 2 ^ 52 ≤ (2 : ℝ) ^ (x : ℝ) / 2 ^ 52 := by gcongr
      have : (2 : ℝ) ^ (x : ℝ) / 2 ^ 52 ≤ (2 : ℝ) ^ (x : ℝ) / 2 ^ 51 := by
        apply div_le_div_of_nonneg_left hp.le <;> norm_num
      linarith
    · rw [hx]; dsimp only
      have hv : (2 : ℝ) ^ (1024 : ℤ) ≤ (2 : ℝ) ^ (x : ℝ) := by
        rw [← Real.rpow_intCast]
        exact Real.rpow_le_rpow_of_exponent_le (by norm_num) (by exact_mod_cast h)
      rw [hJb _ hv, val _ le_rfl, if_neg (lt_irrefl _)]
    · rw [hx]; dsimp only
      have h0 : (2 : ℝ) ^ (x : ℝ) < ((g 11 52 1 : ℚ) : ℝ) := by
        refine lt_of_le_of_lt (two_pow_mono (y := ((-1075 : ℤ) : ℚ)) (by exact_mod_cast h)) ?_
        rw [two_pow_int, g_sub 1 (by norm_num)]
        have : (2 : ℚ) ^ (-1075 : ℤ) < 2 ^ (-1074 : ℤ) := zpow_lt_zpow_right₀ (by norm_num) (by norm_num)
        norm_num only [Nat.cast_one, one_mul] at this ⊢
        exact_mod_cast this
      have hb : (2 : ℝ) ^ (x : ℝ) < 2 ^ (1024 : ℤ) := by
        rw [← Real.rpow_intCast]
        refine Real.rpow_lt_rpow_of_exponent_lt (by norm_num) ?_
        have : (x : ℝ) ≤ -1075 := by exact_mod_cast h
        push_cast; linarith
      obtain ⟨h3, h4, -⟩ := hJ _ (hpos x).le hb
      have hJ0 : J ((2 : ℝ) ^ (x : ℝ)) = 0 := by
        have : g 11 52 (J ((2 : ℝ) ^ (x : ℝ))) < g 11 52 1 := by
          have : ((g 11 52 (J ((2 : ℝ) ^ (x : ℝ))) : ℚ) : ℝ) < ((g 11 52 1 : ℚ) : ℝ) := lt_of_le_of_lt h4 h0
          exact_mod_cast this
        have := (g_mono (eb := 11) (fb := 52)).lt_iff_lt.1 this
        omega
      rw [hJ0]
      exact ieee_zero' (by norm_num)
    · rw [hf]; dsimp only; rw [val _ le_rfl, if_neg (lt_irrefl _)]
    · rw [hf]; dsimp only; exact ieee_zero' (by norm_num)
    · rw [hf]; dsimp only
      norm_num [top, ieee]
  · dsimp only
    split
    · rw [val _ (hJt _)]
      split_ifs <;> nofun
    · rw [val _ le_rfl, if_neg (lt_irrefl _)]; nofun
    · rw [ieee_zero' (by norm_num)]; nofun
    · norm_num [top]

/-! ## the formats whose posits are all doubles -/

theorem Cfg.InDouble.toDouble (h : c.InDouble) {v : ℤ} (hv : c.fmt.IsReal v) :
    ∃ d, Posit.toFloat c .double v = .ok d ∧ ieee 11 52 d = .num (c.fmt.val v) := by
  rw [C51_traits.2.2]
  by_cases h0 : v = 0
  · exact ⟨0, (C23_special h.wf (by norm_num) (by norm_num) hv.canonical).1 h0, by rw [h0, Format.val_zero]; exact ieee_zero' (by norm_num)⟩
  · have hms := h.hms
    obtain ⟨r1, r2⟩ := val_range h.wf hv h0 (B := 1024) h.hms
    have := h.hE
    obtain ⟨b, hb, -, hi⟩ := C23_toFloat_partial (eb := 11) (fb := 52) (dn := true) h.wf h.hF (by norm_num) (by norm_num) (by norm_num)
      h.hfb (leastBits_max (by omega)) hv h0 (by norm_num at r1 ⊢; exact r1) (by norm_num at r2 ⊢; exact r2)
    exact ⟨b, hb, hi⟩

theorem Cfg.InDouble.ofDouble (h : c.InDouble) {d : ℕ} {y : ℚ} (hd : ieee 11 52 d = .num y) (h1 : 2 ^ (-1022 : ℤ) ≤ y ∨ 0 < y ∧ 52 < c.F) (hs : c.SafeMag y) :
    ∃ v, Posit.ofFloat c .double d = .ok v ∧ c.fmt.IsTrunc y v := by
  have hE := h.hE
  have hp : 2 ^ 15 ≤ 2 ^ (c.E - 1) := Nat.pow_le_pow_right (by norm_num) (by omega)
  have hy : 0 < y := by
    rcases h1 with h1 | h1
    · exact lt_of_lt_of_le (by positivity) h1
    · exact h1.1
  rw [C51_traits.2.2]
  refine C22_ofFloat_partial (eb := 11) (fb := 52) h.wf (by norm_num) (by norm_num) (by norm_num) (by omega) (by norm_num at hp ⊢; omega)
    hd hy.ne' ?_ hs
  rcases h1 with h1 | h1
  · right
    refine ⟨h.hF, ?_⟩
    rw [abs_of_pos hy]
    norm_num at h1 ⊢
    exact h1
  · exact Or.inl h1.2

theorem double_int {n : ℤ} (h : |n| < 2 ^ 53) : ∃ d, ieee 11 52 d = .num n := by
  obtain ⟨d, hd⟩ := ieee_of_int (eb := 11) (fb := 52) (by norm_num) (n := n) (A := 0) (by norm_num; exact h) (by norm_num) (by
    rw [zpow_zero, mul_one]
    have h1 : |(n : ℚ)| < 2 ^ 53 := by exact_mod_cast h
    have h2 : (2 : ℚ) ^ (53 : ℤ) < 2 ^ ((2 : ℤ) ^ (11 - 1)) := zpow_lt_zpow_right₀ (by norm_num) (by norm_num)
    rw [zpow_ofNat] at h2
    linarith)
  rw [zpow_zero, mul_one] at hd
  exact ⟨d, hd⟩

theorem IsExp2D.ge (he : IsExp2D e) {d : ℕ} {n : ℤ} {x y : ℚ} (hd : ieee 11 52 d = .num x) (hy : ieee 11 52 (e d) = .num y) (h1 : -1074 ≤ n) (h2 : n < 1024)
    (h : n ≤ x) : 2 ^ n ≤ y := by
  obtain ⟨k, hk⟩ := double_int (n := n) (by rw [abs_lt]; constructor <;> norm_num <;> omega)
  have hm := he.mono hk hd h
  rw [he.int hk h1 h2, hy] at hm
  exact not_lt.mp hm

theorem IsExp2D.le (he : IsExp2D e) {d : ℕ} {n : ℤ} {x y : ℚ} (hd : ieee 11 52 d = .num x) (hy : ieee 11 52 (e d) = .num y) (h1 : -1074 ≤ n) (h2 : n < 1024)
    (h : x ≤ n) : y ≤ 2 ^ n := by
  obtain ⟨k, hk⟩ := double_int (n := n) (by rw [abs_lt]; constructor <;> norm_num <;> omega)
  have hm := he.mono hd hk h
  rw [he.int hk h1 h2, hy] at hm
  exact not_lt.mp hm

theorem safeMag_exp (h : c.WF) (he : IsExp2D e) {d : ℕ} {x y : ℚ} (hd : ieee 11 52 d = .num x) (hy : ieee 11 52 (e d) = .num y)
    (hl : 2 ^ (-1022 : ℤ) ≤ y) (hs : c.SafeExp x) : c.SafeMag y := by
  rcases hs with hs | ⟨s1, s2⟩
  · exact safeMag_of_narrow h hs _
  have hy0 : 0 < y := lt_of_lt_of_le (by positivity) hl
  unfold Cfg.SafeMag
  rw [abs_of_pos hy0]
  refine ⟨Or.inl ?_, Or.inl ?_⟩
  · rcases le_or_gt c.packBound 1022 with hp | hp
    · exact he.ge hd hy (by omega) (by omega) (by push_cast; exact s1)
    · exact le_trans (zpow_le_zpow_right₀ (by norm_num) (by omega)) hl
  · rcases le_or_gt c.packBound 1024 with hp | hp
    · refine lt_of_le_of_lt (he.le hd hy (n := c.packBound - 1) (by omega) (by omega) (by push_cast; exact s2)) ?_
      exact zpow_lt_zpow_right₀ (by norm_num) (by omega)
    · have hb := (ieee_bounds (by norm_num) hy hy0.ne').2
      rw [abs_of_pos hy0] at hb
      refine lt_of_lt_of_le hb ?_
      exact zpow_le_zpow_right₀ (by norm_num) (by norm_num; omega)

/-- `exp2t` step by step -/
theorem exp2t_steps (h : c.InDouble) (he : IsExp2D e) {v : ℤ} (hv : c.fmt.IsReal v) (h1 : -1022 ≤ c.fmt.val v) (h2 : c.fmt.val v < 1024)
    (hs : c.SafeExp (c.fmt.val v)) :
    ∃ t d y, Posit.exp2t c e v = .ok t ∧ ieee 11 52 d = .num (c.fmt.val v) ∧ ieee 11 52 (e d) = .num y ∧ 0 < y ∧ c.fmt.IsTrunc y t := by
  obtain ⟨d, hd, hx⟩ := h.toDouble hv
  obtain ⟨y, hy, -⟩ := he.acc hx h1 h2
  have hl := he.ge hx hy (n := -1022) (by norm_num) (by norm_num) (by push_cast; exact h1)
  obtain ⟨t, ht, htr⟩ := h.ofDouble hy (Or.inl hl) (safeMag_exp h.wf he hx hy hl hs)
  refine ⟨t, d, y, ?_, hx, hy, lt_of_lt_of_le (by positivity) hl, htr⟩
  unfold Posit.exp2t
  rw [bind_ok _ hd]
  exact ht

/-- **C111**: for numbers from -1022 to below 1024 the result is the truncation of a number within a relative 2^-51 of `2^x`; it is
`2^x` truncated unless a posit lies as close as that to `2^x`. Missing: other operands, see `C111_range_wrong`, `C111_low_partial` and
`C111_subnormal_ub`, and results that cannot be packed, see `C111_pack_ub`. -/
theorem C111_near_partial (h : c.InDouble) (he : IsExp2D e) {v : ℤ} (hv : c.fmt.IsReal v) (h1 : -1022 ≤ c.fmt.val v)
    (h2 : c.fmt.val v < 1024) (hs : c.SafeExp (c.fmt.val v)) :
    ∃ t, Posit.exp2t c e v = .ok t ∧
      (∃ y : ℚ, |(y : ℝ) - (2 : ℝ) ^ (c.fmt.val v : ℝ)| ≤ (2 : ℝ) ^ (c.fmt.val v : ℝ) / 2 ^ 51 ∧ c.fmt.IsTrunc y t) ∧
      ((∀ w, c.fmt.IsReal w → (2 : ℝ) ^ (c.fmt.val v : ℝ) / 2 ^ 51 < |(c.fmt.val w : ℝ) - (2 : ℝ) ^ (c.fmt.val v : ℝ)|) →
        IsPow2 c.fmt (c.fmt.val v) t) := by
  obtain ⟨t, d, y, ht, hd, hy, hy0, htr⟩ := exp2t_steps h he hv h1 h2 hs
  obtain ⟨y', hy', ha⟩ := he.acc hd h1 h2
  obtain rfl : y = y' := XNum.num.inj (hy.symm.trans hy')
  refine ⟨t, ht, ⟨y, ha, htr⟩, fun hw => IsPow2.of_trunc htr hy0 fun w hw' => ?_⟩
  have := hw w hw'
  rw [abs_le] at ha
  rw [lt_abs] at this
  constructor
  · intro hle
    have : ((c.fmt.val w : ℚ) : ℝ) ≤ (y : ℝ) := by rcases this with h | h <;> linarith
    exact_mod_cast this
  · intro hle
    have hle' : ((c.fmt.val w : ℚ) : ℝ) ≤ (y : ℝ) := by exact_mod_cast hle
    rcases this with h | h <;> linarith

/-- 9/4 -/
example : ∃ e, IsExp2D e ∧ ∃ t, Posit.exp2t P16 e 0x4900 = .ok t ∧
    ∃ y : ℚ, |(y : ℝ) - (2 : ℝ) ^ (((9 / 4 : ℚ)) : ℝ)| ≤ (2 : ℝ) ^ ((9 / 4 : ℚ) : ℝ) / 2 ^ 51 ∧ P16.fmt.IsTrunc y t := by
  obtain ⟨e, he, -⟩ := C111_exists
  have hv : P16.fmt.val 0x4900 = 9 / 4 := by decide +kernel
  obtain ⟨t, ht, hy, -⟩ := C111_near_partial (c := P16) ⟨by decide, by decide, by decide, by decide, by decide⟩ he (v := 0x4900)
    (by decide +kernel) (by rw [hv]; norm_num) (by rw [hv]; norm_num) (Or.inl (by decide))
  rw [hv] at hy
  exact ⟨e, he, t, ht, hy⟩

/-- **C111**: the result for an integer is exactly `2^n` truncated. Missing: as above. -/
theorem C111_int_partial (h : c.InDouble) (he : IsExp2D e) {v : ℤ} (hv : c.fmt.IsReal v) {n : ℤ} (hn : c.fmt.val v = n) (h1 : -1022 ≤ n)
    (h2 : n < 1024) (hs : c.SafeExp n) : ∃ t, Posit.exp2t c e v = .ok t ∧ c.fmt.IsTrunc (2 ^ n) t := by
  obtain ⟨t, d, y, ht, hd, hy, hy0, htr⟩ := exp2t_steps h he hv (by rw [hn]; exact_mod_cast h1) (by rw [hn]; exact_mod_cast h2)
    (by rw [hn]; exact hs)
  rw [hn] at hd
  rw [he.int hd (by omega) h2] at hy
  obtain rfl := XNum.num.inj hy
  exact ⟨t, ht, htr⟩

/-- 10 -/
example : ∃ e, IsExp2D e ∧ Posit.exp2t P16 e 23040 = .ok 29696 ∧ P16.fmt.val 23040 = 10 ∧ P16.fmt.val 29696 = 1024 := by
  obtain ⟨e, he, -⟩ := C111_exists
  have hv : P16.fmt.val 23040 = 10 := by decide +kernel
  have hw : P16.fmt.val 29696 = 1024 := by decide +kernel
  obtain ⟨t, ht, hy⟩ := C111_int_partial (c := P16) ⟨by decide, by decide, by decide, by decide, by decide⟩ he (v := 23040)
    (by decide +kernel) (n := 10) (by rw [hv]; norm_num) (by norm_num) (by norm_num) (Or.inl (by decide))
  rw [hy.faithful.exact (w := 29696) (by decide +kernel) (by rw [hw]; norm_num)] at ht
  exact ⟨e, he, ht, hv, hw⟩

/-- **C111**: greater posits do not have lesser results. Missing: as above. -/
theorem C111_mono_partial (h : c.InDouble) (he : IsExp2D e) {v w : ℤ} (hv : c.fmt.IsReal v) (hw : c.fmt.IsReal w) (h1 : -1022 ≤ c.fmt.val v)
    (h2 : c.fmt.val w < 1024) (hs : c.SafeExp (c.fmt.val v)) (hs' : c.SafeExp (c.fmt.val w)) (hvw : c.fmt.val v ≤ c.fmt.val w) :
    ∃ t u, Posit.exp2t c e v = .ok t ∧ Posit.exp2t c e w = .ok u ∧ t ≤ u := by
  obtain ⟨t, d, y, ht, hd, hy, hy0, htr⟩ := exp2t_steps h he hv h1 (by linarith) hs
  obtain ⟨u, d', y', hu, hd', hy', hy0', htr'⟩ := exp2t_steps h he hw (by linarith) h2 hs'
  have hm := he.mono hd hd' hvw
  rw [hy, hy'] at hm
  exact ⟨t, u, ht, hu, trunc0_mono (Or.inr htr) (Or.inr htr') (not_lt.mp hm)⟩

/-- 9/4 and 10 -/
example : ∃ e, IsExp2D e ∧ ∃ t u, Posit.exp2t P16 e 0x4900 = .ok t ∧ Posit.exp2t P16 e 23040 = .ok u ∧ t ≤ u := by
  obtain ⟨e, he, -⟩ := C111_exists
  have hv : P16.fmt.val 0x4900 = 9 / 4 := by decide +kernel
  have hw : P16.fmt.val 23040 = 10 := by decide +kernel
  exact ⟨e, he, C111_mono_partial (c := P16) ⟨by decide, by decide, by decide, by decide, by decide⟩ he (by decide +kernel) (by decide +kernel)
    (by rw [hv]; norm_num) (by rw [hw]; norm_num) (Or.inl (by decide)) (Or.inl (by decide)) (by rw [hv, hw]; norm_num)⟩

theorem ofDouble_zero (h : c.InDouble) {d : ℕ} (hd : ieee 11 52 d = .num 0) : Posit.ofFloat c (.any 11 52 true) d = .ok 0 := by
  have hE := h.hE
  obtain ⟨h1, h2⟩ := ieee_num_zero hd
  exact C22_zero h.wf (by norm_num) (by norm_num) (by omega) h1 h2

/-- **C111**: NaN for NaN, infinity for infinity and zero for minus infinity (where a format has only one of NaN and infinity, that one
for both). The conversion of NaN is that of C22. -/
theorem C111_special (h : c.InDouble) (he : IsExp2D e) {v : ℤ} (hv : c.fmt.IsCanonical v) :
    (Posit.isNaN c v = true → (c.spec ≠ .withNanInf ∨ 52 ≤ c.F ∨ ∀ f, ieee 11 52 (e f) = .nan → 2 ^ 51 ≤ e f % 2 ^ 52) →
      Posit.exp2t c e v = .ok c.topPat) ∧
    (Posit.isInfinity c v = true → Posit.exp2t c e v = .ok (if v < 0 then 0 else c.infPat false)) := by
  have hE := h.hE
  have hF := h.wf.hF
  unfold Posit.exp2t
  rw [C51_traits.2.2]
  obtain ⟨-, s2, s3⟩ := C23_special (eb := 11) (fb := 52) (dn := true) h.wf (by norm_num) (by norm_num) hv
  constructor
  · intro hn hq
    obtain ⟨d, hd, hx⟩ := s2 hn
    rw [bind_ok _ hd]
    refine C22_nan_partial h.wf (by norm_num) (by norm_num) (by omega) (he.nan hx) ?_
    rcases hq with hq | hq | hq
    · exact Or.inl hq
    · exact Or.inr (Or.inl hq)
    · refine Or.inr (Or.inr (le_trans ?_ (hq d (he.nan hx))))
      exact Nat.pow_le_pow_right (by norm_num) (by omega)
  · intro hn
    obtain ⟨d, hd, hx⟩ := s3 hn
    rw [bind_ok _ hd]
    by_cases h0 : v < 0
    · rw [decide_eq_true h0] at hx
      rw [if_pos h0]
      exact ofDouble_zero h (he.ninf hx)
    · rw [decide_eq_false h0] at hx
      rw [if_neg h0]
      exact C22_inf h.wf (by norm_num) (by norm_num) (by omega) (he.pinf hx)

/-- NaN and both infinities -/
example : ∃ e, IsExp2D e ∧ Posit.exp2t ⟨16, 16, 2, 16, .withNanInf⟩ e (-0x8000) = .ok (-0x8000) ∧
    Posit.exp2t ⟨16, 16, 2, 16, .withNanInf⟩ e 0x7fff = .ok 0x7fff ∧ Posit.exp2t ⟨16, 16, 2, 16, .withNanInf⟩ e (-0x7fff) = .ok 0 := by
  obtain ⟨e, he, hq⟩ := C111_exists
  have h : (⟨16, 16, 2, 16, .withNanInf⟩ : Cfg).InDouble := ⟨by decide, by decide, by decide, by decide, by decide⟩
  exact ⟨e, he, (C111_special h he (by decide)).1 (by decide) (Or.inr (Or.inr hq)), (C111_special h he (by decide)).2 (by decide),
    (C111_special h he (by decide)).2 (by decide)⟩

theorem pow2_ends (h : c.InDouble) (x : ℚ) : (1024 ≤ x → IsPow2 c.fmt x c.maxpos) ∧ (x < -1022 → IsPow2 c.fmt x 1) := by
  have hms := h.hms
  have hm := one_le_maxBody h.wf
  constructor
  · intro hx
    have hr : c.fmt.IsReal c.maxpos := by
      rw [maxpos_eq h.wf, Format.isReal_iff]; simp
    have hp : 0 < c.maxpos := by rw [maxpos_eq h.wf]; omega
    refine ⟨hr, hp, Or.inr ?_, fun w hw _ => ?_⟩
    · have hb := (val_abs_bounds h.wf hr hp.ne').2
      have hb' : c.fmt.val c.maxpos ≤ 2 ^ (1024 : ℤ) :=
        (le_abs_self _).trans (hb.trans (zpow_le_zpow_right₀ (by norm_num) (by omega)))
      have h4 := two_pow_mono (x := ((1024 : ℤ) : ℚ)) (y := x) (by exact_mod_cast hx)
      rw [two_pow_int] at h4
      refine le_trans ?_ h4
      exact_mod_cast hb'
    · rw [maxpos_eq h.wf]
      rw [Format.isReal_iff] at hw
      omega
  · intro hx
    refine ⟨by rw [Format.isReal_iff]; simpa using hm, by norm_num, Or.inl rfl, fun w hw hle => ?_⟩
    by_contra hc
    have hb := (val_abs_bounds h.wf hw (by omega)).1
    have hp : 0 < c.fmt.val w := (Format.val_pos_iff hw.inRange).mpr (by omega)
    rw [abs_of_pos hp] at hb
    have : (2 : ℚ) ^ (-1022 : ℤ) ≤ c.fmt.val w := (zpow_le_zpow_right₀ (by norm_num) (by omega)).trans hb
    have h3 : (((2 : ℚ) ^ (-1022 : ℤ) : ℚ) : ℝ) ≤ (c.fmt.val w : ℝ) := by exact_mod_cast this
    have h4 : (2 : ℝ) ^ (x : ℝ) < (2 : ℝ) ^ ((((-1022 : ℤ) : ℚ)) : ℝ) :=
      Real.rpow_lt_rpow_of_exponent_lt (by norm_num) (by push_cast; exact_mod_cast hx)
    rw [two_pow_int] at h4
    linarith

/-- **C111** does not hold from 1024 on, where the result is infinity (NaN if the format has no infinity), and up to -1075, where it is
zero: `2^x` truncated is the greatest and the least positive posit. -/
theorem C111_range_wrong (h : c.InDouble) (he : IsExp2D e) {v : ℤ} (hv : c.fmt.IsReal v) :
    (1024 ≤ c.fmt.val v → Posit.exp2t c e v = .ok (c.infPat false) ∧ IsPow2 c.fmt (c.fmt.val v) c.maxpos ∧ c.infPat false ≠ c.maxpos) ∧
    (c.fmt.val v ≤ -1075 → Posit.exp2t c e v = .ok 0 ∧ IsPow2 c.fmt (c.fmt.val v) 1) := by
  have hE := h.hE
  obtain ⟨d, hd, hx⟩ := h.toDouble hv
  unfold Posit.exp2t
  rw [bind_ok _ hd]
  refine ⟨fun h1 => ⟨?_, (pow2_ends h _).1 h1, ?_⟩, fun h1 => ⟨?_, (pow2_ends h _).2 (by linarith)⟩⟩
  · rw [C51_traits.2.2]
    exact C22_inf h.wf (by norm_num) (by norm_num) (by omega) (he.over hx h1)
  · have hg := h.wf.pow_ge
    rw [maxpos_eq h.wf]
    unfold Cfg.infPat Cfg.topPat Format.maxBody Cfg.fmt
    have hg' : 4 ≤ 2 ^ (c.N - 1) := by exact_mod_cast hg
    by_cases hs : c.spec = .withNanInf
    · simp only [hs, if_true, decide_true]
      push_cast [Nat.cast_sub (show 2 ≤ 2 ^ (c.N - 1) by omega)]
      simp
    · simp only [hs, if_false, decide_false]
      push_cast [Nat.cast_sub (show 1 ≤ 2 ^ (c.N - 1) by omega)]
      simp
      omega
  · rw [C51_traits.2.2]
    exact ofDouble_zero h (he.under hx h1)

/-- 1024 and -1200 -/
example : ∃ e, IsExp2D e ∧ Posit.exp2t P16 e 29696 = .ok (-0x8000) ∧ Posit.exp2t P16 e (-29784) = .ok 0 := by
  obtain ⟨e, he, -⟩ := C111_exists
  have h : P16.InDouble := ⟨by decide, by decide, by decide, by decide, by decide⟩
  exact ⟨e, he, ((C111_range_wrong h he (by decide +kernel)).1 (by decide +kernel)).1,
    ((C111_range_wrong h he (by decide +kernel)).2 (by decide +kernel)).1⟩

/-- **C111** below -1022: the least positive posit, which is right, if the fraction type has more than 52 bits. Missing:
narrower fraction types, see `C111_subnormal_ub`, and posits that fill the holder. -/
theorem C111_low_partial (h : c.InDouble) (he : IsExp2D e) (hF : 52 < c.F) (hN : c.N + 1 < pw c.H) {v : ℤ} (hv : c.fmt.IsReal v)
    (h1 : -1074 ≤ c.fmt.val v) (h2 : c.fmt.val v < -1022) : Posit.exp2t c e v = .ok 1 ∧ IsPow2 c.fmt (c.fmt.val v) 1 := by
  have hp := (pow2_ends h (c.fmt.val v)).2 h2
  refine ⟨?_, hp⟩
  obtain ⟨d, hd, hx⟩ := h.toDouble hv
  unfold Posit.exp2t
  rw [bind_ok _ hd]
  rcases he.nonneg hx with ⟨y, hy, -⟩ | hy
  · have hl := he.ge hx hy (n := -1074) (by norm_num) (by norm_num) (by push_cast; exact h1)
    have hy0 : 0 < y := lt_of_lt_of_le (by positivity) hl
    have hu := he.le hx hy (n := -1022) (by norm_num) (by norm_num) (by push_cast; exact h2.le)
    obtain ⟨t, ht, htr⟩ := h.ofDouble hy (Or.inr ⟨hy0, hF⟩) (safeMag_of_narrow h.wf hN _)
    rw [ht]
    have hms := h.hms
    have ht0 : 0 < t := by
      rcases htr.sign with h5 | h5
      · exact h5.1
      · linarith [h5.2]
    have hv1 : 0 < c.fmt.val 1 := (Format.val_pos_iff hp.1.inRange).mpr (by norm_num)
    have hvt : 0 < c.fmt.val t := (Format.val_pos_iff htr.real.inRange).mpr ht0
    have hle : c.fmt.val t ≤ c.fmt.val 1 := by
      rcases htr.below with h5 | h5
      · have h6 := (val_abs_bounds h.wf hp.1 (by norm_num)).1
        have h7 : (2 : ℚ) ^ (-1022 : ℤ) ≤ 2 ^ (-(c.maxScale : ℤ)) := zpow_le_zpow_right₀ (by norm_num) (by omega)
        rw [abs_of_pos hvt, abs_of_pos hy0] at h5
        rw [abs_of_pos hv1] at h6
        linarith
      · have h6 := h5 1 hp.1 (by norm_num)
        rwa [abs_of_pos hvt, abs_of_pos hv1] at h6
    rw [Format.val_le_iff htr.real.inRange hp.1.inRange] at hle
    rw [show t = 1 by omega]
  · obtain ⟨k, hk⟩ := double_int (n := 0) (by norm_num)
    have hm := he.mono hx hk (by push_cast; linarith)
    rw [he.int hk (by norm_num) (by norm_num), hy] at hm
    exact absurd (by simp [XNum.Below]) hm

/-- -1054 -/
example : ∃ e, IsExp2D e ∧ Posit.exp2t ⟨32, 30, 4, 64, .withNan⟩ e (-352567296) = .ok 1 := by
  obtain ⟨e, he, -⟩ := C111_exists
  exact ⟨e, he, (C111_low_partial ⟨by decide, by decide, by decide, by decide, by decide⟩ he (by decide) (by decide) (by decide +kernel)
    (by decide +kernel) (by decide +kernel)).1⟩

/-- **C111**: undefined behaviour at -1022-F with a fraction type of F = 32 bits: 2^(-1022-F) is a subnormal double. -/
theorem C111_subnormal_ub (h : c.InDouble) (he : IsExp2D e) (hF1 : 32 ≤ c.F) (hF2 : c.F < 52) {v : ℤ} (hv : c.fmt.IsReal v)
    (hx : c.fmt.val v = -1022 - c.F) : Posit.exp2t c e v = .error .shiftAmount := by
  have hE := h.hE
  have hp : 2 ^ 15 ≤ 2 ^ (c.E - 1) := Nat.pow_le_pow_right (by norm_num) (by omega)
  obtain ⟨d, hd, hd'⟩ := h.toDouble hv
  unfold Posit.exp2t
  rw [bind_ok _ hd, C51_traits.2.2]
  have hi := he.int (f := d) (n := -1022 - c.F) (by rw [hd', hx]; push_cast; rfl) (by omega) (by omega)
  obtain ⟨-, ⟨h2, h3⟩ | ⟨h2, h3⟩⟩ := ieee_num hi
  · have h4 := (sub_abs h3).1
    rw [abs_of_pos (by positivity)] at h4
    have hm : fMan 52 (e d) = 2 ^ (52 - c.F) := by
      have h5 : (fMan 52 (e d) : ℚ) = 2 ^ ((52 - c.F : ℕ) : ℤ) := by
        rw [show ((52 - c.F : ℕ) : ℤ) = (-1022 - c.F) - (2 - 2 ^ (11 - 1) - (52 : ℕ)) by norm_num; omega, zpow_sub₀ (by norm_num), h4]
        field_simp
      rw [zpow_natCast] at h5
      exact_mod_cast h5
    have h0 : 0 < 2 ^ (52 - c.F) := by positivity
    exact C22_subnormal_ub h.wf (by norm_num) (by norm_num) (by omega) (by norm_num at hp ⊢; omega) h2 hF2 hF1 (by omega) (by omega)
  · exfalso
    have h4 : |(2 : ℚ) ^ (-1022 - (c.F : ℤ))| = (2 ^ 52 + fMan 52 (e d)) * 2 ^ ((fExp 11 52 (e d) : ℤ) - (2 ^ (11 - 1) - 1) - (52 : ℕ)) := by
      rw [h3, abs_sign_mul _ (by positivity)]
    rw [abs_of_pos (by positivity)] at h4
    have h5 : (2 : ℚ) ^ (-1022 : ℤ) ≤ (2 ^ 52 + fMan 52 (e d)) * 2 ^ ((fExp 11 52 (e d) : ℤ) - (2 ^ (11 - 1) - 1) - (52 : ℕ)) := by
      calc (2 : ℚ) ^ (-1022 : ℤ) = 2 ^ 52 * 2 ^ (-1074 : ℤ) := by rw [← zpow_natCast, ← zpow_add₀ (by norm_num)]; norm_num
        _ ≤ _ := by
          refine mul_le_mul (by simp) (zpow_le_zpow_right₀ (by norm_num) (by norm_num; omega)) (by positivity) (by positivity)
    rw [← h4, zpow_le_zpow_iff_right₀ (by norm_num)] at h5
    omega

/-- -1054 -/
example : ∃ e, IsExp2D e ∧ Posit.exp2t P28 e (-77625344) = .error .shiftAmount := by
  obtain ⟨e, he, -⟩ := C111_exists
  exact ⟨e, he, C111_subnormal_ub ⟨by decide, by decide, by decide, by decide, by decide⟩ he (by decide) (by decide) (by decide +kernel)
    (by decide +kernel)⟩

theorem IsExp2D.bits (he : IsExp2D e) {d : ℕ} {n : ℤ} (hd : ieee 11 52 d = .num n) (h1 : -1074 ≤ n) (h2 : n < 1024) {k : ℕ} (hk : k < 2 ^ 63)
    (hv : ieee 11 52 k = .num (2 ^ n)) : e d = k := by
  have hi := he.int hd h1 h2
  have hp : (0 : ℚ) < 2 ^ n := by positivity
  refine ieee_inj (eb := 11) (fb := 52) (he.lt d) (by norm_num at hk ⊢; omega) (hi.trans hv.symm) (by rw [hi]; nofun) ?_
  rw [signBit_num (eb := 11) (fb := 52) (he.lt d) hi hp.ne', signBit_num (by norm_num at hk ⊢; omega) hv hp.ne']

/-- **C111** fails, with undefined behaviour, for integers n for which posits as great or as small as `2^n` cannot be packed. -/
theorem C111_pack_ub (h : c.InDouble) (he : IsExp2D e) {v : ℤ} (hv : c.fmt.IsReal v) {n : ℤ} (hn : c.fmt.val v = n) (h1 : -1022 ≤ n)
    (h2 : n < 1024) (hs : ¬ c.SafeMag (2 ^ n)) : Posit.exp2t c e v = .error .shiftAmount := by
  have hE := h.hE
  have hp : 2 ^ 15 ≤ 2 ^ (c.E - 1) := Nat.pow_le_pow_right (by norm_num) (by omega)
  obtain ⟨d, hd, hx⟩ := h.toDouble hv
  unfold Posit.exp2t
  rw [bind_ok _ hd, C51_traits.2.2]
  rw [hn] at hx
  have h0 : (0 : ℚ) < 2 ^ n := by positivity
  refine C22_ofFloat_ub h.wf (by norm_num) (by norm_num) (by norm_num) (by omega) (by norm_num at hp ⊢; omega)
    (he.int hx (by omega) h2) h0.ne' (Or.inr ?_) hs
  rw [abs_of_pos h0]
  exact zpow_le_zpow_right₀ (by norm_num) (by norm_num; omega)

/-- 256 -/
example : ∃ e, IsExp2D e ∧ Posit.exp2t P32 e 1610612736 = .error .shiftAmount := by
  obtain ⟨e, he, -⟩ := C111_exists
  exact ⟨e, he, C111_pack_ub ⟨by decide, by decide, by decide, by decide, by decide⟩ he (by decide +kernel) (n := 256) (by decide +kernel)
    (by norm_num) (by norm_num) (by decide +kernel)⟩

/-- **C111** does not hold with an exponent type of 8 bits: exp2t(1) is 0 there. -/
theorem C111_narrow_wrong (h : c.WF) (hE : c.E = 8) (he : IsExp2D e) {v : ℤ} (hv : c.fmt.IsReal v) (h1 : c.fmt.val v = 1) :
    Posit.exp2t c e v = .ok 0 := by
  obtain ⟨d, hd, hx⟩ := C94_toDouble h hE hv
  unfold Posit.exp2t
  obtain ⟨k1, k2⟩ := C22_double_two_wrong h hE
  rw [bind_ok _ hd, he.bits (n := 1) (by rw [hx, h1]; rfl) (by norm_num) (by norm_num) (k := 0x4000000000000000) (by norm_num)
    (by rw [k1]; norm_num)]
  exact k2

example : ∃ e, IsExp2D e ∧ Posit.exp2t ⟨8, 6, 1, 8, .withNan⟩ e 16 = .ok 0 := by
  obtain ⟨e, he, -⟩ := C111_exists
  exact ⟨e, he, C111_narrow_wrong (by decide) (by decide) he (by decide +kernel) (by decide +kernel)⟩

end Verif
