import Verif.Lemmas.Fixed
import Verif.Props.Special
import Verif.Props.Convert
import Verif.Spec.Special
import Verif.Model.Instances

/-! # Conversion from and to int and fixed point (C20, C21) -/

namespace Verif
open Fmt

variable {c : Cfg} {F E N q : ℕ}

/-! ## C20 -/

theorem inS_log (hE : 8 ≤ E) {L : ℕ} (hL : L < 64) : InS E (-((0 : ℕ) : ℤ) + L) := by
  have : (2 : ℤ) ^ 7 ≤ 2 ^ (E - 1) := pow_le_pow_right₀ (by norm_num) (by omega)
  norm_num at this
  constructor <;> push_cast <;> omega

theorem sign_natAbs (i : ℤ) : (if decide (i < 0) = true then -1 else 1 : ℚ) * (i.natAbs : ℚ) = i := by
  by_cases h : i < 0
  · simp only [h, decide_true, if_true]
    have : (i.natAbs : ℤ) = -i := by omega
    have : (i.natAbs : ℚ) = -(i : ℚ) := by
      rw [← Int.cast_neg, ← this, Int.cast_natCast]
    rw [this]; ring
  · simp only [h, decide_false, Bool.false_eq_true, if_false]
    have : (i.natAbs : ℤ) = i := by omega
    have : (i.natAbs : ℚ) = (i : ℚ) := by
      conv_rhs => rw [← this, Int.cast_natCast]
    rw [this]; ring

theorem natAbs_log_lt {i : ℤ} (h0 : i ≠ 0) {k : ℕ} (hi : |i| < 2 ^ k) : i.natAbs.log2 < k := by
  have h1 := (intLog i h0).1
  have h2 : i.natAbs < 2 ^ k := by
    zify; exact hi
  exact (Nat.pow_lt_pow_iff_right (by norm_num : 1 < 2)).mp (lt_of_le_of_lt h1 h2)

/-- **C20**: `Posit(i)` is `i` rounded toward zero. Missing: `INT_MIN` (undefined, `C20_min_ub`), magnitudes at which
`pack_posit` is undefined, and a fraction type narrower than both the posit's fraction and the integer
(`C20_narrow_wrong`). -/
theorem C20_ofInt_partial (h : c.WF) {i : ℤ} (h0 : i ≠ 0) (hi1 : -2 ^ 31 < i) (hi2 : i < 2 ^ 31)
    (hF : c.fb ≤ c.F ∨ |i| < 2 ^ (c.F + 1)) (hs : c.SafeMag i) :
    ∃ v, Posit.ofInt c i = .ok v ∧ c.fmt.IsTrunc i v := by
  obtain ⟨hL1, hL2⟩ := intLog i h0
  have hL := natAbs_log_lt h0 (k := 31) (by rw [abs_lt]; omega)
  have hF8 : 8 ≤ c.F := by have := h.hF; omega
  have hu := unpackFixed_eq (F := c.F) (E := c.E) (N := 32) (q := 0) (by omega) (by omega) (by have := E_ge h; omega) h0
    ⟨by norm_num; omega, by norm_num; omega⟩ (Or.inr (by norm_num; omega)) (inS_log (E_ge h) (by omega))
  unfold Posit.ofInt
  rw [hu]
  simp only [bind, Except.bind]
  have hz : (-((0 : ℕ) : ℤ) + i.natAbs.log2) = 0 + (i.natAbs.log2 : ℤ) := by simp
  rw [hz]
  obtain ⟨r, hr, ht⟩ := pack_nat h (i < 0) hL1 hL2 0 (hF.imp id fun hb => by
    have := natAbs_log_lt h0 hb; omega) (by
    rw [zpow_zero, mul_one]
    have : (i.natAbs : ℚ) = |(i : ℚ)| := by rw [Nat.cast_natAbs]; push_cast; rfl
    rw [this]; exact SafeMag_abs.mpr hs)
  refine ⟨r, hr, ?_⟩
  rwa [zpow_zero, mul_one, sign_natAbs] at ht

example : P16.WF ∧ P16.fb ≤ P16.F ∧ P16.SafeMag ((-12345 : ℤ) : ℚ) ∧ Posit.ofInt P16 (-12345) = .ok (-31105) := by
  decide +kernel

/-- **C20**, integers that are posits convert exactly. -/
theorem C20_exact_partial (h : c.WF) {i v : ℤ} (h0 : i ≠ 0) (hi1 : -2 ^ 31 < i) (hi2 : i < 2 ^ 31)
    (hF : c.fb ≤ c.F ∨ |i| < 2 ^ (c.F + 1)) (hs : c.SafeMag i) (hv : c.fmt.IsReal v) (hiv : c.fmt.val v = i) :
    Posit.ofInt c i = .ok v := by
  obtain ⟨r, hr, ht⟩ := C20_ofInt_partial h h0 hi1 hi2 hF hs
  have hv0 : v ≠ 0 := by
    rintro rfl
    rw [Format.val_zero] at hiv
    exact h0 (by exact_mod_cast hiv.symm)
  have := Format.isTrunc_val hv hv0
  rw [hiv] at this
  rw [hr, ht.unique this]

example : P16.WF ∧ P16.fb ≤ P16.F ∧ P16.SafeMag ((-12288 : ℤ) : ℚ) ∧ P16.fmt.IsReal (-31104) ∧ P16.fmt.val (-31104) = -12288 ∧
    Posit.ofInt P16 (-12288) = .ok (-31104) := by decide +kernel

/-- **C20**, zero -/
theorem C20_zero (h : c.WF) : Posit.ofInt c 0 = .ok 0 := (C03_pack_special h false 0 0).1

example : P16.WF ∧ Posit.ofInt P16 0 = .ok 0 := by decide +kernel

/-- **C20** does not hold for `INT_MIN`: `pcabs` negates it, for every instantiation. -/
theorem C20_min_ub (c : Cfg) : Posit.ofInt c (-2 ^ 31) = .error .overflow := by
  have : Unp.unpackFixed c.F c.E 32 0 (-2 ^ 31) = .error .overflow := by
    unfold Unp.unpackFixed
    rw [if_pos (by norm_num)]
    have : Posit.pcabs 32 (-2 ^ 31) = .error .overflow := by decide +kernel
    rw [this]; rfl
  unfold Posit.ofInt
  rw [this]; rfl

/-- **C20**: with an 8-bit fraction type and a posit with more fraction bits, `Posit(515)` is 514 although 515 is a posit. -/
theorem C20_narrow_wrong : ∃ c : Cfg, c.WF ∧ c.SafeMag ((515 : ℤ) : ℚ) ∧ c.fmt.IsReal 478199808 ∧
    c.fmt.val 478199808 = 515 ∧ Posit.ofInt c 515 ≠ .ok 478199808 := by
  refine ⟨⟨32, 30, 2, 8, .withNan⟩, ?_⟩
  decide +kernel

/-- **C20**, fixed point numbers: `unpack_xfixed` of a nonzero `nx` stands for `nx/2^q` when the fraction type holds the
digits after the leading one. -/
theorem C20_unpackFixed_partial (hN : N = 8 ∨ N = 16 ∨ N = 32 ∨ N = 64) (hF : 1 ≤ F) (hE : 8 ≤ E) (hq : q ≤ 64) {i : ℤ}
    (hi : -2 ^ (N - 1) ≤ i ∧ i < 2 ^ (N - 1)) (hm : N < 32 ∨ -2 ^ (N - 1) < i) (hFi : |i| < 2 ^ (F + 1)) :
    ∃ u, Unp.unpackFixed F E N q i = .ok u ∧ u.denote F = .num (i / 2 ^ q) := by
  by_cases h0 : i = 0
  · subst h0
    exact ⟨_, by unfold Unp.unpackFixed; rw [if_neg (by simp)]; rfl, by simp [Unp.denote]⟩
  obtain ⟨hL1, hL2⟩ := intLog i h0
  have hL := natAbs_log_lt h0 (k := N) (by
    rw [abs_lt]
    have e2 := two_pow_pred (w := N) (by omega)
    have hp : (0 : ℤ) < 2 ^ (N - 1) := by positivity
    omega)
  have hx : InS E (-(q : ℤ) + i.natAbs.log2) := by
    have : (2 : ℤ) ^ 7 ≤ 2 ^ (E - 1) := pow_le_pow_right₀ (by norm_num) (by omega)
    norm_num at this
    constructor <;> omega
  refine ⟨_, unpackFixed_eq hN hF (by omega) h0 hi hm hx, ?_⟩
  have hLF : i.natAbs.log2 ≤ F := by have := natAbs_log_lt h0 hFi; omega
  have := fracOf_exact (F := F) hL1 hLF (-(q : ℤ))
  unfold Unp.denote tripleVal
  simp only []
  unfold mag at this
  rw [this, ← mul_assoc, sign_natAbs, zpow_neg, zpow_natCast]
  congr 1

example : Unp.unpackFixed 16 16 16 8 (-700) = .ok ⟨.regular, true, 1, 24064⟩ ∧
    (⟨.regular, true, 1, 24064⟩ : Unp).denote 16 = .num (-700 / 2 ^ 8) := by
  refine ⟨by decide +kernel, ?_⟩
  simp only [Unp.denote, tripleVal]; norm_num

/-! ## C21 -/

theorem mag_scale (F : ℕ) (e : ℤ) (f q : ℕ) : mag F e f * 2 ^ q = mag F (e + q) f := by
  unfold mag
  rw [zpow_add₀ (by norm_num), zpow_natCast]; ring

theorem satZ_id {i : ℤ} (h : InS N i) : satZ N i = i := by
  unfold InS at h; unfold satZ; omega

/-- **C21**, objects: the outcome of `pack_xfixed` for an `N`-bit type with `q` fraction digits is the number times `2^q`
truncated toward zero and saturated. Missing: `1 ≤ |x| < 2` for 32 and 64 bits (`C21_one_ub`) and `2^(N-1) ≤ |x| < 2^N`
(`C21_top_wrong`), where `x` is the scaled number. -/
theorem C21_packFixed_partial (hN : N = 8 ∨ N = 16 ∨ N = 32 ∨ N = 64) (hF : 1 ≤ F) {s : Bool} {e : ℤ} {f : ℕ} (hf : f < 2 ^ F)
    {x : ℚ} (hx : x = tripleVal F s e f * 2 ^ q)
    (hr : |x| < 1 ∨ ((2 ≤ |x| ∨ N < 32) ∧ |x| < 2 ^ (N - 1)) ∨ 2 ^ N ≤ |x|) :
    Unp.packFixed F N q ⟨.regular, s, e, f⟩ = .ok (satZ N (truncZ x)) := by
  have hx' : x = (if s then -1 else 1 : ℚ) * mag F (e + q) f := by
    rw [← mag_scale, hx]; unfold tripleVal mag; ring
  have habs : |x| = mag F (e + q) f := by rw [hx', abs_sign_mul _ (mag_pos _ _ _).le]
  have hlo := le_mag F (e + q) f
  have hhi := mag_lt (F := F) (e := e + q) hf
  rw [← habs] at hlo hhi
  have htr : truncZ x = if s then -⌊mag F (e + q) f⌋ else ⌊mag F (e + q) f⌋ := by
    rw [hx', truncZ_sign _ (mag_pos _ _ _).le]
  have two : (1 : ℚ) < 2 := by norm_num
  have hp : (0 : ℤ) < 2 ^ (N - 1) := by positivity
  have hp2 : (1 : ℤ) < 2 ^ (N - 1) := one_lt_pow₀ (by norm_num) (by omega)
  by_cases c1 : |x| < 1
  · have he : e + q < 0 := by
      have : (2 : ℚ) ^ (e + q) < 2 ^ (0 : ℤ) := by rw [zpow_zero]; exact lt_of_le_of_lt hlo c1
      exact (zpow_lt_zpow_iff_right₀ two).mp this
    have hfl : ⌊mag F (e + q) f⌋ = 0 := by
      rw [Int.floor_eq_zero_iff, ← habs]; exact ⟨abs_nonneg _, c1⟩
    rw [htr, hfl]
    have : satZ N (if s then -0 else 0) = 0 := by
      rw [show (if s then -0 else 0 : ℤ) = 0 by cases s <;> rfl]
      exact satZ_id (inS_zero _)
    rw [this]
    unfold Unp.packFixed
    simp only [bind, Except.bind, pure, Except.pure]
    rw [if_neg (by omega), if_pos (by omega)]
  by_cases c2 : 2 ^ N ≤ |x|
  · have he : (N : ℤ) ≤ e + q := by
      have : (2 : ℚ) ^ (N : ℤ) < 2 ^ (e + q + 1) := by rw [zpow_natCast]; exact lt_of_le_of_lt c2 hhi
      have := (zpow_lt_zpow_iff_right₀ two).mp this
      omega
    have hfl : (2 : ℤ) ^ N ≤ ⌊mag F (e + q) f⌋ := by
      rw [Int.le_floor, ← habs]; exact_mod_cast c2
    have e2 := two_pow_pred (w := N) (by omega)
    unfold Unp.packFixed
    simp only [bind, Except.bind, pure, Except.pure]
    rw [if_pos (by omega), htr]
    unfold satZ
    cases s
    · simp only [Bool.false_eq_true, if_false]; congr 1; omega
    · simp only [if_true]; congr 1; omega
  have c3 : (2 ≤ |x| ∨ N < 32) ∧ |x| < 2 ^ (N - 1) := by tauto
  have he0 : 0 ≤ e + q := by
    by_contra hc
    have : (2 : ℚ) ^ (e + q + 1) ≤ 2 ^ (0 : ℤ) := zpow_le_zpow_right₀ two.le (by omega)
    rw [zpow_zero] at this
    exact c1 (lt_of_lt_of_le hhi this)
  have he1 : e + q < N - 1 := by
    have : (2 : ℚ) ^ (e + q) < 2 ^ ((N - 1 : ℕ) : ℤ) := by rw [zpow_natCast]; exact lt_of_le_of_lt hlo c3.2
    have := (zpow_lt_zpow_iff_right₀ two).mp this
    omega
  obtain ⟨k, hk⟩ := Int.eq_ofNat_of_zero_le he0
  have hk0 : 1 ≤ k ∨ N < 32 := by
    rcases c3.1 with h2 | h2
    · left
      by_contra hc
      have h00 : e + q = 0 := by omega
      rw [h00] at hhi
      norm_num at hhi
      linarith
    · exact Or.inr h2
  rw [packFixed_mid hN hF hf hk hk0 (by omega), htr, ← mag_scale, floor_mag hf hk]
  congr 1
  symm
  apply satZ_id
  have hfl := floor_mag (F := F) hf hk
  rw [mag_scale] at hfl
  have hub : ⌊mag F (e + q) f⌋ < 2 ^ (N - 1) := by
    rw [Int.floor_lt, ← habs]; exact_mod_cast c3.2
  rw [hfl] at hub
  generalize (2 ^ k + f * 2 ^ k / 2 ^ F : ℕ) = P at *
  cases s
  · simp only [Bool.false_eq_true, if_false]; constructor <;> omega
  · simp only [if_true]; constructor <;> omega

example : Unp.packFixed 16 32 0 ⟨.regular, true, 9, 24064⟩ = .ok (-700) ∧ tripleVal 16 true 9 24064 * 2 ^ 0 = -700 ∧
    satZ 32 (truncZ (-700)) = -700 := by
  refine ⟨by decide +kernel, by unfold tripleVal; norm_num, by decide +kernel⟩

/-- **C21** does not hold for numbers in `[1,2)` (scaled), for 32- and 64-bit targets: the fraction is shifted by the full
width. -/
theorem C21_one_ub (hN : N = 32 ∨ N = 64) (hF : 1 ≤ F) {s : Bool} {e : ℤ} {f : ℕ} (hf : f < 2 ^ F) (he : e + q = 0) :
    Unp.packFixed F N q ⟨.regular, s, e, f⟩ = .error .shiftAmount := by
  have hpw : pw N = N := by unfold pw; omega
  unfold Unp.packFixed
  simp only [bind, Except.bind, pure, Except.pure]
  rw [if_neg (by omega), if_neg (by omega), extractPack_eq (by omega) le_rfl hF hf, he]
  simp only []
  have : shlS N 1 0 = .ok 1 := by
    rcases hN with rfl | rfl <;> decide +kernel
  rw [this]
  simp only []
  unfold shrU
  rw [if_pos (by rw [hpw]; omega)]

/-- `1.5`, and `1.5 / 256` with 8 fraction bits -/
example : Unp.packFixed 16 32 0 ⟨.regular, false, 0, 32768⟩ = .error .shiftAmount ∧
    Unp.packFixed 16 32 8 ⟨.regular, true, -8, 32768⟩ = .error .shiftAmount := by decide +kernel

/-- **C21** does not hold for `2^(N-1) ≤ |x| < 2^N`, 32- and 64-bit targets: a positive number gives a negative integer;
a negative number gives a positive one, or undefined behaviour when `x` truncates to `-2^(N-1)`. -/
theorem C21_top_wrong (hN : N = 32 ∨ N = 64) (hF : 1 ≤ F) {s : Bool} {e : ℤ} {f : ℕ} (hf : f < 2 ^ F)
    (he : e + q = N - 1) {x : ℚ} (hx : x = tripleVal F s e f * 2 ^ q) :
    (s = false → ∃ r < 0, Unp.packFixed F N q ⟨.regular, s, e, f⟩ = .ok r ∧ r = truncZ x - 2 ^ N) ∧
    (s = true → truncZ x = -2 ^ (N - 1) → Unp.packFixed F N q ⟨.regular, s, e, f⟩ = .error .overflow) ∧
    (s = true → truncZ x ≠ -2 ^ (N - 1) → ∃ r > 0, Unp.packFixed F N q ⟨.regular, s, e, f⟩ = .ok r ∧ r = truncZ x + 2 ^ N) := by
  have hpw : pw N = N := by unfold pw; omega
  have hx' : x = (if s then -1 else 1 : ℚ) * mag F (e + q) f := by
    rw [← mag_scale, hx]; unfold tripleVal mag; ring
  have hk : e + q = ((N - 1 : ℕ) : ℤ) := by omega
  have htr : truncZ x = if s then -((2 ^ (N - 1) + f * 2 ^ (N - 1) / 2 ^ F : ℕ) : ℤ)
      else ((2 ^ (N - 1) + f * 2 ^ (N - 1) / 2 ^ F : ℕ) : ℤ) := by
    rw [hx', truncZ_sign _ (mag_pos _ _ _).le, ← mag_scale, floor_mag hf hk]
  have hb := frac_shift_lt (F := F) (f := f) (k := N - 1) hf
  have hrun : Unp.packFixed F N q ⟨.regular, s, e, f⟩ =
      Posit.condNeg N s (((f * 2 ^ (N - 1) / 2 ^ F : ℕ) : ℤ) - 2 ^ (N - 1)) := by
    unfold Unp.packFixed
    simp only [bind, Except.bind, pure, Except.pure]
    rw [if_neg (by omega), if_neg (by omega), extractPack_eq (by omega) le_rfl hF hf, hk]
    simp only []
    have hsh : shlS N 1 ((N - 1 : ℕ) : ℤ) = .ok (-2 ^ (N - 1)) := by
      rcases hN with rfl | rfl <;> decide +kernel
    rw [hsh]
    simp only []
    rw [shrU_ok (k := 1) (by omega) (by omega)]
    have h1 := frac_shift (F := F) (N := N) (f := f) (k := N - 1) (by omega)
    rw [show N - (N - 1) = 1 by omega] at h1
    rw [h1]
    simp only []
    generalize f * 2 ^ (N - 1) / 2 ^ F = b at *
    rw [hpw]
    have hbS : wrapS N (b : ℤ) = b := wrapS_of_inS (by omega) ⟨by
      have : (0 : ℤ) < 2 ^ (N - 1) := by positivity
      omega, by exact_mod_cast hb⟩
    have e2 := two_pow_pred_nat (w := N) (by omega)
    have e2' := two_pow_pred (w := N) (by omega)
    rw [hbS, wrapU_natCast (by omega)]
    have hw : wrapU N (-2 ^ (N - 1)) = 2 ^ (N - 1) := by
      rw [wrapU_of_neg (by have : (0 : ℤ) < 2 ^ (N - 1) := by positivity
                           omega) (by have : (0 : ℤ) < 2 ^ (N - 1) := by positivity
                                      omega)]
      rw [show (-2 ^ (N - 1) + 2 ^ N : ℤ) = ((2 ^ (N - 1) : ℕ) : ℤ) by push_cast; omega]
      exact Int.toNat_natCast _
    rw [hw]
    have hor : (2 ^ (N - 1) ||| b : ℕ) = 2 ^ (N - 1) + b := by
      have := Nat.two_pow_add_eq_or_of_lt hb 1
      rw [mul_one] at this
      exact this.symm
    rw [hor]
    congr 1
    have hbz : (b : ℤ) < 2 ^ (N - 1) := by exact_mod_cast hb
    apply wrapS_eq (by omega) 1
    · push_cast; omega
    · constructor <;> omega
  have hbz : ((f * 2 ^ (N - 1) / 2 ^ F : ℕ) : ℤ) < 2 ^ (N - 1) := by exact_mod_cast hb
  have e2' := two_pow_pred (w := N) (by omega)
  have hpc : ((2 ^ (N - 1) + f * 2 ^ (N - 1) / 2 ^ F : ℕ) : ℤ) = 2 ^ (N - 1) + ((f * 2 ^ (N - 1) / 2 ^ F : ℕ) : ℤ) := by
    rw [Nat.cast_add]; norm_cast
  rw [hpc] at htr
  have hp : (0 : ℤ) < 2 ^ (N - 1) := by positivity
  generalize (f * 2 ^ (N - 1) / 2 ^ F : ℕ) = b at *
  refine ⟨?_, ?_, ?_⟩
  · rintro rfl
    refine ⟨(b : ℤ) - 2 ^ (N - 1), by omega, hrun, ?_⟩
    rw [htr]; simp only [Bool.false_eq_true, if_false]; omega
  · rintro rfl ht
    rw [htr] at ht
    simp only [if_true] at ht
    have hb0 : (b : ℤ) = 0 := by omega
    rw [hrun, hb0]
    unfold Posit.condNeg
    have : arithS N (-(0 - 2 ^ (N - 1))) = .error .overflow := by
      unfold arithS
      rw [hpw, if_neg (by omega)]
    simp only [if_true]
    rw [this]; rfl
  · rintro rfl ht
    rw [htr] at ht
    simp only [if_true] at ht
    rw [htr, hrun]
    simp only [if_true]
    have hin : InS N (-((b : ℤ) - 2 ^ (N - 1))) := by constructor <;> omega
    refine ⟨-((b : ℤ) - 2 ^ (N - 1)), by omega, ?_, by omega⟩
    unfold Posit.condNeg
    simp only [if_true]
    rw [arithS_ok' hin]
    simp only [bind, Except.bind, pure, Except.pure]
    rw [wrapS_of_inS (by omega) hin]

example : Unp.packFixed 32 32 0 ⟨.regular, true, 31, 0⟩ = .error .overflow ∧
    Unp.packFixed 32 32 0 ⟨.regular, false, 31, 0⟩ = .ok (-2 ^ 31) ∧
    Unp.packFixed 32 32 0 ⟨.regular, true, 31, 2⟩ = .ok (2 ^ 31 - 1) := by decide +kernel

/-- **C21**, posits: `(int)p` truncates and saturates. Missing: `1 ≤ |p| < 2` (`C21_toInt_one_ub`) and
`2^31 ≤ |p| < 2^32` (`C21_toInt_top_wrong`). -/
theorem C21_toInt_partial (h : c.WF) (hF : c.fb ≤ c.F) {v : ℤ} (hv : c.fmt.IsReal v)
    (hr : |c.fmt.val v| < 1 ∨ (2 ≤ |c.fmt.val v| ∧ |c.fmt.val v| < 2 ^ 31) ∨ 2 ^ 32 ≤ |c.fmt.val v|) :
    Posit.toInt c v = .ok (satZ 32 (truncZ (c.fmt.val v))) := by
  by_cases h0 : v = 0
  · subst h0
    unfold Posit.toInt
    rw [unpack_zero h, Format.val_zero]
    have : satZ 32 (truncZ 0) = 0 := by decide +kernel
    rw [this]; rfl
  obtain ⟨e, f, hu, hf, ht⟩ := C01_unpack_value h hF hv h0
  unfold Posit.toInt
  rw [hu]
  refine C21_packFixed_partial (by omega) (by have := h.hF; omega) hf (by rw [pow_zero, mul_one]; exact ht.symm) ?_
  rcases hr with a | ⟨a, b⟩ | a
  · exact Or.inl a
  · exact Or.inr (Or.inl ⟨Or.inl a, by norm_num at b ⊢; exact b⟩)
  · exact Or.inr (Or.inr a)

example : P16.WF ∧ P16.fb ≤ P16.F ∧ P16.fmt.IsReal (-31234) ∧ P16.fmt.val (-31234) = -16512 ∧
    Posit.toInt P16 (-31234) = .ok (-16512) := by decide +kernel

/-- **C21**, NaN and infinity give 0. -/
theorem C21_special (h : c.WF) {v : ℤ} (hv : c.fmt.IsCanonical v) (hr : ¬ c.fmt.IsReal v) : Posit.toInt c v = .ok 0 := by
  rcases unpack_cases h hv with rfl | ⟨_, hc, _⟩ | ⟨_, _, hu⟩ | ⟨_, hu⟩
  · exact absurd (by unfold Format.IsReal; omega) hr
  · exact absurd hc hr
  all_goals unfold Posit.toInt; rw [hu]; rfl

example : P8i.WF ∧ P8i.fmt.IsCanonical 127 ∧ ¬ P8i.fmt.IsReal 127 ∧ Posit.toInt P8i 127 = .ok 0 ∧ Posit.toInt P8i (-128) = .ok 0 := by
  decide +kernel

/-- **C21** does not hold for any posit with `1 ≤ |p| < 2`: undefined behaviour in every format. -/
theorem C21_toInt_one_ub (h : c.WF) {v : ℤ} (hv : c.fmt.IsReal v) (h1 : 1 ≤ |c.fmt.val v|) (h2 : |c.fmt.val v| < 2) :
    Posit.toInt c v = .error .shiftAmount := by
  have h0 : v ≠ 0 := by
    rintro rfl
    rw [Format.val_zero] at h1; norm_num at h1
  obtain ⟨e, f, hu⟩ := unpack_real h hv h0
  have he : e = 0 := by
    rw [← hu.log]
    have hpos : 0 < |c.fmt.val v| := by linarith
    apply le_antisymm
    · have := (Int.lt_zpow_iff_log_lt (b := 2) (by norm_num) hpos (x := 1)).mp (by simpa using h2)
      omega
    · exact (Int.zpow_le_iff_le_log (b := 2) (by norm_num) hpos (x := 0)).mp (by simpa using h1)
  unfold Posit.toInt
  rw [hu.eq]
  exact C21_one_ub (by omega) (by have := h.hF; omega) hu.f_lt (by omega)

example : P16.WF ∧ P16.fmt.IsReal 18000 ∧ P16.fmt.val 18000 = 229 / 128 ∧
    Posit.toInt P16 18000 = .error .shiftAmount := by decide +kernel

/-- **C21** does not hold for posits with `2^31 ≤ |p| < 2^32`: a positive one gives a negative int. -/
theorem C21_toInt_top_wrong (h : c.WF) (hF : c.fb ≤ c.F) {v : ℤ} (hv : c.fmt.IsReal v) (h1 : 2 ^ 31 ≤ |c.fmt.val v|)
    (h2 : |c.fmt.val v| < 2 ^ 32) :
    (0 < v → ∃ r < 0, Posit.toInt c v = .ok r) ∧
    (v < 0 → Posit.toInt c v = .error .overflow ∨ ∃ r > 0, Posit.toInt c v = .ok r) := by
  have h0 : v ≠ 0 := by
    rintro rfl
    rw [Format.val_zero] at h1; norm_num at h1
  obtain ⟨e, f, hu⟩ := unpack_real h hv h0
  have he : e = 31 := by
    rw [← hu.log]
    have hpos : 0 < |c.fmt.val v| := by linarith
    apply le_antisymm
    · have := (Int.lt_zpow_iff_log_lt (b := 2) (by norm_num) hpos (x := 32)).mp (by exact_mod_cast h2)
      omega
    · exact (Int.zpow_le_iff_le_log (b := 2) (by norm_num) hpos (x := 31)).mp (by exact_mod_cast h1)
  obtain ⟨a, b, d⟩ := C21_top_wrong (N := 32) (q := 0) (s := v < 0) (F := c.F) (e := e) (f := f) (by omega)
    (by have := h.hF; omega) hu.f_lt (by omega) rfl
  unfold Posit.toInt
  rw [hu.eq]
  constructor
  · intro hp
    obtain ⟨r, r0, hr, _⟩ := a (by simp; omega)
    exact ⟨r, r0, hr⟩
  · intro hn
    by_cases ht : truncZ (tripleVal c.F (decide (v < 0)) e f * 2 ^ 0) = -2 ^ (32 - 1)
    · exact Or.inl (b (by simpa using hn) ht)
    · obtain ⟨r, r0, hr, _⟩ := d (by simpa using hn) ht
      exact Or.inr ⟨r, r0, hr⟩

example : P16.WF ∧ P16.fb ≤ P16.F ∧ P16.fmt.IsReal 32688 ∧ P16.fmt.val 32688 = 2 ^ 31 ∧ Posit.toInt P16 32688 = .ok (-2 ^ 31) ∧
    P16.fmt.IsReal (-32688) ∧ Posit.toInt P16 (-32688) = .error .overflow := by decide +kernel

/-! ## C41 -/

/-- **C41**, ints: `Posit(int)` is monotone. Missing: as in `C20_ofInt_partial`. -/
theorem C41_int_partial (h : c.WF) (hN : c.N + 1 < pw c.H) (hF : c.fb ≤ c.F) {i j : ℤ} (hi1 : -2 ^ 31 < i) (hj2 : j < 2 ^ 31)
    (hij : i ≤ j) : ∃ v w, Posit.ofInt c i = .ok v ∧ Posit.ofInt c j = .ok w ∧ v ≤ w := by
  have key : ∀ i : ℤ, -2 ^ 31 < i → i < 2 ^ 31 → ∃ v, Posit.ofInt c i = .ok v ∧ (((i : ℚ) = 0 ∧ v = 0) ∨ c.fmt.IsTrunc i v) := by
    intro i h1 h2
    by_cases h0 : i = 0
    · subst h0; exact ⟨0, C20_zero h, Or.inl ⟨by norm_num, rfl⟩⟩
    · obtain ⟨v, hv, ht⟩ := C20_ofInt_partial h h0 h1 h2 (Or.inl hF) (safeMag_of_narrow h hN _)
      exact ⟨v, hv, Or.inr ht⟩
  obtain ⟨v, hv, ht⟩ := key i hi1 (by omega)
  obtain ⟨w, hw, ht'⟩ := key j (by omega) hj2
  exact ⟨v, w, hv, hw, trunc0_mono ht ht' (by exact_mod_cast hij)⟩

example : P16.WF ∧ P16.N + 1 < pw P16.H ∧ P16.fb ≤ P16.F ∧ Posit.ofInt P16 (-12345) = .ok (-31105) ∧ Posit.ofInt P16 99 = .ok 27184 := by
  decide +kernel

end Verif
