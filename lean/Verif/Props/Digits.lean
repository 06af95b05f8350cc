import Verif.Model.LimitsMore
import Verif.Model.Instances
import Verif.Lemmas.Ulp
import Verif.Lemmas.Consts
import Verif.Props.Algebra

/-!
# C79: `numeric_limits::digits10`

The number of decimal digits that survive the conversion to a posit: different decimals of so many digits become different
posits.  Conversions round toward zero (`IsTrunc`, C22).
-/

namespace Verif
open Fmt

variable {c : Cfg}

/-- numbers a unit in the last place apart are rounded to different posits -/
theorem trunc_separate {f : Format} {x y : ℚ} {v w : ℤ} {J : ℕ} (hx : 0 < x) (hxy : x < y)
    (hJ : fracBits f.N f.es (Int.log 2 y) = J) (h1 : f.val 1 ≤ x) (hd : (2 : ℚ) ^ (Int.log 2 y - J) ≤ y - x)
    (hv : f.IsTrunc x v) (hw : f.IsTrunc y w) : f.val v < f.val w := by
  have hy : 0 < y := hx.trans hxy
  obtain ⟨p, p1, p2, p3, p4, p5⟩ := exists_floor (N := f.N) (es := f.es) hy hJ
  have hpr : f.IsReal (p : ℤ) := by unfold Format.IsReal Format.maxBody; split_ifs <;> omega
  have hpv : f.val (p : ℤ) = posVal f.N f.es p := Format.val_natCast p1
  have hxp : x < f.val (p : ℤ) := by rw [hpv]; linarith
  have hw1 : f.val (p : ℤ) ≤ f.val w := by
    have h1 := hw.greatest p hpr (by omega) (by rw [hpv, abs_of_pos (by rw [hpv] at hxp; linarith), abs_of_pos hy]; exact p3)
    rw [abs_of_pos (by linarith)] at h1
    rcases hw.sign with ⟨s1, -⟩ | ⟨-, s2⟩
    · rwa [abs_of_pos ((Format.val_pos_iff hw.real.inRange).mpr s1)] at h1
    · linarith
  rcases hv.sign with ⟨s1, -⟩ | ⟨-, s2⟩
  · rcases hv.below with hb | hb
    · rw [abs_of_pos ((Format.val_pos_iff hv.real.inRange).mpr s1), abs_of_pos hx] at hb
      linarith
    · have h2 := hb 1 (by unfold Format.IsReal Format.maxBody at hpr ⊢; omega) (by omega)
      have h1p : 0 < f.val 1 := (Format.val_pos_iff (Format.IsReal.inRange (by unfold Format.IsReal Format.maxBody at hpr ⊢; omega))).mpr one_pos
      rw [abs_of_pos ((Format.val_pos_iff hv.real.inRange).mpr s1), abs_of_pos h1p] at h2
      linarith
  · linarith

theorem pow10_le {n d : ℕ} (h : 10 * d ≤ 3 * n) : 10 ^ d ≤ 2 ^ n := by
  refine (Nat.pow_le_pow_iff_left (n := 10) (by norm_num)).mp ?_
  calc (10 ^ d) ^ 10 = 10 ^ (10 * d) := by rw [← pow_mul]; ring_nf
    _ ≤ 10 ^ (3 * n) := Nat.pow_le_pow_right (by norm_num) h
    _ = 1000 ^ n := by rw [pow_mul]; norm_num
    _ ≤ 1024 ^ n := Nat.pow_le_pow_left (by norm_num) n
    _ = (2 ^ n) ^ 10 := by rw [← pow_mul, mul_comm, pow_mul]; norm_num

theorem digits10_bounds (h : c.WF) {d : ℕ} (hd : Posit.digits10 c = d) : 10 * d ≤ 3 * (c.N - 3) := by
  have hN := h.N_ge
  unfold Posit.digits10 at hd
  rw [Int.tdiv_eq_ediv_of_nonneg (by omega)] at hd
  omega

/-- the numbers from `2^-(2^es)` to `2^(2^es)` have the full fraction -/
theorem fracBits_mid (h : c.WF) {y : ℚ} (h1 : (2 : ℚ) ^ (-(2 : ℤ) ^ c.es) ≤ y) (h2 : y < (2 : ℚ) ^ ((2 : ℤ) ^ c.es)) :
    fracBits c.fmt.N c.fmt.es (Int.log 2 y) = c.fb := by
  have hy : 0 < y := lt_of_lt_of_le (by positivity) h1
  have a1 : -(2 : ℤ) ^ c.es ≤ Int.log 2 y := (Int.zpow_le_iff_le_log (by norm_num) hy).mp (by exact_mod_cast h1)
  have a2 : Int.log 2 y < (2 : ℤ) ^ c.es := (Int.lt_zpow_iff_log_lt (by norm_num) hy).mp (by exact_mod_cast h2)
  have hp : (0 : ℤ) < 2 ^ c.es := by positivity
  have hr : runExtra (Int.log 2 y / 2 ^ c.es) = 0 := by
    unfold runExtra
    have b1 : -1 ≤ Int.log 2 y / 2 ^ c.es := by rw [Int.le_ediv_iff_mul_le hp]; linarith
    have b2 : Int.log 2 y / 2 ^ c.es < 1 := by rw [Int.ediv_lt_iff_lt_mul hp]; linarith
    omega
  have := h.hes
  unfold fracBits
  simp only [Cfg.fmt]
  rw [hr]
  unfold Cfg.fb
  omega

theorem val_one_pat_le (h : c.WF) {y : ℚ} (h1 : (2 : ℚ) ^ (-(2 : ℤ) ^ c.es) ≤ y) : c.fmt.val 1 ≤ y := by
  have := h.hes
  have e : c.fmt.val 1 = 2 ^ (-(c.maxScale : ℤ)) := by
    rw [show (1 : ℤ) = ((1 : ℕ) : ℤ) by norm_num, Format.val_natCast le_rfl]
    exact posVal_one h
  rw [e]
  refine le_trans (zpow_le_zpow_right₀ (by norm_num) ?_) h1
  unfold Cfg.maxScale
  have : (2 : ℤ) ^ c.es * 1 ≤ 2 ^ c.es * ((c.N - 2 : ℕ) : ℤ) := mul_le_mul_of_nonneg_left (by omega) (by positivity)
  push_cast
  linarith

/-- decimals with `D` digits, where `10^D` is at most `2^fb` -/
theorem decimals_separate (h : c.WF) {D m n : ℕ} {k : ℤ} (hD : 10 ^ D ≤ 2 ^ c.fb) (hmn : m < n) (hn : n ≤ 10 ^ D)
    (h1 : (2 : ℚ) ^ (-(2 : ℤ) ^ c.es) ≤ m * (10 : ℚ) ^ k) (h2 : n * (10 : ℚ) ^ k < (2 : ℚ) ^ ((2 : ℤ) ^ c.es)) {v w : ℤ}
    (hv : c.fmt.IsTrunc (m * (10 : ℚ) ^ k) v) (hw : c.fmt.IsTrunc (n * (10 : ℚ) ^ k) w) : c.fmt.val v < c.fmt.val w := by
  have hk : (0 : ℚ) < 10 ^ k := by positivity
  have hx : 0 < m * (10 : ℚ) ^ k := lt_of_lt_of_le (by positivity) h1
  have hmn' : (m : ℚ) + 1 ≤ n := by exact_mod_cast hmn
  have hxy : m * (10 : ℚ) ^ k < n * (10 : ℚ) ^ k := by nlinarith
  refine trunc_separate hx hxy (fracBits_mid h (h1.trans hxy.le) h2) (val_one_pat_le h h1) ?_ hv hw
  have hy := hx.trans hxy
  have lo : (2 : ℚ) ^ Int.log 2 (n * (10 : ℚ) ^ k) ≤ n * 10 ^ k := by
    have := Int.zpow_log_le_self (b := 2) (by norm_num) hy; exact_mod_cast this
  have hn' : (n : ℚ) ≤ 2 ^ c.fb := by exact_mod_cast hn.trans hD
  rw [zpow_sub₀ (by norm_num), zpow_natCast, div_le_iff₀ (by positivity)]
  calc (2 : ℚ) ^ Int.log 2 (n * (10 : ℚ) ^ k) ≤ n * 10 ^ k := lo
    _ ≤ 2 ^ c.fb * 10 ^ k := mul_le_mul_of_nonneg_right hn' hk.le
    _ ≤ (n * 10 ^ k - m * 10 ^ k) * 2 ^ c.fb := by
      have hf : (0 : ℚ) < 2 ^ c.fb := by positivity
      nlinarith [mul_pos hf hk]

/-- **C79** without exponent bits: different decimals of `digits10` digits (integers up to `10^digits10` times the same power of
ten) between 1/2 and 2 become different posits, in the right order. Missing: exponent bits, see below, and the rest of the
range, where the posits are sparser. -/
theorem C79_digits10_partial (h : c.WF) (he : c.es = 0) {d m n : ℕ} {k : ℤ} (hd : Posit.digits10 c = d) (hmn : m < n)
    (hn : n ≤ 10 ^ d) (h1 : (1 / 2 : ℚ) ≤ m * (10 : ℚ) ^ k) (h2 : n * (10 : ℚ) ^ k < 2) {v w : ℤ}
    (hv : c.fmt.IsTrunc (m * (10 : ℚ) ^ k) v) (hw : c.fmt.IsTrunc (n * (10 : ℚ) ^ k) w) : c.fmt.val v < c.fmt.val w := by
  have hb := digits10_bounds h hd
  refine decimals_separate h (D := d) (pow10_le ?_) hmn hn ?_ ?_ hv hw
  · unfold Cfg.fb; omega
  · rw [he]; norm_num; linarith
  · rw [he]; norm_num; exact h2

example : P8.WF ∧ P8.es = 0 ∧ Posit.digits10 P8 = 1 ∧ (7 : ℕ) < 8 ∧ 8 ≤ 10 ^ 1 ∧ (1 / 2 : ℚ) ≤ (7 : ℕ) * (10 : ℚ) ^ (-1 : ℤ) ∧
    (8 : ℕ) * (10 : ℚ) ^ (-1 : ℤ) < 2 ∧ P8.fmt.val 44 ≤ 7 / 10 ∧ 7 / 10 < P8.fmt.val 45 ∧ P8.fmt.val 51 ≤ 8 / 10 := by decide +kernel

/-- **C79** with up to three exponent bits: different decimals of `digits10` digits between 1 and 2 become different posits, in
the right order. -/
theorem C79_digits10_unit_partial (h : c.WF) (he : c.es ≤ 3) {d m n : ℕ} (hd : Posit.digits10 c = (d + 1 : ℕ)) (hmn : m < n)
    (h1 : (1 : ℚ) ≤ m / 10 ^ d) (h2 : (n / 10 ^ d : ℚ) < 2) {v w : ℤ}
    (hv : c.fmt.IsTrunc (m / 10 ^ d) v) (hw : c.fmt.IsTrunc (n / 10 ^ d) w) : c.fmt.val v < c.fmt.val w := by
  have hb := digits10_bounds h hd
  have hp := pow10_le hb
  have hes := h.hes
  have hsplit : 2 ^ (c.N - 3) = 2 ^ c.fb * 2 ^ c.es := by rw [← pow_add]; congr 1; unfold Cfg.fb; omega
  have h8 : 2 ^ c.es ≤ 2 ^ 3 := Nat.pow_le_pow_right (by norm_num) he
  have hD : 10 ^ d ≤ 2 ^ c.fb := by
    rw [pow_succ, hsplit] at hp
    have : 2 ^ c.fb * 2 ^ c.es ≤ 2 ^ c.fb * 8 := Nat.mul_le_mul_left _ h8
    omega
  have ht : (0 : ℚ) < 10 ^ d := by positivity
  have hmn' : (m : ℚ) + 1 ≤ n := by exact_mod_cast hmn
  have hxy : (m / 10 ^ d : ℚ) < n / 10 ^ d := div_lt_div_of_pos_right (by linarith) ht
  have hy1 : (1 : ℚ) ≤ n / 10 ^ d := h1.trans hxy.le
  have hpe : (1 : ℤ) ≤ 2 ^ c.es := one_le_pow₀ (by norm_num)
  have hlo : ∀ {z : ℚ}, 1 ≤ z → (2 : ℚ) ^ (-(2 : ℤ) ^ c.es) ≤ z := fun hz =>
    le_trans (zpow_le_one_of_nonpos₀ (by norm_num) (by omega)) hz
  have hhi : (n / 10 ^ d : ℚ) < 2 ^ ((2 : ℤ) ^ c.es) :=
    lt_of_lt_of_le h2 (by
      have : (2 : ℚ) ^ (1 : ℤ) ≤ 2 ^ ((2 : ℤ) ^ c.es) := zpow_le_zpow_right₀ (by norm_num) hpe
      simpa using this)
  refine trunc_separate (by linarith) hxy (fracBits_mid h (hlo hy1) hhi) (val_one_pat_le h (hlo h1)) ?_ hv hw
  have hlog : Int.log 2 (n / 10 ^ d : ℚ) < 1 := (Int.lt_zpow_iff_log_lt (by norm_num) (by linarith)).mp (by simpa using h2)
  have hq : (10 : ℚ) ^ d ≤ 2 ^ c.fb := by exact_mod_cast hD
  calc (2 : ℚ) ^ (Int.log 2 (n / 10 ^ d : ℚ) - c.fb) ≤ 2 ^ (-(c.fb : ℤ)) := zpow_le_zpow_right₀ (by norm_num) (by omega)
    _ = 1 / 2 ^ c.fb := by rw [zpow_neg, zpow_natCast, one_div]
    _ ≤ 1 / 10 ^ d := one_div_le_one_div_of_le ht hq
    _ ≤ n / 10 ^ d - m / 10 ^ d := by rw [← sub_div]; exact div_le_div_of_nonneg_right (by linarith) ht.le

example : P32.WF ∧ P32.es ≤ 3 ∧ Posit.digits10 P32 = (7 + 1 : ℕ) ∧ (1 : ℚ) ≤ (12345678 : ℕ) / 10 ^ 7 ∧
    ((12345679 : ℕ) / 10 ^ 7 : ℚ) < 2 := by decide +kernel

/-- **C79** with up to three exponent bits: one digit less survives wherever the fraction is complete. -/
theorem C79_digits10_range_partial (h : c.WF) (he : c.es ≤ 3) {d m n : ℕ} {k : ℤ} (hd : Posit.digits10 c = (d + 1 : ℕ)) (hmn : m < n)
    (hn : n ≤ 10 ^ d) (h1 : (2 : ℚ) ^ (-(2 : ℤ) ^ c.es) ≤ m * (10 : ℚ) ^ k) (h2 : n * (10 : ℚ) ^ k < (2 : ℚ) ^ ((2 : ℤ) ^ c.es))
    {v w : ℤ} (hv : c.fmt.IsTrunc (m * (10 : ℚ) ^ k) v) (hw : c.fmt.IsTrunc (n * (10 : ℚ) ^ k) w) :
    c.fmt.val v < c.fmt.val w := by
  have hp := pow10_le (digits10_bounds h hd)
  have hes := h.hes
  have hsplit : 2 ^ (c.N - 3) = 2 ^ c.fb * 2 ^ c.es := by rw [← pow_add]; congr 1; unfold Cfg.fb; omega
  have h8 : 2 ^ c.es ≤ 2 ^ 3 := Nat.pow_le_pow_right (by norm_num) he
  refine decimals_separate h (D := d) ?_ hmn hn h1 h2 hv hw
  rw [pow_succ, hsplit] at hp
  have : 2 ^ c.fb * 2 ^ c.es ≤ 2 ^ c.fb * 8 := Nat.mul_le_mul_left _ h8
  omega

example : P16.WF ∧ P16.es ≤ 3 ∧ Posit.digits10 P16 = (2 + 1 : ℕ) ∧ (99 : ℕ) ≤ 10 ^ 2 ∧
    (2 : ℚ) ^ (-(2 : ℤ) ^ P16.es) ≤ (98 : ℕ) * (10 : ℚ) ^ (-1 : ℤ) ∧
    (99 : ℕ) * (10 : ℚ) ^ (-1 : ℤ) < (2 : ℚ) ^ ((2 : ℤ) ^ P16.es) := by decide +kernel

theorem isTrunc_between {f : Format} {y : ℚ} {v : ℤ} (hv : f.IsReal v) (h0 : 0 < v) (hn : f.IsReal (v + 1)) (h1 : f.val v ≤ y)
    (h2 : y < f.val (v + 1)) : f.IsTrunc y v := by
  have hp := (Format.val_pos_iff hv.inRange).mpr h0
  have hy : 0 < y := hp.trans_le h1
  refine ⟨hv, Or.inl ⟨h0, hy⟩, fun w hw _ hle => ?_, Or.inl ?_⟩
  · rw [abs_of_pos hp]
    rw [abs_of_pos hy] at hle
    have hlt := (le_abs_self _).trans hle
    have hlt' := (neg_le_abs _).trans hle
    rw [← Format.val_neg] at hlt'
    have k1 : ∀ {u}, f.IsReal u → f.val u ≤ y → f.val u ≤ f.val v := by
      intro u hu hle
      have := lt_of_le_of_lt hle h2
      rw [Format.val_lt_iff hu.inRange hn.inRange] at this
      rw [Format.val_le_iff hu.inRange hv.inRange]; omega
    rw [abs_le]
    have b := k1 hw.neg hlt'
    rw [Format.val_neg] at b
    exact ⟨by linarith, k1 hw hlt⟩
  · rw [abs_of_pos hp, abs_of_pos hy]; exact h1

/-- **C79** fails with four exponent bits, and with any outside the middle of the range: `Posit<int16_t,13,4>` claims three
digits, but 1.00 and 1.01 become the same posit; `Posit<int8_t,8,0>` claims one, but 50 and 60 become the same posit. -/
theorem C79_not_always :
    ((Cfg.mk 16 13 4 16 .withNan).WF ∧ Posit.digits10 ⟨16, 13, 4, 16, .withNan⟩ = 3 ∧
      ∃ v, (Cfg.mk 16 13 4 16 .withNan).fmt.IsTrunc (100 / 100) v ∧ (Cfg.mk 16 13 4 16 .withNan).fmt.IsTrunc (101 / 100) v) ∧
    (P8.WF ∧ Posit.digits10 P8 = 1 ∧ ∃ v, P8.fmt.IsTrunc 50 v ∧ P8.fmt.IsTrunc 60 v) :=
  ⟨⟨by decide, by decide, 2048, isTrunc_between (by decide) (by decide) (by decide) (by decide +kernel) (by decide +kernel),
    isTrunc_between (by decide) (by decide) (by decide) (by decide +kernel) (by decide +kernel)⟩,
   by decide, by decide, 126, isTrunc_between (by decide) (by decide) (by decide) (by decide +kernel) (by decide +kernel),
    isTrunc_between (by decide) (by decide) (by decide) (by decide +kernel) (by decide +kernel)⟩

end Verif
