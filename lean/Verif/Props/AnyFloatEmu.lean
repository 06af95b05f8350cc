import Verif.Props.AnyFloat
import Verif.Props.Fixed

/-!
# C57: `anyfloat_emu`

include/anyfloat.hpp. The format has `eb` exponent and `fb` fraction bits, the native type that computes `neb` and `nfb`.
-/

namespace Verif
open Fmt

variable {eb fb neb nfb : ℕ} {o : FloatOps}

/-- emulated formats that the theorems cover: no wider than the native type, and narrow enough or wide enough to unpack the
native subnormals -/
structure EmuFor (eb fb neb nfb : ℕ) : Prop where
  heb : 2 ≤ eb
  he : eb ≤ neb
  hneb : neb ≤ 16
  hfb : 1 ≤ fb
  hf : fb ≤ nfb
  hnfb : nfb ≤ 64
  hF : nfb < eb + fb + 1 ∨ eb + fb + 1 < 32

/-- the aliases `binary8_emu`, `binary16alt_emu`, `binary16_emu`, `binary32_emu`, `binary64_emu` -/
example : EmuFor 5 2 8 23 ∧ EmuFor 8 7 8 23 ∧ EmuFor 5 10 8 23 ∧ EmuFor 8 23 8 23 ∧ EmuFor 11 52 11 52 := by
  refine ⟨?_, ?_, ?_, ?_, ?_⟩ <;> constructor <;> omega

/-! ## conversions -/

/-- **C57**: the conversion to the native type is exact, except for numbers that are subnormal there. -/
theorem C57_toNative (h : EmuFor eb fb neb nfb) {v : ℕ} (hv : NotSub neb (ieee eb fb v)) :
    ∃ r, AnyFloat.toNative (.any eb fb) (.any neb nfb) v = .ok r ∧ r < 2 ^ (neb + nfb + 1) ∧ ieee neb nfb r = ieee eb fb v := by
  obtain ⟨h1, h2, h3, h4, h5, h6, h7⟩ := h
  cases hx : ieee eb fb v with
  | num x =>
    rw [hx] at hv
    obtain ⟨r, hr, hlt, hc, -⟩ := conv_num (F := eb + fb + 1) (eb2 := neb) (fb2 := nfb) h1 (by omega) h4 (by omega) (by omega) h3 (by omega)
      (by omega) (Or.inr (by omega)) hx (Or.inr (Or.inr (Or.inl (by omega))))
    obtain ⟨g, hg⟩ := ieee_widen h1 h2 h5 hx hv
    exact ⟨r, hr, hlt, hc.exact hg hv⟩
  | inf s => exact conv_inf (F := eb + fb + 1) h1 (by omega) h4 (by omega) (by omega) (by omega) hx
  | nan => exact conv_nan (F := eb + fb + 1) h1 (by omega) h4 (by omega) (by omega) (by omega) hx (Or.inl (by omega))

/-- the least subnormal number of `binary8_emu` is an ordinary `float` -/
example : EmuFor 5 2 8 23 ∧ ieee 5 2 1 = .num (2 ^ (-16 : ℤ)) ∧ NotSub 8 (.num (2 ^ (-16 : ℤ))) ∧
    AnyFloat.toNative (.any 5 2) (.any 8 23) 1 = .ok 0x37800000 :=
  ⟨by constructor <;> omega, by norm_num [ieee], Or.inr (by norm_num [minNorm, abs_of_pos]), by decide +kernel⟩

/-- … and those become +0. -/
theorem C57_toNative_zero (h : EmuFor eb fb neb nfb) {v : ℕ} {x : ℚ} (hx : ieee eb fb v = .num x) (hs : |x| < minNorm neb) :
    AnyFloat.toNative (.any eb fb) (.any neb nfb) v = .ok 0 := by
  obtain ⟨h1, h2, h3, h4, h5, h6, h7⟩ := h
  obtain ⟨r, hr, hlt, -, hc⟩ := conv_num (F := eb + fb + 1) (eb2 := neb) (fb2 := nfb) h1 (by omega) h4 (by omega) (by omega) h3 (by omega)
    (by omega) (Or.inr (by omega)) hx (Or.inr (Or.inr (Or.inl (by omega))))
  rw [← hc hs]; exact hr

/-- `2^-127` of `binary32_emu` -/
example : EmuFor 8 23 8 23 ∧ ieee 8 23 0x400000 = .num (2 ^ (-127 : ℤ)) ∧ |(2 ^ (-127 : ℤ) : ℚ)| < minNorm 8 ∧
    AnyFloat.toNative (.any 8 23) (.any 8 23) 0x400000 = .ok 0 :=
  ⟨by constructor <;> omega, by norm_num [ieee], by norm_num [minNorm, abs_of_pos], by decide +kernel⟩

/-- with enough native exponent bits no number of the format is subnormal there -/
theorem C57_notSub (h : EmuFor eb fb neb nfb) (hs : 2 ^ (eb - 1) + fb ≤ 2 ^ (neb - 1)) (v : ℕ) : NotSub neb (ieee eb fb v) := by
  cases hx : ieee eb fb v with
  | num x =>
    by_cases h0 : x = 0
    · exact Or.inl h0
    · right
      have hsz : (2 : ℤ) ^ (eb - 1) + fb ≤ 2 ^ (neb - 1) := by exact_mod_cast hs
      obtain ⟨-, ⟨-, hx⟩ | ⟨h1, hx⟩⟩ := ieee_num hx
      · have ha := (sub_abs hx).1
        have hm : 1 ≤ fMan fb v := by
          by_contra hc
          rw [show fMan fb v = 0 by omega] at ha
          simp at ha; exact h0 ha
        rw [ha]; unfold minNorm
        calc (2 : ℚ) ^ ((2 : ℤ) - 2 ^ (neb - 1)) ≤ 2 ^ ((2 : ℤ) - 2 ^ (eb - 1) - fb) := zpow_le_zpow_right₀ (by norm_num) (by omega)
          _ ≤ _ := le_mul_of_one_le_left (by positivity) (by exact_mod_cast hm)
      · rw [hx, abs_sign_mul _ (by positivity)]; unfold minNorm
        have h1' : (1 : ℤ) ≤ fExp eb fb v := by omega
        calc (2 : ℚ) ^ ((2 : ℤ) - 2 ^ (neb - 1)) ≤ 2 ^ ((fExp eb fb v : ℤ) - (2 ^ (eb - 1) - 1) - fb) :=
              zpow_le_zpow_right₀ (by norm_num) (by omega)
          _ ≤ _ := le_mul_of_one_le_left (by positivity) (by
              have : (1 : ℚ) ≤ 2 ^ fb := one_le_pow₀ (by norm_num)
              linarith [show (0 : ℚ) ≤ fMan fb v by positivity])
  | inf s => trivial
  | nan => trivial

example : EmuFor 5 10 8 23 ∧ 2 ^ (5 - 1) + 10 ≤ 2 ^ (8 - 1) := ⟨by constructor <;> omega, by norm_num⟩

/-- **C57**: the conversion from the native type cuts numbers, -/
theorem C57_ofNative (h : EmuFor eb fb neb nfb) {b : ℕ} {x : ℚ} (hx : ieee neb nfb b = .num x) :
    ∃ r, AnyFloat.ofNative (.any eb fb) (.any neb nfb) b = .ok r ∧ r < 2 ^ (eb + fb + 1) ∧ IsCut eb fb x r ∧
      (|x| < minNorm eb → r = 0) := by
  obtain ⟨h1, h2, h3, h4, h5, h6, h7⟩ := h
  exact conv_num (F := eb + fb + 1) (by omega) h3 (by omega) (by omega) h1 (by omega) h4 (by omega) (Or.inl (by omega)) hx
    (Or.inr (Or.inr (h7.imp_right fun h => ⟨h, h2⟩)))

/-- pi and `2^-17` (below the normal numbers) to `binary8_emu` -/
example : ieee 8 23 0x40490fdb = .num (13176795 / 2 ^ 22) ∧ AnyFloat.ofNative (.any 5 2) (.any 8 23) 0x40490fdb = .ok 0x42 ∧
    ieee 5 2 0x42 = .num 3 ∧ ieee 8 23 0x37000000 = .num (2 ^ (-17 : ℤ)) ∧ |(2 ^ (-17 : ℤ) : ℚ)| < minNorm 5 ∧
    AnyFloat.ofNative (.any 5 2) (.any 8 23) 0x37000000 = .ok 0 :=
  ⟨by norm_num [ieee], by decide +kernel, by norm_num [ieee], by norm_num [ieee], by norm_num [minNorm, abs_of_pos], by decide +kernel⟩

/-- … keeps infinities, -/
theorem C57_ofNative_inf (h : EmuFor eb fb neb nfb) {b : ℕ} {s : Bool} (hx : ieee neb nfb b = .inf s) :
    ∃ r, AnyFloat.ofNative (.any eb fb) (.any neb nfb) b = .ok r ∧ r < 2 ^ (eb + fb + 1) ∧ ieee eb fb r = .inf s := by
  obtain ⟨h1, h2, h3, h4, h5, h6, h7⟩ := h
  exact conv_inf (F := eb + fb + 1) (by omega) h3 (by omega) h1 h4 (by omega) hx

example : ieee 8 23 0xff800000 = .inf true ∧ AnyFloat.ofNative (.any 5 2) (.any 8 23) 0xff800000 = .ok 0xfc ∧ ieee 5 2 0xfc = .inf true :=
  ⟨by norm_num [ieee], by decide +kernel, by norm_num [ieee]⟩

/-- … and quiet NaNs. -/
theorem C57_ofNative_nan (h : EmuFor eb fb neb nfb) {b : ℕ} (hx : ieee neb nfb b = .nan) (hq : 2 ^ (nfb - 1) ≤ b % 2 ^ nfb) :
    ∃ r, AnyFloat.ofNative (.any eb fb) (.any neb nfb) b = .ok r ∧ r < 2 ^ (eb + fb + 1) ∧ ieee eb fb r = .nan := by
  obtain ⟨h1, h2, h3, h4, h5, h6, h7⟩ := h
  exact conv_nan (F := eb + fb + 1) (by omega) h3 (by omega) h1 h4 (by omega) hx
    (Or.inr ((Nat.pow_le_pow_right (by norm_num) (by omega)).trans hq))

example : ieee 8 23 0xffc00001 = .nan ∧ 2 ^ (23 - 1) ≤ 0xffc00001 % 2 ^ 23 ∧
    AnyFloat.ofNative (.any 5 2) (.any 8 23) 0xffc00001 = .ok 0x7e ∧ ieee 5 2 0x7e = .nan :=
  ⟨by norm_num [ieee], by norm_num, by decide +kernel, by norm_num [ieee]⟩

/-- **C57** does not hold for other NaNs when the holder has fewer bits than the native fraction: they become infinity. -/
theorem C57_ofNative_nan_wrong : ieee 8 23 0x7f800001 = .nan ∧ AnyFloat.ofNative (.any 5 2) (.any 8 23) 0x7f800001 = .ok 0x7c ∧
    AnyFloat.ofNative (.any 5 10) (.any 8 23) 0x7f800001 = .ok 0x7c00 ∧ ieee 5 2 0x7c = .inf false ∧ ieee 5 10 0x7c00 = .inf false := by
  refine ⟨?_, by decide +kernel, by decide +kernel, ?_, ?_⟩ <;> norm_num [ieee]

/-- **C57** does not hold for `binary32_emu(double)`: some subnormal doubles are undefined behaviour (a shift by 32). -/
theorem C57_ofDouble_ub : AnyFloat.ofNative (.any 8 23) (.any 11 52) (2 ^ 20) = .error .shiftAmount := by decide +kernel

/-- `1.75` and the least subnormal number of `binary8_emu` to `float`; `float` pi to `binary8_emu` -/
example : AnyFloat.toNative (.any 5 2) (.any 8 23) 0x3f = .ok 0x3fe00000 ∧ AnyFloat.toNative (.any 5 2) (.any 8 23) 1 = .ok 0x37800000 ∧
    AnyFloat.ofNative (.any 5 2) (.any 8 23) 0x40490fdb = .ok 0x42 := by decide +kernel

/-! ## arithmetic -/

theorem ofNative_rounded (h : EmuFor eb fb neb nfb) {X : ℚ} {w : ℕ} (hw : IsRounded neb nfb X w) :
    ∃ r, AnyFloat.ofNative (.any eb fb) (.any neb nfb) w = .ok r ∧ r < 2 ^ (eb + fb + 1) ∧ IsCutRounded eb fb neb nfb X r := by
  obtain ⟨z, hz, -⟩ := id hw
  obtain ⟨r, h1, h2, h3, -⟩ := C57_ofNative h hz
  exact ⟨r, h1, h2, w, z, hw, hz, h3⟩

/-- a result that is a native number is only cut -/
theorem IsCutRounded.exact {X : ℚ} {r : ℕ} (h : IsCutRounded eb fb neb nfb X r) (hX : ∃ g, ieee neb nfb g = .num X) :
    IsCut eb fb X r := by
  obtain ⟨w, z, h1, h2, h3⟩ := h
  have := h1.exact hX
  rw [h2] at this
  rwa [XNum.num.inj this] at h3

/-- **C57**: a product is rounded to the native type, then cut. -/
theorem C57_mul (h : EmuFor eb fb neb nfb) (ho : o.Correct neb nfb) {a b : ℕ} {x y : ℚ} (ha : ieee eb fb a = .num x)
    (hb : ieee eb fb b = .num y) (hx : NotSub neb (.num x)) (hy : NotSub neb (.num y)) (hm : |x * y| ≤ maxFin neb nfb) :
    ∃ r, AnyFloat.mul (.any eb fb) (.any neb nfb) o a b = .ok r ∧ r < 2 ^ (eb + fb + 1) ∧ IsCutRounded eb fb neb nfb (x * y) r := by
  obtain ⟨p, hp, -, hp'⟩ := C57_toNative h (v := a) (by rw [ha]; exact hx)
  obtain ⟨q, hq, -, hq'⟩ := C57_toNative h (v := b) (by rw [hb]; exact hy)
  unfold AnyFloat.mul
  rw [bind_ok _ hp, bind_ok _ hq]
  exact ofNative_rounded h (ho.mul (hp'.trans ha) (hq'.trans hb) hm)

/-- `1.75 * 1.75` in `binary8_emu`: `3.0625` is cut to 3 -/
example (ho : o.Correct 8 23) : ∃ r, AnyFloat.mul (.any 5 2) (.any 8 23) o 0x3f 0x3f = .ok r ∧ r < 2 ^ 8 ∧
    IsCutRounded 5 2 8 23 (7 / 4 * (7 / 4)) r :=
  C57_mul (by constructor <;> omega) ho (by norm_num [ieee]) (by norm_num [ieee]) (Or.inr (by norm_num [minNorm, abs_of_pos]))
    (Or.inr (by norm_num [minNorm, abs_of_pos])) (by norm_num [maxFin, abs_of_pos])

/-- the magnitudes of the numbers of a format -/
theorem ieee_bounds (heb : 2 ≤ eb) {v : ℕ} {x : ℚ} (hx : ieee eb fb v = .num x) (h0 : x ≠ 0) :
    (2 : ℚ) ^ ((2 : ℤ) - 2 ^ (eb - 1) - fb) ≤ |x| ∧ |x| < 2 ^ ((2 : ℤ) ^ (eb - 1)) := by
  refine ⟨?_, lt_of_le_of_lt (ieee_le_maxFin heb hx) maxFin_lt⟩
  obtain ⟨-, ⟨-, hx⟩ | ⟨h1, hx⟩⟩ := ieee_num hx
  · have ha := (sub_abs hx).1
    have hm : 1 ≤ fMan fb v := by
      by_contra hc
      rw [show fMan fb v = 0 by omega] at ha
      simp at ha; exact h0 ha
    rw [ha]
    exact le_mul_of_one_le_left (by positivity) (by exact_mod_cast hm)
  · rw [hx, abs_sign_mul _ (by positivity)]
    calc (2 : ℚ) ^ ((2 : ℤ) - 2 ^ (eb - 1) - fb) ≤ 2 ^ ((fExp eb fb v : ℤ) - (2 ^ (eb - 1) - 1) - fb) :=
          zpow_le_zpow_right₀ (by norm_num) (by omega)
      _ ≤ _ := le_mul_of_one_le_left (by positivity) (by
          have : (1 : ℚ) ≤ 2 ^ fb := one_le_pow₀ (by norm_num)
          linarith [show (0 : ℚ) ≤ fMan fb v by positivity])

/-- products of two short floats are native floats -/
theorem mul_native (hneb : 2 ≤ neb) (hfb : 2 * fb + 1 ≤ nfb) {a b : ℕ} {x y : ℚ} (ha : ieee eb fb a = .num x)
    (hb : ieee eb fb b = .num y) (hn : minNorm neb ≤ |x * y|) (hm : |x * y| ≤ maxFin neb nfb) : ∃ g, ieee neb nfb g = .num (x * y) := by
  obtain ⟨na, A, hna, hA, -⟩ := ieee_nat ha
  obtain ⟨nb, B, hnb, hB, -⟩ := ieee_nat hb
  have habs : |x * y| = (na * nb : ℕ) * 2 ^ (A + B) := by
    rw [abs_mul, hA, hB, zpow_add₀ (by norm_num)]; push_cast; ring
  have hlt : na * nb < 2 ^ (nfb + 1) := by
    calc na * nb < 2 ^ (fb + 1) * 2 ^ (fb + 1) := Nat.mul_lt_mul'' hna hnb
      _ = 2 ^ (2 * fb + 2) := by rw [← pow_add]; congr 1; omega
      _ ≤ _ := Nat.pow_le_pow_right (by norm_num) (by omega)
  obtain ⟨g, hg⟩ := float_of_fits (eb := neb) (fb := nfb) hneb (x := |x * y|) ⟨(na * nb : ℕ), A + B, by
    rw [abs_of_nonneg (by positivity)]; exact_mod_cast hlt, by rw [habs]; push_cast; ring⟩
    (by rw [abs_abs]; exact hn) (by rw [abs_abs]; exact lt_of_le_of_lt hm maxFin_lt)
  rcases abs_choice (x * y) with h | h
  · exact ⟨g, by rw [hg, h]⟩
  · obtain ⟨g2, hg2⟩ := ieee_neg hg
    exact ⟨g2, by rw [hg2, h]; simp⟩

/-- **C57**: a product is just cut if the native type has one more than twice the fraction bits and the product is normal there. -/
theorem C57_mul_exact (h : EmuFor eb fb neb nfb) (ho : o.Correct neb nfb) (hfb : 2 * fb + 1 ≤ nfb) {a b : ℕ} {x y : ℚ}
    (ha : ieee eb fb a = .num x) (hb : ieee eb fb b = .num y) (hx : NotSub neb (.num x)) (hy : NotSub neb (.num y))
    (hn : x * y = 0 ∨ minNorm neb ≤ |x * y|) (hm : |x * y| ≤ maxFin neb nfb) :
    ∃ r, AnyFloat.mul (.any eb fb) (.any neb nfb) o a b = .ok r ∧ r < 2 ^ (eb + fb + 1) ∧ IsCut eb fb (x * y) r := by
  obtain ⟨r, h1, h2, h3⟩ := C57_mul h ho ha hb hx hy hm
  refine ⟨r, h1, h2, h3.exact ?_⟩
  rcases hn with hn | hn
  · rw [hn]
    rcases ieee_zero (eb := neb) (fb := nfb) with h' | h'
    · exact ⟨0, h'⟩
    · have := h.heb; have := h.he; omega
  · exact mul_native (by have := h.heb; have := h.he; omega) hfb ha hb hn hm

example (ho : o.Correct 8 23) : ∃ r, AnyFloat.mul (.any 5 2) (.any 8 23) o 0x3f 0x3f = .ok r ∧ r < 2 ^ 8 ∧ IsCut 5 2 (7 / 4 * (7 / 4)) r :=
  C57_mul_exact (by constructor <;> omega) ho (by norm_num) (by norm_num [ieee]) (by norm_num [ieee])
    (Or.inr (by norm_num [minNorm, abs_of_pos])) (Or.inr (by norm_num [minNorm, abs_of_pos]))
    (Or.inr (by norm_num [minNorm, abs_of_pos])) (by norm_num [maxFin, abs_of_pos])

theorem small_pow (heb : 2 ≤ eb) : (2 : ℤ) ^ eb = 2 * 2 ^ (eb - 1) := by
  rw [show eb = eb - 1 + 1 by omega, pow_succ]; simp; ring

/-- **C57**: for `binary8_emu` and `binary16_emu` all products of finite numbers are the exact product cut. -/
theorem C57_mul_small (h : EmuFor eb fb neb nfb) (ho : o.Correct neb nfb) (hfb : 2 * fb + 1 ≤ nfb)
    (hs : 2 ^ eb + 2 * fb < 2 ^ (neb - 1)) {a b : ℕ} {x y : ℚ} (ha : ieee eb fb a = .num x) (hb : ieee eb fb b = .num y) :
    ∃ r, AnyFloat.mul (.any eb fb) (.any neb nfb) o a b = .ok r ∧ r < 2 ^ (eb + fb + 1) ∧ IsCut eb fb (x * y) r := by
  have hsz : (2 : ℤ) ^ eb + 2 * fb < 2 ^ (neb - 1) := by exact_mod_cast hs
  have hp := small_pow h.heb
  have hB : (2 : ℤ) ≤ 2 ^ (eb - 1) := by exact_mod_cast two_le_pow h.heb
  have hs' : 2 ^ (eb - 1) + fb ≤ 2 ^ (neb - 1) := by
    have : 2 ^ (eb - 1) ≤ 2 ^ eb := Nat.pow_le_pow_right (by norm_num) (by omega)
    omega
  have nx := C57_notSub h hs' a
  have ny := C57_notSub h hs' b
  rw [ha] at nx; rw [hb] at ny
  by_cases h0 : x * y = 0
  · exact C57_mul_exact h ho hfb ha hb nx ny (Or.inl h0) (by rw [h0, abs_zero]; exact maxFin_pos.le)
  · have hx0 : x ≠ 0 := left_ne_zero_of_mul h0
    have hy0 : y ≠ 0 := right_ne_zero_of_mul h0
    obtain ⟨a1, a2⟩ := ieee_bounds h.heb ha hx0
    obtain ⟨b1, b2⟩ := ieee_bounds h.heb hb hy0
    refine C57_mul_exact h ho hfb ha hb nx ny (Or.inr ?_) ?_
    · rw [abs_mul]
      refine le_trans ?_ (mul_le_mul a1 b1 (by positivity) (by positivity))
      rw [← zpow_add₀ (by norm_num)]
      exact zpow_le_zpow_right₀ (by norm_num) (by omega)
    · rw [abs_mul]
      refine le_trans (mul_le_mul a2.le b2.le (by positivity) (by positivity)) ?_
      rw [← zpow_add₀ (by norm_num)]
      exact maxFin_ge (by omega)

example : (2 * 2 + 1 ≤ 23 ∧ 2 ^ 5 + 2 * 2 < 2 ^ (8 - 1)) ∧ (2 * 10 + 1 ≤ 23 ∧ 2 ^ 5 + 2 * 10 < 2 ^ (8 - 1)) := by norm_num

/-- **C57**: a sum of two numbers, neither of them the pattern of +0, is rounded to the native type, then cut, … -/
theorem C57_add (h : EmuFor eb fb neb nfb) (ho : o.Correct neb nfb) {a b : ℕ} {x y : ℚ} (ha : ieee eb fb a = .num x)
    (hb : ieee eb fb b = .num y) (ha0 : a ≠ 0) (hb0 : b ≠ 0) (hx : NotSub neb (.num x)) (hy : NotSub neb (.num y))
    (hm : |x + y| ≤ maxFin neb nfb) :
    ∃ r, AnyFloat.add (.any eb fb) (.any neb nfb) o a b = .ok r ∧ r < 2 ^ (eb + fb + 1) ∧ IsCutRounded eb fb neb nfb (x + y) r := by
  obtain ⟨p, hp, -, hp'⟩ := C57_toNative h (v := a) (by rw [ha]; exact hx)
  obtain ⟨q, hq, -, hq'⟩ := C57_toNative h (v := b) (by rw [hb]; exact hy)
  unfold AnyFloat.add AnyFloat.isZero
  rw [if_neg (by simpa using ha0), if_neg (by simpa using hb0), bind_ok _ hp, bind_ok _ hq]
  exact ofNative_rounded h (ho.add (hp'.trans ha) (hq'.trans hb) hm)

/-- `2^15` and the least subnormal number `2^-24` of `binary16_emu`, whose sum is not a `float` -/
example (ho : o.Correct 8 23) : ∃ r, AnyFloat.add (.any 5 10) (.any 8 23) o 0x7800 1 = .ok r ∧ r < 2 ^ 16 ∧
    IsCutRounded 5 10 8 23 (32768 + 1 / 2 ^ 24) r :=
  C57_add (by constructor <;> omega) ho (by norm_num [ieee]) (by norm_num [ieee]) (by norm_num) (by norm_num)
    (Or.inr (by norm_num [minNorm, abs_of_pos])) (Or.inr (by norm_num [minNorm, abs_of_pos])) (by norm_num [maxFin, abs_of_pos])

/-- … so that a sum that is a native number is just cut. -/
theorem C57_add_exact (h : EmuFor eb fb neb nfb) (ho : o.Correct neb nfb) {a b : ℕ} {x y : ℚ} (ha : ieee eb fb a = .num x)
    (hb : ieee eb fb b = .num y) (ha0 : a ≠ 0) (hb0 : b ≠ 0) (hx : NotSub neb (.num x)) (hy : NotSub neb (.num y))
    (hs : ∃ g, ieee neb nfb g = .num (x + y)) :
    ∃ r, AnyFloat.add (.any eb fb) (.any neb nfb) o a b = .ok r ∧ r < 2 ^ (eb + fb + 1) ∧ IsCut eb fb (x + y) r := by
  obtain ⟨g, hg⟩ := hs
  obtain ⟨r, h1, h2, h3⟩ := C57_add h ho ha hb ha0 hb0 hx hy (ieee_le_maxFin (by have := h.heb; have := h.he; omega) hg)
  exact ⟨r, h1, h2, h3.exact ⟨g, hg⟩⟩

/-- 7 and 3/2 in `binary8_emu`: `8.5` is cut -/
example (ho : o.Correct 8 23) : ∃ r, AnyFloat.add (.any 5 2) (.any 8 23) o 0x47 0x3e = .ok r ∧ r < 2 ^ 8 ∧ IsCut 5 2 (7 + 3 / 2) r :=
  C57_add_exact (by constructor <;> omega) ho (by norm_num [ieee]) (by norm_num [ieee]) (by norm_num) (by norm_num)
    (Or.inr (by norm_num [minNorm, abs_of_pos])) (Or.inr (by norm_num [minNorm, abs_of_pos])) ⟨0x41080000, by norm_num [ieee]⟩

/-- a number of the format as a signed integer times a power of two -/
theorem ieee_int {g : ℕ} {x : ℚ} (hg : ieee eb fb g = .num x) :
    ∃ (n : ℤ) (A : ℤ), |n| < 2 ^ (fb + 1) ∧ x = n * 2 ^ A ∧ (2 : ℤ) - 2 ^ (eb - 1) - fb ≤ A ∧
      ((2 : ℤ) - 2 ^ (eb - 1) - fb < A → 2 ^ fb ≤ |n|) := by
  have hm := fMan_lt fb g
  have hm' : (fMan fb g : ℤ) < 2 ^ fb := by exact_mod_cast hm
  have hs : ∀ k : ℕ, |(if fSign eb fb g then -1 else 1 : ℤ) * k| = k := by
    intro k; cases fSign eb fb g <;> simp
  obtain ⟨-, ⟨-, hx⟩ | ⟨h1, hx⟩⟩ := ieee_num hg
  · refine ⟨(if fSign eb fb g then -1 else 1 : ℤ) * fMan fb g, (2 : ℤ) - 2 ^ (eb - 1) - fb, ?_, ?_, le_rfl, fun h => absurd h (lt_irrefl _)⟩
    · rw [hs, pow_succ]; omega
    · rw [hx]; push_cast; cases fSign eb fb g <;> simp
  · refine ⟨(if fSign eb fb g then -1 else 1 : ℤ) * (2 ^ fb + fMan fb g : ℕ), (fExp eb fb g : ℤ) - (2 ^ (eb - 1) - 1) - fb, ?_, ?_, by omega, fun _ => ?_⟩
    · rw [hs, pow_succ]; push_cast; omega
    · rw [hx]; push_cast
      cases fSign eb fb g
      · simp
      · simp only [if_true]; ring
    · rw [hs]; push_cast; omega

theorem add_native_aux {n m A B L : ℤ} {k : ℕ} (hn : |n| < 2 ^ (fb + 1)) (hm : |m| < 2 ^ (fb + 1)) (hA : L < A → 2 ^ fb ≤ |n|) (hBL : L ≤ B) (hAB : B ≤ A)
    (hk : |(n : ℚ) * 2 ^ A| ≤ 2 ^ k * |(m : ℚ) * 2 ^ B|) :
    ∃ t : ℤ, |t| < 2 ^ (fb + k + 2) ∧ (n : ℚ) * 2 ^ A + m * 2 ^ B = t * 2 ^ B := by
  obtain ⟨d, rfl⟩ : ∃ d : ℕ, A = B + d := ⟨(A - B).toNat, by omega⟩
  have hdk : d ≤ k := by
    rcases Nat.eq_zero_or_pos d with h0 | h0
    · omega
    have hn2 := hA (by omega)
    rw [zpow_add₀ (by norm_num), abs_mul, abs_mul, abs_mul, abs_of_pos (by positivity : (0 : ℚ) < 2 ^ B),
      abs_of_pos (by positivity : (0 : ℚ) < 2 ^ (d : ℤ))] at hk
    have hpos : (0 : ℚ) < 2 ^ B := by positivity
    have h1 : |(n : ℚ)| * 2 ^ d ≤ 2 ^ k * |(m : ℚ)| := by
      rw [zpow_natCast] at hk
      refine le_of_mul_le_mul_right ?_ hpos
      calc _ = |(n : ℚ)| * (2 ^ B * 2 ^ d) := by ring
        _ ≤ _ := hk
        _ = _ := by ring
    have h2 : |n| * 2 ^ d ≤ 2 ^ k * |m| := by
      have : ((|n| * 2 ^ d : ℤ) : ℚ) ≤ ((2 ^ k * |m| : ℤ) : ℚ) := by push_cast; exact h1
      exact_mod_cast this
    have h3 : (2 : ℤ) ^ (fb + d) < 2 ^ (k + fb + 1) := by
      calc (2 : ℤ) ^ (fb + d) = 2 ^ fb * 2 ^ d := pow_add _ _ _
        _ ≤ |n| * 2 ^ d := mul_le_mul_of_nonneg_right hn2 (by positivity)
        _ ≤ 2 ^ k * |m| := h2
        _ < 2 ^ k * 2 ^ (fb + 1) := mul_lt_mul_of_pos_left hm (by positivity)
        _ = _ := by rw [← pow_add]; congr 1
    have := (pow_lt_pow_iff_right₀ (by norm_num : (1 : ℤ) < 2)).mp h3
    omega
  refine ⟨n * 2 ^ d + m, ?_, ?_⟩
  · have h1 : |n * 2 ^ d| < 2 ^ (fb + 1 + k) := by
      rw [abs_mul, abs_of_pos (by positivity : (0 : ℤ) < 2 ^ d), pow_add]
      calc |n| * 2 ^ d ≤ |n| * 2 ^ k := mul_le_mul_of_nonneg_left (pow_le_pow_right₀ (by norm_num) hdk) (abs_nonneg _)
        _ < _ := mul_lt_mul_of_pos_right hn (by positivity)
    have h2 : |m| < 2 ^ (fb + 1 + k) := lt_of_lt_of_le hm (pow_le_pow_right₀ (by norm_num) (by omega))
    have h3 := abs_add_le (n * 2 ^ d) m
    have h4 : (2 : ℤ) ^ (fb + k + 2) = 2 * 2 ^ (fb + 1 + k) := by rw [show fb + k + 2 = fb + 1 + k + 1 by omega, pow_succ]; ring
    linarith
  · push_cast
    rw [zpow_add₀ (by norm_num), zpow_natCast]; ring

/-- sums of two short floats that are not too different are native floats -/
theorem add_native (hneb : 2 ≤ neb) {k : ℕ} (hfb : fb + k + 1 ≤ nfb) (hs : 2 ^ (eb - 1) + fb ≤ 2 ^ (neb - 1)) {a b : ℕ} {x y : ℚ}
    (ha : ieee eb fb a = .num x) (hb : ieee eb fb b = .num y) (hxy : |x| ≤ 2 ^ k * |y|) (hyx : |y| ≤ 2 ^ k * |x|)
    (hm : |x + y| ≤ maxFin neb nfb) : ∃ g, ieee neb nfb g = .num (x + y) := by
  have hsz : (2 : ℤ) ^ (eb - 1) + fb ≤ 2 ^ (neb - 1) := by exact_mod_cast hs
  obtain ⟨n, A, hn, hA, hA1, hA2⟩ := ieee_int ha
  obtain ⟨m, B, hm', hB, hB1, hB2⟩ := ieee_int hb
  obtain ⟨t, T, ht, hT, hTL⟩ : ∃ (t T : ℤ), |t| < 2 ^ (fb + k + 2) ∧ x + y = t * 2 ^ T ∧ (2 : ℤ) - 2 ^ (eb - 1) - fb ≤ T := by
    rcases le_total B A with h | h
    · obtain ⟨t, h1, h2⟩ := add_native_aux hn hm' hA2 hB1 h (by rw [← hA, ← hB]; exact hxy)
      exact ⟨t, B, h1, by rw [hA, hB]; exact h2, hB1⟩
    · obtain ⟨t, h1, h2⟩ := add_native_aux hm' hn hB2 hA1 h (by rw [← hA, ← hB]; exact hyx)
      exact ⟨t, A, h1, by rw [hA, hB, add_comm]; exact h2, hA1⟩
  by_cases h0 : t = 0
  · rw [hT, h0]
    rcases ieee_zero (eb := neb) (fb := nfb) with h' | h'
    · exact ⟨0, by rw [h']; simp⟩
    · omega
  · refine float_of_fits hneb ⟨t, T, lt_of_lt_of_le ht (pow_le_pow_right₀ (by norm_num) (by omega)), hT⟩ ?_ (lt_of_le_of_lt hm maxFin_lt)
    rw [hT, abs_mul, abs_of_pos (by positivity : (0 : ℚ) < 2 ^ T)]
    have ht1 : (1 : ℚ) ≤ |(t : ℚ)| := by rw [← Int.cast_abs]; exact_mod_cast Int.one_le_abs h0
    calc (2 : ℚ) ^ ((2 : ℤ) - 2 ^ (neb - 1)) ≤ 2 ^ T := zpow_le_zpow_right₀ (by norm_num) (by omega)
      _ ≤ _ := le_mul_of_one_le_left (by positivity) ht1

/-- **C57**: a sum is just cut if the operands differ by a factor of at most `2^(nfb-fb-1)`, in `binary8_emu` and `binary16_emu`. -/
theorem C57_add_near (h : EmuFor eb fb neb nfb) (ho : o.Correct neb nfb) {k : ℕ} (hk : fb + k + 1 ≤ nfb)
    (hs : 2 ^ (eb - 1) + fb ≤ 2 ^ (neb - 1)) {a b : ℕ} {x y : ℚ} (ha : ieee eb fb a = .num x)
    (hb : ieee eb fb b = .num y) (ha0 : a ≠ 0) (hb0 : b ≠ 0) (hxy : |x| ≤ 2 ^ k * |y|) (hyx : |y| ≤ 2 ^ k * |x|)
    (hm : |x + y| ≤ maxFin neb nfb) :
    ∃ r, AnyFloat.add (.any eb fb) (.any neb nfb) o a b = .ok r ∧ r < 2 ^ (eb + fb + 1) ∧ IsCut eb fb (x + y) r := by
  have nx := C57_notSub h hs a
  have ny := C57_notSub h hs b
  rw [ha] at nx; rw [hb] at ny
  exact C57_add_exact h ho ha hb ha0 hb0 nx ny (add_native (by have := h.heb; have := h.he; omega) hk hs ha hb hxy hyx hm)

example : 10 + 12 + 1 ≤ 23 ∧ 2 ^ (5 - 1) + 10 ≤ 2 ^ (8 - 1) ∧ ieee 5 10 0x3c01 = .num (1025 / 1024) ∧ ieee 5 10 0x1400 = .num (1 / 1024) := by
  norm_num [ieee]

/-- **C57**: +0 is neutral, for every pattern. -/
theorem C57_add_zero (a : ℕ) : AnyFloat.add (.any eb fb) (.any neb nfb) o 0 a = .ok a ∧
    AnyFloat.add (.any eb fb) (.any neb nfb) o a 0 = .ok a := by
  refine ⟨rfl, ?_⟩
  unfold AnyFloat.add AnyFloat.isZero
  by_cases h : a = 0
  · simp [h]
  · simp [h]

/-- **C57** does not hold for the pattern of -0: adding it to a subnormal number gives +0. -/
theorem C57_add_negzero_wrong (h : EmuFor eb fb neb nfb) (ho : o.Correct neb nfb) (hs : 2 ^ (eb - 1) + fb ≤ 2 ^ (neb - 1)) {b : ℕ}
    {y : ℚ} (hb : ieee eb fb b = .num y) (hy0 : y ≠ 0) (hy : |y| < minNorm eb) :
    ieee eb fb (2 ^ (eb + fb)) = .num 0 ∧ ∃ r, AnyFloat.add (.any eb fb) (.any neb nfb) o (2 ^ (eb + fb)) b = .ok r ∧ ieee eb fb r = .num 0 := by
  have hz : ieee eb fb (2 ^ (eb + fb)) = .num 0 := by
    have hx : fExp eb fb (2 ^ (eb + fb)) = 0 := by
      unfold fExp; rw [pow_add, Nat.mul_div_cancel _ (by positivity), Nat.mod_self]
    have hm : fMan fb (2 ^ (eb + fb)) = 0 := by unfold fMan; rw [pow_add, Nat.mul_mod_left]
    rw [ieee_eq, hx, hm, if_neg, if_pos rfl]
    · simp
    · have := two_le_pow h.heb
      have := two_pow_pred_nat (w := eb) (by have := h.heb; omega)
      omega
  refine ⟨hz, ?_⟩
  have n1 := C57_notSub h hs (2 ^ (eb + fb))
  have n2 := C57_notSub h hs b
  rw [hz] at n1; rw [hb] at n2
  have hb0 : b ≠ 0 := by
    rintro rfl
    rcases ieee_zero (eb := eb) (fb := fb) with h' | h'
    · rw [h'] at hb; exact hy0 (XNum.num.inj hb).symm
    · have := h.heb; omega
  obtain ⟨r, h1, -, h3⟩ := C57_add_exact h ho hz hb (by positivity) hb0 n1 n2 (by
    rw [zero_add]; exact ieee_widen h.heb h.he h.hf hb n2)
  rw [zero_add] at h3
  obtain ⟨z, hz, h4, -⟩ := h3
  exact ⟨r, h1, by rw [hz, h4 hy]⟩

example : ieee 5 2 1 = .num (2 ^ (-16 : ℤ)) ∧ |(2 ^ (-16 : ℤ) : ℚ)| < minNorm 5 ∧ 2 ^ (5 - 1) + 2 ≤ 2 ^ (8 - 1) := by
  norm_num [ieee, minNorm, abs_of_pos]

/-- rounding a quotient to the native type does not step over a number of the format -/
theorem div_gap (h : EmuFor eb fb neb nfb) (hfb : 2 * fb + 1 ≤ nfb) {a b w : ℕ} {x y z : ℚ} (ha : ieee eb fb a = .num x)
    (hb : ieee eb fb b = .num y) (hy0 : y ≠ 0) (hn : x = 0 ∨ minNorm neb ≤ |x / y| ∨ eb < neb) (hw : IsRounded neb nfb (x / y) w)
    (hz : ieee neb nfb w = .num z) :
    ∀ g v, ieee eb fb g = .num v → minNorm eb ≤ |v| → |x / y| < |v| → |z| < |v| := by
  intro g v hg hv hlt
  have hneb : 2 ≤ neb := by have := h.heb; have := h.he; omega
  have hfb1 := h.hfb
  rcases lt_or_ge |x / y| (minNorm neb) with hq | hq
  · rcases hn with hn | hn | hn
    · have h0 : ieee neb nfb 0 = .num (x / y) := by
        rw [hn, zero_div]
        rcases ieee_zero (eb := neb) (fb := nfb) with h | h
        · exact h
        · omega
      have := hw.exact ⟨0, h0⟩
      rw [hz] at this
      rwa [XNum.num.inj this]
    · exact absurd hq (not_lt.mpr hn)
    · obtain ⟨_, _, hmin, _⟩ := C51_constants (eb := neb) (fb := nfb) (dn := true) hneb (by omega)
      have h1 : |z| ≤ minNorm neb := (hw.abs_le hz minNorm_pos.le ⟨_, hmin⟩).1 hq.le
      refine lt_of_le_of_lt h1 (lt_of_lt_of_le ?_ hv)
      unfold minNorm
      apply zpow_lt_zpow_right₀ (by norm_num)
      have : (2 : ℤ) ^ (eb - 1) < 2 ^ (neb - 1) := pow_lt_pow_right₀ (by norm_num) (by have := h.heb; omega)
      omega
  · obtain ⟨na, A, hna, hA, -⟩ := ieee_nat ha
    obtain ⟨nb, B, hnb, hB, -⟩ := ieee_nat hb
    obtain ⟨nw, W, hnw, hW, hnw'⟩ := ieee_nat hg
    have hnb0 : 0 < nb := by
      rcases Nat.eq_zero_or_pos nb with h0 | h0
      · rw [h0] at hB; simp at hB; exact absurd hB hy0
      · exact h0
    obtain ⟨z', g', hg', h1, h2⟩ := quotient_gap_nat (q := |x / y|) (eb := neb) (fb := nfb) (p := fb) hneb hfb (by omega) hna hnb hnb0 (hnw' hv)
      hnw (by rw [← hB, ← hA, abs_div, div_mul_cancel₀]; exact abs_ne_zero.mpr hy0) (by rw [← hW]; exact hlt) hq (by
        rw [← hW]
        refine le_trans (lt_of_le_of_lt (ieee_le_maxFin h.heb hg) maxFin_lt).le ?_
        exact zpow_le_zpow_right₀ (by norm_num) (pow_le_pow_right₀ (by norm_num) (by have := h.he; omega)))
    rw [← hW] at h2
    exact lt_of_le_of_lt ((hw.abs_le hz ((abs_nonneg _).trans h1) ⟨_, hg'⟩).1 h1) h2

/-- **C57**: a quotient by a nonzero number is rounded to the native type, then cut; this is the exact quotient cut if the
native type has one more than twice the fraction bits and either more exponent bits or a normal quotient. -/
theorem C57_div (h : EmuFor eb fb neb nfb) (ho : o.Correct neb nfb) {a b : ℕ} {x y : ℚ} (ha : ieee eb fb a = .num x)
    (hb : ieee eb fb b = .num y) (hy0 : y ≠ 0) (hx : NotSub neb (.num x)) (hy : NotSub neb (.num y)) (hm : |x / y| ≤ maxFin neb nfb) :
    ∃ r, AnyFloat.div (.any eb fb) (.any neb nfb) o a b = .ok r ∧ r < 2 ^ (eb + fb + 1) ∧ IsCutRounded eb fb neb nfb (x / y) r ∧
      (2 * fb + 1 ≤ nfb → (x = 0 ∨ minNorm neb ≤ |x / y| ∨ eb < neb) → IsCut eb fb (x / y) r) := by
  obtain ⟨p, hp, -, hp'⟩ := C57_toNative h (v := a) (by rw [ha]; exact hx)
  obtain ⟨q, hq, -, hq'⟩ := C57_toNative h (v := b) (by rw [hb]; exact hy)
  unfold AnyFloat.div
  rw [bind_ok _ hp, bind_ok _ hq]
  obtain ⟨r, h1, h2, h3⟩ := ofNative_rounded h (ho.div (hp'.trans ha) (hq'.trans hb) hy0 hm)
  refine ⟨r, h1, h2, h3, fun hfb hn => ?_⟩
  obtain ⟨w, z, hw, hz, hc⟩ := h3
  exact hc.of_rounded h.heb h.he h.hfb h.hf hw hz (div_gap h hfb ha hb hy0 hn hw hz)

/-- `1 / 3` in `binary8_emu` -/
example (ho : o.Correct 8 23) : ∃ r, AnyFloat.div (.any 5 2) (.any 8 23) o 0x3c 0x42 = .ok r ∧ IsCut 5 2 (1 / 3) r := by
  obtain ⟨r, h1, -, -, h4⟩ := C57_div (o := o) (by constructor <;> omega : EmuFor 5 2 8 23) ho (a := 0x3c) (b := 0x42) (x := 1) (y := 3)
    (by norm_num [ieee]) (by norm_num [ieee]) (by norm_num) (Or.inr (by norm_num [minNorm])) (Or.inr (by norm_num [minNorm, abs_of_pos]))
    (by norm_num [maxFin, abs_of_pos])
  exact ⟨r, h1, h4 (by norm_num) (Or.inr (Or.inr (by norm_num)))⟩

/-- **C57**: for `binary8_emu` and `binary16_emu` all quotients of finite numbers by nonzero ones are the exact quotient cut. -/
theorem C57_div_small (h : EmuFor eb fb neb nfb) (ho : o.Correct neb nfb) (hfb : 2 * fb + 1 ≤ nfb)
    (hs : 2 ^ eb + 2 * fb < 2 ^ (neb - 1)) {a b : ℕ} {x y : ℚ} (ha : ieee eb fb a = .num x) (hb : ieee eb fb b = .num y)
    (hy0 : y ≠ 0) :
    ∃ r, AnyFloat.div (.any eb fb) (.any neb nfb) o a b = .ok r ∧ r < 2 ^ (eb + fb + 1) ∧ IsCut eb fb (x / y) r := by
  have hsz : (2 : ℤ) ^ eb + 2 * fb < 2 ^ (neb - 1) := by exact_mod_cast hs
  have hp := small_pow h.heb
  have hB : (2 : ℤ) ≤ 2 ^ (eb - 1) := by exact_mod_cast two_le_pow h.heb
  have hlt : 2 ^ (eb - 1) ≤ 2 ^ eb := Nat.pow_le_pow_right (by norm_num) (by omega)
  have nx := C57_notSub h (by omega) a
  have ny := C57_notSub h (by omega) b
  rw [ha] at nx; rw [hb] at ny
  have hee : eb < neb := by
    by_contra hc
    have : 2 ^ (neb - 1) ≤ 2 ^ (eb - 1) := Nat.pow_le_pow_right (by norm_num) (by omega)
    omega
  obtain ⟨b1, b2⟩ := ieee_bounds h.heb hb hy0
  have hm : |x / y| ≤ maxFin neb nfb := by
    by_cases hx0 : x = 0
    · rw [hx0, zero_div, abs_zero]; exact maxFin_pos.le
    obtain ⟨a1, a2⟩ := ieee_bounds h.heb ha hx0
    rw [abs_div, div_le_iff₀ (lt_of_lt_of_le (by positivity) b1)]
    calc |x| ≤ 2 ^ ((2 : ℤ) ^ (eb - 1)) := a2.le
      _ = 2 ^ ((2 : ℤ) ^ eb - 2 + fb) * 2 ^ ((2 : ℤ) - 2 ^ (eb - 1) - fb) := by
          rw [← zpow_add₀ (by norm_num)]; congr 1; omega
      _ ≤ _ := mul_le_mul (maxFin_ge (by omega)) b1 (by positivity) maxFin_pos.le
  obtain ⟨r, h1, h2, -, h4⟩ := C57_div h ho ha hb hy0 nx ny hm
  exact ⟨r, h1, h2, h4 hfb (Or.inr (Or.inr hee))⟩

example (ho : o.Correct 8 23) : ∃ r, AnyFloat.div (.any 5 2) (.any 8 23) o 0x3c 0xc2 = .ok r ∧ r < 2 ^ 8 ∧ IsCut 5 2 (1 / -3) r :=
  C57_div_small (by constructor <;> omega) ho (by norm_num) (by norm_num) (by norm_num [ieee]) (by norm_num [ieee]) (by norm_num)

/-- **C57**: `inv` is the division of one. -/
theorem C57_inv (h : EmuFor eb fb neb nfb) (ho : o.Correct neb nfb) {a : ℕ} {x : ℚ} (ha : ieee eb fb a = .num x)
    (hx0 : x ≠ 0) (hx : NotSub neb (.num x)) (hm : |1 / x| ≤ maxFin neb nfb) :
    ∃ r, AnyFloat.inv (.any eb fb) (.any neb nfb) o a = .ok r ∧ r < 2 ^ (eb + fb + 1) ∧ IsCutRounded eb fb neb nfb (1 / x) r ∧
      (2 * fb + 1 ≤ nfb → (minNorm neb ≤ |1 / x| ∨ eb < neb) → IsCut eb fb (1 / x) r) := by
  have hfb1 := h.hfb
  have hff := h.hf
  have hneb : 2 ≤ neb := by have := h.heb; have := h.he; omega
  obtain ⟨h1t, _⟩ := C51_constants (eb := eb) (fb := fb) (dn := true) h.heb h.hfb
  obtain ⟨h1n, _⟩ := C51_constants (eb := neb) (fb := nfb) (dn := true) hneb (by omega)
  obtain ⟨p, hp, -, hp'⟩ := C57_toNative h (v := a) (by rw [ha]; exact hx)
  unfold AnyFloat.inv
  rw [bind_ok _ hp]
  obtain ⟨r, h1, h2, h3⟩ := ofNative_rounded h (ho.div h1n (hp'.trans ha) hx0 hm)
  refine ⟨r, h1, h2, h3, fun hfb hn => ?_⟩
  obtain ⟨w, z, hw, hz, hc⟩ := h3
  exact hc.of_rounded h.heb h.he h.hfb h.hf hw hz (div_gap h hfb h1t ha hx0 (Or.inr hn) hw hz)

example (ho : o.Correct 8 23) : ∃ r, AnyFloat.inv (.any 5 2) (.any 8 23) o 0x42 = .ok r ∧ IsCut 5 2 (1 / 3) r := by
  obtain ⟨r, h1, -, -, h4⟩ := C57_inv (o := o) (by constructor <;> omega : EmuFor 5 2 8 23) ho (a := 0x42) (x := 3)
    (by norm_num [ieee]) (by norm_num) (Or.inr (by norm_num [minNorm, abs_of_pos])) (by norm_num [maxFin, abs_of_pos])
  exact ⟨r, h1, h4 (by norm_num) (Or.inr (by norm_num))⟩

/-- **C57**: `fma` rounds twice to the native type, then cuts. -/
theorem C57_fma (h : EmuFor eb fb neb nfb) (ho : o.Correct neb nfb) {a b c : ℕ} {x y z : ℚ} (ha : ieee eb fb a = .num x)
    (hb : ieee eb fb b = .num y) (hc : ieee eb fb c = .num z) (hx : NotSub neb (.num x)) (hy : NotSub neb (.num y))
    (hz : NotSub neb (.num z)) (hm : |x * y| ≤ maxFin neb nfb)
    (hs : ∀ w p, IsRounded neb nfb (x * y) w → ieee neb nfb w = .num p → |p + z| ≤ maxFin neb nfb) :
    ∃ r w p, AnyFloat.fma (.any eb fb) (.any neb nfb) o a b c = .ok r ∧ r < 2 ^ (eb + fb + 1) ∧ IsRounded neb nfb (x * y) w ∧
      ieee neb nfb w = .num p ∧ IsCutRounded eb fb neb nfb (p + z) r := by
  obtain ⟨u, hu, -, hu'⟩ := C57_toNative h (v := a) (by rw [ha]; exact hx)
  obtain ⟨v, hv, -, hv'⟩ := C57_toNative h (v := b) (by rw [hb]; exact hy)
  obtain ⟨w, hw, -, hw'⟩ := C57_toNative h (v := c) (by rw [hc]; exact hz)
  unfold AnyFloat.fma
  rw [bind_ok _ hu, bind_ok _ hv, bind_ok _ hw]
  have hmul := ho.mul (hu'.trans ha) (hv'.trans hb) hm
  obtain ⟨p, hp, -⟩ := id hmul
  obtain ⟨r, h1, h2, h3⟩ := ofNative_rounded h (ho.add hp (hw'.trans hc) (hs _ _ hmul hp))
  exact ⟨r, _, p, h1, h2, hmul, hp, h3⟩

/-- `3 * 3 + 1` in `binary8_emu`: products and sums of numbers below 65536 stay within `float` -/
example (ho : o.Correct 8 23) : ∃ r w p, AnyFloat.fma (.any 5 2) (.any 8 23) o 0x42 0x42 0x3c = .ok r ∧ r < 2 ^ 8 ∧
    IsRounded 8 23 (3 * 3) w ∧ ieee 8 23 w = .num p ∧ IsCutRounded 5 2 8 23 (p + 1) r := by
  refine C57_fma (by constructor <;> omega) ho (by norm_num [ieee]) (by norm_num [ieee]) (by norm_num [ieee])
    (Or.inr (by norm_num [minNorm, abs_of_pos])) (Or.inr (by norm_num [minNorm, abs_of_pos])) (Or.inr (by norm_num [minNorm, abs_of_pos]))
    (by norm_num [maxFin, abs_of_pos]) fun w p hw hp => ?_
  have h9 : ieee 8 23 0x41100000 = .num (3 * 3) := by norm_num [ieee]
  have h := hw.exact ⟨_, h9⟩
  rw [hp, XNum.num.injEq] at h
  rw [h]
  norm_num [maxFin, abs_of_pos]

/-- **C57**: `twice` cuts `2 x` (doubling is exact). -/
theorem C57_twice (h : EmuFor eb fb neb nfb) (ho : o.Correct neb nfb) {a : ℕ} {x : ℚ} (ha : ieee eb fb a = .num x)
    (hx : NotSub neb (.num x)) (hm : |2 * x| ≤ maxFin neb nfb) :
    ∃ r, AnyFloat.twice (.any eb fb) (.any neb nfb) o a = .ok r ∧ r < 2 ^ (eb + fb + 1) ∧ IsCut eb fb (2 * x) r := by
  have hfb1 := h.hfb
  have hff := h.hf
  have hneb : 2 ≤ neb := by have := h.heb; have := h.he; omega
  obtain ⟨-, h2n, _⟩ := C51_constants (eb := neb) (fb := nfb) (dn := true) hneb (by omega)
  obtain ⟨p, hp, -, hp'⟩ := C57_toNative h (v := a) (by rw [ha]; exact hx)
  unfold AnyFloat.twice
  rw [bind_ok _ hp]
  obtain ⟨r, h1, h2, h3⟩ := ofNative_rounded h (ho.mul h2n (hp'.trans ha) hm)
  refine ⟨r, h1, h2, h3.exact ?_⟩
  rcases hx with rfl | hx
  · rw [mul_zero]
    rcases ieee_zero (eb := neb) (fb := nfb) with h' | h'
    · exact ⟨0, h'⟩
    · omega
  · obtain ⟨na, A, hna, hA, -⟩ := ieee_nat ha
    have e : |2 * x| = 2 * |x| := by rw [abs_mul]; norm_num
    obtain ⟨g, hg⟩ := float_of_fits (eb := neb) (fb := nfb) hneb (x := |2 * x|) ⟨na, A + 1, by
      rw [abs_of_nonneg (by positivity)]
      exact_mod_cast lt_of_lt_of_le hna (Nat.pow_le_pow_right (by norm_num) (by omega)), by
        rw [e, hA, zpow_add_one₀ (by norm_num)]; push_cast; ring⟩
      (by rw [abs_abs, e]; change minNorm neb ≤ _; linarith [abs_nonneg x]) (by rw [abs_abs]; exact lt_of_le_of_lt hm maxFin_lt)
    rcases abs_choice (2 * x) with h' | h'
    · exact ⟨g, by rw [hg, h']⟩
    · obtain ⟨g2, hg2⟩ := ieee_neg hg
      exact ⟨g2, by rw [hg2, h']; simp⟩

example (ho : o.Correct 8 23) : ∃ r, AnyFloat.twice (.any 5 2) (.any 8 23) o 0x7b = .ok r ∧ r < 2 ^ 8 ∧ IsCut 5 2 (2 * 57344) r :=
  C57_twice (by constructor <;> omega) ho (by norm_num [ieee]) (Or.inr (by norm_num [minNorm, abs_of_pos])) (by norm_num [maxFin, abs_of_pos])

/-- **C57**: `half` cuts `x / 2`. -/
theorem C57_half {od : FloatOps} {d : DoubleConv} (h : EmuFor eb fb neb nfb) (hn : neb ≤ 11) (hn' : nfb ≤ 52) (ho : od.Correct 11 52)
    (hd : d.Correct neb nfb) {a : ℕ} {x : ℚ} (ha : ieee eb fb a = .num x) (hx : NotSub neb (.num x))
    (hx' : x = 0 ∨ 2 * minNorm 11 ≤ |x|) :
    ∃ r, AnyFloat.half (.any eb fb) (.any neb nfb) od d a = .ok r ∧ r < 2 ^ (eb + fb + 1) ∧ IsCut eb fb (x / 2) r := by
  have heb := h.heb
  have he := h.he
  have hfb1 := h.hfb
  have hff := h.hf
  obtain ⟨p, hp, -, hp'⟩ := C57_toNative h (v := a) (by rw [ha]; exact hx)
  unfold AnyFloat.half
  rw [bind_ok _ hp]
  have hhalf : ieee 11 52 0x3fe0000000000000 = .num (1 / 2) := by norm_num [ieee]
  have hwid : ieee 11 52 (d.widen p) = .num x := by rw [hd.widen, hp', ha]
  have hmin : x / 2 = 0 ∨ minNorm 11 ≤ |x / 2| := by
    refine hx'.imp (fun h => by rw [h, zero_div]) fun h => ?_
    rw [abs_div, abs_of_pos (by norm_num : (0 : ℚ) < 2), le_div_iff₀ (by norm_num)]; linarith
  have hle : |1 / 2 * x| ≤ maxFin 11 52 := by
    have := ieee_le_maxFin (by norm_num) hwid
    rw [abs_mul, abs_of_pos (by norm_num : (0 : ℚ) < 1 / 2)]
    linarith [abs_nonneg x]
  have hmul := ho.mul hhalf hwid hle
  have hex : ∃ g, ieee 11 52 g = .num (x / 2) := by
    rcases hmin with h0 | h0
    · exact ⟨0, by rw [h0]; norm_num [ieee]⟩
    · obtain ⟨na, A, hna, hA, -⟩ := ieee_nat ha
      have e : |x / 2| = |x| / 2 := by rw [abs_div]; norm_num
      obtain ⟨g, hg⟩ := float_of_fits (eb := 11) (fb := 52) (by norm_num) (x := |x / 2|) ⟨na, A - 1, by
        rw [abs_of_nonneg (by positivity)]
        exact_mod_cast lt_of_lt_of_le hna (Nat.pow_le_pow_right (by norm_num) (by omega)), by
          rw [e, hA, zpow_sub_one₀ (by norm_num)]; push_cast; ring⟩
        (by rw [abs_abs]; exact h0) (by
          rw [abs_abs, e]
          refine lt_of_le_of_lt ?_ (maxFin_lt (eb := 11) (fb := 52))
          have := ieee_le_maxFin (by norm_num) hwid
          linarith [abs_nonneg x])
      rcases abs_choice (x / 2) with h' | h'
      · exact ⟨g, by rw [hg, h']⟩
      · obtain ⟨g2, hg2⟩ := ieee_neg hg
        exact ⟨g2, by rw [hg2, h']; simp⟩
  have hval : ieee 11 52 (od.mul 0x3fe0000000000000 (d.widen p)) = .num (x / 2) := by
    rw [show (1 : ℚ) / 2 * x = x / 2 by ring] at hmul
    exact hmul.exact hex
  obtain ⟨r, h1, h2, h3, -⟩ := conv_num (F := eb + fb + 1) (eb2 := eb) (fb2 := fb) (by norm_num) (by norm_num) (by norm_num) (by norm_num) heb (by omega) hfb1
    (by omega) (Or.inl (by omega)) hval (by rcases hmin with h | h; exacts [Or.inl h, Or.inr (Or.inl h)])
  exact ⟨r, h1, h2, h3⟩

/-- half of the least normal number of `binary8_emu` -/
example {od : FloatOps} {d : DoubleConv} (ho : od.Correct 11 52) (hd : d.Correct 8 23) :
    ∃ r, AnyFloat.half (.any 5 2) (.any 8 23) od d 4 = .ok r ∧ r < 2 ^ 8 ∧ IsCut 5 2 (1 / 16384 / 2) r := by
  have h11 : minNorm 11 ≤ 2 ^ (-20 : ℤ) := zpow_le_zpow_right₀ (by norm_num) (by norm_num)
  exact C57_half (by constructor <;> omega) (by norm_num) (by norm_num) ho hd (by norm_num [ieee])
    (Or.inr (by norm_num [minNorm, abs_of_pos])) (Or.inr (le_trans (mul_le_mul_of_nonneg_left h11 (by norm_num)) (by norm_num [abs_of_pos])))

end Verif
