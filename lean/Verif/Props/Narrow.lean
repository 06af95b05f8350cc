import Verif.Lemmas.NarrowPack

/-!
# C94: posits with an 8-bit exponent type and `float`, `double`

`exponenttype` is the holder type if `totalbits+esbits` is below its size (include/posit.h:54): 8 bits for posits of at most seven
bits in an `int8_t`. The exponent field of a `float` has 8 bits, that of a `double` 11, so that the constructors compute with
exponents modulo 256.
-/

namespace Verif
open Fmt

variable {c : Cfg}

/-- **C94**, `Posit(float)`: normal numbers are truncated toward zero as they should be. -/
theorem C94_single_normal (h : c.WF) (hE : c.E = 8) {b : ℕ} {y : ℚ} (hy : ieee 8 23 b = .num y) (hn : minNorm 8 ≤ |y|) :
    ∃ v, Posit.ofFloat c .single b = .ok v ∧ c.fmt.IsTrunc y v := by
  rw [C51_traits.2.1]
  have hlt := fExp_lt 8 23 b
  obtain ⟨h1, ⟨h2, h3⟩ | ⟨h2, h3⟩⟩ := ieee_num hy
  · exact absurd hn (not_le.mpr (sub_abs h3).2)
  norm_num at h1 hlt
  obtain ⟨v, v1, v2⟩ := narrow_regular h hE (eb := 8) (fb := 23) (by norm_num) (by norm_num) (by norm_num) (b := b)
    (w := (fExp 8 23 b : ℤ) - 127) (k := 0) (by norm_num) (by omega) (by omega) (by omega)
  refine ⟨v, v1, ?_⟩
  rw [h3]
  push_cast at v2 ⊢
  norm_num at v2 ⊢
  exact v2

example : (⟨8, 6, 1, 8, .withNan⟩ : Cfg).WF ∧ (⟨8, 6, 1, 8, .withNan⟩ : Cfg).E = 8 ∧ ieee 8 23 0xc0490fdb = .num (-13176795 / 4194304) ∧
    minNorm 8 ≤ |(-13176795 / 4194304 : ℚ)| ∧ Posit.ofFloat ⟨8, 6, 1, 8, .withNan⟩ .single 0xc0490fdb = .ok (-22) ∧
    (⟨8, 6, 1, 8, .withNan⟩ : Cfg).fmt.val (-22) = -3 := by
  refine ⟨by decide, by decide, by norm_num [ieee], ?_, by decide +kernel, by decide +kernel⟩
  unfold minNorm
  norm_num [abs_of_pos, abs_of_neg]

/-- **C94**, `Posit(float)`, subnormals: from `2^-128` on they become the least posit of their sign, as they should; below they
become the *greatest* one, unless the fraction type loses all their digits. -/
theorem C94_single_sub (h : c.WF) (hE : c.E = 8) {b : ℕ} {y : ℚ} (hy : ieee 8 23 b = .num y) (hn : |y| < minNorm 8) :
    (2 ^ (-128 : ℤ) ≤ |y| → Posit.ofFloat c .single b = .ok (if y < 0 then -1 else 1)) ∧
    (|y| < 2 ^ (-128 : ℤ) → readSub 8 c.F y ≠ 0 → Posit.ofFloat c .single b = .ok (if y < 0 then c.minneg else c.maxpos)) ∧
    (readSub 8 c.F y = 0 → Posit.ofFloat c .single b = .ok 0) := by
  rw [C51_traits.2.1]
  obtain ⟨h1, ⟨h2, h3⟩ | ⟨h2, h3⟩⟩ := ieee_num hy
  swap
  · exfalso
    have hM := fMan_lt 23 b
    have he := (norm_exp hM ((fExp 8 23 b : ℤ) - (2 ^ (8 - 1) - 1) - (23 : ℕ))).1
    have habs : |y| = ((2 ^ 23 + fMan 23 b : ℕ) : ℚ) * 2 ^ ((fExp 8 23 b : ℤ) - (2 ^ (8 - 1) - 1) - (23 : ℕ)) := by
      rw [h3, abs_sign_mul _ (by positivity)]; push_cast; ring
    rw [← habs] at he
    refine absurd (lt_of_le_of_lt he hn) (not_lt.mpr ?_)
    unfold minNorm
    refine zpow_le_zpow_right₀ (by norm_num) ?_
    norm_num
    omega
  obtain ⟨hN, hms, -, -⟩ := narrow_facts h hE
  obtain ⟨m, hm⟩ : ∃ m, m = fracOf c.F 23 (2 ^ 23 + fMan 23 b) := ⟨_, rfl⟩
  obtain ⟨n1, n2, n3⟩ := narrow_sub h hE (eb := 8) (fb := 23) (by norm_num) (by norm_num) (by norm_num) (b := b) (w := -127)
    (k := 0) (by rw [h2]; norm_num) (by norm_num) (by norm_num) (by rw [h2]) hm
  have hF := h.hF
  have hM := fMan_lt 23 b
  have hmlt : m < 2 ^ c.F := by
    rw [hm]; apply fracOf_lt; rw [pow_succ]; omega
  have hcut : readSub 8 c.F y = (if fSign 8 23 b then -1 else 1 : ℚ) * (m * 2 ^ ((-126 : ℤ) - c.F)) := by
    unfold readSub
    rw [if_pos hn]
    have := cut_digits (F := c.F) h3
    norm_num at this
    unfold subUnit
    norm_num
    rw [this, hm]
    norm_num
  have hrs : readSub 8 c.F y = 0 ↔ m = 0 := by
    rw [← abs_eq_zero, hcut, abs_sign_mul _ (by positivity), mul_eq_zero]
    constructor
    · rintro (a | a)
      · exact_mod_cast a
      · exact absurd a (by positivity)
    · intro a; left; exact_mod_cast a
  have hsub := (sub_abs h3).1
  rw [show (2 : ℤ) - 2 ^ (8 - 1) - (23 : ℕ) = -149 by norm_num] at hsub
  have hy0 : m ≠ 0 → y ≠ 0 ∧ (y < 0 ↔ fSign 8 23 b = true) := fun h0 => by
    have hM0 : fMan 23 b ≠ 0 := by
      rintro hz
      rw [hz] at hm
      apply h0
      rw [hm]
      unfold fracOf
      simp
    have hp : (0 : ℚ) < fMan 23 b * 2 ^ ((2 : ℤ) - 2 ^ (8 - 1) - (23 : ℕ)) := by
      have : (0 : ℚ) < fMan 23 b := by exact_mod_cast Nat.pos_of_ne_zero hM0
      positivity
    rw [h3]
    cases fSign 8 23 b
    · simp only [Bool.false_eq_true, if_false, one_mul, iff_false, not_lt]; exact ⟨hp.ne', hp.le⟩
    · simp only [if_true, iff_true]; exact ⟨by linarith, by linarith⟩
  -- one is not reached when the fraction type is wide
  have hm1 : ¬ (m = 1 ∧ 32 ≤ c.F) := by
    rintro ⟨a1, a2⟩
    unfold fracOf at hm
    rw [if_pos (by omega), Nat.add_sub_cancel_left] at hm
    obtain ⟨t, ht⟩ : ∃ t, 2 ^ (c.F - 23) = 2 * t := ⟨2 ^ (c.F - 24), by rw [← pow_succ']; congr 1; omega⟩
    rw [ht, a1] at hm
    have : 1 = 2 * (fMan 23 b * t) := by rw [hm]; ring
    omega
  have hbig : 2 ^ (-128 : ℤ) ≤ |y| ↔ 2 ^ (c.F - 2) ≤ m := by
    have e1 : 2 ^ (-128 : ℤ) ≤ |y| ↔ 2 ^ 21 ≤ fMan 23 b := by
      rw [hsub, show (2 : ℚ) ^ (-128 : ℤ) = 2 ^ 21 * 2 ^ (-149 : ℤ) by norm_num]
      have hp : (0 : ℚ) < 2 ^ (-149 : ℤ) := by positivity
      rw [mul_le_mul_iff_left₀ hp]
      exact_mod_cast Iff.rfl
    rw [e1, hm]
    unfold fracOf
    rw [Nat.add_sub_cancel_left]
    split_ifs with hc
    · rw [show c.F - 2 = 21 + (c.F - 23) by omega, pow_add]
      exact (Nat.mul_le_mul_right_iff (by positivity)).symm
    · rw [Nat.le_div_iff_mul_le (by positivity), ← pow_add, show c.F - 2 + (23 - c.F) = 21 by omega]
  have hlog : m ≠ 0 → (2 ^ (c.F - 2) ≤ m ↔ c.F - 2 ≤ m.log2) := fun h0 => by
    constructor
    · intro hh
      by_contra hc
      have := Nat.lt_log2_self (n := m)
      have hle : 2 ^ (m.log2 + 1) ≤ 2 ^ (c.F - 2) := Nat.pow_le_pow_right (by norm_num) (by omega)
      omega
    · intro hh
      exact le_trans (Nat.pow_le_pow_right (by norm_num) hh) (Nat.log2_self_le h0)
  have hneg : m ≠ 0 → ∀ {X : ℤ}, ((if fSign 8 23 b then -1 else 1 : ℚ) * (m * 2 ^ X) < 0 ↔ y < 0) := fun h0 X => by
    have hp : (0 : ℚ) < m * 2 ^ X := by
      have : (0 : ℚ) < m := by exact_mod_cast Nat.pos_of_ne_zero h0
      positivity
    rw [(hy0 h0).2]
    cases fSign 8 23 b
    · simp only [Bool.false_eq_true, if_false, one_mul, iff_false, not_lt]; exact hp.le
    · simp only [if_true, iff_true]; linarith
  have hLF : m ≠ 0 → m.log2 < c.F := fun h0 =>
    (Nat.pow_lt_pow_iff_right (by norm_num : 1 < 2)).mp (lt_of_le_of_lt (Nat.log2_self_le h0) hmlt)
  refine ⟨fun hb => ?_, fun hb hr => ?_, fun hr => n1 (hrs.mp hr)⟩
  · have hmb := hbig.mp hb
    have h0 : m ≠ 0 := by have := Nat.one_le_two_pow (n := c.F - 2); omega
    have hl := (hlog h0).mp hmb
    have hl2 := hLF h0
    obtain ⟨v, v1, v2⟩ := n3 h0 hm1 0 (by omega) (by omega)
    have ht := trunc_tiny h v2 (by
      rw [abs_sign_mul _ (by positivity)]
      have hmq : (m : ℚ) < 2 ^ c.F := by exact_mod_cast hmlt
      calc (m : ℚ) * 2 ^ ((-127 : ℤ) + 1 - c.F - 256 * 0) < 2 ^ c.F * 2 ^ ((-127 : ℤ) + 1 - c.F - 256 * 0) :=
            mul_lt_mul_of_pos_right hmq (by positivity)
        _ = 2 ^ (-126 : ℤ) := by rw [← zpow_natCast, ← zpow_add₀ (by norm_num)]; congr 1; ring
        _ ≤ _ := zpow_le_zpow_right₀ (by norm_num) (by omega))
    simp only [hneg h0] at ht
    rw [v1, ht]
  · have h0 : m ≠ 0 := fun hc => hr (hrs.mpr hc)
    have hl : ¬ c.F - 2 ≤ m.log2 := fun hc => absurd (hbig.mpr ((hlog h0).mpr hc)) (not_le.mpr hb)
    have hl2 := hLF h0
    obtain ⟨v, v1, v2⟩ := n3 h0 hm1 (-1) (by omega) (by omega)
    have ht := trunc_huge h v2 (by
      rw [abs_sign_mul _ (by positivity)]
      have hmq : (1 : ℚ) ≤ m := by exact_mod_cast Nat.pos_of_ne_zero h0
      calc (2 : ℚ) ^ ((c.maxScale : ℤ) + 1) ≤ 2 ^ ((-127 : ℤ) + 1 - c.F - 256 * -1) :=
            zpow_le_zpow_right₀ (by norm_num) (by omega)
        _ ≤ m * 2 ^ ((-127 : ℤ) + 1 - c.F - 256 * -1) := le_mul_of_one_le_left (by positivity) hmq)
    simp only [hneg h0] at ht
    rw [v1, ht]

/-- the least subnormal, and `2^-128` -/
example : (⟨8, 6, 1, 32, .withNan⟩ : Cfg).WF ∧ (⟨8, 6, 1, 32, .withNan⟩ : Cfg).E = 8 ∧
    Posit.ofFloat ⟨8, 6, 1, 32, .withNan⟩ .single 1 = .ok 31 ∧ Cfg.maxpos ⟨8, 6, 1, 32, .withNan⟩ = 31 ∧
    Posit.ofFloat ⟨8, 6, 1, 32, .withNan⟩ .single 0x200000 = .ok 1 ∧ Posit.ofFloat ⟨8, 6, 1, 8, .withNan⟩ .single 1 = .ok 0 := by
  decide +kernel

/-- **C94**, `Posit(float)`, infinities and NaN: they become the least posit of their sign. -/
theorem C94_single_special (h : c.WF) (hE : c.E = 8) {b : ℕ} :
    (∀ s, ieee 8 23 b = .inf s → Posit.ofFloat c .single b = .ok (if s then -1 else 1)) ∧
    (ieee 8 23 b = .nan → Posit.ofFloat c .single b = .ok (if b / 2 ^ 31 % 2 = 1 then -1 else 1)) := by
  rw [C51_traits.2.1]
  obtain ⟨hN, hms, -, -⟩ := narrow_facts h hE
  have key : fExp 8 23 b = 255 → Posit.ofFloat c (.any 8 23 true) b = .ok (if fSign 8 23 b then -1 else 1) := by
    intro hx
    obtain ⟨v, v1, v2⟩ := narrow_regular h hE (eb := 8) (fb := 23) (by norm_num) (by norm_num) (by norm_num) (b := b)
      (w := -128) (k := 1) (by rw [hx]; norm_num) (by omega) (by omega) (by omega)
    have hM := fMan_lt 23 b
    obtain ⟨g1, g2⟩ := norm_exp hM (-128 - (23 : ℕ))
    have ht := trunc_tiny h v2 (by
      rw [abs_sign_mul _ (by positivity)]
      exact lt_of_lt_of_le g2 (zpow_le_zpow_right₀ (by norm_num) (by omega)))
    have hp : (0 : ℚ) < ((2 ^ 23 + fMan 23 b : ℕ) : ℚ) * 2 ^ ((-128 : ℤ) - (23 : ℕ)) := lt_of_lt_of_le (by positivity) g1
    rw [v1, ht]
    generalize ((2 ^ 23 + fMan 23 b : ℕ) : ℚ) * 2 ^ ((-128 : ℤ) - (23 : ℕ)) = q at hp
    cases fSign 8 23 b
    · simp only [Bool.false_eq_true, if_false, one_mul]; rw [if_neg (not_lt.mpr hp.le)]
    · simp only [if_true]; rw [if_pos (by linarith)]
  constructor
  · intro s hs
    rw [ieee_eq] at hs
    split_ifs at hs with h1 h2
    cases hs
    exact key (by simpa using h1)
  · intro hs
    rw [ieee_eq] at hs
    split_ifs at hs with h1 h2
    rw [key (by simpa using h1)]
    unfold fSign
    norm_num

example : (⟨8, 6, 1, 8, .withNan⟩ : Cfg).WF ∧ (⟨8, 6, 1, 8, .withNan⟩ : Cfg).E = 8 ∧ ieee 8 23 0xff800000 = .inf true ∧
    Posit.ofFloat ⟨8, 6, 1, 8, .withNan⟩ .single 0xff800000 = .ok (-1) ∧ ieee 8 23 0x7fc00000 = .nan ∧
    Posit.ofFloat ⟨8, 6, 1, 8, .withNan⟩ .single 0x7fc00000 = .ok 1 := by
  refine ⟨by decide, by decide, by norm_num [ieee], by decide +kernel, by norm_num [ieee], by decide +kernel⟩

/-- **C94**, `Posit(double)`, normal numbers: the exponent is taken modulo 256. Let `z` be the number multiplied by the power of
`2^256` that brings its exponent between -128 and 127. If `|z|` is not in `[2, 4)`, the result is `z` truncated toward zero. If it
is, the leading bit is lost: the result is `2(z - 2)` (`2(z + 2)` for negative `z`), cut to the bits of the fraction type and
truncated; zero for `±2`; and undefined if one unit in the last of at least 32 bits is left. -/
theorem C94_double_normal (h : c.WF) (hE : c.E = 8) {b : ℕ} {y z d : ℚ} {j : ℤ} (hy : ieee 11 52 b = .num y)
    (hn : minNorm 11 ≤ |y|) (hz : z = y * 2 ^ (256 * j)) (hz1 : 2 ^ (-128 : ℤ) ≤ |z|) (hz2 : |z| < 2 ^ (128 : ℤ))
    (hd : d = cutTo (2 ^ ((2 : ℤ) - c.F)) (2 * (z - if z < 0 then -2 else 2))) :
    (|z| < 2 ∨ 4 ≤ |z| → ∃ v, Posit.ofFloat c .double b = .ok v ∧ c.fmt.IsTrunc z v) ∧
    (2 ≤ |z| → |z| < 4 →
      (d = 0 → Posit.ofFloat c .double b = .ok 0) ∧
      (|d| = 2 ^ ((2 : ℤ) - c.F) → 32 ≤ c.F → Posit.ofFloat c .double b = .error .shiftAmount) ∧
      (d ≠ 0 → ¬ (|d| = 2 ^ ((2 : ℤ) - c.F) ∧ 32 ≤ c.F) → ∃ v, Posit.ofFloat c .double b = .ok v ∧ c.fmt.IsTrunc d v)) := by
  rw [C51_traits.2.2]
  obtain ⟨h1, ⟨h2, h3⟩ | ⟨h2, h3⟩⟩ := ieee_num hy
  · exact absurd hn (not_le.mpr (sub_abs h3).2)
  have hM := fMan_lt 52 b
  obtain ⟨w, hw⟩ : ∃ w : ℤ, w = (fExp 11 52 b : ℤ) - 1023 + 256 * j := ⟨_, rfl⟩
  have hzv : z = (if fSign 11 52 b then -1 else 1 : ℚ) * ((2 ^ 52 + fMan 52 b : ℕ) * 2 ^ (w - (52 : ℕ))) := by
    rw [hz, h3, hw, mul_assoc, mul_assoc, ← zpow_add₀ (by norm_num)]
    rw [show (fExp 11 52 b : ℤ) - (2 ^ (11 - 1) - 1) - (52 : ℕ) + 256 * j = (fExp 11 52 b : ℤ) - 1023 + 256 * j - (52 : ℕ) by
      norm_num; ring]
    push_cast
    rfl
  have habs : |z| = (2 ^ 52 + fMan 52 b : ℕ) * 2 ^ (w - (52 : ℕ)) := by rw [hzv, abs_sign_mul _ (by positivity)]
  obtain ⟨g1, g2⟩ := norm_exp hM (w - (52 : ℕ))
  rw [← habs, show w - (52 : ℕ) + (52 : ℕ) = w by ring] at g1
  rw [← habs, show w - (52 : ℕ) + (52 : ℕ) + 1 = w + 1 by ring] at g2
  have two : (1 : ℚ) < 2 := by norm_num
  have hw1 : -128 ≤ w := by
    have := (zpow_lt_zpow_iff_right₀ two).mp (lt_of_le_of_lt hz1 g2)
    omega
  have hw2 : w < 128 := (zpow_lt_zpow_iff_right₀ two).mp (lt_of_le_of_lt g1 hz2)
  have hw4 : w = 1 ↔ 2 ≤ |z| ∧ |z| < 4 := by
    constructor
    · rintro rfl
      norm_num at g1 g2
      exact ⟨g1, g2⟩
    · rintro ⟨a1, a2⟩
      have b1 : (2 : ℚ) ^ (1 : ℤ) < 2 ^ (w + 1) := lt_of_le_of_lt (by norm_num; exact a1) g2
      have b2 : (2 : ℚ) ^ w < 2 ^ (2 : ℤ) := lt_of_le_of_lt g1 (lt_of_lt_of_le a2 (by norm_num))
      have := (zpow_lt_zpow_iff_right₀ two).mp b1
      have := (zpow_lt_zpow_iff_right₀ two).mp b2
      omega
  constructor
  · intro hne
    have hwn : w ≠ 1 := by
      rw [Ne, hw4]
      rintro ⟨a1, a2⟩
      rcases hne with a | a
      · exact absurd a1 (not_le.mpr a)
      · exact absurd a2 (not_lt.mpr a)
    obtain ⟨v, v1, v2⟩ := narrow_regular h hE (eb := 11) (fb := 52) (by norm_num) (by norm_num) (by norm_num) (b := b)
      (w := w) (k := -j) (by rw [hw]; norm_num) hw1 hw2 (by omega)
    exact ⟨v, v1, by rw [hzv]; exact v2⟩
  · intro a1 a2
    have hw1' := hw4.mpr ⟨a1, a2⟩
    rw [hd]
    refine double_sub h hE (by omega) ?_
    have hs : z < 0 ↔ fSign 11 52 b = true := by
      have hp : (0 : ℚ) < ((2 ^ 52 + fMan 52 b : ℕ) : ℚ) * 2 ^ (w - (52 : ℕ)) := by rw [← habs]; linarith
      rw [hzv]
      generalize ((2 ^ 52 + fMan 52 b : ℕ) : ℚ) * 2 ^ (w - (52 : ℕ)) = q at hp
      cases fSign 11 52 b
      · simp only [Bool.false_eq_true, if_false, one_mul, iff_false, not_lt]; exact hp.le
      · simp only [if_true, iff_true]; linarith
    simp only [hs]
    rw [hzv, hw1']
    push_cast
    cases fSign 11 52 b
    · norm_num
      ring
    · norm_num
      ring

/-- `3.0` becomes 2, `2.5` becomes 1 and `2.0` zero -/
example : (⟨8, 6, 1, 8, .withNan⟩ : Cfg).WF ∧ (⟨8, 6, 1, 8, .withNan⟩ : Cfg).E = 8 ∧ ieee 11 52 0x4008000000000000 = .num 3 ∧
    Posit.ofFloat ⟨8, 6, 1, 8, .withNan⟩ .double 0x4008000000000000 = .ok 20 ∧ (⟨8, 6, 1, 8, .withNan⟩ : Cfg).fmt.val 20 = 2 ∧
    Posit.ofFloat ⟨8, 6, 1, 8, .withNan⟩ .double 0x4004000000000000 = .ok 16 ∧
    Posit.ofFloat ⟨8, 6, 1, 8, .withNan⟩ .double 0x4000000000000000 = .ok 0 ∧
    Posit.ofFloat ⟨8, 6, 1, 32, .withNan⟩ .double 0x4000000000100000 = .error .shiftAmount := by
  refine ⟨by decide, by decide, by norm_num [ieee], by decide +kernel⟩

/-- **C94**, `Posit(double)`, zeros and subnormals: multiplied by `2^1024`, cut to the bits of the fraction type and truncated. -/
theorem C94_double_sub (h : c.WF) (hE : c.E = 8) {b : ℕ} {y d : ℚ} (hy : ieee 11 52 b = .num y) (hn : |y| < minNorm 11)
    (hd : d = cutTo (2 ^ ((2 : ℤ) - c.F)) (y * 2 ^ (1024 : ℤ))) :
    (d = 0 → Posit.ofFloat c .double b = .ok 0) ∧
    (|d| = 2 ^ ((2 : ℤ) - c.F) → 32 ≤ c.F → Posit.ofFloat c .double b = .error .shiftAmount) ∧
    (d ≠ 0 → ¬ (|d| = 2 ^ ((2 : ℤ) - c.F) ∧ 32 ≤ c.F) → ∃ v, Posit.ofFloat c .double b = .ok v ∧ c.fmt.IsTrunc d v) := by
  rw [C51_traits.2.2]
  obtain ⟨h1, ⟨h2, h3⟩ | ⟨h2, h3⟩⟩ := ieee_num hy
  swap
  · exfalso
    have hM := fMan_lt 52 b
    have he := (norm_exp hM ((fExp 11 52 b : ℤ) - (2 ^ (11 - 1) - 1) - (52 : ℕ))).1
    have habs : |y| = ((2 ^ 52 + fMan 52 b : ℕ) : ℚ) * 2 ^ ((fExp 11 52 b : ℤ) - (2 ^ (11 - 1) - 1) - (52 : ℕ)) := by
      rw [h3, abs_sign_mul _ (by positivity)]; push_cast; ring
    rw [← habs] at he
    refine absurd (lt_of_le_of_lt he hn) (not_lt.mpr ?_)
    unfold minNorm
    refine zpow_le_zpow_right₀ (by norm_num) ?_
    norm_num
    omega
  rw [hd]
  refine double_sub h hE (by rw [h2]) ?_
  rw [h3, mul_assoc, mul_assoc, ← zpow_add₀ (by norm_num)]
  norm_num

/-- `2^-1023` becomes 2 -/
example : (⟨8, 6, 1, 8, .withNan⟩ : Cfg).WF ∧ (⟨8, 6, 1, 8, .withNan⟩ : Cfg).E = 8 ∧
    Posit.ofFloat ⟨8, 6, 1, 8, .withNan⟩ .double 0x0008000000000000 = .ok 20 ∧ (⟨8, 6, 1, 8, .withNan⟩ : Cfg).fmt.val 20 = 2 := by
  decide +kernel

/-- **C94**, `Posit(double)`, infinities and NaN: infinities become `±1`, a NaN some number from 1 to below 2 or its negative. -/
theorem C94_double_special (h : c.WF) (hE : c.E = 8) {b : ℕ} :
    (∀ s, ieee 11 52 b = .inf s → Posit.ofFloat c .double b = .ok (if s then c.mone else c.one)) ∧
    (ieee 11 52 b = .nan → ∃ v, Posit.ofFloat c .double b = .ok v ∧ c.fmt.IsReal v ∧ 1 ≤ |c.fmt.val v| ∧ |c.fmt.val v| < 2) := by
  rw [C51_traits.2.2]
  obtain ⟨-, ⟨o1, o2⟩, ⟨p1, p2⟩⟩ := C19_zero_one h
  have key : fExp 11 52 b = 2047 → ∃ v, Posit.ofFloat c (.any 11 52 true) b = .ok v ∧
      c.fmt.IsTrunc ((if fSign 11 52 b then -1 else 1 : ℚ) * ((2 ^ 52 + fMan 52 b : ℕ) * 2 ^ ((0 : ℤ) - (52 : ℕ)))) v := fun hx =>
    narrow_regular h hE (eb := 11) (fb := 52) (by norm_num) (by norm_num) (by norm_num) (b := b)
      (w := 0) (k := 4) (by rw [hx]; norm_num) (by omega) (by omega) (by omega)
  constructor
  · intro s hs
    rw [ieee_eq] at hs
    split_ifs at hs with h1 h2
    cases hs
    obtain ⟨v, v1, v2⟩ := key (by simpa using h1)
    rw [v1]
    congr 1
    rw [h2] at v2
    cases hsg : fSign 11 52 b
    · rw [hsg] at v2
      rw [if_neg (by decide)]
      exact v2.faithful.exact o1 (by rw [o2]; norm_num)
    · rw [hsg] at v2
      rw [if_pos rfl]
      exact v2.faithful.exact p1 (by rw [p2]; norm_num)
  · intro hs
    rw [ieee_eq] at hs
    split_ifs at hs with h1 h2
    obtain ⟨v, v1, v2⟩ := key (by simpa using h1)
    obtain ⟨g1, g2⟩ := norm_exp (fMan_lt 52 b) ((0 : ℤ) - (52 : ℕ))
    rw [show (0 : ℤ) - (52 : ℕ) + (52 : ℕ) = 0 by ring, zpow_zero] at g1
    rw [show (0 : ℤ) - (52 : ℕ) + (52 : ℕ) + 1 = 1 by ring, zpow_one] at g2
    have habs : |(if fSign 11 52 b then -1 else 1 : ℚ) * ((2 ^ 52 + fMan 52 b : ℕ) * 2 ^ ((0 : ℤ) - (52 : ℕ)))| =
        (2 ^ 52 + fMan 52 b : ℕ) * 2 ^ ((0 : ℤ) - (52 : ℕ)) := abs_sign_mul _ (by positivity)
    have ho : |c.fmt.val c.one| = 1 := by rw [o2, abs_one]
    refine ⟨v, v1, v2.real, ?_, ?_⟩
    · rw [← ho]
      exact v2.greatest _ o1 (one_real h).2 (by rw [habs, ho]; exact g1)
    · rcases v2.below with hb | hb
      · rw [habs] at hb
        exact lt_of_le_of_lt hb g2
      · have := hb _ o1 (one_real h).2
        rw [ho] at this
        linarith

example : (⟨8, 6, 1, 8, .withNan⟩ : Cfg).WF ∧ (⟨8, 6, 1, 8, .withNan⟩ : Cfg).E = 8 ∧ ieee 11 52 0x7ff0000000000000 = .inf false ∧
    Posit.ofFloat ⟨8, 6, 1, 8, .withNan⟩ .double 0x7ff0000000000000 = .ok 16 ∧ ieee 11 52 0xfff8000000000000 = .nan ∧
    Posit.ofFloat ⟨8, 6, 1, 8, .withNan⟩ .double 0xfff8000000000000 = .ok (-18) := by
  refine ⟨by decide, by decide, by norm_num [ieee], by decide +kernel, by norm_num [ieee], by decide +kernel⟩

/-- **C94**, `operator float`: numbers of magnitude below 2 are converted exactly, all others become zero. -/
theorem C94_toSingle (h : c.WF) (hE : c.E = 8) {v : ℤ} (hv : c.fmt.IsReal v) :
    (|c.fmt.val v| < 2 → ∃ b, Posit.toFloat c .single v = .ok b ∧ ieee 8 23 b = .num (c.fmt.val v)) ∧
    (2 ≤ |c.fmt.val v| → Posit.toFloat c .single v = .ok 0) := by
  refine ⟨fun hlt => ?_, C23_float_wrong h hE hv⟩
  by_cases h0 : v = 0
  · subst h0
    refine ⟨0, ?_, by rw [Format.val_zero]; norm_num [ieee]⟩
    unfold Posit.toFloat
    rw [unpack_zero h]
    rfl
  rw [C51_traits.2.1]
  obtain ⟨hN, hms, hfb4, -⟩ := narrow_facts h hE
  have hF := h.hF
  obtain ⟨e, f, hu⟩ := unpack_real h hv h0
  have he1 : e ≤ 0 := by
    have := (zpow_lt_zpow_iff_right₀ (by norm_num : (1 : ℚ) < 2)).mp (lt_of_le_of_lt hu.lower (show _ < (2 : ℚ) ^ (1 : ℤ) by simpa using hlt))
    omega
  have he2 := hu.e_lo
  have hd : c.F ≤ 23 ∨ 2 ^ (c.F - 23) ∣ f := by
    by_cases hc : c.F ≤ 23
    · exact Or.inl hc
    · exact Or.inr (Dvd.dvd.trans (pow_dvd_pow _ (by omega)) (hu.dvd (by omega)))
  obtain ⟨b, hb, -, hi⟩ := C23_packFloat_partial (dn := true) (E := 16) (F := c.F) (eb := 8) (fb := 23) (by norm_num) (by norm_num)
    (by norm_num) (by omega) (by decide) (s := v < 0) (e := e) (f := f) hu.f_lt (by norm_num; omega) (by norm_num; omega) hd
  refine ⟨b, ?_, ?_⟩
  · unfold Posit.toFloat
    rw [hu.eq, hE]
    simp only [bind, Except.bind]
    rw [← hb, packFloat_any, packFloat_any]
    have m1 : max 8 (Unp.leastBits 8) = 8 := by decide
    have m2 : max 16 (Unp.leastBits 8) = 16 := by decide
    have i1 : InS 8 (e + (2 ^ (8 - 1) - 1)) := by unfold InS; norm_num; omega
    have i2 : InS 16 (e + (2 ^ (8 - 1) - 1)) := by unfold InS; norm_num; omega
    simp only [m1, m2, bind, Except.bind, pure, Except.pure]
    rw [arithS_ok' i1, arithS_ok' i2]
    simp only []
    rw [wrapS_of_inS (by norm_num) i1, wrapS_of_inS (by norm_num) i2]
  · rw [hi]
    congr 1
    unfold tripleVal
    have := hu.sign_val (by omega) hv h0
    unfold mag at this
    simpa using this.symm

example : (⟨8, 6, 1, 8, .withNan⟩ : Cfg).WF ∧ (⟨8, 6, 1, 8, .withNan⟩ : Cfg).E = 8 ∧
    (⟨8, 6, 1, 8, .withNan⟩ : Cfg).fmt.val (-18) = -3 / 2 ∧
    Posit.toFloat ⟨8, 6, 1, 8, .withNan⟩ .single (-18) = .ok 0xbfc00000 ∧ ieee 8 23 0xbfc00000 = .num (-3 / 2) := by
  refine ⟨by decide, by decide, by decide +kernel, by decide +kernel, by norm_num [ieee]⟩

/-- **C94**, `operator double`: every number is converted exactly. -/
theorem C94_toDouble (h : c.WF) (hE : c.E = 8) {v : ℤ} (hv : c.fmt.IsReal v) :
    ∃ b, Posit.toFloat c .double v = .ok b ∧ ieee 11 52 b = .num (c.fmt.val v) := by
  by_cases h0 : v = 0
  · subst h0
    refine ⟨0, ?_, by rw [Format.val_zero]; norm_num [ieee]⟩
    unfold Posit.toFloat
    rw [unpack_zero h]
    rfl
  rw [C51_traits.2.2]
  obtain ⟨hN, hms, hfb4, -⟩ := narrow_facts h hE
  have hF := h.hF
  obtain ⟨r1, r2⟩ := val_range h hv h0 (B := 100) (by omega)
  obtain ⟨b, b1, -, b2⟩ := C23_toFloat_partial (dn := true) (eb := 11) (fb := 52) h (by omega) (by norm_num) (by norm_num)
    (by norm_num) (by omega) (by rw [hE]; decide) hv h0 (le_trans (zpow_le_zpow_right₀ (by norm_num) (by norm_num)) r1)
    (lt_of_lt_of_le r2 (zpow_le_zpow_right₀ (by norm_num) (by norm_num)))
  exact ⟨b, b1, b2⟩

example : (⟨8, 6, 1, 8, .withNan⟩ : Cfg).WF ∧ (⟨8, 6, 1, 8, .withNan⟩ : Cfg).E = 8 ∧
    (⟨8, 6, 1, 8, .withNan⟩ : Cfg).fmt.val (-20) = -2 ∧
    Posit.toFloat ⟨8, 6, 1, 8, .withNan⟩ .double (-20) = .ok 0xc000000000000000 := by decide +kernel

end Verif
