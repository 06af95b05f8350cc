import Verif.Props.Fixed
import Verif.Model.FixedWide

/-!
# C95: fixed point numbers

`Unpacked::make_fixed` and `pack_xfixed` (include/unpacked.h:499-533, 638-684) convert from and to fixed point numbers: integers
of `N` bits that count units of `2^-q`. The outcome is determined for every integer and every object; the integer type has `N` bits,
except in `C95_wide_ub`.
-/

namespace Verif
open Fmt

variable {F E N q w : ℕ}

/-- `pack_xfixed` of numbers that reach the sign bit, 8 and 16 bits -/
theorem packFixed_top (hN : N = 8 ∨ N = 16) (hF : 1 ≤ F) {s : Bool} {e : ℤ} {f : ℕ} (hf : f < 2 ^ F) (he : e + q = N - 1)
    {x : ℚ} (hx : x = tripleVal F s e f * 2 ^ q) :
    Unp.packFixed F N q ⟨.regular, s, e, f⟩ = .ok ((truncZ x).bmod (2 ^ N)) := by
  have hpw : pw N = 32 := by unfold pw; omega
  have hx' : x = (if s then -1 else 1 : ℚ) * mag F (e + q) f := by
    rw [← mag_scale, hx]; unfold tripleVal mag; ring
  have hk : e + q = ((N - 1 : ℕ) : ℤ) := by omega
  have htr : truncZ x = if s then -((2 ^ (N - 1) + f * 2 ^ (N - 1) / 2 ^ F : ℕ) : ℤ)
      else ((2 ^ (N - 1) + f * 2 ^ (N - 1) / 2 ^ F : ℕ) : ℤ) := by
    rw [hx', truncZ_sign _ (mag_pos _ _ _).le, ← mag_scale, floor_mag hf hk]
  have hb := frac_shift_lt (F := F) (f := f) (k := N - 1) hf
  have e2 := two_pow_pred_nat (w := N) (by omega)
  have e2' := two_pow_pred (w := N) (by omega)
  have hp : (0 : ℤ) < 2 ^ (N - 1) := by positivity
  have hN16 : (2 : ℤ) ^ N ≤ 65536 := by rcases hN with rfl | rfl <;> norm_num
  have hrun : Unp.packFixed F N q ⟨.regular, s, e, f⟩ =
      Posit.condNeg N s (((f * 2 ^ (N - 1) / 2 ^ F : ℕ) : ℤ) - 2 ^ (N - 1)) := by
    unfold Unp.packFixed
    simp only [bind, Except.bind, pure, Except.pure]
    rw [if_neg (by omega), if_neg (by omega), extractPack_eq (by omega) le_rfl hF hf, hk]
    simp only []
    have hsh : shlS N 1 ((N - 1 : ℕ) : ℤ) = .ok ((2 ^ (N - 1) : ℕ) : ℤ) := by
      rcases hN with rfl | rfl <;> decide +kernel
    rw [hsh]
    simp only []
    rw [shrU_ok (k := 1) (by omega) (by omega)]
    have h1 := frac_shift (F := F) (N := N) (f := f) (k := N - 1) (by omega)
    rw [show N - (N - 1) = 1 by omega] at h1
    rw [h1]
    simp only []
    generalize f * 2 ^ (N - 1) / 2 ^ F = b at *
    have hbz : (b : ℤ) < 2 ^ (N - 1) := by exact_mod_cast hb
    have hbS : wrapS N (b : ℤ) = b := wrapS_of_inS (by omega) ⟨by omega, hbz⟩
    have hNn : (2 : ℕ) ^ N ≤ 65536 := by exact_mod_cast hN16
    rw [hbS, hpw, wrapU_natCast (by omega), wrapU_natCast (by omega)]
    have hor : (2 ^ (N - 1) ||| b : ℕ) = 2 ^ (N - 1) + b := by
      have := Nat.two_pow_add_eq_or_of_lt hb 1
      rw [mul_one] at this
      exact this.symm
    rw [hor]
    congr 1
    apply wrapS_eq (by omega) 1
    · push_cast; omega
    · constructor <;> omega
  have hpc : ((2 ^ (N - 1) + f * 2 ^ (N - 1) / 2 ^ F : ℕ) : ℤ) = 2 ^ (N - 1) + ((f * 2 ^ (N - 1) / 2 ^ F : ℕ) : ℤ) := by
    rw [Nat.cast_add]; norm_cast
  have hbz : ((f * 2 ^ (N - 1) / 2 ^ F : ℕ) : ℤ) < 2 ^ (N - 1) := by exact_mod_cast hb
  rw [hpc] at htr
  rw [hrun, htr]
  generalize (f * 2 ^ (N - 1) / 2 ^ F : ℕ) = b at *
  unfold Posit.condNeg
  cases s
  · simp only [Bool.false_eq_true, if_false]
    refine congrArg Except.ok (Eq.symm ?_)
    exact wrapS_eq (by omega) 1 (by omega) ⟨by omega, by omega⟩
  · simp only [if_true] at htr ⊢
    have har : arithS N (-((b : ℤ) - 2 ^ (N - 1))) = .ok (-((b : ℤ) - 2 ^ (N - 1))) := by
      apply arithS_ok
      rw [hpw]
      exact ⟨by norm_num; omega, by norm_num; omega⟩
    rw [har]
    simp only [bind, Except.bind, pure, Except.pure]
    refine congrArg Except.ok ?_
    by_cases hb0 : b = 0
    · subst hb0
      rw [wrapS_eq (w := N) (y := -2 ^ (N - 1)) (by omega) 1 (by push_cast; omega) ⟨by omega, by omega⟩]
      exact (wrapS_eq (w := N) (by omega) 0 (by push_cast; omega) ⟨by omega, by omega⟩).symm
    · have : (0 : ℤ) < b := by exact_mod_cast Nat.pos_of_ne_zero hb0
      rw [wrapS_of_inS (by omega) ⟨by omega, by omega⟩]
      exact (wrapS_eq (w := N) (by omega) (-1) (by omega) ⟨by omega, by omega⟩).symm

/-- **C95**, `pack_xfixed` of a number: with `x` the number in units of `2^-q`, numbers from `2^N` on saturate; for 32 and 64
bits, numbers in `[1, 2)` shift out of range and those that truncate to the least integer overflow; everything else is
truncated toward zero and taken modulo `2^N`. -/
theorem C95_pack (hN : N = 8 ∨ N = 16 ∨ N = 32 ∨ N = 64) (hF : 1 ≤ F) {s : Bool} {e : ℤ} {f : ℕ} (hf : f < 2 ^ F)
    {x : ℚ} (hx : x = tripleVal F s e f * 2 ^ q) :
    Unp.packFixed F N q ⟨.regular, s, e, f⟩ =
      if 2 ^ N ≤ |x| then .ok (if x < 0 then -2 ^ (N - 1) else 2 ^ (N - 1) - 1)
      else if 32 ≤ N ∧ 1 ≤ |x| ∧ |x| < 2 then .error .shiftAmount
      else if 32 ≤ N ∧ truncZ x = -2 ^ (N - 1) then .error .overflow
      else .ok ((truncZ x).bmod (2 ^ N)) := by
  have hx' : x = (if s then -1 else 1 : ℚ) * mag F (e + q) f := by
    rw [← mag_scale, hx]; unfold tripleVal mag; ring
  have hmp := mag_pos F (e + q) f
  have habs : |x| = mag F (e + q) f := by rw [hx', abs_sign_mul _ hmp.le]
  have hlo := le_mag F (e + q) f
  have hhi := mag_lt (F := F) (e := e + q) hf
  have htr : truncZ x = if s then -⌊mag F (e + q) f⌋ else ⌊mag F (e + q) f⌋ := by rw [hx', truncZ_sign _ hmp.le]
  rw [← habs] at hlo hhi htr
  have two : (1 : ℚ) < 2 := by norm_num
  have hp : (0 : ℤ) < 2 ^ (N - 1) := by positivity
  have hp2 : (1 : ℤ) < 2 ^ (N - 1) := one_lt_pow₀ (by norm_num) (by omega)
  have e2 := two_pow_pred (w := N) (by omega)
  have hN1 : 1 ≤ N := by omega
  have hsgn : x < 0 ↔ s = true := by
    rw [hx']
    cases s
    · simp only [Bool.false_eq_true, if_false, one_mul, iff_false, not_lt]; exact hmp.le
    · simp only [if_true, iff_true]; linarith
  by_cases c1 : 2 ^ N ≤ |x|
  · rw [if_pos c1, C21_packFixed_partial hN hF hf hx (Or.inr (Or.inr c1))]
    have hfl : (2 : ℤ) ^ N ≤ ⌊|x|⌋ := by rw [Int.le_floor]; exact_mod_cast c1
    congr 1
    rw [htr]
    unfold satZ
    simp only [hsgn]
    cases s
    · simp only [Bool.false_eq_true, if_false]; omega
    · simp only [if_true]; omega
  rw [if_neg c1]
  rw [not_le] at c1
  by_cases c2 : 32 ≤ N ∧ 1 ≤ |x| ∧ |x| < 2
  · rw [if_pos c2]
    refine C21_one_ub (by omega) hF hf ?_
    have a1 : (2 : ℚ) ^ (e + q) < 2 ^ (1 : ℤ) := lt_of_le_of_lt hlo (by simpa using c2.2.2)
    have a2 : (2 : ℚ) ^ (0 : ℤ) < 2 ^ (e + q + 1) := lt_of_le_of_lt (by simpa using c2.2.1) hhi
    have := (zpow_lt_zpow_iff_right₀ two).mp a1
    have := (zpow_lt_zpow_iff_right₀ two).mp a2
    omega
  rw [if_neg c2]
  by_cases c3 : |x| < 2 ^ (N - 1)
  · have hfl : ⌊|x|⌋ < 2 ^ (N - 1) := by rw [Int.floor_lt]; exact_mod_cast c3
    have hfl0 : 0 ≤ ⌊|x|⌋ := Int.floor_nonneg.mpr (abs_nonneg x)
    have hin : InS N (truncZ x) := by
      rw [htr]
      cases s
      · simp only [Bool.false_eq_true, if_false]; exact ⟨by omega, hfl⟩
      · simp only [if_true]; exact ⟨by omega, by omega⟩
    rw [if_neg (by
      rintro ⟨-, h⟩
      rw [htr] at h
      cases s
      · simp only [Bool.false_eq_true, if_false] at h; omega
      · simp only [if_true] at h; omega)]
    rw [C21_packFixed_partial hN hF hf hx (by
      by_cases d1 : |x| < 1
      · exact Or.inl d1
      · refine Or.inr (Or.inl ⟨?_, c3⟩)
        by_contra hc
        push Not at hc d1
        exact c2 ⟨hc.2, d1, hc.1⟩), satZ_id hin]
    exact congrArg Except.ok (wrapS_of_inS hN1 hin).symm
  · rw [not_lt] at c3
    have he : e + q = N - 1 := by
      have a1 : (2 : ℚ) ^ (e + q) < 2 ^ (N : ℤ) := lt_of_le_of_lt hlo (by rw [zpow_natCast]; exact c1)
      have a2 : (2 : ℚ) ^ ((N - 1 : ℕ) : ℤ) < 2 ^ (e + q + 1) := lt_of_le_of_lt (by rw [zpow_natCast]; exact c3) hhi
      have := (zpow_lt_zpow_iff_right₀ two).mp a1
      have := (zpow_lt_zpow_iff_right₀ two).mp a2
      omega
    by_cases h32 : N < 32
    · rw [if_neg (by omega)]
      exact packFixed_top (by omega) hF hf he hx
    have hfl : ⌊|x|⌋ < 2 ^ N := by rw [Int.floor_lt]; exact_mod_cast c1
    have hfl2 : (2 : ℤ) ^ (N - 1) ≤ ⌊|x|⌋ := by rw [Int.le_floor]; exact_mod_cast c3
    obtain ⟨t1, t2, t3⟩ := C21_top_wrong (N := N) (by omega) hF hf he hx
    cases s
    · simp only [Bool.false_eq_true, if_false] at htr
      rw [if_neg (by omega)]
      obtain ⟨r, r0, r1, r2⟩ := t1 rfl
      rw [r1, r2]
      refine congrArg Except.ok (Eq.symm ?_)
      exact wrapS_eq hN1 1 (by omega) ⟨by omega, by omega⟩
    · simp only [if_true] at htr
      by_cases hm : truncZ x = -2 ^ (N - 1)
      · rw [if_pos ⟨by omega, hm⟩]; exact t2 rfl hm
      · rw [if_neg (by tauto)]
        obtain ⟨r, r0, r1, r2⟩ := t3 rfl hm
        rw [r1, r2]
        refine congrArg Except.ok (Eq.symm ?_)
        exact wrapS_eq hN1 (-1) (by omega) ⟨by omega, by omega⟩

/-- `200.0` as an 8-bit integer is `-56`, `10.75` with one fraction bit is `21` halves; `-1.5` as an `int` is undefined -/
example : Unp.packFixed 32 8 0 ⟨.regular, false, 7, 0x90000000⟩ = .ok (-56) ∧ tripleVal 32 false 7 0x90000000 = 200 ∧
    Unp.packFixed 32 32 1 ⟨.regular, false, 3, 0x58000000⟩ = .ok 21 ∧ tripleVal 32 false 3 0x58000000 = 43 / 4 ∧
    Unp.packFixed 32 32 0 ⟨.regular, true, 0, 0x80000000⟩ = .error .shiftAmount := by
  refine ⟨by decide +kernel, by unfold tripleVal; norm_num, by decide +kernel, by unfold tripleVal; norm_num, by decide +kernel⟩

/-- **C95**, `pack_xfixed` of zero, infinity and NaN: zero. -/
theorem C95_pack_special (u : Unp) (hu : u.ty ≠ .regular) : Unp.packFixed F N q u = .ok 0 := by
  obtain ⟨t, s, e, f⟩ := u
  cases t <;> first | rfl | exact absurd rfl hu

example : Unp.packFixed 32 32 0 ⟨.infinity, true, 0, 0⟩ = .ok 0 := by decide +kernel

/-- **C95**, `make_fixed`: zero is zero; the least integer of 32 or 64 bits overflows; every other integer becomes the number
`i/2^q`, the digits of `i` after the first `F+1` cut off. -/
theorem C95_unpack (hN : N = 8 ∨ N = 16 ∨ N = 32 ∨ N = 64) (hF : 1 ≤ F) (hE : 8 ≤ E) (hq : q ≤ 64) {i : ℤ}
    (hi : -2 ^ (N - 1) ≤ i ∧ i < 2 ^ (N - 1)) :
    (i = 0 → Unp.unpackFixed F E N q i = .ok ⟨.zero, false, 0, 0⟩) ∧
    (32 ≤ N → i = -2 ^ (N - 1) → Unp.unpackFixed F E N q i = .error .overflow) ∧
    (i ≠ 0 → ¬ (32 ≤ N ∧ i = -2 ^ (N - 1)) → ∃ e f, f < 2 ^ F ∧ Unp.unpackFixed F E N q i = .ok ⟨.regular, i < 0, e, f⟩ ∧
      tripleVal F (i < 0) e f = ((i.tdiv (2 ^ (i.natAbs.log2 - F)) * 2 ^ (i.natAbs.log2 - F) : ℤ) : ℚ) / 2 ^ q) := by
  refine ⟨?_, ?_, ?_⟩
  · rintro rfl
    unfold Unp.unpackFixed
    rw [if_neg (by simp)]
    rfl
  · intro h32 h
    have hpw : pw N = N := by unfold pw; omega
    have hp : (0 : ℤ) < 2 ^ (N - 1) := by positivity
    unfold Unp.unpackFixed Posit.pcabs Posit.condNeg
    rw [if_pos (by omega), if_pos (by simp only [decide_eq_true_eq]; omega)]
    have : arithS N (-i) = .error .overflow := by
      unfold arithS
      rw [hpw, if_neg (by omega)]
    rw [this]
    rfl
  · intro h0 hm
    obtain ⟨hL1, hL2⟩ := intLog i h0
    have hL := natAbs_log_lt h0 (k := N) (by
      rw [abs_lt]
      have e2 := two_pow_pred (w := N) (by omega)
      have hp : (0 : ℤ) < 2 ^ (N - 1) := by positivity
      omega)
    have hx : InS E (-(q : ℤ) + i.natAbs.log2) := by
      have : (2 : ℤ) ^ 7 ≤ 2 ^ (E - 1) := pow_le_pow_right₀ (by norm_num) (by omega)
      norm_num at this
      constructor <;> omega
    refine ⟨_, _, fracOf_lt hL2, unpackFixed_eq hN hF (by omega) h0 hi (by omega) hx, ?_⟩
    have hmag : mag F (-(q : ℤ) + i.natAbs.log2) (fracOf F i.natAbs.log2 i.natAbs) =
        ((i.natAbs / 2 ^ (i.natAbs.log2 - F) * 2 ^ (i.natAbs.log2 - F) : ℕ) : ℚ) * 2 ^ (-(q : ℤ)) := by
      by_cases hLF : i.natAbs.log2 ≤ F
      · rw [fracOf_exact hL1 hLF, show i.natAbs.log2 - F = 0 by omega, pow_zero, Nat.div_one, mul_one]
      · rw [(fracOf_unit hL1 _).1, fracOf_add hL1, if_neg hLF]
        have e : -(q : ℤ) + i.natAbs.log2 - F = ((i.natAbs.log2 - F : ℕ) : ℤ) + -(q : ℤ) := by omega
        rw [e, zpow_add₀ (by norm_num), zpow_natCast]
        push_cast; ring
    have hsg : ((i.tdiv (2 ^ (i.natAbs.log2 - F)) * 2 ^ (i.natAbs.log2 - F) : ℤ) : ℚ) =
        (if decide (i < 0) = true then -1 else 1 : ℚ) *
          ((i.natAbs / 2 ^ (i.natAbs.log2 - F) * 2 ^ (i.natAbs.log2 - F) : ℕ) : ℚ) := by
      generalize i.natAbs.log2 - F = d
      by_cases hn : i < 0
      · obtain ⟨n, rfl⟩ : ∃ n : ℕ, i = -n := ⟨i.natAbs, by omega⟩
        rw [Int.neg_tdiv, Int.natAbs_neg, Int.natAbs_natCast, if_pos (by simpa using hn)]
        have : ((n : ℤ)).tdiv (2 ^ d) = ((n / 2 ^ d : ℕ) : ℤ) := by
          rw [Int.tdiv_eq_ediv_of_nonneg (by omega)]; push_cast; rfl
        rw [this]
        generalize n / 2 ^ d = k
        push_cast; ring
      · obtain ⟨n, rfl⟩ : ∃ n : ℕ, i = n := ⟨i.natAbs, by omega⟩
        rw [Int.natAbs_natCast, if_neg (by simpa using hn)]
        have : ((n : ℤ)).tdiv (2 ^ d) = ((n / 2 ^ d : ℕ) : ℤ) := by
          rw [Int.tdiv_eq_ediv_of_nonneg (by omega)]; push_cast; rfl
        rw [this]
        generalize n / 2 ^ d = k
        push_cast; ring
    unfold tripleVal
    unfold mag at hmag
    rw [hsg, hmag, zpow_neg, zpow_natCast, div_eq_mul_inv]
    ring

/-- `121.5` in halves; `1000` in an 8-bit fraction type -/
example : Unp.unpackFixed 32 32 32 1 243 = .ok ⟨.regular, false, 6, 0xe6000000⟩ ∧ tripleVal 32 false 6 0xe6000000 = 243 / 2 ∧
    Unp.unpackFixed 8 16 16 0 (-1023) = .ok ⟨.regular, true, 9, 255⟩ ∧ tripleVal 8 true 9 255 = -1022 := by
  refine ⟨by decide +kernel, by unfold tripleVal; norm_num, by decide +kernel, by unfold tripleVal; norm_num⟩

/-- **C95**, `make_fixed` and back: every integer that the fraction type can hold is restored, except `±1` of 32 or 64 bits, which
are undefined, and the least integer of 32 or 64 bits. -/
theorem C95_roundtrip (hN : N = 8 ∨ N = 16 ∨ N = 32 ∨ N = 64) (hF : 1 ≤ F) (hE : 8 ≤ E) (hq : q ≤ 64) {i : ℤ}
    (hi : -2 ^ (N - 1) ≤ i ∧ i < 2 ^ (N - 1)) (hm : ¬ (32 ≤ N ∧ i = -2 ^ (N - 1))) (hFi : |i| < 2 ^ (F + 1)) :
    (do let u ← Unp.unpackFixed F E N q i; Unp.packFixed F N q u : M ℤ) =
      if 32 ≤ N ∧ (i = 1 ∨ i = -1) then .error .shiftAmount else .ok i := by
  have hN1 : 1 ≤ N := by omega
  obtain ⟨u0, -, u2⟩ := C95_unpack (q := q) hN hF hE hq hi
  by_cases h0 : i = 0
  · rw [u0 h0, if_neg (by omega), h0]; rfl
  obtain ⟨e, f, hf, hu, hv⟩ := u2 h0 hm
  have hLF : i.natAbs.log2 - F = 0 := by have := natAbs_log_lt h0 hFi; omega
  rw [hLF, pow_zero, Int.tdiv_one, mul_one] at hv
  have hx : (i : ℚ) = tripleVal F (i < 0) e f * 2 ^ q := by rw [hv]; field_simp
  rw [hu]
  simp only [bind, Except.bind]
  rw [C95_pack hN hF hf hx]
  have e2 := two_pow_pred (w := N) hN1
  have hp : (0 : ℤ) < 2 ^ (N - 1) := by positivity
  have hlt : |i| < 2 ^ N := by
    clear hv hx hu hf u0 u2 hLF hFi
    exact abs_lt.mpr ⟨by omega, by omega⟩
  have habs : |(i : ℚ)| = ((|i| : ℤ) : ℚ) := by push_cast; rfl
  have htr : truncZ (i : ℚ) = i := by unfold truncZ; split_ifs <;> simp
  rw [htr, habs, if_neg (by
    rw [not_le]
    exact_mod_cast hlt)]
  have hone : (1 ≤ ((|i| : ℤ) : ℚ) ∧ ((|i| : ℤ) : ℚ) < 2) ↔ (i = 1 ∨ i = -1) := by
    have : (1 ≤ ((|i| : ℤ) : ℚ) ∧ ((|i| : ℤ) : ℚ) < 2) ↔ (1 ≤ |i| ∧ |i| < 2) := by
      constructor
      · rintro ⟨a, b⟩; exact ⟨by exact_mod_cast a, by exact_mod_cast b⟩
      · rintro ⟨a, b⟩; exact ⟨by exact_mod_cast a, by exact_mod_cast b⟩
    rw [this]
    clear hv hx hu hf
    rcases abs_cases i with ⟨h, h'⟩ | ⟨h, h'⟩ <;> rw [h] <;> omega
  simp only [hone]
  split_ifs with c1 <;> first | rfl | skip
  exact congrArg Except.ok (wrapS_of_inS hN1 hi)

example : (do let u ← Unp.unpackFixed 32 32 32 8 (-12345); Unp.packFixed 32 32 8 u : M ℤ) = .ok (-12345) ∧
    (do let u ← Unp.unpackFixed 32 32 32 0 1; Unp.packFixed 32 32 0 u : M ℤ) = .error .shiftAmount ∧
    (do let u ← Unp.unpackFixed 32 32 16 0 1; Unp.packFixed 32 16 0 u : M ℤ) = .ok 1 := by decide +kernel

/-- **C95**, traits wider than their integer, the others that the assertion of `fixedtrait` admits: `make_fixed` is undefined for
every integer but zero. -/
theorem C95_wide_ub (ha : FixedTrait.accepted w N q) (hw : w < N) {i : ℤ} (h0 : i ≠ 0) :
    ∃ e, Unp.unpackFixedW F E w N q i = .error e := by
  obtain ⟨hw8, -, -, -⟩ := ha
  have hc : ∀ x, ∃ e, Bits.castRightToLeft w N F x = .error e := fun x => by
    unfold Bits.castRightToLeft Posit.bitsetGet Posit.bitmask
    have h1 : ∀ y, shrU w y ((w : ℤ) - (N : ℤ)) = .error .shiftAmount := fun y => by
      unfold shrU
      rw [if_pos (Or.inl (by omega))]
    rw [h1]
    cases shrU w x ((0 : ℕ) : ℤ) <;> exact ⟨_, rfl⟩
  unfold Unp.unpackFixedW
  rw [if_pos h0]
  simp only [bind, Except.bind]
  split
  · exact ⟨_, rfl⟩
  split
  · exact ⟨_, rfl⟩
  split
  · exact ⟨_, rfl⟩
  obtain ⟨e, he⟩ := hc _
  rw [he]
  exact ⟨_, rfl⟩

/-- `fixedtrait<int16_t,32,8>` compiles; `fixedtrait<int32_t,24,8>` does not -/
example : FixedTrait.accepted 16 32 8 ∧ Unp.unpackFixedW 32 32 16 32 8 256 = .error .shiftAmount ∧
    ¬ FixedTrait.accepted 32 24 8 ∧ Unp.unpackFixedW 32 32 32 32 8 256 = Unp.unpackFixed 32 32 32 8 256 := by
  refine ⟨by unfold FixedTrait.accepted; omega, by decide +kernel, by unfold FixedTrait.accepted; omega, rfl⟩

/-- **C95**, every trait the assertion admits: either the integer has exactly the bits of the trait and `make_fixed` is the function
of `C95_unpack`, or zero is the only integer for which it is defined. -/
theorem C95_accepted (ha : FixedTrait.accepted w N q) :
    (w = N ∧ Unp.unpackFixedW F E w N q = Unp.unpackFixed F E N q) ∨
    (w < N ∧ ∀ i : ℤ, (∃ u, Unp.unpackFixedW F E w N q i = .ok u) ↔ i = 0) := by
  rcases ha.2.1.eq_or_lt with rfl | hlt
  · exact Or.inl ⟨rfl, rfl⟩
  · refine Or.inr ⟨hlt, fun i => ⟨fun ⟨u, hu⟩ => ?_, fun h => ?_⟩⟩
    · by_contra h0
      obtain ⟨e, he⟩ := C95_wide_ub (F := F) (E := E) ha hlt h0
      rw [hu] at he; cases he
    · subst h; exact ⟨_, rfl⟩

/-- `fixedtrait<int16_t,16,8>` is of the first kind: 3/2 -/
example : FixedTrait.accepted 16 16 8 ∧ Unp.unpackFixedW 32 32 16 16 8 384 = .ok ⟨.regular, false, 0, 2 ^ 31⟩ := by
  refine ⟨by unfold FixedTrait.accepted; omega, by decide +kernel⟩

end Verif
