import Verif.Lemmas.NearestEven
import Verif.Spec.F16c
import Verif.Props.HalfPrec
import Verif.Props.Float16n32

/-! # C101: with F16C instructions, half float arithmetic through `float` is correctly rounded — include/float16native32.hpp -/

namespace Verif
namespace Float16c
open Fmt HalfPrec

variable {o : FloatOps} {k : F16C}

/-! ## the assumptions can be met -/

theorem sign_num {f : ℕ} {x : ℚ} (hf : ieee 8 23 f = .num x) (h0 : x ≠ 0) : f / 2 ^ 31 % 2 = 1 ↔ x < 0 := by
  have hs := (Float2Bits.fields_of hf h0).1
  unfold fSign at hs
  rw [decide_eq_decide] at hs
  exact hs

theorem exists_narrow (f : ℕ) : ∃ h, NearestTo 5 10 (ieee 8 23 f) h ∧ (ieee 8 23 f ≠ .nan → h / 2 ^ 15 = f / 2 ^ 31 % 2) := by
  cases hf : ieee 8 23 f with
  | num x =>
    obtain ⟨k, hk⟩ := exists_near (abs_nonneg x)
    have hk1 := hk.1
    have e1 : (f / 2 ^ 31 % 2 * 2 ^ 15 + k) / 2 ^ 15 = f / 2 ^ 31 % 2 := by omega
    have e2 : (f / 2 ^ 31 % 2 * 2 ^ 15 + k) % 2 ^ 15 = k := by omega
    refine ⟨f / 2 ^ 31 % 2 * 2 ^ 15 + k, (nearest_iff (by omega) (fun h0 => ?_)).2 (by rw [e2]; exact hk), fun _ => e1⟩
    rw [e1]
    exact sign_num hf h0
  | inf s =>
    have hs : s = decide (f / 2 ^ 31 % 2 = 1) := by
      rw [ieee_eq] at hf
      split_ifs at hf
      injection hf with hf
      rw [← hf]; rfl
    refine ⟨f / 2 ^ 31 % 2 * 2 ^ 15 + 31744, ⟨by omega, ?_⟩, fun _ => by omega⟩
    rw [ieee_half _ _ (by omega) (by omega), if_neg (by omega), if_pos rfl, hs]
  | nan => exact ⟨31745, ⟨by norm_num, by norm_num [ieee]⟩, fun h => absurd rfl h⟩

/-- there are conversions as assumed below -/
theorem f16c_exists : ∃ k : F16C, k.Correct := by
  choose n hn1 hn2 using exists_narrow
  have hw : ∀ v : ℕ, ∃ x, v < 2 ^ 16 → x < 2 ^ 32 ∧ ieee 8 23 x = ieee 5 10 v ∧ (ieee 5 10 v ≠ .nan → x / 2 ^ 31 = v / 2 ^ 15) := by
    intro v
    by_cases hv : v < 2 ^ 16
    · obtain ⟨x, -, h⟩ := C85_single v hv
      exact ⟨x, fun _ => h⟩
    · exact ⟨0, fun h => absurd h hv⟩
  choose w hw using hw
  exact ⟨⟨w, n⟩, fun v hv => (hw v hv).1, fun v hv => (hw v hv).2.1, fun v hv => (hw v hv).2.2, hn1, hn2⟩

theorem floatOps_ieeeZ_exists {eb fb : ℕ} (heb : 2 ≤ eb) (hfb : 1 ≤ fb) : ∃ o : FloatOps, o.IeeeZ eb fb := by
  classical
  choose r hr using exists_roundsTo (eb := eb) (fb := fb) heb hfb
  exact ⟨{ add := fun a b => r ((ieee eb fb a).plus (ieee eb fb b)), mul := fun a b => r ((ieee eb fb a).times (ieee eb fb b)),
            div := fun a b => r (quotientOf eb fb a b) }, fun _ _ => hr _, fun _ _ => hr _, fun _ _ _ => hr _⟩

/-! ## conversions -/

theorem nearestTo_lt {eb fb b : ℕ} {X : XNum} (h : NearestTo eb fb X b) : b < 2 ^ (eb + fb + 1) := by
  cases X with
  | num x => exact h.1
  | inf s => exact h.1
  | nan => exact h.1

theorem ofFloat_eq (hk : k.Correct) (f : ℕ) : ofFloat k f = k.ps2ph f := by
  have hlt : k.ps2ph f < 2 ^ 16 := nearestTo_lt (hk.narrow f)
  have e : ofFloat k f = wrapU 16 (((wrapU 32 (wrapS 32 ((k.ps2ph f + k.ps2ph f * 2 ^ 16 : ℕ) : ℤ)) &&& 0xFFFF : ℕ)) : ℤ) := rfl
  rw [e, wrapU_wrapS le_rfl, wrapU_natCast (w := 32) (by omega), show (0xFFFF : ℕ) = 2 ^ 16 - 1 from rfl,
    Nat.and_two_pow_sub_one_eq_mod, wrapU_natCast (Nat.mod_lt _ (by norm_num))]
  omega

theorem toFloat_eq (v : ℕ) : toFloat k v = k.ph2ps v := rfl

/-- **C101**: the conversion to `float` is exact and keeps the sign bit, … -/
theorem C101_toFloat (hk : k.Correct) {v : ℕ} (hv : v < 2 ^ 16) :
    toFloat k v < 2 ^ 32 ∧ ieee 8 23 (toFloat k v) = ieee 5 10 v ∧ (ieee 5 10 v ≠ .nan → toFloat k v / 2 ^ 31 = v / 2 ^ 15) :=
  ⟨hk.widen_lt v hv, hk.widen v hv, hk.widen_sign v hv⟩

/-- -3 and the least subnormal number -/
example (hk : k.Correct) : ieee 8 23 (toFloat k 0xC200) = .num (-3) ∧ ieee 8 23 (toFloat k 1) = .num (1 / 2 ^ 24) :=
  ⟨by rw [(C101_toFloat hk (v := 0xC200) (by norm_num)).2.1]; norm_num [ieee],
    by rw [(C101_toFloat hk (v := 1) (by norm_num)).2.1]; norm_num [ieee]⟩

/-- … the conversion from `float` rounds to nearest, ties to even, and keeps the sign bit, … -/
theorem C101_ofFloat (hk : k.Correct) (f : ℕ) :
    NearestTo 5 10 (ieee 8 23 f) (ofFloat k f) ∧ (ieee 8 23 f ≠ .nan → ofFloat k f / 2 ^ 15 = f / 2 ^ 31 % 2) := by
  rw [ofFloat_eq hk]
  exact ⟨hk.narrow f, hk.narrow_sign f⟩

/-- pi -/
example (hk : k.Correct) : IsNearestEven 5 10 (13176795 / 2 ^ 22) (ofFloat k 0x40490fdb) := by
  have := (C101_ofFloat hk 0x40490fdb).1
  rwa [show ieee 8 23 0x40490fdb = .num (13176795 / 2 ^ 22) by norm_num [ieee]] at this

/-- … so that every half float except the NaNs comes back from `float` unchanged. -/
theorem C101_roundtrip (hk : k.Correct) {v : ℕ} (hv : v < 2 ^ 16) (hn : ieee 5 10 v ≠ .nan) : ofFloat k (toFloat k v) = v := by
  obtain ⟨h1, h2, h3⟩ := C101_toFloat hk hv
  obtain ⟨h4, h5⟩ := C101_ofFloat hk (toFloat k v)
  have hlt : ofFloat k (toFloat k v) < 2 ^ 16 := nearestTo_lt h4
  rw [h2] at h4 h5
  have hs : ofFloat k (toFloat k v) / 2 ^ 15 = v / 2 ^ 15 := by rw [h5 hn, h3 hn]; omega
  have hm : ofFloat k (toFloat k v) % 2 ^ 15 = v % 2 ^ 15 := by
    cases hx : ieee 5 10 v with
    | num x =>
      rw [hx] at h4
      have hb := half_num hx
      have hmax : |x| < overflowAt 5 10 := by
        rw [overflowAt_half, hb.2, abs_mul]
        have e : |(if v / 2 ^ 15 % 2 = 1 then (-1 : ℚ) else 1)| = 1 := by split <;> simp
        have : g (v % 2 ^ 15) ≤ g 31743 := g_mono.monotone hb.1
        rw [g_top.1] at this
        rw [e, one_mul, abs_of_nonneg (g_nonneg _)]
        linarith
      obtain ⟨y, hy, hall⟩ := h4.2.2.2 hmax
      have h6 := (hall v x hx).1
      rw [sub_self, abs_zero] at h6
      have h7 : x = y := by
        have := abs_nonpos_iff.mp h6
        linarith
      have hb2 := half_num hy
      rw [← h7, hb.2, show ofFloat k (toFloat k v) / 2 ^ 15 % 2 = v / 2 ^ 15 % 2 by rw [hs]] at hb2
      have : g (v % 2 ^ 15) = g (ofFloat k (toFloat k v) % 2 ^ 15) := by
        have := hb2.2
        split_ifs at this <;> linarith
      exact (g_mono.injective this).symm
    | inf s =>
      rw [hx] at h4
      have key : ∀ {h : ℕ}, ieee 5 10 h = .inf s → h % 2 ^ 15 = 31744 := by
        intro h hh
        rw [ieee_half', ieee_half _ _ (by omega) (by omega)] at hh
        split_ifs at hh with h1 h2
        exact h2
      rw [key h4.2, key hx]
    | nan => exact absurd hx hn
  omega

/-- -infinity, -0 and -3 -/
example (hk : k.Correct) : ofFloat k (toFloat k 0xFC00) = 0xFC00 ∧ ofFloat k (toFloat k 0x8000) = 0x8000 ∧
    ofFloat k (toFloat k 0xC200) = 0xC200 :=
  ⟨C101_roundtrip hk (by norm_num) (by norm_num [ieee]; nofun), C101_roundtrip hk (by norm_num) (by norm_num [ieee]; nofun),
    C101_roundtrip hk (by norm_num) (by norm_num [ieee]; nofun)⟩

/-! ## arithmetic -/

theorem half_int {v : ℕ} {x : ℚ} (hx : ieee 5 10 v = .num x) : ∃ n A : ℤ, |n| < 2 ^ 11 ∧ -24 ≤ A ∧ x = n * 2 ^ A := by
  obtain ⟨n, A, h1, h2, h3, -⟩ := ieee_int hx
  exact ⟨n, A, h1, by norm_num at h3; omega, h2⟩

theorem half_lt {v : ℕ} {x : ℚ} (hx : ieee 5 10 v = .num x) : |x| < 2 ^ 16 := by
  by_cases h0 : x = 0
  · rw [h0]; norm_num
  · have := (ieee_bounds (by norm_num) hx h0).2
    norm_num at this ⊢
    exact this

theorem half_ge {v : ℕ} {x : ℚ} (hx : ieee 5 10 v = .num x) (h0 : x ≠ 0) : (2 : ℚ) ^ (-24 : ℤ) ≤ |x| := by
  have := (ieee_bounds (by norm_num) hx h0).1
  norm_num at this ⊢
  exact this

theorem big_max : (2 : ℚ) ^ (60 : ℤ) ≤ maxFin 8 23 := maxFin_ge (by norm_num)

/-- a result that is infinite or NaN -/
theorem back_special (hk : k.Correct) {X : XNum} {f : ℕ} (hf : RoundsTo 8 23 X f) (hX : ∀ x, X ≠ .num x) : NearestTo 5 10 X (ofFloat k f) := by
  have h := (C101_ofFloat hk f).1
  cases X with
  | num x => exact absurd rfl (hX x)
  | inf s => have hf' : ieee 8 23 f = .inf s := hf; rwa [hf'] at h
  | nan => have hf' : ieee 8 23 f = .nan := hf.1; rwa [hf'] at h

/-- a result that is a number -/
theorem back_num (hk : k.Correct) {s : ℚ} {f : ℕ} (hf : RoundsTo 8 23 (.num s) f) (hmax : |s| ≤ 2 ^ (60 : ℤ))
    (hmin : s ≠ 0 → (2 : ℚ) ^ (-40 : ℤ) ≤ |s|)
    (hsep : ∀ n W, IsMid n W → s ≠ n * 2 ^ W → (2 : ℚ) ^ (W - 12) ≤ |s - n * 2 ^ W|) : NearestTo 5 10 (.num s) (ofFloat k f) := by
  have hr : IsRounded 8 23 s f := by
    rcases hf with hf | ⟨hf, -⟩
    · exact hf
    · exact absurd (hmax.trans big_max) (not_le.mpr hf)
  obtain ⟨w, hw, -⟩ := id hr
  have h := (C101_ofFloat hk f).1
  rw [hw] at h
  refine double_round hr hw hsep (fun h0 hw0 => ?_) h
  obtain ⟨g, hg⟩ := float_of_int (n := 1) (W := -40) (by norm_num) le_rfl (by norm_num)
  have := (hr.abs_le (Z := ((1 : ℤ) : ℚ) * 2 ^ (-40 : ℤ)) hw (by positivity) ⟨g, hg⟩).2 (by push_cast; rw [one_mul]; exact hmin h0)
  rw [hw0, abs_zero] at this
  have h1 : (0 : ℚ) < 2 ^ (-40 : ℤ) := by positivity
  push_cast at this
  linarith

/-- a number that is a `float` -/
theorem back_exact (hk : k.Correct) {s : ℚ} {f : ℕ} (hf : RoundsTo 8 23 (.num s) f) (hmax : |s| ≤ 2 ^ (60 : ℤ))
    (hs : ∃ g, ieee 8 23 g = .num s) : NearestTo 5 10 (.num s) (ofFloat k f) := by
  have hr : IsRounded 8 23 s f := by
    rcases hf with hf | ⟨hf, -⟩
    · exact hf
    · exact absurd (hmax.trans big_max) (not_le.mpr hf)
  have h := (C101_ofFloat hk f).1
  rwa [hr.exact hs] at h

theorem add_core (hk : k.Correct) {X Y : XNum} (hX : ∃ v, ieee 5 10 v = X) (hY : ∃ v, ieee 5 10 v = Y) {f : ℕ}
    (hf : RoundsTo 8 23 (X.plus Y) f) : NearestTo 5 10 (X.plus Y) (ofFloat k f) := by
  obtain ⟨a, ha⟩ := hX
  obtain ⟨b, hb⟩ := hY
  cases X with
  | num x =>
    cases Y with
    | num y =>
      obtain ⟨n, A, hn, hA, rfl⟩ := half_int ha
      obtain ⟨m, B, hm, hB, rfl⟩ := half_int hb
      refine back_num hk hf ?_ ?_ (fun p W hp hne => sep_add hn hA hm hB hp hne)
      · have h1 := half_lt ha
        have h2 := half_lt hb
        have h3 := abs_add_le ((n : ℚ) * 2 ^ A) (m * 2 ^ B)
        have h4 : (2 : ℚ) ^ 16 + 2 ^ 16 ≤ 2 ^ (60 : ℤ) := by norm_num
        linarith
      · intro h0
        obtain ⟨i, rfl⟩ : ∃ i : ℕ, A = -24 + i := ⟨(A + 24).toNat, by omega⟩
        obtain ⟨j, rfl⟩ : ∃ j : ℕ, B = -24 + j := ⟨(B + 24).toNat, by omega⟩
        have e : (n : ℚ) * 2 ^ (-24 + (i : ℤ)) + m * 2 ^ (-24 + (j : ℤ)) = ((n * 2 ^ i + m * 2 ^ j : ℤ) : ℚ) * 2 ^ (-24 : ℤ) := by
          rw [zpow_add₀ (by norm_num), zpow_add₀ (by norm_num), zpow_natCast, zpow_natCast]; push_cast; ring
        rw [e] at h0 ⊢
        have hi : n * 2 ^ i + m * 2 ^ j ≠ 0 := by rintro h; rw [h] at h0; simp at h0
        have h1 : (1 : ℚ) ≤ |((n * 2 ^ i + m * 2 ^ j : ℤ) : ℚ)| := by rw [← Int.cast_abs]; exact_mod_cast Int.one_le_abs hi
        have hp : (0 : ℚ) < 2 ^ (-24 : ℤ) := by positivity
        rw [abs_mul, abs_of_pos hp]
        calc (2 : ℚ) ^ (-40 : ℤ) ≤ 2 ^ (-24 : ℤ) := zpow_le_zpow_right₀ (by norm_num) (by norm_num)
          _ ≤ _ := le_mul_of_one_le_left hp.le h1
    | inf s => exact back_special hk hf (fun _ h => by cases h)
    | nan => exact back_special hk hf (fun _ h => by cases h)
  | inf s =>
    refine back_special hk hf (fun z h => ?_)
    cases Y with
    | num y => cases h
    | inf t =>
      change (if s = t then XNum.inf s else XNum.nan) = _ at h
      split_ifs at h
    | nan => cases h
  | nan => exact back_special hk hf (fun z h => by cases Y <;> cases h)

/-- **C101**: the sum of any two half floats is the exact sum rounded to nearest, ties to even, in whichever rounding mode the
native addition runs, … -/
theorem C101_add (hk : k.Correct) (ho : o.IeeeZ 8 23) {a b : ℕ} (ha : a < 2 ^ 16) (hb : b < 2 ^ 16) :
    NearestTo 5 10 ((ieee 5 10 a).plus (ieee 5 10 b)) (add o k a b) := by
  have h := ho.add (toFloat k a) (toFloat k b)
  rw [(C101_toFloat hk ha).2.1, (C101_toFloat hk hb).2.1] at h
  exact add_core hk ⟨a, rfl⟩ ⟨b, rfl⟩ h

/-- `65504 + 1` -/
example (hk : k.Correct) (ho : o.IeeeZ 8 23) : IsNearestEven 5 10 (65504 + 1) (add o k 0x7BFF 0x3C00) := by
  have := C101_add hk ho (a := 0x7BFF) (b := 0x3C00) (by norm_num) (by norm_num)
  rwa [show ieee 5 10 0x7BFF = .num 65504 by norm_num [ieee], show ieee 5 10 0x3C00 = .num 1 by norm_num [ieee]] at this

/-- … so is the difference, … -/
theorem C101_sub (hk : k.Correct) (ho : o.IeeeZ 8 23) {a b : ℕ} (ha : a < 2 ^ 16) (hb : b < 2 ^ 16) :
    NearestTo 5 10 ((ieee 5 10 a).plus (ieee 5 10 b).neg) (sub o k a b) := by
  have h := ho.add (toFloat k a) (toFloat k b ^^^ 0x80000000)
  obtain ⟨h1, h2, -⟩ := C101_toFloat hk hb
  have h3 : ieee 8 23 (toFloat k b ^^^ 0x80000000) = (ieee 5 10 b).neg := by
    rw [← h2]; exact (C57_neg (eb := 8) (fb := 23) h1).2.1
  rw [(C101_toFloat hk ha).2.1, h3] at h
  exact add_core hk ⟨a, rfl⟩ ⟨Float16n32.neg b, (Float16n32.C60_sign hb).1⟩ h

/-- `1 - 2^-24` -/
example (hk : k.Correct) (ho : o.IeeeZ 8 23) : IsNearestEven 5 10 (1 + -(1 / 2 ^ 24)) (sub o k 0x3C00 1) := by
  have := C101_sub hk ho (a := 0x3C00) (b := 1) (by norm_num) (by norm_num)
  rwa [show ieee 5 10 0x3C00 = .num 1 by norm_num [ieee], show ieee 5 10 1 = .num (1 / 2 ^ 24) by norm_num [ieee]] at this

theorem mul_exact {a b : ℕ} {x y : ℚ} (ha : ieee 5 10 a = .num x) (hb : ieee 5 10 b = .num y) :
    |x * y| ≤ 2 ^ (32 : ℤ) ∧ ∃ g, ieee 8 23 g = .num (x * y) := by
  have hle : |x * y| ≤ 2 ^ (32 : ℤ) := by
    have h1 := half_lt ha
    have h2 := half_lt hb
    rw [abs_mul]
    calc |x| * |y| ≤ 2 ^ 16 * 2 ^ 16 := mul_le_mul h1.le h2.le (abs_nonneg _) (by norm_num)
      _ = _ := by norm_num
  refine ⟨hle, ?_⟩
  by_cases h0 : x * y = 0
  · rw [h0]
    rcases ieee_zero (eb := 8) (fb := 23) with h | h
    · exact ⟨0, h⟩
    · omega
  · have hx0 : x ≠ 0 := fun h => h0 (by rw [h, zero_mul])
    have hy0 : y ≠ 0 := fun h => h0 (by rw [h, mul_zero])
    refine mul_native (by norm_num) (by norm_num) ha hb ?_ (hle.trans (le_trans (zpow_le_zpow_right₀ (by norm_num) (by norm_num)) big_max))
    rw [abs_mul]
    have h1 := half_ge ha hx0
    have h2 := half_ge hb hy0
    calc minNorm 8 ≤ 2 ^ (-24 : ℤ) * 2 ^ (-24 : ℤ) := by
          unfold minNorm; rw [← zpow_add₀ (by norm_num)]; exact zpow_le_zpow_right₀ (by norm_num) (by norm_num)
      _ ≤ _ := mul_le_mul h1 h2 (by positivity) (abs_nonneg _)

/-- … so is the product, … -/
theorem C101_mul (hk : k.Correct) (ho : o.IeeeZ 8 23) {a b : ℕ} (ha : a < 2 ^ 16) (hb : b < 2 ^ 16) :
    NearestTo 5 10 ((ieee 5 10 a).times (ieee 5 10 b)) (mul o k a b) := by
  have h := ho.mul (toFloat k a) (toFloat k b)
  rw [(C101_toFloat hk ha).2.1, (C101_toFloat hk hb).2.1] at h
  unfold mul
  cases hX : ieee 5 10 a with
  | num x =>
    cases hY : ieee 5 10 b with
    | num y =>
      rw [hX, hY] at h
      obtain ⟨h1, h2⟩ := mul_exact hX hY
      exact back_exact hk h (h1.trans (zpow_le_zpow_right₀ (by norm_num) (by norm_num))) h2
    | inf s =>
      rw [hX, hY] at h
      refine back_special hk h (fun z hz => ?_)
      change (if x = 0 then XNum.nan else XNum.inf _) = _ at hz
      split_ifs at hz
    | nan => rw [hX, hY] at h; exact back_special hk h (fun _ hz => by cases hz)
  | inf s =>
    rw [hX] at h
    refine back_special hk h (fun z hz => ?_)
    cases hY : ieee 5 10 b with
    | num y =>
      rw [hY] at hz
      change (if y = 0 then XNum.nan else XNum.inf _) = _ at hz
      split_ifs at hz
    | inf t => rw [hY] at hz; cases hz
    | nan => rw [hY] at hz; cases hz
  | nan =>
    rw [hX] at h
    refine back_special hk h (fun z hz => ?_)
    cases hY : ieee 5 10 b <;> rw [hY] at hz <;> cases hz

/-- the square of the number after 1 -/
example (hk : k.Correct) (ho : o.IeeeZ 8 23) : IsNearestEven 5 10 (1025 / 1024 * (1025 / 1024)) (mul o k 0x3C01 0x3C01) := by
  have := C101_mul hk ho (a := 0x3C01) (b := 0x3C01) (by norm_num) (by norm_num)
  rwa [show ieee 5 10 0x3C01 = .num (1025 / 1024) by norm_num [ieee]] at this

theorem negzero_iff (hk : k.Correct) {b : ℕ} (hb : b < 2 ^ 16) : toFloat k b = 2 ^ (8 + 23) ↔ b = 2 ^ (5 + 10) := by
  obtain ⟨h1, h2, h3⟩ := C101_toFloat hk hb
  constructor
  · intro h
    rw [h] at h2 h3
    have hz : ieee 8 23 (2 ^ (8 + 23)) = .num 0 := by norm_num [ieee]
    rw [hz] at h2
    have hn := half_num h2.symm
    have h5 := h3 (by rw [← h2]; exact fun h => by cases h)
    have h6 : g (b % 2 ^ 15) = 0 := by
      have := hn.2
      split_ifs at this <;> linarith
    have h7 : b % 2 ^ 15 = 0 := g_mono.injective (by rw [h6, g_zero])
    omega
  · intro h
    have hz : ieee 5 10 b = .num 0 := by rw [h]; norm_num [ieee]
    rw [hz] at h2 h3
    obtain ⟨e1, e2⟩ := ieee_num_zero h2
    have h5 := h3 (fun h => by cases h)
    unfold fExp at e1
    unfold fMan at e2
    omega

/-- … and so is the quotient, also by a zero of either sign. -/
theorem C101_div (hk : k.Correct) (ho : o.IeeeZ 8 23) {a b : ℕ} (ha : a < 2 ^ 16) (hb : b < 2 ^ 16) :
    NearestTo 5 10 (quotientOf 5 10 a b) (div o k a b) := by
  obtain ⟨h1, h2, h3⟩ := C101_toFloat hk hb
  have h := ho.div (toFloat k a) (toFloat k b) h1
  have e : quotientOf 8 23 (toFloat k a) (toFloat k b) = quotientOf 5 10 a b := by
    unfold quotientOf
    simp only [negzero_iff hk hb]
    rw [(C101_toFloat hk ha).2.1, h2]
  rw [e] at h
  unfold div
  by_cases hq : ∃ s, quotientOf 5 10 a b = .num s
  · obtain ⟨s, hs⟩ := hq
    rw [hs] at h ⊢
    unfold quotientOf at hs
    split_ifs at hs with hz
    · exfalso
      cases hX : ieee 5 10 a with
      | num x =>
        rw [hX] at hs
        change ((if (0 : ℚ) = 0 then (if x = 0 then XNum.nan else XNum.inf (decide (x < 0))) else XNum.num (x / 0)).neg) = _ at hs
        rw [if_pos rfl] at hs
        split_ifs at hs <;> cases hs
      | inf t => rw [hX] at hs; cases hs
      | nan => rw [hX] at hs; cases hs
    · cases hX : ieee 5 10 a with
      | num x =>
        cases hY : ieee 5 10 b with
        | num y =>
          rw [hX, hY] at hs
          change (if y = 0 then (if x = 0 then XNum.nan else XNum.inf (decide (x < 0))) else XNum.num (x / y)) = _ at hs
          by_cases hy0 : y = 0
          · rw [if_pos hy0] at hs; split_ifs at hs
          · rw [if_neg hy0] at hs
            obtain rfl : x / y = s := XNum.num.inj hs
            have hylt := half_lt hY
            have hyge := half_ge hY hy0
            have hxlt := half_lt hX
            have hypos := abs_pos.mpr hy0
            obtain ⟨n, A, hn, hA, hx⟩ := half_int hX
            obtain ⟨m, B, hm, hB, hy⟩ := half_int hY
            refine back_num hk h ?_ ?_ ?_
            · rw [abs_div, div_le_iff₀ hypos]
              calc |x| ≤ 2 ^ 16 := hxlt.le
                _ ≤ 2 ^ (60 : ℤ) * 2 ^ (-24 : ℤ) := by norm_num
                _ ≤ _ := mul_le_mul_of_nonneg_left hyge (by positivity)
            · intro h0
              have hx0 : x ≠ 0 := fun h => h0 (by rw [h, zero_div])
              rw [abs_div, le_div_iff₀ hypos]
              calc (2 : ℚ) ^ (-40 : ℤ) * |y| ≤ 2 ^ (-40 : ℤ) * 2 ^ 16 := mul_le_mul_of_nonneg_left hylt.le (by positivity)
                _ = 2 ^ (-24 : ℤ) := by norm_num
                _ ≤ _ := half_ge hX hx0
            · intro p W hp hne
              rw [hx, hy] at hne ⊢
              refine sep_div hn hm (fun h => hy0 (by rw [hy, h]; simp)) (fun h => ?_) hne
              have := hp.1
              rw [h] at this
              norm_num at this
        | inf t =>
          rw [hX, hY] at hs
          obtain rfl : (0 : ℚ) = s := XNum.num.inj hs
          refine back_exact hk h (by simp) ?_
          rcases ieee_zero (eb := 8) (fb := 23) with h | h
          · exact ⟨0, h⟩
          · omega
        | nan => rw [hX, hY] at hs; cases hs
      | inf t => cases hY : ieee 5 10 b <;> rw [hX, hY] at hs <;> cases hs
      | nan => cases hY : ieee 5 10 b <;> rw [hX, hY] at hs <;> cases hs
  · exact back_special hk h (fun x hx => hq ⟨x, hx⟩)

example (hk : k.Correct) (ho : o.IeeeZ 8 23) : IsNearestEven 5 10 (-2 / 3) (div o k 0xC000 0x4200) := by
  have := C101_div hk ho (a := 0xC000) (b := 0x4200) (by norm_num) (by norm_num)
  rwa [show quotientOf 5 10 0xC000 0x4200 = .num (-2 / 3) by norm_num [quotientOf, ieee, XNum.over]] at this

theorem one_two : ieee 5 10 Float16n32.one = .num 1 ∧ ieee 5 10 Float16n32.two = .num 2 ∧ Float16n32.one < 2 ^ 16 ∧
    Float16n32.two < 2 ^ 16 ∧ Float16n32.two ≠ 2 ^ (5 + 10) := by
  obtain ⟨-, -, -, -, h1, h2⟩ := Float16n32.C60_sign (v := 0) (by norm_num)
  exact ⟨h1, h2, by decide +kernel, by decide +kernel, by decide +kernel⟩

/-- **C101**: half, square and inverse are correctly rounded too. -/
theorem C101_unary (hk : k.Correct) (ho : o.IeeeZ 8 23) {a : ℕ} (ha : a < 2 ^ 16) :
    NearestTo 5 10 ((ieee 5 10 a).over (.num 2)) (half o k a) ∧
    NearestTo 5 10 ((ieee 5 10 a).times (ieee 5 10 a)) (square o k a) ∧
    NearestTo 5 10 (if a = 2 ^ 15 then .inf true else (XNum.num 1).over (ieee 5 10 a)) (inv o k a) := by
  obtain ⟨h1, h2, h3, h4, h5⟩ := one_two
  refine ⟨?_, C101_mul hk ho ha ha, ?_⟩
  · have := C101_div hk ho ha h4
    unfold quotientOf at this
    rwa [if_neg h5, h2] at this
  · have := C101_div hk ho h3 ha
    unfold quotientOf at this
    rw [h1] at this
    have e : ((XNum.num 1).over (.num 0)).neg = .inf true := by norm_num [XNum.over, XNum.neg]
    rwa [e] at this

/-- half of the least number is half way between 0 and it; the inverse of -0 -/
example (hk : k.Correct) (ho : o.IeeeZ 8 23) : IsNearestEven 5 10 (1 / 2 ^ 25) (half o k 1) ∧ ieee 5 10 (inv o k 0x8000) = .inf true := by
  have h1 := (C101_unary hk ho (a := 1) (by norm_num)).1
  have h2 := (C101_unary hk ho (a := 0x8000) (by norm_num)).2.2
  rw [show (ieee 5 10 1).over (.num 2) = .num (1 / 2 ^ 25) by norm_num [ieee, XNum.over]] at h1
  rw [if_pos (by norm_num)] at h2
  exact ⟨h1, h2.2⟩

/-- **C101**: `mulAdd` of numbers forms the exact product, rounds the sum to `float` and then to half. -/
theorem C101_mulAdd_partial (hk : k.Correct) (ho : o.IeeeZ 8 23) {a b c : ℕ} {x y z : ℚ} (ha : a < 2 ^ 16) (hb : b < 2 ^ 16)
    (hc : c < 2 ^ 16) (hx : ieee 5 10 a = .num x) (hy : ieee 5 10 b = .num y) (hz : ieee 5 10 c = .num z) :
    ∃ f w, RoundsTo 8 23 (.num (x * y + z)) f ∧ ieee 8 23 f = .num w ∧ IsNearestEven 5 10 w (mulAdd o k a b c) ∧
      ((∃ g, ieee 8 23 g = .num (x * y + z)) → IsNearestEven 5 10 (x * y + z) (mulAdd o k a b c)) := by
  have hm := ho.mul (toFloat k a) (toFloat k b)
  rw [(C101_toFloat hk ha).2.1, (C101_toFloat hk hb).2.1, hx, hy] at hm
  obtain ⟨h1, h2⟩ := mul_exact hx hy
  have hbig : (2 : ℚ) ^ (32 : ℤ) ≤ 2 ^ (60 : ℤ) := zpow_le_zpow_right₀ (by norm_num) (by norm_num)
  have hmr : ieee 8 23 (o.mul (toFloat k a) (toFloat k b)) = .num (x * y) := by
    rcases hm with hm | ⟨hm, -⟩
    · exact hm.exact h2
    · exact absurd (h1.trans (hbig.trans big_max)) (not_le.mpr hm)
  have hs := ho.add (o.mul (toFloat k a) (toFloat k b)) (toFloat k c)
  rw [hmr, (C101_toFloat hk hc).2.1, hz] at hs
  have hle : |x * y + z| ≤ 2 ^ (60 : ℤ) := by
    have h3 := abs_add_le (x * y) z
    have h4 := half_lt hz
    have h5 : (2 : ℚ) ^ (32 : ℤ) + 2 ^ 16 ≤ 2 ^ (60 : ℤ) := by norm_num
    linarith
  have hr : IsRounded 8 23 (x * y + z) (o.add (o.mul (toFloat k a) (toFloat k b)) (toFloat k c)) := by
    rcases hs with hs | ⟨hs, -⟩
    · exact hs
    · exact absurd (hle.trans big_max) (not_le.mpr hs)
  obtain ⟨w, hw, -⟩ := id hr
  have hn := (C101_ofFloat hk (o.add (o.mul (toFloat k a) (toFloat k b)) (toFloat k c))).1
  refine ⟨_, w, hs, hw, ?_, fun hg => ?_⟩
  · rw [hw] at hn; exact hn
  · exact back_exact hk hs hle hg

/-- `3 * 3 + 1/2` -/
example (hk : k.Correct) (ho : o.IeeeZ 8 23) : IsNearestEven 5 10 (3 * 3 + 1 / 2) (mulAdd o k 0x4200 0x4200 0x3800) := by
  obtain ⟨-, -, -, -, -, h⟩ := C101_mulAdd_partial hk ho (a := 0x4200) (b := 0x4200) (c := 0x3800) (x := 3) (y := 3) (z := 1 / 2)
    (by norm_num) (by norm_num) (by norm_num) (by norm_num [ieee]) (by norm_num [ieee]) (by norm_num [ieee])
  exact h ⟨0x41180000, by norm_num [ieee]⟩

/-- `mulAdd` is not correctly rounded: with native arithmetic that rounds to nearest even, `3 * (683 / 2^11) + 2^-24` gives 1
although it is closer to `1 + 2^-10`. -/
theorem C101_mulAdd_wrong (hk : k.Correct) (ho : o.IeeeZ 8 23)
    (hadd : ∀ a b x y, ieee 8 23 a = .num x → ieee 8 23 b = .num y → IsNearestEven 8 23 (x + y) (o.add a b)) :
    ieee 5 10 0x4200 = .num 3 ∧ ieee 5 10 0x3556 = .num (683 / 2 ^ 11) ∧ ieee 5 10 1 = .num (1 / 2 ^ 24) ∧
      ieee 5 10 (mulAdd o k 0x4200 0x3556 1) = .num 1 ∧
      ¬ IsNearestEven 5 10 (3 * (683 / 2 ^ 11) + 1 / 2 ^ 24) (mulAdd o k 0x4200 0x3556 1) := by
  have e1 : ieee 5 10 0x4200 = .num 3 := by norm_num [ieee]
  have e2 : ieee 5 10 0x3556 = .num (683 / 2 ^ 11) := by norm_num [ieee]
  have e3 : ieee 5 10 1 = .num (1 / 2 ^ 24) := by norm_num [ieee]
  have hm := ho.mul (toFloat k 0x4200) (toFloat k 0x3556)
  rw [(C101_toFloat hk (by norm_num)).2.1, (C101_toFloat hk (by norm_num)).2.1, e1, e2] at hm
  have hmr : ieee 8 23 (o.mul (toFloat k 0x4200) (toFloat k 0x3556)) = .num (3 * (683 / 2 ^ 11)) := by
    obtain ⟨h1, h2⟩ := mul_exact e1 e2
    rcases hm with hm | ⟨hm, -⟩
    · exact hm.exact h2
    · exact absurd (h1.trans ((zpow_le_zpow_right₀ (by norm_num) (by norm_num)).trans big_max)) (not_le.mpr hm)
  have hs := hadd _ _ _ _ hmr (((C101_toFloat hk (v := 1) (by norm_num)).2.1).trans e3)
  have ht : overflowAt 8 23 = 340282356779733661637539395458142568448 := by norm_num [overflowAt]
  obtain ⟨w, hw, hall⟩ := hs.2.2.2 (by rw [ht]; norm_num [abs_of_pos])
  -- the sum lies halfway between two floats, the lower one has the even pattern
  have f1 : ieee 8 23 0x3F801000 = .num (1 + 1 / 2 ^ 11) := by norm_num [ieee]
  obtain ⟨hd, heven⟩ := hall _ _ f1
  rw [show |(3 : ℚ) * (683 / 2 ^ 11) + 1 / 2 ^ 24 - (1 + 1 / 2 ^ 11)| = 1 / 2 ^ 24 by norm_num [abs_of_pos]] at hd heven
  obtain ⟨hd1, hd2⟩ := abs_le.mp hd
  have hw1 : 1 ≤ w := by norm_num at hd1 hd2 ⊢; linarith
  have hw2 : w < 2 := by norm_num at hd1 hd2 ⊢; linarith
  have hweq : w = 1 + 1 / 2 ^ 11 := by
    rcases (Float2Bits.fields_of hw (by linarith)).2 with ⟨-, -, h⟩ | ⟨hE1, hE2, h⟩
    · exfalso
      have hM : (fMan 23 (o.add (o.mul (toFloat k 0x4200) (toFloat k 0x3556)) (toFloat k 1)) : ℚ) < 2 ^ 23 := by exact_mod_cast fMan_lt 23 _
      rw [abs_of_pos (by linarith)] at h
      have : (2 : ℚ) ^ 23 * 2 ^ (-149 : ℤ) < 1 := by norm_num
      have hp : (0 : ℚ) < 2 ^ (-149 : ℤ) := by positivity
      have := mul_lt_mul_of_pos_right hM hp
      linarith
    · have hM := fMan_lt 23 (o.add (o.mul (toFloat k 0x4200) (toFloat k 0x3556)) (toFloat k 1))
      have hpar : (o.add (o.mul (toFloat k 0x4200) (toFloat k 0x3556)) (toFloat k 1)) % 2 =
        fMan 23 (o.add (o.mul (toFloat k 0x4200) (toFloat k 0x3556)) (toFloat k 1)) % 2 := by unfold fMan; omega
      rw [hpar] at heven
      generalize fMan 23 (o.add (o.mul (toFloat k 0x4200) (toFloat k 0x3556)) (toFloat k 1)) = M at *
      generalize fExp 8 23 (o.add (o.mul (toFloat k 0x4200) (toFloat k 0x3556)) (toFloat k 1)) = E at *
      rw [abs_of_pos (by linarith)] at h
      have hMq : (M : ℚ) < 8388608 := by exact_mod_cast hM
      have hM0 : (0 : ℚ) ≤ M := by positivity
      have hE : E = 127 := by
        rcases lt_trichotomy E 127 with hE | hE | hE
        · exfalso
          have h3 : (2 : ℚ) ^ ((E : ℤ) - 150) ≤ 2 ^ (-24 : ℤ) := zpow_le_zpow_right₀ (by norm_num) (by omega)
          have h4 : ((2 ^ 23 + M : ℕ) : ℚ) * 2 ^ ((E : ℤ) - 150) ≤ ((2 ^ 23 + M : ℕ) : ℚ) * 2 ^ (-24 : ℤ) :=
            mul_le_mul_of_nonneg_left h3 (by positivity)
          rw [← h] at h4
          push_cast at h4
          norm_num at h4
          linarith
        · exact hE
        · exfalso
          have h3 : (2 : ℚ) ^ (-22 : ℤ) ≤ 2 ^ ((E : ℤ) - 150) := zpow_le_zpow_right₀ (by norm_num) (by omega)
          have h4 : ((2 ^ 23 + M : ℕ) : ℚ) * 2 ^ (-22 : ℤ) ≤ ((2 ^ 23 + M : ℕ) : ℚ) * 2 ^ ((E : ℤ) - 150) :=
            mul_le_mul_of_nonneg_left h3 (by positivity)
          rw [← h] at h4
          push_cast at h4
          norm_num at h4
          linarith
      subst hE
      have hw3 : w = (2 ^ 23 + M) / 2 ^ 23 := by rw [h]; push_cast; norm_num; ring
      rw [hw3] at hd1 hd2 heven ⊢
      have l1 : (4096 : ℚ) ≤ M := by norm_num at hd2; linarith
      have l2 : (M : ℚ) ≤ 4097 := by norm_num at hd1; linarith
      have l1' : 4096 ≤ M := by exact_mod_cast l1
      have l2' : M ≤ 4097 := by exact_mod_cast l2
      have hM2 : M = 4096 ∨ M = 4097 := by omega
      rcases hM2 with rfl | rfl
      · norm_num
      · exfalso
        rcases heven (by norm_num [abs_of_pos, abs_of_neg]) with h5 | h5
        · norm_num at h5
        · norm_num at h5
  subst hweq
  have hn : IsNearestEven 5 10 (1 + 1 / 2 ^ 11) (mulAdd o k 0x4200 0x3556 1) := by
    have := (C101_ofFloat hk (o.add (o.mul (toFloat k 0x4200) (toFloat k 0x3556)) (toFloat k 1))).1
    rw [hw] at this
    exact this
  have c1 : ieee 5 10 0x3C00 = .num 1 := by norm_num [ieee]
  have c2 : ieee 5 10 0x3C01 = .num (1 + 1 / 2 ^ 10) := by norm_num [ieee]
  have hsg := hn.2.1 (by norm_num)
  have hbig : mulAdd o k 0x4200 0x3556 1 < 2 ^ 16 := hn.1
  have hnear := (nearest_iff hbig (by simpa using hn.2.1)).1 hn
  have hk' : Near |(1 + 1 / 2 ^ 11 : ℚ)| 0x3C00 := by
    have m1 : mid 0x3C00 = 1 + 1 / 2 ^ 11 := by norm_num [mid, g]
    have m0 : mid 0x3BFF = 1 - 1 / 2 ^ 12 := by norm_num [mid, g]
    refine ⟨by norm_num, fun j hj => ?_, fun _ => ?_⟩
    · obtain rfl : j = 0x3BFF := by omega
      rw [m0]; norm_num [abs_of_pos]
    · rw [m1]; norm_num [abs_of_pos]
  have he := near_unique hnear hk'
  have hr : mulAdd o k 0x4200 0x3556 1 = 0x3C00 := by
    have h0 : ¬ mulAdd o k 0x4200 0x3556 1 / 2 ^ (5 + 10) = 1 := by rw [hsg]; norm_num
    omega
  rw [hr]
  refine ⟨e1, e2, e3, c1, fun hc => ?_⟩
  obtain ⟨y, hy, hall⟩ := hc.2.2.2 (by rw [overflowAt_half]; norm_num [abs_of_pos])
  rw [c1] at hy
  obtain rfl : 1 = y := XNum.num.inj hy
  have := (hall _ _ c2).1
  norm_num [abs_of_pos, abs_of_neg] at this

open Classical in
/-- **C101**: the comparisons are those of the numbers; NaN is unequal to everything and not ordered. -/
theorem C101_cmp (hk : k.Correct) {a b : ℕ} (ha : a < 2 ^ 16) (hb : b < 2 ^ 16) :
    let X := ieee 5 10 a
    let Y := ieee 5 10 b
    eq k a b = decide (X.Same Y) ∧ lt k a b = decide (X.Below Y) ∧ gt k a b = decide (Y.Below X) ∧
    le k a b = decide (X.Below Y ∨ X.Same Y) ∧ ge k a b = decide (Y.Below X ∨ X.Same Y) := by
  intro X Y
  have e1 : ieee FTrait.single.eb FTrait.single.fb (toFloat k a) = X := (C101_toFloat hk ha).2.1
  have e2 : ieee FTrait.single.eb FTrait.single.fb (toFloat k b) = Y := (C101_toFloat hk hb).2.1
  unfold eq lt gt le ge AnyFloat.natEq AnyFloat.natLt
  rw [e1, e2]
  refine ⟨bool_decide (xEq_iff _ _), bool_decide (xLt_iff _ _), bool_decide (xLt_iff _ _), bool_decide ?_, bool_decide ?_⟩
  · rw [Bool.or_eq_true, xLt_iff, xEq_iff]
  · rw [Bool.or_eq_true, xLt_iff, xEq_iff]

/-! ## instances -/

/-- a sum that is not a `float`: the greatest half plus the least one; the nearest half is the greatest one -/
example (hk : k.Correct) (ho : o.IeeeZ 8 23) : IsNearestEven 5 10 (65504 + 1 / 2 ^ 24) (add o k 0x7BFF 1) := by
  have := C101_add hk ho (a := 0x7BFF) (b := 1) (by norm_num) (by norm_num)
  rw [show ieee 5 10 0x7BFF = .num 65504 by norm_num [ieee], show ieee 5 10 1 = .num (1 / 2 ^ 24) by norm_num [ieee]] at this
  exact this

/-- a quotient that is no `float`, and one by -0 -/
example (hk : k.Correct) (ho : o.IeeeZ 8 23) : IsNearestEven 5 10 (1 / 3) (div o k 0x3C00 0x4200) ∧
    ieee 5 10 (div o k 0x3C00 0x8000) = .inf true := by
  have h1 := C101_div hk ho (a := 0x3C00) (b := 0x4200) (by norm_num) (by norm_num)
  have h2 := C101_div hk ho (a := 0x3C00) (b := 0x8000) (by norm_num) (by norm_num)
  rw [show quotientOf 5 10 0x3C00 0x4200 = .num (1 / 3) by norm_num [quotientOf, ieee, XNum.over]] at h1
  rw [show quotientOf 5 10 0x3C00 0x8000 = .inf true by norm_num [quotientOf, ieee, XNum.over, XNum.neg]] at h2
  exact ⟨h1, h2.2⟩

end Float16c
end Verif
