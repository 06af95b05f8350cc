import Verif.Model.Float16n32
import Verif.Props.Float2Bits

/-! # Half floats computed with `float` (C60) -/

namespace Verif
namespace Float16n32

open Float2Bits (fields_of repr)

variable {o : FloatOps} {u2f : ℕ → ℕ}

/-- the conversion of `unsigned` to `float` rounds correctly -/
def CorrectU (u2f : ℕ → ℕ) : Prop := ∀ n : ℕ, n < 2 ^ 32 → IsRounded 8 23 (n : ℚ) (u2f n)

theorem correctU_exists : ∃ u2f, CorrectU u2f := by
  have : ∀ n : ℕ, ∃ b, n < 2 ^ 32 → IsRounded 8 23 (n : ℚ) b := by
    intro n
    by_cases h : n < 2 ^ 32
    · obtain ⟨b, hb⟩ := exists_rounded (eb := 8) (fb := 23) (by norm_num) (by norm_num) (x := (n : ℚ)) (by
        have h1 := maxFin_ge (eb := 8) (fb := 23) (m := 32) (by norm_num)
        have h2 : (n : ℚ) ≤ 2 ^ 32 := by exact_mod_cast h.le
        rw [abs_of_nonneg (by positivity)]
        exact h2.trans (by simpa using h1))
      exact ⟨b, fun _ => hb⟩
    · exact ⟨0, fun h' => absurd h' h⟩
  choose f hf using this
  exact ⟨f, hf⟩

/-- **C60**: conversion from `float` cuts numbers, keeps infinities and NaN. -/
theorem C60_ofFloat (f : ℕ) : ∃ r, ofFloat f = .ok r ∧ r < 2 ^ 16 ∧
    (∀ x, ieee 8 23 f = .num x → IsCut 5 10 x r) ∧ (∀ s, ieee 8 23 f = .inf s → ieee 5 10 r = .inf s) ∧
    (ieee 8 23 f = .nan → ieee 5 10 r = .nan) := by
  have e : ofFloat f = convertFloats (.any 8 23) (.any 5 10) f := by
    unfold ofFloat; rw [C51_traits.1, C51_traits.2.1]; rfl
  rw [e]
  cases h : ieee 8 23 f with
  | num x =>
    obtain ⟨r, h1, h2, h3, -⟩ := C56_num (eb2 := 5) (fb2 := 10) (by norm_num) (by norm_num) (by norm_num) (by norm_num) (by norm_num)
      (by norm_num) (by norm_num) h
    exact ⟨r, h1, h2, fun y hy => (by cases hy; exact h3), fun s hs => (by cases hs), fun hs => (by cases hs)⟩
  | inf s =>
    obtain ⟨r, h1, h2, h3⟩ := C56_inf (eb2 := 5) (fb2 := 10) (by norm_num) (by norm_num) (by norm_num) (by norm_num) (by norm_num) h
    exact ⟨r, h1, h2, fun y hy => (by cases hy), fun t ht => (by cases ht; exact h3), fun hs => (by cases hs)⟩
  | nan =>
    obtain ⟨r, h1, h2, h3⟩ := C56_nan (eb2 := 5) (fb2 := 10) (by norm_num) (by norm_num) (by norm_num) (by norm_num) (by norm_num) h
    exact ⟨r, h1, h2, fun y hy => (by cases hy), fun t ht => (by cases ht), fun _ => h3⟩

/-- pi is cut to 3.140625; the greatest float to 65504 -/
example : ofFloat 0x40490fdb = .ok 0x4248 ∧ ieee 5 10 0x4248 = .num (201 / 64) ∧ ofFloat 0x7f7fffff = .ok 0x7bff ∧ ofFloat 0xff800000 = .ok 0xfc00 :=
  ⟨by decide +kernel, by norm_num [ieee], by decide +kernel, by decide +kernel⟩

/-- **C60**: negation, absolute value and the constants are those of IEEE half precision; `zero()` is the positive zero. -/
theorem C60_sign {v : ℕ} (hv : v < 2 ^ 16) : ieee 5 10 (neg v) = (ieee 5 10 v).neg ∧
    ieee 5 10 (abs v) = (match ieee 5 10 v with | .num x => .num |x| | .inf _ => .inf false | .nan => .nan) ∧
    ieee 5 10 zero = .num 0 ∧ zero < 2 ^ 15 ∧ ieee 5 10 one = .num 1 ∧ ieee 5 10 two = .num 2 := by
  refine ⟨(C57_neg (eb := 5) (fb := 10) hv).2.1, ?_, by norm_num [ieee, zero], by decide, ?_, ?_⟩
  · have h := (C57_abs (eb := 5) (fb := 10) hv).1
    have e : abs v = AnyFloat.abs (.any 5 10) v := by
      unfold abs AnyFloat.abs
      have e1 : wrapU 32 (-0x8000 - 1) = 0xffff7fff := by decide +kernel
      have e2 : 2 ^ (FTrait.any 5 10).dataBits - 1 - (FTrait.any 5 10).signbit = 0x7fff := by decide +kernel
      rw [e1, e2, Nat.and_comm]
      have e3 : v &&& 0xffff7fff = v &&& 0x7fff := by
        apply Nat.eq_of_testBit_eq
        intro i
        rw [Nat.testBit_and, Nat.testBit_and]
        by_cases hi : i < 16
        · have : ∀ i < 16, Nat.testBit 0xffff7fff i = Nat.testBit 0x7fff i := by decide
          rw [this i hi]
        · rw [Nat.testBit_lt_two_pow (hv.trans_le (Nat.pow_le_pow_right (by norm_num) (by omega)))]; rfl
      rw [e3, wrapU_natCast (lt_of_le_of_lt Nat.and_le_left hv)]
    rw [e]; exact h
  · norm_num [ieee, show one = 0x3c00 by decide +kernel]
  · norm_num [ieee, show two = 0x4000 by decide +kernel]

example : neg 0x4248 = 0xc248 ∧ abs 0xc248 = 0x4248 ∧ abs 0xfc00 = 0x7c00 ∧ ieee 5 10 0xc248 = .num (-201 / 64) :=
  ⟨by decide +kernel, by decide +kernel, by decide +kernel, by norm_num [ieee]⟩

/-- the bits of a nonzero half float as a `float` -/
theorem widen_spec {v : ℕ} {x : ℚ} (hx : ieee 5 10 v = .num x) (h0 : x ≠ 0) :
    ∃ b, widen v = .ok b ∧ b < 2 ^ 32 ∧ ieee 8 23 b = .num x ∧ fSign 8 23 b = decide (x < 0) ∧ 103 ≤ fExp 8 23 b ∧ 2 ^ 13 ∣ b := by
  have e : widen v = convertFloats (.any 5 10) (.any 8 23) v := by
    unfold widen; rw [C51_traits.1, C51_traits.2.1]; rfl
  have hb := (ieee_bounds (by norm_num) hx h0).1
  have hmin : (2 : ℚ) ^ (-24 : ℤ) ≤ |x| := le_trans (le_of_eq (by norm_num)) hb
  have hn : x = 0 ∨ minNorm 8 ≤ |x| := Or.inr (le_trans (by unfold minNorm; exact zpow_le_zpow_right₀ (by norm_num) (by norm_num)) hmin)
  obtain ⟨b, h1, h2, -⟩ := C56_num (eb2 := 8) (fb2 := 23) (by norm_num) (by norm_num) (by norm_num) (by norm_num) (by norm_num)
    (by norm_num) (by norm_num) hx
  obtain ⟨b', h3, h4⟩ := C56_exact (eb2 := 8) (fb2 := 23) (by norm_num) (by norm_num) (by norm_num) (by norm_num) (by norm_num)
    (by norm_num) (by norm_num) hx hn (Or.inl ⟨by norm_num, by norm_num⟩)
  obtain rfl : b = b' := by rw [h1] at h3; cases h3; rfl
  obtain ⟨hs, hc⟩ := fields_of h4 h0
  obtain ⟨n, A, hn1, hn2, -⟩ := ieee_nat hx
  have hman := fMan_lt 23 b
  have hj := fJoin_fields (eb := 8) (fb := 23) h2
  refine ⟨b, e.trans h1, h2, h4, hs, ?_, ?_⟩
  · rcases hc with ⟨-, hM, hv⟩ | ⟨hE, -, hv⟩
    · rw [hv] at hmin
      have := Float2Bits.pow_lt_of hman hmin
      omega
    · rw [hv] at hmin
      have := Float2Bits.pow_lt_of (k := 24) (by omega) hmin
      omega
  · rcases hc with ⟨-, hM, hv⟩ | ⟨hE, -, hv⟩
    · rw [hv] at hmin
      have := Float2Bits.pow_lt_of hman hmin
      omega
    · have hd : 2 ^ 13 ∣ 2 ^ 23 + fMan 23 b := by
        rw [hn2] at hv
        generalize (fExp 8 23 b : ℤ) - 150 = t at hv
        have hM : 2 ^ 23 ≤ 2 ^ 23 + fMan 23 b := by omega
        generalize 2 ^ 23 + fMan 23 b = M at *
        have h5 : (2 : ℚ) ^ (23 + t) ≤ n * 2 ^ A := by
          rw [hv, zpow_add₀ (by norm_num)]
          apply mul_le_mul_of_nonneg_right _ (by positivity)
          exact_mod_cast hM
        have h6 := Float2Bits.pow_lt_of hn1 h5
        obtain ⟨j, hj⟩ : ∃ j : ℕ, A = t + 13 + j := ⟨(A - t - 13).toNat, by push_cast at h6; omega⟩
        have h7 : (M : ℚ) = ((n * 2 ^ j * 2 ^ 13 : ℕ) : ℚ) := by
          rw [hj, zpow_add₀ (by norm_num), zpow_add₀ (by norm_num)] at hv
          have hp : (2 : ℚ) ^ t ≠ 0 := by positivity
          have : (M : ℚ) * 2 ^ t = (n * 2 ^ j * 2 ^ 13) * 2 ^ t := by
            rw [← hv, zpow_natCast, show (2 : ℚ) ^ (13 : ℤ) = 2 ^ 13 from rfl]; ring
          push_cast
          exact mul_right_cancel₀ hp this
        have h8 : M = n * 2 ^ j * 2 ^ 13 := by exact_mod_cast h7
        exact ⟨n * 2 ^ j, by rw [h8]; ring⟩
      have hd' : 2 ^ 13 ∣ fMan 23 b := by omega
      rw [← hj]
      unfold fJoin
      refine Nat.dvd_add (Nat.dvd_add ?_ (Dvd.dvd.mul_left (by norm_num) _)) hd'
      split_ifs <;> norm_num

theorem toFloat_of (hu : CorrectU u2f) {v b : ℕ} (h1 : widen v = .ok b) (h2 : b < 2 ^ 32) (h5 : 103 ≤ fExp 8 23 b) (hd : 2 ^ 13 ∣ b) :
    toFloat u2f v = .ok (u2f b) ∧ ieee 8 23 (u2f b) = .num b := by
  obtain ⟨q, hq⟩ := hd
  refine ⟨by unfold toFloat; rw [bind_ok _ h1]; rfl, (hu b h2).exact ?_⟩
  have hb0 : 0 < b := by
    rcases Nat.eq_zero_or_pos b with h | h
    · rw [h] at h5; exact absurd h5 (by decide)
    · exact h
  have hb : (b : ℚ) < 2 ^ 32 := by exact_mod_cast h2
  have e : (b : ℚ) = (q : ℚ) * 2 ^ (13 : ℤ) := by rw [hq]; push_cast; norm_num; ring
  have := repr (m := q) (t := 13) (by omega) (by omega) (by norm_num) (by rw [← e]; exact hb.trans (by norm_num))
  rw [e]; exact this

/-- **C60**: as a `float`, a nonzero half float is the bit pattern that it should have, taken as a number. -/
theorem C60_toFloat (hu : CorrectU u2f) {v : ℕ} {x : ℚ} (hx : ieee 5 10 v = .num x) (h0 : x ≠ 0) :
    ∃ r b, toFloat u2f v = .ok r ∧ b < 2 ^ 32 ∧ ieee 8 23 b = .num x ∧ ieee 8 23 r = .num b := by
  obtain ⟨b, h1, h2, h3, -, h5, hd⟩ := widen_spec hx h0
  obtain ⟨k1, k2⟩ := toFloat_of hu h1 h2 h5 hd
  exact ⟨_, b, k1, h2, h3, k2⟩

/-- the pattern of 1.0f is 0x3f800000, and the result is the number 1065353216 -/
example (hu : CorrectU u2f) : ∃ r b, toFloat u2f 0x3c00 = .ok r ∧ b < 2 ^ 32 ∧ ieee 8 23 b = .num 1 ∧ ieee 8 23 r = .num b :=
  C60_toFloat hu (by norm_num [ieee]) (by norm_num)

theorem big {b : ℕ} (h2 : b < 2 ^ 32) (h5 : 103 ≤ fExp 8 23 b) : (2 : ℚ) ^ (29 : ℤ) ≤ b := by
  have hj := fJoin_fields (eb := 8) (fb := 23) h2
  unfold fJoin at hj
  have h6 : fExp 8 23 b * 2 ^ 23 ≤ b := by
    generalize fExp 8 23 b * 2 ^ 23 = E at *
    omega
  have h7 : 103 * 2 ^ 23 ≤ b := le_trans (Nat.mul_le_mul_right _ h5) h6
  have h8 : 2 ^ 29 ≤ b := le_trans (by norm_num) h7
  have h9 : ((2 ^ 29 : ℕ) : ℚ) ≤ (b : ℚ) := Nat.cast_le.mpr h8
  exact le_trans (by norm_num) h9

theorem float29 : ieee 8 23 0x4e000000 = .num (2 ^ (29 : ℤ)) := by norm_num [ieee]

/-- **C60**, conversion to `float`: wrong for every number but zero, and for the infinities and NaN, which become finite. -/
theorem C60_toFloat_wrong (hu : CorrectU u2f) {v : ℕ} (h0 : ieee 5 10 v ≠ .num 0) :
    ∃ r, toFloat u2f v = .ok r ∧ (∃ y, ieee 8 23 r = .num y) ∧ ieee 8 23 r ≠ ieee 5 10 v := by
  have key : ∀ b, widen v = .ok b → b < 2 ^ 32 → (∃ y, ieee 8 23 (u2f b) = .num y) ∧ toFloat u2f v = .ok (u2f b) := by
    intro b hb hb2
    obtain ⟨y, hy, -⟩ := hu b hb2
    exact ⟨⟨y, hy⟩, by unfold toFloat; rw [bind_ok _ hb]; rfl⟩
  have e : widen v = convertFloats (.any 5 10) (.any 8 23) v := by
    unfold widen; rw [C51_traits.1, C51_traits.2.1]; rfl
  cases hv : ieee 5 10 v with
  | num x =>
    have hx0 : x ≠ 0 := by rintro rfl; exact h0 hv
    obtain ⟨b, h1, h2, h3, h4, h5, -⟩ := widen_spec hv hx0
    obtain ⟨⟨y, hy⟩, k2⟩ := key b h1 h2
    refine ⟨_, k2, ⟨y, hy⟩, ?_⟩
    obtain ⟨y', hy', hr⟩ := hu b h2
    rw [hy] at hy' ⊢
    cases hy'
    intro hc
    cases hc
    have hle := big h2 h5
    have h6 := (hr _ _ float29).1 hle
    have h7 := ieee_le_maxFin (by norm_num) hv
    have h8 : maxFin 5 10 < 2 ^ (29 : ℤ) := (maxFin_lt (eb := 5) (fb := 10)).trans (by norm_num)
    have := le_abs_self x
    linarith
  | inf s =>
    obtain ⟨b, h1, h2, -⟩ := C56_inf (eb2 := 8) (fb2 := 23) (by norm_num) (by norm_num) (by norm_num) (by norm_num) (by norm_num) hv
    obtain ⟨⟨y, hy⟩, k2⟩ := key b (e.trans h1) h2
    exact ⟨_, k2, ⟨y, hy⟩, by rw [hy]; intro h; cases h⟩
  | nan =>
    obtain ⟨b, h1, h2, -⟩ := C56_nan (eb2 := 8) (fb2 := 23) (by norm_num) (by norm_num) (by norm_num) (by norm_num) (by norm_num) hv
    obtain ⟨⟨y, hy⟩, k2⟩ := key b (e.trans h1) h2
    exact ⟨_, k2, ⟨y, hy⟩, by rw [hy]; intro h; cases h⟩

/-- for an infinity as well -/
example (hu : CorrectU u2f) : ∃ r, toFloat u2f 0x7c00 = .ok r ∧ (∃ y, ieee 8 23 r = .num y) ∧ ieee 8 23 r ≠ ieee 5 10 0x7c00 :=
  C60_toFloat_wrong hu (by norm_num [ieee]; nofun)

/-- order of the numbers of two normal floats and order of their bits -/
theorem bits_lt {b b' : ℕ} {x y : ℚ} (hb : b < 2 ^ 32) (hb' : b' < 2 ^ 32) (hx : ieee 8 23 b = .num x) (hy : ieee 8 23 b' = .num y)
    (hx0 : x ≠ 0) (hy0 : y ≠ 0) (he : 103 ≤ fExp 8 23 b) (he' : 103 ≤ fExp 8 23 b') (hs : fSign 8 23 b = fSign 8 23 b') :
    b < b' ↔ |x| < |y| := by
  have hj := fJoin_fields (eb := 8) (fb := 23) hb
  have hj' := fJoin_fields (eb := 8) (fb := 23) hb'
  have hm := fMan_lt 23 b
  have hm' := fMan_lt 23 b'
  obtain ⟨-, ⟨h, -⟩ | ⟨-, -, hv⟩⟩ := fields_of hx hx0
  · omega
  obtain ⟨-, ⟨h, -⟩ | ⟨-, -, hv'⟩⟩ := fields_of hy hy0
  · omega
  have mono : ∀ {e e' m m' : ℕ}, m < 2 ^ 23 → (e < e' ∨ e = e' ∧ m < m') →
      ((2 ^ 23 + m : ℕ) : ℚ) * 2 ^ ((e : ℤ) - 150) < ((2 ^ 23 + m' : ℕ) : ℚ) * 2 ^ ((e' : ℤ) - 150) := by
    intro e e' m m' h1 h2
    rcases h2 with h2 | ⟨rfl, h2⟩
    · calc ((2 ^ 23 + m : ℕ) : ℚ) * 2 ^ ((e : ℤ) - 150) < 2 ^ 24 * 2 ^ ((e : ℤ) - 150) := by
            apply mul_lt_mul_of_pos_right _ (by positivity)
            have : 2 ^ 23 + m < 2 ^ 24 := by omega
            exact_mod_cast this
        _ = 2 ^ 23 * 2 ^ ((e : ℤ) + 1 - 150) := by
            rw [show (e : ℤ) + 1 - 150 = (e - 150) + 1 by ring, zpow_add₀ (by norm_num) _ 1]; ring
        _ ≤ 2 ^ 23 * 2 ^ ((e' : ℤ) - 150) := by
            apply mul_le_mul_of_nonneg_left _ (by positivity)
            exact zpow_le_zpow_right₀ (by norm_num) (by omega)
        _ ≤ ((2 ^ 23 + m' : ℕ) : ℚ) * 2 ^ ((e' : ℤ) - 150) := by
            apply mul_le_mul_of_nonneg_right _ (by positivity)
            push_cast
            have : (0 : ℚ) ≤ m' := by positivity
            linarith
    · apply mul_lt_mul_of_pos_right _ (by positivity)
      exact_mod_cast (by omega : 2 ^ 23 + m < 2 ^ 23 + m')
  unfold fJoin at hj hj'
  rw [hs] at hj
  rw [hv, hv']
  generalize fExp 8 23 b = e at *
  generalize fExp 8 23 b' = e' at *
  generalize fMan 23 b = m at *
  generalize fMan 23 b' = m' at *
  generalize (if fSign 8 23 b' = true then 2 ^ (8 + 23) else 0 : ℕ) = S at *
  constructor
  · intro h
    exact mono hm (by omega)
  · intro h
    by_contra hc
    rcases Nat.lt_or_ge b' b with h1 | h1
    · exact absurd (mono (m := m') (m' := m) (e := e') (e' := e) hm' (by omega)) (not_lt.mpr h.le)
    · have h2 : e = e' := by omega
      have h3 : m = m' := by omega
      rw [h2, h3] at h
      exact lt_irrefl _ h

theorem lt_of {a b p q : ℕ} {X Y : ℚ} (ha : toFloat u2f a = .ok p) (hb : toFloat u2f b = .ok q) (hp : ieee 8 23 p = .num X)
    (hq : ieee 8 23 q = .num Y) : lt u2f a b = .ok (decide (X < Y)) ∧ eq u2f a b = .ok (decide (X = Y)) := by
  unfold lt eq
  rw [bind_ok _ ha, bind_ok _ hb, bind_ok _ ha, bind_ok _ hb]
  have e1 : AnyFloat.natLt .single p q = decide (X < Y) := by
    show AnyFloat.xLt (ieee 8 23 p) (ieee 8 23 q) = _
    rw [hp, hq]; rfl
  have e2 : AnyFloat.natEq .single p q = decide (X = Y) := by
    show AnyFloat.xEq (ieee 8 23 p) (ieee 8 23 q) = _
    rw [hp, hq]; rfl
  rw [e1, e2]
  exact ⟨rfl, rfl⟩

/-- **C60**, comparisons of nonzero numbers: `==` is right, `<` is right for numbers of which the left is positive and the right
too, and wrong, in every case, otherwise: the order of the bits is returned. -/
theorem C60_order_partial (hu : CorrectU u2f) {a b : ℕ} {x y : ℚ} (hx : ieee 5 10 a = .num x) (hy : ieee 5 10 b = .num y) (hx0 : x ≠ 0)
    (hy0 : y ≠ 0) :
    eq u2f a b = .ok (decide (x = y)) ∧
    lt u2f a b = .ok (if 0 < x then (if 0 < y then decide (x < y) else true) else (if 0 < y then false else decide (y < x))) := by
  obtain ⟨c, h1, h2, h3, h4, h5, h6⟩ := widen_spec hx hx0
  obtain ⟨d, h1', h2', h3', h4', h5', h6'⟩ := widen_spec hy hy0
  obtain ⟨k1, k2⟩ := toFloat_of hu h1 h2 h5 h6
  obtain ⟨k1', k2'⟩ := toFloat_of hu h1' h2' h5' h6'
  obtain ⟨l1, l2⟩ := lt_of k1 k1' k2 k2'
  rw [l1, l2]
  have ec : decide ((c : ℚ) < d) = decide (c < d) := by simp only [Nat.cast_lt]
  have ee : decide ((c : ℚ) = d) = decide (c = d) := by simp only [Nat.cast_inj]
  rw [ec, ee]
  have top : ∀ {w : ℕ}, w < 2 ^ 32 → (fSign 8 23 w = true ↔ 2 ^ 31 ≤ w) := by
    intro w hw
    have hj := fJoin_fields (eb := 8) (fb := 23) hw
    have hm := fMan_lt 23 w
    have he := fExp_lt 8 23 w
    unfold fJoin at hj
    cases hs : fSign 8 23 w <;> rw [hs] at hj <;> simp only [if_true, if_false, Bool.false_eq_true, true_iff, false_iff] at hj ⊢ <;> omega
  have tc := top h2
  have td := top h2'
  rw [h4, decide_eq_true_eq] at tc
  rw [h4', decide_eq_true_eq] at td
  have hsame := fun hs => bits_lt h2 h2' h3 h3' hx0 hy0 h5 h5' hs
  rw [h4, h4'] at hsame
  have heq : c = d ↔ x = y := by
    constructor
    · intro h; rw [h, h3'] at h3; cases h3; rfl
    · intro h
      subst h
      have a1 := bits_lt h2 h2' h3 h3' hx0 hy0 h5 h5' (h4.trans h4'.symm)
      have a2 := bits_lt h2' h2 h3' h3 hy0 hx0 h5' h5 (h4'.trans h4.symm)
      simp only [lt_self_iff_false, iff_false] at a1 a2
      omega
  refine ⟨by simp only [heq], ?_⟩
  refine congrArg _ ?_
  rcases lt_or_gt_of_ne hx0 with sx | sx <;> rcases lt_or_gt_of_ne hy0 with sy | sy
  · have hb := hsame (by simp only [sx, sy])
    rw [abs_of_neg sx, abs_of_neg sy, neg_lt_neg_iff] at hb
    rw [if_neg (not_lt.mpr sx.le), if_neg (not_lt.mpr sy.le)]
    simp only [hb]
  · have q1 := tc.mp sx
    have q2 := mt td.mpr (not_lt.mpr sy.le)
    rw [if_neg (not_lt.mpr sx.le), if_pos sy]
    exact decide_eq_false (by omega)
  · have q1 := td.mp sy
    have q2 := mt tc.mpr (not_lt.mpr sx.le)
    rw [if_pos sx, if_neg (not_lt.mpr sy.le)]
    exact decide_eq_true (by omega)
  · have hb := hsame (by simp only [not_lt.mpr sx.le, not_lt.mpr sy.le])
    rw [abs_of_pos sx, abs_of_pos sy] at hb
    rw [if_pos sx, if_pos sy]
    simp only [hb]

/-- `1 < 2` is right, `-2 < -1` is false -/
example (hu : CorrectU u2f) : lt u2f 0x3c00 0x4000 = .ok true ∧ lt u2f 0xc000 0xbc00 = .ok false := by
  have h1 := (C60_order_partial hu (a := 0x3c00) (b := 0x4000) (x := 1) (y := 2) (by norm_num [ieee]) (by norm_num [ieee])
    (by norm_num) (by norm_num)).2
  have h2 := (C60_order_partial hu (a := 0xc000) (b := 0xbc00) (x := -2) (y := -1) (by norm_num [ieee]) (by norm_num [ieee])
    (by norm_num) (by norm_num)).2
  norm_num at h1 h2
  exact ⟨h1, h2⟩

/-- **C60**, `<` of a negative and a positive number: always the wrong answer. -/
theorem C60_lt_wrong (hu : CorrectU u2f) {a b : ℕ} {x y : ℚ} (hx : ieee 5 10 a = .num x) (hy : ieee 5 10 b = .num y) (hx0 : x < 0)
    (hy0 : 0 < y) : lt u2f a b = .ok false ∧ lt u2f b a = .ok true := by
  have h1 := (C60_order_partial hu hx hy hx0.ne hy0.ne').2
  have h2 := (C60_order_partial hu hy hx hy0.ne' hx0.ne).2
  rw [if_neg (not_lt.mpr hx0.le), if_pos hy0] at h1
  rw [if_pos hy0, if_neg (not_lt.mpr hx0.le)] at h2
  exact ⟨h1, h2⟩

/-- -2 and 1 -/
example (hu : CorrectU u2f) : lt u2f 0xc000 0x3c00 = .ok false ∧ lt u2f 0x3c00 0xc000 = .ok true :=
  C60_lt_wrong hu (x := -2) (y := 1) (by norm_num [ieee]) (by norm_num [ieee]) (by norm_num) (by norm_num)

theorem half_max : maxFin 5 10 = 65504 := by norm_num [maxFin]

theorem half_max_bits : ieee 5 10 0x7bff = .num 65504 := by norm_num [ieee]

/-- a `float` from 2^29 on becomes the largest half float -/
theorem ofFloat_big {f : ℕ} {z : ℚ} (hf : ieee 8 23 f = .num z) (hz : (2 : ℚ) ^ (29 : ℤ) ≤ z) :
    ∃ r, ofFloat f = .ok r ∧ ieee 5 10 r = .num 65504 := by
  obtain ⟨r, h1, -, h2, -⟩ := C60_ofFloat f
  obtain ⟨y, hy, -, hc⟩ := h2 z hf
  have hz0 : 0 < z := lt_of_lt_of_le (by positivity) hz
  have hz1 : (65504 : ℚ) ≤ |z| := by rw [abs_of_pos hz0]; exact le_trans (by norm_num) hz
  obtain ⟨c1, -, c3⟩ := hc (le_trans (by norm_num [minNorm]) hz1)
  have hy0 : 0 < y := (mul_pos_iff_of_pos_left hz0).mp c1
  have h5 := c3 _ _ half_max_bits (by rw [abs_of_pos (by norm_num)]; exact hz1)
  have h6 := ieee_le_maxFin (by norm_num) hy
  rw [half_max, abs_of_pos hy0] at h6
  rw [abs_of_pos (by norm_num), abs_of_pos hy0] at h5
  exact ⟨r, h1, by rw [hy, le_antisymm h6 h5]⟩

theorem max_ge : (2 : ℚ) ^ (64 : ℕ) ≤ maxFin 8 23 := by
  have := maxFin_ge (eb := 8) (fb := 23) (m := 64) (by norm_num)
  simpa using this

/-- **C60**, arithmetic: the sum and the product of any two nonzero numbers come out as the largest half float, 65504, so that
`1 + 1` is not 2 and `1 * 1` is not 1. -/
theorem C60_arith_wrong (hu : CorrectU u2f) (ho : o.Correct 8 23) {a b : ℕ} {x y : ℚ} (hx : ieee 5 10 a = .num x)
    (hy : ieee 5 10 b = .num y) (hx0 : x ≠ 0) (hy0 : y ≠ 0) :
    ∃ r s, add o u2f a b = .ok r ∧ mul o u2f a b = .ok s ∧ ieee 5 10 r = .num 65504 ∧ ieee 5 10 s = .num 65504 := by
  obtain ⟨c, h1, h2, h3, h4, h5, h6⟩ := widen_spec hx hx0
  obtain ⟨d, h1', h2', h3', h4', h5', h6'⟩ := widen_spec hy hy0
  obtain ⟨k1, k2⟩ := toFloat_of hu h1 h2 h5 h6
  obtain ⟨k1', k2'⟩ := toFloat_of hu h1' h2' h5' h6'
  have bc := big h2 h5
  have bd := big h2' h5'
  have lc : (c : ℚ) < 2 ^ 32 := by exact_mod_cast h2
  have ld : (d : ℚ) < 2 ^ 32 := by exact_mod_cast h2'
  have h29 : (1 : ℚ) ≤ 2 ^ (29 : ℤ) := by norm_num
  have hm := max_ge
  have add1 : (2 : ℚ) ^ (29 : ℤ) ≤ (c : ℚ) + d := by linarith
  have add2 : (c : ℚ) + d ≤ maxFin 8 23 := le_trans (by linarith) ((by norm_num : (2 ^ 32 : ℚ) + 2 ^ 32 ≤ 2 ^ 64).trans hm)
  have mul1 : (2 : ℚ) ^ (29 : ℤ) ≤ (c : ℚ) * d :=
    le_trans bc (le_mul_of_one_le_right (by positivity) (h29.trans bd))
  have mul2 : (c : ℚ) * d ≤ maxFin 8 23 :=
    le_trans (mul_le_mul lc.le ld.le (by positivity) (by positivity)) ((by norm_num : (2 ^ 32 : ℚ) * 2 ^ 32 ≤ 2 ^ 64).trans hm)
  obtain ⟨z, hz, hr⟩ := ho.add k2 k2' (by rw [abs_of_nonneg (by positivity)]; exact add2)
  obtain ⟨w, hw, hs⟩ := ho.mul k2 k2' (by rw [abs_of_nonneg (by positivity)]; exact mul2)
  obtain ⟨r, r1, r2⟩ := ofFloat_big hz ((hr _ _ float29).1 add1)
  obtain ⟨s, s1, s2⟩ := ofFloat_big hw ((hs _ _ float29).1 mul1)
  refine ⟨r, s, ?_, ?_, r2, s2⟩
  · unfold add; rw [bind_ok _ k1, bind_ok _ k1']; exact r1
  · unfold mul; rw [bind_ok _ k1, bind_ok _ k1']; exact s1

/-- `1 + -2` -/
example (hu : CorrectU u2f) (ho : o.Correct 8 23) : ∃ r s, add o u2f 0x3c00 0xc000 = .ok r ∧ mul o u2f 0x3c00 0xc000 = .ok s ∧
    ieee 5 10 r = .num 65504 ∧ ieee 5 10 s = .num 65504 :=
  C60_arith_wrong hu ho (x := 1) (y := -2) (by norm_num [ieee]) (by norm_num [ieee]) (by norm_num) (by norm_num)

/-- a nonzero half float as a `float`: a multiple of 2^13 from 2^29 up to 2^32 -/
theorem operand (hu : CorrectU u2f) {v : ℕ} {x : ℚ} (hx : ieee 5 10 v = .num x) (h0 : x ≠ 0) :
    ∃ b, toFloat u2f v = .ok (u2f b) ∧ ieee 8 23 (u2f b) = .num b ∧ b < 2 ^ 32 ∧ ieee 8 23 b = .num x ∧ (2 : ℚ) ^ (29 : ℤ) ≤ b ∧ 2 ^ 13 ∣ b := by
  obtain ⟨b, h1, h2, h3, -, h5, h6⟩ := widen_spec hx h0
  obtain ⟨k1, k2⟩ := toFloat_of hu h1 h2 h5 h6
  exact ⟨b, k1, k2, h2, h3, big h2 h5, h6⟩

/-- multiples of 2^13 up to 2^32 are floats -/
theorem repr13 {k : ℤ} (hk : |k| < 2 ^ 19) : ∃ g, ieee 8 23 g = .num ((k : ℚ) * 2 ^ 13) := by
  have key : ∀ n : ℕ, 0 < n → n < 2 ^ 19 → ∃ g, ieee 8 23 g = .num ((n : ℚ) * 2 ^ 13) := by
    intro n h0 h1
    have h2 : (n : ℚ) < 2 ^ 19 := by exact_mod_cast h1
    have := repr (m := n) (t := 13) h0 (by omega) (by norm_num) (by
      rw [show (2 : ℚ) ^ (13 : ℤ) = 2 ^ 13 from rfl, show (2 : ℚ) ^ (128 : ℤ) = 2 ^ 128 from rfl]
      have : (n : ℚ) * 2 ^ 13 < 2 ^ 19 * 2 ^ 13 := mul_lt_mul_of_pos_right h2 (by positivity)
      exact this.trans (by norm_num))
    rwa [show (2 : ℚ) ^ (13 : ℤ) = 2 ^ 13 from rfl] at this
  rw [abs_lt] at hk
  rcases lt_trichotomy k 0 with h | rfl | h
  · obtain ⟨g, hg⟩ := key k.natAbs (by omega) (by omega)
    obtain ⟨g', hg'⟩ := ieee_neg hg
    refine ⟨g', ?_⟩
    rw [hg']
    have : (k.natAbs : ℚ) = -k := by
      rw [← Int.cast_natCast, show (k.natAbs : ℤ) = -k by omega, Int.cast_neg]
    rw [this]; congr 1; ring
  · exact ⟨0, by norm_num [ieee]⟩
  · obtain ⟨g, hg⟩ := key k.natAbs (by omega) (by omega)
    refine ⟨g, ?_⟩
    rw [hg]
    have : (k.natAbs : ℚ) = k := by
      rw [← Int.cast_natCast, show (k.natAbs : ℤ) = k by omega]
    rw [this]

theorem half_8192 : ieee 5 10 0x7000 = .num 8192 := by norm_num [ieee]

/-- **C60**, `-`: the difference of two nonzero numbers is the difference of their bits as `float`s, cut to a half float; it is zero
exactly for equal numbers and otherwise at least 8192 in magnitude, so that every nonzero difference below that is wrong. -/
theorem C60_sub_wrong (hu : CorrectU u2f) (hu32 : ∀ n, u2f n < 2 ^ 32) (ho : o.Correct 8 23) {a b : ℕ} {x y : ℚ}
    (hx : ieee 5 10 a = .num x) (hy : ieee 5 10 b = .num y) (hx0 : x ≠ 0) (hy0 : y ≠ 0) :
    ∃ c d r w, c < 2 ^ 32 ∧ d < 2 ^ 32 ∧ ieee 8 23 c = .num x ∧ ieee 8 23 d = .num y ∧ sub o u2f a b = .ok r ∧
      IsCut 5 10 ((c : ℚ) - d) r ∧ ieee 5 10 r = .num w ∧ (w = 0 ↔ c = d) ∧ (w ≠ 0 → 8192 ≤ |w|) := by
  obtain ⟨c, k1, k2, k3, k4, -, ⟨m, hm⟩⟩ := operand hu hx hx0
  obtain ⟨d, l1, l2, l3, l4, -, ⟨n, hn⟩⟩ := operand hu hy hy0
  have hneg := (C57_neg (eb := 8) (fb := 23) (hu32 d)).2.1
  rw [l2] at hneg
  have hneg' : ieee 8 23 (u2f d ^^^ 0x80000000) = .num (-(d : ℚ)) := hneg
  have hcd : (c : ℚ) + -(d : ℚ) = (((m : ℤ) - n : ℤ) : ℚ) * 2 ^ 13 := by rw [hm, hn]; push_cast; ring
  have hk : |(m : ℤ) - n| < 2 ^ 19 := by rw [abs_lt]; omega
  obtain ⟨g, hg⟩ := repr13 hk
  have hfin : |(c : ℚ) + -(d : ℚ)| ≤ maxFin 8 23 := by
    rw [hcd]; exact ieee_le_maxFin (by norm_num) hg
  have hadd := (ho.add k2 hneg' hfin).exact ⟨g, by rw [hcd]; exact hg⟩
  obtain ⟨r, r1, -, r2, -⟩ := C60_ofFloat (o.add (u2f c) (u2f d ^^^ 0x80000000))
  have hcut := r2 _ hadd
  obtain ⟨w, w1, w2, w3⟩ := hcut
  refine ⟨c, d, r, w, k3, l3, k4, l4, ?_, ⟨w, w1, ?_, ?_⟩, w1, ?_, ?_⟩
  · unfold sub; rw [bind_ok _ k1, bind_ok _ l1]; exact r1
  · rw [sub_eq_add_neg]; exact w2
  · rw [sub_eq_add_neg]; exact w3
  · constructor
    · intro h0
      by_contra hne
      have hmn : (1 : ℤ) ≤ |(m : ℤ) - n| := Int.one_le_abs (by omega)
      have h1 : (8192 : ℚ) ≤ |(c : ℚ) + -(d : ℚ)| := by
        rw [hcd, abs_mul, abs_of_pos (by norm_num : (0 : ℚ) < 2 ^ 13), ← Int.cast_abs]
        have : (1 : ℚ) ≤ ((|(m : ℤ) - n| : ℤ) : ℚ) := by exact_mod_cast hmn
        linarith
      obtain ⟨p1, -⟩ := w3 (le_trans (by norm_num [minNorm]) h1)
      rw [h0, mul_zero] at p1
      exact lt_irrefl _ p1
    · intro h
      refine w2 ?_
      rw [h, add_neg_cancel, abs_zero]; norm_num [minNorm]
  · intro h0
    have hne : (m : ℤ) - n ≠ 0 := by
      intro h
      refine h0 (w2 ?_)
      rw [hcd, h]; norm_num [minNorm]
    have hmn : (1 : ℤ) ≤ |(m : ℤ) - n| := Int.one_le_abs hne
    have h1 : (8192 : ℚ) ≤ |(c : ℚ) + -(d : ℚ)| := by
      rw [hcd, abs_mul, abs_of_pos (by norm_num : (0 : ℚ) < 2 ^ 13), ← Int.cast_abs]
      have : (1 : ℚ) ≤ ((|(m : ℤ) - n| : ℤ) : ℚ) := by exact_mod_cast hmn
      linarith
    obtain ⟨-, -, p3⟩ := w3 (le_trans (by norm_num [minNorm]) h1)
    have := p3 _ _ half_8192 (by rw [abs_of_pos (by norm_num)]; exact h1)
    rwa [abs_of_pos (by norm_num : (0 : ℚ) < 8192)] at this

/-- `2 - 1`: not below 8192 -/
example (hu : CorrectU u2f) (hu32 : ∀ n, u2f n < 2 ^ 32) (ho : o.Correct 8 23) :
    ∃ r w, sub o u2f 0x4000 0x3c00 = .ok r ∧ ieee 5 10 r = .num w ∧ 8192 ≤ |w| := by
  obtain ⟨c, d, r, w, -, -, hc, hd, h1, -, h2, h3, h4⟩ := C60_sub_wrong hu hu32 ho (a := 0x4000) (b := 0x3c00) (x := 2) (y := 1)
    (by norm_num [ieee]) (by norm_num [ieee]) (by norm_num) (by norm_num)
  refine ⟨r, w, h1, h2, h4 fun h => ?_⟩
  rw [h3.mp h, hd, XNum.num.injEq] at hc
  norm_num at hc

/-- **C60**, `/`: the quotient of two nonzero numbers is the quotient of their bits as `float`s, rounded and cut to a half float, and
lies between 1/8 and 8 whatever the numbers are: every negative quotient, and every one outside this range, is wrong. -/
theorem C60_div_wrong (hu : CorrectU u2f) (ho : o.Correct 8 23) {a b : ℕ} {x y : ℚ} (hx : ieee 5 10 a = .num x)
    (hy : ieee 5 10 b = .num y) (hx0 : x ≠ 0) (hy0 : y ≠ 0) :
    ∃ c d r w, c < 2 ^ 32 ∧ d < 2 ^ 32 ∧ ieee 8 23 c = .num x ∧ ieee 8 23 d = .num y ∧ div o u2f a b = .ok r ∧
      IsCutRounded 5 10 8 23 ((c : ℚ) / d) r ∧ ieee 5 10 r = .num w ∧ 1 / 8 ≤ w ∧ w ≤ 8 := by
  obtain ⟨c, k1, k2, k3, k4, k5, -⟩ := operand hu hx hx0
  obtain ⟨d, l1, l2, l3, l4, l5, -⟩ := operand hu hy hy0
  have lc : (c : ℚ) < 2 ^ 32 := by exact_mod_cast k3
  have ld : (d : ℚ) < 2 ^ 32 := by exact_mod_cast l3
  have e29 : (2 : ℚ) ^ (29 : ℤ) = 2 ^ 29 := rfl
  rw [e29] at k5 l5
  have hd0 : (0 : ℚ) < d := lt_of_lt_of_le (by norm_num) l5
  have q1 : (1 / 8 : ℚ) ≤ c / d := by rw [le_div_iff₀ hd0]; linarith [(by norm_num : (2 : ℚ) ^ 32 = 8 * 2 ^ 29)]
  have q2 : (c : ℚ) / d ≤ 8 := by rw [div_le_iff₀ hd0]; linarith [(by norm_num : (2 : ℚ) ^ 32 = 8 * 2 ^ 29)]
  have q0 : (0 : ℚ) < c / d := lt_of_lt_of_le (by norm_num) q1
  have hm := max_ge
  have hr := ho.div k2 l2 hd0.ne' (by
    rw [abs_of_pos q0]
    exact q2.trans (le_trans (by norm_num) hm))
  obtain ⟨z, hz, hs⟩ := id hr
  obtain ⟨r, r1, -, r2, -⟩ := C60_ofFloat (o.div (u2f c) (u2f d))
  have hcut := r2 _ hz
  have z1 : (1 / 8 : ℚ) ≤ z := (hs 0x3e000000 _ (by norm_num [ieee])).1 q1
  have z2 : z ≤ 8 := (hs 0x41000000 _ (by norm_num [ieee])).2 q2
  have z0 : 0 < z := lt_of_lt_of_le (by norm_num) z1
  obtain ⟨w, w1, -, w3⟩ := id hcut
  obtain ⟨p1, p2, p3⟩ := w3 (by rw [abs_of_pos z0]; exact le_trans (by norm_num [minNorm]) z1)
  have w0 : 0 < w := (mul_pos_iff_of_pos_left z0).mp p1
  rw [abs_of_pos w0, abs_of_pos z0] at p2
  have p4 := p3 0x3000 (1 / 8) (by norm_num [ieee]) (by rw [abs_of_pos (by norm_num), abs_of_pos z0]; exact z1)
  rw [abs_of_pos w0, abs_of_pos (by norm_num : (0 : ℚ) < 1 / 8)] at p4
  exact ⟨c, d, r, w, k3, l3, k4, l4, by unfold div; rw [bind_ok _ k1, bind_ok _ l1]; exact r1, ⟨_, z, hr, hz, hcut⟩, w1, p4, p2.trans z2⟩

/-- `2 / 1024` is not below 1/8 -/
example (hu : CorrectU u2f) (ho : o.Correct 8 23) : ∃ r w, div o u2f 0x4000 0x6400 = .ok r ∧ ieee 5 10 r = .num w ∧ 1 / 8 ≤ w := by
  obtain ⟨c, d, r, w, -, -, -, -, h1, -, h2, h3, -⟩ := C60_div_wrong hu ho (a := 0x4000) (b := 0x6400) (x := 2) (y := 1024)
    (by norm_num [ieee]) (by norm_num [ieee]) (by norm_num) (by norm_num)
  exact ⟨r, w, h1, h2, h3⟩

/-- **C60**, the derived operations on nonzero numbers: `square` and `mulAdd` always give 65504; `half` and `inv` are quotients, and
lie between 1/8 and 8. -/
theorem C60_derived_wrong (hu : CorrectU u2f) (ho : o.Correct 8 23) {a b d : ℕ} {x y z : ℚ} (hx : ieee 5 10 a = .num x)
    (hy : ieee 5 10 b = .num y) (hz : ieee 5 10 d = .num z) (hx0 : x ≠ 0) (hy0 : y ≠ 0) (hz0 : z ≠ 0) :
    (∃ r, square o u2f a = .ok r ∧ ieee 5 10 r = .num 65504) ∧ (∃ r, mulAdd o u2f a b d = .ok r ∧ ieee 5 10 r = .num 65504) ∧
    (∃ r w, half o u2f a = .ok r ∧ ieee 5 10 r = .num w ∧ 1 / 8 ≤ w ∧ w ≤ 8) ∧
    (∃ r w, inv o u2f a = .ok r ∧ ieee 5 10 r = .num w ∧ 1 / 8 ≤ w ∧ w ≤ 8) := by
  have h1 : ieee 5 10 one = .num 1 := (C60_sign (v := 0) (by norm_num)).2.2.2.2.1
  have h2 : ieee 5 10 two = .num 2 := (C60_sign (v := 0) (by norm_num)).2.2.2.2.2
  refine ⟨?_, ?_, ?_, ?_⟩
  · obtain ⟨-, s, -, k, -, k'⟩ := C60_arith_wrong hu ho hx hx hx0 hx0
    exact ⟨s, k, k'⟩
  · obtain ⟨e, k1, k2, k3, -, k5, -⟩ := operand hu hx hx0
    obtain ⟨f, l1, l2, l3, -, l5, -⟩ := operand hu hy hy0
    obtain ⟨g, m1, m2, m3, -, m5, -⟩ := operand hu hz hz0
    have le : (e : ℚ) < 2 ^ 32 := by exact_mod_cast k3
    have lf : (f : ℚ) < 2 ^ 32 := by exact_mod_cast l3
    have lg : (g : ℚ) < 2 ^ 32 := by exact_mod_cast m3
    have h29 : (1 : ℚ) ≤ 2 ^ (29 : ℤ) := by norm_num
    have hm := max_ge
    have p1 : (2 : ℚ) ^ (29 : ℤ) ≤ (e : ℚ) * f := le_trans k5 (le_mul_of_one_le_right (by positivity) (h29.trans l5))
    have p2 : (e : ℚ) * f ≤ 2 ^ 64 :=
      le_trans (mul_le_mul le.le lf.le (by positivity) (by positivity)) (by norm_num)
    obtain ⟨w, hw, hs⟩ := ho.mul k2 l2 (by rw [abs_of_nonneg (by positivity)]; exact p2.trans hm)
    have w1 : (2 : ℚ) ^ (29 : ℤ) ≤ w := (hs _ _ float29).1 p1
    have w2 : w ≤ 2 ^ 64 := (hs 0x5f800000 _ (by norm_num [ieee])).2 p2
    have w0 : 0 < w := lt_of_lt_of_le (by positivity) w1
    have hm2 : (2 : ℚ) ^ (65 : ℕ) ≤ maxFin 8 23 := by
      have := maxFin_ge (eb := 8) (fb := 23) (m := 65) (by norm_num)
      simpa using this
    have t1 : (2 : ℚ) ^ (29 : ℤ) ≤ w + g := by linarith
    have t2 : w + g ≤ maxFin 8 23 := le_trans (by linarith) ((by norm_num : (2 ^ 64 : ℚ) + 2 ^ 32 ≤ 2 ^ 65).trans hm2)
    obtain ⟨v, hv, hs2⟩ := ho.add hw m2 (by rw [abs_of_nonneg (by positivity)]; exact t2)
    obtain ⟨r, r1, r2⟩ := ofFloat_big hv ((hs2 _ _ float29).1 t1)
    exact ⟨r, by unfold mulAdd; rw [bind_ok _ k1, bind_ok _ l1, bind_ok _ m1]; exact r1, r2⟩
  · obtain ⟨-, -, r, w, -, -, -, -, k1, -, k2⟩ := C60_div_wrong hu ho hx h2 hx0 (by norm_num)
    exact ⟨r, w, k1, k2⟩
  · obtain ⟨-, -, r, w, -, -, -, -, k1, -, k2⟩ := C60_div_wrong hu ho h1 hx (by norm_num) hx0
    exact ⟨r, w, k1, k2⟩

/-- the square of 1 -/
example (hu : CorrectU u2f) (ho : o.Correct 8 23) : ∃ r, square o u2f 0x3c00 = .ok r ∧ ieee 5 10 r = .num 65504 :=
  (C60_derived_wrong hu ho (a := 0x3c00) (b := 0x3c00) (d := 0x3c00) (x := 1) (y := 1) (z := 1) (by norm_num [ieee]) (by norm_num [ieee])
    (by norm_num [ieee]) (by norm_num) (by norm_num) (by norm_num)).1

/-- **C60**, the other comparisons of nonzero numbers are those that follow from `<`. -/
theorem C60_compare (hu : CorrectU u2f) {a b : ℕ} {x y : ℚ} (hx : ieee 5 10 a = .num x) (hy : ieee 5 10 b = .num y) (hx0 : x ≠ 0)
    (hy0 : y ≠ 0) : ∃ l g, lt u2f a b = .ok l ∧ lt u2f b a = .ok g ∧ gt u2f a b = .ok g ∧ ge u2f a b = .ok (!l) ∧ le u2f a b = .ok (!g) := by
  obtain ⟨c, k1, k2, -⟩ := operand hu hx hx0
  obtain ⟨d, l1, l2, -⟩ := operand hu hy hy0
  obtain ⟨p1, -⟩ := lt_of k1 l1 k2 l2
  obtain ⟨p2, -⟩ := lt_of l1 k1 l2 k2
  have e1 : AnyFloat.natLt .single (u2f c) (u2f d) = decide ((c : ℚ) < d) := by
    show AnyFloat.xLt (ieee 8 23 _) (ieee 8 23 _) = _
    rw [k2, l2]; rfl
  have e2 : AnyFloat.natLt .single (u2f d) (u2f c) = decide ((d : ℚ) < c) := by
    show AnyFloat.xLt (ieee 8 23 _) (ieee 8 23 _) = _
    rw [k2, l2]; rfl
  have e3 : AnyFloat.natEq .single (u2f c) (u2f d) = decide ((c : ℚ) = d) := by
    show AnyFloat.xEq (ieee 8 23 _) (ieee 8 23 _) = _
    rw [k2, l2]; rfl
  refine ⟨_, _, p1, p2, ?_, ?_, ?_⟩
  · unfold gt; rw [bind_ok _ k1, bind_ok _ l1, e2]; rfl
  · unfold ge; rw [bind_ok _ k1, bind_ok _ l1, e2, e3]
    refine congrArg Except.ok ?_
    rcases lt_trichotomy (c : ℚ) d with h | h | h
    · simp [h, h.not_gt, h.ne]
    · simp [h]
    · simp [h, h.not_gt, h.ne']
  · unfold le; rw [bind_ok _ k1, bind_ok _ l1, e1, e3]
    refine congrArg Except.ok ?_
    rcases lt_trichotomy (c : ℚ) d with h | h | h
    · simp [h, h.not_gt]
    · simp [h]
    · simp [h, h.not_gt, h.ne']

example (hu : CorrectU u2f) : ∃ l g, lt u2f 0x3c00 0xc000 = .ok l ∧ lt u2f 0xc000 0x3c00 = .ok g ∧ gt u2f 0x3c00 0xc000 = .ok g ∧
    ge u2f 0x3c00 0xc000 = .ok (!l) ∧ le u2f 0x3c00 0xc000 = .ok (!g) :=
  C60_compare hu (x := 1) (y := -2) (by norm_num [ieee]) (by norm_num [ieee]) (by norm_num) (by norm_num)

/-- **C60**, zeros: right, but minus zero loses its sign. -/
theorem C60_zero (hu : CorrectU u2f) : ∃ r s, toFloat u2f 0 = .ok r ∧ toFloat u2f 0x8000 = .ok s ∧ ieee 8 23 r = .num 0 ∧
    ieee 5 10 0x8000 = .num 0 ∧ ieee 8 23 s = .num 0 ∧ r = s := by
  have w0 : widen 0 = .ok 0 := by decide +kernel
  have w1 : widen 0x8000 = .ok 0 := by decide +kernel
  have h := hu 0 (by norm_num)
  rw [Nat.cast_zero] at h
  have h' := h.exact ⟨0, by norm_num [ieee]⟩
  refine ⟨u2f 0, u2f 0, ?_, ?_, h', by norm_num [ieee], h', rfl⟩
  · unfold toFloat; rw [bind_ok _ w0]; rfl
  · unfold toFloat; rw [bind_ok _ w1]; rfl

/-- minus one (0xbc00) and one: `-1 < 1` is false, `1 + 1` and `1 * 1` are 65504, `float(1)` is not 1 -/
example : ∃ (o : FloatOps) (u2f : ℕ → ℕ) (r s t : ℕ), CorrectU u2f ∧ o.Correct 8 23 ∧ ieee 5 10 0xbc00 = .num (-1) ∧
    lt u2f 0xbc00 one = .ok false ∧ add o u2f one one = .ok r ∧ ieee 5 10 r = .num 65504 ∧ mul o u2f one one = .ok s ∧
    ieee 5 10 s = .num 65504 ∧ toFloat u2f one = .ok t ∧ ieee 8 23 t ≠ .num 1 := by
  obtain ⟨u, hu⟩ := correctU_exists
  obtain ⟨o, ho⟩ := floatOps_exists (eb := 8) (fb := 23) (by norm_num) (by norm_num)
  have h1 : ieee 5 10 one = .num 1 := (C60_sign (v := 0) (by norm_num)).2.2.2.2.1
  have h2 : ieee 5 10 0xbc00 = .num (-1) := by norm_num [ieee]
  obtain ⟨r, s, k1, k2, k3, k4⟩ := C60_arith_wrong hu ho h1 h1 (by norm_num) (by norm_num)
  obtain ⟨t, t1, -, t2⟩ := C60_toFloat_wrong hu (v := one) (by rw [h1]; intro h; cases h)
  exact ⟨o, u, r, s, t, hu, ho, h2, (C60_lt_wrong hu h2 h1 (by norm_num) (by norm_num)).1, k1, k3, k2, k4, t1, h1 ▸ t2⟩

/-- `1 - 2`, `1 / 2`, `half(1)`: hypotheses met by correct arithmetic; 1/2 comes out as 127/128 -/
example : ∃ (o : FloatOps) (u2f : ℕ → ℕ) (r : ℕ), CorrectU u2f ∧ o.Correct 8 23 ∧ div o u2f one two = .ok r ∧
    half o u2f one = .ok r ∧ ieee 5 10 r = .num (127 / 128) := by
  obtain ⟨u, hu⟩ := correctU_exists
  obtain ⟨o, ho⟩ := floatOps_exists (eb := 8) (fb := 23) (by norm_num) (by norm_num)
  have h1 : ieee 5 10 one = .num 1 := (C60_sign (v := 0) (by norm_num)).2.2.2.2.1
  have h2 : ieee 5 10 two = .num 2 := (C60_sign (v := 0) (by norm_num)).2.2.2.2.2
  have w1 : widen one = .ok 0x3f800000 := by decide +kernel
  have w2 : widen two = .ok 0x40000000 := by decide +kernel
  obtain ⟨k1, k2⟩ := toFloat_of hu w1 (by norm_num) (by decide) (by decide)
  obtain ⟨l1, l2⟩ := toFloat_of hu w2 (by norm_num) (by decide) (by decide)
  have hg : ieee 8 23 0x3f7e0000 = .num (127 / 128) := by norm_num [ieee]
  have hq : ((0x3f800000 : ℕ) : ℚ) / (0x40000000 : ℕ) = 127 / 128 := by norm_num
  have hd := ho.div k2 l2 (by norm_num) (by rw [hq]; exact ieee_le_maxFin (by norm_num) hg)
  rw [hq] at hd
  have hd' := hd.exact ⟨_, hg⟩
  obtain ⟨r, r1, -, r2, -⟩ := C60_ofFloat (o.div (u 0x3f800000) (u 0x40000000))
  obtain ⟨w, e1, -, e3⟩ := r2 _ hd'
  obtain ⟨p1, p2, p3⟩ := e3 (by norm_num [minNorm, abs_of_pos])
  have p4 := p3 0x3bf0 (127 / 128) (by norm_num [ieee]) le_rfl
  have w0 : 0 < w := by linarith [(mul_pos_iff_of_pos_left (by norm_num : (0 : ℚ) < 127 / 128)).mp p1]
  have hw : w = 127 / 128 := by
    rw [abs_of_pos w0, abs_of_pos (by norm_num)] at p2 p4
    linarith
  have hdiv : div o u one two = .ok r := by unfold div; rw [bind_ok _ k1, bind_ok _ l1]; exact r1
  exact ⟨o, u, r, hu, ho, hdiv, hdiv, by rw [e1, hw]⟩

end Float16n32
end Verif
