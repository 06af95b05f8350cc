import Verif.Lemmas.SoftOps

/-!
# C107 — softfloat16 and softfloat32 do IEEE 754 arithmetic, rounded to nearest even

include/softfloat.hpp. `SoftLib.Correct` states what is assumed of the library.
-/

namespace Verif
open NearGen

variable {l : SoftLib} {a b c : ℕ}

/-- The assumption on the library can be met. -/
theorem C107_exists : ∃ l : SoftLib, l.Correct := by
  obtain ⟨o16, h16⟩ := softOps_exists (eb := 5) (fb := 10) (by norm_num) (by norm_num)
  obtain ⟨o32, h32⟩ := softOps_exists (eb := 8) (fb := 23) (by norm_num) (by norm_num)
  have C : ∀ eb fb eb' fb' : ℕ, 2 ≤ eb' → 1 ≤ fb' → ∃ f : ℕ → ℕ, Converts eb fb eb' fb' f := by
    intro eb fb eb' fb' h1 h2
    choose f hf using fun a => exists_roundedAs (eb := eb') (fb := fb') h1 h2 (ieee eb fb a) (signBit eb fb a)
    exact ⟨f, fun {a} _ => hf a⟩
  obtain ⟨f1, h1⟩ := C 5 10 8 23 (by norm_num) (by norm_num)
  obtain ⟨f2, h2⟩ := C 5 10 11 52 (by norm_num) (by norm_num)
  obtain ⟨f3, h3⟩ := C 8 23 5 10 (by norm_num) (by norm_num)
  obtain ⟨f4, h4⟩ := C 8 23 11 52 (by norm_num) (by norm_num)
  obtain ⟨f5, h5⟩ := C 11 52 5 10 (by norm_num) (by norm_num)
  obtain ⟨f6, h6⟩ := C 11 52 8 23 (by norm_num) (by norm_num)
  exact ⟨⟨o16, o32, f1, f2, f3, f4, f5, f6⟩, ⟨h16, h32, h1, h2, h3, h4, h5, h6⟩⟩


/-! ## softfloat16 -/

/-- The operators and `mulAdd` are exact results rounded to nearest, ties to even; NaN, infinities and divisions by either zero as
in IEEE 754. `mulAdd` rounds once. -/
theorem C107_arith16 (hl : l.Correct) (ha : a < 2 ^ 16) (hb : b < 2 ^ 16) (hc : c < 2 ^ 16) :
    NearestTo 5 10 ((ieee 5 10 a).plus (ieee 5 10 b)) (Soft16.add l a b) ∧
    NearestTo 5 10 ((ieee 5 10 a).plus (ieee 5 10 b).neg) (Soft16.sub l a b) ∧
    NearestTo 5 10 ((ieee 5 10 a).times (ieee 5 10 b)) (Soft16.mul l a b) ∧
    NearestTo 5 10 (quotientOf 5 10 a b) (Soft16.div l a b) ∧
    NearestTo 5 10 ((ieee 5 10 a).plus (ieee 5 10 b)) (Soft16.addAssign l a b) ∧
    NearestTo 5 10 ((ieee 5 10 a).times (ieee 5 10 b)) (Soft16.mulAssign l a b) ∧
    NearestTo 5 10 (((ieee 5 10 a).times (ieee 5 10 b)).plus (ieee 5 10 c)) (Soft16.mulAdd l a b c) :=
  ⟨(hl.f16.add ha hb).1, (hl.f16.sub ha hb).1, (hl.f16.mul ha hb).1, (hl.f16.div ha hb).1, (hl.f16.add ha hb).1, (hl.f16.mul ha hb).1, (hl.f16.mulAdd ha hb hc).1⟩

example (hl : l.Correct) : ieee 5 10 (Soft16.add l 0x3C00 0x4000) = .num 3 := by
  have h := (C107_arith16 hl (a := 0x3C00) (b := 0x4000) (c := 0) (by norm_num) (by norm_num) (by norm_num)).1
  rw [show ieee 5 10 0x3C00 = .num 1 by norm_num [ieee], show ieee 5 10 0x4000 = .num 2 by norm_num [ieee]] at h
  obtain ⟨c, hc⟩ := int_exact (eb := 5) (fb := 10) (by norm_num) (by norm_num) (n := 3) (by norm_num)
  have := nearest_exact (by norm_num) h (c := c) (by rw [hc]; norm_num)
  rw [this]; norm_num

/-- The constants are two, one and zero. -/
theorem C107_const16 (hl : l.Correct) : Soft16.two l = 0x4000 ∧ Soft16.one l = 0x3C00 ∧ Soft16.zero l = 0 := by
  have key : ∀ n : ℤ, ∀ p : ℕ, 0 ≤ n → n ≤ 2 → p < 2 ^ 16 → ieee 5 10 p = .num n → signBit 5 10 p = false → l.f16.i32 n = p := by
    intro n p h0 h2 hp hv hs
    have h := hl.f16.i32 (n := n) (by omega) (by omega)
    have hv' := nearest_exact (by norm_num) h.1 hv
    refine ieee_inj h.1.1 hp (hv'.trans hv.symm) (by rw [hv']; simp) ?_
    rw [hs]
    by_cases hn : n = 0
    · exact h.2 (by rw [hn]; norm_num)
    · rw [signBit_num h.1.1 hv' (by exact_mod_cast hn)]
      exact decide_eq_false (not_lt.mpr (by exact_mod_cast h0))
  refine ⟨key 2 _ (by norm_num) (by norm_num) (by norm_num) (by norm_num [ieee]) (by norm_num [signBit]),
    key 1 _ (by norm_num) (by norm_num) (by norm_num) (by norm_num [ieee]) (by norm_num [signBit]),
    key 0 _ (by norm_num) (by norm_num) (by norm_num) (by norm_num [ieee]) (by norm_num [signBit])⟩

example : ieee 5 10 0x4000 = .num 2 ∧ ieee 5 10 0x3C00 = .num 1 ∧ ieee 5 10 0 = .num 0 := by
  refine ⟨?_, ?_, ?_⟩ <;> norm_num [ieee]

/-- `half` is the operand times one half and `square` its square, each rounded; squares have no sign bit. `inv` is the reciprocal
rounded, infinity with the sign of the operand if that is a zero, and zero with the sign of the operand if that is infinity. -/
theorem C107_unary16 (hl : l.Correct) (ha : a < 2 ^ 16) :
    NearestTo 5 10 ((ieee 5 10 a).times (.num (1 / 2))) (Soft16.half l a) ∧
    NearestTo 5 10 ((ieee 5 10 a).times (ieee 5 10 a)) (Soft16.square l a) ∧
    (ieee 5 10 a ≠ .nan → signBit 5 10 (Soft16.square l a) = false) ∧
    (∀ x, ieee 5 10 a = .num x → x ≠ 0 → NearestTo 5 10 (.num (1 / x)) (Soft16.inv l a)) ∧
    (ieee 5 10 a = .num 0 → ieee 5 10 (Soft16.inv l a) = .inf (signBit 5 10 a)) ∧
    (∀ s, ieee 5 10 a = .inf s → ieee 5 10 (Soft16.inv l a) = .num 0 ∧ signBit 5 10 (Soft16.inv l a) = s) ∧
    (ieee 5 10 a = .nan → ieee 5 10 (Soft16.inv l a) = .nan) := by
  have h1 : ieee 5 10 (Soft16.one l) = .num 1 := by rw [(C107_const16 hl).2.1]; norm_num [ieee]
  have hlt : Soft16.one l < 2 ^ 16 := by rw [(C107_const16 hl).2.1]; norm_num
  have hs1 : signBit 5 10 (Soft16.one l) = false := by rw [(C107_const16 hl).2.1]; norm_num [signBit]
  have hd := hl.f16.div hlt ha
  refine ⟨(half_rounded (by norm_num) (by norm_num) (by norm_num) hl.f16 ha).1, (hl.f16.mul ha ha).1,
    square_sign (by norm_num) (by norm_num) hl.f16 ha, fun x hx h0 => ?_, fun h0 => ?_, fun s hs => ?_, fun hn => ?_⟩
  · rw [quotient_of_num hx h0, h1] at hd
    simp only [XNum.over] at hd
    rw [if_neg h0] at hd
    exact hd.1
  · have hd1 := hd.1
    unfold quotientOf at hd1
    rw [h1, h0] at hd1
    rw [show (XNum.num 1).over (.num 0) = .inf false by
      simp only [XNum.over]; rw [if_pos trivial, if_neg (by norm_num), decide_eq_false (by norm_num)]] at hd1
    by_cases hz : a = 2 ^ (5 + 10)
    · rw [if_pos hz] at hd1
      rw [show signBit 5 10 a = true by rw [hz]; norm_num [signBit]]; exact hd1.2
    · rw [if_neg hz] at hd1
      have hs0 : signBit 5 10 a = false := by
        cases hsb : signBit 5 10 a with
        | false => rfl
        | true => exact absurd (ieee_inj ha (by norm_num) (h0.trans (by norm_num [ieee])) (by rw [h0]; simp) (by rw [hsb]; norm_num [signBit])) hz
      rw [hs0]; exact hd1.2
  · have hq : quotientOf 5 10 (Soft16.one l) a = .num 0 := by
      unfold quotientOf
      rw [if_neg, h1, hs]
      · rfl
      · rintro rfl; rw [show ieee 5 10 (2 ^ (5 + 10)) = .num 0 by norm_num [ieee]] at hs; cases hs
    rw [hq] at hd
    refine ⟨nearest_exact (by norm_num) hd.1 (ieee_zero' (by norm_num)), ?_⟩
    exact (hd.2 rfl).trans (by rw [hs1, signBit_inf ha hs, Bool.false_xor])
  · have hq : quotientOf 5 10 (Soft16.one l) a = .nan := by
      unfold quotientOf
      rw [if_neg, h1, hn]
      · rfl
      · rintro rfl; rw [show ieee 5 10 (2 ^ (5 + 10)) = .num 0 by norm_num [ieee]] at hn; cases hn
    rw [hq] at hd
    exact hd.1.2

example (hl : l.Correct) : ieee 5 10 (Soft16.inv l 0x8000) = .inf true := by
  rw [(C107_unary16 hl (a := 0x8000) (by norm_num)).2.2.2.2.1 (by norm_num [ieee])]
  norm_num [signBit]

/-- Halves of numbers from twice the least normal number on are exact: the exponent field is one less. -/
theorem C107_half_exact16 (hl : l.Correct) (ha : a < 2 ^ 16) {x : ℚ} (hx : ieee 5 10 a = .num x) (h2 : 2 * minNorm 5 ≤ |x|) :
    Soft16.half l a = a - 2 ^ 10 ∧ ieee 5 10 (Soft16.half l a) = .num (x / 2) := by
  have h := half_rounded (by norm_num) (by norm_num) (by norm_num) hl.f16 ha
  rw [hx] at h
  simp only [XNum.times] at h
  rw [show x * (1 / 2) = x / 2 by ring] at h
  exact half_exact (by norm_num) ha hx h2 h

example (hl : l.Correct) : Soft16.half l 0x4000 = 0x3C00 := by
  rw [(C107_half_exact16 hl (a := 0x4000) (x := 2) (by norm_num) (by norm_num [ieee]) (by norm_num [minNorm])).1]; norm_num

/-- Unary minus changes the sign of the value and the sign bit, also those of zeros and infinities, and does so back again. -/
theorem C107_neg16 (ha : a < 2 ^ 16) : Soft16.neg a < 2 ^ 16 ∧ ieee 5 10 (Soft16.neg a) = (ieee 5 10 a).neg ∧
    signBit 5 10 (Soft16.neg a) = !signBit 5 10 a ∧ Soft16.neg (Soft16.neg a) = a := by
  refine ⟨flip_lt (eb := 5) (fb := 10) ha, flip_val (eb := 5) (fb := 10) ha, flip_sign (eb := 5) (fb := 10) ha, ?_⟩
  unfold Soft16.neg
  rw [Nat.xor_assoc, Nat.xor_self, Nat.xor_zero]

example : ieee 5 10 (Soft16.neg 0x4000) = .num (-2) := by
  rw [(C107_neg16 (by norm_num)).2.1, show ieee 5 10 0x4000 = .num 2 by norm_num [ieee]]; rfl

/-- The relative error is at most half a unit in the last place: of sums and differences without any lower limit, of products,
quotients and fused operations from the least normal number on. -/
theorem C107_error16 (hl : l.Correct) (ha : a < 2 ^ 16) (hb : b < 2 ^ 16) (hc : c < 2 ^ 16) {x y z : ℚ} (hx : ieee 5 10 a = .num x)
    (hy : ieee 5 10 b = .num y) (hz : ieee 5 10 c = .num z) :
    (|x + y| < overflowAt 5 10 → ∃ r, ieee 5 10 (Soft16.add l a b) = .num r ∧ |r - (x + y)| ≤ |x + y| / 2 ^ (10 + 1)) ∧
    (|x - y| < overflowAt 5 10 → ∃ r, ieee 5 10 (Soft16.sub l a b) = .num r ∧ |r - (x - y)| ≤ |x - y| / 2 ^ (10 + 1)) ∧
    (minNorm 5 ≤ |x * y| → |x * y| < overflowAt 5 10 → ∃ r, ieee 5 10 (Soft16.mul l a b) = .num r ∧ |r - x * y| ≤ |x * y| / 2 ^ (10 + 1)) ∧
    (y ≠ 0 → minNorm 5 ≤ |x / y| → |x / y| < overflowAt 5 10 →
      ∃ r, ieee 5 10 (Soft16.div l a b) = .num r ∧ |r - x / y| ≤ |x / y| / 2 ^ (10 + 1)) ∧
    (minNorm 5 ≤ |x * y + z| → |x * y + z| < overflowAt 5 10 →
      ∃ r, ieee 5 10 (Soft16.mulAdd l a b c) = .num r ∧ |r - (x * y + z)| ≤ |x * y + z| / 2 ^ (10 + 1)) := by
  have h1 := (hl.f16.add ha hb).1
  have h2 := (hl.f16.sub ha hb).1
  have h3 := (hl.f16.mul ha hb).1
  have h5 := (hl.f16.mulAdd ha hb hc).1
  rw [hx, hy] at h1 h2 h3 h5
  rw [hz] at h5
  have hyn : ieee 5 10 (b ^^^ 2 ^ (5 + 10)) = .num (-y) := by rw [flip_val (eb := 5) (fb := 10) hb, hy]; rfl
  refine ⟨fun h => sum_error (by norm_num) (by norm_num) hx hy h1 h, fun h => ?_, fun hm h => ?_, fun h0 hm h => ?_, fun hm h => ?_⟩
  · have := sum_error (by norm_num) (by norm_num) hx hyn h2 (by rw [← sub_eq_add_neg]; exact h)
    rw [← sub_eq_add_neg] at this; exact this
  · obtain ⟨r, hr, he, -⟩ := nearest_error (by norm_num) (by norm_num) h3 h
    exact ⟨r, hr, he hm⟩
  · have h4 := (hl.f16.div ha hb).1
    rw [quotient_of_num hy h0, hx] at h4
    simp only [XNum.over] at h4
    rw [if_neg h0] at h4
    obtain ⟨r, hr, he, -⟩ := nearest_error (by norm_num) (by norm_num) h4 h
    exact ⟨r, hr, he hm⟩
  · obtain ⟨r, hr, he, -⟩ := nearest_error (by norm_num) (by norm_num) h5 h
    exact ⟨r, hr, he hm⟩

example (hl : l.Correct) : ∃ r, ieee 5 10 (Soft16.add l 1 0x3C00) = .num r ∧ |r - (2 ^ (-(24 : ℤ)) + 1)| ≤ |(2 : ℚ) ^ (-(24 : ℤ)) + 1| / 2 ^ (10 + 1) :=
  (C107_error16 hl (a := 1) (b := 0x3C00) (c := 0) (x := 2 ^ (-(24 : ℤ))) (y := 1) (z := 0) (by norm_num) (by norm_num) (by norm_num)
    (by norm_num [ieee]) (by norm_num [ieee]) (by norm_num [ieee])).1 (by
      rw [abs_of_pos (by positivity)]; norm_num [overflowAt])

/-- Differences of numbers are zero only if the numbers are equal, so `a - b == 0` and `a == b` agree. -/
theorem C107_sub_zero16 (hl : l.Correct) (ha : a < 2 ^ 16) (hb : b < 2 ^ 16) {x y : ℚ} (hx : ieee 5 10 a = .num x) (hy : ieee 5 10 b = .num y) :
    Soft16.eq l (Soft16.sub l a b) (Soft16.zero l) = Soft16.eq l a b := by
  have h2 := (hl.f16.sub ha hb).1
  rw [hx, hy] at h2
  have hyn : ieee 5 10 (b ^^^ 2 ^ (5 + 10)) = .num (-y) := by rw [flip_val (eb := 5) (fb := 10) hb, hy]; rfl
  have key := sum_ne_zero (by norm_num) (by norm_num) hx hyn h2
  have hz : ieee 5 10 (Soft16.zero l) = .num 0 := by rw [(C107_const16 hl).2.2]; norm_num [ieee]
  have hzl : Soft16.zero l < 2 ^ 16 := by rw [(C107_const16 hl).2.2]; norm_num
  rw [Bool.eq_iff_iff]
  unfold Soft16.eq Soft16.sub
  rw [hl.f16.eq h2.1 hzl, hl.f16.eq ha hb, hz, hx, hy]
  have e2 : (XNum.num x).Same (.num y) ↔ x = y := Iff.rfl
  have e : (ieee 5 10 (l.f16.sub a b)).Same (.num 0) ↔ ieee 5 10 (l.f16.sub a b) = .num 0 := by
    cases ieee 5 10 (l.f16.sub a b) <;> simp [XNum.Same]
  rw [e, key, e2]
  constructor <;> intro h <;> linarith

example (hl : l.Correct) : Soft16.eq l (Soft16.sub l 1 2) (Soft16.zero l) = false := by
  have h1 : ieee 5 10 1 = .num (2 ^ (-(24 : ℤ))) := by norm_num [ieee]
  have h2 : ieee 5 10 2 = .num (2 * 2 ^ (-(24 : ℤ))) := by norm_num [ieee]
  rw [C107_sub_zero16 hl (by norm_num) (by norm_num) h1 h2, ← Bool.not_eq_true]
  unfold Soft16.eq
  rw [hl.f16.eq (by norm_num) (by norm_num), h1, h2]
  norm_num [XNum.Same]

/-- Numbers within a factor of two of each other are subtracted exactly. -/
theorem C107_sterbenz16 (hl : l.Correct) (ha : a < 2 ^ 16) (hb : b < 2 ^ 16) {x y : ℚ} (hx : ieee 5 10 a = .num x) (hy : ieee 5 10 b = .num y)
    (h1 : y / 2 ≤ x) (h2 : x ≤ 2 * y) : ieee 5 10 (Soft16.sub l a b) = .num (x - y) := by
  have h := (hl.f16.sub ha hb).1
  rw [hx, hy] at h
  obtain ⟨c, hc⟩ := sterbenz (by norm_num) hx hy h1 h2
  have h' : IsNearestEven 5 10 (x - y) (l.f16.sub a b) := by rw [sub_eq_add_neg]; exact h
  exact nearest_exact (by norm_num) h' hc

example (hl : l.Correct) : ieee 5 10 (Soft16.sub l 0x4000 0x3C00) = .num (2 - 1) :=
  C107_sterbenz16 hl (by norm_num) (by norm_num) (by norm_num [ieee]) (by norm_num [ieee]) (by norm_num) (by norm_num)

/-- The operators keep the order of numbers: adding or subtracting the same number, multiplying by the same nonnegative number,
and, reversed, unary minus. -/
theorem C107_order16 (hl : l.Correct) (ha : a < 2 ^ 16) (hb : b < 2 ^ 16) (hc : c < 2 ^ 16) {x y z : ℚ} (hx : ieee 5 10 a = .num x)
    (hy : ieee 5 10 b = .num y) (hz : ieee 5 10 c = .num z) (hle : Soft16.le l a b = true) :
    Soft16.le l (Soft16.add l a c) (Soft16.add l b c) = true ∧ Soft16.le l (Soft16.sub l a c) (Soft16.sub l b c) = true ∧
    (Soft16.le l (Soft16.zero l) c = true → Soft16.le l (Soft16.mul l a c) (Soft16.mul l b c) = true) ∧ Soft16.le l (Soft16.neg b) (Soft16.neg a) = true := by
  have hxy : x ≤ y := (le_num hl.f16 ha hb hx hy).1 hle
  have a1 := (hl.f16.add ha hc).1
  have b1 := (hl.f16.add hb hc).1
  have a2 := (hl.f16.sub ha hc).1
  have b2 := (hl.f16.sub hb hc).1
  have a3 := (hl.f16.mul ha hc).1
  have b3 := (hl.f16.mul hb hc).1
  rw [hx, hz] at a1 a2 a3
  rw [hy, hz] at b1 b2 b3
  refine ⟨rounded_le (by norm_num) (by norm_num) hl.f16 a1 b1 (by linarith), rounded_le (by norm_num) (by norm_num) hl.f16 a2 b2 (by linarith),
    fun h0 => ?_, ?_⟩
  · have hzv : ieee 5 10 (Soft16.zero l) = .num 0 := by rw [(C107_const16 hl).2.2]; norm_num [ieee]
    have hzl : Soft16.zero l < 2 ^ 16 := by rw [(C107_const16 hl).2.2]; norm_num
    have hz0 : 0 ≤ z := (le_num hl.f16 hzl hc hzv hz).1 h0
    exact rounded_le (by norm_num) (by norm_num) hl.f16 a3 b3 (mul_le_mul_of_nonneg_right hxy hz0)
  · have na := C107_neg16 ha
    have nb := C107_neg16 hb
    refine (le_num hl.f16 nb.1 na.1 (x := -y) (y := -x) (by rw [nb.2.1, hy]; rfl) (by rw [na.2.1, hx]; rfl)).2 (by linarith)

example (hl : l.Correct) : Soft16.le l (Soft16.add l 0x3C00 0x3C00) (Soft16.add l 0x4000 0x3C00) = true :=
  (C107_order16 hl (a := 0x3C00) (b := 0x4000) (c := 0x3C00) (x := 1) (y := 2) (z := 1) (by norm_num) (by norm_num) (by norm_num)
    (by norm_num [ieee]) (by norm_num [ieee]) (by norm_num [ieee])
    ((le_num hl.f16 (by norm_num) (by norm_num) (x := 1) (y := 2) (by norm_num [ieee]) (by norm_num [ieee])).2 (by norm_num))).1

/-- Bit for bit, unless the result is NaN: sums and products do not depend on the order of the operands, a difference is the sum with
the negative, the sign of a factor is the sign of the product, and `a - b` is the negative of `b - a` if the two differ. -/
theorem C107_symm16 (hl : l.Correct) (ha : a < 2 ^ 16) (hb : b < 2 ^ 16) :
    ((ieee 5 10 a).plus (ieee 5 10 b) ≠ .nan → Soft16.add l a b = Soft16.add l b a) ∧
    ((ieee 5 10 a).times (ieee 5 10 b) ≠ .nan → Soft16.mul l a b = Soft16.mul l b a) ∧
    ((ieee 5 10 a).plus (ieee 5 10 b).neg ≠ .nan → Soft16.sub l a b = Soft16.add l a (Soft16.neg b)) ∧
    ((ieee 5 10 a).times (ieee 5 10 b) ≠ .nan → Soft16.mul l (Soft16.neg a) b = Soft16.neg (Soft16.mul l a b)) ∧
    ((ieee 5 10 a).plus (ieee 5 10 b).neg ≠ .nan → ieee 5 10 a ≠ ieee 5 10 b → Soft16.neg (Soft16.sub l a b) = Soft16.sub l b a) := by
  have na := C107_neg16 ha
  have nb := C107_neg16 hb
  refine ⟨fun h => ?_, fun h => ?_, fun h => ?_, fun h => ?_, fun h hne => ?_⟩
  · have h1 := hl.f16.add ha hb
    have h2 := hl.f16.add hb ha
    rw [plus_comm, Bool.and_comm] at h2
    exact rounded_unique (by norm_num) (by norm_num) h h1 h2
  · have h1 := hl.f16.mul ha hb
    have h2 := hl.f16.mul hb ha
    rw [times_comm, Bool.xor_comm] at h2
    exact rounded_unique (by norm_num) (by norm_num) h h1 h2
  · have h1 := hl.f16.sub ha hb
    have h2 := hl.f16.add ha nb.1
    rw [nb.2.1, nb.2.2.1] at h2
    exact rounded_unique (by norm_num) (by norm_num) h h1 h2
  · have h1 := rounded_flip (by norm_num) (by norm_num) (hl.f16.mul ha hb)
    have h2 := hl.f16.mul na.1 hb
    rw [na.2.1, na.2.2.1, times_neg, Bool.not_xor] at h2
    exact rounded_unique (by norm_num) (by norm_num) (fun hc => h (neg_nan.1 hc)) h2 h1
  · have h1 := rounded_flip (by norm_num) (by norm_num) (hl.f16.sub ha hb)
    have h2 := hl.f16.sub hb ha
    have e : ((ieee 5 10 a).plus (ieee 5 10 b).neg).neg = (ieee 5 10 b).plus (ieee 5 10 a).neg := by
      rw [← plus_neg, neg_neg', plus_comm]
    rw [e] at h1
    have h0 : (ieee 5 10 b).plus (ieee 5 10 a).neg ≠ .num 0 := by
      intro hc
      exact hne (sub_eq_zero' hc).symm
    have hn : (ieee 5 10 b).plus (ieee 5 10 a).neg ≠ .nan := fun hc => h (neg_nan.1 (e.trans hc))
    exact rounded_unique (by norm_num) (by norm_num) (s := true) hn ⟨h1.1, fun hc => absurd hc h0⟩ ⟨h2.1, fun hc => absurd hc h0⟩

example (hl : l.Correct) : Soft16.add l 0x3C00 1 = Soft16.add l 1 0x3C00 :=
  (C107_symm16 hl (by norm_num) (by norm_num)).1 (by
    rw [show ieee 5 10 0x3C00 = .num 1 by norm_num [ieee], show ieee 5 10 1 = .num (2 ^ (-(24 : ℤ))) by norm_num [ieee]]
    simp [XNum.plus])

/-- `mulAdd` with a factor one is the sum, bit for bit unless it is NaN, and with zero added has the value of the product. -/
theorem C107_mulAdd16 (hl : l.Correct) (ha : a < 2 ^ 16) (hb : b < 2 ^ 16) :
    ((ieee 5 10 a).plus (ieee 5 10 b) ≠ .nan → Soft16.mulAdd l a (Soft16.one l) b = Soft16.add l a b) ∧
    ieee 5 10 (Soft16.mulAdd l a b (Soft16.zero l)) = ieee 5 10 (Soft16.mul l a b) := by
  have h1v : ieee 5 10 (Soft16.one l) = .num 1 := by rw [(C107_const16 hl).2.1]; norm_num [ieee]
  have h1l : Soft16.one l < 2 ^ 16 := by rw [(C107_const16 hl).2.1]; norm_num
  have h1s : signBit 5 10 (Soft16.one l) = false := by rw [(C107_const16 hl).2.1]; norm_num [signBit]
  have h0v : ieee 5 10 (Soft16.zero l) = .num 0 := by rw [(C107_const16 hl).2.2]; norm_num [ieee]
  have h0l : Soft16.zero l < 2 ^ 16 := by rw [(C107_const16 hl).2.2]; norm_num
  constructor
  · intro h
    have h1 := hl.f16.mulAdd ha h1l hb
    rw [h1v, h1s, times_one, Bool.xor_false] at h1
    exact rounded_unique (by norm_num) (by norm_num) h h1 (hl.f16.add ha hb)
  · have h1 := (hl.f16.mulAdd ha hb h0l).1
    have h2 := (hl.f16.mul ha hb).1
    have e : ∀ X : XNum, X.plus (.num 0) = X := by intro X; cases X <;> simp [XNum.plus]
    rw [h0v, e] at h1
    revert h1 h2
    unfold Soft16.mulAdd Soft16.mul
    cases (ieee 5 10 a).times (ieee 5 10 b) with
    | inf s => intro h1 h2; exact h1.2.trans h2.2.symm
    | nan => intro h1 h2; exact h1.2.trans h2.2.symm
    | num z =>
      intro h1 h2
      by_cases hz : z = 0
      · rw [hz] at h1 h2
        rw [nearest_exact (by norm_num) h1 (ieee_zero' (by norm_num)), nearest_exact (by norm_num) h2 (ieee_zero' (by norm_num))]
      · rw [(nearest_unique (by norm_num) (by norm_num) h1 h2).2 hz]

example (hl : l.Correct) : Soft16.mulAdd l 0x4000 (Soft16.one l) 0x3C00 = Soft16.add l 0x4000 0x3C00 :=
  (C107_mulAdd16 hl (by norm_num) (by norm_num)).1 (by
    rw [show ieee 5 10 0x3C00 = .num 1 by norm_num [ieee], show ieee 5 10 0x4000 = .num 2 by norm_num [ieee]]
    simp [XNum.plus])

/-- The comparison operators compare the values; NaN is not equal to, below or above anything. -/
theorem C107_compare16 (hl : l.Correct) (ha : a < 2 ^ 16) (hb : b < 2 ^ 16) :
    (Soft16.eq l a b = true ↔ (ieee 5 10 a).Same (ieee 5 10 b)) ∧ (Soft16.lt l a b = true ↔ (ieee 5 10 a).Below (ieee 5 10 b)) ∧
    (Soft16.gt l a b = true ↔ (ieee 5 10 b).Below (ieee 5 10 a)) ∧
    (Soft16.ge l a b = true ↔ (ieee 5 10 b).Below (ieee 5 10 a) ∨ (ieee 5 10 a).Same (ieee 5 10 b)) ∧
    (Soft16.le l a b = true ↔ (ieee 5 10 a).Below (ieee 5 10 b) ∨ (ieee 5 10 a).Same (ieee 5 10 b)) := by
  have sc : (ieee 5 10 b).Same (ieee 5 10 a) ↔ (ieee 5 10 a).Same (ieee 5 10 b) := by
    cases ieee 5 10 a <;> cases ieee 5 10 b <;> simp [XNum.Same, eq_comm]
  refine ⟨hl.f16.eq ha hb, hl.f16.lt ha hb, hl.f16.lt hb ha, ?_, hl.f16.le ha hb⟩
  rw [← sc]; exact hl.f16.le hb ha

example (hl : l.Correct) : Soft16.gt l 0x4000 0x3C00 = true ∧ Soft16.gt l 0x3C00 0x4000 = false := by
  have h1 : ieee 5 10 0x3C00 = .num 1 := by norm_num [ieee]
  have h2 : ieee 5 10 0x4000 = .num 2 := by norm_num [ieee]
  rw [(C107_compare16 hl (by norm_num) (by norm_num)).2.2.1, ← Bool.not_eq_true, (C107_compare16 hl (by norm_num) (by norm_num)).2.2.1, h1, h2]
  norm_num [XNum.Below]

/-- Integers become the nearest number, themselves up to 2^11; sums, differences and products of such integers that are such
integers are exact. -/
theorem C107_int16 (hl : l.Correct) : (∀ n : ℤ, -2 ^ 31 ≤ n → n < 2 ^ 31 → IsNearestEven 5 10 n (Soft16.ofI32 l n)) ∧
    (∀ n : ℕ, n < 2 ^ 32 → IsNearestEven 5 10 n (Soft16.ofU32 l n)) ∧
    (∀ n : ℤ, |n| ≤ 2 ^ 11 → ieee 5 10 (Soft16.ofI32 l n) = .num n) ∧ (∀ n : ℕ, n ≤ 2 ^ 11 → ieee 5 10 (Soft16.ofU32 l n) = .num n) ∧
    (∀ n m : ℤ, |n| ≤ 2 ^ 11 → |m| ≤ 2 ^ 11 →
      (|n + m| ≤ 2 ^ 11 → ieee 5 10 (Soft16.add l (Soft16.ofI32 l n) (Soft16.ofI32 l m)) = .num ((n + m : ℤ) : ℚ)) ∧
      (|n - m| ≤ 2 ^ 11 → ieee 5 10 (Soft16.sub l (Soft16.ofI32 l n) (Soft16.ofI32 l m)) = .num ((n - m : ℤ) : ℚ)) ∧
      (|n * m| ≤ 2 ^ 11 → ieee 5 10 (Soft16.mul l (Soft16.ofI32 l n) (Soft16.ofI32 l m)) = .num ((n * m : ℤ) : ℚ))) := by
  have ex : ∀ n : ℤ, |n| ≤ 2 ^ 11 → ∃ c, ieee 5 10 c = .num n := fun n hn => int_exact (by norm_num) (by norm_num) hn
  have I : ∀ n : ℤ, |n| ≤ 2 ^ 11 → ieee 5 10 (l.f16.i32 n) = .num n ∧ l.f16.i32 n < 2 ^ (5 + 10 + 1) := fun n hn => by
    have := abs_le.mp hn
    exact ofInt_exact (by norm_num) (by norm_num) hl.f16 (by omega) (by omega) hn
  refine ⟨fun n h1 h2 => (hl.f16.i32 h1 h2).1, fun n h => (hl.f16.ui32 h).1, fun n hn => (I n hn).1, fun n hn => ?_, fun n m hn hm => ⟨fun h => ?_, fun h => ?_, fun h => ?_⟩⟩
  · obtain ⟨c, hc⟩ := ex n (by rw [Nat.abs_cast]; exact_mod_cast hn)
    exact nearest_exact (by norm_num) (hl.f16.ui32 (by omega)).1 (c := c) (by rw [hc]; norm_num)
  · have hr := (hl.f16.add (I n hn).2 (I m hm).2).1
    rw [(I n hn).1, (I m hm).1] at hr
    obtain ⟨c, hc⟩ := ex _ h
    have := nearest_exact (by norm_num) hr (c := c) (by rw [hc]; push_cast; rfl)
    unfold Soft16.add Soft16.ofI32
    rw [this]; push_cast; rfl
  · have hr := (hl.f16.sub (I n hn).2 (I m hm).2).1
    rw [(I n hn).1, (I m hm).1] at hr
    obtain ⟨c, hc⟩ := ex _ h
    have := nearest_exact (by norm_num) hr (c := c) (by rw [hc]; push_cast; rw [sub_eq_add_neg])
    unfold Soft16.sub Soft16.ofI32
    rw [this]; push_cast; rw [sub_eq_add_neg]
  · have hr := (hl.f16.mul (I n hn).2 (I m hm).2).1
    rw [(I n hn).1, (I m hm).1] at hr
    obtain ⟨c, hc⟩ := ex _ h
    have := nearest_exact (by norm_num) hr (c := c) (by rw [hc]; push_cast; rfl)
    unfold Soft16.mul Soft16.ofI32
    rw [this]; push_cast; rfl

example (hl : l.Correct) : ieee 5 10 (Soft16.add l (Soft16.ofI32 l 3) (Soft16.ofI32 l 2)) = .num 5 := by
  have := ((C107_int16 hl).2.2.2.2 3 2 (by norm_num) (by norm_num)).1 (by norm_num)
  rw [this]; norm_num

/-- Remainders are exact: `x - n y` for the integer `n` nearest to `x / y`, with the sign of the dividend if zero; NaN if the divisor
is zero or the dividend infinite, the dividend itself if the divisor is infinite. -/
theorem C107_rem16 (hl : l.Correct) (ha : a < 2 ^ 16) (hb : b < 2 ^ 16) :
    (∀ x y, ieee 5 10 a = .num x → ieee 5 10 b = .num y → y ≠ 0 →
      ∃ r, IsRemainder x y r ∧ ieee 5 10 (Soft16.rem l a b) = .num r ∧ |r| ≤ |y| / 2 ∧ (r = 0 → signBit 5 10 (Soft16.rem l a b) = signBit 5 10 a)) ∧
    (ieee 5 10 b = .num 0 ∨ (∃ s, ieee 5 10 a = .inf s) ∨ ieee 5 10 a = .nan ∨ ieee 5 10 b = .nan → ieee 5 10 (Soft16.rem l a b) = .nan) ∧
    (∀ x s, ieee 5 10 a = .num x → ieee 5 10 b = .inf s → Soft16.rem l a b = a) := by
  refine ⟨fun x y hx hy h0 => ?_, fun h => (hl.f16.rem_nan ha hb h).2, fun x s hx hs => hl.f16.rem_inf ha hb hx hs⟩
  obtain ⟨r, hr, hn⟩ := hl.f16.rem ha hb hx hy h0
  obtain ⟨c, hc⟩ := remainder_float (by norm_num) hx hy h0 hr
  exact ⟨r, hr, nearest_exact (by norm_num) hn.1 hc, (hr.bounds h0).1, fun h => hn.2 (by rw [h])⟩

example (hl : l.Correct) : ieee 5 10 (Soft16.rem l 0x3C00 0) = .nan :=
  (C107_rem16 hl (by norm_num) (by norm_num)).2.1 (Or.inl (by norm_num [ieee]))

/-- Square roots: exact if the root is a number of the format, otherwise with a relative error of at most half a unit in the last
place; -0 for -0, NaN for negative numbers and negative infinity. -/
theorem C107_sqrt16 (hl : l.Correct) (ha : a < 2 ^ 16) :
    (∀ x, ieee 5 10 a = .num x → 0 < x →
      (∃ y : ℚ, ieee 5 10 (Soft16.sqrt l a) = .num y ∧ |(y : ℝ) - √(x : ℝ)| ≤ √(x : ℝ) / 2 ^ (10 + 1)) ∧
      ∀ g y, ieee 5 10 g = .num y → 0 ≤ y → x = y ^ 2 → ieee 5 10 (Soft16.sqrt l a) = .num y) ∧
    (ieee 5 10 a = .num 0 → Soft16.sqrt l a = a) ∧ (∀ x, ieee 5 10 a = .num x → x < 0 → ieee 5 10 (Soft16.sqrt l a) = .nan) ∧
    (ieee 5 10 a = .inf false → ieee 5 10 (Soft16.sqrt l a) = .inf false) ∧ (ieee 5 10 a = .inf true → ieee 5 10 (Soft16.sqrt l a) = .nan) ∧
    (ieee 5 10 a = .nan → ieee 5 10 (Soft16.sqrt l a) = .nan) := by
  have exact' : ∀ x, ieee 5 10 a = .num x → 0 ≤ x → ∀ g y, ieee 5 10 g = .num y → 0 ≤ y → x = y ^ 2 → ieee 5 10 (Soft16.sqrt l a) = .num y := by
    intro x hx h0 g y hg hy he
    obtain ⟨-, ⟨z, hz, hall⟩, -⟩ := hl.f16.sqrt ha hx h0
    have hs : √(x : ℝ) = (y : ℝ) := by
      rw [he]; push_cast; exact Real.sqrt_sq (by exact_mod_cast hy)
    have := hall g y hg
    rw [hs, sub_self, abs_zero] at this
    have h1 : (y : ℝ) - z = 0 := abs_eq_zero.mp (le_antisymm this (abs_nonneg _))
    have h2 : y = z := by exact_mod_cast (sub_eq_zero.mp h1)
    rw [h2]; exact hz
  refine ⟨fun x hx h0 => ⟨?_, exact' x hx h0.le⟩, fun h0 => ?_, fun x hx h0 => (hl.f16.sqrt_neg ha hx h0).2, fun h => ?_, fun h => ?_, fun h => ?_⟩
  · refine nearestReal_error (by norm_num) (hl.f16.sqrt ha hx h0.le).2.1 ?_ ?_
    · -- at least the root of the least number
      have hmin : (2 : ℚ) ^ (-(24 : ℤ)) ≤ x := by
        obtain ⟨n, hn⟩ := num_multiple hx
        have hp : (0 : ℚ) < 2 ^ ((2 : ℤ) - 2 ^ (5 - 1) - (10 : ℕ)) := by positivity
        have hn1 : 1 ≤ n := by
          by_contra hc
          have : (n : ℚ) ≤ 0 := by exact_mod_cast (by omega : n ≤ 0)
          have := mul_nonpos_of_nonpos_of_nonneg this hp.le
          linarith
        have hn1' : (1 : ℚ) ≤ n := by exact_mod_cast hn1
        have e : (2 : ℚ) ^ (-(24 : ℤ)) = 2 ^ ((2 : ℤ) - 2 ^ (5 - 1) - (10 : ℕ)) := by norm_num
        rw [hn, e]
        exact le_mul_of_one_le_left hp.le hn1'
      have h2 : (minNorm 5) ^ 2 ≤ x := le_trans (by norm_num [minNorm]) hmin
      refine Real.le_sqrt_of_sq_le ?_
      exact_mod_cast h2
    · have hmx := ieee_le_maxFin (by norm_num) hx
      have h1 : (1 : ℚ) ≤ maxFin 5 10 := by norm_num [maxFin]
      have h2 : x ≤ (maxFin 5 10) ^ 2 := by
        have := le_abs_self x
        have : maxFin 5 10 ≤ maxFin 5 10 ^ 2 := by rw [sq]; exact le_mul_of_one_le_left (by linarith) h1
        linarith
      rw [Real.sqrt_le_left (by exact_mod_cast (by linarith : (0 : ℚ) ≤ maxFin 5 10))]
      exact_mod_cast h2
  · have h := hl.f16.sqrt ha h0 le_rfl
    have hv := exact' 0 h0 le_rfl 0 0 (ieee_zero' (by norm_num)) le_rfl (by norm_num)
    exact ieee_inj h.1 ha (hv.trans h0.symm) (by rw [hv]; simp) h.2.2
  · exact (hl.f16.sqrt_inf ha h).2
  · exact (hl.f16.sqrt_inf ha h).2
  · exact (hl.f16.sqrt_nan ha h).2

example (hl : l.Correct) : ieee 5 10 (Soft16.sqrt l 0x4400) = .num 2 :=
  ((C107_sqrt16 hl (a := 0x4400) (by norm_num)).1 4 (by norm_num [ieee]) (by norm_num)).2 0x4000 2 (by norm_num [ieee]) (by norm_num) (by norm_num)

/-! ## softfloat32 -/

/-- The operators and `mulAdd` are exact results rounded to nearest, ties to even; NaN, infinities and divisions by either zero as
in IEEE 754. `mulAdd` rounds once. -/
theorem C107_arith32 (hl : l.Correct) (ha : a < 2 ^ 32) (hb : b < 2 ^ 32) (hc : c < 2 ^ 32) :
    NearestTo 8 23 ((ieee 8 23 a).plus (ieee 8 23 b)) (Soft32.add l a b) ∧
    NearestTo 8 23 ((ieee 8 23 a).plus (ieee 8 23 b).neg) (Soft32.sub l a b) ∧
    NearestTo 8 23 ((ieee 8 23 a).times (ieee 8 23 b)) (Soft32.mul l a b) ∧
    NearestTo 8 23 (quotientOf 8 23 a b) (Soft32.div l a b) ∧
    NearestTo 8 23 ((ieee 8 23 a).plus (ieee 8 23 b)) (Soft32.addAssign l a b) ∧
    NearestTo 8 23 (((ieee 8 23 a).times (ieee 8 23 b)).plus (ieee 8 23 c)) (Soft32.mulAdd l a b c) :=
  ⟨(hl.f32.add ha hb).1, (hl.f32.sub ha hb).1, (hl.f32.mul ha hb).1, (hl.f32.div ha hb).1, (hl.f32.add ha hb).1, (hl.f32.mulAdd ha hb hc).1⟩

example (hl : l.Correct) : ieee 8 23 (Soft32.add l 0x3F800000 0x40000000) = .num 3 := by
  have h := (C107_arith32 hl (a := 0x3F800000) (b := 0x40000000) (c := 0) (by norm_num) (by norm_num) (by norm_num)).1
  rw [show ieee 8 23 0x3F800000 = .num 1 by norm_num [ieee], show ieee 8 23 0x40000000 = .num 2 by norm_num [ieee]] at h
  obtain ⟨c, hc⟩ := int_exact (eb := 8) (fb := 23) (by norm_num) (by norm_num) (n := 3) (by norm_num)
  have := nearest_exact (by norm_num) h (c := c) (by rw [hc]; norm_num)
  rw [this]; norm_num

/-- The constants are two, one and zero. -/
theorem C107_const32 (hl : l.Correct) : Soft32.two l = 0x40000000 ∧ Soft32.one l = 0x3F800000 ∧ Soft32.zero l = 0 := by
  have key : ∀ n : ℤ, ∀ p : ℕ, 0 ≤ n → n ≤ 2 → p < 2 ^ 32 → ieee 8 23 p = .num n → signBit 8 23 p = false → l.f32.i32 n = p := by
    intro n p h0 h2 hp hv hs
    have h := hl.f32.i32 (n := n) (by omega) (by omega)
    have hv' := nearest_exact (by norm_num) h.1 hv
    refine ieee_inj h.1.1 hp (hv'.trans hv.symm) (by rw [hv']; simp) ?_
    rw [hs]
    by_cases hn : n = 0
    · exact h.2 (by rw [hn]; norm_num)
    · rw [signBit_num h.1.1 hv' (by exact_mod_cast hn)]
      exact decide_eq_false (not_lt.mpr (by exact_mod_cast h0))
  refine ⟨key 2 _ (by norm_num) (by norm_num) (by norm_num) (by norm_num [ieee]) (by norm_num [signBit]),
    key 1 _ (by norm_num) (by norm_num) (by norm_num) (by norm_num [ieee]) (by norm_num [signBit]),
    key 0 _ (by norm_num) (by norm_num) (by norm_num) (by norm_num [ieee]) (by norm_num [signBit])⟩

example : ieee 8 23 0x40000000 = .num 2 ∧ ieee 8 23 0x3F800000 = .num 1 ∧ ieee 8 23 0 = .num 0 := by
  refine ⟨?_, ?_, ?_⟩ <;> norm_num [ieee]

/-- `half` is the operand times one half and `square` its square, each rounded; squares have no sign bit. `inv` is the reciprocal
rounded, infinity with the sign of the operand if that is a zero, and zero with the sign of the operand if that is infinity. -/
theorem C107_unary32 (hl : l.Correct) (ha : a < 2 ^ 32) :
    NearestTo 8 23 ((ieee 8 23 a).times (.num (1 / 2))) (Soft32.half l a) ∧
    NearestTo 8 23 ((ieee 8 23 a).times (ieee 8 23 a)) (Soft32.square l a) ∧
    (ieee 8 23 a ≠ .nan → signBit 8 23 (Soft32.square l a) = false) ∧
    (∀ x, ieee 8 23 a = .num x → x ≠ 0 → NearestTo 8 23 (.num (1 / x)) (Soft32.inv l a)) ∧
    (ieee 8 23 a = .num 0 → ieee 8 23 (Soft32.inv l a) = .inf (signBit 8 23 a)) ∧
    (∀ s, ieee 8 23 a = .inf s → ieee 8 23 (Soft32.inv l a) = .num 0 ∧ signBit 8 23 (Soft32.inv l a) = s) ∧
    (ieee 8 23 a = .nan → ieee 8 23 (Soft32.inv l a) = .nan) := by
  have h1 : ieee 8 23 (Soft32.one l) = .num 1 := by rw [(C107_const32 hl).2.1]; norm_num [ieee]
  have hlt : Soft32.one l < 2 ^ 32 := by rw [(C107_const32 hl).2.1]; norm_num
  have hs1 : signBit 8 23 (Soft32.one l) = false := by rw [(C107_const32 hl).2.1]; norm_num [signBit]
  have hd := hl.f32.div hlt ha
  refine ⟨(half_rounded (by norm_num) (by norm_num) (by norm_num) hl.f32 ha).1, (hl.f32.mul ha ha).1,
    square_sign (by norm_num) (by norm_num) hl.f32 ha, fun x hx h0 => ?_, fun h0 => ?_, fun s hs => ?_, fun hn => ?_⟩
  · rw [quotient_of_num hx h0, h1] at hd
    simp only [XNum.over] at hd
    rw [if_neg h0] at hd
    exact hd.1
  · have hd1 := hd.1
    unfold quotientOf at hd1
    rw [h1, h0] at hd1
    rw [show (XNum.num 1).over (.num 0) = .inf false by
      simp only [XNum.over]; rw [if_pos trivial, if_neg (by norm_num), decide_eq_false (by norm_num)]] at hd1
    by_cases hz : a = 2 ^ (8 + 23)
    · rw [if_pos hz] at hd1
      rw [show signBit 8 23 a = true by rw [hz]; norm_num [signBit]]; exact hd1.2
    · rw [if_neg hz] at hd1
      have hs0 : signBit 8 23 a = false := by
        cases hsb : signBit 8 23 a with
        | false => rfl
        | true => exact absurd (ieee_inj ha (by norm_num) (h0.trans (by norm_num [ieee])) (by rw [h0]; simp) (by rw [hsb]; norm_num [signBit])) hz
      rw [hs0]; exact hd1.2
  · have hq : quotientOf 8 23 (Soft32.one l) a = .num 0 := by
      unfold quotientOf
      rw [if_neg, h1, hs]
      · rfl
      · rintro rfl; rw [show ieee 8 23 (2 ^ (8 + 23)) = .num 0 by norm_num [ieee]] at hs; cases hs
    rw [hq] at hd
    refine ⟨nearest_exact (by norm_num) hd.1 (ieee_zero' (by norm_num)), ?_⟩
    exact (hd.2 rfl).trans (by rw [hs1, signBit_inf ha hs, Bool.false_xor])
  · have hq : quotientOf 8 23 (Soft32.one l) a = .nan := by
      unfold quotientOf
      rw [if_neg, h1, hn]
      · rfl
      · rintro rfl; rw [show ieee 8 23 (2 ^ (8 + 23)) = .num 0 by norm_num [ieee]] at hn; cases hn
    rw [hq] at hd
    exact hd.1.2

example (hl : l.Correct) : ieee 8 23 (Soft32.inv l 0x80000000) = .inf true := by
  rw [(C107_unary32 hl (a := 0x80000000) (by norm_num)).2.2.2.2.1 (by norm_num [ieee])]
  norm_num [signBit]

/-- Halves of numbers from twice the least normal number on are exact: the exponent field is one less. -/
theorem C107_half_exact32 (hl : l.Correct) (ha : a < 2 ^ 32) {x : ℚ} (hx : ieee 8 23 a = .num x) (h2 : 2 * minNorm 8 ≤ |x|) :
    Soft32.half l a = a - 2 ^ 23 ∧ ieee 8 23 (Soft32.half l a) = .num (x / 2) := by
  have h := half_rounded (by norm_num) (by norm_num) (by norm_num) hl.f32 ha
  rw [hx] at h
  simp only [XNum.times] at h
  rw [show x * (1 / 2) = x / 2 by ring] at h
  exact half_exact (by norm_num) ha hx h2 h

example (hl : l.Correct) : Soft32.half l 0x40000000 = 0x3F800000 := by
  rw [(C107_half_exact32 hl (a := 0x40000000) (x := 2) (by norm_num) (by norm_num [ieee]) (by norm_num [minNorm])).1]; norm_num

/-- Unary minus changes the sign of the value and the sign bit, also those of zeros and infinities, and does so back again. -/
theorem C107_neg32 (ha : a < 2 ^ 32) : Soft32.neg a < 2 ^ 32 ∧ ieee 8 23 (Soft32.neg a) = (ieee 8 23 a).neg ∧
    signBit 8 23 (Soft32.neg a) = !signBit 8 23 a ∧ Soft32.neg (Soft32.neg a) = a := by
  refine ⟨flip_lt (eb := 8) (fb := 23) ha, flip_val (eb := 8) (fb := 23) ha, flip_sign (eb := 8) (fb := 23) ha, ?_⟩
  unfold Soft32.neg
  rw [Nat.xor_assoc, Nat.xor_self, Nat.xor_zero]

example : ieee 8 23 (Soft32.neg 0x40000000) = .num (-2) := by
  rw [(C107_neg32 (by norm_num)).2.1, show ieee 8 23 0x40000000 = .num 2 by norm_num [ieee]]; rfl

/-- The relative error is at most half a unit in the last place: of sums and differences without any lower limit, of products,
quotients and fused operations from the least normal number on. -/
theorem C107_error32 (hl : l.Correct) (ha : a < 2 ^ 32) (hb : b < 2 ^ 32) (hc : c < 2 ^ 32) {x y z : ℚ} (hx : ieee 8 23 a = .num x)
    (hy : ieee 8 23 b = .num y) (hz : ieee 8 23 c = .num z) :
    (|x + y| < overflowAt 8 23 → ∃ r, ieee 8 23 (Soft32.add l a b) = .num r ∧ |r - (x + y)| ≤ |x + y| / 2 ^ (23 + 1)) ∧
    (|x - y| < overflowAt 8 23 → ∃ r, ieee 8 23 (Soft32.sub l a b) = .num r ∧ |r - (x - y)| ≤ |x - y| / 2 ^ (23 + 1)) ∧
    (minNorm 8 ≤ |x * y| → |x * y| < overflowAt 8 23 → ∃ r, ieee 8 23 (Soft32.mul l a b) = .num r ∧ |r - x * y| ≤ |x * y| / 2 ^ (23 + 1)) ∧
    (y ≠ 0 → minNorm 8 ≤ |x / y| → |x / y| < overflowAt 8 23 →
      ∃ r, ieee 8 23 (Soft32.div l a b) = .num r ∧ |r - x / y| ≤ |x / y| / 2 ^ (23 + 1)) ∧
    (minNorm 8 ≤ |x * y + z| → |x * y + z| < overflowAt 8 23 →
      ∃ r, ieee 8 23 (Soft32.mulAdd l a b c) = .num r ∧ |r - (x * y + z)| ≤ |x * y + z| / 2 ^ (23 + 1)) := by
  have h1 := (hl.f32.add ha hb).1
  have h2 := (hl.f32.sub ha hb).1
  have h3 := (hl.f32.mul ha hb).1
  have h5 := (hl.f32.mulAdd ha hb hc).1
  rw [hx, hy] at h1 h2 h3 h5
  rw [hz] at h5
  have hyn : ieee 8 23 (b ^^^ 2 ^ (8 + 23)) = .num (-y) := by rw [flip_val (eb := 8) (fb := 23) hb, hy]; rfl
  refine ⟨fun h => sum_error (by norm_num) (by norm_num) hx hy h1 h, fun h => ?_, fun hm h => ?_, fun h0 hm h => ?_, fun hm h => ?_⟩
  · have := sum_error (by norm_num) (by norm_num) hx hyn h2 (by rw [← sub_eq_add_neg]; exact h)
    rw [← sub_eq_add_neg] at this; exact this
  · obtain ⟨r, hr, he, -⟩ := nearest_error (by norm_num) (by norm_num) h3 h
    exact ⟨r, hr, he hm⟩
  · have h4 := (hl.f32.div ha hb).1
    rw [quotient_of_num hy h0, hx] at h4
    simp only [XNum.over] at h4
    rw [if_neg h0] at h4
    obtain ⟨r, hr, he, -⟩ := nearest_error (by norm_num) (by norm_num) h4 h
    exact ⟨r, hr, he hm⟩
  · obtain ⟨r, hr, he, -⟩ := nearest_error (by norm_num) (by norm_num) h5 h
    exact ⟨r, hr, he hm⟩

example (hl : l.Correct) : ∃ r, ieee 8 23 (Soft32.add l 1 0x3F800000) = .num r ∧ |r - (2 ^ (-(149 : ℤ)) + 1)| ≤ |(2 : ℚ) ^ (-(149 : ℤ)) + 1| / 2 ^ (23 + 1) :=
  (C107_error32 hl (a := 1) (b := 0x3F800000) (c := 0) (x := 2 ^ (-(149 : ℤ))) (y := 1) (z := 0) (by norm_num) (by norm_num) (by norm_num)
    (by norm_num [ieee]) (by norm_num [ieee]) (by norm_num [ieee])).1 (by
      rw [abs_of_pos (by positivity)]; norm_num [overflowAt])

/-- Differences of numbers are zero only if the numbers are equal, so `a - b == 0` and `a == b` agree. -/
theorem C107_sub_zero32 (hl : l.Correct) (ha : a < 2 ^ 32) (hb : b < 2 ^ 32) {x y : ℚ} (hx : ieee 8 23 a = .num x) (hy : ieee 8 23 b = .num y) :
    Soft32.eq l (Soft32.sub l a b) (Soft32.zero l) = Soft32.eq l a b := by
  have h2 := (hl.f32.sub ha hb).1
  rw [hx, hy] at h2
  have hyn : ieee 8 23 (b ^^^ 2 ^ (8 + 23)) = .num (-y) := by rw [flip_val (eb := 8) (fb := 23) hb, hy]; rfl
  have key := sum_ne_zero (by norm_num) (by norm_num) hx hyn h2
  have hz : ieee 8 23 (Soft32.zero l) = .num 0 := by rw [(C107_const32 hl).2.2]; norm_num [ieee]
  have hzl : Soft32.zero l < 2 ^ 32 := by rw [(C107_const32 hl).2.2]; norm_num
  rw [Bool.eq_iff_iff]
  unfold Soft32.eq Soft32.sub
  rw [hl.f32.eq h2.1 hzl, hl.f32.eq ha hb, hz, hx, hy]
  have e2 : (XNum.num x).Same (.num y) ↔ x = y := Iff.rfl
  have e : (ieee 8 23 (l.f32.sub a b)).Same (.num 0) ↔ ieee 8 23 (l.f32.sub a b) = .num 0 := by
    cases ieee 8 23 (l.f32.sub a b) <;> simp [XNum.Same]
  rw [e, key, e2]
  constructor <;> intro h <;> linarith

example (hl : l.Correct) : Soft32.eq l (Soft32.sub l 1 2) (Soft32.zero l) = false := by
  have h1 : ieee 8 23 1 = .num (2 ^ (-(149 : ℤ))) := by norm_num [ieee]
  have h2 : ieee 8 23 2 = .num (2 * 2 ^ (-(149 : ℤ))) := by norm_num [ieee]
  rw [C107_sub_zero32 hl (by norm_num) (by norm_num) h1 h2, ← Bool.not_eq_true]
  unfold Soft32.eq
  rw [hl.f32.eq (by norm_num) (by norm_num), h1, h2]
  norm_num [XNum.Same]

/-- Numbers within a factor of two of each other are subtracted exactly. -/
theorem C107_sterbenz32 (hl : l.Correct) (ha : a < 2 ^ 32) (hb : b < 2 ^ 32) {x y : ℚ} (hx : ieee 8 23 a = .num x) (hy : ieee 8 23 b = .num y)
    (h1 : y / 2 ≤ x) (h2 : x ≤ 2 * y) : ieee 8 23 (Soft32.sub l a b) = .num (x - y) := by
  have h := (hl.f32.sub ha hb).1
  rw [hx, hy] at h
  obtain ⟨c, hc⟩ := sterbenz (by norm_num) hx hy h1 h2
  have h' : IsNearestEven 8 23 (x - y) (l.f32.sub a b) := by rw [sub_eq_add_neg]; exact h
  exact nearest_exact (by norm_num) h' hc

example (hl : l.Correct) : ieee 8 23 (Soft32.sub l 0x40000000 0x3F800000) = .num (2 - 1) :=
  C107_sterbenz32 hl (by norm_num) (by norm_num) (by norm_num [ieee]) (by norm_num [ieee]) (by norm_num) (by norm_num)

/-- The operators keep the order of numbers: adding or subtracting the same number, multiplying by the same nonnegative number,
and, reversed, unary minus. -/
theorem C107_order32 (hl : l.Correct) (ha : a < 2 ^ 32) (hb : b < 2 ^ 32) (hc : c < 2 ^ 32) {x y z : ℚ} (hx : ieee 8 23 a = .num x)
    (hy : ieee 8 23 b = .num y) (hz : ieee 8 23 c = .num z) (hle : Soft32.le l a b = true) :
    Soft32.le l (Soft32.add l a c) (Soft32.add l b c) = true ∧ Soft32.le l (Soft32.sub l a c) (Soft32.sub l b c) = true ∧
    (Soft32.le l (Soft32.zero l) c = true → Soft32.le l (Soft32.mul l a c) (Soft32.mul l b c) = true) ∧ Soft32.le l (Soft32.neg b) (Soft32.neg a) = true := by
  have hxy : x ≤ y := (le_num hl.f32 ha hb hx hy).1 hle
  have a1 := (hl.f32.add ha hc).1
  have b1 := (hl.f32.add hb hc).1
  have a2 := (hl.f32.sub ha hc).1
  have b2 := (hl.f32.sub hb hc).1
  have a3 := (hl.f32.mul ha hc).1
  have b3 := (hl.f32.mul hb hc).1
  rw [hx, hz] at a1 a2 a3
  rw [hy, hz] at b1 b2 b3
  refine ⟨rounded_le (by norm_num) (by norm_num) hl.f32 a1 b1 (by linarith), rounded_le (by norm_num) (by norm_num) hl.f32 a2 b2 (by linarith),
    fun h0 => ?_, ?_⟩
  · have hzv : ieee 8 23 (Soft32.zero l) = .num 0 := by rw [(C107_const32 hl).2.2]; norm_num [ieee]
    have hzl : Soft32.zero l < 2 ^ 32 := by rw [(C107_const32 hl).2.2]; norm_num
    have hz0 : 0 ≤ z := (le_num hl.f32 hzl hc hzv hz).1 h0
    exact rounded_le (by norm_num) (by norm_num) hl.f32 a3 b3 (mul_le_mul_of_nonneg_right hxy hz0)
  · have na := C107_neg32 ha
    have nb := C107_neg32 hb
    refine (le_num hl.f32 nb.1 na.1 (x := -y) (y := -x) (by rw [nb.2.1, hy]; rfl) (by rw [na.2.1, hx]; rfl)).2 (by linarith)

example (hl : l.Correct) : Soft32.le l (Soft32.add l 0x3F800000 0x3F800000) (Soft32.add l 0x40000000 0x3F800000) = true :=
  (C107_order32 hl (a := 0x3F800000) (b := 0x40000000) (c := 0x3F800000) (x := 1) (y := 2) (z := 1) (by norm_num) (by norm_num) (by norm_num)
    (by norm_num [ieee]) (by norm_num [ieee]) (by norm_num [ieee])
    ((le_num hl.f32 (by norm_num) (by norm_num) (x := 1) (y := 2) (by norm_num [ieee]) (by norm_num [ieee])).2 (by norm_num))).1

/-- Bit for bit, unless the result is NaN: sums and products do not depend on the order of the operands, a difference is the sum with
the negative, the sign of a factor is the sign of the product, and `a - b` is the negative of `b - a` if the two differ. -/
theorem C107_symm32 (hl : l.Correct) (ha : a < 2 ^ 32) (hb : b < 2 ^ 32) :
    ((ieee 8 23 a).plus (ieee 8 23 b) ≠ .nan → Soft32.add l a b = Soft32.add l b a) ∧
    ((ieee 8 23 a).times (ieee 8 23 b) ≠ .nan → Soft32.mul l a b = Soft32.mul l b a) ∧
    ((ieee 8 23 a).plus (ieee 8 23 b).neg ≠ .nan → Soft32.sub l a b = Soft32.add l a (Soft32.neg b)) ∧
    ((ieee 8 23 a).times (ieee 8 23 b) ≠ .nan → Soft32.mul l (Soft32.neg a) b = Soft32.neg (Soft32.mul l a b)) ∧
    ((ieee 8 23 a).plus (ieee 8 23 b).neg ≠ .nan → ieee 8 23 a ≠ ieee 8 23 b → Soft32.neg (Soft32.sub l a b) = Soft32.sub l b a) := by
  have na := C107_neg32 ha
  have nb := C107_neg32 hb
  refine ⟨fun h => ?_, fun h => ?_, fun h => ?_, fun h => ?_, fun h hne => ?_⟩
  · have h1 := hl.f32.add ha hb
    have h2 := hl.f32.add hb ha
    rw [plus_comm, Bool.and_comm] at h2
    exact rounded_unique (by norm_num) (by norm_num) h h1 h2
  · have h1 := hl.f32.mul ha hb
    have h2 := hl.f32.mul hb ha
    rw [times_comm, Bool.xor_comm] at h2
    exact rounded_unique (by norm_num) (by norm_num) h h1 h2
  · have h1 := hl.f32.sub ha hb
    have h2 := hl.f32.add ha nb.1
    rw [nb.2.1, nb.2.2.1] at h2
    exact rounded_unique (by norm_num) (by norm_num) h h1 h2
  · have h1 := rounded_flip (by norm_num) (by norm_num) (hl.f32.mul ha hb)
    have h2 := hl.f32.mul na.1 hb
    rw [na.2.1, na.2.2.1, times_neg, Bool.not_xor] at h2
    exact rounded_unique (by norm_num) (by norm_num) (fun hc => h (neg_nan.1 hc)) h2 h1
  · have h1 := rounded_flip (by norm_num) (by norm_num) (hl.f32.sub ha hb)
    have h2 := hl.f32.sub hb ha
    have e : ((ieee 8 23 a).plus (ieee 8 23 b).neg).neg = (ieee 8 23 b).plus (ieee 8 23 a).neg := by
      rw [← plus_neg, neg_neg', plus_comm]
    rw [e] at h1
    have h0 : (ieee 8 23 b).plus (ieee 8 23 a).neg ≠ .num 0 := by
      intro hc
      exact hne (sub_eq_zero' hc).symm
    have hn : (ieee 8 23 b).plus (ieee 8 23 a).neg ≠ .nan := fun hc => h (neg_nan.1 (e.trans hc))
    exact rounded_unique (by norm_num) (by norm_num) (s := true) hn ⟨h1.1, fun hc => absurd hc h0⟩ ⟨h2.1, fun hc => absurd hc h0⟩

example (hl : l.Correct) : Soft32.add l 0x3F800000 1 = Soft32.add l 1 0x3F800000 :=
  (C107_symm32 hl (by norm_num) (by norm_num)).1 (by
    rw [show ieee 8 23 0x3F800000 = .num 1 by norm_num [ieee], show ieee 8 23 1 = .num (2 ^ (-(149 : ℤ))) by norm_num [ieee]]
    simp [XNum.plus])

/-- `mulAdd` with a factor one is the sum, bit for bit unless it is NaN, and with zero added has the value of the product. -/
theorem C107_mulAdd32 (hl : l.Correct) (ha : a < 2 ^ 32) (hb : b < 2 ^ 32) :
    ((ieee 8 23 a).plus (ieee 8 23 b) ≠ .nan → Soft32.mulAdd l a (Soft32.one l) b = Soft32.add l a b) ∧
    ieee 8 23 (Soft32.mulAdd l a b (Soft32.zero l)) = ieee 8 23 (Soft32.mul l a b) := by
  have h1v : ieee 8 23 (Soft32.one l) = .num 1 := by rw [(C107_const32 hl).2.1]; norm_num [ieee]
  have h1l : Soft32.one l < 2 ^ 32 := by rw [(C107_const32 hl).2.1]; norm_num
  have h1s : signBit 8 23 (Soft32.one l) = false := by rw [(C107_const32 hl).2.1]; norm_num [signBit]
  have h0v : ieee 8 23 (Soft32.zero l) = .num 0 := by rw [(C107_const32 hl).2.2]; norm_num [ieee]
  have h0l : Soft32.zero l < 2 ^ 32 := by rw [(C107_const32 hl).2.2]; norm_num
  constructor
  · intro h
    have h1 := hl.f32.mulAdd ha h1l hb
    rw [h1v, h1s, times_one, Bool.xor_false] at h1
    exact rounded_unique (by norm_num) (by norm_num) h h1 (hl.f32.add ha hb)
  · have h1 := (hl.f32.mulAdd ha hb h0l).1
    have h2 := (hl.f32.mul ha hb).1
    have e : ∀ X : XNum, X.plus (.num 0) = X := by intro X; cases X <;> simp [XNum.plus]
    rw [h0v, e] at h1
    revert h1 h2
    unfold Soft32.mulAdd Soft32.mul
    cases (ieee 8 23 a).times (ieee 8 23 b) with
    | inf s => intro h1 h2; exact h1.2.trans h2.2.symm
    | nan => intro h1 h2; exact h1.2.trans h2.2.symm
    | num z =>
      intro h1 h2
      by_cases hz : z = 0
      · rw [hz] at h1 h2
        rw [nearest_exact (by norm_num) h1 (ieee_zero' (by norm_num)), nearest_exact (by norm_num) h2 (ieee_zero' (by norm_num))]
      · rw [(nearest_unique (by norm_num) (by norm_num) h1 h2).2 hz]

example (hl : l.Correct) : Soft32.mulAdd l 0x40000000 (Soft32.one l) 0x3F800000 = Soft32.add l 0x40000000 0x3F800000 :=
  (C107_mulAdd32 hl (by norm_num) (by norm_num)).1 (by
    rw [show ieee 8 23 0x3F800000 = .num 1 by norm_num [ieee], show ieee 8 23 0x40000000 = .num 2 by norm_num [ieee]]
    simp [XNum.plus])

/-- The comparison operators compare the values; NaN is not equal to, below or above anything. -/
theorem C107_compare32 (hl : l.Correct) (ha : a < 2 ^ 32) (hb : b < 2 ^ 32) :
    (Soft32.eq l a b = true ↔ (ieee 8 23 a).Same (ieee 8 23 b)) ∧ (Soft32.lt l a b = true ↔ (ieee 8 23 a).Below (ieee 8 23 b)) ∧
    (Soft32.gt l a b = true ↔ (ieee 8 23 b).Below (ieee 8 23 a)) ∧
    (Soft32.ge l a b = true ↔ (ieee 8 23 b).Below (ieee 8 23 a) ∨ (ieee 8 23 a).Same (ieee 8 23 b)) ∧
    (Soft32.le l a b = true ↔ (ieee 8 23 a).Below (ieee 8 23 b) ∨ (ieee 8 23 a).Same (ieee 8 23 b)) := by
  have sc : (ieee 8 23 b).Same (ieee 8 23 a) ↔ (ieee 8 23 a).Same (ieee 8 23 b) := by
    cases ieee 8 23 a <;> cases ieee 8 23 b <;> simp [XNum.Same, eq_comm]
  refine ⟨hl.f32.eq ha hb, hl.f32.lt ha hb, hl.f32.lt hb ha, ?_, hl.f32.le ha hb⟩
  rw [← sc]; exact hl.f32.le hb ha

example (hl : l.Correct) : Soft32.gt l 0x40000000 0x3F800000 = true ∧ Soft32.gt l 0x3F800000 0x40000000 = false := by
  have h1 : ieee 8 23 0x3F800000 = .num 1 := by norm_num [ieee]
  have h2 : ieee 8 23 0x40000000 = .num 2 := by norm_num [ieee]
  rw [(C107_compare32 hl (by norm_num) (by norm_num)).2.2.1, ← Bool.not_eq_true, (C107_compare32 hl (by norm_num) (by norm_num)).2.2.1, h1, h2]
  norm_num [XNum.Below]

/-- Integers become the nearest number, themselves up to 2^24; sums, differences and products of such integers that are such
integers are exact. -/
theorem C107_int32 (hl : l.Correct) : (∀ n : ℤ, -2 ^ 31 ≤ n → n < 2 ^ 31 → IsNearestEven 8 23 n (Soft32.ofI32 l n)) ∧
    (∀ n : ℕ, n < 2 ^ 32 → IsNearestEven 8 23 n (Soft32.ofU32 l n)) ∧
    (∀ n : ℤ, |n| ≤ 2 ^ 24 → ieee 8 23 (Soft32.ofI32 l n) = .num n) ∧ (∀ n : ℕ, n ≤ 2 ^ 24 → ieee 8 23 (Soft32.ofU32 l n) = .num n) ∧
    (∀ n m : ℤ, |n| ≤ 2 ^ 24 → |m| ≤ 2 ^ 24 →
      (|n + m| ≤ 2 ^ 24 → ieee 8 23 (Soft32.add l (Soft32.ofI32 l n) (Soft32.ofI32 l m)) = .num ((n + m : ℤ) : ℚ)) ∧
      (|n - m| ≤ 2 ^ 24 → ieee 8 23 (Soft32.sub l (Soft32.ofI32 l n) (Soft32.ofI32 l m)) = .num ((n - m : ℤ) : ℚ)) ∧
      (|n * m| ≤ 2 ^ 24 → ieee 8 23 (Soft32.mul l (Soft32.ofI32 l n) (Soft32.ofI32 l m)) = .num ((n * m : ℤ) : ℚ))) := by
  have ex : ∀ n : ℤ, |n| ≤ 2 ^ 24 → ∃ c, ieee 8 23 c = .num n := fun n hn => int_exact (by norm_num) (by norm_num) hn
  have I : ∀ n : ℤ, |n| ≤ 2 ^ 24 → ieee 8 23 (l.f32.i32 n) = .num n ∧ l.f32.i32 n < 2 ^ (8 + 23 + 1) := fun n hn => by
    have := abs_le.mp hn
    exact ofInt_exact (by norm_num) (by norm_num) hl.f32 (by omega) (by omega) hn
  refine ⟨fun n h1 h2 => (hl.f32.i32 h1 h2).1, fun n h => (hl.f32.ui32 h).1, fun n hn => (I n hn).1, fun n hn => ?_, fun n m hn hm => ⟨fun h => ?_, fun h => ?_, fun h => ?_⟩⟩
  · obtain ⟨c, hc⟩ := ex n (by rw [Nat.abs_cast]; exact_mod_cast hn)
    exact nearest_exact (by norm_num) (hl.f32.ui32 (by omega)).1 (c := c) (by rw [hc]; norm_num)
  · have hr := (hl.f32.add (I n hn).2 (I m hm).2).1
    rw [(I n hn).1, (I m hm).1] at hr
    obtain ⟨c, hc⟩ := ex _ h
    have := nearest_exact (by norm_num) hr (c := c) (by rw [hc]; push_cast; rfl)
    unfold Soft32.add Soft32.ofI32
    rw [this]; push_cast; rfl
  · have hr := (hl.f32.sub (I n hn).2 (I m hm).2).1
    rw [(I n hn).1, (I m hm).1] at hr
    obtain ⟨c, hc⟩ := ex _ h
    have := nearest_exact (by norm_num) hr (c := c) (by rw [hc]; push_cast; rw [sub_eq_add_neg])
    unfold Soft32.sub Soft32.ofI32
    rw [this]; push_cast; rw [sub_eq_add_neg]
  · have hr := (hl.f32.mul (I n hn).2 (I m hm).2).1
    rw [(I n hn).1, (I m hm).1] at hr
    obtain ⟨c, hc⟩ := ex _ h
    have := nearest_exact (by norm_num) hr (c := c) (by rw [hc]; push_cast; rfl)
    unfold Soft32.mul Soft32.ofI32
    rw [this]; push_cast; rfl

example (hl : l.Correct) : ieee 8 23 (Soft32.add l (Soft32.ofI32 l 3) (Soft32.ofI32 l 2)) = .num 5 := by
  have := ((C107_int32 hl).2.2.2.2 3 2 (by norm_num) (by norm_num)).1 (by norm_num)
  rw [this]; norm_num

/-- Remainders are exact: `x - n y` for the integer `n` nearest to `x / y`, with the sign of the dividend if zero; NaN if the divisor
is zero or the dividend infinite, the dividend itself if the divisor is infinite. -/
theorem C107_rem32 (hl : l.Correct) (ha : a < 2 ^ 32) (hb : b < 2 ^ 32) :
    (∀ x y, ieee 8 23 a = .num x → ieee 8 23 b = .num y → y ≠ 0 →
      ∃ r, IsRemainder x y r ∧ ieee 8 23 (Soft32.rem l a b) = .num r ∧ |r| ≤ |y| / 2 ∧ (r = 0 → signBit 8 23 (Soft32.rem l a b) = signBit 8 23 a)) ∧
    (ieee 8 23 b = .num 0 ∨ (∃ s, ieee 8 23 a = .inf s) ∨ ieee 8 23 a = .nan ∨ ieee 8 23 b = .nan → ieee 8 23 (Soft32.rem l a b) = .nan) ∧
    (∀ x s, ieee 8 23 a = .num x → ieee 8 23 b = .inf s → Soft32.rem l a b = a) := by
  refine ⟨fun x y hx hy h0 => ?_, fun h => (hl.f32.rem_nan ha hb h).2, fun x s hx hs => hl.f32.rem_inf ha hb hx hs⟩
  obtain ⟨r, hr, hn⟩ := hl.f32.rem ha hb hx hy h0
  obtain ⟨c, hc⟩ := remainder_float (by norm_num) hx hy h0 hr
  exact ⟨r, hr, nearest_exact (by norm_num) hn.1 hc, (hr.bounds h0).1, fun h => hn.2 (by rw [h])⟩

example (hl : l.Correct) : ieee 8 23 (Soft32.rem l 0x3F800000 0) = .nan :=
  (C107_rem32 hl (by norm_num) (by norm_num)).2.1 (Or.inl (by norm_num [ieee]))

/-- Square roots: exact if the root is a number of the format, otherwise with a relative error of at most half a unit in the last
place; -0 for -0, NaN for negative numbers and negative infinity. -/
theorem C107_sqrt32 (hl : l.Correct) (ha : a < 2 ^ 32) :
    (∀ x, ieee 8 23 a = .num x → 0 < x →
      (∃ y : ℚ, ieee 8 23 (Soft32.sqrt l a) = .num y ∧ |(y : ℝ) - √(x : ℝ)| ≤ √(x : ℝ) / 2 ^ (23 + 1)) ∧
      ∀ g y, ieee 8 23 g = .num y → 0 ≤ y → x = y ^ 2 → ieee 8 23 (Soft32.sqrt l a) = .num y) ∧
    (ieee 8 23 a = .num 0 → Soft32.sqrt l a = a) ∧ (∀ x, ieee 8 23 a = .num x → x < 0 → ieee 8 23 (Soft32.sqrt l a) = .nan) ∧
    (ieee 8 23 a = .inf false → ieee 8 23 (Soft32.sqrt l a) = .inf false) ∧ (ieee 8 23 a = .inf true → ieee 8 23 (Soft32.sqrt l a) = .nan) ∧
    (ieee 8 23 a = .nan → ieee 8 23 (Soft32.sqrt l a) = .nan) := by
  have exact' : ∀ x, ieee 8 23 a = .num x → 0 ≤ x → ∀ g y, ieee 8 23 g = .num y → 0 ≤ y → x = y ^ 2 → ieee 8 23 (Soft32.sqrt l a) = .num y := by
    intro x hx h0 g y hg hy he
    obtain ⟨-, ⟨z, hz, hall⟩, -⟩ := hl.f32.sqrt ha hx h0
    have hs : √(x : ℝ) = (y : ℝ) := by
      rw [he]; push_cast; exact Real.sqrt_sq (by exact_mod_cast hy)
    have := hall g y hg
    rw [hs, sub_self, abs_zero] at this
    have h1 : (y : ℝ) - z = 0 := abs_eq_zero.mp (le_antisymm this (abs_nonneg _))
    have h2 : y = z := by exact_mod_cast (sub_eq_zero.mp h1)
    rw [h2]; exact hz
  refine ⟨fun x hx h0 => ⟨?_, exact' x hx h0.le⟩, fun h0 => ?_, fun x hx h0 => (hl.f32.sqrt_neg ha hx h0).2, fun h => ?_, fun h => ?_, fun h => ?_⟩
  · refine nearestReal_error (by norm_num) (hl.f32.sqrt ha hx h0.le).2.1 ?_ ?_
    · -- at least the root of the least number
      have hmin : (2 : ℚ) ^ (-(149 : ℤ)) ≤ x := by
        obtain ⟨n, hn⟩ := num_multiple hx
        have hp : (0 : ℚ) < 2 ^ ((2 : ℤ) - 2 ^ (8 - 1) - (23 : ℕ)) := by positivity
        have hn1 : 1 ≤ n := by
          by_contra hc
          have : (n : ℚ) ≤ 0 := by exact_mod_cast (by omega : n ≤ 0)
          have := mul_nonpos_of_nonpos_of_nonneg this hp.le
          linarith
        have hn1' : (1 : ℚ) ≤ n := by exact_mod_cast hn1
        have e : (2 : ℚ) ^ (-(149 : ℤ)) = 2 ^ ((2 : ℤ) - 2 ^ (8 - 1) - (23 : ℕ)) := by norm_num
        rw [hn, e]
        exact le_mul_of_one_le_left hp.le hn1'
      have h2 : (minNorm 8) ^ 2 ≤ x := le_trans (by norm_num [minNorm]) hmin
      refine Real.le_sqrt_of_sq_le ?_
      exact_mod_cast h2
    · have hmx := ieee_le_maxFin (by norm_num) hx
      have h1 : (1 : ℚ) ≤ maxFin 8 23 := by norm_num [maxFin]
      have h2 : x ≤ (maxFin 8 23) ^ 2 := by
        have := le_abs_self x
        have : maxFin 8 23 ≤ maxFin 8 23 ^ 2 := by rw [sq]; exact le_mul_of_one_le_left (by linarith) h1
        linarith
      rw [Real.sqrt_le_left (by exact_mod_cast (by linarith : (0 : ℚ) ≤ maxFin 8 23))]
      exact_mod_cast h2
  · have h := hl.f32.sqrt ha h0 le_rfl
    have hv := exact' 0 h0 le_rfl 0 0 (ieee_zero' (by norm_num)) le_rfl (by norm_num)
    exact ieee_inj h.1 ha (hv.trans h0.symm) (by rw [hv]; simp) h.2.2
  · exact (hl.f32.sqrt_inf ha h).2
  · exact (hl.f32.sqrt_inf ha h).2
  · exact (hl.f32.sqrt_nan ha h).2

example (hl : l.Correct) : ieee 8 23 (Soft32.sqrt l 0x40800000) = .num 2 :=
  ((C107_sqrt32 hl (a := 0x40800000) (by norm_num)).1 4 (by norm_num [ieee]) (by norm_num)).2 0x40000000 2 (by norm_num [ieee]) (by norm_num) (by norm_num)

/-! ## conversions -/

/-- Widening conversions are exact: a softfloat16 has the value of its `float`, its `double` and its softfloat32, a softfloat32 that
of its `float` and its `double`; infinities and NaN too. -/
theorem C107_widen (hl : l.Correct) :
    (∀ {a}, a < 2 ^ 16 → ieee 8 23 (Soft16.toFloat l a) = ieee 5 10 a ∧ ieee 11 52 (Soft16.toDouble l a) = ieee 5 10 a ∧
      ieee 8 23 (Soft32.ofF16 l a) = ieee 5 10 a) ∧
    (∀ {a}, a < 2 ^ 32 → Soft32.toFloat a = a ∧ Soft32.ofFloat a = a ∧ ieee 11 52 (Soft32.toDouble l a) = ieee 8 23 a) :=
  ⟨fun ha => ⟨(widen_exact (by norm_num) (by norm_num) (by norm_num) hl.f16_to_f32 ha).1,
      (widen_exact (by norm_num) (by norm_num) (by norm_num) hl.f16_to_f64 ha).1,
      (widen_exact (by norm_num) (by norm_num) (by norm_num) hl.f16_to_f32 ha).1⟩,
    fun ha => ⟨rfl, rfl, (widen_exact (by norm_num) (by norm_num) (by norm_num) hl.f32_to_f64 ha).1⟩⟩

example (hl : l.Correct) : ieee 11 52 (Soft16.toDouble l 1) = .num (2 ^ (-24 : ℤ)) := by
  rw [((C107_widen hl).1 (by norm_num)).2.1]; norm_num [ieee]

/-- Narrowing conversions round to nearest, ties to even, in one step also from `double`, and keep the sign of zero. -/
theorem C107_narrow (hl : l.Correct) :
    (∀ {f}, f < 2 ^ 32 → RoundedAs 5 10 (ieee 8 23 f) (signBit 8 23 f) (Soft16.ofFloat l f) ∧
      RoundedAs 5 10 (ieee 8 23 f) (signBit 8 23 f) (Soft16.ofF32 l f)) ∧
    (∀ {f}, f < 2 ^ 64 → RoundedAs 5 10 (ieee 11 52 f) (signBit 11 52 f) (Soft16.ofDouble l f) ∧
      RoundedAs 8 23 (ieee 11 52 f) (signBit 11 52 f) (Soft32.ofDouble l f)) :=
  ⟨fun hf => ⟨hl.f32_to_f16 hf, hl.f32_to_f16 hf⟩, fun hf => ⟨hl.f64_to_f16 hf, hl.f64_to_f32 hf⟩⟩

example (hl : l.Correct) : ieee 5 10 (Soft16.ofFloat l 0x477ff000) = .inf false := by
  have h := ((C107_narrow hl).1 (f := 0x477ff000) (by norm_num)).1.1
  rw [show ieee 8 23 0x477ff000 = .num 65520 by norm_num [ieee]] at h
  have := h.2.2.1 (by norm_num [overflowAt])
  rw [this]; norm_num

/-- A softfloat16 comes back, bit for bit unless it is NaN, from its `float`, its `double` and its softfloat32, and a softfloat32 from
its `double`. -/
theorem C107_round_trip (hl : l.Correct) :
    (∀ {a}, a < 2 ^ 16 → ieee 5 10 a ≠ .nan → Soft16.ofFloat l (Soft16.toFloat l a) = a ∧ Soft16.ofDouble l (Soft16.toDouble l a) = a ∧
      Soft16.ofF32 l (Soft32.ofF16 l a) = a) ∧
    (∀ {a}, a < 2 ^ 32 → ieee 8 23 a ≠ .nan → Soft32.ofDouble l (Soft32.toDouble l a) = a) :=
  ⟨fun ha hn => ⟨(narrow_widen (by norm_num) (by norm_num) (by norm_num) (by norm_num) hl.f16_to_f32 hl.f32_to_f16 ha).2 hn,
      (narrow_widen (by norm_num) (by norm_num) (by norm_num) (by norm_num) hl.f16_to_f64 hl.f64_to_f16 ha).2 hn,
      (narrow_widen (by norm_num) (by norm_num) (by norm_num) (by norm_num) hl.f16_to_f32 hl.f32_to_f16 ha).2 hn⟩,
    fun ha hn => (narrow_widen (by norm_num) (by norm_num) (by norm_num) (by norm_num) hl.f32_to_f64 hl.f64_to_f32 ha).2 hn⟩

example (hl : l.Correct) : Soft16.ofDouble l (Soft16.toDouble l 0x8001) = 0x8001 :=
  ((C107_round_trip hl).1 (by norm_num) (by rw [show ieee 5 10 0x8001 = .num (-2 ^ (-24 : ℤ)) by norm_num [ieee]]; simp)).2.1

/-- Multiplying in softfloat32 and converting the product gives the softfloat16 product: the one in softfloat32 is exact, so there is
only one rounding. -/
theorem C107_through32 (hl : l.Correct) (ha : a < 2 ^ 16) (hb : b < 2 ^ 16) {x y : ℚ} (hx : ieee 5 10 a = .num x) (hy : ieee 5 10 b = .num y) :
    ieee 5 10 (Soft16.ofF32 l (Soft32.mul l (Soft32.ofF16 l a) (Soft32.ofF16 l b))) = ieee 5 10 (Soft16.mul l a b) := by
  obtain ⟨va, la, -⟩ := widen_exact (by norm_num) (by norm_num) (by norm_num) hl.f16_to_f32 ha
  obtain ⟨vb, lb, -⟩ := widen_exact (by norm_num) (by norm_num) (by norm_num) hl.f16_to_f32 hb
  have hm := (hl.f32.mul la lb).1
  rw [va, vb, hx, hy] at hm
  have hh := (hl.f16.mul ha hb).1
  rw [hx, hy] at hh
  simp only [XNum.times] at hm hh
  -- the product of two 11-bit numbers is exact in softfloat32
  obtain ⟨c, hc⟩ : ∃ c, ieee 8 23 c = .num (x * y) := by
    obtain ⟨n, A, hn, hx', hA, -⟩ := ieee_int hx
    obtain ⟨m, B, hm', hy', hB, -⟩ := ieee_int hy
    have hxm := ieee_le_maxFin (by norm_num) hx
    have hym := ieee_le_maxFin (by norm_num) hy
    have e : x * y = ((n * m : ℤ) : ℚ) * 2 ^ (A + B) := by
      rw [hx', hy', zpow_add₀ (by norm_num)]; push_cast; ring
    rw [e]
    refine ieee_of_int (by norm_num) ?_ ?_ ?_
    · rw [abs_mul]
      calc |n| * |m| ≤ 2 ^ 11 * 2 ^ 11 := mul_le_mul hn.le hm'.le (abs_nonneg _) (by norm_num)
        _ < _ := by norm_num
    · norm_num at hA hB ⊢; omega
    · rw [← e, abs_mul]
      have h16 : maxFin 5 10 ≤ 2 ^ 16 := by norm_num [maxFin]
      calc |x| * |y| ≤ 2 ^ 16 * 2 ^ 16 := mul_le_mul (hxm.trans h16) (hym.trans h16) (abs_nonneg _) (by norm_num)
        _ < _ := by norm_num
  have hv := nearest_exact (by norm_num) hm hc
  have hn := (hl.f32_to_f16 (rounded_lt hm)).1
  rw [hv] at hn
  by_cases h0 : x * y = 0
  · rw [h0] at hn hh
    unfold Soft16.mul
    rw [nearest_exact (by norm_num) hh (ieee_zero' (by norm_num))]
    exact nearest_exact (by norm_num) hn (ieee_zero' (by norm_num))
  · exact congrArg _ ((nearest_unique (by norm_num) (by norm_num) hn hh).2 h0)

example (hl : l.Correct) : ieee 5 10 (Soft16.ofF32 l (Soft32.mul l (Soft32.ofF16 l 0x7bff) (Soft32.ofF16 l 0x7bff))) =
    ieee 5 10 (Soft16.mul l 0x7bff 0x7bff) :=
  C107_through32 hl (x := 65504) (y := 65504) (by norm_num) (by norm_num) (by norm_num [ieee]) (by norm_num [ieee])

/-! ## std::numeric_limits<softfloat32> -/

/-- What is right (`min_exponent` and `max_exponent` are not, see below): `min` is the least normal number, `max` and `lowest` are the extreme ones, `denorm_min` the least positive one, `epsilon` the
distance from one to the next number, `digits` the size of the significand; infinity and NaN are that. -/
theorem C107_limits_partial :
    ieee 8 23 Soft32.limits.min = .num (minNorm 8) ∧ ieee 8 23 Soft32.limits.max = .num (maxFin 8 23) ∧
    ieee 8 23 Soft32.limits.lowest = .num (-maxFin 8 23) ∧
    (∃ d, ieee 8 23 Soft32.limits.denorm_min = .num d ∧ 0 < d ∧ ∀ g z, ieee 8 23 g = .num z → 0 < z → d ≤ z) ∧
    (∃ e, ieee 8 23 Soft32.limits.epsilon = .num e ∧ 0 < e ∧ (∃ g, ieee 8 23 g = .num (1 + e)) ∧
      ∀ g z, ieee 8 23 g = .num z → 1 < z → 1 + e ≤ z) ∧
    ieee 8 23 Soft32.limits.infinity = .inf false ∧ ieee 8 23 Soft32.limits.quiet_NaN = .nan ∧
    Soft32.limits.radix = 2 ∧ Soft32.limits.digits = 23 + 1 ∧
    ((10 : ℚ) ^ Soft32.limits.digits10 ≤ 2 ^ (Soft32.limits.digits - 1) ∧ (2 : ℚ) ^ (Soft32.limits.digits - 1) < 10 ^ (Soft32.limits.digits10 + 1)) ∧
    ((minNorm 8 ≤ (10 : ℚ) ^ Soft32.limits.min_exponent10) ∧ (10 : ℚ) ^ (Soft32.limits.min_exponent10 - 1) < minNorm 8) ∧
    ((10 : ℚ) ^ Soft32.limits.max_exponent10 ≤ maxFin 8 23 ∧ maxFin 8 23 < (10 : ℚ) ^ (Soft32.limits.max_exponent10 + 1)) := by
  refine ⟨by norm_num [ieee, minNorm, Soft32.limits], by norm_num [ieee, maxFin, Soft32.limits], by norm_num [ieee, maxFin, Soft32.limits],
    ⟨2 ^ (-149 : ℤ), by norm_num [ieee, Soft32.limits], by positivity, fun g z hg h0 => ?_⟩,
    ⟨2 ^ (-23 : ℤ), by norm_num [ieee, Soft32.limits], by positivity, ⟨0x3f800001, by norm_num [ieee]⟩, fun c z hg h1 => ?_⟩,
    by norm_num [ieee, Soft32.limits], by norm_num [ieee, Soft32.limits], rfl, rfl, by norm_num [Soft32.limits],
    by norm_num [Soft32.limits, minNorm], by norm_num [Soft32.limits, maxFin]⟩
  · obtain ⟨n, hn⟩ := num_multiple hg
    have e : (2 : ℚ) ^ ((2 : ℤ) - 2 ^ (8 - 1) - (23 : ℕ)) = 2 ^ (-149 : ℤ) := by norm_num
    rw [e] at hn
    have hp : (0 : ℚ) < 2 ^ (-149 : ℤ) := by positivity
    have hn1 : 1 ≤ n := by
      by_contra hc
      have : (n : ℚ) ≤ 0 := by exact_mod_cast (by omega : n ≤ 0)
      have := mul_nonpos_of_nonpos_of_nonneg this hp.le
      linarith
    have hn1' : (1 : ℚ) ≤ n := by exact_mod_cast hn1
    rw [hn]
    exact le_mul_of_one_le_left hp.le hn1'
  · obtain ⟨s, k, hs, hk, -, hz⟩ := ieee_num_gen hg
    have gk := g_nonneg (eb := 8) (fb := 23) k
    have hs1 : ¬ s = 1 := fun h => by rw [if_pos h] at hz; linarith
    rw [if_neg hs1, one_mul] at hz
    have g1 : g 8 23 0x3f800000 = 1 := by
      have h1 := ieee_mag (eb := 8) (fb := 23) (k := 0x3f800000) (by norm_num [top])
      rw [show ieee 8 23 0x3f800000 = .num 1 by norm_num [ieee]] at h1
      injection h1 with h1; exact h1.symm
    have g2 : g 8 23 0x3f800001 = 1 + 2 ^ (-23 : ℤ) := by
      have h1 := ieee_mag (eb := 8) (fb := 23) (k := 0x3f800001) (by norm_num [top])
      rw [show ieee 8 23 0x3f800001 = .num (1 + 2 ^ (-23 : ℤ)) by norm_num [ieee]] at h1
      injection h1 with h1; exact h1.symm
    rw [hz, ← g1] at h1
    have := (g_mono (eb := 8) (fb := 23)).lt_iff_lt.1 h1
    rw [hz, ← g2]
    exact g_mono.monotone this

example : ieee 8 23 Soft32.limits.epsilon = .num (2 ^ (-23 : ℤ)) := by norm_num [ieee, Soft32.limits]

/-- Not right: the standard wants of `min_exponent` that 2 to one less than it is the least normal power, which is -125, and of
`max_exponent` that 2 to one less than it is the greatest representable power, which is 128. The values -126 and 127 are the exponents
themselves. -/
theorem C107_limits_exponents_wrong :
    (2 : ℚ) ^ (Soft32.limits.min_exponent - 1) < minNorm 8 ∧ (2 : ℚ) ^ (-125 - 1 : ℤ) = minNorm 8 ∧
    (∃ g, ieee 8 23 g = .num (2 ^ Soft32.limits.max_exponent)) ∧
    (∃ g, ieee 8 23 g = .num (2 ^ (128 - 1 : ℤ))) ∧ ¬ ∃ g, ieee 8 23 g = .num (2 ^ (128 : ℤ)) := by
  refine ⟨by norm_num [Soft32.limits, minNorm], by norm_num [minNorm], ⟨0x7f000000, by norm_num [ieee, Soft32.limits]⟩,
    ⟨0x7f000000, by norm_num [ieee]⟩, ?_⟩
  rintro ⟨g, hg⟩
  have := ieee_le_maxFin (by norm_num) hg
  rw [abs_of_pos (by positivity)] at this
  norm_num [maxFin] at this

example : Soft32.limits.min_exponent = -126 ∧ Soft32.limits.max_exponent = 127 := ⟨rfl, rfl⟩

/-- The constructors with a `bool` keep the bits of the pattern, whatever number it stands for. -/
theorem C107_bits (x i : ℕ) :
    (Soft16.ofBits x).testBit i = (decide (i < 16) && x.testBit i) ∧ (Soft32.ofBits x).testBit i = (decide (i < 32) && x.testBit i) :=
  ⟨Nat.testBit_mod_two_pow x 16 i, Nat.testBit_mod_two_pow x 32 i⟩

/-- a signalling NaN stays one -/
example : Soft16.ofBits 0x7D01 = 0x7D01 ∧ Soft32.ofBits 0x7FA00001 = 0x7FA00001 := by decide

end Verif
