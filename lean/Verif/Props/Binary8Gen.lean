import Verif.Model.Binary8Gen
import Verif.Props.Binary8
import Verif.Props.AnyFloatSpecial

/-!
# C58: the arithmetic of `binary8tab`

include/binary8.hpp with the tables of src/binary8_gen.cpp.
-/

namespace Verif
open Fmt Binary8

variable {o : FloatOps}

theorem emu8 : EmuFor 5 2 8 23 := by constructor <;> omega

theorem notSub8 (v : ℕ) : NotSub 8 (ieee 5 2 v) := C57_notSub emu8 (by norm_num) v

theorem genFloat_eq (i : ℕ) : ∃ p, genFloat i = .ok p ∧ p < 2 ^ 32 ∧ ieee 8 23 p = ieee 5 2 i := C57_toNative emu8 (notSub8 i)

theorem genFloat_any (i : ℕ) : genFloat i = AnyFloat.toNative (.any 5 2) (.any 8 23) i := by
  unfold genFloat trait; rw [C51_traits.2.1]

theorem mk_range {r : ℕ} (hr : r < 2 ^ (5 + 2 + 1)) : -128 ≤ mk r ∧ mk r ≤ 127 ∧ (mk r % 256).toNat = r := by
  have : ∀ u : Fin 256, -128 ≤ mk u ∧ mk u ≤ 127 ∧ (mk u % 256).toNat = u := by decide +kernel
  exact this ⟨r, hr⟩

theorem genStore_eq {f r : ℕ} (h : AnyFloat.ofNative (.any 5 2) (.any 8 23) f = .ok r) (hr : r < 2 ^ (5 + 2 + 1)) :
    ∃ v, genStore f = .ok v ∧ -128 ≤ v ∧ v ≤ 127 ∧ (v % 256).toNat = r := by
  obtain ⟨h1, h2, h3⟩ := mk_range hr
  exact ⟨mk r, bind_ok _ h, h1, h2, h3⟩

theorem store_rounded {X : ℚ} {w : ℕ} (hw : IsRounded 8 23 X w) :
    ∃ v, genStore w = .ok v ∧ -128 ≤ v ∧ v ≤ 127 ∧ IsCutRounded 5 2 8 23 X (v % 256).toNat := by
  obtain ⟨r, h1, h2, h3⟩ := ofNative_rounded emu8 hw
  obtain ⟨v, h4, h5, h6, rfl⟩ := genStore_eq h1 h2
  exact ⟨v, h4, h5, h6, h3⟩

theorem big8 {x : ℚ} (h : |x| ≤ 2 ^ (100 : ℤ)) : |x| ≤ maxFin 8 23 := h.trans (maxFin_ge (by norm_num))

theorem abs8 {v : ℕ} {x : ℚ} (hx : ieee 5 2 v = .num x) : |x| ≤ 2 ^ (16 : ℤ) := by
  by_cases h0 : x = 0
  · rw [h0, abs_zero]; positivity
  · simpa using (ieee_bounds (by norm_num) hx h0).2.le

/-- **C58**: the conversion to `float` is exact for every pattern, including infinities and NaN. -/
theorem C58_toFloat (v : ℤ) : ∃ p, Binary8.toFloat v = .ok p ∧ p < 2 ^ 32 ∧ ieee 8 23 p = value v := genFloat_eq _

/-- **C58**: sums are rounded to `float`, then cut; so sums that are `float`s are just cut. -/
theorem C58_add (ho : o.Correct 8 23) {a b : ℤ} {x y : ℚ} (ha : value a = .num x) (hb : value b = .num y) :
    ∃ r, Binary8.add o a b = .ok r ∧ -128 ≤ r ∧ r ≤ 127 ∧ IsCutRounded 5 2 8 23 (x + y) (r % 256).toNat ∧
      ((∃ g, ieee 8 23 g = .num (x + y)) → IsCut 5 2 (x + y) (r % 256).toNat) := by
  obtain ⟨p, hp, -, hp'⟩ := genFloat_eq (uu a)
  obtain ⟨q, hq, -, hq'⟩ := genFloat_eq (uu b)
  have hm : |x + y| ≤ maxFin 8 23 := by
    refine big8 ((abs_add_le _ _).trans ((add_le_add (abs8 ha) (abs8 hb)).trans ?_))
    norm_num
  obtain ⟨r, h1, h2, h3, h4⟩ := store_rounded (ho.add (hp'.trans ha) (hq'.trans hb) hm)
  unfold Binary8.add genAdd
  rw [bind_ok _ hp, bind_ok _ hq]
  exact ⟨r, h1, h2, h3, h4, h4.exact⟩

/-- `1.25 + 6` is cut to 7 -/
example (ho : o.Correct 8 23) : ∃ r, Binary8.add o 0x3d 0x46 = .ok r ∧ IsCut 5 2 (5 / 4 + 6) (r % 256).toNat := by
  obtain ⟨r, h1, -, -, -, h5⟩ := C58_add ho (a := 0x3d) (b := 0x46) (x := 5 / 4) (y := 6) (by decide +kernel) (by decide +kernel)
  exact ⟨r, h1, h5 ⟨0x40e80000, by norm_num [ieee]⟩⟩

/-- **C58**: sums of numbers that differ by a factor of at most 2^20 are just cut. -/
theorem C58_add_near (ho : o.Correct 8 23) {a b : ℤ} {x y : ℚ} (ha : value a = .num x) (hb : value b = .num y)
    (hn : |x| ≤ 2 ^ 20 * |y|) (hn' : |y| ≤ 2 ^ 20 * |x|) :
    ∃ r, Binary8.add o a b = .ok r ∧ IsCut 5 2 (x + y) (r % 256).toNat := by
  obtain ⟨r, h1, -, -, -, h5⟩ := C58_add ho ha hb
  refine ⟨r, h1, h5 (add_native (k := 20) (by norm_num) (by norm_num) (by norm_num) ha hb hn hn' ?_)⟩
  refine big8 ((abs_add_le _ _).trans ((add_le_add (abs8 ha) (abs8 hb)).trans ?_))
  norm_num

example (ho : o.Correct 8 23) : ∃ r, Binary8.add o 0x3d (-0x3a) = .ok r ∧ IsCut 5 2 (5 / 4 + -6) (r % 256).toNat :=
  C58_add_near ho (by decide +kernel) (by decide +kernel) (by norm_num [abs_of_pos]) (by norm_num [abs_of_pos])

/-- **C58** does not hold for all sums: 57344 - 2^-16 is 57344 in `float` when rounding to nearest, and 57344 is returned; when
rounding towards zero it is the cut sum, 49152. -/
theorem C58_add_far : value 123 = .num 57344 ∧ value (-127) = .num (-1 / 65536) ∧ value 122 = .num 49152 ∧
    (o.add 0x47600000 0xb7800000 = 0x47600000 → Binary8.add o 123 (-127) = .ok 123) ∧
    (o.add 0x47600000 0xb7800000 = 0x475fffff → Binary8.add o 123 (-127) = .ok 122) := by
  refine ⟨by decide +kernel, by decide +kernel, by decide +kernel, fun h => ?_, fun h => ?_⟩ <;>
  · have h1 : genFloat (uu 123) = .ok 0x47600000 := by decide +kernel
    have h2 : genFloat (uu (-127)) = .ok 0xb7800000 := by decide +kernel
    unfold Binary8.add genAdd
    rw [bind_ok _ h1, bind_ok _ h2, h]
    decide +kernel

/-- **C58**: products are the exact product cut. -/
theorem C58_mul (ho : o.Correct 8 23) {a b : ℤ} {x y : ℚ} (ha : value a = .num x) (hb : value b = .num y) :
    ∃ r, Binary8.mul o a b = .ok r ∧ -128 ≤ r ∧ r ≤ 127 ∧ IsCut 5 2 (x * y) (r % 256).toNat := by
  obtain ⟨p, hp, -, hp'⟩ := genFloat_eq (uu a)
  obtain ⟨q, hq, -, hq'⟩ := genFloat_eq (uu b)
  obtain ⟨r, h1, h2, h3⟩ := C57_mul_small emu8 ho (by norm_num) (by norm_num) ha hb
  have h1' : AnyFloat.ofNative (.any 5 2) (.any 8 23) (o.mul p q) = .ok r := by
    rw [genFloat_any] at hp hq
    unfold AnyFloat.mul at h1
    change (AnyFloat.toNative (.any 5 2) (.any 8 23) (uu a) >>= fun x => AnyFloat.toNative (.any 5 2) (.any 8 23) (uu b) >>= fun y =>
      AnyFloat.ofNative (.any 5 2) (.any 8 23) (o.mul x y)) = .ok r at h1
    rwa [bind_ok _ hp, bind_ok _ hq] at h1
  obtain ⟨v, h4, h5, h6, rfl⟩ := genStore_eq h1' h2
  unfold Binary8.mul genMul
  rw [bind_ok _ hp, bind_ok _ hq]
  exact ⟨v, h4, h5, h6, h3⟩

/-- `1.25 * 6` is cut to 7 -/
example (ho : o.Correct 8 23) : ∃ r, Binary8.mul o 0x3d 0x46 = .ok r ∧ -128 ≤ r ∧ r ≤ 127 ∧ IsCut 5 2 (5 / 4 * 6) (r % 256).toNat :=
  C58_mul ho (by decide +kernel) (by decide +kernel)

/-- **C58**: so are squares. -/
theorem C58_square (ho : o.Correct 8 23) {a : ℤ} {x : ℚ} (ha : value a = .num x) :
    ∃ r, Binary8.square o a = .ok r ∧ -128 ≤ r ∧ r ≤ 127 ∧ IsCut 5 2 (x * x) (r % 256).toNat := by
  obtain ⟨p, hp, -, hp'⟩ := genFloat_eq (uu a)
  obtain ⟨r, h1, h2⟩ := C58_mul ho ha ha
  refine ⟨r, ?_, h2⟩
  unfold Binary8.mul genMul at h1
  rw [bind_ok _ hp, bind_ok _ hp] at h1
  unfold Binary8.square genSquare
  rw [bind_ok _ hp]; exact h1

example (ho : o.Correct 8 23) : ∃ r, Binary8.square o (-0x3a) = .ok r ∧ -128 ≤ r ∧ r ≤ 127 ∧ IsCut 5 2 (-6 * -6) (r % 256).toNat :=
  C58_square ho (by decide +kernel)

/-- **C58**: quotients by nonzero numbers are the exact quotient cut. -/
theorem C58_div (ho : o.Correct 8 23) {a b : ℤ} {x y : ℚ} (ha : value a = .num x) (hb : value b = .num y) (hy : y ≠ 0) :
    ∃ r, Binary8.div o a b = .ok r ∧ -128 ≤ r ∧ r ≤ 127 ∧ IsCut 5 2 (x / y) (r % 256).toNat := by
  obtain ⟨p, hp, -, hp'⟩ := genFloat_eq (uu a)
  obtain ⟨q, hq, -, hq'⟩ := genFloat_eq (uu b)
  obtain ⟨r, h1, h2, h3⟩ := C57_div_small emu8 ho (by norm_num) (by norm_num) ha hb hy
  have h1' : AnyFloat.ofNative (.any 5 2) (.any 8 23) (o.div p q) = .ok r := by
    rw [genFloat_any] at hp hq
    unfold AnyFloat.div at h1
    change (AnyFloat.toNative (.any 5 2) (.any 8 23) (uu a) >>= fun x => AnyFloat.toNative (.any 5 2) (.any 8 23) (uu b) >>= fun y =>
      AnyFloat.ofNative (.any 5 2) (.any 8 23) (o.div x y)) = .ok r at h1
    rwa [bind_ok _ hp, bind_ok _ hq] at h1
  obtain ⟨v, h4, h5, h6, rfl⟩ := genStore_eq h1' h2
  unfold Binary8.div genDiv
  rw [bind_ok _ hp, bind_ok _ hq]
  exact ⟨v, h4, h5, h6, h3⟩

/-- `1.25 / -6` -/
example (ho : o.Correct 8 23) : ∃ r, Binary8.div o 0x3d (-0x3a) = .ok r ∧ -128 ≤ r ∧ r ≤ 127 ∧ IsCut 5 2 (5 / 4 / -6) (r % 256).toNat :=
  C58_div ho (by decide +kernel) (by decide +kernel) (by norm_num)

/-- **C58**: so are reciprocals. -/
theorem C58_inv (ho : o.Correct 8 23) {a : ℤ} {x : ℚ} (ha : value a = .num x) (hx : x ≠ 0) :
    ∃ r, Binary8.inv o a = .ok r ∧ -128 ≤ r ∧ r ≤ 127 ∧ IsCut 5 2 (1 / x) (r % 256).toNat := by
  have nx := notSub8 (uu a)
  rw [show ieee 5 2 (uu a) = .num x from ha] at nx
  have hm : |1 / x| ≤ maxFin 8 23 := by
    apply big8
    have h1 := (ieee_bounds (by norm_num) ha hx).1
    have h2 : (0 : ℚ) < |x| := abs_pos.mpr hx
    rw [abs_div, abs_one, div_le_iff₀ h2]
    norm_num at h1
    norm_num
    linarith
  obtain ⟨r, h1, h2, -, h3⟩ := C57_inv emu8 ho ha hx nx hm
  obtain ⟨h4, h5, h6⟩ := mk_range h2
  refine ⟨mk r, ?_, h4, h5, ?_⟩
  · unfold Binary8.inv genInv; exact bind_ok _ h1
  · rw [h6]; exact h3 (by norm_num) (Or.inr (by norm_num))

example (ho : o.Correct 8 23) : ∃ r, Binary8.inv o 0x46 = .ok r ∧ -128 ≤ r ∧ r ≤ 127 ∧ IsCut 5 2 (1 / 6) (r % 256).toNat :=
  C58_inv ho (by decide +kernel) (by norm_num)

/-- **C58**: `half` is the exact half cut. -/
theorem C58_half (ho : o.Correct 8 23) {a : ℤ} {x : ℚ} (ha : value a = .num x) :
    ∃ r, Binary8.half o a = .ok r ∧ -128 ≤ r ∧ r ≤ 127 ∧ IsCut 5 2 (x / 2) (r % 256).toNat := by
  obtain ⟨p, hp, -, hp'⟩ := genFloat_eq (uu a)
  obtain ⟨-, h2n, _⟩ := C51_constants (eb := 8) (fb := 23) (dn := true) (by norm_num) (by norm_num)
  have hm : |x / 2| ≤ maxFin 8 23 := by
    apply big8
    have := abs8 ha
    rw [abs_div]; norm_num at this ⊢; linarith
  obtain ⟨r, h1, h2, h3, h4⟩ := store_rounded (ho.div (hp'.trans ha) h2n (by norm_num) hm)
  refine ⟨r, ?_, h2, h3, h4.exact ?_⟩
  · unfold Binary8.half genHalf
    rw [bind_ok _ hp]; exact h1
  · by_cases h0 : x = 0
    · exact ⟨0, by rw [h0]; norm_num [ieee]⟩
    · have hh : ieee 5 2 0x38 = .num (1 / 2) := by norm_num [ieee]
      have hx := (ieee_bounds (by norm_num) ha h0).1
      have e : x / 2 = x * (1 / 2) := by ring
      rw [e] at hm ⊢
      refine mul_native (by norm_num) (by norm_num) ha hh ?_ hm
      rw [abs_mul]
      unfold minNorm
      norm_num at hx ⊢
      linarith

example : value 0x3d = .num (5 / 4) ∧ value 0x46 = .num 6 ∧ value (-0x3a) = .num (-6) ∧ value (-0x3c) = .num (-4) := by
  decide +kernel

/-! ## special values -/

theorem store_inf {w : ℕ} {s : Bool} (hw : ieee 8 23 w = .inf s) : ∃ v, genStore w = .ok v ∧ value v = .inf s := by
  obtain ⟨r, h1, h2, h3⟩ := C57_ofNative_inf emu8 hw
  obtain ⟨v, h4, -, -, rfl⟩ := genStore_eq h1 h2
  exact ⟨v, h4, h3⟩

theorem store_nan (hs : o.Specials 8 23) {p q w : ℕ} (hw : w ∈ [o.add p q, o.mul p q, o.div p q]) (hn : ieee 8 23 w = .nan) :
    ∃ v, genStore w = .ok v ∧ value v = .nan := by
  obtain ⟨r, h1, h2, h3⟩ := quiet_nan emu8 hs hw hn
  obtain ⟨v, h4, -, -, rfl⟩ := genStore_eq h1 h2
  exact ⟨v, h4, h3⟩

/-- **C58**: NaN operands give NaN. -/
theorem C58_nan (ho : o.Correct 8 23) (hs : o.Specials 8 23) {a b : ℤ} (hn : value a = .nan ∨ value b = .nan) :
    (∃ r, Binary8.add o a b = .ok r ∧ value r = .nan) ∧ (∃ r, Binary8.mul o a b = .ok r ∧ value r = .nan) ∧
    (∃ r, Binary8.div o a b = .ok r ∧ value r = .nan) := by
  obtain ⟨p, hp, -, hp'⟩ := genFloat_eq (uu a)
  obtain ⟨q, hq, -, hq'⟩ := genFloat_eq (uu b)
  obtain ⟨n1, n2, n3⟩ := ho.nan (a := p) (b := q) (hn.imp hp'.trans hq'.trans)
  refine ⟨?_, ?_, ?_⟩
  · unfold Binary8.add genAdd
    rw [bind_ok _ hp, bind_ok _ hq]; exact store_nan hs (p := p) (q := q) (by simp) n1
  · unfold Binary8.mul genMul
    rw [bind_ok _ hp, bind_ok _ hq]; exact store_nan hs (p := p) (q := q) (by simp) n2
  · unfold Binary8.div genDiv
    rw [bind_ok _ hp, bind_ok _ hq]; exact store_nan hs (p := p) (q := q) (by simp) n3

example (ho : o.Correct 8 23) (hs : o.Specials 8 23) : ∃ r, Binary8.mul o 0x46 0x7e = .ok r ∧ value r = .nan :=
  (C58_nan ho hs (Or.inr (by decide +kernel))).2.1

/-- **C58**: infinities: ∞ + number, ∞ · nonzero, ∞ / nonzero, number / ∞ … -/
theorem C58_inf (hs : o.Specials 8 23) {a b : ℤ} {s : Bool} {y : ℚ} (ha : value a = .inf s) (hb : value b = .num y) :
    (∃ r, Binary8.add o a b = .ok r ∧ value r = .inf s) ∧ (∃ r, Binary8.add o b a = .ok r ∧ value r = .inf s) ∧
    (y ≠ 0 → ∃ r, Binary8.mul o a b = .ok r ∧ value r = .inf (s ^^ decide (y < 0))) ∧
    (y ≠ 0 → ∃ r, Binary8.mul o b a = .ok r ∧ value r = .inf (s ^^ decide (y < 0))) ∧
    (y ≠ 0 → ∃ r, Binary8.div o a b = .ok r ∧ value r = .inf (s ^^ decide (y < 0))) ∧
    (∃ r, Binary8.div o b a = .ok r ∧ value r = .num 0) := by
  obtain ⟨p, hp, -, hp'⟩ := genFloat_eq (uu a)
  obtain ⟨q, hq, -, hq'⟩ := genFloat_eq (uu b)
  replace hp' := hp'.trans ha
  replace hq' := hq'.trans hb
  unfold Binary8.add genAdd Binary8.mul genMul Binary8.div genDiv
  simp only [bind_ok _ hp, bind_ok _ hq]
  refine ⟨store_inf (hs.add_inf hp' (Or.inl ⟨y, hq'⟩)).1, store_inf (hs.add_inf hp' (Or.inl ⟨y, hq'⟩)).2,
    fun h => store_inf (hs.mul_inf hp' hq' h).1, fun h => store_inf (hs.mul_inf hp' hq' h).2, fun h => store_inf (hs.inf_div hp' hq' h), ?_⟩
  have hz := hs.div_inf hq' hp'
  obtain ⟨r, h1, h2, ⟨z, h3, h4, -⟩, -⟩ := C57_ofNative emu8 hz
  obtain ⟨v, h5, -, -, rfl⟩ := genStore_eq h1 h2
  exact ⟨v, h5, by rw [show value v = .num z from h3, h4 (by simp [minNorm_pos])]⟩

/-- `-infinity / -6` -/
example (hs : o.Specials 8 23) : ∃ r, Binary8.div o (-4) (-0x3a) = .ok r ∧ value r = .inf false := by
  obtain ⟨r, h1, h2⟩ := (C58_inf hs (a := -4) (b := -0x3a) (s := true) (y := -6) (by decide +kernel) (by decide +kernel)).2.2.2.2.1 (by norm_num)
  exact ⟨r, h1, by rw [h2]; norm_num⟩

/-- … two infinities, 0 · ∞ and divisions by +0. -/
theorem C58_undefined (hs : o.Specials 8 23) {a b : ℤ} {s : Bool} (ha : value a = .inf s) :
    (value b = .inf (!s) → ∃ r, Binary8.add o a b = .ok r ∧ value r = .nan) ∧
    (∀ t, value b = .inf t → (∃ r, Binary8.mul o a b = .ok r ∧ value r = .inf (s ^^ t)) ∧ ∃ r, Binary8.div o a b = .ok r ∧ value r = .nan) ∧
    (value b = .num 0 → (∃ r, Binary8.mul o a b = .ok r ∧ value r = .nan) ∧ ∃ r, Binary8.mul o b a = .ok r ∧ value r = .nan) := by
  obtain ⟨p, hp, -, hp'⟩ := genFloat_eq (uu a)
  obtain ⟨q, hq, -, hq'⟩ := genFloat_eq (uu b)
  replace hp' := hp'.trans ha
  unfold Binary8.add genAdd Binary8.mul genMul Binary8.div genDiv
  simp only [bind_ok _ hp, bind_ok _ hq]
  refine ⟨fun hb => ?_, fun t hb => ⟨?_, ?_⟩, fun hb => ⟨?_, ?_⟩⟩ <;> replace hq' := hq'.trans hb
  · exact store_nan hs (p := p) (q := q) (w := o.add p q) (by simp) (hs.add_inf_inf hp' hq')
  · exact store_inf (hs.mul_inf_inf hp' hq')
  · exact store_nan hs (p := p) (q := q) (w := o.div p q) (by simp) (hs.inf_div_inf hp' hq')
  · exact store_nan hs (p := p) (q := q) (w := o.mul p q) (by simp) (hs.mul_inf_zero hp' hq').1
  · exact store_nan hs (p := q) (q := p) (w := o.mul q p) (by simp) (hs.mul_inf_zero hp' hq').2

/-- `infinity + -infinity`, `-infinity * 0` -/
example (hs : o.Specials 8 23) : (∃ r, Binary8.add o 0x7c (-4) = .ok r ∧ value r = .nan) ∧ ∃ r, Binary8.mul o (-4) 0 = .ok r ∧ value r = .nan :=
  ⟨(C58_undefined hs (s := false) (by decide +kernel)).1 (by decide +kernel),
    ((C58_undefined hs (s := true) (by decide +kernel)).2.2 (by decide +kernel)).1⟩

/-- **C58**: divisions by the zeros; the sign of -0 is lost. -/
theorem C58_div_zero (ho : o.Correct 8 23) (hs : o.Specials 8 23) {a b : ℤ} {x : ℚ} (ha : value a = .num x) (hb : value b = .num 0) :
    (x ≠ 0 → ∃ r, Binary8.div o a b = .ok r ∧ value r = .inf (decide (x < 0))) ∧
    (x = 0 → ∃ r, Binary8.div o a b = .ok r ∧ value r = .nan) := by
  obtain ⟨p, hp, -, hp'⟩ := genFloat_eq (uu a)
  replace hp' := hp'.trans ha
  have hq : genFloat (uu b) = .ok 0 := C57_toNative_zero emu8 hb (by simp [minNorm_pos])
  unfold Binary8.div genDiv
  simp only [bind_ok _ hp, bind_ok _ hq]
  refine ⟨fun h => store_inf (hs.div_pzero hp' h), fun h => ?_⟩
  subst h
  exact store_nan hs (p := p) (q := 0) (w := o.div p 0) (by simp) (ho.zero_div_zero hp' (by norm_num [ieee]))

example : value 0x7c = .inf false ∧ value (-4) = .inf true ∧ value 0x7e = .nan ∧ value (-128) = .num 0 := by
  decide +kernel

/-! ## wrong results -/

/-- **C58** does not hold for subnormal numbers: adding zero or multiplying by one gives zero. -/
theorem C58_subnormal_wrong (ho : o.Correct 8 23) {a : ℤ} {x : ℚ} (ha : value a = .num x) (hx : |x| < minNorm 5) :
    (∃ r, Binary8.add o a 0 = .ok r ∧ value r = .num 0) ∧ (∃ r, Binary8.mul o a 60 = .ok r ∧ value r = .num 0) ∧ value 60 = .num 1 := by
  have h1 : value 60 = .num 1 := by decide +kernel
  have h0 : value 0 = .num 0 := by decide +kernel
  refine ⟨?_, ?_, h1⟩
  · obtain ⟨p, -, -, hp'⟩ := genFloat_eq (uu a)
    obtain ⟨r, h2, -, -, -, h3⟩ := C58_add ho ha h0
    obtain ⟨y, hy, h4, -⟩ := h3 ⟨p, by rw [add_zero]; exact hp'.trans ha⟩
    rw [add_zero] at h4
    have hv : value r = .num y := hy
    exact ⟨r, h2, by rw [hv, h4 hx]⟩
  · obtain ⟨r, h2, -, -, y, hy, h4, -⟩ := C58_mul ho ha h1
    rw [mul_one] at h4
    have hv : value r = .num y := hy
    exact ⟨r, h2, by rw [hv, h4 hx]⟩

example : value 3 = .num (3 / 65536) ∧ |(3 / 65536 : ℚ)| < minNorm 5 := by
  refine ⟨by decide +kernel, ?_⟩
  norm_num [minNorm, abs_of_pos]

/-- **C58**, subtraction: right for the subtrahends that negation (C47) treats right, the zeros and ±2. -/
theorem C58_sub_partial (ho : o.Correct 8 23) {a b : ℤ} {x y : ℚ} (ha : value a = .num x) (hb : value b = .num y)
    (hb' : b = 0 ∨ b = -128 ∨ b = 64 ∨ b = -64) :
    ∃ r, Binary8.sub o a b = .ok r ∧ -128 ≤ r ∧ r ≤ 127 ∧ IsCutRounded 5 2 8 23 (x - y) (r % 256).toNat := by
  have hn := (C47_neg_iff (v := b) (by omega) (by omega)).mpr hb'
  rw [hb] at hn
  obtain ⟨r, h1, h2, h3, h4, -⟩ := C58_add ho ha hn
  exact ⟨r, h1, h2, h3, by rw [sub_eq_add_neg]; exact h4⟩

/-- `6 - 2` -/
example (ho : o.Correct 8 23) : ∃ r, Binary8.sub o 0x46 64 = .ok r ∧ -128 ≤ r ∧ r ≤ 127 ∧ IsCutRounded 5 2 8 23 (6 - 2) (r % 256).toNat :=
  C58_sub_partial ho (by decide +kernel) (by decide +kernel) (by norm_num)

/-- **C58** does not hold for subtraction: `1 - 1` is `-3`, and `numeric_limits<binary8tab>::epsilon()`, the difference of
`5/4` and `1`, is `-5/2`. -/
theorem C58_sub_wrong (ho : o.Correct 8 23) : value 60 = .num 1 ∧ (∃ r, Binary8.sub o 60 60 = .ok r ∧ value r = .num (-3)) ∧
    ∃ r, Binary8.epsilon o = .ok r ∧ value r = .num (-5 / 2) := by
  have h1 : value 60 = .num 1 := by decide +kernel
  have h2 : value (-60) = .num (-4) := by decide +kernel
  have h3 : value 61 = .num (5 / 4) := by decide +kernel
  refine ⟨h1, ?_, ?_⟩
  · obtain ⟨r, h4, h5⟩ := C58_add_near ho h1 h2 (by norm_num) (by norm_num)
    rw [show (1 : ℚ) + -4 = -3 by norm_num] at h5
    have e : Binary8.sub o 60 60 = Binary8.add o 60 (-60) := by
      unfold Binary8.sub; rw [show Binary8.neg 60 = -60 by decide +kernel]
    exact ⟨r, e.trans h4, h5.exact (g := 0xc2) (by decide +kernel) (Or.inr (by norm_num [minNorm]))⟩
  · obtain ⟨r, h4, h5⟩ := C58_add_near ho h3 h2 (by norm_num) (by norm_num)
    have e : Binary8.epsilon o = Binary8.add o 61 (-60) := by
      unfold Binary8.epsilon Binary8.sub
      rw [show Binary8.neg Binary8.one = -60 by decide +kernel, show Binary8.afterone = 61 by decide +kernel]
    refine ⟨r, e.trans h4, ?_⟩
    have hc : IsCut 5 2 (5 / 4 + -4) 0xc1 := by
      refine ⟨-5 / 2, by decide +kernel, ?_, fun _ => ⟨by norm_num, by norm_num, ?_⟩⟩
      · norm_num [minNorm]
      · intro g z hg hz
        have key : ∀ u : Fin 256, (match ieee 5 2 u with | .num z => decide (|z| ≤ 11 / 4 → |z| ≤ 5 / 2) | _ => true) = true := by
          decide +kernel
        have := key ⟨g % 2 ^ (5 + 2 + 1), Nat.mod_lt _ (by norm_num)⟩
        simp only [ieee_mod, hg, decide_eq_true_eq] at this
        rw [show |(5 / 4 + -4 : ℚ)| = 11 / 4 by norm_num [abs_of_neg]] at hz
        rw [show |(-5 / 2 : ℚ)| = 5 / 2 by norm_num [abs_of_neg]]
        exact this hz
    exact (h5.unique_num hc).trans (by decide +kernel)

end Verif
