import Verif.Props.Fixed
import Verif.Props.Float
import Verif.Model.SimdPosit8
import Verif.Props.Exp2
import Verif.Lemmas.PositF

/-! # 32 tabulated posits in a vector register (C61) -/

namespace Verif
open Fmt
namespace SimdPosit8

/-- every lane is an 8-bit pattern -/
def Lanes (v : Vec) : Prop := ∀ i, P8.fmt.IsCanonical (v i)

theorem uu_eq (x : ℤ) : wrapU 8 x = Posit8.uu x := by unfold wrapU Posit8.uu; norm_num

theorem wrap8 {x : ℤ} (h : -128 ≤ x ∧ x ≤ 127) : wrapS 8 x = x := wrapS_of_inS (by norm_num) (by unfold InS; norm_num; omega)

theorem range8 (x : ℤ) : -128 ≤ wrapS 8 x ∧ wrapS 8 x ≤ 127 := by
  have h1 := Int.le_bmod (x := x) (m := 256) (by norm_num)
  have h2 := Int.bmod_lt (x := x) (m := 256) (by norm_num)
  have e : wrapS 8 x = x.bmod 256 := rfl
  rw [e]; constructor <;> omega

theorem lookup1_lanes (a : Vec) (t : List ℕ) : Lanes (lookup1 a t) := fun _ => Posit8.canon_iff.mpr (range8 _)
theorem lookup2_lanes (a b : Vec) (t : List ℕ) : Lanes (lookup2 a b t) := fun _ => Posit8.canon_iff.mpr (range8 _)

/-- **C61**: each lane of a sum, product, quotient, inverse, square or power is the `posit8` operation on that lane of the
operands; the results are patterns again. -/
theorem C61_lanes (a b : Vec) (i : Fin 32) :
    add a b i = Posit8.add (a i) (b i) ∧ mul a b i = Posit8.mul (a i) (b i) ∧ div a b i = Posit8.div (a i) (b i) ∧
    inv a i = Posit8.inv (a i) ∧ square a i = Posit8.square (a i) ∧ exp2 a i = Posit8.exp2 (a i) ∧
    toFloats a i = Posit8.toFloat (a i) := by
  unfold add mul div inv square exp2 toFloats lookup1 lookup2 Posit8.add Posit8.mul Posit8.div Posit8.inv Posit8.square Posit8.exp2
    Posit8.toFloat Posit8.at1 Posit8.at2
  simp only [uu_eq, and_self]

theorem C61_closed (a b : Vec) : Lanes (add a b) ∧ Lanes (mul a b) ∧ Lanes (div a b) ∧ Lanes (inv a) ∧ Lanes (square a) ∧ Lanes (exp2 a) := by
  unfold add mul div inv square exp2
  exact ⟨lookup2_lanes _ _ _, lookup2_lanes _ _ _, lookup2_lanes _ _ _, lookup1_lanes _ _, lookup1_lanes _ _, lookup1_lanes _ _⟩

/-- **C61**: sums, products and quotients of real lanes are exact results rounded toward zero; NaN lanes give NaN. -/
theorem C61_arith {a b : Vec} (ha : Lanes a) (hb : Lanes b) (i : Fin 32) :
    (a i = -128 ∨ b i = -128 → add a b i = -128 ∧ mul a b i = -128 ∧ div a b i = -128) ∧
    (a i ≠ -128 → b i ≠ -128 → a i ≠ -b i → P8.fmt.IsTrunc (P8.fmt.val (a i) + P8.fmt.val (b i)) (add a b i)) ∧
    (a i ≠ -128 → b i ≠ -128 → a i = -b i → add a b i = 0) ∧
    (a i ≠ -128 → b i ≠ -128 → a i ≠ 0 → b i ≠ 0 →
      P8.fmt.IsTrunc (P8.fmt.val (a i) * P8.fmt.val (b i)) (mul a b i) ∧
      P8.fmt.IsTrunc (P8.fmt.val (a i) / P8.fmt.val (b i)) (div a b i)) ∧
    (a i ≠ -128 → b i ≠ -128 → a i = 0 ∨ b i = 0 → mul a b i = 0) ∧
    (b i ≠ -128 → b i ≠ 0 → a i = 0 → div a b i = 0) ∧ (b i = 0 → div a b i = -128) := by
  obtain ⟨h1, h2, h3, -⟩ := C61_lanes a b i
  rw [h1, h2, h3]
  obtain ⟨s1, s2, s3⟩ := C38_add (ha i) (hb i)
  obtain ⟨m1, m2, m3⟩ := C38_mul (ha i) (hb i)
  obtain ⟨d1, d2, d3⟩ := C38_div (ha i) (hb i)
  exact ⟨fun h => ⟨s1 h, m1 h, d1 (h.elim Or.inl fun h => Or.inr (Or.inl h))⟩, s3, s2, fun h1 h2 h3 h4 => ⟨m3 h1 h2 h3 h4, d3 h1 h2 h3 h4⟩, m2, d2,
    fun h => d1 (Or.inr (Or.inr h))⟩

/-- `-3/2 * 3`, cut; NaN; `0 / 0` -/
example : ∃ a b : Vec, Lanes a ∧ Lanes b ∧ P8.fmt.val (a 0) = -3 / 2 ∧ P8.fmt.val (b 0) = 3 ∧ mul a b 0 = -113 ∧ P8.fmt.val (-113) = -9 / 2 ∧
    add a b 1 = -128 ∧ a 2 = 0 ∧ b 2 = 0 ∧ div a b 2 = -128 := by
  refine ⟨fun i => if i = 0 then -80 else if i = 1 then -128 else 0, fun i => if i = 0 then 104 else 0, ?_, ?_, ?_⟩
  · intro i; refine Posit8.canon_iff.mpr ?_; dsimp only; split_ifs <;> norm_num
  · intro i; refine Posit8.canon_iff.mpr ?_; dsimp only; split_ifs <;> norm_num
  · decide +kernel

/-- **C61**: inverses, squares, and conversion to `float` of each lane. -/
theorem C61_unary_partial {a : Vec} (ha : Lanes a) (i : Fin 32) :
    (a i ≠ -128 → a i ≠ 0 → P8.fmt.IsTrunc (1 / P8.fmt.val (a i)) (inv a i) ∧
      P8.fmt.IsTrunc (P8.fmt.val (a i) * P8.fmt.val (a i)) (square a i)) ∧
    (a i ≠ -128 → ieee 8 23 (toFloats a i) = .num (P8.fmt.val (a i))) ∧
    (a i = -128 → inv a i = -128 ∧ square a i = -128 ∧ exp2 a i = -128 ∧ ieee 8 23 (toFloats a i) = .nan) := by
  obtain ⟨-, -, -, h4, h5, h6, h7⟩ := C61_lanes a a i
  rw [h4, h5, h6, h7]
  obtain ⟨i1, i2⟩ := C38_inv_partial (ha i)
  obtain ⟨q1, -, q3⟩ := C38_half_square (ha i)
  obtain ⟨f1, f2⟩ := C38_toFloat (ha i)
  exact ⟨fun h1 h2 => ⟨i2 h1 h2, (q3 h1 h2).2⟩, f2, fun h => ⟨i1 h, (q1 h).2, (C38_exp2 (ha i)).1 h, f1 h⟩⟩

example : Lanes (fun _ => -104) ∧ P8.fmt.val (-104) = -3 ∧ inv (fun _ => -104) 7 = -21 ∧ P8.fmt.val (-21) = -21 / 64 ∧
    square (fun _ => -104) 7 = 120 ∧ toFloats (fun _ => -104) 7 = 0xc0400000 :=
  ⟨fun i => Posit8.canon_iff.mpr (by norm_num), by decide +kernel⟩

/-- **C61**, negation: wrong, a lane becomes its absolute value, so that `a - b` is `a + |b|`; right for lanes that are not
positive. -/
theorem C61_neg_wrong {a b : Vec} (ha : Lanes a) (hb : Lanes b) (i : Fin 32) :
    (a i ≠ -128 → P8.fmt.val (neg a i) = |P8.fmt.val (a i)|) ∧ (a i = -128 → neg a i = -128) ∧
    (b i ≠ -128 → a i ≠ -128 → a i ≠ -|b i| → P8.fmt.IsTrunc (P8.fmt.val (a i) + |P8.fmt.val (b i)|) (sub a b i)) := by
  have key : ∀ v : ℤ, -127 ≤ v → v ≤ 127 → P8.fmt.val (if v < 0 then wrapS 8 (-v) else if v = 0 then 0 else v) = |P8.fmt.val v| ∧
      (if v < 0 then wrapS 8 (-v) else if v = 0 then 0 else v) = |v| := by
    intro v h1 h2
    have hr := Posit8.real_iff.mpr ⟨h1, h2⟩
    have h := (C39_order_partial hr hr).2.2.2.2.1
    have e : (if v < 0 then wrapS 8 (-v) else if v = 0 then 0 else v) = |v| := by
      split_ifs with h3 h4
      · rw [abs_of_neg h3]; exact wrap8 (by omega)
      · rw [h4]; rfl
      · rw [abs_of_nonneg (by omega)]
    refine ⟨?_, e⟩
    rw [e, ← h]
    congr 1
    unfold Posit8.abs
    split_ifs with h3
    · rw [abs_of_neg h3]; exact (wrap8 (by omega)).symm
    · rw [abs_of_nonneg (by omega)]; exact (wrap8 (by omega)).symm
  have ha' := Posit8.canon_iff.mp (ha i)
  have hb' := Posit8.canon_iff.mp (hb i)
  refine ⟨fun h => (key _ (by omega) ha'.2).1, fun h => ?_, fun h1 h2 h3 => ?_⟩
  · unfold neg sign; rw [h]; decide
  · obtain ⟨k1, k2⟩ := key _ (by omega) hb'.2
    have hn : neg b i = |b i| := k2
    have hv : P8.fmt.val |b i| = |P8.fmt.val (b i)| := by rw [← k1, k2]
    have hab : |b i| ≤ 127 := abs_le.mpr (by omega)
    have h0 := abs_nonneg (b i)
    unfold sub
    rw [(C61_lanes a (neg b) i).1, hn, ← hv]
    exact (C38_add (ha i) (Posit8.canon_iff.mpr ⟨by omega, hab⟩)).2.2 h2 (by omega) (by omega)

/-- `1 - 1` is 2, `-(-2)` is 2 and `-2` is 2 -/
example : Lanes (fun _ => 64) ∧ sub (fun _ => 64) (fun _ => 64) 3 = 96 ∧ P8.fmt.val 96 = 2 ∧ neg (fun _ => -96) 3 = 96 ∧ neg (fun _ => 96) 3 = 96 :=
  ⟨fun i => Posit8.canon_iff.mpr (by norm_num), by decide +kernel⟩

/-- **C61**, halves and doubles: wrong, the constant is the pattern of 2 for `es = 2` (the header's), which is 5/4 in the tables,
made for `es = 0`. -/
theorem C61_scale_wrong {a : Vec} (ha : Lanes a) : ∃ h t, half a = .ok h ∧ twice a = .ok t ∧ ∀ i, a i ≠ -128 → a i ≠ 0 →
    P8.fmt.IsTrunc (P8.fmt.val (a i) / (5 / 4)) (h i) ∧ P8.fmt.IsTrunc (P8.fmt.val (a i) * (5 / 4)) (t i) := by
  have h2 : Posit.ofInt cfg 2 = .ok 72 := by decide +kernel
  have ho : ofInt 2 = .ok (set1 72) := by unfold ofInt; rw [h2]; rfl
  have hl : Lanes (set1 72) := fun i => Posit8.canon_iff.mpr (range8 _)
  have hs : ∀ i, set1 72 i = 72 := fun i => wrap8 (by norm_num)
  have hv : P8.fmt.val 72 = 5 / 4 := by decide +kernel
  refine ⟨div a (set1 72), mul a (set1 72), by unfold half; rw [bind_ok _ ho]; rfl, by unfold twice; rw [bind_ok _ ho]; rfl, ?_⟩
  intro i h1 h0
  have h := (C61_arith ha hl i).2.2.2.1 h1 (by rw [hs]; norm_num) h0 (by rw [hs]; norm_num)
  rw [hs, hv] at h
  exact ⟨h.2, h.1⟩

/-- half of 5 is 4 -/
example : Lanes (fun _ => 114) ∧ P8.fmt.val 114 = 5 ∧ ∃ h, half (fun _ => 114) = .ok h ∧ h 9 = 112 ∧ P8.fmt.val 112 = 4 := by
  obtain ⟨h, t, h1, -, h3⟩ := C61_scale_wrong (a := fun _ => 114) (fun i => Posit8.canon_iff.mpr (by norm_num))
  exact ⟨fun i => Posit8.canon_iff.mpr (by norm_num), by decide +kernel, h, h1, by
    have h5 : half (fun _ => 114) = .ok (fun _ => 112) := by decide +kernel
    rw [h1] at h5; cases h5; rfl, by decide +kernel⟩

/-- **C61**, `gauss2`: wrong, a value of the bell curve never exceeds 1, but every lane that is not NaN is at least 1. -/
theorem C61_gauss2_wrong (x mu sigma : Vec) : ∃ r, gauss2 x mu sigma = .ok r ∧
    ∀ i, r i = -128 ∨ (P8.fmt.IsReal (r i) ∧ 1 ≤ P8.fmt.val (r i)) := by
  have hq := (C61_closed (div (sub x mu) sigma) x).2.2.2.2.1
  have h2 : Posit.ofInt cfg 2 = .ok 72 := by decide +kernel
  have ho : ofInt 2 = .ok (set1 72) := by unfold ofInt; rw [h2]; rfl
  have hh : half (square (div (sub x mu) sigma)) = .ok (div (square (div (sub x mu) sigma)) (set1 72)) := by
    unfold half; rw [bind_ok _ ho]; rfl
  have hd := (C61_closed (square (div (sub x mu) sigma)) (set1 72)).2.2.1
  generalize div (square (div (sub x mu) sigma)) (set1 72) = d at hh hd
  refine ⟨exp2 (neg d), by unfold gauss2; rw [bind_ok _ hh]; rfl, fun i => ?_⟩
  have hdi := Posit8.canon_iff.mp (hd i)
  obtain ⟨n1, n2, -⟩ := C61_neg_wrong hd hd i
  rw [(C61_lanes (neg d) d i).2.2.2.2.2.1]
  have hr : -128 ≤ neg d i ∧ neg d i ≤ 127 := by
    unfold neg sign
    split_ifs
    · exact range8 _
    · norm_num
    · exact hdi
  by_cases h : d i = -128
  · left; rw [n2 h]; exact (C38_exp2 (Posit8.canon_iff.mpr (by norm_num))).1 rfl
  · right
    have hn : neg d i ≠ -128 := by
      unfold neg sign
      split_ifs
      · rw [wrap8 (by omega)]; omega
      · norm_num
      · exact h
    obtain ⟨e1, -, -, e4⟩ := (C38_exp2 (Posit8.canon_iff.mpr hr)).2 hn
    have h64 : P8.fmt.val 64 = 1 := by decide +kernel
    have hr64 : P8.fmt.IsReal 64 := by decide
    have h5 := e4 64 hr64 (by
      rw [h64, n1 h]
      have h0 : (0 : ℝ) ≤ ((|P8.fmt.val (d i)| : ℚ) : ℝ) := by exact_mod_cast abs_nonneg _
      rw [Rat.cast_one]
      exact Real.one_le_rpow (by norm_num) h0)
    refine ⟨e1, ?_⟩
    rw [← h64]
    exact (Format.val_le_iff hr64.inRange e1.inRange).mpr h5

example : ∃ r, gauss2 (fun _ => 104) (fun _ => 64) (fun _ => 64) = .ok r ∧ ∀ i, r i = -128 ∨ (P8.fmt.IsReal (r i) ∧ 1 ≤ P8.fmt.val (r i)) :=
  C61_gauss2_wrong _ _ _

theorem exp_lane (v : ℤ) (h : -128 ≤ v ∧ v ≤ 127) :
    mask (wrapS 8 0 = wrapS 8 (wrapU 8 (wrapS 8 0x40) &&& wrapU 8 v : ℕ)) = if v < -64 ∨ (0 ≤ v ∧ v < 64) then -1 else 0 := by
  have : ∀ u : Fin 256, mask (wrapS 8 0 = wrapS 8 (wrapU 8 (wrapS 8 0x40) &&& wrapU 8 ((u : ℤ) - 128) : ℕ)) =
      if (u : ℤ) - 128 < -64 ∨ (0 ≤ (u : ℤ) - 128 ∧ (u : ℤ) - 128 < 64) then -1 else 0 := by decide +kernel
  have h1 := this ⟨(v + 128).toNat, by omega⟩
  have e : (((v + 128).toNat : ℕ) : ℤ) - 128 = v := by omega
  simp only [e] at h1
  exact h1

theorem lt_one {v : ℤ} (hv : P8.fmt.IsReal v) : P8.fmt.val v < 1 ↔ v < 64 := by
  have h2 : P8.fmt.val 64 = 1 := by decide +kernel
  rw [← h2, Format.val_lt_iff hv.inRange (by unfold Format.InRange; decide)]

/-- **C61**, predicates: NaN and negative lanes are recognised, and among the others those below 1. -/
theorem C61_predicates {a : Vec} (ha : Lanes a) (i : Fin 32) :
    isNan a i = (if a i = -128 then -1 else 0) ∧
    (a i ≠ -128 → isNegative a i = if P8.fmt.val (a i) < 0 then -1 else 0) ∧
    (0 ≤ a i → hasNegExponent a i = if P8.fmt.val (a i) < 1 then -1 else 0) := by
  have ha' := Posit8.canon_iff.mp (ha i)
  refine ⟨?_, fun h => ?_, fun h => ?_⟩
  · have e : wrapS 8 (-128) = -128 := by decide
    unfold isNan cmpeq set1 mask
    simp only [e, decide_eq_true_eq, eq_comm (a := (-128 : ℤ))]
  · have hr : P8.fmt.IsReal (a i) := Posit8.real_iff.mpr (by omega)
    have e : wrapS 8 0 = 0 := by decide
    unfold isNegative cmpgt set1 mask
    simp only [e, decide_eq_true_eq, Format.val_neg_iff hr.inRange]
  · have hr : P8.fmt.IsReal (a i) := Posit8.real_iff.mpr (by omega)
    refine (exp_lane _ ha').trans ?_
    simp only [lt_one hr]
    refine if_congr ?_ rfl rfl
    omega

example : isNan (fun _ => -128) 4 = -1 ∧ isNegative (fun _ => -80) 4 = -1 ∧ hasNegExponent (fun _ => 32) 4 = -1 ∧
    P8.fmt.val 32 = 1 / 2 ∧ hasNegExponent (fun _ => 64) 4 = 0 := by decide +kernel

/-- **C61**, predicates: wrong for the greatest and the lowest number, which count as infinite, and for the negative numbers other
than -1, of which the exponent test answers the opposite. -/
theorem C61_predicates_wrong {a : Vec} (ha : Lanes a) (i : Fin 32) :
    (a i = 127 ∨ a i = -127 → P8.fmt.IsReal (a i) ∧ isInfinity a i = -1) ∧
    (a i ≠ -128 → a i < 0 → a i ≠ -64 → hasNegExponent a i = if |P8.fmt.val (a i)| < 1 then 0 else -1) := by
  have ha' := Posit8.canon_iff.mp (ha i)
  refine ⟨fun h => ?_, fun h h0 h1 => ?_⟩
  · refine ⟨Posit8.real_iff.mpr (by omega), ?_⟩
    unfold isInfinity
    rw [if_pos (by decide)]
    unfold or cmpeq set1
    rcases h with h | h <;> rw [h] <;> decide +kernel
  · have hr : P8.fmt.IsReal (a i) := Posit8.real_iff.mpr (by omega)
    have hn : P8.fmt.IsReal (-(a i)) := Posit8.real_iff.mpr (by omega)
    have h2 := (C39_order_partial hr hr).2.2.2.2.1
    have e : Posit8.abs (a i) = -(a i) := by unfold Posit8.abs; rw [if_pos h0]; exact wrap8 (by omega)
    rw [e] at h2
    rw [← h2]
    refine (exp_lane _ ha').trans ?_
    simp only [lt_one hn]
    split_ifs <;> omega

/-- lanes 3/2, -2, NaN, greatest, ... added to themselves, and 1 - 1 -/
example : ∃ a b : Vec, Lanes a ∧ Lanes b ∧ P8.fmt.val (a 0) = 3 / 2 ∧ P8.fmt.val (a 1) = -2 ∧ a 2 = -128 ∧ add a a 0 = 104 ∧
    P8.fmt.val 104 = 3 ∧ add a a 1 = -112 ∧ P8.fmt.val (-112) = -4 ∧ add a a 2 = -128 ∧
    P8.fmt.val (b 0) = 1 ∧ P8.fmt.val (sub b b 0) = 2 := by
  refine ⟨fun i => if i = 0 then 80 else if i = 1 then -96 else if i = 2 then -128 else 127, fun _ => 64, ?_, ?_, ?_⟩
  · intro i; refine Posit8.canon_iff.mpr ?_; dsimp only; split_ifs <;> norm_num
  · intro i; exact Posit8.canon_iff.mpr (by norm_num)
  · refine ⟨by decide +kernel, by decide +kernel, by decide +kernel, by decide +kernel, by decide +kernel, by decide +kernel,
      by decide +kernel, by decide +kernel, by decide +kernel, by decide +kernel⟩

theorem cfg_wf : cfg.WF := by decide

theorem set1_real {q : ℤ} (hq : cfg.fmt.IsReal q) (i : Fin 32) : set1 q i = q :=
  wrap8 (by have h := hq; unfold Format.IsReal at h; rw [show cfg.fmt.maxBody = 127 by decide] at h; omega)

/-- **C61**, construction: every lane of a register made from a `float` or an `int` is that number rounded toward zero to a posit with
two exponent bits; NaN gives NaN. Subnormal `float`s are not covered. -/
theorem C61_convert_partial :
    (∀ (b : ℕ) (y : ℚ), ieee 8 23 b = .num y → 2 ^ (-126 : ℤ) ≤ |y| → ∃ v, ofFloat b = .ok v ∧ ∀ i, cfg.fmt.IsTrunc y (v i)) ∧
    (∀ b : ℕ, ieee 8 23 b = .nan → ∃ v, ofFloat b = .ok v ∧ ∀ i, v i = -128) ∧
    (∀ k : ℤ, k ≠ 0 → -2 ^ 31 < k → k < 2 ^ 31 → ∃ v, ofInt k = .ok v ∧ ∀ i, cfg.fmt.IsTrunc k (v i)) := by
  have hN : cfg.N + 1 < pw cfg.H := by decide
  refine ⟨fun b y hy hn => ?_, fun b hb => ?_, fun k h0 h1 h2 => ?_⟩
  · have hy0 : y ≠ 0 := by rintro rfl; rw [abs_zero] at hn; exact absurd hn (not_le.mpr (by positivity))
    obtain ⟨q, q1, q2⟩ := C22_ieee_partial cfg_wf hN (by decide) .single (Or.inr (Or.inl rfl)) hy hy0 (Or.inr ⟨by decide, hn⟩)
    exact ⟨set1 q, by unfold ofFloat; rw [bind_ok _ q1]; rfl, fun i => by rw [set1_real q2.real]; exact q2⟩
  · have hq := C22_nan_partial (c := cfg) (dn := true) cfg_wf (eb := 8) (fb := 23) (by norm_num) (by norm_num) (by decide) hb
      (Or.inl (by decide))
    have e : (FTrait.single) = .any 8 23 true := C51_traits.2.1
    refine ⟨set1 (-128), ?_, fun i => by decide +revert⟩
    unfold ofFloat
    rw [e, bind_ok _ hq]; rfl
  · obtain ⟨q, q1, q2⟩ := C20_ofInt_partial cfg_wf h0 h1 h2 (Or.inl (by decide)) (safeMag_of_narrow cfg_wf hN _)
    exact ⟨set1 q, by unfold ofInt; rw [bind_ok _ q1]; rfl, fun i => by rw [set1_real q2.real]; exact q2⟩

/- 2.0f and 2 -/
example : ieee 8 23 0x40000000 = .num 2 ∧ (2 : ℚ) ^ (-126 : ℤ) ≤ |2| ∧ cfg.fmt.val 72 = 2 ∧
    Posit.ofFloat cfg .single 0x40000000 = .ok 72 ∧ Posit.ofInt cfg 2 = .ok 72 := by
  refine ⟨by norm_num [ieee], by norm_num, by decide +kernel, by decide +kernel, by decide +kernel⟩

/-- **C61**, `simd_posit8_32(2.0f)` converted back to `float`: 1.25 in every lane, since the tables are those without exponent bits. -/
theorem C61_convert_wrong : ∃ v, ofFloat 0x40000000 = .ok v ∧ ∀ i, toFloats v i = 0x3fa00000 ∧ ieee 8 23 (toFloats v i) = .num (5 / 4) := by
  have h : Posit.ofFloat cfg .single 0x40000000 = .ok 72 := by decide +kernel
  have e : ∀ i, toFloats (set1 72) i = 0x3fa00000 := by decide +kernel
  refine ⟨set1 72, by unfold ofFloat; rw [bind_ok _ h]; rfl, fun i => ⟨e i, ?_⟩⟩
  rw [e i]; norm_num [ieee]

end SimdPosit8
end Verif
