import Verif.Props.Constants
import Verif.Props.Order

/-! # The bit patterns of the README (C124) -/

namespace Verif
open Fmt

namespace Readme

/-- the two's complement integer written with the bits `l`, sign first -/
def pat (l : List Bool) : ℤ := if l.headD false then (ofBits l : ℤ) - 2 ^ l.length else ofBits l

variable {c : Cfg}

theorem ofBits_append (l m : List Bool) : ofBits (l ++ m) = ofBits l * 2 ^ m.length + ofBits m := by
  induction l with
  | nil => simp [ofBits]
  | cons b l ih => rw [List.cons_append, ofBits_cons, ofBits_cons, ih, List.length_append, pow_add]; ring

theorem ofBits_false (n : ℕ) : ofBits (List.replicate n false) = 0 := by
  induction n with
  | zero => rfl
  | succ n ih => rw [List.replicate_succ, ofBits_cons, ih]; simp

theorem ofBits_true (n : ℕ) : ofBits (List.replicate n true) + 1 = 2 ^ n := by
  induction n with
  | zero => rfl
  | succ n ih => rw [List.replicate_succ, ofBits_cons, List.length_replicate, pow_succ]; simp; omega

theorem ofBits_lt (l : List Bool) : ofBits l < 2 ^ l.length := by
  induction l with
  | nil => simp [ofBits]
  | cons b l ih =>
    rw [ofBits_cons, List.length_cons, pow_succ]
    cases b <;> simp <;> omega

/-- **C124**, the special patterns: infinity or NaN is `10…0`; with NaN and two infinities, plus infinity is `01…1`, minus infinity `10…01`,
each the negation of the other, above and below all reals, and every real posit of the format is one of the format without these, whose
greatest one is given away. -/
theorem C124_special (h : c.WF) :
    pat (true :: List.replicate (c.N - 1) false) = c.nan ∧
    (c.spec ≠ .withNanInf → c.pinf = c.nan ∧ c.ninf = c.nan) ∧
    (c.spec = .withNanInf → pat (false :: List.replicate (c.N - 1) true) = c.pinf ∧
      pat (true :: (List.replicate (c.N - 2) false ++ [true])) = c.ninf ∧ c.ninf = -c.pinf ∧
      (∀ v, c.fmt.IsReal v → c.ninf < v ∧ v < c.pinf) ∧
      ∀ v, ({ c with spec := .withNan } : Cfg).fmt.IsReal v ↔ c.fmt.IsReal v ∨ v = c.pinf ∨ v = c.ninf) := by
  have hN3 := h.N_ge
  have e : (2 : ℤ) ^ c.N = 2 * 2 ^ (c.N - 1) := by rw [← pow_succ']; congr 1; omega
  have n1 : (0 : ℤ) < 2 ^ (c.N - 1) := by positivity
  have hp := ofBits_true (c.N - 1)
  have hp' : (ofBits (List.replicate (c.N - 1) true) : ℤ) + 1 = 2 ^ (c.N - 1) := by exact_mod_cast hp
  refine ⟨?_, fun hs => ?_, fun hs => ?_⟩
  · rw [h.nan_eq]
    unfold pat
    rw [ofBits_cons, ofBits_false, List.length_cons, List.length_replicate, show c.N - 1 + 1 = c.N by omega, e]
    simp
    ring
  · rw [h.pinf_eq, h.ninf_eq, h.nan_eq, if_neg hs, if_neg hs]
    exact ⟨rfl, rfl⟩
  · rw [h.pinf_eq, h.ninf_eq, if_pos hs, if_pos hs]
    refine ⟨?_, ?_, by ring, fun v hv => ?_, fun v => ?_⟩
    · unfold pat
      rw [ofBits_cons]
      simp
      omega
    · unfold pat
      rw [ofBits_cons, ofBits_append, ofBits_false]
      simp only [List.headD_cons, if_true, List.length_cons, List.length_append, List.length_replicate, List.length_nil]
      rw [show c.N - 2 + (0 + 1) + 1 = c.N by omega, show c.N - 2 + (0 + 1) = c.N - 1 by omega, e]
      simp [ofBits]
      ring
    · rw [isReal_bounds] at hv
      have := Nat.one_le_two_pow (n := c.N - 1)
      have hm : (c.fmt.maxBody : ℤ) = 2 ^ (c.N - 1) - 2 := by
        unfold Format.maxBody
        have : 2 ^ 1 ≤ 2 ^ (c.N - 1) := Nat.pow_le_pow_right (by norm_num) (by omega)
        simp only [Cfg.fmt, hs, decide_true, if_true]
        rw [Nat.cast_sub (by omega)]
        push_cast
        rfl
      omega
    · have : 2 ^ 1 ≤ 2 ^ (c.N - 1) := Nat.pow_le_pow_right (by norm_num) (by omega)
      have hm : (c.fmt.maxBody : ℤ) = 2 ^ (c.N - 1) - 2 := by
        unfold Format.maxBody
        simp only [Cfg.fmt, hs, decide_true, if_true]
        rw [Nat.cast_sub (by omega)]
        push_cast
        rfl
      have hm2 : ((({ c with spec := .withNan } : Cfg).fmt.maxBody : ℕ) : ℤ) = 2 ^ (c.N - 1) - 1 := by
        have : ({ c with spec := .withNan } : Cfg).fmt.maxBody = 2 ^ (c.N - 1) - 1 := if_neg (by simp [Cfg.fmt])
        rw [this, Nat.cast_sub (by omega)]
        push_cast
        rfl
      rw [isReal_bounds, isReal_bounds, hm, hm2]
      omega

example : P8i.WF ∧ P8i.spec = .withNanInf ∧ pat [false, true, true, true, true, true, true, true] = 127 ∧ P8i.pinf = 127 ∧
    pat [true, false, false, false, false, false, false, true] = -127 ∧ pat [true, false, false, false, false, false, false, false] = -128 ∧
    P16.WF ∧ P16.spec ≠ .withNanInf := by decide +kernel

/-- **C124**, one and one half: `010…0` is one, and `001`, then `es` ones, then zeros is one half; these are `one()` and, where the
posit fills its holder (cf. C19), `onehalf()`. -/
theorem C124_one_half (h : c.WF) :
    (pat (false :: true :: List.replicate (c.N - 2) false) = c.one ∧
      c.fmt.IsReal (pat (false :: true :: List.replicate (c.N - 2) false)) ∧
      c.fmt.val (pat (false :: true :: List.replicate (c.N - 2) false)) = 1) ∧
    ((pat (false :: false :: true :: (List.replicate c.es true ++ List.replicate (c.N - 3 - c.es) false)) = c.half ↔ c.N = c.H) ∧
      c.fmt.IsReal (pat (false :: false :: true :: (List.replicate c.es true ++ List.replicate (c.N - 3 - c.es) false))) ∧
      c.fmt.val (pat (false :: false :: true :: (List.replicate c.es true ++ List.replicate (c.N - 3 - c.es) false))) = 1 / 2) := by
  have hes := h.hes
  have hmb := maxBody_ge h
  obtain ⟨e1, e2, e3⟩ := pow_split h
  have h1 := Nat.one_le_two_pow (n := c.N - 3)
  have h1' := Nat.one_le_two_pow (n := c.N - 3 - c.es)
  have k1 : 2 ^ (c.N - 3 - c.es) ≤ 2 ^ (c.N - 3) := Nat.pow_le_pow_right (by norm_num) (by omega)
  constructor
  · have : pat (false :: true :: List.replicate (c.N - 2) false) = c.one := by
      rw [one_eq h]
      unfold pat
      rw [ofBits_cons, ofBits_cons, ofBits_false]
      simp
    rw [this]
    exact ⟨rfl, (one_real h).1, val_one h⟩
  · have : pat (false :: false :: true :: (List.replicate c.es true ++ List.replicate (c.N - 3 - c.es) false)) =
        ((2 ^ (c.N - 2) - 2 ^ (c.N - 3 - c.es) : ℕ) : ℤ) := by
      unfold pat
      rw [ofBits_cons, ofBits_cons, ofBits_cons, ofBits_append, ofBits_false]
      simp only [List.headD_cons, Bool.false_eq_true, if_false, Bool.toNat_false, zero_mul, zero_add, Bool.toNat_true, one_mul,
        List.length_append, List.length_replicate, add_zero]
      have ht := ofBits_true c.es
      rw [show c.es + (c.N - 3 - c.es) = c.N - 3 by omega]
      have : ofBits (List.replicate c.es true) * 2 ^ (c.N - 3 - c.es) + 2 ^ (c.N - 3 - c.es) = 2 ^ (c.N - 3) := by
        rw [e3, ← ht]; ring
      congr 1
      clear e3
      omega
    rw [this]
    refine ⟨?_, by clear e3; rw [isReal_bounds]; omega, ?_⟩
    · have hH := h.hH
      rw [half_eq h, Nat.cast_sub (by clear e3; omega)]
      push_cast
      constructor
      · intro e
        have e' : (2 : ℤ) ^ (c.N - 2) = 2 ^ (c.H - 2) := by linarith
        have := Int.pow_right_injective (a := 2) (by norm_num) e'
        have := h.N_ge
        omega
      · intro e
        rw [e]
    rw [Format.val_natCast (by clear e3; omega)]
    exact posVal_half h

example : P12.WF ∧ P12.N ≠ P12.H ∧ P8.WF ∧ P8.N = P8.H ∧ P8.es = 0 ∧ pat [false, false, true, false, false, false, false, false] = P8.half ∧
    P16.WF ∧ 1 ≤ P16.es := by decide +kernel

/-- **C124** does not hold for one: `001`, then zeros, which the README gives for it, is `2^(-2^es)`, at most one half. -/
theorem C124_one_wrong (h : c.WF) : c.fmt.IsReal (pat (false :: false :: true :: List.replicate (c.N - 3) false)) ∧
    c.fmt.val (pat (false :: false :: true :: List.replicate (c.N - 3) false)) = 2 ^ (-(2 ^ c.es : ℤ)) ∧
    c.fmt.val (pat (false :: false :: true :: List.replicate (c.N - 3) false)) ≤ 1 / 2 := by
  have hes := h.hes
  have hmb := maxBody_ge h
  obtain ⟨e1, e2, e3⟩ := pow_split h
  have h1 := Nat.one_le_two_pow (n := c.N - 3)
  have e : pat (false :: false :: true :: List.replicate (c.N - 3) false) = ((2 ^ (c.N - 3) : ℕ) : ℤ) := by
    unfold pat
    rw [ofBits_cons, ofBits_cons, ofBits_cons, ofBits_false]
    simp
  have v : c.fmt.val (pat (false :: false :: true :: List.replicate (c.N - 3) false)) = 2 ^ (-(2 ^ c.es : ℤ)) := by
    rw [e, Format.val_natCast (by omega)]
    show posVal c.N c.es _ = _
    rw [posVal_mid h.N_ge le_rfl (by omega), ← L_intCast]
    congr 1
    push_cast
    field_simp
    ring
  refine ⟨by rw [e, isReal_bounds]; clear e3; omega, v, ?_⟩
  rw [v]
  calc (2 : ℚ) ^ (-(2 ^ c.es : ℤ)) ≤ 2 ^ (-1 : ℤ) := zpow_le_zpow_right₀ (by norm_num) (by
        have : (1 : ℤ) ≤ 2 ^ c.es := one_le_pow₀ (by norm_num)
        omega)
    _ = 1 / 2 := by norm_num

example : P8.WF ∧ P8.fmt.val (pat [false, false, true, false, false, false, false, false]) = 1 / 2 ∧
    P12.fmt.val (pat [false, false, true, false, false, false, false, false, false, false, false, false]) ≠ 1 := by decide +kernel

/-- **C124**, two: with exponent bits, `010`, the exponent 1 and zeros; this is `two()`. -/
theorem C124_two_partial (h : c.WF) (he : 1 ≤ c.es) :
    pat (false :: true :: false :: (List.replicate (c.es - 1) false ++ true :: List.replicate (c.N - 3 - c.es) false)) = c.two ∧
    c.fmt.IsReal (pat (false :: true :: false :: (List.replicate (c.es - 1) false ++ true :: List.replicate (c.N - 3 - c.es) false))) ∧
    c.fmt.val (pat (false :: true :: false :: (List.replicate (c.es - 1) false ++ true :: List.replicate (c.N - 3 - c.es) false))) = 2 := by
  have hes := h.hes
  have e : pat (false :: true :: false :: (List.replicate (c.es - 1) false ++ true :: List.replicate (c.N - 3 - c.es) false)) = c.two := by
    rw [two_eq h]
    unfold pat
    rw [ofBits_cons, ofBits_cons, ofBits_cons, ofBits_append, ofBits_cons, ofBits_false, ofBits_false]
    simp only [List.headD_cons, Bool.false_eq_true, if_false, Bool.toNat_false, zero_mul, zero_add, Bool.toNat_true, one_mul,
      List.length_append, List.length_replicate, List.length_cons, add_zero]
    rw [show c.es - 1 + (c.N - 3 - c.es + 1) + 1 = c.N - 2 by omega]
    push_cast
    rfl
  rw [e]
  exact ⟨rfl, C19_two_partial h (fun _ => by omega)⟩

example : P12.WF ∧ 1 ≤ P12.es := by decide +kernel

/-- **C124** does not hold for two without exponent bits: every pattern that begins with `010` is below two, and `two()` is `0110…0`. -/
theorem C124_two_wrong (h : c.WF) (he : c.es = 0) (hn : c.spec = .withNanInf → 4 ≤ c.N) {l : List Bool} (hl : l.length = c.N - 3) :
    c.fmt.IsReal (pat (false :: true :: false :: l)) ∧ c.fmt.val (pat (false :: true :: false :: l)) < 2 ∧
    pat (false :: true :: true :: List.replicate (c.N - 3) false) = c.two := by
  have hN3 := h.N_ge
  have hmb := maxBody_ge h
  obtain ⟨e1, e2, e3⟩ := pow_split h
  have h1 := Nat.one_le_two_pow (n := c.N - 3)
  have hlt := ofBits_lt l
  rw [hl] at hlt
  obtain ⟨t1, t2⟩ := C19_two_partial h hn
  have e : pat (false :: true :: false :: l) = ((2 ^ (c.N - 2) + ofBits l : ℕ) : ℤ) := by
    unfold pat
    rw [ofBits_cons, ofBits_cons, ofBits_cons]
    simp only [List.headD_cons, Bool.false_eq_true, if_false, Bool.toNat_false, zero_mul, zero_add, Bool.toNat_true, one_mul,
      List.length_cons, hl]
    rw [show c.N - 3 + 1 = c.N - 2 by omega]
  have hr : c.fmt.IsReal (pat (false :: true :: false :: l)) := by
    rw [e, isReal_bounds]
    clear e3
    omega
  refine ⟨hr, ?_, ?_⟩
  rotate_left
  · rw [two_eq h, he, Nat.sub_zero]
    unfold pat
    rw [ofBits_cons, ofBits_cons, ofBits_cons, ofBits_false]
    simp only [List.headD_cons, Bool.false_eq_true, if_false, Bool.toNat_false, zero_mul, zero_add, Bool.toNat_true, one_mul,
      List.length_cons, List.length_replicate, add_zero]
    rw [show c.N - 3 + 1 = c.N - 2 by omega]
    push_cast
    rfl
  rw [← t2, Format.val_lt_iff hr.inRange t1.inRange, e, two_eq h, he, Nat.sub_zero]
  have : ((2 ^ (c.N - 2) + ofBits l : ℕ) : ℤ) < ((2 ^ (c.N - 2) + 2 ^ (c.N - 3) : ℕ) : ℤ) := by exact_mod_cast (by omega)
  push_cast at this ⊢
  exact this

example : P8.WF ∧ P8.es = 0 ∧ P8.spec ≠ .withNanInf ∧ P8.fmt.val (pat [false, true, false, true, true, true, true, true]) = 63 / 32 ∧
    P8.two = 96 := by decide +kernel

/-- the bit after the sign of a pattern -/
theorem pat_bounds {s b : Bool} {l : List Bool} (hl : l.length = c.N - 2) (hN : 3 ≤ c.N) :
    ∃ r : ℤ, 0 ≤ r ∧ r < 2 ^ (c.N - 2) ∧
      pat (s :: b :: l) = (if b then 2 ^ (c.N - 2) else 0) + r - (if s then 2 * 2 ^ (c.N - 2) else 0) := by
  refine ⟨ofBits l, by positivity, by exact_mod_cast (hl ▸ ofBits_lt l), ?_⟩
  have e : (2 : ℤ) ^ c.N = 4 * 2 ^ (c.N - 2) := by rw [show c.N = c.N - 2 + 2 by omega, pow_add]; norm_num; ring
  unfold pat
  rw [ofBits_cons, ofBits_cons]
  simp only [List.length_cons, hl, List.headD_cons]
  rw [show c.N - 2 + 1 + 1 = c.N by omega, e, pow_succ]
  cases s <;> cases b <;> simp <;> ring

/-- **C124**, the inversion bit: a positive real posit is below one exactly if the bit after the sign is 0. -/
theorem C124_inversion_partial (h : c.WF) {b : Bool} {l : List Bool} (hl : l.length = c.N - 2)
    (hr : c.fmt.IsReal (pat (false :: b :: l))) : b = false ↔ c.fmt.val (pat (false :: b :: l)) < 1 := by
  obtain ⟨r, r0, r1, e⟩ := pat_bounds (s := false) (b := b) hl h.N_ge
  rw [← val_one h, Format.val_lt_iff hr.inRange (one_real h).1.inRange, one_eq h, e]
  cases b <;> simp <;> omega

example : P8.WF ∧ P8.fmt.IsReal (pat [false, false, true, true, false, false, true, false]) ∧
    P8.fmt.val (pat [false, false, true, true, false, false, true, false]) = 25 / 32 ∧
    P8.fmt.IsReal (pat [false, true, false, false, false, false, true, false]) := by decide +kernel

/-- **C124** does not hold for negative numbers: there the bit is 1 exactly from minus one on. -/
theorem C124_inversion_wrong (h : c.WF) {b : Bool} {l : List Bool} (hl : l.length = c.N - 2)
    (hr : c.fmt.IsReal (pat (true :: b :: l))) :
    c.fmt.val (pat (true :: b :: l)) < 0 ∧ (b = true ↔ -1 ≤ c.fmt.val (pat (true :: b :: l))) := by
  obtain ⟨r, r0, r1, e⟩ := pat_bounds (s := true) (b := b) hl h.N_ge
  obtain ⟨-, -, m1, m2⟩ := C19_zero_one h
  constructor
  · rw [Format.val_neg_iff hr.inRange, e]
    cases b <;> simp <;> omega
  · rw [← m2, Format.val_le_iff m1.inRange hr.inRange, mone_eq h, e]
    cases b <;> simp <;> omega

example : P8.WF ∧ P8.fmt.IsReal (pat [true, true, true, false, false, false, false, false]) ∧
    P8.fmt.val (pat [true, true, true, false, false, false, false, false]) = -(1 / 2) := by decide +kernel

end Readme
end Verif
