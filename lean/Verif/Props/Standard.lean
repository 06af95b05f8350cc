import Verif.Lemmas.Standard
import Verif.Props.Equiv
import Verif.Props.Constants
import Verif.Props.ExtConvert
import Verif.Props.NarrowFrac
import Verif.Props.SumFaithful
import Verif.Props.Scale
import Verif.Props.Special
import Mathlib.Tactic.LinearCombination

/-!
# The rounding of the posit standard: C135

The library rounds toward zero. The posit standard rounds to the nearest number, told by a further bit of the body, and a tie
to the pattern that ends in 0. How far the two are apart, and when they agree.
-/

namespace Verif
open Fmt

variable {c c' : Cfg} {f : Format}

/-- **C135**: every nonzero number has exactly one standard rounding. -/
theorem C135_exists (hN : 1 ≤ f.N) (hm : 1 ≤ f.maxBody) {y : ℚ} (hy : y ≠ 0) : ∃! v, f.IsStd y v := by
  obtain ⟨v, hv⟩ := Format.exists_isTrunc hm hy
  by_cases hd : f.Near y v
  · exact ⟨v, hv.std_near hN hd, fun w hw => hw.unique hN (hv.std_near hN hd)⟩
  · exact ⟨_, hv.std_far hN hd, fun w hw => hw.unique hN (hv.std_far hN hd)⟩

example : 1 ≤ P8.fmt.N ∧ 1 ≤ P8.fmt.maxBody ∧ P8.fmt.IsStd 21 125 ∧ P8.fmt.IsStd 20 124 ∧ P8.fmt.IsStd (-1000) (-127) ∧
    P8.fmt.IsStd (1 / 1000) 1 := by decide +kernel

/-- **C135**: the standard rounding of a number that is a posit is this posit. -/
theorem C135_exact (hN : 1 ≤ f.N) {v : ℤ} (hv : f.IsReal v) (h0 : v ≠ 0) : f.IsStd (f.val v) v := by
  have hl := hv.natAbs_le
  have ha := Format.abs_val hv.inRange h0
  refine ⟨hv, ?_, ?_, ?_⟩
  · rcases lt_or_gt_of_ne h0 with h | h
    · exact Or.inr ⟨h, (Format.val_neg_iff hv.inRange).mpr h⟩
    · exact Or.inl ⟨h, (Format.val_pos_iff hv.inRange).mpr h⟩
  · by_cases h1 : v.natAbs = 1
    · exact Or.inl h1
    · have := Format.mid_lt (f := f) hN (p := v.natAbs - 1) (by omega)
      rw [show v.natAbs - 1 + 1 = v.natAbs by omega] at this
      exact Or.inr (Or.inl (by rw [ha]; exact this))
  · exact Or.inr (Or.inl (by rw [ha]; exact Format.mid_gt hN (by omega) hl))

example : P8.fmt.IsReal (-99) ∧ P8.fmt.IsStd (-19 / 8) (-99) ∧ P8.fmt.val (-99) = -19 / 8 := by decide +kernel

/-- **C135**: the separating number lies strictly between the two neighbours. -/
theorem C135_mid (hN : 1 ≤ f.N) {p : ℕ} (hp : 1 ≤ p) (hl : p + 1 ≤ f.maxBody) :
    f.val p < f.mid p ∧ f.mid p < f.val (p + 1) := by
  rw [Format.val_natCast (by omega)]
  have := Format.val_natCast (f := f) (p := p + 1) (by omega)
  push_cast at this
  rw [this]
  exact ⟨Format.mid_gt hN hp (by omega), Format.mid_lt hN hl⟩

example : 124 + 1 ≤ P8.fmt.maxBody ∧ P8.fmt.val 124 = 16 ∧ P8.fmt.mid 124 = 20 ∧ P8.fmt.val 125 = 24 := by decide +kernel

/-- **C135**: the standard rounding from the rounding toward zero: the same posit up to the separating number, beyond it the
next one away from zero. -/
theorem C135_trunc (hN : 1 ≤ f.N) {y : ℚ} {v w : ℤ} (hv : f.IsTrunc y v) (hw : f.IsStd y w) :
    (f.Near y v → w = v) ∧ (¬ f.Near y v → w = v + v.sign) :=
  ⟨fun hd => hw.unique hN (hv.std_near hN hd), fun hd => hw.unique hN (hv.std_far hN hd)⟩

example : P8.fmt.IsTrunc (P8.fmt.val 65) 65 ∧ P8.fmt.IsStd (P8.fmt.val 65) 65 ∧ P8.fmt.mid 65 = 67 / 64 := by
  refine ⟨Format.isTrunc_val (by decide +kernel) (by decide +kernel), C135_exact (by decide +kernel) (by decide +kernel) (by decide +kernel), by decide +kernel⟩

/-- **C135**: a faithful rounding is the standard rounding or a neighbour of it. -/
theorem C135_faithful (hN : 1 ≤ f.N) {y : ℚ} {v w : ℤ} (hv : f.IsFaithful y v) (hw : f.IsStd y w) : |w - v| ≤ 1 := by
  have h1 := hw.le_faithful hN hv
  have h2 := hw.neg.le_faithful hN hv.neg
  rw [abs_le]; omega

example : P8.fmt.IsFaithful (P8.fmt.val 65) 65 ∧ P8.fmt.IsStd (P8.fmt.val 65) 65 :=
  ⟨(Format.isTrunc_val (by decide +kernel) (by decide +kernel)).faithful, by decide +kernel⟩

/-! ## The operations -/

theorem std_of_outcome (h : c.WF) {x : ℚ} {r : M ℤ} (ho : Outcome c x r) {v w : ℤ} (hv : r = .ok v) (hw : c.fmt.IsStd x w) :
    (c.fmt.Near x v → w = v) ∧ (¬ c.fmt.Near x v → w = v + v.sign) := by
  have hN : 1 ≤ c.fmt.N := by have := h.N_ge; show 1 ≤ c.N; omega
  by_cases hs : x = 0 ∨ c.SafeMag x
  · obtain ⟨v', h1, h2⟩ := ho.1 hs
    have : v = v' := by rw [hv] at h1; exact Except.ok.inj h1
    subst this
    rcases h2 with ⟨h2, -⟩ | h2
    · exact absurd h2 hw.ne_zero.2
    · exact C135_trunc hN h2 hw
  · rw [ho.2 hs] at hv; cases hv

/-- **C135**, products. -/
theorem C135_mul (h : c.WF) (hF : c.fb + 2 ≤ c.F) {a b v w : ℤ} (ha : c.fmt.IsReal a) (hb : c.fmt.IsReal b)
    (hv : Posit.mul c a b = .ok v) (hw : c.fmt.IsStd (c.fmt.val a * c.fmt.val b) w) :
    (c.fmt.Near (c.fmt.val a * c.fmt.val b) v → w = v) ∧ (¬ c.fmt.Near (c.fmt.val a * c.fmt.val b) v → w = v + v.sign) :=
  std_of_outcome h (outcome_mul h hF ha hb) hv hw

example : P8.WF ∧ P8.fb + 2 ≤ P8.F ∧ Posit.mul P8 77 (-83) = .ok (-97) ∧ P8.fmt.IsStd (P8.fmt.val 77 * P8.fmt.val (-83)) (-98) ∧
    ¬ P8.fmt.Near (P8.fmt.val 77 * P8.fmt.val (-83)) (-97) ∧ Posit.mul P8 77 (-84) = .ok (-98) ∧
    P8.fmt.IsStd (P8.fmt.val 77 * P8.fmt.val (-84)) (-98) ∧ P8.fmt.Near (P8.fmt.val 77 * P8.fmt.val (-84)) (-98) := by
  decide +kernel

/-- **C135**, quotients. -/
theorem C135_div (h : c.WF) (hF : c.fb + 2 ≤ c.F) {a b v w : ℤ} (ha : c.fmt.IsReal a) (hb : c.fmt.IsReal b) (hb0 : b ≠ 0)
    (hv : Posit.div c a b = .ok v) (hw : c.fmt.IsStd (c.fmt.val a / c.fmt.val b) w) :
    (c.fmt.Near (c.fmt.val a / c.fmt.val b) v → w = v) ∧ (¬ c.fmt.Near (c.fmt.val a / c.fmt.val b) v → w = v + v.sign) :=
  std_of_outcome h (outcome_div h hF ha hb hb0) hv hw

example : P8.fb + 2 ≤ P8.F ∧ Posit.div P8 77 (-83) = .ok (-56) ∧ P8.fmt.IsStd (P8.fmt.val 77 / P8.fmt.val (-83)) (-56) := by
  decide +kernel

/-- **C135**, conversions from integers. -/
theorem C135_ofInt (h : c.WF) (hF : c.fb ≤ c.F) {i v w : ℤ} (hi1 : -2 ^ 31 ≤ i) (hi2 : i < 2 ^ 31)
    (hv : Posit.ofInt c i = .ok v) (hw : c.fmt.IsStd i w) :
    (c.fmt.Near i v → w = v) ∧ (¬ c.fmt.Near i v → w = v + v.sign) := by
  have key := C89_ofInt h hF hi1 hi2
  refine std_of_outcome h (key.2 fun hi => ?_) hv hw
  rw [key.1 hi] at hv; cases hv

example : P8.fb ≤ P8.F ∧ Posit.ofInt P8 21 = .ok 124 ∧ P8.fmt.IsStd (21 : ℤ) 125 ∧ ¬ P8.fmt.Near (21 : ℤ) 124 ∧
    Posit.ofInt P8 20 = .ok 124 ∧ P8.fmt.IsStd (20 : ℤ) 124 := by decide +kernel

/-- **C135**, conversions from floats whose digits the fraction type keeps. -/
theorem C135_ofFloat {eb fb : ℕ} (h : c.WF) (heb : 2 ≤ eb) (heb30 : eb ≤ 30) (hfb : 1 ≤ fb) (hE : eb < c.E)
    (hE2 : 2 ^ (eb - 1) + fb ≤ 2 ^ (c.E - 1)) {b : ℕ} {y : ℚ} (hy : ieee eb fb b = .num y)
    (hF : fb < c.F ∨ (c.fb ≤ c.F ∧ 2 ^ ((2 : ℤ) - 2 ^ (eb - 1)) ≤ |y|)) (hs : c.SafeMag y) {v w : ℤ}
    (hv : Posit.ofFloat c (.any eb fb true) b = .ok v) (hw : c.fmt.IsStd y w) :
    (c.fmt.Near y v → w = v) ∧ (¬ c.fmt.Near y v → w = v + v.sign) := by
  have hN : 1 ≤ c.fmt.N := by have := h.N_ge; show 1 ≤ c.N; omega
  obtain ⟨v', h1, h2⟩ := C22_ofFloat_partial h heb heb30 hfb hE hE2 hy hw.ne_zero.2 hF hs
  have : v = v' := by rw [hv] at h1; exact Except.ok.inj h1
  subst this
  exact C135_trunc hN h2 hw

example : 5 < P8.E ∧ 2 ^ (5 - 1) + 10 ≤ 2 ^ (P8.E - 1) ∧ ieee 5 10 0x3D55 = .num (1365 / 1024) ∧ P8.SafeMag (1365 / 1024) ∧
    (2 : ℚ) ^ ((2 : ℤ) - 2 ^ (5 - 1)) ≤ |(1365 / 1024 : ℚ)| ∧
    Posit.ofFloat P8 (.any 5 10 true) 0x3D55 = .ok 74 ∧ P8.fmt.IsStd (1365 / 1024) 75 := by
  refine ⟨by decide, by decide, by norm_num [ieee], by decide +kernel, by norm_num [abs_of_pos], by decide +kernel, by decide +kernel⟩

/-- **C135**, conversions between formats with the same fraction type. -/
theorem C135_convert (h : c.WF) (h' : c'.WF) (hF : c.fb ≤ c.F) (hFF : c.F = c'.F) {a v w : ℤ} (ha : c.fmt.IsReal a)
    (hv : (do let u ← Posit.unpack c a; Posit.pack c' u) = .ok v) (hw : c'.fmt.IsStd (c.fmt.val a) w) :
    (c'.fmt.Near (c.fmt.val a) v → w = v) ∧ (¬ c'.fmt.Near (c.fmt.val a) v → w = v + v.sign) := by
  have key := C89_convert h h' hF hFF ha.canonical
  rw [ext_real ha] at key
  exact std_of_outcome h' key hv hw

example : P16.WF ∧ { P8 with F := 16 }.WF ∧ P16.fb ≤ P16.F ∧ P16.F = { P8 with F := 16 }.F ∧ P16.fmt.IsReal (-18041) ∧
    (do let u ← Posit.unpack P16 (-18041); Posit.pack { P8 with F := 16 } u) = .ok (-89) ∧
    P8.fmt.IsStd (P16.fmt.val (-18041)) (-90) := by decide +kernel

/-- **C135**, sums: the sum that the library finds is the standard one or a neighbour of it; for operands of the same sign it
is the standard one up to the separating number, as for products. -/
theorem C135_add (h : c.WF) (hF : c.fb + 3 ≤ c.F) {a b v w : ℤ} (ha : c.fmt.IsReal a) (hb : c.fmt.IsReal b)
    (hv : Posit.add c a b = .ok v) (hw : c.fmt.IsStd (c.fmt.val a + c.fmt.val b) w) :
    |w - v| ≤ 1 ∧ (0 < c.fmt.val a * c.fmt.val b →
      (c.fmt.Near (c.fmt.val a + c.fmt.val b) v → w = v) ∧ (¬ c.fmt.Near (c.fmt.val a + c.fmt.val b) v → w = v + v.sign)) := by
  have hN : 1 ≤ c.fmt.N := by have := h.N_ge; show 1 ≤ c.N; omega
  obtain ⟨h2, -, -, h5⟩ := C137_add h hF ha hb hv
  exact ⟨C135_faithful hN h2 hw, fun hp => C135_trunc hN (h5 hp) hw⟩

example : P8.fb + 3 ≤ P8.F ∧ P8.AddSafe (P8.fmt.val 77) (P8.fmt.val (-3)) ∧ Posit.add P8 77 (-3) = .ok 75 ∧
    P8.fmt.IsStd (P8.fmt.val 77 + P8.fmt.val (-3)) 76 ∧ Posit.add P8 77 90 = .ok 105 ∧
    P8.fmt.IsStd (P8.fmt.val 77 + P8.fmt.val 90) 106 := by decide +kernel

/-- **C135**, differences. -/
theorem C135_sub (h : c.WF) (hF : c.fb + 3 ≤ c.F) {a b v w : ℤ} (ha : c.fmt.IsReal a) (hb : c.fmt.IsReal b)
    (hv : Posit.sub c a b = .ok v) (hw : c.fmt.IsStd (c.fmt.val a - c.fmt.val b) w) :
    |w - v| ≤ 1 ∧ (c.fmt.val a * c.fmt.val b < 0 →
      (c.fmt.Near (c.fmt.val a - c.fmt.val b) v → w = v) ∧ (¬ c.fmt.Near (c.fmt.val a - c.fmt.val b) v → w = v + v.sign)) := by
  have hN : 1 ≤ c.fmt.N := by have := h.N_ge; show 1 ≤ c.N; omega
  obtain ⟨h2, -, -, h5⟩ := C137_sub h hF ha hb hv
  exact ⟨C135_faithful hN h2 hw, fun hp => C135_trunc hN (h5 hp) hw⟩

example : P8.AddSafe (P8.fmt.val 77) (-P8.fmt.val 3) ∧ Posit.sub P8 77 3 = .ok 75 ∧
    P8.fmt.IsStd (P8.fmt.val 77 - P8.fmt.val 3) 76 := by decide +kernel

/-- **C135**, reciprocals. -/
theorem C135_inv (h : c.WF) (hF : c.fb + 2 ≤ c.F) {x v w : ℤ} (hx : c.fmt.IsReal x) (h0 : x ≠ 0)
    (hni : c.spec = .withNanInf → x ≠ 1 ∧ x ≠ -1) (hv : Posit.inv c x = .ok v) (hw : c.fmt.IsStd (1 / c.fmt.val x) w) :
    (c.fmt.Near (1 / c.fmt.val x) v → w = v) ∧ (¬ c.fmt.Near (1 / c.fmt.val x) v → w = v + v.sign) := by
  have := C135_div h hF (one_real h).1 hx h0 (w := w) ((C16_inv_eq_div h hF hx h0 hni).symm.trans hv)
  rw [val_one h] at this
  exact this hw

example : P8.spec ≠ .withNanInf ∧ Posit.inv P8 77 = .ok 45 ∧ P8.fmt.IsStd (1 / P8.fmt.val 77) 46 ∧
    Posit.inv P8 83 = .ok 40 ∧ P8.fmt.IsStd (1 / P8.fmt.val 83) 40 := by decide +kernel

/-- **C135**, products with a sum, in a fraction type that holds the product: the standard rounding of `a*b+d` or a neighbour
of it, and the standard one up to the separating number if product and summand have the same sign. -/
theorem C135_fma (h : c.WF) (hF : 2 * c.fb + 4 ≤ c.F) {a b d v w : ℤ} (ha : c.fmt.IsReal a) (hb : c.fmt.IsReal b)
    (hd : c.fmt.IsReal d) (hv : Posit.fma c a b d = .ok v)
    (hw : c.fmt.IsStd (c.fmt.val a * c.fmt.val b + c.fmt.val d) w) :
    |w - v| ≤ 1 ∧ (0 < c.fmt.val a * c.fmt.val b * c.fmt.val d →
      (c.fmt.Near (c.fmt.val a * c.fmt.val b + c.fmt.val d) v → w = v) ∧
      (¬ c.fmt.Near (c.fmt.val a * c.fmt.val b + c.fmt.val d) v → w = v + v.sign)) := by
  have hN : 1 ≤ c.fmt.N := by have := h.N_ge; show 1 ≤ c.N; omega
  obtain ⟨h2, -, -, h4⟩ := C137_fma h hF ha hb hd hv
  exact ⟨C135_faithful hN h2 hw, fun hp => C135_trunc hN (h4 hp) hw⟩

example : P8h.WF ∧ 2 * P8h.fb + 4 ≤ P8h.F ∧ P8h.FmaSafe (P8h.fmt.val 72 * P8h.fmt.val 74) (P8h.fmt.val 90) ∧
    Posit.fma P8h 72 74 90 = .ok 107 ∧ P8h.fmt.IsStd (P8h.fmt.val 72 * P8h.fmt.val 74 + P8h.fmt.val 90) 108 := by decide +kernel

/-- **C135**, halves and doubles. -/
theorem C135_half_twice (h : c.WF) {v u w : ℤ} (hv : c.fmt.IsReal v) (h0 : v ≠ 0) :
    ((∃ u, c.fmt.IsReal u ∧ u ≠ 0 ∧ |c.fmt.val u| ≤ |c.fmt.val v / 2|) → Posit.half c v = .ok u → c.fmt.IsStd (c.fmt.val v / 2) w →
      (c.fmt.Near (c.fmt.val v / 2) u → w = u) ∧ (¬ c.fmt.Near (c.fmt.val v / 2) u → w = u + u.sign)) ∧
    (c.SafeMag (2 * c.fmt.val v) → (c.es = 0 → v.natAbs ≠ c.fmt.maxBody ∨ (c.spec ≠ .withNanInf ∧ c.N + 2 < pw c.H)) →
      Posit.twice c v = .ok u → c.fmt.IsStd (2 * c.fmt.val v) w →
      (c.fmt.Near (2 * c.fmt.val v) u → w = u) ∧ (¬ c.fmt.Near (2 * c.fmt.val v) u → w = u + u.sign)) := by
  have hN : 1 ≤ c.fmt.N := by have := h.N_ge; show 1 ≤ c.N; omega
  refine ⟨fun hlo hu hw => ?_, fun hs hz hu hw => ?_⟩
  · by_cases hs : c.SafeMag (c.fmt.val v / 2)
    · obtain ⟨u', h1, h2⟩ := (C18_half_partial h hv h0 hlo).1 hs
      have : u = u' := by rw [hu] at h1; exact Except.ok.inj h1
      subst this
      exact C135_trunc hN h2 hw
    · rw [(C18_half_partial h hv h0 hlo).2 hs] at hu; cases hu
  · obtain ⟨u', h1, h2⟩ := C18_twice_partial h hv h0 hs hz
    have : u = u' := by rw [hu] at h1; exact Except.ok.inj h1
    subst this
    exact C135_trunc hN h2 hw

example : P8.fmt.IsReal 19 ∧ |P8.fmt.val 1| ≤ |P8.fmt.val 19 / 2| ∧ Posit.half P8 19 = .ok 9 ∧ P8.fmt.IsStd (P8.fmt.val 19 / 2) 10 ∧
    P8.SafeMag (2 * P8.fmt.val 99) ∧ (99 : ℤ).natAbs ≠ P8.fmt.maxBody ∧ Posit.twice P8 99 = .ok 113 ∧
    P8.fmt.IsStd (2 * P8.fmt.val 99) 114 := by decide +kernel

/-- **C135**, the violation: in every format with two fraction bits at one, `(1 + ε)·(3/2)` lies halfway between two posits;
the library returns the one below, with an odd pattern, the standard the one above. -/
theorem C135_mul_wrong (h : c.WF) (hf : 2 ≤ c.fb) (hF : c.fb + 2 ≤ c.F) :
    c.fmt.IsReal (c.one + 1) ∧ c.fmt.IsReal (c.one + 2 ^ (c.fb - 1)) ∧
    Posit.mul c (c.one + 1) (c.one + 2 ^ (c.fb - 1)) = .ok (c.one + 2 ^ (c.fb - 1) + 1) ∧
    c.fmt.IsStd (c.fmt.val (c.one + 1) * c.fmt.val (c.one + 2 ^ (c.fb - 1))) (c.one + 2 ^ (c.fb - 1) + 2) := by
  have e1 : 2 ^ c.fb = 2 * 2 ^ (c.fb - 1) := by rw [show c.fb = (c.fb - 1) + 1 by omega, pow_succ]; simp; ring
  have e2 : 2 ^ (c.fb - 1) = 2 * 2 ^ (c.fb - 2) := by
    rw [show c.fb - 1 = (c.fb - 2) + 1 by omega, pow_succ]; ring
  have hp := Nat.one_le_two_pow (n := c.fb - 2)
  have hN := h.N_ge
  have hes := h.hes
  have e3 : 2 ^ (c.N - 2) = 2 * 2 ^ (c.N - 3) := by rw [show c.N - 2 = (c.N - 3) + 1 by omega, pow_succ]; ring
  set k : ℕ := 2 ^ (c.fb - 1) with hk
  obtain ⟨r1, n1, v1⟩ := val_one_add h (k := 1) (by omega) (by omega)
  obtain ⟨r2, n2, v2⟩ := val_one_add h (k := k) (by omega) (by omega)
  obtain ⟨r3, n3, v3⟩ := val_one_add h (k := k + 1) (by omega) (by omega)
  have hone : c.one = ((2 ^ (c.N - 2) : ℕ) : ℤ) := by rw [one_eq h]; push_cast; rfl
  have hmid := mid_one_add h (k := k + 1) (by omega)
  have hkc : (2 : ℤ) ^ (c.fb - 1) = (k : ℤ) := by rw [hk]; push_cast; rfl
  have heps : (2 : ℚ) ^ (-(c.fb : ℤ)) * 2 * k = 1 := by
    have : (2 : ℚ) ^ c.fb = 2 * k := by exact_mod_cast e1
    rw [mul_assoc, ← this, zpow_neg, zpow_natCast, inv_mul_cancel₀ (by positivity)]
  have hhalf : (2 : ℚ) ^ (-(c.fb : ℤ) - 1) = 2 ^ (-(c.fb : ℤ)) / 2 := by
    rw [zpow_sub₀ (by norm_num), zpow_one]
  push_cast at r1 n1 v1 r3 n3 v3 hmid
  rw [hkc]
  have hy : c.fmt.val (c.one + 1) * c.fmt.val (c.one + k) = c.fmt.mid (2 ^ (c.N - 2) + (k + 1)) := by
    rw [v1, v2, hmid, hhalf]
    linear_combination (2 : ℚ) ^ (-(c.fb : ℤ)) * heps / 2
  have hle : 2 ^ c.fb ≤ 2 ^ (c.N - 3) := Nat.pow_le_pow_right (by norm_num) (by unfold Cfg.fb; omega)
  have e4 : 2 ^ (c.N - 1) = 2 * 2 ^ (c.N - 2) := by rw [show c.N - 1 = (c.N - 2) + 1 by omega, pow_succ]; ring
  have hmax : 2 ^ (c.N - 2) + (k + 1) + 1 ≤ c.fmt.maxBody := by
    unfold Format.maxBody
    simp only [Cfg.fmt]
    by_cases hs : c.spec = .withNanInf
    · simp only [hs, decide_true, if_true]; omega
    · simp only [hs, decide_false, Bool.false_eq_true, if_false]; omega
  have hN1 : 1 ≤ c.fmt.N := by show 1 ≤ c.N; omega
  have ht := Format.isTrunc_mid hN1 (show 1 ≤ 2 ^ (c.N - 2) + (k + 1) by omega) hmax
  have hpat : ((2 ^ (c.N - 2) + (k + 1) : ℕ) : ℤ) = c.one + k + 1 := by rw [hone]; push_cast; ring
  rw [← hy] at ht
  refine ⟨r1, r2, ?_, ?_⟩
  · have ho := outcome_mul h hF r1 r2
    have hs : c.SafeMag (c.fmt.val (c.one + 1) * c.fmt.val (c.one + k)) := by
      have h1 : (2 : ℚ) ^ (-(c.fb : ℤ)) ≤ 1 := zpow_le_one_of_nonpos₀ (by norm_num) (by omega)
      have h0 : (0 : ℚ) < 2 ^ (-(c.fb : ℤ)) := by positivity
      have h2 : (k : ℚ) * 2 ^ (-(c.fb : ℤ)) = 1 / 2 := by linarith
      have h3 : c.fmt.val (c.one + 1) * c.fmt.val (c.one + k) = 3 / 2 + 3 / 2 * 2 ^ (-(c.fb : ℤ)) := by
        rw [v1, v2, h2]; ring
      rw [h3]
      refine safeMag_near_one h ?_ ?_ <;> rw [abs_of_pos (by positivity)] <;> linarith
    obtain ⟨v, w1, w2⟩ := ho.1 (Or.inr hs)
    rw [w1, ← hpat, isCut0_unique w2 (Or.inr ht)]
  · have := ht.std_far hN1 (fun hn => by
      unfold Format.Near at hn
      rw [hy, Int.natAbs_natCast, Int.even_iff] at hn
      rcases hn with hn | hn | hn
      · omega
      · have := (hn.trans_le (le_abs_self _)).false
        exact this
      · have := hn.2
        omega)
    rw [Int.sign_eq_one_of_pos (by omega), hpat] at this
    rwa [show c.one + (k : ℤ) + 2 = c.one + k + 1 + 1 by ring]

example : P8.WF ∧ 2 ≤ P8.fb ∧ P8.fb + 2 ≤ P8.F ∧ P8.one = 64 ∧ Posit.mul P8 65 80 = .ok 81 ∧
    P8.fmt.IsStd (P8.fmt.val 65 * P8.fmt.val 80) 82 := by decide +kernel

end Verif
