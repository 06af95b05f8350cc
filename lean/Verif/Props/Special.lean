import Verif.Props.Algebra
import Verif.Lemmas.Consts
import Verif.Spec.Special

/-!
# Neutral elements (C13), NaN (C14), infinity and division by zero (C15), reciprocal (C16)
-/

namespace Verif
open Fmt

variable {c : Cfg}

/-! ## C13 -/

/-- **C13**, sums: `x+0` and `0+x` are `x`, for every pattern whatsoever. -/
theorem C13_add_zero (c : Cfg) (x : ℤ) : Posit.add c x 0 = .ok x ∧ Posit.add c 0 x = .ok x := by
  unfold Posit.add Posit.isZero
  by_cases h : x = 0 <;> simp [h]

example : Posit.add P32 1 0 = .ok 1 ∧ Posit.add P32 0 (-77) = .ok (-77) := by decide +kernel

/-- **C13**, products with zero and quotients of zero: for every real `x`, `x*0 = 0*x = 0`, and `0/x = 0` if `x ≠ 0`. -/
theorem C13_mul_zero (h : c.WF) {x : ℤ} (hx : c.fmt.IsReal x) :
    Posit.mul c x 0 = .ok 0 ∧ Posit.mul c 0 x = .ok 0 ∧ (x ≠ 0 → Posit.div c 0 x = .ok 0) := by
  by_cases h0 : x = 0
  · subst h0
    have : Posit.mul c 0 0 = .ok 0 := by
      unfold Posit.mul; rw [unpack_zero h]; rfl
    exact ⟨this, this, fun h => absurd rfl h⟩
  · obtain ⟨e, f, hu⟩ := unpack_real h hx h0
    refine ⟨?_, ?_, fun _ => ?_⟩
    · unfold Posit.mul; rw [hu.eq, unpack_zero h]; rfl
    · unfold Posit.mul; rw [hu.eq, unpack_zero h]; rfl
    · unfold Posit.div; rw [hu.eq, unpack_zero h]; rfl

example : P12.WF ∧ P12.fmt.IsReal (-1234) ∧ Posit.mul P12 (-1234) 0 = .ok 0 ∧ Posit.div P12 0 (-1234) = .ok 0 := by
  decide +kernel

/-- **C13**, the unit: `x*1 = 1*x = x/1 = x` bit for bit, for real `x` of safe magnitude. Missing: the magnitudes that
`pack_posit` cannot handle, see `C13_one_ub`. -/
theorem C13_one_partial (h : c.WF) (hF : c.fb + 2 ≤ c.F) {x : ℤ} (hx : c.fmt.IsReal x)
    (hs : x = 0 ∨ c.SafeMag (c.fmt.val x)) :
    Posit.mul c x c.one = .ok x ∧ Posit.mul c c.one x = .ok x ∧ Posit.div c x c.one = .ok x := by
  obtain ⟨o1, o2⟩ := one_real h
  by_cases h0 : x = 0
  · subst h0
    exact ⟨(C13_mul_zero h o1).2.1, (C13_mul_zero h o1).1, (C13_mul_zero h o1).2.2 o2⟩
  · have hs := hs.resolve_left h0
    have e1 : c.fmt.val x * c.fmt.val c.one = c.fmt.val x := by rw [val_one h, mul_one]
    have e2 : c.fmt.val c.one * c.fmt.val x = c.fmt.val x := by rw [val_one h, one_mul]
    have e3 : c.fmt.val x / c.fmt.val c.one = c.fmt.val x := by rw [val_one h, div_one]
    exact ⟨C08_mul_exact h hF hx h0 o1 o2 (by rwa [e1]) hx e1.symm,
      C08_mul_exact h hF o1 o2 hx h0 (by rwa [e2]) hx e2.symm,
      C09_div_exact h hF hx h0 o1 o2 (by rwa [e3]) hx e3.symm⟩

example : P32.WF ∧ P32.fb + 2 ≤ P32.F ∧ P32.fmt.IsReal (-123456789) ∧ P32.SafeMag (P32.fmt.val (-123456789)) ∧
    Posit.mul P32 (-123456789) P32.one = .ok (-123456789) := by decide +kernel

/-- **C13**, the unit, for every real `x` when `N+1 < max(32,H)`. -/
theorem C13_one (h : c.WF) (hF : c.fb + 2 ≤ c.F) (hN : c.N + 1 < pw c.H) {x : ℤ} (hx : c.fmt.IsReal x) :
    Posit.mul c x c.one = .ok x ∧ Posit.mul c c.one x = .ok x ∧ Posit.div c x c.one = .ok x :=
  C13_one_partial h hF hx (Or.inr (safeMag_of_narrow h hN _))

example : P28.WF ∧ P28.fb + 2 ≤ P28.F ∧ P28.N + 1 < pw P28.H ∧ P28.fmt.IsReal (-1) ∧
    Posit.div P28 (-1) P28.one = .ok (-1) := by decide +kernel

/-- **C13**, the unit, fails for all other real `x`: the operations are undefined. -/
theorem C13_one_ub (h : c.WF) (hF : c.fb + 2 ≤ c.F) {x : ℤ} (hx : c.fmt.IsReal x) (h0 : x ≠ 0)
    (hs : ¬ c.SafeMag (c.fmt.val x)) :
    Posit.mul c x c.one = .error .shiftAmount ∧ Posit.div c x c.one = .error .shiftAmount := by
  obtain ⟨o1, o2⟩ := one_real h
  exact ⟨C08_mul_ub h hF hx h0 o1 o2 (by rwa [val_one h, mul_one]),
    C09_div_ub h hF hx h0 o1 o2 (by rwa [val_one h, div_one])⟩

example : P32.WF ∧ P32.fb + 2 ≤ P32.F ∧ P32.fmt.IsReal 3 ∧ ¬ P32.SafeMag (P32.fmt.val 3) := by decide +kernel

/-! ## C14 -/

/-- decoding is total on canonical patterns -/
theorem unpack_total (h : c.WF) {v : ℤ} (hv : c.fmt.IsCanonical v) : ∃ u, Posit.unpack c v = .ok u := by
  rcases unpack_cases h hv with h0 | ⟨-, -, e, f, hu⟩ | ⟨-, -, hu⟩ | ⟨-, hu⟩
  · exact ⟨_, by rw [h0]; exact unpack_zero h⟩
  · exact ⟨_, hu.eq⟩
  · exact ⟨_, hu⟩
  · exact ⟨_, hu⟩

theorem unpack_top (h : c.WF) (hs : c.spec ≠ .withInf) : Posit.unpack c c.topPat = .ok (Unp.ofTy .nan) := C01_unpack_nan h hs

theorem topPat_ne (c : Cfg) : c.topPat ≠ 0 := by
  unfold Cfg.topPat
  have : (0 : ℤ) < 2 ^ (c.N - 1) := by positivity
  omega

theorem topPat_canonical (c : Cfg) : c.fmt.IsCanonical c.topPat := by
  unfold Cfg.topPat Format.IsCanonical
  have : (0 : ℤ) < 2 ^ (c.N - 1) := by positivity
  simp only [fmt_N]; omega

/-- **C14**, NaN on the left: every operation with NaN as first operand returns NaN, whatever the other canonical
operands are (for a difference: whenever the negation of the second operand is defined and canonical). Missing: NaN on
the right, see `C14_nan_right`. -/
theorem C14_nan_left_partial (h : c.WF) (hs : c.spec ≠ .withInf) {y z : ℤ} (hy : c.fmt.IsCanonical y)
    (hz : c.fmt.IsCanonical z) :
    Posit.add c c.topPat y = .ok c.topPat ∧ Posit.mul c c.topPat y = .ok c.topPat ∧
    Posit.div c c.topPat y = .ok c.topPat ∧ Posit.fma c c.topPat y z = .ok c.topPat ∧
    (y ≠ c.topPat → Posit.sub c c.topPat y = .ok c.topPat) := by
  obtain ⟨u, hu⟩ := unpack_total h hy
  obtain ⟨w, hw⟩ := unpack_total h hz
  have hp : Posit.pack c (Unp.ofTy .nan) = .ok c.topPat := (C03_pack_special h false 0 0).2.1
  have hadd : ∀ {y}, c.fmt.IsCanonical y → Posit.add c c.topPat y = .ok c.topPat := by
    intro y hy
    obtain ⟨u, hu⟩ := unpack_total h hy
    unfold Posit.add Posit.isZero
    simp only [topPat_ne c, decide_false, Bool.false_eq_true, if_false]
    by_cases h0 : y = 0
    · simp [h0]
    · simp only [h0, decide_false, Bool.false_eq_true, if_false]
      rw [unpack_top h hs, hu]
      simpa [Unp.add, bind, Except.bind, Unp.ofTy] using hp
  refine ⟨hadd hy, ?_, ?_, ?_, fun hne => ?_⟩
  · unfold Posit.mul
    rw [unpack_top h hs, hu]
    simpa [Unp.mul, bind, Except.bind, Unp.ofTy] using hp
  · unfold Posit.div
    rw [unpack_top h hs, hu]
    simpa [Unp.div, bind, Except.bind, Unp.ofTy] using hp
  · unfold Posit.fma
    rw [unpack_top h hs, hu, hw]
    simpa [Unp.mul, Unp.add, bind, Except.bind, Unp.ofTy] using hp
  · unfold Posit.sub
    unfold Cfg.topPat at hne
    have hc : -(2 ^ (c.N - 1)) < y ∧ y < 2 ^ (c.N - 1) := by
      unfold Format.IsCanonical at hy; simp only [fmt_N] at hy; omega
    rw [neg_ok h (by zify; rw [abs_lt]; omega)]
    simp only [bind, Except.bind]
    apply hadd
    unfold Format.IsCanonical; simp only [fmt_N]; omega

example : P12.WF ∧ P12.spec ≠ .withInf ∧ P12.fmt.IsCanonical 700 ∧ P12.topPat = P12.nan ∧ Posit.isNaN P12 P12.topPat = true ∧
    Posit.sub P12 P12.topPat 700 = .ok P12.topPat := by decide +kernel

/-- **C14** is false for NaN on the right: for every real nonzero `x` of safe magnitude, `x+NaN`, `x*NaN` and `x/NaN`
return `x` itself. Only a zero operand of a sum lets the NaN through. -/
theorem C14_nan_right (h : c.WF) (hF : c.fb ≤ c.F) (hs : c.spec ≠ .withInf) {x : ℤ} (hx : c.fmt.IsReal x) (h0 : x ≠ 0)
    (hm : c.SafeMag (c.fmt.val x)) :
    Posit.add c x c.topPat = .ok x ∧ Posit.mul c x c.topPat = .ok x ∧ Posit.div c x c.topPat = .ok x ∧
    Posit.add c 0 c.topPat = .ok c.topPat ∧ Posit.mul c 0 c.topPat = .ok 0 ∧ Posit.div c 0 c.topPat = .ok 0 := by
  obtain ⟨e, f, hu⟩ := unpack_real h hx h0
  have hp : Posit.pack c ⟨.regular, x < 0, e, f⟩ = .ok x := by
    have := C02_roundtrip_partial h hF hx.canonical (fun _ _ => hm)
    rw [hu.eq] at this
    simpa [bind, Except.bind] using this
  refine ⟨?_, ?_, ?_, (C13_add_zero _ _).2, ?_, ?_⟩
  · unfold Posit.add Posit.isZero
    simp only [topPat_ne c, h0, decide_false, Bool.false_eq_true, if_false]
    rw [unpack_top h hs, hu.eq]
    simpa [Unp.add, bind, Except.bind, Unp.ofTy] using hp
  · unfold Posit.mul
    rw [unpack_top h hs, hu.eq]
    simpa [Unp.mul, bind, Except.bind, Unp.ofTy] using hp
  · unfold Posit.div
    rw [unpack_top h hs, hu.eq]
    simpa [Unp.div, bind, Except.bind, Unp.ofTy] using hp
  · unfold Posit.mul
    rw [unpack_top h hs, unpack_zero h]; rfl
  · unfold Posit.div
    rw [unpack_top h hs, unpack_zero h]; rfl

example : P12.WF ∧ P12.fb ≤ P12.F ∧ P12.spec ≠ .withInf ∧ P12.fmt.IsReal 700 ∧ P12.SafeMag (P12.fmt.val 700) ∧
    Posit.mul P12 700 P12.nan = .ok 700 := by decide +kernel

/-- **C14**, counterexamples on the right: `1*NaN = 1`, `1+NaN = 1`, `fma(1,1,NaN) = 1`, `fma(1,NaN,1) = 2`, and
`1 - NaN` is undefined for `Posit<int16_t,12,1,uint16_t>`. -/
theorem C14_not_always :
    P12.WF ∧ Posit.isNaN P12 P12.nan = true ∧ Posit.mul P12 P12.one P12.nan = .ok P12.one ∧
    Posit.add P12 P12.one P12.nan = .ok P12.one ∧ Posit.fma P12 P12.one P12.one P12.nan = .ok P12.one ∧
    Posit.fma P12 P12.one P12.nan P12.one = .ok P12.two ∧ Posit.sub P12 P12.one P12.nan = .error .shiftValue := by
  decide +kernel

/-! ## C15 -/

theorem infPat_canonical (h : c.WF) (neg : Bool) : c.fmt.IsCanonical (c.infPat neg) := by
  have hg := h.pow_ge
  unfold Cfg.infPat Cfg.topPat Format.IsCanonical
  simp only [fmt_N]
  split_ifs <;> omega

theorem infPat_ne (h : c.WF) (neg : Bool) : c.infPat neg ≠ 0 := by
  have hg := h.pow_ge
  unfold Cfg.infPat Cfg.topPat
  split_ifs <;> omega

/-- in a format with one infinity the decoded sign is always negative -/
def Cfg.infSign (c : Cfg) (neg : Bool) : Bool := if c.spec = .withNanInf then neg else true

theorem unpack_inf (h : c.WF) (hs : c.spec ≠ .withNan) (neg : Bool) :
    Posit.unpack c (c.infPat neg) = .ok (Unp.ofTy .infinity (c.infSign neg)) := by
  unfold Cfg.infPat Cfg.infSign Cfg.topPat
  cases hc : c.spec
  · exact absurd hc hs
  · simpa using (C01_unpack_inf h).1 hc
  · have := (C01_unpack_inf h).2 hc
    cases neg
    · simpa using this.1
    · simpa using this.2

theorem pack_inf (h : c.WF) (neg : Bool) : Posit.pack c (Unp.ofTy .infinity neg) = .ok (c.infPat neg) := by
  rw [Unp.ofTy, (C03_pack_special h neg 0 0).2.2]
  rfl

/-- **C15**, the rules that hold: for every real `x` and each infinity `∞` of a format that has one,
`x+∞ = ∞+x = ∞`; for `x ≠ 0` the products and `∞/x` are infinities of the product sign (one unsigned infinity in the
formats with a single one); `0/∞ = 0`; `0*∞`, `∞*0` and `∞/∞` give the pattern `1000…0` (NaN where the format has it).
Missing: `x/∞`, see `C15_div_inf`. -/
theorem C15_inf_partial (h : c.WF) (hs : c.spec ≠ .withNan) (neg neg' : Bool) {x : ℤ} (hx : c.fmt.IsReal x) :
    Posit.add c x (c.infPat neg) = .ok (c.infPat neg) ∧ Posit.add c (c.infPat neg) x = .ok (c.infPat neg) ∧
    (x ≠ 0 → Posit.mul c x (c.infPat neg) = .ok (c.infPat (xor (x < 0) neg)) ∧
      Posit.mul c (c.infPat neg) x = .ok (c.infPat (xor neg (x < 0))) ∧
      Posit.div c (c.infPat neg) x = .ok (c.infPat (xor neg (x < 0)))) ∧
    Posit.div c 0 (c.infPat neg) = .ok 0 ∧
    Posit.mul c 0 (c.infPat neg) = .ok c.topPat ∧ Posit.mul c (c.infPat neg) 0 = .ok c.topPat ∧
    Posit.div c (c.infPat neg) (c.infPat neg') = .ok c.topPat ∧
    Posit.mul c (c.infPat neg) (c.infPat neg') = .ok (c.infPat (xor neg neg')) := by
  have hi := unpack_inf h hs
  have hz := unpack_zero h
  have hn : Posit.pack c (Unp.ofTy .nan) = .ok c.topPat := (C03_pack_special h false 0 0).2.1
  have hsgn : ∀ b, c.infPat (c.infSign b) = c.infPat b := by
    intro b; unfold Cfg.infPat Cfg.infSign; split_ifs <;> rfl
  have hsgn2 : ∀ a b, c.infPat (xor a (c.infSign b)) = c.infPat (xor a b) := by
    intro a b; unfold Cfg.infPat Cfg.infSign; split_ifs <;> rfl
  have hsgn3 : ∀ a b, c.infPat (xor (c.infSign a) b) = c.infPat (xor a b) := by
    intro a b; unfold Cfg.infPat Cfg.infSign; split_ifs <;> rfl
  refine ⟨?_, ?_, fun h0 => ?_, ?_, ?_, ?_, ?_, ?_⟩
  · by_cases h0 : x = 0
    · rw [h0]; exact (C13_add_zero _ _).2
    · obtain ⟨e, f, hu⟩ := unpack_real h hx h0
      unfold Posit.add Posit.isZero
      simp only [infPat_ne h neg, h0, decide_false, Bool.false_eq_true, if_false]
      rw [hi, hu.eq]
      have := pack_inf h (c.infSign neg)
      rw [hsgn] at this
      simpa [Unp.add, bind, Except.bind, Unp.ofTy] using this
  · by_cases h0 : x = 0
    · rw [h0]; exact (C13_add_zero _ _).1
    · obtain ⟨e, f, hu⟩ := unpack_real h hx h0
      unfold Posit.add Posit.isZero
      simp only [infPat_ne h neg, h0, decide_false, Bool.false_eq_true, if_false]
      rw [hi, hu.eq]
      have := pack_inf h (c.infSign neg)
      rw [hsgn] at this
      simpa [Unp.add, bind, Except.bind, Unp.ofTy] using this
  · obtain ⟨e, f, hu⟩ := unpack_real h hx h0
    refine ⟨?_, ?_, ?_⟩
    · unfold Posit.mul
      rw [hi, hu.eq, ← hsgn2]
      exact pack_inf h _
    · unfold Posit.mul
      rw [hi, hu.eq, ← hsgn3]
      exact pack_inf h _
    · unfold Posit.div
      rw [hi, hu.eq, ← hsgn3]
      exact pack_inf h _
  · unfold Posit.div; rw [hi, hz]; rfl
  · unfold Posit.mul; rw [hi, hz]; exact hn
  · unfold Posit.mul; rw [hi, hz]; exact hn
  · unfold Posit.div; rw [hi, hi]; exact hn
  · unfold Posit.mul
    rw [hi, hi, ← hsgn2, ← hsgn3]
    exact pack_inf h _

example : P8i.WF ∧ P8i.spec ≠ .withNan ∧ P8i.fmt.IsReal (-40) ∧ P8i.infPat true = -127 ∧
    Posit.mul P8i (-40) (-127) = .ok 127 ∧ Posit.div P8i (-127) (-40) = .ok 127 ∧
    P16.WF ∧ P16.infPat false = -32768 ∧ Posit.add P16 77 (-32768) = .ok (-32768) := by decide +kernel

/-- **C15**, differences of infinities in the formats with two of them: `∞ - ∞` is NaN, `∞ - (-∞) = ∞`,
`x - ∞ = -∞` for real `x`. -/
theorem C15_sub_inf (h : c.WF) (hs : c.spec = .withNanInf) (neg : Bool) {x : ℤ} (hx : c.fmt.IsReal x) :
    Posit.sub c (c.infPat neg) (c.infPat neg) = .ok c.topPat ∧
    Posit.sub c (c.infPat neg) (c.infPat (!neg)) = .ok (c.infPat neg) ∧
    Posit.sub c x (c.infPat neg) = .ok (c.infPat (!neg)) := by
  have hneg : ∀ b, Posit.neg c (c.infPat b) = .ok (c.infPat (!b)) := by
    intro b
    have := C06_neg_inf h
    unfold Cfg.infPat
    rw [if_pos hs, if_pos hs]
    cases b
    · exact this.1
    · exact this.2
  have hi := unpack_inf h (c := c) (by rw [hs]; simp)
  have hsg : ∀ b, c.infSign b = b := by intro b; unfold Cfg.infSign; rw [if_pos hs]
  have hn : Posit.pack c (Unp.ofTy .nan) = .ok c.topPat := (C03_pack_special h false 0 0).2.1
  have hadd : ∀ a b, Posit.add c (c.infPat a) (c.infPat b) =
      if a = b then .ok (c.infPat a) else .ok c.topPat := by
    intro a b
    unfold Posit.add Posit.isZero
    simp only [infPat_ne h, decide_false, Bool.false_eq_true, if_false]
    rw [hi, hi, hsg, hsg]
    have := pack_inf h
    cases a <;> cases b <;> simp [Unp.add, bind, Except.bind, Unp.ofTy] at hn this ⊢ <;> tauto
  unfold Posit.sub
  rw [hneg, hneg]
  simp only [bind, Except.bind, Bool.not_not]
  refine ⟨?_, ?_, ?_⟩
  · rw [hadd, if_neg (by cases neg <;> simp)]
  · rw [hadd, if_pos rfl]
  · exact (C15_inf_partial h (by rw [hs]; simp) (!neg) false hx).1

example : P8i.WF ∧ P8i.spec = .withNanInf ∧ P8i.fmt.IsReal (-40) ∧ Posit.sub P8i 127 127 = .ok (-128) := by
  decide +kernel

/-- **C15**, division by zero: `x/0` is infinity with the sign of `x` for real nonzero `x` (the pattern `1000…0`, i.e.
NaN, in a format without infinity); `0/0` is `1000…0`; `∞/0 = ∞`. -/
theorem C15_div_zero (h : c.WF) {x : ℤ} (hx : c.fmt.IsReal x) :
    (x ≠ 0 → Posit.div c x 0 = .ok (c.infPat (x < 0))) ∧ Posit.div c 0 0 = .ok c.topPat ∧
    (c.spec ≠ .withNan → ∀ neg, Posit.div c (c.infPat neg) 0 = .ok (c.infPat neg)) := by
  have hz := unpack_zero h
  refine ⟨fun h0 => ?_, ?_, fun hs neg => ?_⟩
  · obtain ⟨e, f, hu⟩ := unpack_real h hx h0
    unfold Posit.div
    rw [hu.eq, hz]
    exact pack_inf h _
  · unfold Posit.div
    rw [hz]
    exact (C03_pack_special h false 0 0).2.1
  · unfold Posit.div
    rw [unpack_inf h hs, hz]
    have := pack_inf h (c.infSign neg)
    rw [show c.infPat (c.infSign neg) = c.infPat neg by unfold Cfg.infPat Cfg.infSign; split_ifs <;> rfl] at this
    exact this

example : P8i.WF ∧ P8i.fmt.IsReal (-40) ∧ Posit.div P8i (-40) 0 = .ok (-127) ∧ Posit.div P12 5 0 = .ok P12.nan := by
  decide +kernel

/-- **C15** is false for `x/∞`: for every real nonzero `x` it is an infinity instead of zero. -/
theorem C15_div_inf (h : c.WF) (hs : c.spec ≠ .withNan) (neg : Bool) {x : ℤ} (hx : c.fmt.IsReal x) (h0 : x ≠ 0) :
    Posit.div c x (c.infPat neg) = .ok (c.infPat (xor (x < 0) neg)) ∧ c.infPat (xor (x < 0) neg) ≠ 0 := by
  obtain ⟨e, f, hu⟩ := unpack_real h hx h0
  refine ⟨?_, infPat_ne h _⟩
  have hsgn2 : ∀ a b, c.infPat (xor a (c.infSign b)) = c.infPat (xor a b) := by
    intro a b; unfold Cfg.infPat Cfg.infSign; split_ifs <;> rfl
  unfold Posit.div
  rw [unpack_inf h hs, hu.eq, ← hsgn2]
  exact pack_inf h _

example : P8i.WF ∧ P8i.spec ≠ .withNan ∧ P8i.fmt.IsReal (-40) ∧ Posit.div P8i (-40) 127 = .ok (-127) := by
  decide +kernel

/-- **C15**, counterexamples: `1/∞ = ∞` for `Posit<int8_t,8,2,uint8_t,WithNanInf>` and `Posit<int16_t,16,2,uint16_t,WithInf>`. -/
theorem C15_not_always :
    (P8i.WF ∧ Posit.isInfinity P8i P8i.pinf = true ∧ Posit.div P8i P8i.one P8i.pinf = .ok P8i.pinf) ∧
    (P16.WF ∧ Posit.isInfinity P16 P16.pinf = true ∧ Posit.div P16 P16.one P16.pinf = .ok P16.pinf) := by
  decide +kernel

/-! ## C16 -/

theorem inS_zero (w : ℕ) : InS w 0 := by
  have : (0 : ℤ) < 2 ^ (w - 1) := by positivity
  unfold InS; omega

/-- **C16**: the reciprocal of a nonzero real is `1/x` rounded toward zero, if `1/x` is in the safe range and, in the
formats with two infinities, `x` is not `±minpos` (its reciprocal exceeds the greatest posit). -/
theorem C16_inv_partial (h : c.WF) (hF : c.fb + 2 ≤ c.F) {x : ℤ} (hx : c.fmt.IsReal x) (h0 : x ≠ 0)
    (hni : c.spec = .withNanInf → x ≠ 1 ∧ x ≠ -1) (hs : c.SafeMag (1 / c.fmt.val x)) :
    ∃ v, Posit.inv c x = .ok v ∧ c.fmt.IsTrunc (1 / c.fmt.val x) v :=
  (inv_real h hF hx h0 (fun hw he => by
    have hh := hni hw
    rw [Format.abs_val hx.inRange h0, ← posVal_one h] at he
    have h1 : x.natAbs = 1 := by
      have hlt := hx.inRange
      have h4 : 4 ≤ 2 ^ (c.N - 1) := by have := h.pow_ge; exact_mod_cast this
      have a := (posVal_le_iff (N := c.N) (es := c.es) (p := x.natAbs) (q := 1) (by omega) hlt le_rfl (by omega)).mp he.le
      omega
    omega)).1 hs

example : P32.WF ∧ P32.fb + 2 ≤ P32.F ∧ P32.fmt.IsReal 1234567890 ∧ P32.SafeMag (1 / P32.fmt.val 1234567890) ∧
    Posit.inv P32 1234567890 = .ok 901416783 := by decide +kernel

/-- **C16**: whenever `inv(x)` differs in outcome from `1/x`, `x` is zero, special, or `±minpos` of a format with two
infinities: for all other `x`, `inv(x)` and `one()/x` are the same bits or both undefined. -/
theorem C16_inv_eq_div (h : c.WF) (hF : c.fb + 2 ≤ c.F) {x : ℤ} (hx : c.fmt.IsReal x) (h0 : x ≠ 0)
    (hni : c.spec = .withNanInf → x ≠ 1 ∧ x ≠ -1) : Posit.inv c x = Posit.div c c.one x := by
  obtain ⟨o1, o2⟩ := one_real h
  have hv := val_one h
  by_cases hs : c.SafeMag (1 / c.fmt.val x)
  · obtain ⟨v, h1, h2⟩ := C16_inv_partial h hF hx h0 hni hs
    obtain ⟨w, h3, h4⟩ := C09_div_partial h hF o1 o2 hx h0 (by rwa [hv])
    rw [hv] at h4
    rw [h1, h3, h2.unique h4]
  · rw [C09_div_ub h hF o1 o2 hx h0 (by rwa [hv])]
    refine (inv_real h hF hx h0 (fun hw he => ?_)).2 hs
    have hh := hni hw
    rw [Format.abs_val hx.inRange h0, ← posVal_one h] at he
    have hlt := hx.inRange
    have h4 : 4 ≤ 2 ^ (c.N - 1) := by have := h.pow_ge; exact_mod_cast this
    have a := (posVal_le_iff (N := c.N) (es := c.es) (p := x.natAbs) (q := 1) (by omega) hlt le_rfl (by omega)).mp he.le
    omega

example : P8i.WF ∧ P8i.fb + 2 ≤ P8i.F ∧ P8i.fmt.IsReal (-77) ∧ Posit.inv P8i (-77) = .ok (-49) ∧
    Posit.div P8i P8i.one (-77) = .ok (-49) := by decide +kernel

/-- **C16**: the reciprocal of a power of two is the power of two with the opposite exponent, exactly, and inverting
again returns the argument. -/
theorem C16_inv_pow2 (h : c.WF) (hF : c.fb + 2 ≤ c.F) {x : ℤ} (hx : c.fmt.IsReal x) (h0 : x ≠ 0)
    (hni : c.spec = .withNanInf → x ≠ 1 ∧ x ≠ -1) {k : ℤ} (hk : |c.fmt.val x| = 2 ^ k)
    (hs : c.SafeMag (2 ^ k)) (hs' : c.SafeMag (2 ^ (-k))) :
    ∃ v, Posit.inv c x = .ok v ∧ c.fmt.val v = 1 / c.fmt.val x ∧ Posit.inv c v = .ok x := by
  have hlt := hx.inRange
  have hlt' : x.natAbs < 2 ^ (c.N - 1) := hlt
  have hm := maxBody_ge h
  have h4 : 4 ≤ 2 ^ (c.N - 1) := by have := h.pow_ge; exact_mod_cast this
  have hle := hx.natAbs_le
  have hb : posVal c.N c.es x.natAbs = 2 ^ k := by rw [← hk, Format.abs_val hlt h0]; rfl
  have hr := posVal_reflect (by omega) hlt' hb
  have hp1 : 1 ≤ 2 ^ (c.N - 1) - x.natAbs := by omega
  have hp2 : 2 ^ (c.N - 1) - x.natAbs ≤ c.fmt.maxBody := by
    unfold Format.maxBody at hle ⊢
    simp only [Cfg.fmt] at hle ⊢
    by_cases hw : c.spec = .withNanInf
    · have := hni hw
      simp only [hw, decide_true, if_true] at hle ⊢; omega
    · simp only [hw, decide_false, Bool.false_eq_true, if_false]; omega
  have hni' : ∀ {v : ℤ}, v.natAbs = 2 ^ (c.N - 1) - x.natAbs → c.spec = .withNanInf → v ≠ 1 ∧ v ≠ -1 := by
    intro v hv hw
    have : x.natAbs ≤ 2 ^ (c.N - 1) - 2 := by
      unfold Format.maxBody at hle
      simpa [Cfg.fmt, hw] using hle
    omega
  have main : ∀ {v : ℤ}, v.natAbs = 2 ^ (c.N - 1) - x.natAbs → c.fmt.val v = 1 / c.fmt.val x →
      Posit.inv c x = .ok v ∧ Posit.inv c v = .ok x := by
    intro v hv he
    have hvr : c.fmt.IsReal v := by rw [Format.isReal_iff]; omega
    have hv0 : v ≠ 0 := by omega
    have habs : |1 / c.fmt.val x| = |(2 : ℚ) ^ (-k)| := by
      rw [abs_div, hk, abs_one, one_div, ← zpow_neg, abs_of_pos (by positivity)]
    have habs' : |1 / c.fmt.val v| = |(2 : ℚ) ^ k| := by
      rw [he, one_div_one_div, hk, abs_of_pos (by positivity)]
    constructor
    · obtain ⟨w, h1, h2⟩ := C16_inv_partial h hF hx h0 hni (by rwa [← SafeMag_abs, habs, SafeMag_abs])
      rw [h1, h2.faithful.exact hvr he]
    · obtain ⟨w, h1, h2⟩ := C16_inv_partial h hF hvr hv0 (hni' hv) (by rwa [← SafeMag_abs, habs', SafeMag_abs])
      rw [h1, h2.faithful.exact hx (by rw [he, one_div_one_div])]
  rcases lt_or_gt_of_ne h0 with hn | hp
  · have he : c.fmt.val (-((2 ^ (c.N - 1) - x.natAbs : ℕ) : ℤ)) = 1 / c.fmt.val x := by
      rw [Format.val_neg, Format.val_natCast hp1]
      change -posVal c.N c.es _ = _
      have hvx : c.fmt.val x < 0 := (Format.val_neg_iff hlt).mpr hn
      rw [abs_of_neg hvx] at hk
      rw [hr, zpow_neg, ← hk]; simp
    obtain ⟨m1, m2⟩ := main (by omega) he
    exact ⟨_, m1, he, m2⟩
  · have he : c.fmt.val ((2 ^ (c.N - 1) - x.natAbs : ℕ) : ℤ) = 1 / c.fmt.val x := by
      rw [Format.val_natCast hp1]
      change posVal c.N c.es _ = _
      have hvx : 0 < c.fmt.val x := (Format.val_pos_iff hlt).mpr hp
      rw [abs_of_pos hvx] at hk
      rw [hr, zpow_neg, ← hk]; simp
    obtain ⟨m1, m2⟩ := main (by omega) he
    exact ⟨_, m1, he, m2⟩

example : P12.WF ∧ P12.fb + 2 ≤ P12.F ∧ P12.fmt.IsReal (-1792) ∧ |P12.fmt.val (-1792)| = 2 ^ (4 : ℤ) ∧
    P12.SafeMag (2 ^ (4 : ℤ)) ∧ P12.SafeMag (2 ^ (-4 : ℤ)) ∧ Posit.inv P12 (-1792) = .ok (-256) := by decide +kernel

/-- **C16** is false for zero and infinity in every format: `inv(0) = 0` although `1/0` is infinity (NaN), and
`inv(∞)` is not zero. -/
theorem C16_inv_zero_inf (h : c.WF) :
    Posit.inv c 0 = .ok 0 ∧ Posit.div c c.one 0 = .ok (c.infPat false) ∧ c.infPat false ≠ 0 ∧
    (c.spec ≠ .withNan → ∀ neg, Posit.inv c (c.infPat neg) = .ok (c.infPat neg)) := by
  refine ⟨?_, ?_, infPat_ne h _, fun hs neg => ?_⟩
  · have : Posit.unpackLow c 0 = .ok (Low.mk .zero false 0 0 0) := by
      have hu := unpack_zero h
      have hg := h.pow_ge
      unfold Posit.unpackLow
      have h1 : Posit.isInfinity c 0 = false := by
        unfold Posit.isInfinity; rw [h.pinf_eq, h.ninf_eq]
        have : ¬ ((0 : ℤ) = 2 ^ (c.N - 1) - 1) ∧ ¬ ((0 : ℤ) = -(2 ^ (c.N - 1))) ∧ ¬ ((0 : ℤ) = -(2 ^ (c.N - 1)) + 1) := by omega
        cases hc : c.spec <;> simp [this]
      have h2 : Posit.isNaN c 0 = false := by
        unfold Posit.isNaN; rw [h.nan_eq]
        have : ¬ ((0 : ℤ) = -(2 ^ (c.N - 1))) := by omega
        simp [this]
      rw [h1, h2]; rfl
    unfold Posit.inv
    rw [this]
    simp only [bind, Except.bind, if_true]
    rw [show -(0 : ℤ) = 0 from rfl, arithS_ok' (inS_zero c.H)]
    rfl
  · obtain ⟨o1, o2⟩ := one_real h
    rw [(C15_div_zero h o1).1 o2]
    have : 0 < c.one := by rw [one_eq h]; positivity
    simp only [not_lt.mpr this.le, decide_false]
  · have hi : Posit.isInfinity c (c.infPat neg) = true := by
      unfold Posit.isInfinity Cfg.infPat Cfg.topPat
      rw [h.pinf_eq, h.ninf_eq]
      cases hc : c.spec <;> cases neg <;> simp [hc] at hs ⊢
    have hsg : ∀ b : Bool, decide (c.infPat neg < 0) = c.infSign neg := by
      intro _
      have hg := h.pow_ge
      unfold Cfg.infPat Cfg.infSign Cfg.topPat
      by_cases hw : c.spec = .withNanInf
      · cases neg
        · simp [hw]; omega
        · simp [hw]; omega
      · simp [hw]
    unfold Posit.inv Posit.unpackLow
    rw [hi]
    simp only [bind, Except.bind, if_true]
    rw [show -(0 : ℤ) = 0 from rfl, arithS_ok' (inS_zero c.H)]
    simp only []
    unfold Posit.packLow
    simp only [hsg true]
    rw [h.pinf_eq, h.ninf_eq]
    unfold Cfg.infPat Cfg.infSign Cfg.topPat
    cases hc : c.spec <;> cases neg <;> simp [hc] at hs ⊢

example : P8i.WF ∧ P8i.spec ≠ .withNan ∧ Posit.inv P8i 0 = .ok 0 ∧ Posit.div P8i P8i.one 0 = .ok 127 := by decide +kernel

/-- **C16**, counterexamples: `inv(0) = 0`; `inv(minpos)` of `Posit<int8_t,8,2,uint8_t,WithNanInf>` is infinity, not the
greatest posit; `inv(2^-216)` is undefined for `Posit<int32_t,32,3,uint32_t>`. -/
theorem C16_not_always : P8i.WF ∧ P32.WF ∧ Posit.inv P8i 0 = .ok 0 ∧ Posit.inv P8i 1 = .ok P8i.pinf ∧
    Posit.div P8i P8i.one 1 = .ok P8i.maxpos ∧ P32.fmt.val 8 = 2 ^ (-216 : ℤ) ∧ Posit.inv P32 8 = .error .shiftAmount := by
  decide +kernel

end Verif
