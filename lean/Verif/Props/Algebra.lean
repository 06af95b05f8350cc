import Verif.Props.Arith
import Verif.Props.Encoding

/-!
# Algebraic laws: C12 (commutativity), C42 (monotonicity), C43 (sign symmetry), C44 (closure)
-/

namespace Verif
open Fmt

variable {c : Cfg}

/-- decoding a canonical pattern: zero, real, infinity or NaN -/
theorem unpack_cases (h : c.WF) {v : ℤ} (hv : c.fmt.IsCanonical v) :
    v = 0 ∨ (v ≠ 0 ∧ c.fmt.IsReal v ∧ ∃ e f, Unpacks c v e f) ∨
    (Posit.isInfinity c v = true ∧ Posit.isNaN c v = false ∧ Posit.unpack c v = .ok (Unp.ofTy .infinity (v < 0))) ∨
    (Posit.isNaN c v = true ∧ Posit.unpack c v = .ok (Unp.ofTy .nan)) := by
  have hg := h.pow_ge
  by_cases h0 : v = 0
  · exact Or.inl h0
  rcases canonical_cases h hv with hr | hr | ⟨hw, hr⟩
  · exact Or.inr (Or.inl ⟨h0, hr, unpack_real h hr h0⟩)
  · by_cases hw : c.spec = .withInf
    · refine Or.inr (Or.inr (Or.inl ⟨?_, ?_, ?_⟩))
      · unfold Posit.isInfinity; rw [h.pinf_eq, h.ninf_eq]; simp [hw, hr]
      · unfold Posit.isNaN; simp [hw]
      · rw [hr, (C01_unpack_inf h).1 hw]; simp
    · refine Or.inr (Or.inr (Or.inr ⟨?_, ?_⟩))
      · unfold Posit.isNaN; rw [h.nan_eq]; simp [hw, hr]
      · rw [hr, C01_unpack_nan h hw]
  · have hn : Posit.isNaN c v = false := by
      unfold Posit.isNaN; rw [h.nan_eq]; simp [hw]; omega
    have hi : Posit.isInfinity c v = true := by
      unfold Posit.isInfinity; rw [h.pinf_eq, h.ninf_eq]; simp [hw, hr]
    refine Or.inr (Or.inr (Or.inl ⟨hi, hn, ?_⟩))
    rcases hr with hr | hr
    · rw [show decide (v < 0) = false by rw [decide_eq_false_iff_not]; omega, hr, ((C01_unpack_inf h).2 hw).1]
    · rw [show decide (v < 0) = true by rw [decide_eq_true_eq]; omega, hr, ((C01_unpack_inf h).2 hw).2]

/-! ## C12 -/

/-- **C12**, multiplication: `a*b` and `b*a` have the same outcome (same bits, or both undefined), for all canonical
operands that are not NaN. Missing: NaN, see `C12_not_always`. -/
theorem C12_mul_comm_partial (h : c.WF) {a b : ℤ} (ha : c.fmt.IsCanonical a) (hb : c.fmt.IsCanonical b)
    (hna : Posit.isNaN c a = false) (hnb : Posit.isNaN c b = false) : Posit.mul c a b = Posit.mul c b a := by
  have key : ∀ {v}, c.fmt.IsCanonical v → Posit.isNaN c v = false → ∃ u, Posit.unpack c v = .ok u ∧ u.ty ≠ .nan := by
    intro v hv hn
    rcases unpack_cases h hv with h0 | ⟨-, -, e, f, hu⟩ | ⟨-, -, hu⟩ | ⟨hu, -⟩
    · exact ⟨_, by rw [h0]; exact unpack_zero h, by simp⟩
    · exact ⟨_, hu.eq, by simp⟩
    · exact ⟨_, hu, by simp [Unp.ofTy]⟩
    · rw [hn] at hu; cases hu
  obtain ⟨ua, h1, h2⟩ := key ha hna
  obtain ⟨ub, h3, h4⟩ := key hb hnb
  unfold Posit.mul
  rw [h1, h3]
  simp only [bind, Except.bind]
  rw [mul_comm_unp _ _ _ _ h2 h4]

example : P8i.WF ∧ P8i.fmt.IsCanonical 127 ∧ P8i.fmt.IsCanonical (-3) ∧ Posit.isNaN P8i 127 = false ∧
    Posit.isNaN P8i (-3) = false ∧ Posit.mul P8i 127 (-3) = .ok (-127) := by decide +kernel
example : P32.WF ∧ P32.fmt.IsCanonical 123456789 ∧ P32.fmt.IsCanonical (-3) ∧ Posit.isNaN P32 123456789 = false ∧
    Posit.isNaN P32 (-3) = false := by decide +kernel

/-- **C12**, addition: `a+b` and `b+a` have the same outcome (same bits, or both undefined), for all canonical operands
that are not NaN. Missing: NaN, see `C12_not_always`. -/
theorem C12_add_comm_partial (h : c.WF) {a b : ℤ} (ha : c.fmt.IsCanonical a) (hb : c.fmt.IsCanonical b)
    (hna : Posit.isNaN c a = false) (hnb : Posit.isNaN c b = false) : Posit.add c a b = Posit.add c b a := by
  by_cases ha0 : a = 0
  · subst ha0
    unfold Posit.add Posit.isZero
    by_cases hb0 : b = 0 <;> simp [hb0]
  by_cases hb0 : b = 0
  · subst hb0
    unfold Posit.add Posit.isZero
    simp [ha0]
  have hl : Posit.add c a b = (do
      let ua ← Posit.unpack c a; let ub ← Posit.unpack c b; let r ← Unp.add c.F c.E ua ub; Posit.pack c r) := by
    unfold Posit.add Posit.isZero; simp [ha0, hb0]
  have hr : Posit.add c b a = (do
      let ua ← Posit.unpack c b; let ub ← Posit.unpack c a; let r ← Unp.add c.F c.E ua ub; Posit.pack c r) := by
    unfold Posit.add Posit.isZero; simp [ha0, hb0]
  rcases unpack_cases h ha with h0 | ⟨-, -, ea, fa, hua⟩ | ⟨-, -, hua⟩ | ⟨hu, -⟩
  · exact absurd h0 ha0
  · rcases unpack_cases h hb with h0 | ⟨-, -, eb, fb, hub⟩ | ⟨-, -, hub⟩ | ⟨hu, -⟩
    · exact absurd h0 hb0
    · rw [add_unfold ha0 hb0 hua hub, add_unfold hb0 ha0 hub hua, addRegular_comm]
      · exact (unpacks_addRange h hua hub).1
      · exact (unpacks_addRange h hub hua).1
    · rw [hl, hr, hua.eq, hub]; rfl
    · rw [hnb] at hu; cases hu
  · rcases unpack_cases h hb with h0 | ⟨-, -, eb, fb, hub⟩ | ⟨-, -, hub⟩ | ⟨hu, -⟩
    · exact absurd h0 hb0
    · rw [hl, hr, hua, hub.eq]; rfl
    · rw [hl, hr, hua, hub]
      simp only [bind, Except.bind, Unp.ofTy, Unp.add, reduceCtorEq, or_self, if_false]
      by_cases h1 : a < 0 <;> by_cases h2 : b < 0 <;> simp [h1, h2]
    · rw [hnb] at hu; cases hu
  · rw [hna] at hu; cases hu

example : P8i.WF ∧ P8i.fmt.IsCanonical 127 ∧ P8i.fmt.IsCanonical (-127) ∧ Posit.isNaN P8i 127 = false ∧
    Posit.isNaN P8i (-127) = false ∧ Posit.add P8i 127 (-127) = .ok (-128) := by decide +kernel

/-- **C12**, counterexample: with a NaN operand neither operation commutes. -/
theorem C12_not_always : P8.WF ∧ Posit.isNaN P8 P8.nan = true ∧
    Posit.mul P8 P8.nan 72 = .ok P8.nan ∧ Posit.mul P8 72 P8.nan = .ok 72 ∧
    Posit.add P8 P8.nan 72 = .ok P8.nan ∧ Posit.add P8 72 P8.nan = .ok 72 := by decide +kernel

/-! ## C43 -/

theorem map_neg_bind (h : c.WF) {r : M ℤ} (hr : ∀ v, r = .ok v → c.fmt.IsReal v) :
    (do let v ← r; Posit.neg c v) = r.map fun v => -v := by
  cases r with
  | error _ => rfl
  | ok v => exact neg_ok h (hr v rfl).inRange

/-- closure of multiplication, see C44 -/
theorem mul_real_of_ok (h : c.WF) {a b v : ℤ} (ha : c.fmt.IsReal a) (hb : c.fmt.IsReal b)
    (hv : Posit.mul c a b = .ok v) : c.fmt.IsReal v ∧ (v = 0 ↔ a = 0 ∨ b = 0) := by
  have z : c.fmt.IsReal 0 := by unfold Format.IsReal; omega
  unfold Posit.mul at hv
  by_cases ha0 : a = 0
  · subst ha0
    rw [unpack_zero h] at hv
    by_cases hb0 : b = 0
    · subst hb0
      rw [unpack_zero h] at hv
      injection hv with hv; subst hv; simp [z]
    · obtain ⟨eb, fb, hub⟩ := unpack_real h hb hb0
      rw [hub.eq] at hv
      injection hv with hv; subst hv; simp [z]
  · obtain ⟨ea, fa, hua⟩ := unpack_real h ha ha0
    rw [hua.eq] at hv
    by_cases hb0 : b = 0
    · subst hb0
      rw [unpack_zero h] at hv
      injection hv with hv; subst hv; simp [z]
    · obtain ⟨eb, fb, hub⟩ := unpack_real h hb hb0
      rw [hub.eq] at hv
      simp only [bind, Except.bind, Unp.mul, reduceCtorEq, or_self, if_false] at hv
      cases hm : Unp.mulRegular c.F c.E ⟨.regular, a < 0, ea, fa⟩ ⟨.regular, b < 0, eb, fb⟩ with
      | error _ => rw [hm] at hv; cases hv
      | ok r =>
        rw [hm] at hv
        obtain ⟨k1, k2⟩ := mulRegular_form hm
        obtain ⟨t, n, e, f⟩ := r
        simp only at k1 k2; subst k1
        obtain ⟨q1, q2⟩ := pack_real_of_ok h k2 hv
        exact ⟨q1, by simp [q2, ha0, hb0]⟩

theorem div_real_of_ok (h : c.WF) {a b v : ℤ} (ha : c.fmt.IsReal a) (hb : c.fmt.IsReal b) (hb0 : b ≠ 0)
    (hv : Posit.div c a b = .ok v) : c.fmt.IsReal v ∧ (v = 0 ↔ a = 0) := by
  have z : c.fmt.IsReal 0 := by unfold Format.IsReal; omega
  unfold Posit.div at hv
  obtain ⟨eb, fb, hub⟩ := unpack_real h hb hb0
  by_cases ha0 : a = 0
  · subst ha0
    rw [unpack_zero h, hub.eq] at hv
    injection hv with hv; subst hv; simp [z]
  · obtain ⟨ea, fa, hua⟩ := unpack_real h ha ha0
    rw [hua.eq, hub.eq] at hv
    simp only [bind, Except.bind, Unp.div, reduceCtorEq, or_self, if_false] at hv
    cases hm : Unp.divRegular c.F c.E ⟨.regular, a < 0, ea, fa⟩ ⟨.regular, b < 0, eb, fb⟩ with
    | error _ => rw [hm] at hv; cases hv
    | ok r =>
      rw [hm] at hv
      obtain ⟨k1, k2⟩ := divRegular_form hm
      obtain ⟨t, n, e, f⟩ := r
      simp only at k1 k2; subst k1
      obtain ⟨q1, q2⟩ := pack_real_of_ok h k2 hv
      exact ⟨q1, by simp [q2, ha0]⟩

theorem add_real_of_ok (h : c.WF) {a b v : ℤ} (ha : c.fmt.IsReal a) (hb : c.fmt.IsReal b)
    (hv : Posit.add c a b = .ok v) : c.fmt.IsReal v := by
  have z : c.fmt.IsReal 0 := by unfold Format.IsReal; omega
  by_cases ha0 : a = 0
  · subst ha0
    unfold Posit.add Posit.isZero at hv
    simp only [decide_true, if_true] at hv
    injection hv with hv; subst hv; exact hb
  by_cases hb0 : b = 0
  · subst hb0
    unfold Posit.add Posit.isZero at hv
    simp only [ha0, decide_true, decide_false, if_true, Bool.false_eq_true, if_false] at hv
    injection hv with hv; subst hv; exact ha
  obtain ⟨ea, fa, hua⟩ := unpack_real h ha ha0
  obtain ⟨eb, fb, hub⟩ := unpack_real h hb hb0
  rw [add_unfold ha0 hb0 hua hub] at hv
  simp only [bind, Except.bind] at hv
  cases hm : Unp.addRegular c.F c.E ⟨.regular, a < 0, ea, fa⟩ ⟨.regular, b < 0, eb, fb⟩ with
  | error _ => rw [hm] at hv; cases hv
  | ok r =>
    rw [hm] at hv
    obtain ⟨t, n, e, f⟩ := r
    rcases addRegular_form hm with ⟨k1, k2⟩ | ⟨k1, k2⟩
    · simp only at k1; subst k1
      injection hv with hv; subst hv; exact z
    · simp only at k1 k2; subst k1
      exact (pack_real_of_ok h k2 hv).1

theorem neg_sign {a : ℤ} (h0 : a ≠ 0) : decide (-a < 0) = !decide (a < 0) := by
  by_cases hn : a < 0
  · simp [hn]; omega
  · simp [hn]; omega

/-- **C43**, multiplication: `(-a)*b`, `-(a*b)` and `a*(-b)` have the same outcome for all reals. -/
theorem C43_mul_sign (h : c.WF) {a b : ℤ} (ha : c.fmt.IsReal a) (hb : c.fmt.IsReal b) :
    (do let na ← Posit.neg c a; Posit.mul c na b) = (do let m ← Posit.mul c a b; Posit.neg c m) ∧
    (do let nb ← Posit.neg c b; Posit.mul c a nb) = (do let m ← Posit.mul c a b; Posit.neg c m) := by
  have key : ∀ {a b : ℤ}, c.fmt.IsReal a → c.fmt.IsReal b →
      (do let na ← Posit.neg c a; Posit.mul c na b) = (do let m ← Posit.mul c a b; Posit.neg c m) := by
    intro a b ha hb
    rw [neg_ok h ha.inRange, map_neg_bind h (fun v hv => (mul_real_of_ok h ha hb hv).1)]
    simp only [bind, Except.bind]
    unfold Posit.mul
    by_cases ha0 : a = 0
    · subst ha0
      rw [neg_zero, unpack_zero h]
      by_cases hb0 : b = 0
      · subst hb0; rw [unpack_zero h]; rfl
      · obtain ⟨eb, fb, hub⟩ := unpack_real h hb hb0
        rw [hub.eq]; rfl
    · obtain ⟨ea, fa, hua⟩ := unpack_real h ha ha0
      rw [hua.eq, unpack_neg h ha ha0 hua]
      by_cases hb0 : b = 0
      · subst hb0; rw [unpack_zero h]; rfl
      · obtain ⟨eb, fb, hub⟩ := unpack_real h hb hb0
        rw [hub.eq]
        simp only [bind, Except.bind, Unp.mul, reduceCtorEq, or_self, if_false]
        have := mulRegular_flip c.F c.E ⟨.regular, a < 0, ea, fa⟩ ⟨.regular, b < 0, eb, fb⟩
        unfold Unp.flip at this
        simp only at this
        rw [this]
        cases hm : Unp.mulRegular c.F c.E ⟨.regular, a < 0, ea, fa⟩ ⟨.regular, b < 0, eb, fb⟩ with
        | error _ => rfl
        | ok r =>
          obtain ⟨k1, k2⟩ := mulRegular_form hm
          exact pack_flip' h k1 k2
  refine ⟨key ha hb, ?_⟩
  have hn : ∀ {v}, c.fmt.IsReal v → Posit.isNaN c v = false := fun hv => (real_not_special h hv).2
  have := key hb ha
  rw [C12_mul_comm_partial h hb.canonical ha.canonical (hn hb) (hn ha)] at this
  rw [← this, neg_ok h hb.inRange]
  simp only [bind, Except.bind]
  exact C12_mul_comm_partial h ha.canonical hb.neg.canonical (hn ha) (hn hb.neg)

example : P32.WF ∧ P32.fmt.IsReal 1234567890 ∧ P32.fmt.IsReal 77777777 ∧
    Posit.mul P32 (-1234567890) 77777777 = .ok (-98785165) := by decide +kernel

/-- **C43**, division: `(-a)/b`, `-(a/b)` and `a/(-b)` have the same outcome for real `a` and nonzero real `b`. -/
theorem C43_div_sign (h : c.WF) {a b : ℤ} (ha : c.fmt.IsReal a) (hb : c.fmt.IsReal b) (hb0 : b ≠ 0) :
    (do let na ← Posit.neg c a; Posit.div c na b) = (do let m ← Posit.div c a b; Posit.neg c m) ∧
    (do let nb ← Posit.neg c b; Posit.div c a nb) = (do let m ← Posit.div c a b; Posit.neg c m) := by
  rw [neg_ok h ha.inRange, neg_ok h hb.inRange, map_neg_bind h (fun v hv => (div_real_of_ok h ha hb hb0 hv).1)]
  simp only [bind, Except.bind]
  unfold Posit.div
  obtain ⟨eb, fb, hub⟩ := unpack_real h hb hb0
  rw [hub.eq, unpack_neg h hb hb0 hub]
  by_cases ha0 : a = 0
  · subst ha0
    rw [neg_zero, unpack_zero h]
    exact ⟨rfl, rfl⟩
  · obtain ⟨ea, fa, hua⟩ := unpack_real h ha ha0
    rw [hua.eq, unpack_neg h ha ha0 hua]
    simp only [bind, Except.bind, Unp.div, reduceCtorEq, or_self, if_false]
    have h1 := divRegular_flip c.F c.E ⟨.regular, a < 0, ea, fa⟩ ⟨.regular, b < 0, eb, fb⟩
    have h2 := divRegular_flip_right c.F c.E ⟨.regular, a < 0, ea, fa⟩ ⟨.regular, b < 0, eb, fb⟩
    unfold Unp.flip at h1 h2
    simp only at h1 h2
    rw [h1, h2]
    cases hm : Unp.divRegular c.F c.E ⟨.regular, a < 0, ea, fa⟩ ⟨.regular, b < 0, eb, fb⟩ with
    | error _ => exact ⟨rfl, rfl⟩
    | ok r =>
      obtain ⟨k1, k2⟩ := divRegular_form hm
      exact ⟨pack_flip' h k1 k2, pack_flip' h k1 k2⟩

example : P12.WF ∧ P12.fmt.IsReal 700 ∧ P12.fmt.IsReal (-33) ∧ Posit.div P12 700 (-33) = .ok (-1994) := by
  decide +kernel

/-- **C43**, addition: `(-a)+(-b)` and `-(a+b)` have the same outcome for all reals. -/
theorem C43_add_sign (h : c.WF) {a b : ℤ} (ha : c.fmt.IsReal a) (hb : c.fmt.IsReal b) :
    (do let na ← Posit.neg c a; let nb ← Posit.neg c b; Posit.add c na nb) =
      (do let m ← Posit.add c a b; Posit.neg c m) := by
  rw [neg_ok h ha.inRange, neg_ok h hb.inRange, map_neg_bind h (fun v hv => add_real_of_ok h ha hb hv)]
  simp only [bind, Except.bind]
  by_cases ha0 : a = 0
  · subst ha0
    unfold Posit.add Posit.isZero
    simp [Except.map]
  by_cases hb0 : b = 0
  · subst hb0
    unfold Posit.add Posit.isZero
    simp [ha0, Except.map]
  obtain ⟨ea, fa, hua⟩ := unpack_real h ha ha0
  obtain ⟨eb, fb, hub⟩ := unpack_real h hb hb0
  rw [add_unfold ha0 hb0 hua hub, add_unfold (by omega) (by omega) (unpacks_neg h ha ha0 hua) (unpacks_neg h hb hb0 hub),
    neg_sign ha0, neg_sign hb0]
  have h1 := addRegular_flip c.F c.E ⟨.regular, a < 0, ea, fa⟩ ⟨.regular, b < 0, eb, fb⟩
  unfold Unp.flip at h1
  simp only at h1
  rw [h1]
  simp only [bind, Except.bind]
  cases hm : Unp.addRegular c.F c.E ⟨.regular, a < 0, ea, fa⟩ ⟨.regular, b < 0, eb, fb⟩ with
  | error _ => rfl
  | ok r =>
    rcases addRegular_form hm with ⟨k1, -⟩ | ⟨k1, k2⟩
    · obtain ⟨t, n, e, f⟩ := r
      simp only at k1; subst k1
      rfl
    · have : r.flipNZ = r.flip := by unfold Unp.flipNZ; simp [k1]
      simp only [Except.map, this]
      exact pack_flip' h k1 k2

example : P12.WF ∧ P12.fmt.IsReal 700 ∧ P12.fmt.IsReal (-1033) ∧ Posit.add P12 700 (-1033) = .ok (-820) := by
  decide +kernel

/-! ## C44 -/

/-- **C44**, multiplication: whenever `a*b` of reals is defined the result is real, and zero only for a zero operand. -/
theorem C44_mul_closed_partial (h : c.WF) {a b v : ℤ} (ha : c.fmt.IsReal a) (hb : c.fmt.IsReal b)
    (hv : Posit.mul c a b = .ok v) : c.fmt.IsReal v ∧ c.fmt.IsCanonical v ∧ (v = 0 ↔ a = 0 ∨ b = 0) :=
  ⟨(mul_real_of_ok h ha hb hv).1, (mul_real_of_ok h ha hb hv).1.canonical, (mul_real_of_ok h ha hb hv).2⟩

example : P8i.WF ∧ P8i.fmt.IsReal 1 ∧ P8i.fmt.IsReal (-2) ∧ Posit.mul P8i 1 (-2) = .ok (-1) := by decide +kernel

/-- **C44**, division by a nonzero real: whenever defined the result is real, and zero only for a zero dividend. -/
theorem C44_div_closed_partial (h : c.WF) {a b v : ℤ} (ha : c.fmt.IsReal a) (hb : c.fmt.IsReal b) (hb0 : b ≠ 0)
    (hv : Posit.div c a b = .ok v) : c.fmt.IsReal v ∧ c.fmt.IsCanonical v ∧ (v = 0 ↔ a = 0) :=
  ⟨(div_real_of_ok h ha hb hb0 hv).1, (div_real_of_ok h ha hb hb0 hv).1.canonical, (div_real_of_ok h ha hb hb0 hv).2⟩

example : P8i.WF ∧ P8i.fmt.IsReal 126 ∧ P8i.fmt.IsReal 1 ∧ Posit.div P8i 126 1 = .ok 126 := by decide +kernel

theorem add_zero_iff (h : c.WF) (hF : c.fb + 2 ≤ c.F) {a b v : ℤ} (ha : c.fmt.IsReal a) (hb : c.fmt.IsReal b)
    (hv : Posit.add c a b = .ok v) : v = 0 ↔ c.fmt.val a + c.fmt.val b = 0 := by
  constructor
  · intro h0
    subst h0
    by_cases ha0 : a = 0
    · subst ha0
      unfold Posit.add Posit.isZero at hv
      simp only [decide_true, if_true] at hv
      injection hv with hv; subst hv; simp
    by_cases hb0 : b = 0
    · subst hb0
      unfold Posit.add Posit.isZero at hv
      simp only [ha0, decide_true, decide_false, if_true, Bool.false_eq_true, if_false] at hv
      injection hv with hv; exact absurd hv ha0
    obtain ⟨ea, fa, hua⟩ := unpack_real h ha ha0
    obtain ⟨eb, fb, hub⟩ := unpack_real h hb hb0
    rw [add_unfold ha0 hb0 hua hub] at hv
    simp only [bind, Except.bind] at hv
    cases hm : Unp.addRegular c.F c.E ⟨.regular, a < 0, ea, fa⟩ ⟨.regular, b < 0, eb, fb⟩ with
    | error _ => rw [hm] at hv; cases hv
    | ok r =>
      rw [hm] at hv
      obtain ⟨t, n, e, f⟩ := r
      rcases addRegular_form hm with ⟨k1, k2⟩ | ⟨k1, k2⟩
      · simp only at k1; subst k1
        obtain ⟨s1, s2, s3⟩ := addRegular_zero h.hF (hua.dvd_pow (k := 2) (by omega)) (hub.dvd_pow (k := 2) (by omega))
          hua.f_lt hub.f_lt (unpacks_addRange h hua hub).1 hm
        rw [hua.sign_val (by omega) ha ha0, hub.sign_val (by omega) hb hb0, s2, s3]
        by_cases h1 : a < 0 <;> by_cases h2 : b < 0 <;> simp [h1, h2] at s1 ⊢
      · simp only at k1 k2; subst k1
        exact absurd rfl (pack_real_of_ok h k2 hv).2
  · intro hz
    have : b = -a := by
      rw [← Format.val_inj hb.inRange ha.neg.inRange, Format.val_neg]; linarith
    subst this
    have := C11_sub_self h ha
    rw [sub_as_add h a ha, hv] at this
    injection this

/-- **C44**, addition and subtraction: whenever `a+b` / `a-b` of reals is defined the result is real, and zero only if
the exact sum / difference is zero. -/
theorem C44_add_closed_partial (h : c.WF) (hF : c.fb + 2 ≤ c.F) {a b v : ℤ} (ha : c.fmt.IsReal a) (hb : c.fmt.IsReal b) :
    (Posit.add c a b = .ok v → c.fmt.IsReal v ∧ c.fmt.IsCanonical v ∧ (v = 0 ↔ c.fmt.val a + c.fmt.val b = 0)) ∧
    (Posit.sub c a b = .ok v → c.fmt.IsReal v ∧ c.fmt.IsCanonical v ∧ (v = 0 ↔ a = b)) := by
  refine ⟨fun hv => ⟨add_real_of_ok h ha hb hv, (add_real_of_ok h ha hb hv).canonical, add_zero_iff h hF ha hb hv⟩,
    fun hv => ?_⟩
  rw [sub_as_add h a hb] at hv
  refine ⟨add_real_of_ok h ha hb.neg hv, (add_real_of_ok h ha hb.neg hv).canonical, ?_⟩
  rw [add_zero_iff h hF ha hb.neg hv, Format.val_neg, ← sub_eq_add_neg, sub_eq_zero, Format.val_inj ha.inRange hb.inRange]

example : P32.WF ∧ P32.fb + 2 ≤ P32.F ∧ P32.fmt.IsReal 1234567 ∧ P32.fmt.IsReal 1234568 ∧
    Posit.sub P32 1234567 1234568 = .ok (-262144) := by decide +kernel

/-- **C44** without the condition "when defined", for `N+1 < max(32,H)` (products, quotients) and formats of a small
dynamic range (sums, differences). -/
theorem C44_closed (h : c.WF) (hF : c.fb + 3 ≤ c.F) (hN : c.N + 1 < pw c.H) {a b : ℤ} (ha : c.fmt.IsReal a)
    (hb : c.fmt.IsReal b) (ha0 : a ≠ 0) (hb0 : b ≠ 0) :
    (∃ v, Posit.mul c a b = .ok v ∧ c.fmt.IsReal v ∧ c.fmt.IsCanonical v ∧ v ≠ 0) ∧
    (∃ v, Posit.div c a b = .ok v ∧ c.fmt.IsReal v ∧ c.fmt.IsCanonical v ∧ v ≠ 0) ∧
    (c.topExp + c.maxScale < pw c.F → (c.F < 32 ∨ c.fb + 4 ≤ c.F) →
      (∃ v, Posit.add c a b = .ok v ∧ c.fmt.IsReal v ∧ c.fmt.IsCanonical v ∧ (v = 0 ↔ c.fmt.val a + c.fmt.val b = 0)) ∧
      (∃ v, Posit.sub c a b = .ok v ∧ c.fmt.IsReal v ∧ c.fmt.IsCanonical v ∧ (v = 0 ↔ a = b))) := by
  refine ⟨?_, ?_, fun hr hz => ⟨?_, ?_⟩⟩
  · obtain ⟨v, hv, _⟩ := C08_mul h (by omega) hN ha ha0 hb hb0
    obtain ⟨h1, h2, h3⟩ := C44_mul_closed_partial h ha hb hv
    exact ⟨v, hv, h1, h2, by rw [Ne, h3]; tauto⟩
  · obtain ⟨v, hv, _⟩ := C09_div h (by omega) hN ha ha0 hb hb0
    obtain ⟨h1, h2, h3⟩ := C44_div_closed_partial h ha hb hb0 hv
    exact ⟨v, hv, h1, h2, by rw [Ne, h3]; tauto⟩
  · obtain ⟨v, hv, _⟩ := C10_add h hF hN hr hz ha hb
    exact ⟨v, hv, (C44_add_closed_partial h (by omega) ha hb).1 hv⟩
  · obtain ⟨v, hv, _⟩ := C11_sub h hF hN hr hz ha hb
    exact ⟨v, hv, (C44_add_closed_partial h (by omega) ha hb).2 hv⟩

example : P8.WF ∧ P8.fb + 3 ≤ P8.F ∧ P8.N + 1 < pw P8.H ∧ P8.fmt.IsReal 70 ∧ P8.fmt.IsReal (-103) ∧
    P8.topExp + P8.maxScale < pw P8.F ∧ (P8.F < 32 ∨ P8.fb + 4 ≤ P8.F) := by decide +kernel

/-! ## C42 -/

theorem Fmt.Format.IsTrunc.mono {f : Format} {x y : ℚ} {v w : ℤ} (hv : f.IsTrunc x v) (hw : f.IsTrunc y w) (hxy : x ≤ y) :
    v ≤ w := by
  rcases hv.sign with ⟨h1, h2⟩ | ⟨h1, h2⟩ <;> rcases hw.sign with ⟨h3, h4⟩ | ⟨h3, h4⟩
  · have := hv.truncB.mono hw.truncB (by rwa [abs_of_pos h2, abs_of_pos h4])
    omega
  · linarith
  · omega
  · have := hw.truncB.mono hv.truncB (by rw [abs_of_neg h2, abs_of_neg h4]; linarith)
    omega

theorem mul_trunc_of_ok (h : c.WF) (hF : c.fb + 2 ≤ c.F) {a b v : ℤ} (ha : c.fmt.IsReal a) (hb : c.fmt.IsReal b)
    (hv : Posit.mul c a b = .ok v) : (c.fmt.val a * c.fmt.val b = 0 ∧ v = 0) ∨ c.fmt.IsTrunc (c.fmt.val a * c.fmt.val b) v := by
  have hz := (mul_real_of_ok h ha hb hv).2
  by_cases h0 : a = 0 ∨ b = 0
  · left; refine ⟨?_, hz.mpr h0⟩
    rcases h0 with rfl | rfl <;> simp
  · rw [not_or] at h0
    right
    by_cases hs : c.SafeMag (c.fmt.val a * c.fmt.val b)
    · obtain ⟨w, hw, ht⟩ := C08_mul_partial h hF ha h0.1 hb h0.2 hs
      rw [hv] at hw; injection hw with hw; subst hw; exact ht
    · rw [C08_mul_ub h hF ha h0.1 hb h0.2 hs] at hv; cases hv

theorem div_trunc_of_ok (h : c.WF) (hF : c.fb + 2 ≤ c.F) {a b v : ℤ} (ha : c.fmt.IsReal a) (hb : c.fmt.IsReal b)
    (hb0 : b ≠ 0) (hv : Posit.div c a b = .ok v) :
    (c.fmt.val a / c.fmt.val b = 0 ∧ v = 0) ∨ c.fmt.IsTrunc (c.fmt.val a / c.fmt.val b) v := by
  have hz := (div_real_of_ok h ha hb hb0 hv).2
  by_cases h0 : a = 0
  · left; refine ⟨?_, hz.mpr h0⟩
    subst h0; simp
  · right
    by_cases hs : c.SafeMag (c.fmt.val a / c.fmt.val b)
    · obtain ⟨w, hw, ht⟩ := C09_div_partial h hF ha h0 hb hb0 hs
      rw [hv] at hw; injection hw with hw; subst hw; exact ht
    · rw [C09_div_ub h hF ha h0 hb hb0 hs] at hv; cases hv

theorem trunc0_mono {f : Format} {x y : ℚ} {v w : ℤ} (hv : (x = 0 ∧ v = 0) ∨ f.IsTrunc x v)
    (hw : (y = 0 ∧ w = 0) ∨ f.IsTrunc y w) (hxy : x ≤ y) : v ≤ w := by
  rcases hv with ⟨h1, h2⟩ | hv <;> rcases hw with ⟨h3, h4⟩ | hw
  · omega
  · rcases hw.sign with hs | hs
    · omega
    · linarith [hs.2]
  · rcases hv.sign with hs | hs
    · linarith [hs.2]
    · omega
  · exact hv.mono hw hxy

/-- **C42**, multiplication: for real `a <= b` and `d > 0`, `a*d <= b*d` (comparisons of the library), whenever both
products are defined. -/
theorem C42_mul_mono_partial (h : c.WF) (hF : c.fb + 2 ≤ c.F) {a b d x y : ℤ} (ha : c.fmt.IsReal a) (hb : c.fmt.IsReal b)
    (hd : c.fmt.IsReal d) (hab : Posit.le c a b = true) (hd0 : Posit.gt c d 0 = true)
    (hx : Posit.mul c a d = .ok x) (hy : Posit.mul c b d = .ok y) : Posit.le c x y = true := by
  have z : c.fmt.IsReal 0 := by unfold Format.IsReal; omega
  have h1 := (C04_compare h ha hb).2.1.mp hab
  have h2 := (C04_compare h hd z).2.2.1.mp hd0
  rw [Format.val_zero] at h2
  have hle := trunc0_mono (mul_trunc_of_ok h hF ha hd hx) (mul_trunc_of_ok h hF hb hd hy)
    (mul_le_mul_of_nonneg_right h1 h2.le)
  rw [(C04_compare h (mul_real_of_ok h ha hd hx).1 (mul_real_of_ok h hb hd hy).1).2.1]
  exact (Format.val_le_iff (mul_real_of_ok h ha hd hx).1.inRange (mul_real_of_ok h hb hd hy).1.inRange).mpr hle

example : P8.WF ∧ P8.fb + 2 ≤ P8.F ∧ P8.fmt.IsReal (-70) ∧ P8.fmt.IsReal 33 ∧ P8.fmt.IsReal 99 ∧
    Posit.le P8 (-70) 33 = true ∧ Posit.gt P8 99 0 = true ∧ Posit.mul P8 (-70) 99 = .ok (-102) ∧
    Posit.mul P8 33 99 = .ok 71 := by decide +kernel

/-- **C42**, division: for real `a <= b` and `d > 0`, `a/d <= b/d`, whenever both quotients are defined. -/
theorem C42_div_mono_partial (h : c.WF) (hF : c.fb + 2 ≤ c.F) {a b d x y : ℤ} (ha : c.fmt.IsReal a) (hb : c.fmt.IsReal b)
    (hd : c.fmt.IsReal d) (hab : Posit.le c a b = true) (hd0 : Posit.gt c d 0 = true)
    (hx : Posit.div c a d = .ok x) (hy : Posit.div c b d = .ok y) : Posit.le c x y = true := by
  have z : c.fmt.IsReal 0 := by unfold Format.IsReal; omega
  have h1 := (C04_compare h ha hb).2.1.mp hab
  have h2 := (C04_compare h hd z).2.2.1.mp hd0
  rw [Format.val_zero] at h2
  have hdne : d ≠ 0 := by rintro rfl; simp at h2
  have hle := trunc0_mono (div_trunc_of_ok h hF ha hd hdne hx) (div_trunc_of_ok h hF hb hd hdne hy)
    (div_le_div_of_nonneg_right h1 h2.le)
  rw [(C04_compare h (div_real_of_ok h ha hd hdne hx).1 (div_real_of_ok h hb hd hdne hy).1).2.1]
  exact (Format.val_le_iff (div_real_of_ok h ha hd hdne hx).1.inRange (div_real_of_ok h hb hd hdne hy).1.inRange).mpr hle

example : P8.WF ∧ P8.fb + 2 ≤ P8.F ∧ P8.fmt.IsReal (-70) ∧ P8.fmt.IsReal 33 ∧ P8.fmt.IsReal 99 ∧
    Posit.le P8 (-70) 33 = true ∧ Posit.gt P8 99 0 = true ∧ Posit.div P8 (-70) 99 = .ok (-32) ∧
    Posit.div P8 33 99 = .ok 13 := by decide +kernel

/-- **C42** without the condition "when defined", for `N+1 < max(32,H)`. -/
theorem C42_mono (h : c.WF) (hF : c.fb + 2 ≤ c.F) (hN : c.N + 1 < pw c.H) {a b d : ℤ} (ha : c.fmt.IsReal a)
    (hb : c.fmt.IsReal b) (hd : c.fmt.IsReal d) (ha0 : a ≠ 0) (hb0 : b ≠ 0) (hab : Posit.le c a b = true)
    (hd0 : Posit.gt c d 0 = true) :
    (∃ x y, Posit.mul c a d = .ok x ∧ Posit.mul c b d = .ok y ∧ Posit.le c x y = true) ∧
    (∃ x y, Posit.div c a d = .ok x ∧ Posit.div c b d = .ok y ∧ Posit.le c x y = true) := by
  have hdne : d ≠ 0 := by
    rintro rfl
    unfold Posit.gt at hd0
    split_ifs at hd0
    simp at hd0
  obtain ⟨x, hx, _⟩ := C08_mul h hF hN ha ha0 hd hdne
  obtain ⟨y, hy, _⟩ := C08_mul h hF hN hb hb0 hd hdne
  obtain ⟨x', hx', _⟩ := C09_div h hF hN ha ha0 hd hdne
  obtain ⟨y', hy', _⟩ := C09_div h hF hN hb hb0 hd hdne
  exact ⟨⟨x, y, hx, hy, C42_mul_mono_partial h hF ha hb hd hab hd0 hx hy⟩,
    ⟨x', y', hx', hy', C42_div_mono_partial h hF ha hb hd hab hd0 hx' hy'⟩⟩

example : P12.WF ∧ P12.fb + 2 ≤ P12.F ∧ P12.N + 1 < pw P12.H ∧ P12.fmt.IsReal (-700) ∧ P12.fmt.IsReal 333 ∧ P12.fmt.IsReal 99 ∧
    Posit.le P12 (-700) 333 = true ∧ Posit.gt P12 99 0 = true := by decide +kernel

end Verif
