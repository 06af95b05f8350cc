import Verif.Lemmas.Extended

/-!
# C88: the complete outcome of the arithmetic on every pattern of the format, NaN and infinities included
-/

namespace Verif
open Fmt

variable {c : Cfg}

/-- **C88**, products: for every two patterns of every instantiation with room for the fraction, `a * b` has the outcome of
the extended product, or of `a` itself when one operand is NaN. -/
theorem C88_mul (h : c.WF) (hF : c.fb + 2 ≤ c.F) {a b : ℤ} (ha : c.fmt.IsCanonical a) (hb : c.fmt.IsCanonical b) :
    EV.Outcome c (EV.orFirst EV.mul (c.ext a) (c.ext b)) (Posit.mul c a b) := by
  obtain ⟨ua, ub, u, h1, h2, h3, h4, -⟩ := eapp_mul h (by omega) ha hb
  have : Posit.mul c a b = Posit.pack c u := by
    unfold Posit.mul
    rw [h1, h2]
    simp only [bind, Except.bind]
    rw [h3]
  rw [this]
  exact eapp_pack h hF h4

example : P60.WF ∧ P60.fb + 2 ≤ P60.F ∧ P60.fmt.IsCanonical P60.pinf ∧ P60.fmt.IsCanonical (-5) ∧
    P60.ext P60.pinf = .inf false ∧ Posit.mul P60 P60.pinf (-5) = .ok (P60.infPat true) ∧
    Posit.mul P60 P60.pinf 0 = .ok P60.topPat := by decide +kernel

/-- **C88**, quotients: as for products, except that a nonzero number divided by an infinity is an infinity instead of zero. -/
theorem C88_div (h : c.WF) (hF : c.fb + 2 ≤ c.F) {a b : ℤ} (ha : c.fmt.IsCanonical a) (hb : c.fmt.IsCanonical b) :
    EV.Outcome c (EV.orFirst EV.divBig (c.ext a) (c.ext b)) (Posit.div c a b) := by
  by_cases hn : ∃ x y, c.ext a = .num x ∧ c.ext b = .num y ∧ y ≠ 0
  · obtain ⟨x, y, hx, hy, hy0⟩ := hn
    obtain ⟨hra, rfl⟩ := ext_num_iff hx
    obtain ⟨hrb, rfl⟩ := ext_num_iff hy
    rw [hx, hy]
    simp only [EV.orFirst, reduceCtorEq, or_self, if_false, EV.divBig, EV.div, hy0]
    exact outcome_div h hF hra hrb fun hb0 => hy0 (by rw [hb0, Format.val_zero])
  · obtain ⟨ua, h1, h2, -⟩ := ext_unpack h ha
    obtain ⟨ub, h4, h5, -⟩ := ext_unpack h hb
    obtain ⟨u, h7, h8⟩ := eapp_div_special (E := c.E) h2 h5 fun x y hx hy => by
      by_contra h0; exact hn ⟨x, y, hx, hy, h0⟩
    have : Posit.div c a b = Posit.pack c u := by
      unfold Posit.div
      rw [h1, h4]
      simp only [bind, Except.bind]
      rw [h7]
    rw [this]
    exact eapp_pack h hF h8

example : P60.WF ∧ P60.fb + 2 ≤ P60.F ∧ P60.fmt.IsCanonical 7 ∧ P60.fmt.IsCanonical P60.ninf ∧
    Posit.div P60 7 P60.ninf = .ok (P60.infPat true) ∧ Posit.div P60 (-7) 0 = .ok (P60.infPat true) ∧
    Posit.div P60 P60.pinf P60.ninf = .ok P60.topPat := by decide +kernel

/-- **C88**, sums: zero gives the other operand back bit by bit; otherwise `a + b` has the outcome of the extended sum, or of
`a` when one operand is NaN, unless a shift of the alignment is out of range. -/
theorem C88_add (h : c.WF) (hF : c.fb + 2 ≤ c.F) {a b : ℤ} (ha : c.fmt.IsCanonical a) (hb : c.fmt.IsCanonical b) :
    (a = 0 → Posit.add c a b = .ok b) ∧ (b = 0 → Posit.add c a b = .ok a) ∧
    (a ≠ 0 → b ≠ 0 → EV.AddOK c.F (c.ext a) (c.ext b) →
      EV.Outcome c (EV.orFirst (EV.add c.F) (c.ext a) (c.ext b)) (Posit.add c a b)) ∧
    (a ≠ 0 → b ≠ 0 → ¬ EV.AddOK c.F (c.ext a) (c.ext b) → Posit.add c a b = .error .shiftAmount) := by
  refine ⟨fun h0 => by rw [h0]; exact (C13_add_zero c b).2, fun h0 => by rw [h0]; exact (C13_add_zero c a).1, ?_⟩
  obtain ⟨ua, h1, h2, h3⟩ := ext_unpack h ha
  obtain ⟨ub, h4, h5, h6⟩ := ext_unpack h hb
  have hr : AddRange c.E c.F ua.exp ub.exp := addRange_products h (by rw [abs_le] at *; omega) (by rw [abs_le] at *; omega)
  have heq : a ≠ 0 → b ≠ 0 → Posit.add c a b = (do let r ← Unp.add c.F c.E ua ub; Posit.pack c r) := by
    intro ha0 hb0
    unfold Posit.add Posit.isZero
    simp only [ha0, hb0, decide_false, Bool.false_eq_true, if_false]
    rw [h1, h4]
    rfl
  obtain ⟨k1, k2⟩ := eapp_add_pack h hF h2 h5 hr
  exact ⟨fun ha0 hb0 ho => by rw [heq ha0 hb0]; exact k1 ho, fun ha0 hb0 ho => by rw [heq ha0 hb0]; exact k2 ho⟩

example : P60.WF ∧ P60.fb + 2 ≤ P60.F ∧ P60.fmt.IsCanonical P60.pinf ∧ P60.fmt.IsCanonical P60.ninf ∧
    EV.AddOK P60.F (P60.ext P60.pinf) (P60.ext P60.ninf) ∧ Posit.add P60 P60.pinf P60.ninf = .ok P60.topPat ∧
    Posit.add P60 P60.pinf P60.pinf = .ok P60.pinf ∧ Posit.add P60 12 P60.topPat = .ok 12 := by decide +kernel
example : P60.fmt.IsCanonical 1 ∧ P60.fmt.IsCanonical (2 ^ 58) ∧ ¬ EV.AddOK P60.F (P60.ext 1) (P60.ext (2 ^ 58)) ∧
    Posit.add P60 1 (2 ^ 58) = .error .shiftAmount := by decide +kernel

/-- **C88**, the opposite: every pattern but `100…0` is negated, and denotes the extended opposite. -/
theorem C88_neg (h : c.WF) {b : ℤ} (hb : c.fmt.IsCanonical b) (hn : b ≠ c.topPat) :
    Posit.neg c b = .ok (-b) ∧ c.fmt.IsCanonical (-b) ∧ c.ext (-b) = (c.ext b).neg :=
  ⟨neg_ok h (neg_canonical hb hn).1, (neg_canonical hb hn).2, ext_neg hb hn⟩

example : P60.WF ∧ P60.fmt.IsCanonical P60.pinf ∧ P60.pinf ≠ P60.topPat ∧ Posit.neg P60 P60.pinf = .ok P60.ninf ∧
    P60.ext P60.ninf = .inf true := by decide +kernel

/-- **C88**, differences: `a - b` is `a + (-b)` for every pattern `b` but `100…0`. For that pattern (NaN, or the single
infinity) it is `a + b` in a format that fills an 8 or 16-bit integer, overflows in one that fills a wider integer, and in
a format narrower than its integer leads to a pattern outside the format: returned when `a` is zero, otherwise
the shift of a negative number. -/
theorem C88_sub (h : c.WF) (hF : c.fb + 2 ≤ c.F) {a b : ℤ} (ha : c.fmt.IsCanonical a) (hb : c.fmt.IsCanonical b) :
    (b ≠ c.topPat → a = 0 → Posit.sub c a b = .ok (-b)) ∧
    (b ≠ c.topPat → b = 0 → Posit.sub c a b = .ok a) ∧
    (b ≠ c.topPat → a ≠ 0 → b ≠ 0 → EV.AddOK c.F (c.ext a) (c.ext b).neg →
      EV.Outcome c (EV.orFirst (EV.add c.F) (c.ext a) (c.ext b).neg) (Posit.sub c a b)) ∧
    (b ≠ c.topPat → a ≠ 0 → b ≠ 0 → ¬ EV.AddOK c.F (c.ext a) (c.ext b).neg → Posit.sub c a b = .error .shiftAmount) ∧
    (b = c.topPat → c.N = c.H → c.H < 32 → Posit.sub c a b = Posit.add c a b) ∧
    (b = c.topPat → c.N = c.H → 32 ≤ c.H → Posit.sub c a b = .error .overflow) ∧
    (b = c.topPat → c.N < c.H → a = 0 → Posit.sub c a b = .ok (2 ^ (c.N - 1))) ∧
    (b = c.topPat → c.N < c.H → a ≠ 0 → Posit.sub c a b = .error .shiftValue) := by
  obtain ⟨n1, n2, n3⟩ := C06_neg_nan h
  have hsub : ∀ {w}, Posit.neg c b = .ok w → Posit.sub c a b = Posit.add c a w := by
    intro w hw; unfold Posit.sub; rw [hw]; rfl
  refine ⟨fun hn h0 => ?_, fun hn h0 => ?_, fun hn ha0 hb0 ho => ?_, fun hn ha0 hb0 ho => ?_, fun ht he hl => ?_,
    fun ht he hl => ?_, fun ht hl h0 => ?_, fun ht hl h0 => ?_⟩
  · obtain ⟨k1, k2, k3⟩ := C88_neg h hb hn
    rw [hsub k1]; exact (C88_add h hF ha k2).1 h0
  · obtain ⟨k1, k2, k3⟩ := C88_neg h hb hn
    rw [hsub k1]; exact (C88_add h hF ha k2).2.1 (by omega)
  · obtain ⟨k1, k2, k3⟩ := C88_neg h hb hn
    rw [hsub k1, ← k3]
    rw [← k3] at ho
    exact (C88_add h hF ha k2).2.2.1 ha0 (by omega) ho
  · obtain ⟨k1, k2, k3⟩ := C88_neg h hb hn
    rw [hsub k1]
    rw [← k3] at ho
    exact (C88_add h hF ha k2).2.2.2 ha0 (by omega) ho
  · exact hsub (by rw [ht]; exact n1 he hl)
  · unfold Posit.sub
    rw [ht, Cfg.topPat, n2 he hl]; rfl
  · rw [hsub (w := 2 ^ (c.N - 1)) (by rw [ht]; exact (n3 hl).1), h0]
    exact (C13_add_zero c _).2
  · rw [hsub (w := 2 ^ (c.N - 1)) (by rw [ht]; exact (n3 hl).1)]
    have hg := h.pow_ge
    obtain ⟨ua, h1, -, -⟩ := ext_unpack h ha
    unfold Posit.add Posit.isZero
    rw [decide_eq_false h0, decide_eq_false (by omega : ¬ (2 : ℤ) ^ (c.N - 1) = 0)]
    simp only [Bool.false_eq_true, if_false]
    rw [h1, unpack_above h hl]
    rfl

example : P60.WF ∧ P60.fb + 2 ≤ P60.F ∧ Posit.sub P60 P60.pinf P60.pinf = .ok P60.topPat ∧
    Posit.sub P60 P60.pinf P60.ninf = .ok P60.pinf ∧ P60.N < P60.H ∧ Posit.sub P60 12 P60.topPat = .error .shiftValue ∧
    Posit.sub P60 0 P60.topPat = .ok (2 ^ 59) := by decide +kernel
example : P8h.WF ∧ P8h.fb + 2 ≤ P8h.F ∧ P8h.N = P8h.H ∧ P8h.H < 32 ∧ Posit.sub P8h 12 P8h.topPat = .ok 12 ∧
    P32w.WF ∧ P32w.fb + 2 ≤ P32w.F ∧ P32w.N = P32w.H ∧ 32 ≤ P32w.H ∧
    Posit.sub P32w 12 P32w.topPat = .error .overflow := by decide +kernel

/-- **C88**, `fma`: the product that is not rounded, plus the third operand. -/
theorem C88_fma (h : c.WF) (hF : c.fb + 2 ≤ c.F) {a b d : ℤ} (ha : c.fmt.IsCanonical a) (hb : c.fmt.IsCanonical b)
    (hd : c.fmt.IsCanonical d) :
    (EV.AddOK c.F (EV.orFirst EV.mul (c.ext a) (c.ext b)) (c.ext d) →
      EV.Outcome c (EV.orFirst (EV.add c.F) (EV.orFirst EV.mul (c.ext a) (c.ext b)) (c.ext d)) (Posit.fma c a b d)) ∧
    (¬ EV.AddOK c.F (EV.orFirst EV.mul (c.ext a) (c.ext b)) (c.ext d) → Posit.fma c a b d = .error .shiftAmount) := by
  obtain ⟨ua, ub, m, h1, h2, h3, h4, h5⟩ := eapp_mul h (by omega) ha hb
  obtain ⟨ud, h6, h7, h8⟩ := ext_unpack h hd
  have heq : Posit.fma c a b d = (do let r ← Unp.add c.F c.E m ud; Posit.pack c r) := by
    unfold Posit.fma
    rw [h1, h2]
    simp only [bind, Except.bind]
    rw [h3, h6]
  rw [heq]
  exact eapp_add_pack h hF h4 h7 (addRange_products h h5 (by rw [abs_le] at *; omega))

example : P60.WF ∧ P60.fb + 2 ≤ P60.F ∧ P60.fmt.IsCanonical P60.pinf ∧ P60.fmt.IsCanonical (-9) ∧ P60.fmt.IsCanonical 4 ∧
    Posit.fma P60 P60.pinf (-9) 4 = .ok P60.ninf ∧ Posit.fma P60 P60.pinf 0 4 = .ok P60.topPat ∧
    Posit.fma P60 3 (2 ^ 58) P60.topPat = .ok 3 := by decide +kernel

/-- **C88**, the sum of two delayed products. -/
theorem C88_mulAddMul (h : c.WF) (hF : c.fb + 2 ≤ c.F) {a b x y : ℤ} (ha : c.fmt.IsCanonical a) (hb : c.fmt.IsCanonical b)
    (hx : c.fmt.IsCanonical x) (hy : c.fmt.IsCanonical y) :
    (EV.AddOK c.F (EV.orFirst EV.mul (c.ext a) (c.ext b)) (EV.orFirst EV.mul (c.ext x) (c.ext y)) →
      EV.Outcome c (EV.orFirst (EV.add c.F) (EV.orFirst EV.mul (c.ext a) (c.ext b)) (EV.orFirst EV.mul (c.ext x) (c.ext y)))
        (Posit.mulAddMul c a b x y)) ∧
    (¬ EV.AddOK c.F (EV.orFirst EV.mul (c.ext a) (c.ext b)) (EV.orFirst EV.mul (c.ext x) (c.ext y)) →
      Posit.mulAddMul c a b x y = .error .shiftAmount) := by
  obtain ⟨ua, ub, m, h1, h2, h3, h4, h5⟩ := eapp_mul h (by omega) ha hb
  obtain ⟨ux, uy, n, g1, g2, g3, g4, g5⟩ := eapp_mul h (by omega) hx hy
  have heq : Posit.mulAddMul c a b x y = (do let r ← Unp.add c.F c.E m n; Posit.pack c r) := by
    unfold Posit.mulAddMul
    rw [h1, h2]
    simp only [bind, Except.bind]
    rw [h3, g1, g2]
    simp only []
    rw [g3]
  rw [heq]
  exact eapp_add_pack h hF h4 g4 (addRange_products h h5 g5)

example : P60.WF ∧ P60.fb + 2 ≤ P60.F ∧ P60.fmt.IsCanonical P60.pinf ∧ P60.fmt.IsCanonical (-9) ∧
    Posit.mulAddMul P60 P60.pinf (-9) P60.pinf 9 = .ok P60.topPat ∧
    Posit.mulAddMul P60 P60.pinf (-9) 9 9 = .ok P60.ninf := by decide +kernel

/-- **C88**, the difference of two delayed products: the second product is negated as if it were a regular number, so zero
and NaN are subtracted as the number minus one, an infinity as one or minus one. -/
theorem C88_mulSubMul (h : c.WF) (hF : c.fb + 2 ≤ c.F) {a b x y : ℤ} (ha : c.fmt.IsCanonical a) (hb : c.fmt.IsCanonical b)
    (hx : c.fmt.IsCanonical x) (hy : c.fmt.IsCanonical y) :
    (EV.AddOK c.F (EV.orFirst EV.mul (c.ext a) (c.ext b)) (EV.negAsRegular (EV.orFirst EV.mul (c.ext x) (c.ext y))) →
      EV.Outcome c (EV.orFirst (EV.add c.F) (EV.orFirst EV.mul (c.ext a) (c.ext b))
        (EV.negAsRegular (EV.orFirst EV.mul (c.ext x) (c.ext y)))) (Posit.mulSubMul c a b x y)) ∧
    (¬ EV.AddOK c.F (EV.orFirst EV.mul (c.ext a) (c.ext b)) (EV.negAsRegular (EV.orFirst EV.mul (c.ext x) (c.ext y))) →
      Posit.mulSubMul c a b x y = .error .shiftAmount) := by
  obtain ⟨ua, ub, m, h1, h2, h3, h4, h5⟩ := eapp_mul h (by omega) ha hb
  obtain ⟨ux, uy, n, g1, g2, g3, g4, g5⟩ := eapp_mul h (by omega) hx hy
  obtain ⟨k1, k2⟩ := eapp_neg (by omega) g4
  have heq : Posit.mulSubMul c a b x y = (do let r ← Unp.add c.F c.E m (Unp.neg' n); Posit.pack c r) := by
    unfold Posit.mulSubMul
    rw [h1, h2]
    simp only [bind, Except.bind]
    rw [h3, g1, g2]
    simp only []
    rw [g3]
    rfl
  rw [heq]
  exact eapp_add_pack h hF h4 k1 (addRange_products h h5 (by rw [k2]; exact g5))

example : P60.WF ∧ P60.fb + 2 ≤ P60.F ∧ P60.fmt.IsCanonical (2 ^ 58) ∧ P60.fmt.IsCanonical P60.pinf ∧
    Posit.mulSubMul P60 (2 ^ 58) (2 ^ 58) P60.pinf (2 ^ 58) = .ok 0 := by decide +kernel

/-- **C88**, `dot`: the products that are not rounded are added from left to right. -/
theorem C88_dot (h : c.WF) (hF : c.fb + 2 ≤ c.F) {a b : ℤ} {l : List (ℤ × ℤ)}
    (hl : ∀ p ∈ (a, b) :: l, c.fmt.IsCanonical p.1 ∧ c.fmt.IsCanonical p.2) (hn : l.length + 1 < 2 ^ 60) :
    (EV.FoldOK c.F (EV.orFirst EV.mul (c.ext a) (c.ext b)) (l.map fun p => EV.orFirst EV.mul (c.ext p.1) (c.ext p.2)) →
      EV.Outcome c ((l.map fun p => EV.orFirst EV.mul (c.ext p.1) (c.ext p.2)).foldl (EV.orFirst (EV.add c.F))
        (EV.orFirst EV.mul (c.ext a) (c.ext b))) (Posit.dot c ((a, b) :: l))) ∧
    (¬ EV.FoldOK c.F (EV.orFirst EV.mul (c.ext a) (c.ext b)) (l.map fun p => EV.orFirst EV.mul (c.ext p.1) (c.ext p.2)) →
      Posit.dot c ((a, b) :: l) = .error .shiftAmount) := by
  obtain ⟨ha, hb⟩ := hl (a, b) (by simp)
  obtain ⟨ua, ub, m, h1, h2, h3, h4, h5⟩ := eapp_mul h (by omega) ha hb
  have hF8 := h.F_pos
  have hbound : ∀ s, EV.orFirst EV.mul (c.ext a) (c.ext b) = .num s → |s| ≤ ((1 : ℕ) : ℚ) * 2 ^ (2 * (c.maxScale : ℤ) + 2) := by
    intro s hs
    rw [Nat.cast_one, one_mul]; exact eprod_le h hs
  obtain ⟨k1, k2⟩ := eapp_dotLoop h (by omega) l m _ 1 (fun p hp => hl p (by simp [hp])) h4
    (by have := abs_le.mp h5; omega) hbound (by omega)
  have heq : Posit.dot c ((a, b) :: l) = (do let s ← Posit.dotLoop c m l; Posit.pack c s) := by
    rw [Posit.dot, h1, h2]
    simp only [bind, Except.bind]
    rw [h3]
  rw [heq]
  refine ⟨fun ho => ?_, fun ho => by rw [k2 ho]; rfl⟩
  obtain ⟨r, hr, hd⟩ := k1 ho
  rw [hr]
  exact eapp_pack h hF hd

example : P60.WF ∧ P60.fb + 2 ≤ P60.F ∧ P60.fmt.IsCanonical P60.pinf ∧ P60.fmt.IsCanonical P60.topPat ∧
    Posit.dot P60 [(3, 2 ^ 58), (P60.pinf, 4), (P60.topPat, 5)] = .ok P60.pinf ∧
    Posit.dot P60 [(3, 2 ^ 58), (P60.pinf, 4), (P60.pinf, -4)] = .ok P60.topPat := by decide +kernel

/-- **C88**, where the outcome is the usual one: giving the first operand back differs from the usual rule exactly when only
the second operand is NaN, and the quotient moreover exactly when a nonzero number is divided by an infinity. -/
theorem C88_usual (F : ℕ) (A B : EV) :
    (EV.orFirst EV.mul A B = EV.mul A B ↔ (B = .nan → A = .nan)) ∧
    (EV.orFirst (EV.add F) A B = EV.add F A B ↔ (B = .nan → A = .nan)) ∧
    (EV.orFirst EV.divBig A B = EV.div A B ↔
      (B = .nan → A = .nan) ∧ ¬ ∃ x t, A = .num x ∧ x ≠ 0 ∧ B = .inf t) := by
  refine ⟨?_, ?_, ?_⟩
  · cases A <;> cases B <;> simp [EV.orFirst, EV.mul]
  · cases A <;> cases B <;> simp [EV.orFirst, EV.add]
  · cases A <;> cases B <;> simp [EV.orFirst, EV.divBig, EV.div]

example : EV.orFirst EV.mul (.num 3) .nan = .num 3 ∧ EV.mul (.num 3) .nan = .nan ∧
    EV.orFirst EV.divBig (.num 3) (.inf true) = .inf true ∧ EV.div (.num 3) (.inf true) = .num 0 := by decide +kernel

end Verif
