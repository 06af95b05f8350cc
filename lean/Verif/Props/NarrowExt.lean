import Verif.Lemmas.NarrowExt
import Verif.Props.NarrowFrac
import Verif.Props.Extended
import Verif.Props.ExtUnary
import Verif.Props.NarrowConv

/-!
# Fraction types of any width on every pattern: C134

C88 states the complete outcome of the arithmetic on every pattern, NaN and infinities included, for fraction types with two
bits to spare; C126 for every fraction type, on numbers. Here nothing is asked of the fraction type nor of the patterns.
-/

namespace Verif
open Fmt

variable {c : Cfg}

/-- **C134**, products. -/
theorem C134_mul (h : c.WF) {a b : ℤ} (ha : c.fmt.IsCanonical a) (hb : c.fmt.IsCanonical b) :
    EV.Outcome c (EV.narrowMul c.F (c.ext a) (c.ext b)) (Posit.mul c a b) := by
  obtain ⟨ua, ub, u, h1, h2, h3, h4, -⟩ := enum_mul h ha hb
  have : Posit.mul c a b = Posit.pack c u := by
    unfold Posit.mul
    rw [h1, h2]
    simp only [bind, Except.bind]
    rw [h3]
  rw [this]
  exact enum_pack h h4

/-- `Posit<int16_t,16,1,uint8_t>` with two infinities -/
def narrowInf : Cfg := ⟨16, 16, 1, 8, .withNanInf⟩

/-- the second operand NaN gives back the first one without its last bits -/
example : narrowInf.WF ∧ narrowInf.F < narrowInf.fb ∧ narrowInf.fmt.IsCanonical 20001 ∧ narrowInf.fmt.IsCanonical narrowInf.topPat ∧
    Posit.mul narrowInf 20001 narrowInf.topPat = .ok 20000 ∧ Posit.mul narrowInf narrowInf.pinf (-20001) = .ok narrowInf.ninf ∧
    Posit.mul narrowInf 20001 (-17777) = .ok (-21504) := by decide +kernel

/-- **C134**, quotients. -/
theorem C134_div (h : c.WF) {a b : ℤ} (ha : c.fmt.IsCanonical a) (hb : c.fmt.IsCanonical b) :
    EV.Outcome c (EV.narrowDiv c.F (c.ext a) (c.ext b)) (Posit.div c a b) := by
  by_cases hn : ∃ x y, c.ext a = .num x ∧ c.ext b = .num y ∧ x ≠ 0 ∧ y ≠ 0
  · obtain ⟨x, y, hx, hy, hx0, hy0⟩ := hn
    obtain ⟨hra, rfl⟩ := ext_num_iff hx
    obtain ⟨hrb, rfl⟩ := ext_num_iff hy
    have ha0 : a ≠ 0 := fun h0 => hx0 (by rw [h0, Format.val_zero])
    have hb0 : b ≠ 0 := fun h0 => hy0 (by rw [h0, Format.val_zero])
    obtain ⟨ua, a1, -, a3, -, a5⟩ := isNum_unpack h hra
    obtain ⟨ub, b1, -, b3, -, b5⟩ := isNum_unpack h hrb
    obtain ⟨ra, -, ca⟩ := a5 ha0
    obtain ⟨rb, -, cb⟩ := b5 hb0
    obtain ⟨r, hr, hreg, hval⟩ := isNum_div h ra rb a3 b3 (ca _ (by have := h.F_pos; omega) (by omega)) cb
    have : Posit.div c a b = Posit.pack c r := by
      unfold Posit.div
      rw [a1, b1]
      simp only [bind, Except.bind]
      rw [hr]
    rw [this, hx, hy]
    simp only [EV.narrowDiv, hx0, hy0, or_self, if_false]
    refine enum_pack h (.num ?_)
    have := IsNum.reg hreg
    rwa [hval] at this
  · obtain ⟨ua, h1, h2, -⟩ := enum_unpack h ha
    obtain ⟨ub, h4, h5, -⟩ := enum_unpack h hb
    obtain ⟨u, h7, h8⟩ := enum_div_special (E := c.E) h2 h5 (fun x hx => cut_sign h hx) (fun x hx => cut_sign h hx)
      fun x y hx hy => by
        by_contra h0
        rw [not_or] at h0
        exact hn ⟨x, y, hx, hy, h0⟩
    have : Posit.div c a b = Posit.pack c u := by
      unfold Posit.div
      rw [h1, h4]
      simp only [bind, Except.bind]
      rw [h7]
    rw [this]
    exact enum_pack h h8

example : narrowInf.fmt.IsCanonical 20001 ∧ Posit.div narrowInf 20001 narrowInf.topPat = .ok 20000 ∧
    Posit.div narrowInf 20001 narrowInf.ninf = .ok narrowInf.ninf ∧ Posit.div narrowInf (-20001) 0 = .ok narrowInf.ninf ∧
    Posit.div narrowInf 20001 (-17777) = .ok (-18048) := by decide +kernel

/-- **C134**, sums: a zero operand gives the other one back whole, everything else is computed with operands cut to the
fraction type. -/
theorem C134_add (h : c.WF) {a b : ℤ} (ha : c.fmt.IsCanonical a) (hb : c.fmt.IsCanonical b) {A B : EV}
    (hA : A = (c.ext a).cut (c.F + 1)) (hB : B = (c.ext b).cut (c.F + 1)) :
    (a = 0 → Posit.add c a b = .ok b) ∧ (b = 0 → Posit.add c a b = .ok a) ∧
    (a ≠ 0 → b ≠ 0 → EV.AddOK c.F A B → EV.Outcome c (EV.orFirst (EV.add c.F) A B) (Posit.add c a b)) ∧
    (a ≠ 0 → b ≠ 0 → ¬ EV.AddOK c.F A B → Posit.add c a b = .error .shiftAmount) := by
  subst hA hB
  refine ⟨fun h0 => by rw [h0]; exact (C13_add_zero c b).2, fun h0 => by rw [h0]; exact (C13_add_zero c a).1, ?_⟩
  obtain ⟨ua, h1, h2, h3⟩ := enum_unpack h ha
  obtain ⟨ub, h4, h5, h6⟩ := enum_unpack h hb
  have hr : AddRange c.E c.F ua.exp ub.exp := addRange_products h (by rw [abs_le] at *; omega) (by rw [abs_le] at *; omega)
  have heq : a ≠ 0 → b ≠ 0 → Posit.add c a b = (do let r ← Unp.add c.F c.E ua ub; Posit.pack c r) := by
    intro ha0 hb0
    unfold Posit.add Posit.isZero
    simp only [ha0, hb0, decide_false, Bool.false_eq_true, if_false]
    rw [h1, h4]
    rfl
  obtain ⟨k1, k2⟩ := enum_add_pack h h2 h5 hr
  exact ⟨fun ha0 hb0 ho => by rw [heq ha0 hb0]; exact k1 ho, fun ha0 hb0 ho => by rw [heq ha0 hb0]; exact k2 ho⟩

example : narrowInf.fmt.IsCanonical 20001 ∧ narrowInf.fmt.IsCanonical 17777 ∧
    EV.AddOK narrowInf.F ((narrowInf.ext 20001).cut (narrowInf.F + 1)) ((narrowInf.ext 17777).cut (narrowInf.F + 1)) ∧
    Posit.add narrowInf 20001 17777 = .ok 22944 ∧ Posit.add { narrowInf with F := 32 } 20001 17777 = .ok 22985 ∧
    Posit.add narrowInf 20001 0 = .ok 20001 ∧ Posit.add narrowInf 20001 narrowInf.topPat = .ok 20000 ∧
    Posit.add narrowInf narrowInf.pinf narrowInf.ninf = .ok narrowInf.topPat := by decide +kernel

/-- **C134**, differences: `a - b` is `a + (-b)` unless `b` is the pattern `100…0` (next theorem). -/
theorem C134_sub (h : c.WF) {a b : ℤ} (ha : c.fmt.IsCanonical a) (hb : c.fmt.IsCanonical b) (hn : b ≠ c.topPat) {A B : EV}
    (hA : A = (c.ext a).cut (c.F + 1)) (hB : B = (c.ext b).neg.cut (c.F + 1)) :
    (a = 0 → Posit.sub c a b = .ok (-b)) ∧ (b = 0 → Posit.sub c a b = .ok a) ∧
    (a ≠ 0 → b ≠ 0 → EV.AddOK c.F A B → EV.Outcome c (EV.orFirst (EV.add c.F) A B) (Posit.sub c a b)) ∧
    (a ≠ 0 → b ≠ 0 → ¬ EV.AddOK c.F A B → Posit.sub c a b = .error .shiftAmount) := by
  obtain ⟨k1, k2, k3⟩ := C88_neg h hb hn
  have hsub : Posit.sub c a b = Posit.add c a (-b) := by unfold Posit.sub; rw [k1]; rfl
  rw [hsub]
  rw [← k3] at hB
  obtain ⟨g1, g2, g3, g4⟩ := C134_add h ha k2 hA hB
  exact ⟨g1, fun h0 => g2 (by omega), fun ha0 hb0 => g3 ha0 (by omega), fun ha0 hb0 => g4 ha0 (by omega)⟩

example : narrowInf.fmt.IsCanonical 17777 ∧ 17777 ≠ narrowInf.topPat ∧
    EV.AddOK narrowInf.F ((narrowInf.ext 20001).cut (narrowInf.F + 1)) ((narrowInf.ext 17777).neg.cut (narrowInf.F + 1)) ∧
    Posit.sub narrowInf 20001 17777 = .ok 12672 ∧ Posit.sub { narrowInf with F := 32 } 20001 17777 = .ok 12640 ∧
    Posit.sub narrowInf narrowInf.pinf narrowInf.pinf = .ok narrowInf.topPat := by decide +kernel

/-- **C134**, differences with the pattern `100…0` (NaN, or the single infinity): `a + b` in a format that fills an 8 or 16-bit
integer, overflow in one that fills a wider integer, and in a narrower one a pattern outside the format or the shift of a
negative number. -/
theorem C134_sub_top (h : c.WF) {a : ℤ} (ha : c.fmt.IsCanonical a) :
    (c.N = c.H → c.H < 32 → Posit.sub c a c.topPat = Posit.add c a c.topPat) ∧
    (c.N = c.H → 32 ≤ c.H → Posit.sub c a c.topPat = .error .overflow) ∧
    (c.N < c.H → a = 0 → Posit.sub c a c.topPat = .ok (2 ^ (c.N - 1))) ∧
    (c.N < c.H → a ≠ 0 → Posit.sub c a c.topPat = .error .shiftValue) := by
  obtain ⟨n1, n2, n3⟩ := C06_neg_nan h
  have hsub : ∀ {w}, Posit.neg c c.topPat = .ok w → Posit.sub c a c.topPat = Posit.add c a w := by
    intro w hw; unfold Posit.sub; rw [hw]; rfl
  refine ⟨fun he hl => hsub (n1 he hl), fun he hl => ?_, fun hl h0 => ?_, fun hl h0 => ?_⟩
  · unfold Posit.sub
    rw [Cfg.topPat, n2 he hl]; rfl
  · rw [hsub (w := 2 ^ (c.N - 1)) (n3 hl).1, h0]
    exact (C13_add_zero c _).2
  · rw [hsub (w := 2 ^ (c.N - 1)) (n3 hl).1]
    have hg := h.pow_ge
    obtain ⟨ua, h1, -, -⟩ := ext_unpack h ha
    unfold Posit.add Posit.isZero
    rw [decide_eq_false h0, decide_eq_false (by omega : ¬ (2 : ℤ) ^ (c.N - 1) = 0)]
    simp only [Bool.false_eq_true, if_false]
    rw [h1, unpack_above h hl]
    rfl

example : narrowInf.N = narrowInf.H ∧ narrowInf.H < 32 ∧ Posit.sub narrowInf 20001 narrowInf.topPat = .ok 20000 ∧
    Posit.sub ⟨32, 32, 2, 16, .withNan⟩ 12 (-2 ^ 31) = .error .overflow ∧
    Posit.sub ⟨16, 12, 1, 8, .withNan⟩ 12 (-2 ^ 11) = .error .shiftValue ∧
    Posit.sub ⟨16, 12, 1, 8, .withNan⟩ 0 (-2 ^ 11) = .ok (2 ^ 11) := by decide +kernel

/-- **C134**, `inv()`: as in C90, the reciprocal of a number being that of C126. -/
theorem C134_inv (h : c.WF) {v : ℤ} (hv : c.fmt.IsCanonical v) :
    (v = 0 ∨ ¬ c.fmt.IsReal v → Posit.inv c v = .ok v) ∧
    (c.spec = .withNanInf → v.natAbs = 1 → c.N + 1 < pw c.H → Posit.inv c v = .ok (c.infPat (v < 0))) ∧
    (c.spec = .withNanInf → v.natAbs = 1 → pw c.H ≤ c.N + 1 → Posit.inv c v = .error .shiftAmount) ∧
    (c.fmt.IsReal v → v ≠ 0 → ¬ (c.spec = .withNanInf ∧ v.natAbs = 1) →
      EV.Outcome c (.num (narrowQuot c.F 1 (c.fmt.val v))) (Posit.inv c v)) := by
  refine ⟨fun hs => ?_, fun hs h1 => (inv_least h hs h1).1, fun hs h1 => (inv_least h hs h1).2, fun hr h0 hn => ?_⟩
  · rcases hs with rfl | hr
    · exact (C16_inv_zero_inf h).1
    · exact inv_special h hv hr
  · obtain ⟨k1, k2⟩ := C126_inv h hr h0 fun hs h1 => hn ⟨hs, h1⟩
    have hq : narrowQuot c.F 1 (c.fmt.val v) ≠ 0 := by
      have hF8 := h.F_pos
      obtain ⟨e, f, hu⟩ := unpack_real h hr h0
      have hreg : (⟨.regular, v < 0, e, f⟩ : Unp).IsReg c.F := ⟨rfl, hu.f_lt⟩
      obtain ⟨q, -, -, hqv⟩ := isNum_div h (ua := ⟨.regular, false, 0, 0⟩) (x := 1) (one_isReg c.F) hreg (by simp) (hu.e_abs h)
        (by rw [cutSig_of_one (by omega), cutSig_one' (by omega)]) (fun j h1 h2 => hu.cutSig_eq h hr h1 h2)
      rw [← hqv]; exact val_ne_zero
    refine ⟨fun hs => ?_, fun hs => k2 fun h' => hs (Or.inr h')⟩
    obtain ⟨w, w1, w2⟩ := k1 (hs.resolve_left hq)
    exact ⟨w, w1, Or.inr w2⟩

example : narrowInf.fmt.IsCanonical narrowInf.topPat ∧ Posit.inv narrowInf narrowInf.topPat = .ok narrowInf.topPat ∧
    Posit.inv narrowInf (-1) = .ok (narrowInf.infPat true) ∧ narrowInf.fmt.IsReal 20001 ∧ Posit.inv narrowInf 20001 = .ok 12560 := by
  decide +kernel

/-- **C134**, `fma`. -/
theorem C134_fma (h : c.WF) {a b d : ℤ} (ha : c.fmt.IsCanonical a) (hb : c.fmt.IsCanonical b) (hd : c.fmt.IsCanonical d) {P D : EV}
    (hP : P = EV.narrowMul c.F (c.ext a) (c.ext b)) (hD : D = (c.ext d).cut (c.F + 1)) :
    (EV.AddOK c.F P D → EV.Outcome c (EV.orFirst (EV.add c.F) P D) (Posit.fma c a b d)) ∧
    (¬ EV.AddOK c.F P D → Posit.fma c a b d = .error .shiftAmount) := by
  obtain ⟨ua, ub, m, h1, h2, h3, h4, h5⟩ := enum_mul h ha hb
  obtain ⟨ud, h6, h7, h8⟩ := enum_unpack h hd
  rw [← hP] at h4
  rw [← hD] at h7
  have heq : Posit.fma c a b d = (do let r ← Unp.add c.F c.E m ud; Posit.pack c r) := by
    unfold Posit.fma
    rw [h1, h2]
    simp only [bind, Except.bind]
    rw [h3, h6]
  rw [heq]
  exact enum_add_pack h h4 h7 (addRange_products h h5 (by rw [abs_le] at *; omega))

example : narrowInf.fmt.IsCanonical narrowInf.pinf ∧ Posit.fma narrowInf narrowInf.pinf (-9) 4 = .ok narrowInf.ninf ∧
    Posit.fma narrowInf 20001 (-17777) 18888 = .ok (-15616) ∧ Posit.fma narrowInf 20001 (-17777) narrowInf.topPat = .ok (-21504) := by
  decide +kernel

/-- **C134**, the sum of two delayed products. -/
theorem C134_mulAddMul (h : c.WF) {a b x y : ℤ} (ha : c.fmt.IsCanonical a) (hb : c.fmt.IsCanonical b) (hx : c.fmt.IsCanonical x)
    (hy : c.fmt.IsCanonical y) {P Q : EV} (hP : P = EV.narrowMul c.F (c.ext a) (c.ext b))
    (hQ : Q = EV.narrowMul c.F (c.ext x) (c.ext y)) :
    (EV.AddOK c.F P Q → EV.Outcome c (EV.orFirst (EV.add c.F) P Q) (Posit.mulAddMul c a b x y)) ∧
    (¬ EV.AddOK c.F P Q → Posit.mulAddMul c a b x y = .error .shiftAmount) := by
  obtain ⟨ua, ub, m, h1, h2, h3, h4, h5⟩ := enum_mul h ha hb
  obtain ⟨ux, uy, n, g1, g2, g3, g4, g5⟩ := enum_mul h hx hy
  rw [← hP] at h4
  rw [← hQ] at g4
  have heq : Posit.mulAddMul c a b x y = (do let r ← Unp.add c.F c.E m n; Posit.pack c r) := by
    unfold Posit.mulAddMul
    rw [h1, h2]
    simp only [bind, Except.bind]
    rw [h3, g1, g2]
    simp only []
    rw [g3]
  rw [heq]
  exact enum_add_pack h h4 g4 (addRange_products h h5 g5)

example : Posit.mulAddMul narrowInf narrowInf.pinf (-9) narrowInf.pinf 9 = .ok narrowInf.topPat ∧
    Posit.mulAddMul narrowInf 20001 (-17777) 18888 17007 = .ok (-13568) ∧
    Posit.mulAddMul narrowInf 20001 narrowInf.topPat 18888 17007 = .ok 24000 := by decide +kernel

/-- **C134**, the difference of two delayed products. -/
theorem C134_mulSubMul (h : c.WF) {a b x y : ℤ} (ha : c.fmt.IsCanonical a) (hb : c.fmt.IsCanonical b) (hx : c.fmt.IsCanonical x)
    (hy : c.fmt.IsCanonical y) {P Q : EV} (hP : P = EV.narrowMul c.F (c.ext a) (c.ext b))
    (hQ : Q = EV.negAsRegular (EV.narrowMul c.F (c.ext x) (c.ext y))) :
    (EV.AddOK c.F P Q → EV.Outcome c (EV.orFirst (EV.add c.F) P Q) (Posit.mulSubMul c a b x y)) ∧
    (¬ EV.AddOK c.F P Q → Posit.mulSubMul c a b x y = .error .shiftAmount) := by
  obtain ⟨ua, ub, m, h1, h2, h3, h4, h5⟩ := enum_mul h ha hb
  obtain ⟨ux, uy, n, g1, g2, g3, g4, g5⟩ := enum_mul h hx hy
  obtain ⟨k1, k2⟩ := enum_neg g4
  rw [← hP] at h4
  rw [← hQ] at k1
  have heq : Posit.mulSubMul c a b x y = (do let r ← Unp.add c.F c.E m (Unp.neg' n); Posit.pack c r) := by
    unfold Posit.mulSubMul
    rw [h1, h2]
    simp only [bind, Except.bind]
    rw [h3, g1, g2]
    simp only []
    rw [g3]
    rfl
  rw [heq]
  exact enum_add_pack h h4 k1 (addRange_products h h5 (by rw [k2]; exact g5))

example : Posit.mulSubMul narrowInf 16384 16384 narrowInf.pinf 16384 = .ok 0 ∧
    Posit.mulSubMul narrowInf 20001 (-17777) 18888 17007 = .ok (-24752) := by decide +kernel

/-- **C134**, dot products. -/
theorem C134_dot (h : c.WF) {a b : ℤ} {l : List (ℤ × ℤ)}
    (hl : ∀ p ∈ (a, b) :: l, c.fmt.IsCanonical p.1 ∧ c.fmt.IsCanonical p.2) (hn : l.length + 1 < 2 ^ 60) {P : EV} {L : List EV}
    (hP : P = EV.narrowMul c.F (c.ext a) (c.ext b)) (hL : L = l.map fun p => EV.narrowMul c.F (c.ext p.1) (c.ext p.2)) :
    (EV.FoldOK c.F P L → EV.Outcome c (L.foldl (EV.orFirst (EV.add c.F)) P) (Posit.dot c ((a, b) :: l))) ∧
    (¬ EV.FoldOK c.F P L → Posit.dot c ((a, b) :: l) = .error .shiftAmount) := by
  subst hP hL
  obtain ⟨ha, hb⟩ := hl (a, b) (by simp)
  obtain ⟨ua, ub, m, h1, h2, h3, h4, h5⟩ := enum_mul h ha hb
  have hF8 := h.F_pos
  have hbound : ∀ s, EV.narrowMul c.F (c.ext a) (c.ext b) = .num s → |s| ≤ ((1 : ℕ) : ℚ) * 2 ^ (2 * (c.maxScale : ℤ) + 2) := by
    intro s hs
    rw [Nat.cast_one, one_mul]; exact nprod_le h hs
  obtain ⟨k1, k2⟩ := enum_dotLoop h l m _ 1 (fun p hp => hl p (by simp [hp])) h4
    (by have := abs_le.mp h5; omega) hbound (by omega)
  have heq : Posit.dot c ((a, b) :: l) = (do let s ← Posit.dotLoop c m l; Posit.pack c s) := by
    rw [Posit.dot, h1, h2]
    simp only [bind, Except.bind]
    rw [h3]
  rw [heq]
  refine ⟨fun ho => ?_, fun ho => by rw [k2 ho]; rfl⟩
  obtain ⟨r, hr, hd⟩ := k1 ho
  rw [hr]
  exact enum_pack h hd

example : (∀ p ∈ [((20001 : ℤ), (-17777 : ℤ)), (narrowInf.pinf, 4), (narrowInf.topPat, 5)],
      narrowInf.fmt.IsCanonical p.1 ∧ narrowInf.fmt.IsCanonical p.2) ∧
    Posit.dot narrowInf [(20001, -17777), (narrowInf.pinf, 4), (narrowInf.topPat, 5)] = .ok narrowInf.pinf ∧
    Posit.dot narrowInf [(20001, -17777), (18888, 17007), (15000, 20000)] = .ok 15488 := by decide +kernel

/-- **C134**: with two bits to spare, products, quotients, sums and differences have the outcome that C88 gives them: on every
pair of patterns the two descriptions agree. -/
theorem C134_wide (h : c.WF) (hF : c.fb + 2 ≤ c.F) {a b : ℤ} (ha : c.fmt.IsCanonical a) (hb : c.fmt.IsCanonical b) (r : M ℤ) :
    (EV.Outcome c (EV.narrowMul c.F (c.ext a) (c.ext b)) r ↔ EV.Outcome c (EV.orFirst EV.mul (c.ext a) (c.ext b)) r) ∧
    (EV.Outcome c (EV.narrowDiv c.F (c.ext a) (c.ext b)) r ↔ EV.Outcome c (EV.orFirst EV.divBig (c.ext a) (c.ext b)) r) ∧
    (c.ext a).cut (c.F + 1) = c.ext a := by
  have m1 := C134_mul h ha hb
  have m2 := C88_mul h hF ha hb
  have d1 := C134_div h ha hb
  have d2 := C88_div h hF ha hb
  refine ⟨⟨fun hr => ?_, fun hr => ?_⟩, ⟨fun hr => ?_, fun hr => ?_⟩, C128_exact h (by omega) a⟩
  · rw [hr.unique m1]; exact m2
  · rw [hr.unique m2]; exact m1
  · rw [hr.unique d1]; exact d2
  · rw [hr.unique d2]; exact d1

example : P60.WF ∧ P60.fb + 2 ≤ P60.F ∧ P60.fmt.IsCanonical 7 ∧ P60.fmt.IsCanonical P60.topPat ∧
    EV.narrowMul P60.F (P60.ext P60.pinf) (P60.ext (-5)) = .inf true := by decide +kernel

/-- **C134**: with a fraction type of fewer bits than the longest fraction the operand that a NaN second operand gives back
(C88: unchanged) loses bits: the number after one becomes one, in sums, products and quotients. -/
theorem C134_nan_wrong (h : c.WF) (hF : c.F < c.fb) (hs : c.spec ≠ .withInf) :
    Posit.mul c (c.one + 1) c.topPat = .ok c.one ∧ Posit.div c (c.one + 1) c.topPat = .ok c.one ∧
    Posit.add c (c.one + 1) c.topPat = .ok c.one := by
  have hF8 := h.F_pos
  obtain ⟨r1, r2, r3⟩ := val_one_add h (k := 1) (one_lt_pow₀ (by norm_num) (by omega)) (by omega)
  simp only [Nat.cast_one, one_mul] at r1 r2 r3
  have htop : c.fmt.IsCanonical c.topPat := by
    unfold Format.IsCanonical Cfg.topPat
    simp only [fmt_N]
    constructor
    · omega
    · have : (0 : ℤ) < 2 ^ (c.N - 1) := by positivity
      omega
  have htop0 : c.topPat ≠ 0 := by unfold Cfg.topPat; have : (0 : ℤ) < 2 ^ (c.N - 1) := by positivity
                                  omega
  have hcut : cutSig (c.F + 1) (1 + 2 ^ (-(c.fb : ℤ))) = 1 := by
    have hlt : (2 : ℚ) ^ (-(c.fb : ℤ)) < 2 ^ (-(c.F : ℤ)) := zpow_lt_zpow_right₀ (by norm_num) (by omega)
    have p1 : (2 : ℚ) ^ c.F * 2 ^ (-(c.F : ℤ)) = 1 := by
      rw [zpow_neg, zpow_natCast]; exact mul_inv_cancel₀ (by positivity)
    have := cutSig_of_bounds (m := c.F) (n := 2 ^ c.F) (Y := -c.F) (x := 1 + 2 ^ (-(c.fb : ℤ))) false le_rfl
      (Nat.pow_lt_pow_right (by norm_num) (by omega))
      (by push_cast; rw [p1]; linarith [show (0 : ℚ) < 2 ^ (-(c.fb : ℤ)) by positivity])
      (by push_cast; rw [add_mul, p1]; linarith)
    simp only [sq, Bool.false_eq_true, if_false, one_mul] at this
    rw [this]
    push_cast
    exact p1
  have hext : (c.ext (c.one + 1)).cut (c.F + 1) = .num 1 := by rw [ext_real r1, r3, EV.cut, hcut]
  have hone : ∀ {r : M ℤ}, EV.Outcome c (.num 1) r → r = .ok c.one := by
    intro r hr
    have hsafe : c.SafeMag 1 := by
      refine safeMag_near_one h ?_ (by norm_num)
      rw [abs_one]
      exact zpow_le_one_of_nonpos₀ (by norm_num) (by omega)
    obtain ⟨v, v1, v2⟩ := hr.1 (Or.inr hsafe)
    rcases v2 with ⟨v2, -⟩ | v2
    · exact absurd v2 one_ne_zero
    · rw [v1, v2.faithful.exact (one_real h).1 (val_one h)]
  refine ⟨hone ?_, hone ?_, hone ?_⟩
  · have := C134_mul h (Format.IsReal.canonical r1) htop
    rw [ext_top hs] at this
    have e : EV.narrowMul c.F (c.ext (c.one + 1)) .nan = .num 1 := by rw [← hext, ext_real r1]; rfl
    rwa [e] at this
  · have := C134_div h (Format.IsReal.canonical r1) htop
    rw [ext_top hs] at this
    have e : EV.narrowDiv c.F (c.ext (c.one + 1)) .nan = .num 1 := by rw [← hext, ext_real r1]; rfl
    rwa [e] at this
  · have := (C134_add h (Format.IsReal.canonical r1) htop rfl rfl).2.2.1 r2 htop0
    rw [ext_top hs, hext] at this
    exact this trivial

example : narrowInf.WF ∧ narrowInf.F < narrowInf.fb ∧ narrowInf.spec ≠ .withInf ∧
    Posit.mul narrowInf 16385 narrowInf.topPat = .ok 16384 := by decide +kernel

end Verif
