import Verif.Lemmas.AddExact
import Verif.Lemmas.Fused
import Verif.Props.Algebra
import Verif.Model.Instances

/-!
# C63, C64: the complete outcome of sums, and their monotonicity
-/

namespace Verif
open Fmt

variable {c : Cfg}

/-! ## C63 -/

/-- **C63**: the outcome of `a + b` for every pair of real posits of every instantiation: the aligned sum of the operands
rounded toward zero, or undefined behaviour, and exactly when each of them occurs. -/
theorem C63_add (h : c.WF) {a b : ℤ} (ha : c.fmt.IsReal a) (hb : c.fmt.IsReal b) :
    (c.fmt.val a = 0 ∨ c.fmt.val b = 0 ∨ (SumOK c.F (c.fmt.val a) (c.fmt.val b) ∧
        (alignedSum c.F (c.fmt.val a) (c.fmt.val b) = 0 ∨ c.SafeMag (alignedSum c.F (c.fmt.val a) (c.fmt.val b)))) →
      ∃ v, Posit.add c a b = .ok v ∧ c.fmt.IsCut0 (alignedSum c.F (c.fmt.val a) (c.fmt.val b)) v) ∧
    (¬ (c.fmt.val a = 0 ∨ c.fmt.val b = 0 ∨ (SumOK c.F (c.fmt.val a) (c.fmt.val b) ∧
        (alignedSum c.F (c.fmt.val a) (c.fmt.val b) = 0 ∨ c.SafeMag (alignedSum c.F (c.fmt.val a) (c.fmt.val b))))) →
      Posit.add c a b = .error .shiftAmount) := by
  have hza := Format.val_eq_zero_iff ha.inRange
  have hzb := Format.val_eq_zero_iff hb.inRange
  by_cases ha0 : a = 0
  · refine ⟨fun _ => ⟨b, by rw [ha0]; rfl, ?_⟩, fun hn => absurd (Or.inl (hza.mpr ha0)) hn⟩
    unfold alignedSum
    rw [if_pos (hza.mpr ha0)]; exact isCut0_self hb
  by_cases hb0 : b = 0
  · refine ⟨fun _ => ⟨a, ?_, ?_⟩, fun hn => absurd (Or.inr (Or.inl (hzb.mpr hb0))) hn⟩
    · unfold Posit.add Posit.isZero; simp [hb0, ha0]
    · unfold alignedSum
      rw [if_neg (fun hh => ha0 (hza.mp hh)), if_pos (hzb.mpr hb0)]; exact isCut0_self ha
  have va : c.fmt.val a ≠ 0 := fun hh => ha0 (hza.mp hh)
  have vb : c.fmt.val b ≠ 0 := fun hh => hb0 (hzb.mp hh)
  have hal : alignedSum c.F (c.fmt.val a) (c.fmt.val b) = cutSum c.F (c.fmt.val a) (c.fmt.val b) := by
    unfold alignedSum; rw [if_neg va, if_neg vb]
  rw [hal]
  have hiff : SumOK c.F (c.fmt.val a) (c.fmt.val b) ↔ |c.fmt.scale a - c.fmt.scale b| < (pw c.F : ℤ) ∧
      ¬ (32 ≤ c.F ∧ |cutSum c.F (c.fmt.val a) (c.fmt.val b)| = sumUnit c.F (c.fmt.val a) (c.fmt.val b)) := by
    unfold SumOK Format.scale
    simp [va, vb]
  rw [hiff]
  by_cases hd : |c.fmt.scale a - c.fmt.scale b| < (pw c.F : ℤ)
  · obtain ⟨h1, h2, h3⟩ := add_real_exact h ha ha0 hb hb0 hd
    constructor
    · rintro (hh | hh | ⟨⟨-, hn⟩, hs⟩)
      · exact absurd hh va
      · exact absurd hh vb
      · by_cases h0 : cutSum c.F (c.fmt.val a) (c.fmt.val b) = 0
        · exact ⟨0, h1 h0, Or.inl ⟨h0, rfl⟩⟩
        · obtain ⟨v, hv, ht⟩ := (h3 h0 hn).1 (hs.resolve_left h0)
          exact ⟨v, hv, Or.inr ht⟩
    · intro hn
      by_cases hu : 32 ≤ c.F ∧ |cutSum c.F (c.fmt.val a) (c.fmt.val b)| = sumUnit c.F (c.fmt.val a) (c.fmt.val b)
      · exact h2 hu.1 hu.2
      · have hs : ¬ (cutSum c.F (c.fmt.val a) (c.fmt.val b) = 0 ∨ c.SafeMag (cutSum c.F (c.fmt.val a) (c.fmt.val b))) :=
          fun hs => hn (Or.inr (Or.inr ⟨⟨hd, hu⟩, hs⟩))
        exact (h3 (fun h0 => hs (Or.inl h0)) hu).2 (fun hh => hs (Or.inr hh))
  · constructor
    · rintro (hh | hh | ⟨⟨hd', -⟩, -⟩)
      · exact absurd hh va
      · exact absurd hh vb
      · exact absurd hd' hd
    · intro _
      exact add_real_ub h ha ha0 hb hb0 (by omega)

/- a cancellation, a sum that is cut, and the two kinds of undefined behaviour of the adder -/
example : P16.WF ∧ P16.fmt.IsReal 12000 ∧ SumOK P16.F (P16.fmt.val 12000) (P16.fmt.val (-11990)) ∧
    P16.SafeMag (alignedSum P16.F (P16.fmt.val 12000) (P16.fmt.val (-11990))) ∧
    Posit.add P16 12000 (-11990) = .ok 2688 := by decide +kernel
example : alignedSum P16.F (P16.fmt.val 12000) (P16.fmt.val 301) ≠ P16.fmt.val 12000 + P16.fmt.val 301 ∧
    Posit.add P16 12000 301 = .ok 12000 := by decide +kernel
example : ¬ SumOK P12.F (P12.fmt.val 2047) (P12.fmt.val 1) ∧ Posit.add P12 2047 1 = .error .shiftAmount := by decide +kernel
example : (⟨32, 32, 0, 32, .withNan⟩ : Cfg).WF ∧
    ¬ SumOK 32 ((⟨32, 32, 0, 32, .withNan⟩ : Cfg).fmt.val (2 ^ 30)) ((⟨32, 32, 0, 32, .withNan⟩ : Cfg).fmt.val (-(2 ^ 30 - 1))) := by
  decide +kernel

/-- **C63**, differences: `a - b` has the outcome of the aligned sum of `a` and `-b`. -/
theorem C63_sub (h : c.WF) {a b : ℤ} (ha : c.fmt.IsReal a) (hb : c.fmt.IsReal b) :
    (c.fmt.val a = 0 ∨ c.fmt.val b = 0 ∨ (SumOK c.F (c.fmt.val a) (-c.fmt.val b) ∧
        (alignedSum c.F (c.fmt.val a) (-c.fmt.val b) = 0 ∨ c.SafeMag (alignedSum c.F (c.fmt.val a) (-c.fmt.val b)))) →
      ∃ v, Posit.sub c a b = .ok v ∧ c.fmt.IsCut0 (alignedSum c.F (c.fmt.val a) (-c.fmt.val b)) v) ∧
    (¬ (c.fmt.val a = 0 ∨ c.fmt.val b = 0 ∨ (SumOK c.F (c.fmt.val a) (-c.fmt.val b) ∧
        (alignedSum c.F (c.fmt.val a) (-c.fmt.val b) = 0 ∨ c.SafeMag (alignedSum c.F (c.fmt.val a) (-c.fmt.val b))))) →
      Posit.sub c a b = .error .shiftAmount) := by
  have key := C63_add h ha hb.neg
  rw [Format.val_neg, neg_eq_zero] at key
  rw [sub_as_add h a hb]
  exact key

example : P16.WF ∧ P16.fmt.IsReal 12000 ∧ SumOK P16.F (P16.fmt.val 12000) (-P16.fmt.val 11990) ∧
    Posit.sub P16 12000 11990 = .ok 2688 := by decide +kernel

/-- **C63**, fused multiply-add: the outcome of `fma(a,b,d)` for all reals is the aligned sum of the exact product and the
addend, rounded toward zero, or undefined behaviour. -/
theorem C63_fma (h : c.WF) (hF : c.fb + 2 ≤ c.F) {a b d : ℤ} (ha : c.fmt.IsReal a) (hb : c.fmt.IsReal b)
    (hd : c.fmt.IsReal d) :
    (SumOK c.F (c.fmt.val a * c.fmt.val b) (c.fmt.val d) ∧
        (alignedSum c.F (c.fmt.val a * c.fmt.val b) (c.fmt.val d) = 0 ∨
          c.SafeMag (alignedSum c.F (c.fmt.val a * c.fmt.val b) (c.fmt.val d))) →
      ∃ v, Posit.fma c a b d = .ok v ∧ c.fmt.IsCut0 (alignedSum c.F (c.fmt.val a * c.fmt.val b) (c.fmt.val d)) v) ∧
    (¬ (SumOK c.F (c.fmt.val a * c.fmt.val b) (c.fmt.val d) ∧
        (alignedSum c.F (c.fmt.val a * c.fmt.val b) (c.fmt.val d) = 0 ∨
          c.SafeMag (alignedSum c.F (c.fmt.val a * c.fmt.val b) (c.fmt.val d)))) →
      Posit.fma c a b d = .error .shiftAmount) := by
  obtain ⟨ua, ub, m, h1, h2, h3, h4, h5⟩ := app_mul h (by omega) ha hb
  obtain ⟨ud, h6, h7, h8⟩ := app_unpack h hd
  have key := app_add_pack h hF h4 h7 (addRange_products h h5 (by omega))
  have : Posit.fma c a b d = (do let r ← Unp.add c.F c.E m ud; Posit.pack c r) := by
    unfold Posit.fma
    rw [h1, h2, h6]
    simp only [bind, Except.bind]
    rw [h3]
  rw [this]
  exact key

example : P8h.WF ∧ P8h.fb + 2 ≤ P8h.F ∧ SumOK P8h.F (P8h.fmt.val 72 * P8h.fmt.val 72) (P8h.fmt.val (-64)) ∧
    P8h.SafeMag (alignedSum P8h.F (P8h.fmt.val 72 * P8h.fmt.val 72) (P8h.fmt.val (-64))) ∧
    Posit.fma P8h 72 72 (-64) = .ok 36 := by decide +kernel
/- the 16-bit fraction type of `P16` does not hold this product -/
example : P16.WF ∧ P16.fb + 2 ≤ P16.F ∧ SumOK P16.F (P16.fmt.val 17001 * P16.fmt.val 17003) (P16.fmt.val (-17100)) ∧
    alignedSum P16.F (P16.fmt.val 17001 * P16.fmt.val 17003) (P16.fmt.val (-17100)) ≠
      P16.fmt.val 17001 * P16.fmt.val 17003 + P16.fmt.val (-17100) ∧
    Posit.fma P16 17001 17003 (-17100) = .ok 13065 := by decide +kernel

/-- **C63**, sum of two products. -/
theorem C63_mulAddMul (h : c.WF) (hF : c.fb + 2 ≤ c.F) {a b x y : ℤ} (ha : c.fmt.IsReal a) (hb : c.fmt.IsReal b)
    (hx : c.fmt.IsReal x) (hy : c.fmt.IsReal y) :
    (SumOK c.F (c.fmt.val a * c.fmt.val b) (c.fmt.val x * c.fmt.val y) ∧
        (alignedSum c.F (c.fmt.val a * c.fmt.val b) (c.fmt.val x * c.fmt.val y) = 0 ∨
          c.SafeMag (alignedSum c.F (c.fmt.val a * c.fmt.val b) (c.fmt.val x * c.fmt.val y))) →
      ∃ v, Posit.mulAddMul c a b x y = .ok v ∧
        c.fmt.IsCut0 (alignedSum c.F (c.fmt.val a * c.fmt.val b) (c.fmt.val x * c.fmt.val y)) v) ∧
    (¬ (SumOK c.F (c.fmt.val a * c.fmt.val b) (c.fmt.val x * c.fmt.val y) ∧
        (alignedSum c.F (c.fmt.val a * c.fmt.val b) (c.fmt.val x * c.fmt.val y) = 0 ∨
          c.SafeMag (alignedSum c.F (c.fmt.val a * c.fmt.val b) (c.fmt.val x * c.fmt.val y)))) →
      Posit.mulAddMul c a b x y = .error .shiftAmount) := by
  obtain ⟨ua, ub, m, h1, h2, h3, h4, h5⟩ := app_mul h (by omega) ha hb
  obtain ⟨ux, uy, n, k1, k2, k3, k4, k5⟩ := app_mul h (by omega) hx hy
  have key := app_add_pack h hF h4 k4 (addRange_products h h5 k5)
  have : Posit.mulAddMul c a b x y = (do let r ← Unp.add c.F c.E m n; Posit.pack c r) := by
    unfold Posit.mulAddMul
    rw [h1, h2, k1, k2]
    simp only [bind, Except.bind]
    rw [h3, k3]
  rw [this]
  exact key

example : P8h.WF ∧ P8h.fb + 2 ≤ P8h.F ∧ SumOK P8h.F (P8h.fmt.val 72 * P8h.fmt.val 72) (P8h.fmt.val (-64) * P8h.fmt.val 50) ∧
    Posit.mulAddMul P8h 72 72 (-64) 50 = .ok 50 := by decide +kernel

/-- **C63**, difference of two products: as the sum with the negated second product, but `-1` takes the place of a second
product that is zero. -/
theorem C63_mulSubMul (h : c.WF) (hF : c.fb + 2 ≤ c.F) {a b x y : ℤ} (ha : c.fmt.IsReal a) (hb : c.fmt.IsReal b)
    (hx : c.fmt.IsReal x) (hy : c.fmt.IsReal y) {m : ℚ}
    (hm : m = if c.fmt.val x * c.fmt.val y = 0 then -1 else -(c.fmt.val x * c.fmt.val y)) :
    (SumOK c.F (c.fmt.val a * c.fmt.val b) m ∧
        (alignedSum c.F (c.fmt.val a * c.fmt.val b) m = 0 ∨ c.SafeMag (alignedSum c.F (c.fmt.val a * c.fmt.val b) m)) →
      ∃ v, Posit.mulSubMul c a b x y = .ok v ∧ c.fmt.IsCut0 (alignedSum c.F (c.fmt.val a * c.fmt.val b) m) v) ∧
    (¬ (SumOK c.F (c.fmt.val a * c.fmt.val b) m ∧
        (alignedSum c.F (c.fmt.val a * c.fmt.val b) m = 0 ∨ c.SafeMag (alignedSum c.F (c.fmt.val a * c.fmt.val b) m))) →
      Posit.mulSubMul c a b x y = .error .shiftAmount) := by
  obtain ⟨ua, ub, p, h1, h2, h3, h4, h5⟩ := app_mul h (by omega) ha hb
  obtain ⟨ux, uy, n, k1, k2, k3, k4, k5⟩ := app_mul h (by omega) hx hy
  obtain ⟨n1, n2⟩ := k4.neg (by omega)
  rw [← hm] at n1
  rw [← n2] at k5
  have key := app_add_pack h hF h4 n1 (addRange_products h h5 k5)
  have : Posit.mulSubMul c a b x y = (do let r ← Unp.add c.F c.E p (Unp.neg' n); Posit.pack c r) := by
    unfold Posit.mulSubMul Unp.sub
    rw [h1, h2, k1, k2]
    simp only [bind, Except.bind]
    rw [h3, k3]
  rw [this]
  exact key

example : P8h.WF ∧ P8h.fb + 2 ≤ P8h.F ∧ SumOK P8h.F (P8h.fmt.val 72 * P8h.fmt.val 72) (-(P8h.fmt.val 64 * P8h.fmt.val 50)) ∧
    Posit.mulSubMul P8h 72 72 64 50 = .ok 50 ∧ SumOK P8h.F (P8h.fmt.val 72 * P8h.fmt.val 72) (-1) ∧
    Posit.mulSubMul P8h 72 72 64 0 = .ok 36 := by decide +kernel

/-- **C63**, dot product: the products added one after the other, each addition aligned, and one rounding toward zero at the
end; or undefined behaviour. For fewer than `2^60` pairs. -/
theorem C63_dot (h : c.WF) (hF : c.fb + 2 ≤ c.F) {a b : ℤ} {l : List (ℤ × ℤ)} (ha : c.fmt.IsReal a)
    (hb : c.fmt.IsReal b) (hl : ∀ p ∈ l, c.fmt.IsReal p.1 ∧ c.fmt.IsReal p.2) (hlen : l.length + 1 < 2 ^ 60) {P : List ℚ} {S : ℚ}
    (hP : P = l.map fun p => c.fmt.val p.1 * c.fmt.val p.2) (hS : S = P.foldl (alignedSum c.F) (c.fmt.val a * c.fmt.val b)) :
    (FoldOK c.F (c.fmt.val a * c.fmt.val b) P ∧ (S = 0 ∨ c.SafeMag S) →
      ∃ v, Posit.dot c ((a, b) :: l) = .ok v ∧ c.fmt.IsCut0 S v) ∧
    (¬ (FoldOK c.F (c.fmt.val a * c.fmt.val b) P ∧ (S = 0 ∨ c.SafeMag S)) →
      Posit.dot c ((a, b) :: l) = .error .shiftAmount) := by
  obtain ⟨ua, ub, m, h1, h2, h3, h4, h5⟩ := app_mul h (by omega) ha hb
  have hF8 := h.F_pos
  obtain ⟨g1, g2⟩ := app_dotLoop h (by omega) l m _ 1 hl h4 (by rw [abs_le] at h5; omega)
    (by rw [Nat.cast_one, one_mul]; exact abs_product_le h ha hb) (by omega)
  rw [← hP, ← hS] at g1
  rw [← hP] at g2
  have hstep : ∀ r, Posit.dotLoop c m l = r → Posit.dot c ((a, b) :: l) = r.bind fun t => Posit.pack c t := by
    intro r hr
    unfold Posit.dot
    simp only []
    rw [h1, h2]
    simp only [bind, Except.bind]
    rw [h3]
    simp only []
    rw [hr]
  by_cases ho : FoldOK c.F (c.fmt.val a * c.fmt.val b) P
  · obtain ⟨r, hr, hd⟩ := g1 ho
    rw [hstep _ hr]
    obtain ⟨p1, p2⟩ := app_pack h hF hd
    exact ⟨fun hh => p1 hh.2, fun hn => p2 (fun hh => hn ⟨ho, hh⟩)⟩
  · rw [hstep _ (g2 ho)]
    exact ⟨fun hh => absurd hh.1 ho, fun _ => rfl⟩

example : P8.WF ∧ P8.fb + 2 ≤ P8.F ∧ (∀ p ∈ [((-96 : ℤ), (72 : ℤ)), (81, 83)], P8.fmt.IsReal p.1 ∧ P8.fmt.IsReal p.2) ∧
    FoldOK P8.F (P8.fmt.val 73 * P8.fmt.val 100) [P8.fmt.val (-96) * P8.fmt.val 72, P8.fmt.val 81 * P8.fmt.val 83] ∧
    P8.SafeMag ([P8.fmt.val (-96) * P8.fmt.val 72, P8.fmt.val 81 * P8.fmt.val 83].foldl (alignedSum P8.F) (P8.fmt.val 73 * P8.fmt.val 100)) ∧
    Posit.dot P8 [(73, 100), (-96, 72), (81, 83)] = .ok 105 := by decide +kernel

/-! ## C64 -/

theorem exact_val (h : c.WF) (hF : c.fb + 2 ≤ c.F) {v : ℤ} (hv : c.fmt.IsReal v) (h0 : c.fmt.val v ≠ 0) :
    cutTo (2 ^ (Int.log 2 |c.fmt.val v| + 2 - c.F : ℤ)) (c.fmt.val v) = c.fmt.val v := by
  obtain ⟨u, -, hu, -⟩ := den_unpack h (k := 2) hF hv
  exact hu.exact (by omega) le_rfl h0

theorem IsCut0.le {f : Format} {x y : ℚ} {v w : ℤ} (hv : f.IsCut0 x v) (hw : f.IsCut0 y w) (h : x ≤ y) : v ≤ w :=
  trunc0_mono hv hw h

theorem IsCut0.real {f : Format} {x : ℚ} {v : ℤ} (hv : f.IsCut0 x v) : f.IsReal v := by
  rcases hv with ⟨-, rfl⟩ | ht
  · unfold Format.IsReal; omega
  · exact ht.real

theorem le_of_cut {x y : ℚ} {v w : ℤ} (h : c.WF) (hv : c.fmt.IsCut0 x v) (hw : c.fmt.IsCut0 y w) (hxy : x ≤ y) :
    Posit.le c v w = true := by
  rw [(C04_compare h (IsCut0.real hv) (IsCut0.real hw)).2.1, Format.val_le_iff (IsCut0.real hv).inRange (IsCut0.real hw).inRange]
  exact IsCut0.le hv hw hxy

theorem add_cut_of_ok (h : c.WF) {a b v : ℤ} (ha : c.fmt.IsReal a) (hb : c.fmt.IsReal b) (hv : Posit.add c a b = .ok v) :
    c.fmt.IsCut0 (alignedSum c.F (c.fmt.val a) (c.fmt.val b)) v := by
  obtain ⟨h1, h2⟩ := C63_add h ha hb
  by_cases hc : c.fmt.val a = 0 ∨ c.fmt.val b = 0 ∨ (SumOK c.F (c.fmt.val a) (c.fmt.val b) ∧
        (alignedSum c.F (c.fmt.val a) (c.fmt.val b) = 0 ∨ c.SafeMag (alignedSum c.F (c.fmt.val a) (c.fmt.val b))))
  · obtain ⟨w, hw, hr⟩ := h1 hc
    rw [hv] at hw; injection hw with hw; subst hw; exact hr
  · rw [h2 hc] at hv; cases hv

/-- **C64**: for real `a <= b`, `a + d <= b + d` (comparisons of the library), whenever both sums are defined. -/
theorem C64_add_mono_partial (h : c.WF) (hF : c.fb + 2 ≤ c.F) {a b d x y : ℤ} (ha : c.fmt.IsReal a) (hb : c.fmt.IsReal b)
    (hd : c.fmt.IsReal d) (hab : Posit.le c a b = true) (hx : Posit.add c a d = .ok x) (hy : Posit.add c b d = .ok y) :
    Posit.le c x y = true :=
  le_of_cut h (add_cut_of_ok h ha hd hx) (add_cut_of_ok h hb hd hy)
    (alignedSum_mono (by have := h.hF; omega) (exact_val h hF hd) ((C04_compare h ha hb).2.1.mp hab))

example : P8.WF ∧ P8.fb + 2 ≤ P8.F ∧ P8.fmt.IsReal (-70) ∧ P8.fmt.IsReal 33 ∧ P8.fmt.IsReal 99 ∧ Posit.le P8 (-70) 33 = true ∧
    Posit.add P8 (-70) 99 = .ok 70 ∧ Posit.add P8 33 99 = .ok 103 := by decide +kernel

/-- **C64** for the second operand. -/
theorem C64_add_mono_right_partial (h : c.WF) (hF : c.fb + 2 ≤ c.F) {a b d x y : ℤ} (ha : c.fmt.IsReal a) (hb : c.fmt.IsReal b)
    (hd : c.fmt.IsReal d) (hab : Posit.le c a b = true) (hx : Posit.add c d a = .ok x) (hy : Posit.add c d b = .ok y) :
    Posit.le c x y = true := by
  refine le_of_cut h (add_cut_of_ok h hd ha hx) (add_cut_of_ok h hd hb hy) ?_
  rw [alignedSum_comm c.F (c.fmt.val d), alignedSum_comm c.F (c.fmt.val d)]
  exact alignedSum_mono (by have := h.hF; omega) (exact_val h hF hd) ((C04_compare h ha hb).2.1.mp hab)

example : P8.WF ∧ P8.fb + 2 ≤ P8.F ∧ Posit.le P8 (-70) 33 = true ∧
    Posit.add P8 99 (-70) = .ok 70 ∧ Posit.add P8 99 33 = .ok 103 := by decide +kernel

/-- **C64**, differences: for real `a <= b`, `a - d <= b - d` and `d - b <= d - a`, whenever defined. -/
theorem C64_sub_mono_partial (h : c.WF) (hF : c.fb + 2 ≤ c.F) {a b d x y : ℤ} (ha : c.fmt.IsReal a) (hb : c.fmt.IsReal b)
    (hd : c.fmt.IsReal d) (hab : Posit.le c a b = true) :
    (Posit.sub c a d = .ok x → Posit.sub c b d = .ok y → Posit.le c x y = true) ∧
    (Posit.sub c d a = .ok x → Posit.sub c d b = .ok y → Posit.le c y x = true) := by
  rw [sub_as_add h a hd, sub_as_add h b hd, sub_as_add h d ha, sub_as_add h d hb]
  have hneg : Posit.le c (-b) (-a) = true := by
    rw [(C04_compare h hb.neg ha.neg).2.1, Format.val_neg, Format.val_neg]
    have := (C04_compare h ha hb).2.1.mp hab
    linarith
  exact ⟨C64_add_mono_partial h hF ha hb hd.neg hab,
    fun h1 h2 => C64_add_mono_right_partial h hF hb.neg ha.neg hd hneg h2 h1⟩

example : P8.WF ∧ P8.fb + 2 ≤ P8.F ∧ Posit.le P8 (-70) 33 = true ∧ Posit.sub P8 (-70) 99 = .ok (-108) ∧
    Posit.sub P8 33 99 = .ok (-92) ∧ Posit.sub P8 99 (-70) = .ok 108 ∧ Posit.sub P8 99 33 = .ok 92 := by decide +kernel

/-- **C64** without the condition "when defined", for formats with a small dynamic range. -/
theorem C64_add_mono (h : c.WF) (hF : c.fb + 3 ≤ c.F) (hN : c.N + 1 < pw c.H) (hr : c.topExp + c.maxScale < pw c.F)
    (hsm : c.F < 32 ∨ c.fb + 4 ≤ c.F) {a b d : ℤ} (ha : c.fmt.IsReal a) (hb : c.fmt.IsReal b) (hd : c.fmt.IsReal d)
    (hab : Posit.le c a b = true) :
    ∃ x y, Posit.add c a d = .ok x ∧ Posit.add c b d = .ok y ∧ Posit.le c x y = true := by
  obtain ⟨x, hx, -⟩ := C10_add h hF hN hr hsm ha hd
  obtain ⟨y, hy, -⟩ := C10_add h hF hN hr hsm hb hd
  exact ⟨x, y, hx, hy, C64_add_mono_partial h (by omega) ha hb hd hab hx hy⟩

example : P8.WF ∧ P8.fb + 3 ≤ P8.F ∧ P8.N + 1 < pw P8.H ∧ P8.topExp + P8.maxScale < pw P8.F ∧ P8.F < 32 := by decide +kernel

theorem fma_cut_of_ok (h : c.WF) (hF : c.fb + 2 ≤ c.F) {a b d v : ℤ} (ha : c.fmt.IsReal a) (hb : c.fmt.IsReal b)
    (hd : c.fmt.IsReal d) (hv : Posit.fma c a b d = .ok v) :
    c.fmt.IsCut0 (alignedSum c.F (c.fmt.val a * c.fmt.val b) (c.fmt.val d)) v := by
  obtain ⟨h1, h2⟩ := C63_fma h hF ha hb hd
  by_cases hc : SumOK c.F (c.fmt.val a * c.fmt.val b) (c.fmt.val d) ∧
      (alignedSum c.F (c.fmt.val a * c.fmt.val b) (c.fmt.val d) = 0 ∨
        c.SafeMag (alignedSum c.F (c.fmt.val a * c.fmt.val b) (c.fmt.val d)))
  · obtain ⟨w, hw, hr⟩ := h1 hc
    rw [hv] at hw; injection hw with hw; subst hw; exact hr
  · rw [h2 hc] at hv; cases hv

/-- **C64**, fused multiply-add: monotone in the exact product, whenever defined. -/
theorem C64_fma_mono_product_partial (h : c.WF) (hF : c.fb + 2 ≤ c.F) {a b d a' b' x y : ℤ} (ha : c.fmt.IsReal a)
    (hb : c.fmt.IsReal b) (hd : c.fmt.IsReal d) (ha' : c.fmt.IsReal a') (hb' : c.fmt.IsReal b')
    (hp : c.fmt.val a * c.fmt.val b ≤ c.fmt.val a' * c.fmt.val b')
    (hx : Posit.fma c a b d = .ok x) (hy : Posit.fma c a' b' d = .ok y) : Posit.le c x y = true :=
  le_of_cut h (fma_cut_of_ok h hF ha hb hd hx) (fma_cut_of_ok h hF ha' hb' hd hy)
    (alignedSum_mono (by omega) (exact_val h hF hd) hp)

example : P16.WF ∧ P16.fb + 2 ≤ P16.F ∧ P16.fmt.val 17001 * P16.fmt.val 17000 ≤ P16.fmt.val 17001 * P16.fmt.val 17003 ∧
    Posit.fma P16 17001 17000 (-17100) = .ok 13050 ∧ Posit.fma P16 17001 17003 (-17100) = .ok 13065 := by decide +kernel

/-- **C64**, fused multiply-add: monotone in the product and in the addend together, whenever defined, when the fraction
type holds the exact product. -/
theorem C64_fma_mono_partial (h : c.WF) (hF : 2 * c.fb + 3 ≤ c.F) {a b d a' b' d' x y : ℤ} (ha : c.fmt.IsReal a)
    (hb : c.fmt.IsReal b) (hd : c.fmt.IsReal d) (ha' : c.fmt.IsReal a') (hb' : c.fmt.IsReal b') (hd' : c.fmt.IsReal d')
    (hp : c.fmt.val a * c.fmt.val b ≤ c.fmt.val a' * c.fmt.val b') (hdd : c.fmt.val d ≤ c.fmt.val d')
    (hx : Posit.fma c a b d = .ok x) (hy : Posit.fma c a' b' d' = .ok y) : Posit.le c x y = true := by
  have hF2 : 2 ≤ c.F := by omega
  obtain ⟨-, -, m, -, -, -, hm, -⟩ := den_mul h (k := 2) le_rfl (by omega) ha' hb'
  refine le_of_cut h (fma_cut_of_ok h (by omega) ha hb hd hx) (fma_cut_of_ok h (by omega) ha' hb' hd' hy)
    ((alignedSum_mono hF2 (exact_val h (by omega) hd) hp).trans ?_)
  rw [alignedSum_comm, alignedSum_comm c.F _ (c.fmt.val d')]
  exact alignedSum_mono hF2 (fun h0 => hm.exact hF2 le_rfl h0) hdd

example : P8h.WF ∧ 2 * P8h.fb + 3 ≤ P8h.F ∧ P8h.fmt.val 72 * P8h.fmt.val 60 ≤ P8h.fmt.val 72 * P8h.fmt.val 72 ∧
    P8h.fmt.val (-70) ≤ P8h.fmt.val (-64) ∧ Posit.fma P8h 72 60 (-70) = .ok (-1) ∧ Posit.fma P8h 72 72 (-64) = .ok 36 := by
  decide +kernel

/-- **C64** fails for a fraction type that is too narrow: adding `minpos` to a number makes it less, for
`Posit<int16_t,16,0,uint8_t>`. -/
theorem C64_narrow_wrong : ∃ c : Cfg, c.WF ∧ c.fmt.IsReal 20001 ∧ Posit.lt c 0 1 = true ∧ ∃ x, Posit.add c 0 20001 = .ok 20001 ∧
    Posit.add c 1 20001 = .ok x ∧ Posit.lt c x 20001 = true :=
  ⟨⟨16, 16, 0, 8, .withNan⟩, by decide, by decide +kernel, by decide +kernel, 19968, by decide +kernel⟩

end Verif
