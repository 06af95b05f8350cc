import Verif.Lemmas.Fused
import Verif.Props.Special
import Verif.Model.Instances

/-!
# Operations with one rounding: C29 (dot product), C30 (fma), C49 (sum and difference of products)

`2 * c.fb + 4 ≤ c.F` says that the fraction type holds the product of two posits and two guard bits.
-/

namespace Verif
open Fmt

variable {c : Cfg}

/-! ## C30 -/

/-- **C30** on the operands `FmaSafe`: one faithful rounding of the exact `a*b+d` (exact if that is a posit, see
`C30_fma_exact`); rounding toward zero if the product and `d` have the same sign. Missing: operands outside `FmaSafe`;
see `C30_fma_ub_far`. -/
theorem C30_fma_partial (h : c.WF) (hF : 2 * c.fb + 4 ≤ c.F) {a b d : ℤ} (ha : c.fmt.IsReal a) (hb : c.fmt.IsReal b)
    (hd : c.fmt.IsReal d) (hs : c.FmaSafe (c.fmt.val a * c.fmt.val b) (c.fmt.val d)) :
    ∃ v, Posit.fma c a b d = .ok v ∧ c.fmt.IsFaithful (c.fmt.val a * c.fmt.val b + c.fmt.val d) v ∧
      (v = 0 ↔ c.fmt.val a * c.fmt.val b + c.fmt.val d = 0) ∧
      (0 < c.fmt.val a * c.fmt.val b * c.fmt.val d → c.fmt.IsTrunc (c.fmt.val a * c.fmt.val b + c.fmt.val d) v) := by
  have hk := spareBits_le hF
  obtain ⟨ua, ub, m, h1, h2, h3, h4, h5⟩ := den_mul h (by have := spareBits_ge c; omega) hk ha hb
  obtain ⟨ud, h6, h7, h8⟩ := den_unpack h (k := spareBits c) (by omega) hd
  obtain ⟨v, hv, r1, r2, r3⟩ := den_sum_pack h hF h4 h7 h5 (by omega) hs
  refine ⟨v, ?_, r1, r2, r3⟩
  unfold Posit.fma
  rw [h1, h2, h6]
  simp only [bind, Except.bind] at hv ⊢
  rw [h3]
  exact hv

example : P32z.WF ∧ 2 * P32z.fb + 4 ≤ P32z.F ∧ P32z.fmt.IsReal 1234567890 ∧ P32z.fmt.IsReal (-987654321) ∧
    P32z.fmt.IsReal 1999999999 ∧
    P32z.FmaSafe (P32z.fmt.val 1234567890 * P32z.fmt.val (-987654321)) (P32z.fmt.val 1999999999) := by
  decide +kernel

/-- **C30** for all triples of reals, for formats at least two bits narrower than the promoted holder whose range of
products is below the width of the aligning shift. -/
theorem C30_fma (h : c.WF) (hF : 2 * c.fb + 4 ≤ c.F) (hsm : c.F < 32 ∨ 2 * c.fb + 5 ≤ c.F) (hN : c.N + 1 < pw c.H)
    (hr : 3 * c.maxScale + 1 < pw c.F) {a b d : ℤ} (ha : c.fmt.IsReal a) (hb : c.fmt.IsReal b) (hd : c.fmt.IsReal d) :
    ∃ v, Posit.fma c a b d = .ok v ∧ c.fmt.IsFaithful (c.fmt.val a * c.fmt.val b + c.fmt.val d) v ∧
      (v = 0 ↔ c.fmt.val a * c.fmt.val b + c.fmt.val d = 0) ∧
      (0 < c.fmt.val a * c.fmt.val b * c.fmt.val d → c.fmt.IsTrunc (c.fmt.val a * c.fmt.val b + c.fmt.val d) v) := by
  refine C30_fma_partial h hF ha hb hd ⟨Or.inr (safeMag_of_narrow h hN _), ?_⟩
  have hk := spareBits_le hF
  obtain ⟨ua, ub, m, -, -, -, h4, h5⟩ := den_mul h (by have := spareBits_ge c; omega) hk ha hb
  obtain ⟨ud, -, h7, h8⟩ := den_unpack h (k := spareBits c) (by omega) hd
  rcases h4.exp_log with ⟨h0, -⟩ | ⟨-, hl⟩
  · exact Or.inl h0
  · rcases h7.exp_log with ⟨h0, -⟩ | ⟨-, hl'⟩
    · exact Or.inr (Or.inl h0)
    · refine Or.inr (Or.inr ⟨?_, fun _ => ⟨hsm, safeMag_of_narrow h hN _, safeMag_of_narrow h hN _⟩⟩)
      rw [hl, hl']
      rw [abs_le] at h5 h8
      rw [abs_lt]; omega

example : P8h.WF ∧ 2 * P8h.fb + 4 ≤ P8h.F ∧ P8h.F < 32 ∧ P8h.N + 1 < pw P8h.H ∧ 3 * P8h.maxScale + 1 < pw P8h.F ∧
    P8h.fmt.val 72 = 5 / 4 ∧ P8h.fmt.val 100 = 5 / 2 ∧ P8h.fmt.val (-96) = -2 ∧ Posit.fma P8h 72 100 (-96) = .ok 68 ∧
    P8h.fmt.val 68 = 9 / 8 ∧ Posit.mul P8h 72 100 = .ok 105 ∧ P8h.fmt.val 105 = 25 / 8 := by decide +kernel

/-- **C30**, exactness: if `a*b+d` is a posit it is returned. -/
theorem C30_fma_exact (h : c.WF) (hF : 2 * c.fb + 4 ≤ c.F) {a b d w : ℤ} (ha : c.fmt.IsReal a) (hb : c.fmt.IsReal b)
    (hd : c.fmt.IsReal d) (hs : c.FmaSafe (c.fmt.val a * c.fmt.val b) (c.fmt.val d)) (hw : c.fmt.IsReal w)
    (he : c.fmt.val w = c.fmt.val a * c.fmt.val b + c.fmt.val d) : Posit.fma c a b d = .ok w := by
  obtain ⟨v, hv, hf, -⟩ := C30_fma_partial h hF ha hb hd hs
  rw [hv, hf.exact hw he]

example : P8h.WF ∧ 2 * P8h.fb + 4 ≤ P8h.F ∧ P8h.FmaSafe (P8h.fmt.val 72 * P8h.fmt.val 72) (P8h.fmt.val (-64)) ∧
    P8h.fmt.val 72 * P8h.fmt.val 72 + P8h.fmt.val (-64) = 9 / 16 ∧ P8h.fmt.val 36 = 9 / 16 := by decide +kernel

/-- **C30**: `fma(a,b,0)` is `a*b`, the same outcome for all patterns (special ones and undefined behaviour included). -/
theorem C30_fma_zero (h : c.WF) (a b : ℤ) : Posit.fma c a b 0 = Posit.mul c a b := by
  have key : ∀ m : Unp, Unp.add c.F c.E m ⟨.zero, false, 0, 0⟩ = .ok m := by
    rintro ⟨ty, s, e, f⟩
    cases ty <;> rfl
  unfold Posit.fma Posit.mul
  rw [unpack_zero h]
  simp only [bind, Except.bind]
  cases Posit.unpack c a with
  | error e => rfl
  | ok ua =>
    cases Posit.unpack c b with
    | error e => rfl
    | ok ub =>
      simp only []
      cases Unp.mul c.F c.E ua ub with
      | error e => rfl
      | ok m => simp only [key]

example : P8.WF ∧ Posit.fma P8 72 100 0 = .ok 105 := by decide +kernel

/-- **C30** fails when the exponents of the product and of `d` differ by `max 32 F` or more: the aligning shift is out of
range. -/
theorem C30_fma_ub_far (h : c.WF) (hF : 2 * c.fb + 4 ≤ c.F) {a b d : ℤ} (ha : c.fmt.IsReal a) (ha0 : a ≠ 0)
    (hb : c.fmt.IsReal b) (hb0 : b ≠ 0) (hd : c.fmt.IsReal d) (hd0 : d ≠ 0)
    (hfar : (pw c.F : ℤ) ≤ |Int.log 2 (|c.fmt.val a * c.fmt.val b|) - c.fmt.scale d|) :
    Posit.fma c a b d = .error .shiftAmount := by
  have hk := spareBits_le hF
  obtain ⟨ua, ub, m, h1, h2, h3, h4, h5⟩ := den_mul h (by have := spareBits_ge c; omega) hk ha hb
  obtain ⟨ud, h6, h7, h8⟩ := den_unpack h (k := spareBits c) (by omega) hd
  have va : c.fmt.val a ≠ 0 := fun hh => ha0 ((Format.val_eq_zero_iff ha.inRange).mp hh)
  have vb : c.fmt.val b ≠ 0 := fun hh => hb0 ((Format.val_eq_zero_iff hb.inRange).mp hh)
  have vd : c.fmt.val d ≠ 0 := fun hh => hd0 ((Format.val_eq_zero_iff hd.inRange).mp hh)
  have hr : AddRange c.E c.F m.exp ud.exp := by
    refine addRange_of h h5 (le_trans h8 (by omega)) le_rfl ?_
    rw [abs_le] at *; omega
  have key := den_sum_far h h4 h7 (mul_ne_zero va vb) vd hr hfar
  unfold Posit.fma
  rw [h1, h2, h6]
  simp only [bind, Except.bind] at key ⊢
  rw [h3]
  exact key

example : P16h.WF ∧ 2 * P16h.fb + 4 ≤ P16h.F ∧ P16h.fmt.IsReal 32767 ∧ P16h.fmt.IsReal 1 ∧
    (pw P16h.F : ℤ) ≤ |Int.log 2 (|P16h.fmt.val 32767 * P16h.fmt.val 32767|) - P16h.fmt.scale 1| := by decide +kernel

/-- **C30**, counterexample to the unrestricted claim: `fma(maxpos,maxpos,minpos)` is undefined for
`Posit<int16_t,16,0,uint32_t>`. -/
theorem C30_not_always : ∃ c : Cfg, c.WF ∧ 2 * c.fb + 4 ≤ c.F ∧ ∃ a b d, c.fmt.IsReal a ∧ c.fmt.IsReal b ∧ c.fmt.IsReal d ∧
    Posit.fma c a b d = .error .shiftAmount :=
  ⟨P16h, by decide, by decide, 32767, 32767, 1, by decide +kernel⟩

/-- **C30**: a NaN addend is ignored: `fma(a,b,NaN)` is `a*b`, for all patterns `a`, `b`. -/
theorem C30_fma_nan_ignored (h : c.WF) (hn : c.spec ≠ .withInf) (a b : ℤ) : Posit.fma c a b c.topPat = Posit.mul c a b := by
  have hu : Posit.unpack c c.topPat = .ok ⟨.nan, false, 0, 0⟩ := unpack_top h hn
  have key : ∀ m : Unp, Unp.add c.F c.E m ⟨.nan, false, 0, 0⟩ = .ok m := by
    rintro ⟨ty, s, e, f⟩
    cases ty <;> rfl
  unfold Posit.fma Posit.mul
  rw [hu]
  simp only [bind, Except.bind]
  cases Posit.unpack c a with
  | error e => rfl
  | ok ua =>
    cases Posit.unpack c b with
    | error e => rfl
    | ok ub =>
      simp only []
      cases Unp.mul c.F c.E ua ub with
      | error e => rfl
      | ok m => simp only [key]

example : P8.WF ∧ P8.spec ≠ .withInf ∧ P8.topPat = -128 ∧ Posit.fma P8 64 64 (-128) = .ok 64 := by decide +kernel

/-! ## C49 -/

/-- **C49**, sum, on the operands `FmaSafe`: `a*b + x*y` is one faithful rounding of the exact sum of the products.
Missing: operands outside `FmaSafe`. -/
theorem C49_add_partial (h : c.WF) (hF : 2 * c.fb + 4 ≤ c.F) {a b x y : ℤ} (ha : c.fmt.IsReal a) (hb : c.fmt.IsReal b)
    (hx : c.fmt.IsReal x) (hy : c.fmt.IsReal y)
    (hs : c.FmaSafe (c.fmt.val a * c.fmt.val b) (c.fmt.val x * c.fmt.val y)) :
    ∃ v, Posit.mulAddMul c a b x y = .ok v ∧
      c.fmt.IsFaithful (c.fmt.val a * c.fmt.val b + c.fmt.val x * c.fmt.val y) v ∧
      (v = 0 ↔ c.fmt.val a * c.fmt.val b + c.fmt.val x * c.fmt.val y = 0) ∧
      (0 < c.fmt.val a * c.fmt.val b * (c.fmt.val x * c.fmt.val y) →
        c.fmt.IsTrunc (c.fmt.val a * c.fmt.val b + c.fmt.val x * c.fmt.val y) v) := by
  have hk := spareBits_le hF
  obtain ⟨ua, ub, m, h1, h2, h3, h4, h5⟩ := den_mul h (by have := spareBits_ge c; omega) hk ha hb
  obtain ⟨ux, uy, n, k1, k2, k3, k4, k5⟩ := den_mul h (by have := spareBits_ge c; omega) hk hx hy
  obtain ⟨v, hv, r1, r2, r3⟩ := den_sum_pack h hF h4 k4 h5 k5 hs
  refine ⟨v, ?_, r1, r2, r3⟩
  unfold Posit.mulAddMul
  rw [h1, h2, k1, k2]
  simp only [bind, Except.bind] at hv ⊢
  rw [h3, k3]
  exact hv

example : P8h.WF ∧ 2 * P8h.fb + 4 ≤ P8h.F ∧
    P8h.FmaSafe (P8h.fmt.val 72 * P8h.fmt.val 100) (P8h.fmt.val (-96) * P8h.fmt.val 72) ∧
    P8h.fmt.val 72 * P8h.fmt.val 100 + P8h.fmt.val (-96) * P8h.fmt.val 72 = 5 / 8 ∧
    Posit.mulAddMul P8h 72 100 (-96) 72 = .ok 40 ∧ P8h.fmt.val 40 = 5 / 8 := by decide +kernel

/-- **C49**, difference, when the second product is not zero. Missing: operands outside `FmaSafe`, and a second product
equal to zero, for which the result is wrong (`C49_sub_zero_wrong`). -/
theorem C49_sub_partial (h : c.WF) (hF : 2 * c.fb + 4 ≤ c.F) {a b x y : ℤ} (ha : c.fmt.IsReal a) (hb : c.fmt.IsReal b)
    (hx : c.fmt.IsReal x) (hx0 : x ≠ 0) (hy : c.fmt.IsReal y) (hy0 : y ≠ 0)
    (hs : c.FmaSafe (c.fmt.val a * c.fmt.val b) (-(c.fmt.val x * c.fmt.val y))) :
    ∃ v, Posit.mulSubMul c a b x y = .ok v ∧
      c.fmt.IsFaithful (c.fmt.val a * c.fmt.val b - c.fmt.val x * c.fmt.val y) v ∧
      (v = 0 ↔ c.fmt.val a * c.fmt.val b = c.fmt.val x * c.fmt.val y) := by
  have hk := spareBits_le hF
  have vx : c.fmt.val x ≠ 0 := fun hh => hx0 ((Format.val_eq_zero_iff hx.inRange).mp hh)
  have vy : c.fmt.val y ≠ 0 := fun hh => hy0 ((Format.val_eq_zero_iff hy.inRange).mp hh)
  obtain ⟨ua, ub, m, h1, h2, h3, h4, h5⟩ := den_mul h (by have := spareBits_ge c; omega) hk ha hb
  obtain ⟨ux, uy, n, k1, k2, k3, k4, k5⟩ := den_mul h (by have := spareBits_ge c; omega) hk hx hy
  obtain ⟨v, hv, r1, r2, r3⟩ := den_sum_pack h hF h4 (k4.neg (mul_ne_zero vx vy)) h5 k5 hs
  refine ⟨v, ?_, by rwa [sub_eq_add_neg], by rw [r2, ← sub_eq_add_neg, sub_eq_zero]⟩
  unfold Posit.mulSubMul Unp.sub
  rw [h1, h2, k1, k2]
  simp only [bind, Except.bind] at hv ⊢
  rw [h3, k3]
  exact hv

example : P8h.WF ∧ 2 * P8h.fb + 4 ≤ P8h.F ∧
    P8h.FmaSafe (P8h.fmt.val 72 * P8h.fmt.val 100) (-(P8h.fmt.val 96 * P8h.fmt.val 72)) ∧
    P8h.fmt.val 72 * P8h.fmt.val 100 - P8h.fmt.val 96 * P8h.fmt.val 72 = 5 / 8 ∧
    Posit.mulSubMul P8h 72 100 96 72 = .ok 40 ∧ P8h.fmt.val 40 = 5 / 8 := by decide +kernel

/-- **C49** fails for a difference whose second product is zero: the code subtracts one instead. -/
theorem C49_sub_zero_wrong (h : c.WF) (hF : 2 * c.fb + 4 ≤ c.F) {a b x y : ℤ} (ha : c.fmt.IsReal a) (hb : c.fmt.IsReal b)
    (hx : c.fmt.IsReal x) (hy : c.fmt.IsReal y) (hxy : x = 0 ∨ y = 0)
    (hs : c.FmaSafe (c.fmt.val a * c.fmt.val b) (-1)) :
    ∃ v, Posit.mulSubMul c a b x y = .ok v ∧ c.fmt.IsFaithful (c.fmt.val a * c.fmt.val b - 1) v := by
  have hk := spareBits_le hF
  have hz : c.fmt.val x * c.fmt.val y = 0 := by
    rcases hxy with rfl | rfl <;> simp [Format.val_zero]
  obtain ⟨ua, ub, m, h1, h2, h3, h4, h5⟩ := den_mul h (by have := spareBits_ge c; omega) hk ha hb
  obtain ⟨ux, uy, n, k1, k2, k3, k4, k5⟩ := den_mul h (by have := spareBits_ge c; omega) hk hx hy
  rw [hz] at k4
  obtain ⟨n1, n2⟩ := den_neg_zero k4
  obtain ⟨v, hv, r1, r2, r3⟩ := den_sum_pack h hF h4 n1 h5 (by rw [n2]; simp; omega) hs
  refine ⟨v, ?_, by rwa [sub_eq_add_neg]⟩
  unfold Posit.mulSubMul Unp.sub
  rw [h1, h2, k1, k2]
  simp only [bind, Except.bind] at hv ⊢
  rw [h3, k3]
  exact hv

example : P8h.WF ∧ 2 * P8h.fb + 4 ≤ P8h.F ∧ P8h.FmaSafe (P8h.fmt.val 96 * P8h.fmt.val 72) (-1) := by decide +kernel

/-- **C49**, counterexample: for `Posit<int8_t,8,0,uint16_t>`, `2*1.25 - 0*1` yields `1.5` instead of `2.5`. -/
theorem C49_not_always : ∃ c : Cfg, c.WF ∧ 2 * c.fb + 4 ≤ c.F ∧ ∃ a b x y v, c.fmt.IsReal a ∧ c.fmt.IsReal b ∧ c.fmt.IsReal x ∧
    c.fmt.IsReal y ∧ Posit.mulSubMul c a b x y = .ok v ∧ c.fmt.val a * c.fmt.val b - c.fmt.val x * c.fmt.val y = 5 / 2 ∧
    c.fmt.val v = 3 / 2 :=
  ⟨P8h, by decide, by decide, 96, 72, 0, 64, 80, by decide +kernel⟩

/-! ## C29 -/

/-- **C29**: the dot product of no elements is zero. -/
theorem C29_dot_nil : Posit.dot c [] = .ok 0 ∧ c.fmt.val 0 = 0 := ⟨rfl, Format.val_zero⟩

/-- **C29**: the dot product of one pair is the product, the same outcome for all patterns. -/
theorem C29_dot_single (a b : ℤ) : Posit.dot c [(a, b)] = Posit.mul c a b := by
  unfold Posit.dot Posit.mul Posit.dotLoop
  simp only [bind, Except.bind]

example : Posit.dot P8 [(72, 100)] = .ok 105 ∧ Posit.mul P8 72 100 = .ok 105 := by decide +kernel

/-- **C29**: when the exact partial sums fit the fraction type (`DotSafe`), the dot product of a nonempty list of pairs of
reals is the exact dot product rounded once, toward zero. Missing: partial sums that need more bits or span a wider range. -/
theorem C29_dot_exact_partial (h : c.WF) (hF : 2 * c.fb + 5 ≤ c.F) {a b : ℤ} {l : List (ℤ × ℤ)} (ha : c.fmt.IsReal a)
    (hb : c.fmt.IsReal b) (hl : ∀ p ∈ l, c.fmt.IsReal p.1 ∧ c.fmt.IsReal p.2)
    (hds : c.DotSafe (c.fmt.val a * c.fmt.val b) (l.map fun p => c.fmt.val p.1 * c.fmt.val p.2)) {S : ℚ}
    (hS : S = (((a, b) :: l).map fun p => c.fmt.val p.1 * c.fmt.val p.2).sum) (hs : S = 0 ∨ c.SafeMag S) :
    ∃ v, Posit.dot c ((a, b) :: l) = .ok v ∧ (S = 0 → v = 0) ∧ (S ≠ 0 → c.fmt.IsTrunc S v) := by
  obtain ⟨ua, ub, m, h1, h2, h3, h4, h5⟩ := den_mul h (k := 4) (by norm_num) (by omega) ha hb
  obtain ⟨r, hr, hdr⟩ := den_dotLoop h hF l m _ hl h4 h5 hds
  rw [List.map_cons, List.sum_cons] at hS
  rw [← hS] at hdr
  obtain ⟨v, hv, -, r2, r3⟩ := den_pack h hdr hs
  refine ⟨v, ?_, r2.mpr, r3⟩
  unfold Posit.dot
  simp only []
  rw [h1, h2]
  simp only [bind, Except.bind]
  rw [h3]
  simp only []
  rw [hr]
  exact hv

/-- 1.25·2.5 − 2·1.25 + 1.5·1.5 = 2.875 -/
example : P8h.WF ∧ 2 * P8h.fb + 5 ≤ P8h.F ∧ (∀ p ∈ [((72 : ℤ), (100 : ℤ)), (-96, 72), (80, 80)], P8h.fmt.IsReal p.1 ∧ P8h.fmt.IsReal p.2) ∧
    Posit.dot P8h [(72, 100), (-96, 72), (80, 80)] = .ok 103 ∧ P8h.fmt.val 103 = 23 / 8 ∧
    P8h.fmt.val 72 * P8h.fmt.val 100 = 25 / 8 ∧ P8h.fmt.val (-96) * P8h.fmt.val 72 = -5 / 2 ∧
    P8h.fmt.val 80 * P8h.fmt.val 80 = 9 / 4 := by decide +kernel

example : P8h.DotSafe (25 / 8) [-5 / 2, 9 / 4] := by
  refine ⟨by decide +kernel, ⟨5, -3, by decide, by norm_num⟩, by decide +kernel, by decide +kernel, ⟨23, -3, by decide, by norm_num⟩,
    by decide +kernel, trivial⟩

/-- **C29**: a dot product whose products have the same sign (`s`: not positive, otherwise: not negative) is never above
the exact one in magnitude, except that a nonzero result is at least the least posit. Missing: exact sums of
`2^(max 32 F - 2·maxScale)` or `4·maxpos²` and more, and posits that fill their holder. -/
theorem C29_dot_same_sign_partial (h : c.WF) (hF : c.fb + 1 ≤ c.F) (hN : c.N + 1 < pw c.H) (s : Bool) {l : List (ℤ × ℤ)}
    (hl : ∀ p ∈ l, c.fmt.IsReal p.1 ∧ c.fmt.IsReal p.2 ∧ 0 ≤ (if s then -1 else 1) * (c.fmt.val p.1 * c.fmt.val p.2)) {S : ℚ}
    (hS : S = (l.map fun p => c.fmt.val p.1 * c.fmt.val p.2).sum)
    (h1 : |S| < 2 ^ ((pw c.F : ℤ) - 2 * c.maxScale)) (h2 : |S| < 2 ^ (2 * (c.maxScale : ℤ) + 2)) :
    ∃ v, Posit.dot c l = .ok v ∧ c.fmt.IsReal v ∧ 0 ≤ (if s then -1 else 1) * c.fmt.val v ∧
      (|c.fmt.val v| ≤ |S| ∨ (S ≠ 0 ∧ v ≠ 0 ∧ ∀ w, c.fmt.IsReal w → w ≠ 0 → |c.fmt.val v| ≤ |c.fmt.val w|)) := by
  cases l with
  | nil =>
    refine ⟨0, rfl, by unfold Format.IsReal; omega, by simp [Format.val_zero], Or.inl ?_⟩
    simp [Format.val_zero]
  | cons p l =>
    obtain ⟨a, b⟩ := p
    obtain ⟨ha, hb, hsg⟩ := hl (a, b) (by simp)
    have habs : ∀ z : ℚ, (if s then -1 else 1) * z ≤ |z| := by
      intro z; cases s
      · simpa using le_abs_self z
      · simpa using neg_le_abs z
    obtain ⟨ua, ub, m, e1, e2, e3, e4⟩ := below_mul h hF ha hb hsg
    rw [List.map_cons, List.sum_cons] at hS
    simp only at hS
    have hb1 := lt_of_le_of_lt (habs S) h1
    have hb2 := lt_of_le_of_lt (habs S) h2
    rw [hS, mul_add] at hb1 hb2
    obtain ⟨r, hr, hbr⟩ := below_dotLoop h hF l m _ (fun p hp => hl p (by simp [hp])) e4 hb1 hb2
    rw [← mul_add, ← hS] at hbr
    have hdot : Posit.dot c ((a, b) :: l) = Posit.pack c r := by
      unfold Posit.dot
      simp only [] at e1 e2 ⊢
      rw [e1, e2]
      simp only [bind, Except.bind]
      rw [e3]
      simp only []
      rw [hr]
    rw [hdot]
    rcases hbr with ⟨rfl, h0⟩ | ⟨e, f, rfl, hf, -, hle⟩
    · refine ⟨0, rfl, by unfold Format.IsReal; omega, by simp [Format.val_zero], Or.inl ?_⟩
      simp [Format.val_zero]
    · obtain ⟨q, hq, ht⟩ := pack_regular h s hf (packSafe_of_narrow h hN e)
      have htr := Format.IsTrunc.of_sign s (mag_pos c.F e f) ht
      have hmp := mag_pos c.F e f
      have hSle := habs S
      refine ⟨_, hq, htr.real, ?_, ?_⟩
      · have hp1 := ht.one_le
        rcases htr.sign with ⟨g1, g2⟩ | ⟨g1, g2⟩
        · have := (Format.val_pos_iff htr.real.inRange).mpr g1
          cases s
          · simpa using this.le
          · simp at g2; linarith
        · have := (Format.val_neg_iff htr.real.inRange).mpr g1
          cases s
          · simp at g2; linarith
          · simpa using this.le
      · rcases htr.below with g | g
        · left
          rw [abs_sign_mul s hmp.le] at g
          linarith
        · right
          refine ⟨?_, ?_, g⟩
          · rintro rfl; simp at hle; linarith
          · rcases htr.sign with g | g <;> omega

example : P8.WF ∧ P8.fb + 1 ≤ P8.F ∧ P8.N + 1 < pw P8.H ∧
    (∀ p ∈ [((72 : ℤ), (100 : ℤ)), (-96, -72), (80, 81)], P8.fmt.IsReal p.1 ∧ P8.fmt.IsReal p.2 ∧
      0 ≤ (if false then -1 else 1) * (P8.fmt.val p.1 * P8.fmt.val p.2)) ∧
    ([((72 : ℤ), (100 : ℤ)), (-96, -72), (80, 81)].map fun p => P8.fmt.val p.1 * P8.fmt.val p.2).sum < 2 ^ 14 ∧
    (pw P8.F : ℤ) - 2 * P8.maxScale = 20 ∧ 2 * (P8.maxScale : ℤ) + 2 = 14 ∧
    Posit.dot P8 [(72, 100), (-96, -72), (80, 81)] = .ok 119 := by decide +kernel

/-- **C29**, on the exception to "never above": `minpos·minpos` gives `minpos`. -/
theorem C29_not_always : ∃ c : Cfg, c.WF ∧ c.N + 1 < pw c.H ∧ c.fmt.IsReal 1 ∧ Posit.dot c [(1, 1)] = .ok 1 ∧
    c.fmt.val 1 * c.fmt.val 1 < c.fmt.val 1 :=
  ⟨P8, by decide +kernel⟩

end Verif
