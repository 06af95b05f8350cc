import Verif.Props.PnumArith

/-!
# C73: products of projective numbers of different signs
-/

namespace Verif
namespace Pnum

variable {A : Alphabet}

theorem mem_convex {v : ℤ} {x y z : ℚ} (hx : Mem A v (some x)) (hz : Mem A v (some z)) (h1 : x ≤ y) (h2 : y ≤ z) : Mem A v (some y) := by
  obtain ⟨h4, hx⟩ := hx
  obtain ⟨-, hz⟩ := hz
  refine ⟨h4, ?_⟩
  by_cases he : steps A v % 2 = 0
  · rw [if_pos he] at hx hz ⊢; linarith
  · rw [if_neg he] at hx hz ⊢
    exact ⟨hx.1.imp_right fun h => lt_of_lt_of_le h h1, hz.2.imp_right fun h => lt_of_le_of_lt h2 h⟩

/-- between two products of members lie only products of members -/
theorem mul_between {v w : ℤ} {x1 x2 y1 y2 t : ℚ} (px1 : Mem A v (some x1)) (px2 : Mem A v (some x2)) (py1 : Mem A w (some y1))
    (py2 : Mem A w (some y2)) (hx2 : x2 ≠ 0) (hy1 : y1 ≠ 0) (h1 : x1 * y1 ≤ t) (h2 : t ≤ x2 * y2) :
    ∃ x y, Mem A v (some x) ∧ Mem A w (some y) ∧ x * y = t := by
  have line : ∀ {u : ℤ} {a b c s : ℚ}, Mem A u (some a) → Mem A u (some b) → c ≠ 0 → (a * c ≤ s ∧ s ≤ b * c ∨ b * c ≤ s ∧ s ≤ a * c) →
      Mem A u (some (s / c)) := by
    intro u a b c s ha hb hc hs
    rcases lt_or_gt_of_ne hc with hc | hc
    · rcases hs with ⟨s1, s2⟩ | ⟨s1, s2⟩
      · exact mem_convex hb ha ((le_div_iff_of_neg hc).mpr s2) ((div_le_iff_of_neg hc).mpr s1)
      · exact mem_convex ha hb ((le_div_iff_of_neg hc).mpr s2) ((div_le_iff_of_neg hc).mpr s1)
    · rcases hs with ⟨s1, s2⟩ | ⟨s1, s2⟩
      · exact mem_convex ha hb ((le_div_iff₀ hc).mpr s1) ((div_le_iff₀ hc).mpr s2)
      · exact mem_convex hb ha ((le_div_iff₀ hc).mpr s1) ((div_le_iff₀ hc).mpr s2)
  rcases le_total t (x2 * y1) with hm | hm
  · exact ⟨t / y1, y1, line px1 px2 hy1 (Or.inl ⟨h1, hm⟩), py1, div_mul_cancel₀ _ hy1⟩
  · refine ⟨x2, t / x2, px2, line py1 py2 hx2 (Or.inl ⟨by linarith, by linarith⟩), mul_div_cancel₀ _ hx2⟩

/-- the ends of a positive pattern -/
structure PosEnds (A : Alphabet) (p : ℤ) (a : ℚ) (o : Option ℚ) : Prop where
  lo : A.exactValue (tEnd1 A p) = some a
  loPt : ∃ i : ℤ, a = pt A i ∧ -(2 * A.k : ℤ) < i ∧ i < 2 * A.k
  lo0 : 0 ≤ a
  hi : A.exactValue (tEnd2 A p) = o
  hiPt : ∀ b, o = some b → 0 < b ∧ ∃ i : ℤ, b = pt A i ∧ -(2 * A.k : ℤ) < i ∧ i < 2 * A.k
  above : ∀ x, Mem A p (some x) → 0 < x ∧ a ≤ x ∧ (p % 2 = 1 → a < x)
  below : ∀ b, o = some b → ∀ x, Mem A p (some x) → x ≤ b ∧ (p % 2 = 1 → x < b)
  reach : ∀ r, (∀ b, o = some b → r < b) → ∃ x, Mem A p (some x) ∧ r ≤ x

theorem posEnds (h : Table A) {p : ℤ} (h0 : 0 < p) (h4 : p < 4 * A.k) : ∃ a o, PosEnds A p a o := by
  have hk := h.kpos
  have hp : IsPat A p := ⟨by omega, by omega⟩
  have es : steps A p = p := steps_pos h4
  have pos : ∀ i : ℤ, 0 < i → i < 2 * A.k → 0 < pt A i := by
    intro i i1 i2
    have := pt_mono h (i := 0) (j := i) (by omega) i1 i2
    rwa [pt_zero] at this
  have nneg : ∀ i : ℤ, 0 ≤ i → i < 2 * A.k → 0 ≤ pt A i := by
    intro i i1 i2
    rcases i1.lt_or_eq with hi | rfl
    · exact (pos i hi i2).le
    · rw [pt_zero]
  have ev : ∀ i : ℤ, 0 ≤ i → i < 2 * A.k → A.exactValue (2 * i) = some (pt A i) := by
    intro i i1 i2
    rw [exactValue_eq h ⟨by omega, by omega⟩ (by omega), if_neg (by omega), steps_pos (by omega), show 2 * i / 2 = i by omega]
  rcases Int.emod_two_eq_zero_or_one p with he | ho
  · obtain ⟨i, rfl⟩ : ∃ i, p = 2 * i := ⟨p / 2, by omega⟩
    have hb : Alphabet.isExact (2 * i) = true := isExact_iff.mpr he
    have t1 : tEnd1 A (2 * i) = 2 * i := by unfold tEnd1; rw [if_pos hb]
    have t2 : tEnd2 A (2 * i) = 2 * i := by unfold tEnd2; rw [if_pos hb]
    have hm : ∀ x, Mem A (2 * i) (some x) ↔ x = pt A i := by
      intro x
      unfold Mem
      simp only [es, if_pos he, show 2 * i / 2 = i by omega]
      exact ⟨fun h => h.2, fun h => ⟨by omega, h⟩⟩
    refine ⟨pt A i, some (pt A i), ⟨by rw [t1]; exact ev i (by omega) (by omega), ⟨i, rfl, by omega, by omega⟩,
      nneg i (by omega) (by omega), by rw [t2]; exact ev i (by omega) (by omega), ?_, ?_, ?_, ?_⟩⟩
    · intro b hb
      obtain rfl := Option.some.inj hb
      exact ⟨pos i (by omega) (by omega), i, rfl, by omega, by omega⟩
    · intro x hx
      rw [(hm x).mp hx]
      exact ⟨pos i (by omega) (by omega), le_rfl, fun hc => by omega⟩
    · intro b hb x hx
      obtain rfl := Option.some.inj hb
      rw [(hm x).mp hx]
      exact ⟨le_rfl, fun hc => by omega⟩
    · intro r hr
      exact ⟨pt A i, (hm _).mpr rfl, (hr _ rfl).le⟩
  · obtain ⟨i, rfl⟩ : ∃ i, p = 2 * i + 1 := ⟨p / 2, by omega⟩
    have hb : Alphabet.isExact (2 * i + 1) = false := by
      rw [← Bool.not_eq_true, isExact_iff]; omega
    have t1 : tEnd1 A (2 * i + 1) = 2 * i := by
      unfold tEnd1; rw [hb, if_neg (by decide), if_neg (by omega), prev_eq hp, if_neg (by omega)]; ring
    have t2 : tEnd2 A (2 * i + 1) = 2 * (i + 1) := by
      unfold tEnd2; rw [hb, if_neg (by decide), if_neg (by omega), next_eq hp, if_neg (by omega)]; ring
    have hm : ∀ x, Mem A (2 * i + 1) (some x) ↔ pt A i < x ∧ (i + 1 = 2 * A.k ∨ x < pt A (i + 1)) := by
      intro x
      unfold Mem
      simp only [es, show ¬ (2 * i + 1) % 2 = 0 by omega, if_false, show (2 * i + 1) / 2 = i by omega]
      constructor
      · rintro ⟨-, g1, g2⟩
        exact ⟨g1.resolve_left (by omega), g2.imp_left fun g => by omega⟩
      · rintro ⟨g1, g2⟩
        exact ⟨by omega, Or.inr g1, g2.imp_left fun g => by omega⟩
    have ha : ∀ x, Mem A (2 * i + 1) (some x) → 0 < x ∧ pt A i ≤ x ∧ ((2 * i + 1) % 2 = 1 → pt A i < x) := by
      intro x hx
      have := ((hm x).mp hx).1
      exact ⟨lt_of_le_of_lt (nneg i (by omega) (by omega)) this, this.le, fun _ => this⟩
    by_cases hl : i + 1 = 2 * A.k
    · refine ⟨pt A i, none, ⟨by rw [t1]; exact ev i (by omega) (by omega), ⟨i, rfl, by omega, by omega⟩,
        nneg i (by omega) (by omega), ?_, fun b hb => (by cases hb), ha, fun b hb => (by cases hb), ?_⟩⟩
      · rw [t2, exactValue_eq h ⟨by omega, by omega⟩ (by omega), if_pos (by omega)]
      · intro r _
        refine ⟨max r (pt A i + 1), (hm _).mpr ⟨?_, Or.inl hl⟩, le_max_left _ _⟩
        exact lt_of_lt_of_le (by linarith) (le_max_right _ _)
    · have hlt := pt_mono h (i := i) (j := i + 1) (by omega) (by omega) (by omega)
      refine ⟨pt A i, some (pt A (i + 1)), ⟨by rw [t1]; exact ev i (by omega) (by omega), ⟨i, rfl, by omega, by omega⟩,
        nneg i (by omega) (by omega), by rw [t2]; exact ev _ (by omega) (by omega), ?_, ha, ?_, ?_⟩⟩
      · intro b hb
        obtain rfl := Option.some.inj hb
        exact ⟨pos _ (by omega) (by omega), _, rfl, by omega, by omega⟩
      · intro b hb x hx
        obtain rfl := Option.some.inj hb
        have := ((hm x).mp hx).2.resolve_left hl
        exact ⟨this.le, fun _ => this⟩
      · intro r hr
        have := hr _ rfl
        have hmx : max r (pt A i) < pt A (i + 1) := max_lt this hlt
        refine ⟨(max r (pt A i) + pt A (i + 1)) / 2, (hm _).mpr ⟨?_, Or.inr (by linarith)⟩, ?_⟩
        · have := le_max_right r (pt A i); linarith
        · have := le_max_left r (pt A i); linarith

/-- products of members come as near to the product of the upper ends as wanted -/
theorem reach_mul {p q : ℤ} {a c : ℚ} {o o' : Option ℚ} (hp : PosEnds A p a o) (hq : PosEnds A q c o') (r : ℚ)
    (hr : ∀ b d, o = some b → o' = some d → r < b * d) : ∃ x y, Mem A p (some x) ∧ Mem A q (some y) ∧ r ≤ x * y := by
  cases o' with
  | none =>
    obtain ⟨x, hx, -⟩ : ∃ x, Mem A p (some x) ∧ (a - 1) ≤ x := hp.reach (a - 1) fun b hb => by
      obtain ⟨x, hx, h1⟩ := hp.reach (b - 1) (fun b' hb' => by rw [hb] at hb'; cases hb'; linarith)
      have := (hp.above x hx).2.1
      have := (hp.below b hb x hx).1
      linarith
    have x0 := (hp.above x hx).1
    obtain ⟨y, hy, hr'⟩ := hq.reach (r / x) fun b hb => by cases hb
    exact ⟨x, y, hx, hy, by rw [div_le_iff₀ x0] at hr'; linarith⟩
  | some d =>
    have d0 := (hq.hiPt d rfl).1
    cases o with
    | none =>
      obtain ⟨y, hy, -⟩ := hq.reach (d - 1) fun b hb => by cases hb; linarith
      have y0 := (hq.above y hy).1
      obtain ⟨x, hx, hr'⟩ := hp.reach (r / y) fun b hb => by cases hb
      exact ⟨x, y, hx, hy, by rwa [div_le_iff₀ y0] at hr'⟩
    | some b =>
      have hlt := hr b d rfl rfl
      have h1 : r / d < b := by rwa [div_lt_iff₀ d0]
      obtain ⟨x, hx, h2⟩ := hp.reach ((r / d + b) / 2) fun b' hb' => by cases hb'; linarith
      have x0 := (hp.above x hx).1
      have h3 : r / d < x := by linarith
      have h4 : r / x < d := by
        rw [div_lt_iff₀ d0] at h3
        rw [div_lt_iff₀ x0]; linarith
      obtain ⟨y, hy, h5⟩ := hq.reach (r / x) fun d' hd' => by cases hd'; exact h4
      refine ⟨x, y, hx, hy, ?_⟩
      rw [div_le_iff₀ x0] at h5; linarith

/-- a pattern of a negative number -/
theorem neg_pat (h : Table A) {u : ℤ} (hu : IsPat A u) {z : ℚ} (hz : Mem A u (some z)) (z0 : z < 0) : 4 * A.k < u ∧ steps A u = u - 8 * A.k := by
  have hk := h.kpos
  have h1 := steps_le_of_le h hu ⟨le_rfl, by omega⟩ hz (mem_zero.mpr hk) z0.le
  have h2 := hz.1
  have h3 : u ≠ 0 := by
    rintro rfl
    have := (C72_exactValue h hu (by decide) _).mp hz
    rw [← (C72_exactValue h hu (by decide) _).mp (mem_zero.mpr hk)] at this
    have := Option.some.inj this
    linarith
  unfold steps at h1 ⊢
  unfold IsPat at hu
  split_ifs at h1 ⊢ <;> omega

/-- the outcome for a negative and a positive operand, at least one of them an interval: exact products are not held, and everything is
held if all products have one pattern -/
theorem times_mixed (h : Table A) {fl : ℚ → M ℚ} (hf : ∀ i j : ℤ, -(2 * A.k : ℤ) < i → i < 2 * A.k → -(2 * A.k : ℤ) < j →
    j < 2 * A.k → fl (pt A i * pt A j) = .ok (pt A i * pt A j)) {v w : ℤ} (v4 : 4 * A.k < v) (v8 : v < 8 * A.k) (w0 : 0 < w)
    (w4 : w < 4 * A.k) (ho : v % 2 = 1 ∨ w % 2 = 1) :
    ∃ b, A.slowTimes fl v w = .ok b ∧
      (∀ x y T, Mem A v (some x) → Mem A w (some y) → IsPat A T → T % 2 = 0 → Mem A T (some (x * y)) → ¬ b.Has A (some (x * y))) ∧
      ((∀ x y, Mem A v (some x) → Mem A w (some y) → b.Has A (some (x * y))) ↔
        ∃ u, IsPat A u ∧ ∀ x y, Mem A v (some x) → Mem A w (some y) → Mem A u (some (x * y))) := by
  have hk := h.kpos
  have hv : IsPat A v := ⟨by omega, v8⟩
  obtain ⟨p, hpv⟩ : ∃ p, p = A.neg v := ⟨_, rfl⟩
  have hp8 : p = 8 * A.k - v := by rw [hpv, neg_eq hv, if_neg (by omega)]
  have hp : IsPat A p := ⟨by omega, by omega⟩
  have hvp : v = A.neg p := by rw [hpv, neg_neg_pat h hv]
  obtain ⟨a, o, E⟩ := posEnds h (p := p) (by omega) (by omega)
  obtain ⟨c, o', E'⟩ := posEnds h w0 w4
  obtain ⟨t1, t2, t3, t4, t5, t6⟩ := tEnd_neg h hp (by omega) (by omega)
  have hne : A.exactValue (tEnd1 A v) = some (-a) := by rw [hvp, t1, exactValue_neg h t3 t5, E.lo]; rfl
  have hne2 : A.exactValue (tEnd2 A v) = pneg o := by rw [hvp, t2, exactValue_neg h t4 t6, E.hi]
  have hmem : ∀ x, Mem A v (some x) ↔ Mem A p (some (-x)) := by
    intro x
    constructor
    · intro hx; rw [hpv]; exact mem_neg h hv hx
    · intro hx; rw [hvp]; have := mem_neg h hp hx; simpa [pneg] using this
  obtain ⟨i, ei, i1, i2⟩ := E.loPt
  obtain ⟨j, ej, j1, j2⟩ := E'.loPt
  have e1 : A.exactTimes fl (tEnd1 A v) (tEnd1 A w) = .ok (A.searchValue (-a * c)) := by
    refine exactTimes_some hne E'.lo ?_
    rw [ei, ej, ← pt_neg]; exact hf _ _ (by omega) (by omega) j1 j2
  -- every product of members is negative and strictly inside the ends
  have inside : ∀ x y, Mem A v (some x) → Mem A w (some y) → x * y < 0 ∧ x * y < -a * c ∧
      ∀ b d, o = some b → o' = some d → -b * d < x * y := by
    intro x y hx hy
    have mx := (hmem x).mp hx
    obtain ⟨x0, xa, xs⟩ := E.above _ mx
    obtain ⟨y0, yc, ys⟩ := E'.above _ hy
    have a0 := E.lo0
    have c0 := E'.lo0
    refine ⟨by nlinarith, ?_, ?_⟩
    · rcases ho with ho | ho
      · have := xs (by omega); nlinarith
      · have := ys ho; nlinarith
    · intro b d hb hd
      obtain ⟨xb, xt⟩ := E.below b hb _ mx
      obtain ⟨yd, yt⟩ := E'.below d hd _ hy
      have b0 := (E.hiPt b hb).1
      have d0 := (E'.hiPt d hd).1
      rcases ho with ho | ho
      · have := xt (by omega); nlinarith
      · have := yt ho; nlinarith
  -- the lower end of the result is above every exact product
  obtain ⟨p1, q1⟩ := searchValue_mem h (-a * c)
  generalize hz1 : A.searchValue (-a * c) = z1 at *
  have U1 : ∀ T t, IsPat A T → T % 2 = 0 → Mem A T (some t) → t < 0 → t < -a * c →
      (if Alphabet.isExact z1 then A.next z1 else z1) = 1 ∨ T < (if Alphabet.isExact z1 then A.next z1 else z1) := by
    intro T t hT eT mT t0 tl
    obtain ⟨g1, g2⟩ := neg_pat h hT mT t0
    have l1 := steps_lt_of_lt h hT p1 mT q1 tl eT
    have hle : -a * c ≤ 0 := by have := E.lo0; have := E'.lo0; nlinarith
    rcases hle.lt_or_eq with hl | hl
    · obtain ⟨g3, g4⟩ := neg_pat h p1 q1 hl
      rw [g2, g4] at l1
      right
      split_ifs with he
      · rw [next_eq p1]; have := isExact_iff.mp he; rw [if_neg (by omega)]; omega
      · omega
    · have : z1 = 0 := by
        rw [hl] at q1
        exact mem_unique h p1 ⟨le_rfl, by omega⟩ q1 (mem_zero.mpr hk)
      left
      rw [this, if_pos (by decide), next_eq ⟨le_rfl, by omega⟩, if_neg (by omega)]; norm_num
  -- the upper end of the result is the lowest pattern with products
  obtain ⟨z2, e2, p2, u2, hu2, hodd, U2, U3⟩ : ∃ z2, A.exactTimes fl (tEnd2 A v) (tEnd2 A w) = .ok z2 ∧ IsPat A z2 ∧
      ∃ u2, u2 = (if Alphabet.isExact z2 then A.next z2 else z2) ∧ (u2 % 2 = 1 ∧ 4 * A.k < u2 ∧ u2 < 8 * A.k) ∧
      (∀ U t, IsPat A U → Mem A U (some t) → t < 0 → (∀ b d, o = some b → o' = some d → -b * d < t) → u2 ≤ U) ∧
      (∀ T t, IsPat A T → Mem A T (some t) → t < 0 → u2 < T → ∀ b d, o = some b → o' = some d → -b * d < t) := by
    by_cases hfin : o ≠ none ∧ o' ≠ none
    · obtain ⟨b, rfl⟩ := Option.ne_none_iff_exists'.mp hfin.1
      obtain ⟨d, rfl⟩ := Option.ne_none_iff_exists'.mp hfin.2
      obtain ⟨b0, i', ei', i1', i2'⟩ := E.hiPt b rfl
      obtain ⟨d0, j', ej', j1', j2'⟩ := E'.hiPt d rfl
      obtain ⟨p2, q2⟩ := searchValue_mem h (-b * d)
      have neg : -b * d < 0 := by nlinarith
      obtain ⟨g3, g4⟩ := neg_pat h p2 q2 neg
      have hz : ∀ z : ℤ, IsPat A z → 4 * A.k < z → (if Alphabet.isExact z then A.next z else z) = if z % 2 = 0 then z + 1 else z := by
        intro z hz z4
        by_cases he : z % 2 = 0
        · rw [if_pos (isExact_iff.mpr he), if_pos he, next_eq hz, if_neg (by omega)]
        · rw [if_neg (fun hc => he (isExact_iff.mp hc)), if_neg he]
      refine ⟨A.searchValue (-b * d), ?_, p2, _, rfl, ?_, ?_, ?_⟩
      · refine exactTimes_some (by rw [hne2]; rfl) E'.hi ?_
        rw [ei', ej', ← pt_neg]; exact hf _ _ (by omega) (by omega) j1' j2'
      · rw [hz _ p2 g3]; have := p2.2; split_ifs <;> omega
      · intro U t hU mU t0 hlt
        have hlt := hlt b d rfl rfl
        obtain ⟨g5, g6⟩ := neg_pat h hU mU t0
        rw [hz _ p2 g3]
        split_ifs with he
        · have := steps_lt_of_lt h p2 hU q2 mU hlt he
          rw [g4, g6] at this; omega
        · have := steps_le_of_le h p2 hU q2 mU hlt.le
          rw [g4, g6] at this; omega
      · intro T t hT mT t0 hlt b' d' hb' hd'
        obtain rfl := Option.some.inj hb'
        obtain rfl := Option.some.inj hd'
        obtain ⟨g5, g6⟩ := neg_pat h hT mT t0
        refine mem_lt h p2 hT q2 mT ?_
        rw [g4, g6]
        rw [hz _ p2 g3] at hlt
        split_ifs at hlt <;> omega
    · have hn : o = none ∨ o' = none := by
        by_contra hc; push Not at hc; exact hfin hc
      refine ⟨A.inf, exactTimes_none ?_, by rw [inf_eq h]; exact ⟨by omega, by omega⟩, 4 * A.k + 1, (inf_step h).symm, ⟨by omega, by omega, by omega⟩,
        ?_, ?_⟩
      · rcases hn with hn | hn
        · left; rw [hne2, hn]; rfl
        · right; rw [E'.hi, hn]
      · intro U t hU mU t0 _
        have := (neg_pat h hU mU t0).1; omega
      · intro T t _ _ _ _ b d hb hd
        rcases hn with hn | hn
        · rw [hn] at hb; cases hb
        · rw [hn] at hd; cases hd
  have hb' : (!(Alphabet.isExact v && Alphabet.isExact w)) = true := by
    rw [Bool.not_eq_true', ← Bool.not_eq_true, Bool.and_eq_true, isExact_iff, isExact_iff]; omega
  have hres := slowTimes_main (by omega) (by omega) (by omega) (by omega) e1 e2
  simp only [hb', Bool.true_and] at hres
  rw [← hu2] at hres
  have hu2p : IsPat A u2 := ⟨by omega, by omega⟩
  have hu1p := isPat_step h p1
  generalize hu1 : (if Alphabet.isExact z1 then A.next z1 else z1) = u1 at *
  -- exact products are not held
  have miss : ∀ x y T, Mem A v (some x) → Mem A w (some y) → IsPat A T → T % 2 = 0 → Mem A T (some (x * y)) →
      ¬ Pbound.Has A ⟨false, u1, u2⟩ (some (x * y)) := by
    intro x y T hx hy hT eT mT hc
    obtain ⟨s0, s1, s2⟩ := inside x y hx hy
    obtain ⟨-, u, hu, harc, hm⟩ := hc
    obtain rfl := mem_unique h hu hT hm mT
    have harc : InArc A u1 u2 u := harc
    rw [inArc_iff hu1p hu2p hu] at harc
    have a1 := U1 u _ hu eT mT s0 s1
    have a2 := U2 u _ hu mT s0 s2
    have a3 := (neg_pat h hu mT s0).1
    split_ifs at harc <;> omega
  refine ⟨_, hres, miss, ?_, ?_⟩
  · intro hall
    obtain ⟨x0, y0, hx0, hy0, -⟩ := reach_mul E E' (-1) (fun b d hb hd => by
      have := (E.hiPt b hb).1; have := (E'.hiPt d hd).1; nlinarith)
    have hx0 : Mem A v (some (-x0)) := (hmem _).mpr (by rwa [neg_neg])
    have two : ∀ x y x' y' u u', Mem A v (some x) → Mem A w (some y) → Mem A v (some x') → Mem A w (some y') → IsPat A u → IsPat A u' →
        Mem A u (some (x * y)) → Mem A u' (some (x' * y')) → u < u' → False := by
      intro x y x' y' u u' hx hy hx' hy' hu hu' hm hm' hlt
      obtain ⟨s0, -⟩ := inside x y hx hy
      obtain ⟨s0', -⟩ := inside x' y' hx' hy'
      obtain ⟨g1, g2⟩ := neg_pat h hu hm s0
      obtain ⟨g3, g4⟩ := neg_pat h hu' hm' s0'
      obtain ⟨T, hT⟩ : ∃ T, T = if u % 2 = 0 then u else u + 1 := ⟨_, rfl⟩
      have eT : T % 2 = 0 := by rw [hT]; split_ifs <;> omega
      have T1 : u ≤ T := by rw [hT]; split_ifs <;> omega
      have T2 : T ≤ u' := by rw [hT]; split_ifs <;> omega
      have pT : IsPat A T := ⟨by omega, by have := hu'.2; omega⟩
      have sT : steps A T = T - 8 * A.k := by unfold steps; rw [if_pos (by omega)]
      obtain ⟨t, mT⟩ : ∃ t, Mem A T (some t) := by
        have := mem_exactValue h pT eT
        rw [exactValue_eq h pT eT, if_neg (by omega)] at this
        exact ⟨_, this⟩
      have uniq : ∀ q, Mem A T (some q) → q = t := fun q hq =>
        Option.some.inj (((C72_exactValue h pT (isExact_iff.mpr eT) _).mp hq).trans ((C72_exactValue h pT (isExact_iff.mpr eT) _).mp mT).symm)
      have l1 : x * y ≤ t := by
        rcases T1.lt_or_eq with g | g
        · exact (mem_lt h hu pT hm mT (by omega)).le
        · rw [g] at hm; exact (uniq _ hm).le
      have l2 : t ≤ x' * y' := by
        rcases T2.lt_or_eq with g | g
        · exact (mem_lt h pT hu' mT hm' (by omega)).le
        · rw [← g] at hm'; exact (uniq _ hm').ge
      have x'0 : x' ≠ 0 := by rintro rfl; simp at s0'
      have y0 : y ≠ 0 := by rintro rfl; simp at s0
      obtain ⟨x2, y2, hx2, hy2, e⟩ := mul_between hx hx' hy hy' x'0 y0 l1 l2
      rw [← e] at mT
      exact miss x2 y2 T hx2 hy2 pT eT mT (hall x2 y2 hx2 hy2)
    obtain ⟨hu, hm⟩ := searchValue_mem h (-x0 * y0)
    refine ⟨_, hu, fun x y hx hy => ?_⟩
    obtain ⟨hu', hm'⟩ := searchValue_mem h (x * y)
    rcases lt_trichotomy (A.searchValue (x * y)) (A.searchValue (-x0 * y0)) with g | g | g
    · exact (two _ _ _ _ _ _ hx hy hx0 hy0 hu' hu hm' hm g).elim
    · rw [← g]; exact hm'
    · exact (two _ _ _ _ _ _ hx0 hy0 hx hy hu hu' hm hm' g).elim
  · rintro ⟨u, hu, hall⟩ x y hx hy
    have hm := hall x y hx hy
    obtain ⟨s0, -, s2⟩ := inside x y hx hy
    obtain ⟨g1, g2⟩ := neg_pat h hu hm s0
    have l := U2 u _ hu hm s0 s2
    have e : u = u2 := by
      by_contra hne
      have pT : IsPat A (u2 + 1) := ⟨by omega, by have := hu.2; omega⟩
      have eT : (u2 + 1) % 2 = 0 := by omega
      have sT : steps A (u2 + 1) = u2 + 1 - 8 * A.k := by unfold steps; rw [if_pos (by omega)]
      obtain ⟨t, mT⟩ : ∃ t, Mem A (u2 + 1) (some t) := by
        have := mem_exactValue h pT eT
        rw [exactValue_eq h pT eT, if_neg (by omega)] at this
        exact ⟨_, this⟩
      have t0 : t < 0 := by
        refine mem_lt h pT ⟨le_rfl, by omega⟩ mT (mem_zero.mpr hk) ?_
        rw [sT, steps_pos (by omega)]; have := pT.2; omega
      have low : ∀ x y, Mem A v (some x) → Mem A w (some y) → t ≤ x * y := by
        intro x y hx hy
        have hm := hall x y hx hy
        rcases (show u2 + 1 ≤ u by omega).lt_or_eq with g | g
        · exact (mem_lt h pT hu mT hm (by omega)).le
        · rw [← g] at hm
          exact (Option.some.inj (((C72_exactValue h pT (isExact_iff.mpr eT) _).mp hm).trans
            ((C72_exactValue h pT (isExact_iff.mpr eT) _).mp mT).symm)).ge
      have u3 := U3 _ t pT mT t0 (by omega)
      obtain ⟨r, hr, hr'⟩ : ∃ r, -t < r ∧ ∀ b d, o = some b → o' = some d → r < b * d := by
        cases ho1 : o with
        | none => exact ⟨-t + 1, by linarith, fun b d hb => by cases hb⟩
        | some b =>
          cases ho2 : o' with
          | none => exact ⟨-t + 1, by linarith, fun b d _ hd => by cases hd⟩
          | some d =>
            have := u3 b d ho1 ho2
            refine ⟨(-t + b * d) / 2, by linarith, fun b' d' hb' hd' => ?_⟩
            obtain rfl := Option.some.inj hb'
            obtain rfl := Option.some.inj hd'
            linarith
      obtain ⟨x1, y1, hx1, hy1, hle⟩ := reach_mul E E' r hr'
      have := low (-x1) y1 ((hmem _).mpr (by rwa [neg_neg])) hy1
      linarith
    refine ⟨rfl, u, hu, ?_, hm⟩
    show InArc A u1 u2 u
    rw [inArc_iff hu1p hu2p hu, e]
    split_ifs with g
    · exact ⟨g, le_rfl⟩
    · exact Or.inr le_rfl

/-- **C73**, different signs: if one operand is an interval, the product holds none of the exact numbers that are products of members;
it holds all products of members exactly if they all have one pattern. -/
theorem C73_times_mixed_wrong (h : Table A) {fl : ℚ → M ℚ} (hf : ∀ i j : ℤ, -(2 * A.k : ℤ) < i → i < 2 * A.k → -(2 * A.k : ℤ) < j →
    j < 2 * A.k → fl (pt A i * pt A j) = .ok (pt A i * pt A j)) {v w : ℤ} (hv : IsPat A v) (hw : IsPat A w)
    (hs : (4 * A.k < v ∧ 0 < w ∧ w < 4 * A.k) ∨ (0 < v ∧ v < 4 * A.k ∧ 4 * A.k < w)) (ho : v % 2 = 1 ∨ w % 2 = 1) :
    ∃ b, A.slowTimes fl v w = .ok b ∧
      (∀ x y T, Mem A v (some x) → Mem A w (some y) → IsPat A T → Alphabet.isExact T = true → Mem A T (some (x * y)) →
        ¬ b.Has A (some (x * y))) ∧
      ((∀ x y, Mem A v (some x) → Mem A w (some y) → b.Has A (some (x * y))) ↔
        ∃ u, IsPat A u ∧ ∀ x y, Mem A v (some x) → Mem A w (some y) → Mem A u (some (x * y))) := by
  rcases hs with ⟨h1, h2, h3⟩ | ⟨h1, h2, h3⟩
  · obtain ⟨b, hb, m, i⟩ := times_mixed h hf h1 hv.2 h2 h3 ho
    exact ⟨b, hb, fun x y T hx hy hT eT => m x y T hx hy hT (isExact_iff.mp eT), i⟩
  · have nv : A.neg v = 8 * A.k - v := by rw [neg_eq hv, if_neg (by omega)]
    have nw : A.neg w = 8 * A.k - w := by rw [neg_eq hw, if_neg (by omega)]
    have w8 := hw.2
    obtain ⟨b, hb, m, i⟩ := times_mixed h hf (v := A.neg v) (w := A.neg w) (by omega) (by omega) (by omega) (by omega) (by omega)
    rw [C73_times_neg_neg h hv hw] at hb
    have flip : ∀ {u : ℤ} {x : ℚ}, IsPat A u → Mem A u (some x) → Mem A (A.neg u) (some (-x)) := fun hu hx => mem_neg h hu hx
    have back : ∀ {u : ℤ} {x : ℚ}, IsPat A u → Mem A (A.neg u) (some x) → Mem A u (some (-x)) := fun {u} {x} hu hx => by
      have := flip (isPat_neg h u) hx
      rwa [neg_neg_pat h hu] at this
    refine ⟨b, hb, fun x y T hx hy hT eT mT => ?_, ?_⟩
    · have := m (-x) (-y) T (flip hv hx) (flip hw hy) hT (isExact_iff.mp eT)
      rw [neg_mul_neg] at this
      exact this mT
    · have e1 : (∀ x y, Mem A v (some x) → Mem A w (some y) → b.Has A (some (x * y))) ↔
          ∀ x y, Mem A (A.neg v) (some x) → Mem A (A.neg w) (some y) → b.Has A (some (x * y)) := by
        constructor
        · intro g x y hx hy
          have := g (-x) (-y) (back hv hx) (back hw hy)
          rwa [neg_mul_neg] at this
        · intro g x y hx hy
          have := g (-x) (-y) (flip hv hx) (flip hw hy)
          rwa [neg_mul_neg] at this
      have e2 : ∀ u, (∀ x y, Mem A v (some x) → Mem A w (some y) → Mem A u (some (x * y))) ↔
          ∀ x y, Mem A (A.neg v) (some x) → Mem A (A.neg w) (some y) → Mem A u (some (x * y)) := by
        intro u
        constructor
        · intro g x y hx hy
          have := g (-x) (-y) (back hv hx) (back hw hy)
          rwa [neg_mul_neg] at this
        · intro g x y hx hy
          have := g (-x) (-y) (flip hv hx) (flip hw hy)
          rwa [neg_mul_neg] at this
      rw [e1, i]
      exact exists_congr fun u => and_congr_right fun _ => (e2 u).symm

/-- two pairs of operands: `(-2,-1) * (1,2)` holds products from -4 on, not -2; `(-2,-1) * 1` is right but for size -/
example : Table p2 ∧ IsPat p2 11 ∧ IsPat p2 5 ∧ p2.slowTimes .ok 11 5 = .ok ⟨false, 13, 9⟩ ∧
    Mem p2 11 (some (-3 / 2)) ∧ Mem p2 5 (some (4 / 3)) ∧ Mem p2 10 (some (-3 / 2 * (4 / 3))) ∧ Alphabet.isExact 10 = true ∧
    p2.slowTimes .ok 11 4 = .ok ⟨false, 13, 11⟩ := by
  refine ⟨table_p2, ⟨by decide, by decide⟩, ⟨by decide, by decide⟩, by decide +kernel, ?_, ?_, ?_, by decide, by decide +kernel⟩
  all_goals unfold Mem; decide +kernel

end Pnum
end Verif
