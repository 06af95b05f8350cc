import Verif.Props.Pnum

/-!
# C73: projective numbers, sums and products
-/

namespace Verif
namespace Pnum

variable {A : Alphabet}

/-- sums on the projective line: infinity plus infinity may be anything -/
def PAdd : Option ℚ → Option ℚ → Option ℚ → Prop
  | some x, some y, z => z = some (x + y)
  | none, none, _ => True
  | _, _, z => z = none

/-- products on the projective line: zero times infinity may be anything -/
def PMul : Option ℚ → Option ℚ → Option ℚ → Prop
  | some x, some y, z => z = some (x * y)
  | none, some y, z => y = 0 ∨ z = none
  | some x, none, z => x = 0 ∨ z = none
  | none, none, z => z = none

/-! ## Arcs -/

theorem inArc_iff {f l v : ℤ} (hf : IsPat A f) (hl : IsPat A l) (hv : IsPat A v) :
    InArc A f l v ↔ if f ≤ l then f ≤ v ∧ v ≤ l else f ≤ v ∨ v ≤ l := by
  unfold InArc
  unfold IsPat at hf hl hv
  have d : ∀ u : ℤ, 0 ≤ u → u < 8 * A.k → (u - f) % (8 * A.k) = if f ≤ u then u - f else u - f + 8 * A.k := by
    intro u h1 h2
    split_ifs with hc
    · exact raw_id (by omega) (by omega)
    · exact raw_neg (by omega) (by omega)
  rw [d v hv.1 hv.2, d l hl.1 hl.2]
  split_ifs <;> omega

theorem has_single {v : ℤ} (hv : IsPat A v) (x : Option ℚ) : (Pbound.single v).Has A x ↔ Mem A v x := by
  unfold Pbound.Has Pbound.single
  constructor
  · rintro ⟨-, u, hu, ha, hm⟩
    rw [inArc_iff hv hv hu, if_pos le_rfl] at ha
    have : u = v := le_antisymm ha.2 ha.1
    rwa [this] at hm
  · intro hm
    exact ⟨rfl, v, hv, (inArc_iff hv hv hv).mpr (by rw [if_pos le_rfl]; exact ⟨le_rfl, le_rfl⟩), hm⟩

theorem has_everything (h : Table A) (x : Option ℚ) : (Pbound.everything A).Has A x := by
  have hk := h.kpos
  obtain ⟨v, ⟨hv, hm⟩, -⟩ := C72_partition h x
  refine ⟨rfl, v, hv, ?_, hm⟩
  have p0 : IsPat A 0 := ⟨le_rfl, by omega⟩
  show InArc A A.zero (A.prev A.zero) v
  rw [zero_eq, inArc_iff p0 (isPat_prev h _) hv, prev_eq p0, if_pos rfl, if_pos (by omega)]
  exact ⟨hv.1, by have := hv.2; omega⟩

/-! ## Exact ends of the operands -/

/-- the lower end of an interval that is not the lowest -/
theorem lower_end (h : Table A) {v : ℤ} (hv : IsPat A v) (ho : v % 2 = 1) {x : ℚ} (hx : Mem A v (some x)) (h4 : v ≠ 4 * A.k + 1) :
    ∃ i : ℤ, A.exactValue (A.prev v) = some (pt A i) ∧ pt A i < x ∧ -(2 * (A.k : ℤ)) < i ∧ i < 2 * A.k ∧ steps A v = 2 * i + 1 := by
  have hp : IsPat A (A.prev v) := isPat_prev h v
  have e : A.prev v = v - 1 := by rw [prev_eq hv, if_neg (by omega)]
  have hs : steps A (v - 1) = steps A v - 1 := by unfold steps; split_ifs <;> omega
  have hr := steps_range hv
  have hl := steps_lt hv hx.1
  have hso : steps A v % 2 = 1 := by rw [steps_even, ho]
  have h1 : steps A v ≠ -(4 * A.k) + 1 := by
    unfold IsPat at hv; unfold steps; split_ifs <;> omega
  rw [exactValue_eq h hp (by rw [e]; omega), if_neg (by rw [e]; omega), e, hs]
  refine ⟨_, rfl, ?_, by omega, by omega, by omega⟩
  have := hx.2
  rw [if_neg (by omega)] at this
  have e2 : (steps A v - 1) / 2 = steps A v / 2 := by omega
  rw [e2]
  exact this.1.resolve_left h1

/-- the upper end of an interval that is not the highest -/
theorem upper_end (h : Table A) {v : ℤ} (hv : IsPat A v) (ho : v % 2 = 1) {x : ℚ} (hx : Mem A v (some x)) (h4 : v ≠ 4 * A.k - 1) :
    ∃ i : ℤ, A.exactValue (A.next v) = some (pt A i) ∧ x < pt A i ∧ -(2 * (A.k : ℤ)) < i ∧ i < 2 * A.k ∧ steps A v = 2 * i - 1 := by
  have hk := h.kpos
  have hp : IsPat A (A.next v) := isPat_next h v
  have hr := steps_range hv
  have hl := steps_lt hv hx.1
  have hso : steps A v % 2 = 1 := by rw [steps_even, ho]
  have hs : steps A (A.next v) = steps A v + 1 := by
    rw [next_eq hv]
    unfold IsPat at hv
    unfold steps; split_ifs <;> omega
  have h1 : steps A v ≠ 4 * A.k - 1 := by
    unfold IsPat at hv; unfold steps; split_ifs <;> omega
  have hne : A.next v % 2 = 0 := by rw [next_eq hv]; split_ifs <;> omega
  have hn4 : A.next v ≠ 4 * A.k := by rw [next_eq hv]; split_ifs <;> omega
  rw [exactValue_eq h hp hne, if_neg hn4, hs]
  refine ⟨_, rfl, ?_, by omega, by omega, by omega⟩
  have := hx.2
  rw [if_neg (by omega)] at this
  have e2 : (steps A v + 1) / 2 = steps A v / 2 + 1 := by omega
  rw [e2]
  exact this.2.resolve_left h1

theorem exact_end (h : Table A) {v : ℤ} (hv : IsPat A v) (he : v % 2 = 0) {x : ℚ} (hx : Mem A v (some x)) :
    ∃ i : ℤ, A.exactValue v = some (pt A i) ∧ x = pt A i ∧ -(2 * (A.k : ℤ)) < i ∧ i < 2 * A.k ∧ steps A v = 2 * i := by
  have hr := steps_range hv
  have hl := steps_lt hv hx.1
  have hso : steps A v % 2 = 0 := by rw [steps_even, he]
  rw [exactValue_eq h hv he, if_neg hx.1]
  have := hx.2
  rw [if_pos hso] at this
  exact ⟨_, rfl, this, by omega, by omega, by omega⟩

/-- the ends of an operand: `none` is infinity -/
theorem ends (h : Table A) {v : ℤ} (hv : IsPat A v) {x : ℚ} (hx : Mem A v (some x)) :
    ((A.exactValue (if Alphabet.isExact v then v else A.prev v) = none ∧ v = 4 * A.k + 1) ∨
      ∃ i : ℤ, A.exactValue (if Alphabet.isExact v then v else A.prev v) = some (pt A i) ∧ v ≠ 4 * A.k + 1 ∧
        -(2 * (A.k : ℤ)) < i ∧ i < 2 * A.k ∧
        (if Alphabet.isExact v then pt A i = x else pt A i < x) ∧ steps A v = 2 * i + if Alphabet.isExact v then 0 else 1) ∧
    ((A.exactValue (if Alphabet.isExact v then v else A.next v) = none ∧ v = 4 * A.k - 1) ∨
      ∃ i : ℤ, A.exactValue (if Alphabet.isExact v then v else A.next v) = some (pt A i) ∧ v ≠ 4 * A.k - 1 ∧
        -(2 * (A.k : ℤ)) < i ∧ i < 2 * A.k ∧
        (if Alphabet.isExact v then pt A i = x else x < pt A i) ∧ steps A v = 2 * i - if Alphabet.isExact v then 0 else 1) := by
  have hk := h.kpos
  rcases Int.emod_two_eq_zero_or_one v with he | ho
  · have hb : Alphabet.isExact v = true := by unfold Alphabet.isExact; rw [he]; rfl
    obtain ⟨i, e1, e2, e3, e4, e5⟩ := exact_end h hv he hx
    simp only [hb, if_true]
    exact ⟨Or.inr ⟨i, e1, by omega, e3, e4, e2.symm, by omega⟩, Or.inr ⟨i, e1, by omega, e3, e4, e2.symm, by omega⟩⟩
  · have hb : Alphabet.isExact v = false := by unfold Alphabet.isExact; rw [ho]; rfl
    simp only [hb, Bool.false_eq_true, if_false]
    constructor
    · by_cases h4 : v = 4 * A.k + 1
      · left
        refine ⟨?_, h4⟩
        rw [prev_eq hv, if_neg (by omega), exactValue_eq h ⟨by omega, by omega⟩ (by omega), if_pos (by omega)]
      · obtain ⟨i, e1, e2, e3, e4, e5⟩ := lower_end h hv ho hx h4
        exact Or.inr ⟨i, e1, h4, e3, e4, e2, e5⟩
    · by_cases h4 : v = 4 * A.k - 1
      · left
        refine ⟨?_, h4⟩
        rw [next_eq hv, if_neg (by omega), exactValue_eq h ⟨by omega, by omega⟩ (by omega), if_pos (by omega)]
      · obtain ⟨i, e1, e2, e3, e4, e5⟩ := upper_end h hv ho hx h4
        exact Or.inr ⟨i, e1, h4, e3, e4, e2, e5⟩

/-! ## The bound of two ends -/

/-- lower end: from the pattern of `s` on, or from the one after it, all numbers above `s` are covered -/
theorem cover_lower (h : Table A) {z u : ℤ} (hz : IsPat A z) (hu : IsPat A u) {s x : ℚ} (hs : Mem A z (some s)) (hx : Mem A u (some x))
    (hlt : s < x) : steps A (if Alphabet.isExact z then A.next z else z) ≤ steps A u ∧
      (if Alphabet.isExact z then A.next z else z) ≠ 4 * A.k := by
  rcases Int.emod_two_eq_zero_or_one z with he | ho
  · have hb : Alphabet.isExact z = true := by unfold Alphabet.isExact; rw [he]; rfl
    simp only [hb, if_true]
    have h1 := steps_lt_of_lt h hz hu hs hx hlt he
    have h2 := steps_lt hz hs.1
    have hs' : steps A (A.next z) = steps A z + 1 := by
      have h4 := hs.1
      rw [next_eq hz]
      unfold IsPat at hz
      unfold steps; split_ifs <;> omega
    rw [hs']
    refine ⟨by omega, ?_⟩
    rw [next_eq hz]; split_ifs <;> omega
  · have hb : Alphabet.isExact z = false := by unfold Alphabet.isExact; rw [ho]; rfl
    simp only [hb, Bool.false_eq_true, if_false]
    exact ⟨steps_le_of_le h hz hu hs hx hlt.le, hs.1⟩

theorem cover_upper (h : Table A) {z u : ℤ} (hz : IsPat A z) (hu : IsPat A u) {s x : ℚ} (hs : Mem A z (some s)) (hx : Mem A u (some x))
    (hlt : x < s) : steps A u ≤ steps A (if Alphabet.isExact z then A.next z else z) ∧
      (if Alphabet.isExact z then A.next z else z) ≠ 4 * A.k := by
  have h1 := steps_le_of_le h hu hz hx hs hlt.le
  rcases Int.emod_two_eq_zero_or_one z with he | ho
  · have hb : Alphabet.isExact z = true := by unfold Alphabet.isExact; rw [he]; rfl
    simp only [hb, if_true]
    have hs' : steps A (A.next z) = steps A z + 1 := by
      have h4 := hs.1
      rw [next_eq hz]
      unfold IsPat at hz
      unfold steps; split_ifs <;> omega
    rw [hs']
    refine ⟨by omega, ?_⟩
    rw [next_eq hz]; split_ifs <;> omega
  · have hb : Alphabet.isExact z = false := by unfold Alphabet.isExact; rw [ho]; rfl
    simp only [hb, Bool.false_eq_true, if_false]
    exact ⟨h1, hs.1⟩

theorem arc_of_steps {f l u : ℤ} (hf : IsPat A f) (hl : IsPat A l) (hu : IsPat A u) (f4 : f ≠ 4 * A.k) (l4 : l ≠ 4 * A.k)
    (h1 : steps A f ≤ steps A u) (h2 : steps A u ≤ steps A l) : InArc A f l u := by
  rw [inArc_iff hf hl hu]
  unfold IsPat at hf hl hu
  unfold steps at h1 h2
  split_ifs at * <;> omega

/-- an upper end at infinity -/
theorem arc_to_inf {f u : ℤ} (hf : IsPat A f) (hu : IsPat A u) (f4 : f ≠ 4 * A.k) (f5 : f ≠ 4 * A.k + 1) (hl : IsPat A (4 * A.k + 1))
    (h1 : steps A f ≤ steps A u) : InArc A f (4 * A.k + 1) u := by
  rw [inArc_iff hf hl hu]
  unfold IsPat at hf hu
  unfold steps at h1
  split_ifs at * <;> omega

theorem isPat_step (h : Table A) {z : ℤ} (hz : IsPat A z) : IsPat A (if Alphabet.isExact z then A.next z else z) := by
  split_ifs
  · exact isPat_next h _
  · exact hz

theorem inf_step (h : Table A) : (if Alphabet.isExact A.inf then A.next A.inf else A.inf) = 4 * A.k + 1 := by
  have hk := h.kpos
  have p : IsPat A (4 * A.k) := ⟨by omega, by omega⟩
  have : Alphabet.isExact (4 * A.k : ℤ) = true := by unfold Alphabet.isExact; simp; omega
  rw [inf_eq h, this, if_pos rfl, next_eq p, if_neg (by omega)]

/-! ## Sums -/

theorem exactPlus_none {fl : ℚ → M ℚ} {v w : ℤ} (hn : A.exactValue v = none ∨ A.exactValue w = none) :
    A.exactPlus fl v w = .ok A.inf := by
  unfold Alphabet.exactPlus
  rcases hn with hn | hn
  · rw [hn]
  · rw [hn]; cases A.exactValue v <;> rfl

theorem exactPlus_some {fl : ℚ → M ℚ} {v w : ℤ} {a b : ℚ} (ha : A.exactValue v = some a) (hb : A.exactValue w = some b)
    (hf : fl (a + b) = .ok (a + b)) : A.exactPlus fl v w = .ok (A.searchValue (a + b)) := by
  unfold Alphabet.exactPlus Alphabet.convert
  rw [ha, hb]
  simp only [hf]
  rfl

/-- the last branch of `slowplus` -/
theorem slowPlus_main {fl : ℚ → M ℚ} {v w : ℤ} (hv4 : v ≠ 4 * A.k) (hw4 : w ≠ 4 * A.k) (hv0 : v ≠ 0) (hw0 : w ≠ 0) {z1 z2 : ℤ}
    (h1 : A.exactPlus fl (if Alphabet.isExact v then v else A.prev v) (if Alphabet.isExact w then w else A.prev w) = .ok z1)
    (h2 : A.exactPlus fl (if Alphabet.isExact v then v else A.next v) (if Alphabet.isExact w then w else A.next w) = .ok z2) :
    A.slowPlus fl v w = .ok (.bound ⟨false,
      if !(Alphabet.isExact v && Alphabet.isExact w) && Alphabet.isExact z1 then A.next z1 else z1,
      if !(Alphabet.isExact v && Alphabet.isExact w) && Alphabet.isExact z2 then A.next z2 else z2⟩) := by
  have iv : A.isInf v = false := by unfold Alphabet.isInf; rw [n2_half]; simpa using hv4
  have iw : A.isInf w = false := by unfold Alphabet.isInf; rw [n2_half]; simpa using hw4
  have zv : Alphabet.isZero v = false := by unfold Alphabet.isZero; simpa using hv0
  have zw : Alphabet.isZero w = false := by unfold Alphabet.isZero; simpa using hw0
  unfold Alphabet.slowPlus
  rw [iv, iw, zv, zw]
  revert h1 h2
  cases Alphabet.isExact v <;> cases Alphabet.isExact w <;> intro h1 h2 <;>
    simp only [Bool.false_eq_true, if_false, if_true] at h1 h2 <;>
    simp only [Bool.false_eq_true, if_false, if_true, Bool.and_false, Bool.or_false, Bool.and_true, h1, h2] <;>
    first
    | rfl
    | (have e := h1.symm.trans h2; cases e; rfl)

/-- **C73**, partial: a sum contains the sums of all members of its operands — the pair of the two outermost intervals is
missing, see `C73_plus_wrong`. `fl` (`float()`) must be exact on the sums of exact numbers, see `C73_p8_exact`. -/
theorem C73_plus_partial (h : Table A) {fl : ℚ → M ℚ} (hf : ∀ i j : ℤ, -(2 * A.k : ℤ) < i → i < 2 * A.k → -(2 * A.k : ℤ) < j →
    j < 2 * A.k → fl (pt A i + pt A j) = .ok (pt A i + pt A j)) {v w : ℤ} (hv : IsPat A v) (hw : IsPat A w)
    (h1 : ¬ (v = 4 * A.k - 1 ∧ w = 4 * A.k + 1)) (h2 : ¬ (v = 4 * A.k + 1 ∧ w = 4 * A.k - 1)) :
    ∀ x y z, Mem A v x → Mem A w y → PAdd x y z → ∃ r, A.slowPlus fl v w = .ok r ∧ r.Has A z := by
  have hk := h.kpos
  have pinf : IsPat A (4 * A.k) := ⟨by omega, by omega⟩
  have zi : Alphabet.isInf A (4 * A.k) = true := by unfold Alphabet.isInf; rw [n2_half]; simp
  intro x y z hx hy hz
  cases x with
  | none =>
    have ev : v = 4 * A.k := hx
    subst ev
    cases y with
    | none =>
      have ew : w = 4 * A.k := hy
      subst ew
      refine ⟨.bound (Pbound.everything A), ?_, has_everything h z⟩
      unfold Alphabet.slowPlus; rw [zi]; rfl
    | some y =>
      have hz : z = none := hz
      subst hz
      have iw : A.isInf w = false := by unfold Alphabet.isInf; rw [n2_half]; simpa using hy.1
      refine ⟨.bound (Pbound.single A.inf), ?_, ?_⟩
      · unfold Alphabet.slowPlus; rw [zi, iw]; rfl
      · rw [inf_eq h]; exact (has_single pinf _).mpr rfl
  | some x =>
    have iv : A.isInf v = false := by unfold Alphabet.isInf; rw [n2_half]; simpa using hx.1
    cases y with
    | none =>
      have ew : w = 4 * A.k := hy
      subst ew
      have hz : z = none := hz
      subst hz
      refine ⟨.bound (Pbound.single A.inf), ?_, ?_⟩
      · unfold Alphabet.slowPlus; rw [zi, iv]; rfl
      · rw [inf_eq h]; exact (has_single pinf _).mpr rfl
    | some y =>
      have hz : z = some (x + y) := hz
      subst hz
      have iw : A.isInf w = false := by unfold Alphabet.isInf; rw [n2_half]; simpa using hy.1
      have m0 : ∀ q : ℚ, Mem A 0 (some q) → q = 0 := by
        intro q hq
        have := (C72_exactValue h ⟨le_rfl, by omega⟩ rfl _).mp hq
        rw [exactValue_eq h ⟨le_rfl, by omega⟩ rfl, if_neg (by omega)] at this
        have e : steps A 0 = 0 := by unfold steps; rw [if_neg (by omega)]
        rw [e] at this
        simpa [pt_zero] using this
      by_cases hv0 : v = 0
      · subst hv0
        refine ⟨.num w, ?_, ?_⟩
        · unfold Alphabet.slowPlus; rw [iv, iw]; rfl
        · rw [m0 x hx, zero_add]; exact hy
      by_cases hw0 : w = 0
      · subst hw0
        have zv : Alphabet.isZero v = false := by unfold Alphabet.isZero; simpa using hv0
        refine ⟨.num v, ?_, ?_⟩
        · unfold Alphabet.slowPlus; rw [iv, iw, zv]; rfl
        · rw [m0 y hy, add_zero]; exact hx
      obtain ⟨u, ⟨hu, hm⟩, -⟩ := C72_partition h (some (x + y))
      obtain ⟨lv, uv⟩ := ends h hv hx
      obtain ⟨lw, uw⟩ := ends h hw hy
      -- both exact
      by_cases hb : (Alphabet.isExact v && Alphabet.isExact w) = true
      · rw [Bool.and_eq_true] at hb
        obtain ⟨bv, bw⟩ := hb
        rw [bv] at lv uv
        rw [bw] at lw uw
        simp only [if_true] at lv uv lw uw
        have ov : v % 2 = 0 := by unfold Alphabet.isExact at bv; simpa using bv
        have ow : w % 2 = 0 := by unfold Alphabet.isExact at bw; simpa using bw
        obtain ⟨i, i1, -, i3, i4, i5, -⟩ := lv.resolve_left (by omega)
        obtain ⟨j, j1, -, j3, j4, j5, -⟩ := lw.resolve_left (by omega)
        have e := exactPlus_some i1 j1 (hf i j i3 i4 j3 j4)
        rw [i5, j5] at e
        refine ⟨_, slowPlus_main hx.1 hy.1 hv0 hw0 (by rw [bv, bw]; exact e) (by rw [bv, bw]; exact e), ?_⟩
        obtain ⟨p, q⟩ := searchValue_mem h (x + y)
        simp only [bv, bw, Bool.and_self, Bool.not_true, Bool.false_and, Bool.false_eq_true, if_false]
        exact (has_single p _).mpr q
      -- the lower end
      have lower : ∃ z1, A.exactPlus fl (if Alphabet.isExact v then v else A.prev v) (if Alphabet.isExact w then w else A.prev w) = .ok z1 ∧
          IsPat A z1 ∧ ((z1 = A.inf ∧ (v = 4 * A.k + 1 ∨ w = 4 * A.k + 1)) ∨
            ∃ s, Mem A z1 (some s) ∧ s < x + y ∧ (v = 4 * A.k - 1 ∨ w = 4 * A.k - 1 → 0 ≤ s)) := by
        rcases lv with ⟨a1, a2⟩ | ⟨i, i1, i2, i3, i4, i5, i6⟩
        · exact ⟨A.inf, exactPlus_none (Or.inl a1), by rw [inf_eq h]; exact pinf, Or.inl ⟨rfl, Or.inl a2⟩⟩
        rcases lw with ⟨a1, a2⟩ | ⟨j, j1, j2, j3, j4, j5, j6⟩
        · exact ⟨A.inf, exactPlus_none (Or.inr a1), by rw [inf_eq h]; exact pinf, Or.inl ⟨rfl, Or.inr a2⟩⟩
        obtain ⟨p, q⟩ := searchValue_mem h (pt A i + pt A j)
        refine ⟨_, exactPlus_some i1 j1 (hf i j i3 i4 j3 j4), p, Or.inr ⟨_, q, ?_, ?_⟩⟩
        · cases bv : Alphabet.isExact v <;> cases bw : Alphabet.isExact w <;> rw [bv, bw] at hb <;> rw [bv] at i5 <;> rw [bw] at j5 <;>
            simp only [Bool.false_eq_true, if_false, if_true, Bool.and_self, not_true_eq_false] at i5 j5 hb <;> linarith
        · have bot : ∀ l : ℤ, -(2 * (A.k : ℤ)) < l → l < 2 * A.k → 0 ≤ pt A (2 * A.k - 1) + pt A l := by
            intro l l1 l2
            have := pt_le h (i := -(2 * A.k - 1)) (j := l) (by omega) (by omega) l2
            rw [pt_neg] at this
            linarith
          rintro (hvm | hwm)
          · have : i = 2 * A.k - 1 := by
              have bv : Alphabet.isExact v = false := by unfold Alphabet.isExact; rw [hvm]; simp; omega
              rw [bv] at i6
              simp only [Bool.false_eq_true, if_false] at i6
              unfold steps at i6
              rw [if_neg (by omega)] at i6
              omega
            rw [this]; exact bot j j3 j4
          · have : j = 2 * A.k - 1 := by
              have bw : Alphabet.isExact w = false := by unfold Alphabet.isExact; rw [hwm]; simp; omega
              rw [bw] at j6
              simp only [Bool.false_eq_true, if_false] at j6
              unfold steps at j6
              rw [if_neg (by omega)] at j6
              omega
            rw [this, add_comm]; exact bot i i3 i4
      -- the upper end
      have upper : ∃ z2, A.exactPlus fl (if Alphabet.isExact v then v else A.next v) (if Alphabet.isExact w then w else A.next w) = .ok z2 ∧
          IsPat A z2 ∧ ((z2 = A.inf ∧ (v = 4 * A.k - 1 ∨ w = 4 * A.k - 1)) ∨ ∃ s, Mem A z2 (some s) ∧ x + y < s) := by
        rcases uv with ⟨a1, a2⟩ | ⟨i, i1, i2, i3, i4, i5, i6⟩
        · exact ⟨A.inf, exactPlus_none (Or.inl a1), by rw [inf_eq h]; exact pinf, Or.inl ⟨rfl, Or.inl a2⟩⟩
        rcases uw with ⟨a1, a2⟩ | ⟨j, j1, j2, j3, j4, j5, j6⟩
        · exact ⟨A.inf, exactPlus_none (Or.inr a1), by rw [inf_eq h]; exact pinf, Or.inl ⟨rfl, Or.inr a2⟩⟩
        obtain ⟨p, q⟩ := searchValue_mem h (pt A i + pt A j)
        refine ⟨_, exactPlus_some i1 j1 (hf i j i3 i4 j3 j4), p, Or.inr ⟨_, q, ?_⟩⟩
        cases bv : Alphabet.isExact v <;> cases bw : Alphabet.isExact w <;> rw [bv, bw] at hb <;> rw [bv] at i5 <;> rw [bw] at j5 <;>
            simp only [Bool.false_eq_true, if_false, if_true, Bool.and_self, not_true_eq_false] at i5 j5 hb <;> linarith
      obtain ⟨z1, e1, p1, c1⟩ := lower
      obtain ⟨z2, e2, p2, c2⟩ := upper
      refine ⟨_, slowPlus_main hx.1 hy.1 hv0 hw0 e1 e2, ?_⟩
      have hb' : (!(Alphabet.isExact v && Alphabet.isExact w)) = true := by rw [Bool.not_eq_true', ← Bool.not_eq_true]; exact hb
      simp only [hb', Bool.true_and]
      refine ⟨rfl, u, hu, ?_, hm⟩
      show InArc A (if Alphabet.isExact z1 then A.next z1 else z1) (if Alphabet.isExact z2 then A.next z2 else z2) u
      have h5 : IsPat A (4 * A.k + 1) := ⟨by omega, by omega⟩
      have su := steps_lt hu hm.1
      have sr := steps_range hu
      rcases c1 with ⟨c1, c1'⟩ | ⟨s, c1, c1', c1''⟩
      · rw [c1, inf_step h]
        rcases c2 with ⟨c2, c2'⟩ | ⟨t, c2, c2'⟩
        · exfalso
          clear hf lv lw uv uw hb hb' e1 e2
          rcases c1' with c1' | c1' <;> rcases c2' with c2' | c2' <;> omega
        · obtain ⟨u1, u2⟩ := cover_upper h p2 hu c2 hm c2'
          refine arc_of_steps h5 (isPat_step h p2) hu (by omega) u2 ?_ u1
          have : steps A (4 * A.k + 1) = -(4 * A.k) + 1 := by unfold steps; rw [if_pos (by omega)]; ring
          rw [this]; omega
      · obtain ⟨l1, l2⟩ := cover_lower h p1 hu c1 hm c1'
        rcases c2 with ⟨c2, c2'⟩ | ⟨t, c2, c2'⟩
        · rw [c2, inf_step h]
          refine arc_to_inf (isPat_step h p1) hu l2 ?_ h5 l1
          intro hc
          have hs0 := c1'' c2'
          have z0 : steps A 0 ≤ steps A z1 := steps_le_of_le h ⟨le_rfl, by omega⟩ p1 (mem_zero.mpr hk) c1 hs0
          have e0 : steps A 0 = 0 := by unfold steps; rw [if_neg (by omega)]
          have z4 := steps_lt p1 c1.1
          rw [e0] at z0
          unfold IsPat at p1
          unfold steps at z0 z4
          split_ifs at hc z0 z4 with g1 g2 g3
          all_goals first
            | omega
            | (rw [next_eq p1] at hc; split_ifs at hc <;> omega)
        · obtain ⟨u1, u2⟩ := cover_upper h p2 hu c2 hm c2'
          exact arc_of_steps (isPat_step h p1) (isPat_step h p2) hu l2 u2 l1 u1

example : Table p2 ∧ p2.slowPlus .ok 5 13 = .ok (.bound ⟨false, 1, 5⟩) ∧ Mem p2 5 (some (3 / 2)) ∧ Mem p2 13 (some (-3 / 4)) := by
  refine ⟨table_p2, by decide +kernel, ⟨by decide +kernel, ?_⟩, ⟨by decide +kernel, ?_⟩⟩ <;> decide +kernel

/-- **C73**: the sum of the two outermost intervals is always given as the lower one of them, although 0 is a sum of
members. -/
theorem C73_plus_wrong (h : Table A) (fl : ℚ → M ℚ) :
    A.slowPlus fl (4 * A.k - 1) (4 * A.k + 1) = .ok (.bound ⟨false, 4 * A.k + 1, 4 * A.k + 1⟩) ∧
    ∃ x y, Mem A (4 * A.k - 1) (some x) ∧ Mem A (4 * A.k + 1) (some y) ∧ PAdd (some x) (some y) (some 0) ∧
      ¬ Pbound.Has A ⟨false, 4 * A.k + 1, 4 * A.k + 1⟩ (some 0) := by
  have hk := h.kpos
  have pa : IsPat A (4 * A.k - 1) := ⟨by omega, by omega⟩
  have pb : IsPat A (4 * A.k + 1) := ⟨by omega, by omega⟩
  have pi : IsPat A (4 * A.k) := ⟨by omega, by omega⟩
  have na : A.next (4 * A.k - 1) = 4 * A.k := by rw [next_eq pa, if_neg (by omega)]; ring
  have nb : A.prev (4 * A.k + 1) = 4 * A.k := by rw [prev_eq pb, if_neg (by omega)]; ring
  have vi : A.exactValue (4 * A.k) = none := by rw [exactValue_eq h pi (by omega), if_pos rfl]
  have ea : Alphabet.isExact (4 * A.k - 1 : ℤ) = false := by unfold Alphabet.isExact; simp; omega
  have eb : Alphabet.isExact (4 * A.k + 1 : ℤ) = false := by unfold Alphabet.isExact; simp; omega
  have ei : Alphabet.isExact (4 * A.k : ℤ) = true := by unfold Alphabet.isExact; simp; omega
  have ni : A.next (4 * A.k) = 4 * A.k + 1 := by rw [next_eq pi, if_neg (by omega)]
  have ma : Mem A (4 * A.k - 1) (some (pt A (2 * A.k - 1) + 1)) := by
    refine mem_odd (by omega) (by omega) (by omega) ?_ (Or.inl rfl)
    have : (4 * (A.k : ℤ) - 1) / 2 = 2 * A.k - 1 := by omega
    rw [this]; linarith
  have nn : A.neg (4 * A.k - 1) = 4 * A.k + 1 := by rw [neg_eq pa, if_neg (by omega)]; ring
  have mb := mem_neg h pa ma
  rw [nn] at mb
  refine ⟨?_, _, _, ma, mb, ?_, ?_⟩
  · rw [slowPlus_main (z1 := A.inf) (z2 := A.inf) (by omega) (by omega) (by omega) (by omega)]
    · rw [ea, eb, inf_eq h, ei, ni]; rfl
    · rw [ea, eb]
      simp only [Bool.false_eq_true, if_false]
      exact exactPlus_none (Or.inr (by rw [nb]; exact vi))
    · rw [ea, eb]
      simp only [Bool.false_eq_true, if_false]
      exact exactPlus_none (Or.inl (by rw [na]; exact vi))
  · show some 0 = some _
    rw [add_neg_cancel]
  · intro hc
    have hm := (has_single pb (some 0)).mp hc
    have := mem_unique h pb ⟨le_rfl, by omega⟩ hm (mem_zero.mpr hk)
    omega

example : Table p4 ∧ 4 * p4.k = 16 ∧ p4.slowPlus .ok 15 17 = .ok (.bound ⟨false, 17, 17⟩) := ⟨table_p4, by decide +kernel, by decide +kernel⟩

/-- **C73**: sums are not as tight as they should be: an upper end that is an exact number moves up to the interval above it.
With the points 1 and 2, `(0,1/2) + (0,1/2)` is given as `(0,2)`. -/
theorem C73_plus_tight_wrong : p2.slowPlus .ok 1 1 = .ok (.bound ⟨false, 1, 5⟩) ∧
    (∀ x y, Mem p2 1 (some x) → Mem p2 1 (some y) → x + y < 1) ∧ Pbound.Has p2 ⟨false, 1, 5⟩ (some (3 / 2)) := by
  refine ⟨by decide +kernel, fun x y hx hy => ?_, rfl, 5, ⟨by decide, by decide⟩, by unfold InArc; decide +kernel,
    by decide +kernel, by decide +kernel⟩
  have e : pt p2 (steps p2 1 / 2 + 1) = 1 / 2 := by decide +kernel
  have o : steps p2 1 = 1 := by decide +kernel
  have k : (p2.k : ℤ) = 2 := by decide +kernel
  have hx := hx.2
  have hy := hy.2
  rw [if_neg (by rw [o]; omega), e] at hx hy
  have a := hx.2.resolve_left (by rw [o, k]; omega)
  have b := hy.2.resolve_left (by rw [o, k]; omega)
  linarith

/-- **C73**, partial: differences contain the differences of members; two outermost intervals on the same side are missing. -/
theorem C73_sub_partial (h : Table A) {fl : ℚ → M ℚ} (hf : ∀ i j : ℤ, -(2 * A.k : ℤ) < i → i < 2 * A.k → -(2 * A.k : ℤ) < j →
    j < 2 * A.k → fl (pt A i + pt A j) = .ok (pt A i + pt A j)) {v w : ℤ} (hv : IsPat A v) (hw : IsPat A w)
    (h1 : ¬ (v = 4 * A.k - 1 ∧ w = 4 * A.k - 1)) (h2 : ¬ (v = 4 * A.k + 1 ∧ w = 4 * A.k + 1)) :
    ∀ x y z, Mem A v x → Mem A w y → PAdd x (pneg y) z → ∃ r, A.sub fl v w = .ok r ∧ r.Has A z := by
  intro x y z hx hy hz
  have hk := h.kpos
  refine C73_plus_partial h hf hv (isPat_neg h w) ?_ ?_ x (pneg y) z hx (mem_neg h hw hy) hz
  · rintro ⟨a, b⟩
    rw [neg_eq hw] at b
    split_ifs at b <;> omega
  · rintro ⟨a, b⟩
    rw [neg_eq hw] at b
    split_ifs at b <;> omega

example : p2.sub .ok 6 4 = .ok (.bound ⟨false, 4, 4⟩) := by decide +kernel

theorem p8_mag : ∀ n : Fin 16, mag p8 n = if (n : ℕ) = 0 then 0 else 2 ^ (n : ℕ) / 2 ^ 8 := by decide +kernel

theorem p8_pt (i : ℤ) (i1 : -(2 * p8.k : ℤ) < i) (i2 : i < 2 * p8.k) : ∃ (s : ℤ) (n : ℕ), (i = 0 ∧ s = 0 ∨ |s| = 1) ∧ 1 ≤ n ∧ n ≤ 15 ∧
    pt p8 i = s * 2 ^ n / 2 ^ 8 := by
  have hk : p8.k = 8 := by decide
  rw [hk] at i1 i2
  rcases lt_trichotomy i 0 with hi | rfl | hi
  · have := p8_mag ⟨(-i).toNat, by omega⟩
    simp only [] at this
    rw [if_neg (by omega)] at this
    refine ⟨-1, (-i).toNat, Or.inr rfl, by omega, by omega, ?_⟩
    unfold pt
    rw [if_neg (by omega), this]
    push_cast; ring
  · exact ⟨0, 1, Or.inl ⟨rfl, rfl⟩, by omega, by omega, by simp [pt_zero]⟩
  · have := p8_mag ⟨i.toNat, by omega⟩
    simp only [] at this
    rw [if_neg (by omega)] at this
    refine ⟨1, i.toNat, Or.inr rfl, by omega, by omega, ?_⟩
    unfold pt
    rw [if_pos (by omega), this]
    push_cast; ring

/-- **C73**: sums of the exact numbers of `p8`, which has the exact numbers of `p1`, `p2` and `p4` among its own, are multiples of
`2^-8` of at most 16 bits, and products are powers of two, so that `float()` is exact on them. -/
theorem C73_p8_exact (i j : ℤ) (i1 : -(2 * p8.k : ℤ) < i) (i2 : i < 2 * p8.k) (j1 : -(2 * p8.k : ℤ) < j) (j2 : j < 2 * p8.k) :
    (∃ m : ℤ, pt p8 i + pt p8 j = m / 2 ^ 8 ∧ |m| ≤ 2 ^ 16) ∧
    (pt p8 i * pt p8 j = 0 ∨ ∃ n : ℤ, |n| ≤ 14 ∧ |pt p8 i * pt p8 j| = 2 ^ n) := by
  obtain ⟨s, a, hs, a1, a2, e1⟩ := p8_pt i i1 i2
  obtain ⟨t, b, ht, b1, b2, e2⟩ := p8_pt j j1 j2
  have pa : (2 : ℤ) ^ a ≤ 2 ^ 15 := pow_le_pow_right₀ (by norm_num) a2
  have pb : (2 : ℤ) ^ b ≤ 2 ^ 15 := pow_le_pow_right₀ (by norm_num) b2
  have sa : |s| ≤ 1 := by rcases hs with ⟨-, rfl⟩ | hs <;> simp_all
  have sb : |t| ≤ 1 := by rcases ht with ⟨-, rfl⟩ | ht <;> simp_all
  constructor
  · refine ⟨s * 2 ^ a + t * 2 ^ b, ?_, ?_⟩
    · rw [e1, e2]; push_cast; ring
    · have p1 : |s * 2 ^ a| ≤ 2 ^ 15 := by
        rw [abs_mul, abs_of_pos (show (0 : ℤ) < 2 ^ a by positivity)]
        nlinarith [abs_nonneg s, show (0 : ℤ) < 2 ^ a by positivity]
      have p2 : |t * 2 ^ b| ≤ 2 ^ 15 := by
        rw [abs_mul, abs_of_pos (show (0 : ℤ) < 2 ^ b by positivity)]
        nlinarith [abs_nonneg t, show (0 : ℤ) < 2 ^ b by positivity]
      have := abs_add_le (s * 2 ^ a) (t * 2 ^ b)
      norm_num at p1 p2 this ⊢
      linarith
  · rcases hs with ⟨-, rfl⟩ | hs
    · left; rw [e1]; simp
    rcases ht with ⟨-, rfl⟩ | ht
    · left; rw [e2]; simp
    right
    refine ⟨(a : ℤ) + b - 16, by rw [abs_le]; omega, ?_⟩
    have qs : |(s : ℚ)| = 1 := by exact_mod_cast hs
    have qt : |(t : ℚ)| = 1 := by exact_mod_cast ht
    rw [e1, e2, abs_mul, abs_div, abs_div, abs_mul, abs_mul, qs, qt, abs_of_pos (show (0 : ℚ) < 2 ^ a by positivity),
      abs_of_pos (show (0 : ℚ) < 2 ^ b by positivity), abs_of_pos (show (0 : ℚ) < 2 ^ 8 by positivity),
      zpow_sub₀ (by norm_num), zpow_add₀ (by norm_num), zpow_natCast, zpow_natCast]
    norm_num
    ring

/-! ## Products -/

theorem exactTimes_none {fl : ℚ → M ℚ} {v w : ℤ} (hn : A.exactValue v = none ∨ A.exactValue w = none) :
    A.exactTimes fl v w = .ok A.inf := by
  unfold Alphabet.exactTimes
  rcases hn with hn | hn
  · rw [hn]
  · rw [hn]; cases A.exactValue v <;> rfl

theorem exactTimes_some {fl : ℚ → M ℚ} {v w : ℤ} {a b : ℚ} (ha : A.exactValue v = some a) (hb : A.exactValue w = some b)
    (hf : fl (a * b) = .ok (a * b)) : A.exactTimes fl v w = .ok (A.searchValue (a * b)) := by
  unfold Alphabet.exactTimes Alphabet.convert
  rw [ha, hb]
  simp only [hf]
  rfl

/-- lower and upper end of an operand, swapped for negative ones — scripts/punum.py:284-289 -/
def tEnd1 (A : Alphabet) (v : ℤ) : ℤ :=
  if Alphabet.isExact v then v else if v > 4 * A.k then A.next v else A.prev v
def tEnd2 (A : Alphabet) (v : ℤ) : ℤ :=
  if Alphabet.isExact v then v else if v > 4 * A.k then A.prev v else A.next v

theorem slowTimes_eq {fl : ℚ → M ℚ} {v w : ℤ} (hv4 : v ≠ 4 * A.k) (hw4 : w ≠ 4 * A.k) (hv0 : v ≠ 0) (hw0 : w ≠ 0) :
    A.slowTimes fl v w = (do
      let z1 ← A.exactTimes fl (tEnd1 A v) (tEnd1 A w)
      let z2 ← A.exactTimes fl (tEnd2 A v) (tEnd2 A w)
      return ⟨false,
        if !(Alphabet.isExact v && Alphabet.isExact w) && Alphabet.isExact z1 then A.next z1 else z1,
        if !(Alphabet.isExact v && Alphabet.isExact w) && Alphabet.isExact z2 then A.next z2 else z2⟩) := by
  have iv : A.isInf v = false := by unfold Alphabet.isInf; rw [n2_half]; simpa using hv4
  have iw : A.isInf w = false := by unfold Alphabet.isInf; rw [n2_half]; simpa using hw4
  have zv : Alphabet.isZero v = false := by unfold Alphabet.isZero; simpa using hv0
  have zw : Alphabet.isZero w = false := by unfold Alphabet.isZero; simpa using hw0
  unfold Alphabet.slowTimes Alphabet.isStrictlyNegative
  rw [iv, iw, zv, zw, n2_half]
  unfold tEnd1 tEnd2
  by_cases nv : v > 4 * A.k <;> by_cases nw : w > 4 * A.k <;> simp only [nv, nw, if_true, if_false, decide_true, decide_false] <;>
  cases Alphabet.isExact v <;> cases Alphabet.isExact w <;> rfl

theorem slowTimes_main {fl : ℚ → M ℚ} {v w : ℤ} (hv4 : v ≠ 4 * A.k) (hw4 : w ≠ 4 * A.k) (hv0 : v ≠ 0) (hw0 : w ≠ 0) {z1 z2 : ℤ}
    (h1 : A.exactTimes fl (tEnd1 A v) (tEnd1 A w) = .ok z1) (h2 : A.exactTimes fl (tEnd2 A v) (tEnd2 A w) = .ok z2) :
    A.slowTimes fl v w = .ok ⟨false,
      if !(Alphabet.isExact v && Alphabet.isExact w) && Alphabet.isExact z1 then A.next z1 else z1,
      if !(Alphabet.isExact v && Alphabet.isExact w) && Alphabet.isExact z2 then A.next z2 else z2⟩ := by
  rw [slowTimes_eq hv4 hw4 hv0 hw0, h1, h2]; rfl

theorem steps_pos {v : ℤ} (h4 : v < 4 * A.k) : steps A v = v := by unfold steps; rw [if_neg (by omega)]

theorem isExact_iff {v : ℤ} : Alphabet.isExact v = true ↔ v % 2 = 0 := by unfold Alphabet.isExact; simp

/-- positive operands, not both exact -/
theorem times_pos (h : Table A) {fl : ℚ → M ℚ} (hf : ∀ i j : ℤ, -(2 * A.k : ℤ) < i → i < 2 * A.k → -(2 * A.k : ℤ) < j →
    j < 2 * A.k → fl (pt A i * pt A j) = .ok (pt A i * pt A j)) {v w : ℤ} (v0 : 0 < v) (v4 : v < 4 * A.k) (w0 : 0 < w)
    (w4 : w < 4 * A.k) (hb : ¬ (Alphabet.isExact v && Alphabet.isExact w) = true) {x y : ℚ} (hx : Mem A v (some x))
    (hy : Mem A w (some y)) : ∃ r, A.slowTimes fl v w = .ok r ∧ r.Has A (some (x * y)) := by
  have hk := h.kpos
  have pinf : IsPat A (4 * A.k) := ⟨by omega, by omega⟩
  have hv : IsPat A v := ⟨by omega, by omega⟩
  have hw : IsPat A w := ⟨by omega, by omega⟩
  have nneg : ∀ i : ℤ, 0 ≤ i → i < 2 * A.k → 0 ≤ pt A i := by
    intro i i1 i2
    have := pt_le h (i := 0) (j := i) (by omega) i1 i2
    rwa [pt_zero] at this
  have xpos : 0 < x := by
    refine mem_lt h (v := 0) (w := v) ⟨le_rfl, by omega⟩ hv (mem_zero.mpr hk) hx ?_
    rw [steps_pos (by omega), steps_pos v4]; exact v0
  have ypos : 0 < y := by
    refine mem_lt h (v := 0) (w := w) ⟨le_rfl, by omega⟩ hw (mem_zero.mpr hk) hy ?_
    rw [steps_pos (by omega), steps_pos w4]; exact w0
  obtain ⟨u, ⟨hu, hm⟩, -⟩ := C72_partition h (some (x * y))
  obtain ⟨lv, uv⟩ := ends h hv hx
  obtain ⟨lw, uw⟩ := ends h hw hy
  have t1v : tEnd1 A v = if Alphabet.isExact v then v else A.prev v := by unfold tEnd1; rw [if_neg (by omega : ¬ v > 4 * A.k)]
  have t1w : tEnd1 A w = if Alphabet.isExact w then w else A.prev w := by unfold tEnd1; rw [if_neg (by omega : ¬ w > 4 * A.k)]
  have t2v : tEnd2 A v = if Alphabet.isExact v then v else A.next v := by unfold tEnd2; rw [if_neg (by omega : ¬ v > 4 * A.k)]
  have t2w : tEnd2 A w = if Alphabet.isExact w then w else A.next w := by unfold tEnd2; rw [if_neg (by omega : ¬ w > 4 * A.k)]
  rw [steps_pos v4] at lv uv
  rw [steps_pos w4] at lw uw
  have lower : ∃ z1, A.exactTimes fl (tEnd1 A v) (tEnd1 A w) = .ok z1 ∧ IsPat A z1 ∧ ∃ s, Mem A z1 (some s) ∧ s < x * y ∧ 0 ≤ s := by
    rw [t1v, t1w]
    obtain ⟨i, i1, i2, i3, i4, i5, i6⟩ := lv.resolve_left (by rintro ⟨-, e⟩; omega)
    obtain ⟨j, j1, j2, j3, j4, j5, j6⟩ := lw.resolve_left (by rintro ⟨-, e⟩; omega)
    obtain ⟨p, q⟩ := searchValue_mem h (pt A i * pt A j)
    have pi : 0 ≤ pt A i := nneg i (by split_ifs at i6 <;> omega) i4
    have pj : 0 ≤ pt A j := nneg j (by split_ifs at j6 <;> omega) j4
    refine ⟨_, exactTimes_some i1 j1 (hf i j i3 i4 j3 j4), p, _, q, ?_, mul_nonneg pi pj⟩
    cases bv : Alphabet.isExact v <;> cases bw : Alphabet.isExact w <;> rw [bv, bw] at hb <;> rw [bv] at i5 <;> rw [bw] at j5 <;>
      simp only [Bool.false_eq_true, if_false, if_true, Bool.and_self, not_true_eq_false] at i5 j5 hb <;> nlinarith
  have upper : ∃ z2, A.exactTimes fl (tEnd2 A v) (tEnd2 A w) = .ok z2 ∧ IsPat A z2 ∧
      (z2 = A.inf ∨ ∃ s, Mem A z2 (some s) ∧ x * y < s) := by
    rw [t2v, t2w]
    rcases uv with ⟨a1, a2⟩ | ⟨i, i1, i2, i3, i4, i5, i6⟩
    · exact ⟨A.inf, exactTimes_none (Or.inl a1), by rw [inf_eq h]; exact pinf, Or.inl rfl⟩
    rcases uw with ⟨a1, a2⟩ | ⟨j, j1, j2, j3, j4, j5, j6⟩
    · exact ⟨A.inf, exactTimes_none (Or.inr a1), by rw [inf_eq h]; exact pinf, Or.inl rfl⟩
    obtain ⟨p, q⟩ := searchValue_mem h (pt A i * pt A j)
    refine ⟨_, exactTimes_some i1 j1 (hf i j i3 i4 j3 j4), p, Or.inr ⟨_, q, ?_⟩⟩
    cases bv : Alphabet.isExact v <;> cases bw : Alphabet.isExact w <;> rw [bv, bw] at hb <;> rw [bv] at i5 <;> rw [bw] at j5 <;>
      simp only [Bool.false_eq_true, if_false, if_true, Bool.and_self, not_true_eq_false] at i5 j5 hb <;> nlinarith
  obtain ⟨z1, e1, p1, s, c1, c1', c1''⟩ := lower
  obtain ⟨z2, e2, p2, c2⟩ := upper
  refine ⟨_, slowTimes_main hx.1 hy.1 (by omega) (by omega) e1 e2, ?_⟩
  have hb' : (!(Alphabet.isExact v && Alphabet.isExact w)) = true := by rw [Bool.not_eq_true', ← Bool.not_eq_true]; exact hb
  simp only [hb', Bool.true_and]
  refine ⟨rfl, u, hu, ?_, hm⟩
  show InArc A (if Alphabet.isExact z1 then A.next z1 else z1) (if Alphabet.isExact z2 then A.next z2 else z2) u
  have h5 : IsPat A (4 * A.k + 1) := ⟨by omega, by omega⟩
  obtain ⟨l1, l2⟩ := cover_lower h p1 hu c1 hm c1'
  rcases c2 with c2 | ⟨t, c2, c2'⟩
  · rw [c2, inf_step h]
    refine arc_to_inf (isPat_step h p1) hu l2 ?_ h5 l1
    intro hc
    have z0 : steps A 0 ≤ steps A z1 := steps_le_of_le h ⟨le_rfl, by omega⟩ p1 (mem_zero.mpr hk) c1 c1''
    have e0 : steps A 0 = 0 := steps_pos (by omega)
    have z4 := steps_lt p1 c1.1
    rw [e0] at z0
    unfold IsPat at p1
    unfold steps at z0 z4
    split_ifs at hc z0 z4 with g1 g2 g3
    all_goals first
      | omega
      | (rw [next_eq p1] at hc; split_ifs at hc <;> omega)
  · obtain ⟨u1, u2⟩ := cover_upper h p2 hu c2 hm c2'
    exact arc_of_steps (isPat_step h p1) (isPat_step h p2) hu l2 u2 l1 u1

theorem exactValue_neg (h : Table A) {v : ℤ} (hv : IsPat A v) (he : v % 2 = 0) : A.exactValue (A.neg v) = pneg (A.exactValue v) := by
  have hm := mem_neg h hv (mem_exactValue h hv he)
  refine ((C72_exactValue h (isPat_neg h v) ?_ _).mp hm).symm
  rw [isExact_iff, neg_eq hv]; split_ifs <;> omega

theorem isExact_neg {v : ℤ} (hv : IsPat A v) : Alphabet.isExact (A.neg v) = Alphabet.isExact v := by
  have : A.neg v % 2 = v % 2 := by rw [neg_eq hv]; split_ifs <;> omega
  unfold Alphabet.isExact; rw [this]

theorem next_neg (h : Table A) {v : ℤ} (hv : IsPat A v) : A.next (A.neg v) = A.neg (A.prev v) := by
  have hk := h.kpos
  rw [next_eq (isPat_neg h v), neg_eq (isPat_prev h v), neg_eq hv, prev_eq hv]
  unfold IsPat at hv
  split_ifs <;> omega

theorem prev_neg (h : Table A) {v : ℤ} (hv : IsPat A v) : A.prev (A.neg v) = A.neg (A.next v) := by
  have hk := h.kpos
  rw [prev_eq (isPat_neg h v), neg_eq (isPat_next h v), neg_eq hv, next_eq hv]
  unfold IsPat at hv
  split_ifs <;> omega

theorem tEnd_neg (h : Table A) {v : ℤ} (hv : IsPat A v) (h0 : v ≠ 0) (h4 : v ≠ 4 * A.k) :
    tEnd1 A (A.neg v) = A.neg (tEnd1 A v) ∧ tEnd2 A (A.neg v) = A.neg (tEnd2 A v) ∧ IsPat A (tEnd1 A v) ∧ IsPat A (tEnd2 A v) ∧
    tEnd1 A v % 2 = 0 ∧ tEnd2 A v % 2 = 0 := by
  have en : A.neg v = 8 * A.k - v := by rw [neg_eq hv, if_neg h0]
  unfold tEnd1 tEnd2
  rw [isExact_neg hv]
  cases hb : Alphabet.isExact v with
  | true =>
    have he := isExact_iff.mp hb
    simp only [if_true]
    exact ⟨trivial, trivial, hv, hv, he, he⟩
  | false =>
    have he : v % 2 = 1 := by
      have : ¬ v % 2 = 0 := fun hc => by rw [isExact_iff.mpr hc] at hb; cases hb
      omega
    have en1 : A.next v % 2 = 0 := by rw [next_eq hv]; split_ifs <;> omega
    have ep1 : A.prev v % 2 = 0 := by rw [prev_eq hv]; split_ifs <;> omega
    simp only [Bool.false_eq_true, if_false]
    by_cases hl : v > 4 * A.k
    · rw [if_pos hl, if_pos hl, if_neg (by omega), if_neg (by omega), next_neg h hv, prev_neg h hv]
      exact ⟨rfl, rfl, isPat_next h v, isPat_prev h v, en1, ep1⟩
    · rw [if_neg hl, if_neg hl, if_pos (by omega), if_pos (by omega), next_neg h hv, prev_neg h hv]
      exact ⟨rfl, rfl, isPat_prev h v, isPat_next h v, ep1, en1⟩

theorem exactTimes_neg (h : Table A) {fl : ℚ → M ℚ} {v w : ℤ} (hv : IsPat A v) (hw : IsPat A w) (ev : v % 2 = 0) (ew : w % 2 = 0) :
    A.exactTimes fl (A.neg v) (A.neg w) = A.exactTimes fl v w := by
  unfold Alphabet.exactTimes
  rw [exactValue_neg h hv ev, exactValue_neg h hw ew]
  cases A.exactValue v <;> cases A.exactValue w <;> simp [pneg]

/-- **C73**: negating both operands does not change a product -/
theorem C73_times_neg_neg (h : Table A) {fl : ℚ → M ℚ} {v w : ℤ} (hv : IsPat A v) (hw : IsPat A w) :
    A.slowTimes fl (A.neg v) (A.neg w) = A.slowTimes fl v w := by
  have hk := h.kpos
  have n0 : ∀ {u : ℤ}, IsPat A u → Alphabet.isZero (A.neg u) = Alphabet.isZero u := by
    intro u hu
    unfold Alphabet.isZero
    rw [Bool.eq_iff_iff, beq_iff_eq, beq_iff_eq, neg_eq hu]
    unfold IsPat at hu
    split_ifs <;> omega
  have n4 : ∀ {u : ℤ}, IsPat A u → A.isInf (A.neg u) = A.isInf u := by
    intro u hu
    unfold Alphabet.isInf
    rw [Bool.eq_iff_iff, beq_iff_eq, beq_iff_eq, neg_eq hu, n2_half]
    unfold IsPat at hu
    split_ifs <;> omega
  by_cases c : v ≠ 0 ∧ w ≠ 0 ∧ v ≠ 4 * A.k ∧ w ≠ 4 * A.k
  · obtain ⟨v0, w0, v4, w4⟩ := c
    obtain ⟨a1, a2, a3, a4, a5, a6⟩ := tEnd_neg h hv v0 v4
    obtain ⟨b1, b2, b3, b4, b5, b6⟩ := tEnd_neg h hw w0 w4
    have nv0 : A.neg v ≠ 0 := by rw [neg_eq hv, if_neg v0]; unfold IsPat at hv; omega
    have nw0 : A.neg w ≠ 0 := by rw [neg_eq hw, if_neg w0]; unfold IsPat at hw; omega
    have nv4 : A.neg v ≠ 4 * A.k := by rw [neg_eq hv, if_neg v0]; omega
    have nw4 : A.neg w ≠ 4 * A.k := by rw [neg_eq hw, if_neg w0]; omega
    have e1 := exactTimes_neg h (fl := fl) a3 b3 a5 b5
    have e2 := exactTimes_neg h (fl := fl) a4 b4 a6 b6
    rw [← a1, ← b1] at e1
    rw [← a2, ← b2] at e2
    rw [slowTimes_eq v4 w4 v0 w0, slowTimes_eq nv4 nw4 nv0 nw0, e1, e2, isExact_neg hv, isExact_neg hw]
  · unfold Alphabet.slowTimes
    rw [n0 hv, n0 hw, n4 hv, n4 hw]
    have : (((A.isInf v && Alphabet.isZero w) || (Alphabet.isZero v && A.isInf w)) || ((A.isInf v || A.isInf w)) || (Alphabet.isZero v || Alphabet.isZero w)) = true := by
      unfold Alphabet.isInf Alphabet.isZero
      rw [n2_half]
      simp only [Bool.or_eq_true, Bool.and_eq_true, beq_iff_eq]
      tauto
    cases h1 : A.isInf v <;> cases h2 : A.isInf w <;> cases h3 : Alphabet.isZero v <;> cases h4 : Alphabet.isZero w <;>
      rw [h1, h2, h3, h4] at this <;> first | rfl | cases this

example : p4.neg 13 = 19 ∧ p4.neg 7 = 25 ∧ p4.slowTimes .ok 13 7 = p4.slowTimes .ok 19 25 ∧
    p4.slowTimes .ok 13 7 = .ok ⟨false, 11, 15⟩ := by decide +kernel

/-- **C73**, partial: a product contains the products of all members of its operands, if both operands are exact numbers or have
the same sign, or one is 0 or infinity — products of numbers of different signs are missing unless both are exact, see
`C73_times_wrong`. -/
theorem C73_times_partial (h : Table A) {fl : ℚ → M ℚ} (hf : ∀ i j : ℤ, -(2 * A.k : ℤ) < i → i < 2 * A.k → -(2 * A.k : ℤ) < j →
    j < 2 * A.k → fl (pt A i * pt A j) = .ok (pt A i * pt A j)) {v w : ℤ} (hv : IsPat A v) (hw : IsPat A w)
    (hs : (v % 2 = 0 ∧ w % 2 = 0) ∨ v = 0 ∨ w = 0 ∨ v = 4 * A.k ∨ w = 4 * A.k ∨ (v < 4 * A.k ↔ w < 4 * A.k)) :
    ∀ x y z, Mem A v x → Mem A w y → PMul x y z → ∃ r, A.slowTimes fl v w = .ok r ∧ r.Has A z := by
  have hk := h.kpos
  have pinf : IsPat A (4 * A.k) := ⟨by omega, by omega⟩
  have pz : IsPat A 0 := ⟨le_rfl, by omega⟩
  have ii : ∀ u : ℤ, A.isInf u = decide (u = 4 * A.k) := by
    intro u; unfold Alphabet.isInf; rw [n2_half, Bool.eq_iff_iff]; simp
  have zz : ∀ u : ℤ, Alphabet.isZero u = decide (u = 0) := by
    intro u; unfold Alphabet.isZero; rw [Bool.eq_iff_iff]; simp
  have m0 : ∀ q : ℚ, ∀ u, IsPat A u → Mem A u (some q) → (q = 0 ↔ u = 0) := by
    intro q u hu hq
    constructor
    · rintro rfl; exact mem_unique h hu pz hq (mem_zero.mpr hk)
    · rintro rfl
      have e := (C72_exactValue h pz rfl _).mp hq
      have e2 := (C72_exactValue h pz rfl _).mp (mem_zero.mpr hk)
      exact Option.some.inj (e.trans e2.symm)
  intro x y z hx hy hz
  have inf_case : ∀ {u t : ℤ}, (u = 4 * A.k ∧ t ≠ 0) ∨ (t = 4 * A.k ∧ u ≠ 0) → A.slowTimes fl u t = .ok (Pbound.single A.inf) := by
    intro u t hut
    unfold Alphabet.slowTimes
    rw [ii, ii, zz, zz]
    rcases hut with ⟨rfl, g⟩ | ⟨rfl, g⟩
    · have : ¬ (4 * (A.k : ℤ) = 0) := by omega
      simp [g, this]; rfl
    · have : ¬ (4 * (A.k : ℤ) = 0) := by omega
      simp [g, this]; rfl
  have all_case : ∀ {u t : ℤ}, (u = 4 * A.k ∧ t = 0) ∨ (t = 4 * A.k ∧ u = 0) → A.slowTimes fl u t = .ok (Pbound.everything A) := by
    intro u t hut
    unfold Alphabet.slowTimes
    rw [ii, ii, zz, zz]
    rcases hut with ⟨rfl, g⟩ | ⟨rfl, g⟩
    · simp [g]; rfl
    · simp [g]; rfl
  have hasinf : (Pbound.single A.inf).Has A none := by rw [inf_eq h]; exact (has_single pinf _).mpr rfl
  cases x with
  | none =>
    have ev : v = 4 * A.k := hx
    cases y with
    | none =>
      have ew : w = 4 * A.k := hy
      have hz : z = none := hz
      subst hz
      exact ⟨_, inf_case (Or.inl ⟨ev, by omega⟩), hasinf⟩
    | some y =>
      by_cases hw0 : w = 0
      · exact ⟨_, all_case (Or.inl ⟨ev, hw0⟩), has_everything h z⟩
      · have hz : y = 0 ∨ z = none := hz
        have := hz.resolve_left (fun hc => hw0 ((m0 y w hw hy).mp hc))
        subst this
        exact ⟨_, inf_case (Or.inl ⟨ev, hw0⟩), hasinf⟩
  | some x =>
    cases y with
    | none =>
      have ew : w = 4 * A.k := hy
      by_cases hv0 : v = 0
      · exact ⟨_, all_case (Or.inr ⟨ew, hv0⟩), has_everything h z⟩
      · have hz : x = 0 ∨ z = none := hz
        have := hz.resolve_left (fun hc => hv0 ((m0 x v hv hx).mp hc))
        subst this
        exact ⟨_, inf_case (Or.inr ⟨ew, hv0⟩), hasinf⟩
    | some y =>
      have hz : z = some (x * y) := hz
      subst hz
      by_cases h0 : v = 0 ∨ w = 0
      · refine ⟨Pbound.single A.zero, ?_, ?_⟩
        · have a := hx.1
          have b := hy.1
          unfold Alphabet.slowTimes
          rw [ii, ii, zz, zz]
          have kk : A.k ≠ 0 := by omega
          rcases h0 with g | g <;> simp [g, a, b, kk] <;> rfl
        · have : x * y = 0 := by
            rcases h0 with g | g
            · rw [(m0 x v hv hx).mpr g, zero_mul]
            · rw [(m0 y w hw hy).mpr g, mul_zero]
          rw [this]
          exact (has_single pz _).mpr (mem_zero.mpr hk)
      push Not at h0
      obtain ⟨v0, w0⟩ := h0
      by_cases hb : (Alphabet.isExact v && Alphabet.isExact w) = true
      · rw [Bool.and_eq_true] at hb
        obtain ⟨bv, bw⟩ := hb
        obtain ⟨i, i1, i2, i3, i4, -⟩ := exact_end h hv (isExact_iff.mp bv) hx
        obtain ⟨j, j1, j2, j3, j4, -⟩ := exact_end h hw (isExact_iff.mp bw) hy
        have e := exactTimes_some i1 j1 (hf i j i3 i4 j3 j4)
        rw [← i2, ← j2] at e
        have t1 : ∀ {u : ℤ}, Alphabet.isExact u = true → tEnd1 A u = u ∧ tEnd2 A u = u := by
          intro u hu; unfold tEnd1 tEnd2; rw [hu]; exact ⟨rfl, rfl⟩
        refine ⟨_, slowTimes_main hx.1 hy.1 v0 w0 (by rw [(t1 bv).1, (t1 bw).1]; exact e) (by rw [(t1 bv).2, (t1 bw).2]; exact e), ?_⟩
        obtain ⟨p, q⟩ := searchValue_mem h (x * y)
        simp only [bv, bw, Bool.and_self, Bool.not_true, Bool.false_and, Bool.false_eq_true, if_false]
        exact (has_single p _).mpr q
      have v4 := hx.1
      have w4 := hy.1
      have hs' : v < 4 * A.k ↔ w < 4 * A.k := by
        rcases hs with ⟨g1, g2⟩ | hs | hs | hs | hs | hs
        · rw [isExact_iff.mpr g1, isExact_iff.mpr g2] at hb; exact absurd rfl hb
        · exact absurd hs v0
        · exact absurd hs w0
        · exact absurd hs v4
        · exact absurd hs w4
        · exact hs
      by_cases hp : v < 4 * A.k
      · have := hs'.mp hp
        unfold IsPat at hv hw
        exact times_pos h hf (by omega) hp (by omega) this hb hx hy
      · have hq : ¬ w < 4 * A.k := fun hc => hp (hs'.mpr hc)
        rw [← C73_times_neg_neg h hv hw]
        have mx := mem_neg h hv hx
        have my := mem_neg h hw hy
        have nv : A.neg v = 8 * A.k - v := by rw [neg_eq hv, if_neg v0]
        have nw : A.neg w = 8 * A.k - w := by rw [neg_eq hw, if_neg w0]
        have hb' : ¬ (Alphabet.isExact (A.neg v) && Alphabet.isExact (A.neg w)) = true := by rwa [isExact_neg hv, isExact_neg hw]
        unfold IsPat at hv hw
        have := times_pos h hf (by omega) (by omega) (by omega) (by omega) hb' mx my
        rwa [neg_mul_neg] at this

example : Table p2 ∧ p2.slowTimes .ok 5 5 = .ok ⟨false, 5, 7⟩ ∧ p2.slowTimes .ok 4 13 = .ok ⟨false, 15, 13⟩ ∧
    p2.slowTimes .ok 12 6 = .ok ⟨false, 10, 10⟩ := by
  refine ⟨table_p2, by decide +kernel, by decide +kernel, by decide +kernel⟩

/-- **C73** fails for different signs: the highest interval times the one below 0 leaves out the product -1 of members, for every
table. -/
theorem C73_times_wrong (h : Table A) {fl : ℚ → M ℚ} (hf : fl 0 = .ok 0) :
    A.slowTimes fl (4 * A.k - 1) (8 * A.k - 1) = .ok ⟨false, 1, 4 * A.k + 1⟩ ∧
    ∃ x y, Mem A (4 * A.k - 1) (some x) ∧ Mem A (8 * A.k - 1) (some y) ∧ x * y = -1 ∧
      ¬ Pbound.Has A ⟨false, 1, 4 * A.k + 1⟩ (some (-1)) := by
  have hk := h.kpos
  have pa : IsPat A (4 * A.k - 1) := ⟨by omega, by omega⟩
  have pb : IsPat A (8 * A.k - 1) := ⟨by omega, by omega⟩
  have pi : IsPat A (4 * A.k) := ⟨by omega, by omega⟩
  have p0 : IsPat A 0 := ⟨le_rfl, by omega⟩
  have p1 : IsPat A 1 := ⟨by omega, by omega⟩
  have ea : Alphabet.isExact (4 * A.k - 1 : ℤ) = false := by unfold Alphabet.isExact; simp; omega
  have eb : Alphabet.isExact (8 * A.k - 1 : ℤ) = false := by unfold Alphabet.isExact; simp; omega
  have ei : Alphabet.isExact (4 * A.k : ℤ) = true := by unfold Alphabet.isExact; simp; omega
  have ni : A.next (4 * A.k) = 4 * A.k + 1 := by rw [next_eq pi, if_neg (by omega)]
  have n0 : A.next 0 = 1 := by rw [next_eq p0, if_neg (by omega)]; rfl
  have vi : A.exactValue (4 * A.k) = none := by rw [exactValue_eq h pi (by omega), if_pos rfl]
  have v0 : A.exactValue 0 = some 0 := ((C72_exactValue h p0 rfl _).mp (mem_zero.mpr hk)).symm
  have a1 : tEnd1 A (4 * A.k - 1) = 4 * A.k - 2 := by
    unfold tEnd1; rw [ea, if_neg (by decide), if_neg (by omega), prev_eq pa, if_neg (by omega)]; ring
  have a2 : tEnd2 A (4 * A.k - 1) = 4 * A.k := by
    unfold tEnd2; rw [ea, if_neg (by decide), if_neg (by omega), next_eq pa, if_neg (by omega)]; ring
  have b1 : tEnd1 A (8 * A.k - 1) = 0 := by
    unfold tEnd1; rw [eb, if_neg (by decide), if_pos (by omega), next_eq pb, if_pos rfl]
  have pc : IsPat A (4 * A.k - 2) := ⟨by omega, by omega⟩
  have vc : A.exactValue (4 * A.k - 2) = some (pt A (2 * A.k - 1)) := by
    rw [exactValue_eq h pc (by omega), if_neg (by omega), steps_pos (by omega)]
    congr 2; omega
  have t1 : A.exactTimes fl (4 * A.k - 2) 0 = .ok 0 := by
    rw [exactTimes_some vc v0 (by rw [mul_zero]; exact hf), mul_zero]; rfl
  have e0 : Alphabet.isExact 0 = true := rfl
  refine ⟨?_, ?_⟩
  · rw [slowTimes_main (z1 := 0) (z2 := A.inf) (by omega) (by omega) (by omega) (by omega)]
    · rw [ea, eb, inf_eq h, ei, ni, e0, n0]; rfl
    · rw [a1, b1]; exact t1
    · rw [a2]; exact exactTimes_none (Or.inl vi)
  · have top : 1 ≤ pt A (2 * A.k - 1) := by rw [← pt_one h]; exact pt_le h (by omega) (by omega) (by omega)
    have ma : Mem A (4 * A.k - 1) (some (2 * pt A (2 * A.k - 1))) := by
      refine mem_odd (by omega) (by omega) (by omega) ?_ (Or.inl rfl)
      have : (4 * (A.k : ℤ) - 1) / 2 = 2 * A.k - 1 := by omega
      rw [this]; linarith
    have mi := mem_neg h (isPat_inv h _) (mem_inv h pa ma)
    have ie : A.inv (4 * A.k - 1) = 1 := by rw [inv_eq pa, if_pos (by omega)]; ring
    have ne : A.neg 1 = 8 * A.k - 1 := by rw [neg_eq p1, if_neg (by omega)]
    rw [ie, ne] at mi
    have hn : 2 * pt A (2 * A.k - 1) ≠ 0 := by linarith
    have pe : pinv (some (2 * pt A (2 * A.k - 1))) = some (1 / (2 * pt A (2 * A.k - 1))) := by unfold pinv; exact if_neg hn
    rw [pe] at mi
    refine ⟨_, _, ma, mi, by rw [mul_neg, mul_one_div_cancel hn], ?_⟩
    rintro ⟨-, u, hu, ha, hm⟩
    have m1 : Mem A (2 * A.k) (some 1) := mem_even (by omega) (by omega) (by omega) (by
      have : (2 * (A.k : ℤ)) / 2 = A.k := by omega
      rw [this, pt_one h])
    have p2 : IsPat A (2 * A.k) := ⟨by omega, by omega⟩
    have mn := mem_neg h p2 m1
    have := mem_unique h hu (isPat_neg h _) hm mn
    rw [neg_eq p2, if_neg (by omega)] at this
    subst this
    have ha : InArc A 1 (4 * A.k + 1) (8 * A.k - 2 * A.k) := ha
    rw [inArc_iff p1 ⟨by omega, by omega⟩ hu, if_pos (by omega)] at ha
    omega

example : p8.slowTimes .ok 31 63 = .ok ⟨false, 1, 33⟩ := by decide +kernel

end Pnum
end Verif
