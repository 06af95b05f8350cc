import Verif.Lemmas.PnumReal
import Verif.Props.PnumBound
import Verif.Props.PnumFun
import Mathlib.NumberTheory.Real.Irrational

/-!
# C133: real members of projective numbers and bounds
-/

namespace Verif
namespace Pnum

open Topology

variable {A : Alphabet}

/-- **C133**: every real number and infinity belong to exactly one pattern. -/
theorem C133_partition (h : Table A) (x : Option ℝ) : ∃! v, IsPat A v ∧ MemR A v x := by
  obtain ⟨v, hv, hx⟩ := memR_exists h x
  exact ⟨v, ⟨hv, hx⟩, fun w hw => memR_unique h hw.1 hv hw.2 hx⟩

/-- `√2` belongs to the interval from 1 to 2 -/
theorem mem_sqrt_two : MemR p2 5 (some √2) := by
  have e : steps p2 5 = 5 := by decide +kernel
  have e1 : pt p2 2 = 1 := by decide +kernel
  have e2 : pt p2 3 = 2 := by decide +kernel
  have h1 : (1 : ℝ) < √2 := by rw [Real.lt_sqrt (by norm_num)]; norm_num
  have h2 : √2 < (2 : ℝ) := by rw [Real.sqrt_lt' (by norm_num)]; norm_num
  refine ⟨by decide, ?_⟩
  rw [e, if_neg (by decide), show (5 : ℤ) / 2 = 2 by decide, show (2 : ℤ) + 1 = 3 by decide, e1, e2]
  exact ⟨Or.inr (by exact_mod_cast h1), Or.inr (by exact_mod_cast h2)⟩

example : Table p2 ∧ IsPat p2 5 ∧ MemR p2 5 (some √2) ∧ Irrational √2 := ⟨table_p2, ⟨by decide, by decide⟩, mem_sqrt_two, irrational_sqrt_two⟩

/-- a continuous map of a member: if rational members go to rational members, real ones go to real ones -/
theorem near_map (h : Table A) {v w : ℤ} (hw : IsPat A w) {f : ℝ → ℝ} {g : ℚ → ℚ} (hfg : ∀ q : ℚ, f q = g q) {x : ℝ}
    (hr : ∀ z : ℚ, f x = z → ∃ q : ℚ, x = q) (hc : ContinuousAt f x) (hx : MemR A v (some x))
    (hm : ∀ q : ℚ, Mem A v (some q) → (0 < x → 0 < q) → (x < 0 → q < 0) → Mem A w (some (g q))) : MemR A w (some (f x)) := by
  obtain ⟨u, hu, hz⟩ := memR_exists h (some (f x))
  have key : ∃ q : ℚ, Mem A v (some q) ∧ (0 < x → 0 < q) ∧ (x < 0 → q < 0) ∧ Mem A u (some (g q)) := by
    rcases Int.emod_two_eq_zero_or_one u with he | ho
    · obtain ⟨z, ez⟩ := memR_even he hz
      obtain ⟨q, rfl⟩ := hr z ez
      refine ⟨q, memR_cast.mp hx, fun hq => by exact_mod_cast hq, fun hq => by exact_mod_cast hq, ?_⟩
      rw [← memR_cast, ← hfg]; exact hz
    · have hs : {t : ℝ | (0 < x → 0 < t) ∧ (x < 0 → t < 0)} ∈ 𝓝 x := by
        rcases lt_trichotomy x 0 with h0 | h0 | h0
        · exact Filter.mem_of_superset (Iio_mem_nhds h0) fun t ht => ⟨fun hh => absurd hh h0.not_gt, fun _ => ht⟩
        · simp [h0]
        · exact Filter.mem_of_superset (Ioi_mem_nhds h0) fun t ht => ⟨fun _ => ht, fun hh => absurd hh h0.not_gt⟩
      obtain ⟨q, ⟨hq, hs⟩, hm⟩ := memR_near hx (Filter.inter_mem (hc (memR_nhds ho hz)) hs)
      refine ⟨q, hm, fun hh => by exact_mod_cast hs.1 hh, fun hh => by exact_mod_cast hs.2 hh, ?_⟩
      rw [← memR_cast, ← hfg]; exact hq
  obtain ⟨q, q1, q2, q3, q4⟩ := key
  obtain rfl := mem_unique h hw hu (hm q q1 q2 q3) q4
  exact hz

theorem memR_neg (h : Table A) {v : ℤ} (hv : IsPat A v) {x : Option ℝ} (hx : MemR A v x) : MemR A (A.neg v) (rneg x) := by
  cases x with
  | none => exact mem_neg h hv (x := none) hx
  | some x =>
    exact near_map h (isPat_neg h v) (f := fun t => -t) (g := fun t => -t) (fun q => by push_cast; rfl)
      (fun z hz => ⟨-z, by push_cast; linarith⟩) continuous_neg.continuousAt hx fun q hq _ _ => mem_neg h hv hq

theorem memR_inv (h : Table A) {v : ℤ} (hv : IsPat A v) {x : Option ℝ} (hx : MemR A v x) : MemR A (A.inv v) (rinv x) := by
  cases x with
  | none =>
    have := mem_inv h hv (x := none) hx
    show MemR A (A.inv v) (some 0)
    rw [← Rat.cast_zero, memR_cast]; exact this
  | some x =>
    by_cases x0 : x = 0
    · subst x0
      rw [← Rat.cast_zero, memR_cast] at hx
      have := mem_inv h hv hx
      show MemR A (A.inv v) (if (0 : ℝ) = 0 then none else _)
      rw [if_pos rfl]
      exact memR_none.mpr (by simpa [pinv] using this)
    · show MemR A (A.inv v) (if x = 0 then none else some (1 / x))
      rw [if_neg x0]
      refine near_map h (isPat_inv h v) (f := fun t => 1 / t) (g := fun t => 1 / t) (fun q => by push_cast; rfl) (fun z hz => ?_)
        (ContinuousAt.div continuousAt_const continuousAt_id x0) hx fun q hq h1 h2 => ?_
      · refine ⟨1 / z, ?_⟩
        push_cast
        rw [← hz, one_div_one_div]
      · have q0 : q ≠ 0 := by
          rcases lt_or_gt_of_ne x0 with hx0 | hx0
          · exact (h2 hx0).ne
          · exact (h1 hx0).ne'
        have := mem_inv h hv hq
        simpa [pinv, q0] using this

theorem rneg_rneg (x : Option ℝ) : rneg (rneg x) = x := by cases x <;> simp [rneg]

theorem rinv_rinv (x : Option ℝ) : rinv (rinv x) = x := by
  cases x with
  | none => simp [rinv]
  | some x =>
    by_cases h : x = 0
    · simp [rinv, h]
    · simp [rinv, h]

/-- **C133**: `-p` stands for the negatives and `~p` for the reciprocals of the real numbers `p` stands for. -/
theorem C133_neg_inv (h : Table A) {v : ℤ} (hv : IsPat A v) (x : Option ℝ) :
    (MemR A (A.neg v) (rneg x) ↔ MemR A v x) ∧ (MemR A (A.inv v) (rinv x) ↔ MemR A v x) := by
  refine ⟨⟨fun hx => ?_, memR_neg h hv⟩, ⟨fun hx => ?_, memR_inv h hv⟩⟩
  · have := memR_neg h (isPat_neg h v) hx
    rwa [rneg_rneg, neg_neg_pat h hv] at this
  · have := memR_inv h (isPat_inv h v) hx
    rwa [rinv_rinv, inv_inv_pat h hv] at this

example : Table p2 ∧ IsPat p2 5 ∧ MemR p2 5 (some √2) := ⟨table_p2, ⟨by decide, by decide⟩, mem_sqrt_two⟩

/-- a number returned by `+` is one of the operands -/
theorem plus_num {fl : ℚ → M ℚ} {v w u : ℤ} (hr : A.slowPlus fl v w = .ok (.num u)) : u = v ∨ u = w := by
  unfold Alphabet.slowPlus at hr
  by_cases c1 : (A.isInf v && A.isInf w) = true
  · rw [if_pos c1] at hr; simp [pure, Except.pure] at hr
  · rw [if_neg c1] at hr
    by_cases c2 : (A.isInf v || A.isInf w) = true
    · rw [if_pos c2] at hr; simp [pure, Except.pure] at hr
    · rw [if_neg c2] at hr
      by_cases c3 : Alphabet.isZero v = true
      · rw [if_pos c3] at hr; simp [pure, Except.pure] at hr; exact Or.inr hr.symm
      · rw [if_neg c3] at hr
        by_cases c4 : Alphabet.isZero w = true
        · rw [if_pos c4] at hr; simp [pure, Except.pure] at hr; exact Or.inl hr.symm
        · rw [if_neg c4] at hr
          simp only [bind, Except.bind, pure, Except.pure] at hr
          split at hr <;> simp at hr
          split at hr <;> simp at hr

theorem resR_of (h : Table A) {fl : ℚ → M ℚ} {v w : ℤ} (hv : IsPat A v) (hw : IsPat A w) {r : Res} (hr : A.slowPlus fl v w = .ok r)
    {u : ℤ} (hu : IsPat A u) {q : Option ℚ} {z : Option ℝ} (hb : r.Has A q) (hq : Mem A u q) (hz : MemR A u z) : r.HasR A z := by
  cases r with
  | bound b => exact hasR_of h hu hb hq hz
  | num p =>
    have hp : IsPat A p := by rcases plus_num hr with rfl | rfl <;> assumption
    obtain rfl := mem_unique h hp hu hb hq
    exact hz

/-- **C133**: the result of `+` holds every sum of real members of the operands, infinity plus infinity holding everything. -/
theorem C133_plus_partial (h : Table A) {fl : ℚ → M ℚ} (hf : ∀ i j : ℤ, -(2 * A.k : ℤ) < i → i < 2 * A.k → -(2 * A.k : ℤ) < j →
    j < 2 * A.k → fl (pt A i + pt A j) = .ok (pt A i + pt A j)) {v w : ℤ} (hv : IsPat A v) (hw : IsPat A w)
    (h1 : ¬ (v = 4 * A.k - 1 ∧ w = 4 * A.k + 1)) (h2 : ¬ (v = 4 * A.k + 1 ∧ w = 4 * A.k - 1)) :
    ∀ x y z, MemR A v x → MemR A w y → RAdd x y z → ∃ r, A.slowPlus fl v w = .ok r ∧ r.HasR A z := by
  intro x y z hx hy hz
  obtain ⟨u, hu, hm⟩ := memR_exists h z
  have key : ∃ p q t, Mem A v p ∧ Mem A w q ∧ Mem A u t ∧ PAdd p q t := by
    cases x with
    | none =>
      cases y with
      | none =>
        obtain ⟨t, ht, -⟩ := memR_sample hm
        exact ⟨none, none, t, hx, hy, ht, trivial⟩
      | some y =>
        obtain ⟨q, -, hq⟩ := memR_near hy Filter.univ_mem
        obtain rfl : z = none := hz
        exact ⟨none, some q, none, hx, hq, hm, rfl⟩
    | some x =>
      cases y with
      | none =>
        obtain ⟨q, -, hq⟩ := memR_near hx Filter.univ_mem
        obtain rfl : z = none := hz
        exact ⟨some q, none, none, hq, hy, hm, rfl⟩
      | some y =>
        obtain rfl : z = some (x + y) := hz
        obtain ⟨p, q, hp, hq, ht⟩ := near_add hx hy hm
        exact ⟨some p, some q, some (p + q), hp, hq, ht, rfl⟩
  obtain ⟨p, q, t, hp, hq, ht, hs⟩ := key
  obtain ⟨r, hr, hb⟩ := C73_plus_partial h hf hv hw h1 h2 p q t hp hq hs
  exact ⟨r, hr, resR_of h hv hw hr hu hb ht hm⟩

example : Table p2 ∧ IsPat p2 5 ∧ MemR p2 5 (some √2) ∧ RAdd (some √2) (some √2) (some (√2 + √2)) ∧
    p2.slowPlus .ok 5 5 = .ok (.bound ⟨false, 7, 7⟩) :=
  ⟨table_p2, ⟨by decide, by decide⟩, mem_sqrt_two, rfl, by decide +kernel⟩

/-- **C133**: the same for differences. -/
theorem C133_sub_partial (h : Table A) {fl : ℚ → M ℚ} (hf : ∀ i j : ℤ, -(2 * A.k : ℤ) < i → i < 2 * A.k → -(2 * A.k : ℤ) < j →
    j < 2 * A.k → fl (pt A i + pt A j) = .ok (pt A i + pt A j)) {v w : ℤ} (hv : IsPat A v) (hw : IsPat A w)
    (h1 : ¬ (v = 4 * A.k - 1 ∧ w = 4 * A.k - 1)) (h2 : ¬ (v = 4 * A.k + 1 ∧ w = 4 * A.k + 1)) :
    ∀ x y z, MemR A v x → MemR A w y → RAdd x (rneg y) z → ∃ r, A.sub fl v w = .ok r ∧ r.HasR A z := by
  intro x y z hx hy hz
  have hk := h.kpos
  refine C133_plus_partial h hf hv (isPat_neg h w) ?_ ?_ x (rneg y) z hx (memR_neg h hw hy) hz
  · rw [neg_eq hw]; unfold IsPat at hw; split_ifs <;> omega
  · rw [neg_eq hw]; unfold IsPat at hw; split_ifs <;> omega

example : Table p2 ∧ IsPat p2 5 ∧ MemR p2 5 (some √2) ∧ RAdd (some √2) (rneg (some √2)) (some (√2 + -√2)) :=
  ⟨table_p2, ⟨by decide, by decide⟩, mem_sqrt_two, rfl⟩

/-- **C133**: the result of `*` holds every product of real members of the operands, zero times infinity holding everything, unless
the signs differ and one is an interval. -/
theorem C133_times_partial (h : Table A) {fl : ℚ → M ℚ} (hf : ∀ i j : ℤ, -(2 * A.k : ℤ) < i → i < 2 * A.k → -(2 * A.k : ℤ) < j →
    j < 2 * A.k → fl (pt A i * pt A j) = .ok (pt A i * pt A j)) {v w : ℤ} (hv : IsPat A v) (hw : IsPat A w)
    (hs : (v % 2 = 0 ∧ w % 2 = 0) ∨ v = 0 ∨ w = 0 ∨ v = 4 * A.k ∨ w = 4 * A.k ∨ (v < 4 * A.k ↔ w < 4 * A.k)) :
    ∀ x y z, MemR A v x → MemR A w y → RMul x y z → ∃ r, A.slowTimes fl v w = .ok r ∧ r.HasR A z := by
  intro x y z hx hy hz
  obtain ⟨u, hu, hm⟩ := memR_exists h z
  have key : ∃ p q t, Mem A v p ∧ Mem A w q ∧ Mem A u t ∧ PMul p q t := by
    cases x with
    | none =>
      cases y with
      | none =>
        obtain rfl : z = none := hz
        exact ⟨none, none, none, hx, hy, hm, rfl⟩
      | some y =>
        rcases (show y = 0 ∨ z = none from hz) with rfl | rfl
        · obtain ⟨t, ht, -⟩ := memR_sample hm
          exact ⟨none, some 0, t, hx, memR_cast.mp (by simpa using hy), ht, Or.inl rfl⟩
        · obtain ⟨q, -, hq⟩ := memR_near hy Filter.univ_mem
          exact ⟨none, some q, none, hx, hq, hm, Or.inr rfl⟩
    | some x =>
      cases y with
      | none =>
        rcases (show x = 0 ∨ z = none from hz) with rfl | rfl
        · obtain ⟨t, ht, -⟩ := memR_sample hm
          exact ⟨some 0, none, t, memR_cast.mp (by simpa using hx), hy, ht, Or.inl rfl⟩
        · obtain ⟨q, -, hq⟩ := memR_near hx Filter.univ_mem
          exact ⟨some q, none, none, hq, hy, hm, Or.inr rfl⟩
      | some y =>
        obtain rfl : z = some (x * y) := hz
        obtain ⟨p, q, hp, hq, ht⟩ := near_mul hx hy hm
        exact ⟨some p, some q, some (p * q), hp, hq, ht, rfl⟩
  obtain ⟨p, q, t, hp, hq, ht, hs'⟩ := key
  obtain ⟨r, hr, hb⟩ := C73_times_partial h hf hv hw hs p q t hp hq hs'
  exact ⟨r, hr, hasR_of h hu hb ht hm⟩

example : Table p2 ∧ IsPat p2 5 ∧ MemR p2 5 (some √2) ∧ RMul (some √2) (some √2) (some (√2 * √2)) ∧
    p2.slowTimes .ok 5 5 = .ok ⟨false, 5, 7⟩ :=
  ⟨table_p2, ⟨by decide, by decide⟩, mem_sqrt_two, rfl, by decide +kernel⟩

/-- a bound holds a real number if and only if it holds a rational member of its pattern -/
theorem hasR_iff (h : Table A) {b : Pbound} {u : ℤ} (hu : IsPat A u) {q : Option ℚ} {x : Option ℝ} (hq : Mem A u q) (hx : MemR A u x) :
    b.HasR A x ↔ b.Has A q := by
  refine ⟨fun hb => ?_, fun hb => hasR_of h hu hb hq hx⟩
  obtain ⟨he, v, hv, ha, hm⟩ := hb
  obtain rfl := memR_unique h hv hu hm hx
  exact ⟨he, v, hv, ha, hq⟩

/-- **C133**: the complement of a bound holds exactly the other real numbers, unless the bound is everything written in another way. -/
theorem C133_complement_partial (h : Table A) {b : Pbound} (hb : b.Ok A) (he : b.empty = true ∨ A.next b.last ≠ b.first)
    (x : Option ℝ) : (b.complement A).HasR A x ↔ ¬ b.HasR A x := by
  obtain ⟨u, hu, hx⟩ := memR_exists h x
  obtain ⟨q, hq, -⟩ := memR_sample hx
  rw [hasR_iff h hu hq hx, hasR_iff h hu hq hx]
  exact C74_complement_partial h hb he q

/-- **C133**: `~b` holds exactly the reciprocals of the real numbers of a bound that is not empty. -/
theorem C133_invert_partial (h : Table A) {b : Pbound} (hb : b.Ok A) (hem : b.empty = false) (x : Option ℝ) :
    (b.invert A).HasR A (rinv x) ↔ b.HasR A x := by
  obtain ⟨u, hu, hx⟩ := memR_exists h x
  obtain ⟨q, hq, -⟩ := memR_sample hx
  rw [hasR_iff h hu hq hx, hasR_iff h (isPat_inv h u) (mem_inv h hu hq) (memR_inv h hu hx)]
  exact C74_invert_partial h hb hem q

example : Table p2 ∧ Pbound.Ok p2 ⟨false, 5, 5⟩ ∧ p2.next 5 ≠ 5 ∧ Pbound.HasR p2 ⟨false, 5, 5⟩ (some √2) :=
  ⟨table_p2, ⟨⟨by decide, by decide⟩, ⟨by decide, by decide⟩⟩, by decide, rfl, 5, ⟨by decide, by decide⟩, by unfold InArc; decide, mem_sqrt_two⟩

/-- **C133**: the square root of a positive interval holds the square root of every real member, if the computed roots lie on the right
side of the exact numbers. -/
theorem C133_sqrt_partial (h : Table A) {rt : ℚ → Except FunErr ℚ} (hs : Sided A rt) {v : ℤ} (h0 : 0 < v) (h4 : v < 4 * A.k)
    (ho : v % 2 = 1) : ∃ b, sqrt A rt v = .ok b ∧ ∀ x : ℝ, MemR A v (some x) → 0 < x ∧ b.HasR A (some √x) := by
  obtain ⟨b, hb, hc⟩ := C131_sqrt_partial h hs h0 h4 ho
  refine ⟨b, hb, fun x hx => ?_⟩
  have x0 : 0 < x := by
    by_contra hn
    rcases (not_lt.mp hn).lt_or_eq with hl | rfl
    · obtain ⟨q, q0, hq⟩ := memR_near hx (Iio_mem_nhds hl)
      have := (mem_inv_pos h h0 h4 hq).1
      have q0 : (q : ℝ) < 0 := q0
      have q0 : q < 0 := by exact_mod_cast q0
      linarith
    · have := (mem_inv_pos h h0 h4 (memR_cast.mp (by simpa using hx) : Mem A v (some 0))).1
      exact lt_irrefl _ this
  refine ⟨x0, ?_⟩
  obtain ⟨s, s0, rfl⟩ : ∃ s : ℝ, 0 < s ∧ x = s ^ 2 := ⟨√x, Real.sqrt_pos.mpr x0, (Real.sq_sqrt x0.le).symm⟩
  rw [Real.sqrt_sq s0.le]
  obtain ⟨u, hu, hm⟩ := memR_exists h (some s)
  have key : ∃ q : ℚ, 0 ≤ q ∧ Mem A v (some (q ^ 2)) ∧ Mem A u (some q) := by
    rcases Int.emod_two_eq_zero_or_one u with he | hou
    · obtain ⟨q, rfl⟩ := memR_even he hm
      refine ⟨q, by exact_mod_cast s0.le, ?_, memR_cast.mp hm⟩
      rw [← memR_cast]; push_cast; exact hx
    · have hn : {t : ℝ | MemR A v (some (t ^ 2))} ∈ 𝓝 s := (continuous_pow 2).tendsto s (memR_nhds ho hx)
      obtain ⟨q, ⟨q1, q2⟩, hq⟩ := memR_near hm (Filter.inter_mem hn (Ioi_mem_nhds s0))
      have q2 : (0 : ℝ) < q := q2
      refine ⟨q, by exact_mod_cast q2.le, ?_, hq⟩
      rw [← memR_cast]; push_cast; exact q1
  obtain ⟨q, q0, q1, q2⟩ := key
  exact hasR_of h hu (hc q q0 q1) q2 hm

example : Table p2 ∧ Sided p2 rt2 ∧ (5 : ℤ) < 4 * p2.k ∧ MemR p2 5 (some √2) ∧ sqrt p2 rt2 5 = .ok ⟨false, 5, 5⟩ :=
  ⟨table_p2, sided_p2, by decide, mem_sqrt_two, by decide +kernel⟩

/-- **C133**: a negative pattern, whose square root is empty, holds no real number that has a square root. -/
theorem C133_sqrt_negative (h : Table A) {rt : ℚ → Except FunErr ℚ} {v : ℤ} (h1 : 4 * A.k < v) (h2 : v < 8 * A.k) :
    (∃ b, sqrt A rt v = .ok b ∧ ∀ x, ¬ b.HasR A x) ∧ ∀ x : ℝ, MemR A v (some x) → x < 0 := by
  have hk := h.kpos
  constructor
  · obtain ⟨b, hb, hn⟩ := (C131_sqrt_negative h (rt := rt) h1 h2).1
    refine ⟨b, hb, fun x hx => ?_⟩
    obtain ⟨u, hu, hm⟩ := memR_exists h x
    obtain ⟨q, hq, -⟩ := memR_sample hm
    exact hn q ((hasR_iff h hu hq hm).mp hx)
  · have hv : IsPat A v := ⟨by omega, h2⟩
    have neg : ∀ q : ℚ, Mem A v (some q) → q < 0 := by
      intro q hq
      by_contra hc
      have := steps_le_of_le h (v := 0) (w := v) ⟨le_rfl, by omega⟩ hv (mem_zero.mpr hk) hq (not_lt.mp hc)
      unfold steps at this
      rw [if_neg (by omega), if_pos (by omega)] at this
      omega
    intro x hx
    by_contra hc
    rcases (not_lt.mp hc).lt_or_eq with hl | rfl
    · obtain ⟨q, q0, hq⟩ := memR_near hx (Ioi_mem_nhds hl)
      have q0 : (0 : ℝ) < q := q0
      have q0 : 0 < q := by exact_mod_cast q0
      have := neg q hq
      linarith
    · exact lt_irrefl _ (neg 0 (memR_cast.mp (by simpa using hx)))

example : Table p2 ∧ 4 * p2.k < 11 ∧ 11 < 8 * p2.k := ⟨table_p2, by decide, by decide⟩

end Pnum
end Verif
