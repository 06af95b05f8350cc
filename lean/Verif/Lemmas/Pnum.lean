import Verif.Spec.Pnum
import Mathlib.Tactic.Linarith
import Mathlib.Tactic.Positivity
import Mathlib.Tactic.Ring
import Mathlib.Algebra.Order.Field.Rat

namespace Verif
namespace Pnum

variable {A : Alphabet}

theorem Table.kpos (h : Table A) : 0 < A.k := by obtain ⟨j, hj⟩ := h.pow; rw [hj]; positivity

theorem Table.le (h : Table A) {i j : ℕ} (hij : i ≤ j) (hj : j < A.k) : A.e i ≤ A.e j := by
  rcases Nat.lt_or_eq_of_le hij with hlt | rfl
  · exact (h.mono i j hlt hj).le
  · exact le_rfl

theorem Table.one_le (h : Table A) {i : ℕ} (hi : i < A.k) : 1 ≤ A.e i := by
  have := h.le (Nat.zero_le i) hi
  rwa [h.one] at this

theorem Table.pos (h : Table A) {i : ℕ} (hi : i < A.k) : 0 < A.e i := lt_of_lt_of_le one_pos (h.one_le hi)

theorem mag_zero : mag A 0 = 0 := by simp [mag]

theorem mag_low (i : ℕ) (h1 : 0 < i) (h2 : i < A.k) : mag A i = 1 / A.e (A.k - i) := by
  unfold mag; rw [if_neg (by omega), if_pos h2]

theorem mag_high (h : Table A) (i : ℕ) : mag A (A.k + i) = A.e i := by
  have := h.kpos
  unfold mag; rw [if_neg (by omega), if_neg (by omega)]; congr 1; omega

theorem mag_mono (h : Table A) {i j : ℕ} (hij : i < j) (hj : j < 2 * A.k) : mag A i < mag A j := by
  have hk := h.kpos
  rcases Nat.lt_or_ge j A.k with hjk | hjk
  · rw [mag_low j (by omega) hjk]
    have hpj := h.pos (i := A.k - j) (by omega)
    rcases Nat.eq_zero_or_pos i with rfl | hi
    · rw [mag_zero]; positivity
    · rw [mag_low i hi (by omega)]
      exact one_div_lt_one_div_of_lt hpj (h.mono _ _ (by omega) (by omega))
  · obtain ⟨j', rfl⟩ : ∃ j', j = A.k + j' := ⟨j - A.k, by omega⟩
    rw [mag_high h]
    rcases Nat.lt_or_ge i A.k with hik | hik
    · have h1 := h.one_le (i := j') (by omega)
      rcases Nat.eq_zero_or_pos i with rfl | hi
      · rw [mag_zero]; linarith
      · rw [mag_low i hi hik]
        have h2 : A.e 0 < A.e (A.k - i) := h.mono _ _ (by omega) (by omega)
        rw [h.one] at h2
        have : 1 / A.e (A.k - i) < 1 := by rw [div_lt_one (by linarith)]; exact h2
        linarith
    · obtain ⟨i', rfl⟩ : ∃ i', i = A.k + i' := ⟨i - A.k, by omega⟩
      rw [mag_high h]
      exact h.mono _ _ (by omega) (by omega)

theorem pt_nat (i : ℕ) : pt A i = mag A i := by
  unfold pt; rw [if_pos (by omega)]; simp

theorem pt_zero : pt A 0 = 0 := by have := pt_nat (A := A) 0; rw [mag_zero] at this; exact_mod_cast this

theorem pt_neg (i : ℤ) : pt A (-i) = -pt A i := by
  unfold pt
  rcases lt_trichotomy i 0 with hi | rfl | hi
  · rw [if_pos (by omega), if_neg (by omega), neg_neg]
  · simp [mag_zero]
  · rw [if_neg (by omega), if_pos (by omega), neg_neg]

theorem pt_mono (h : Table A) {i j : ℤ} (hi : -(2 * A.k : ℤ) < i) (hij : i < j) (hj : j < 2 * A.k) : pt A i < pt A j := by
  have pos : ∀ a b : ℕ, a < b → b < 2 * A.k → pt A a < pt A b := fun a b hab hb => by
    rw [pt_nat, pt_nat]; exact mag_mono h hab hb
  rcases lt_or_ge i 0 with hi0 | hi0 <;> rcases lt_or_ge j 0 with hj0 | hj0
  · have := pos (-j).toNat (-i).toNat (by omega) (by omega)
    rw [Int.toNat_of_nonneg (by omega), Int.toNat_of_nonneg (by omega), pt_neg, pt_neg] at this
    linarith
  · have h1 := pos 0 (-i).toNat (by omega) (by omega)
    rw [Int.toNat_of_nonneg (by omega), pt_neg] at h1
    have h2 : pt A 0 ≤ pt A j := by
      rcases eq_or_lt_of_le hj0 with rfl | hj1
      · exact le_rfl
      · have := pos 0 j.toNat (by omega) (by omega)
        rw [Int.toNat_of_nonneg (by omega)] at this
        exact this.le
    have : pt A ((0 : ℕ) : ℤ) = pt A 0 := rfl
    rw [pt_zero] at *
    linarith
  · omega
  · have := pos i.toNat j.toNat (by omega) (by omega)
    rwa [Int.toNat_of_nonneg (by omega), Int.toNat_of_nonneg (by omega)] at this

theorem pt_le (h : Table A) {i j : ℤ} (hi : -(2 * A.k : ℤ) < i) (hij : i ≤ j) (hj : j < 2 * A.k) : pt A i ≤ pt A j := by
  rcases eq_or_lt_of_le hij with rfl | hij
  · exact le_rfl
  · exact (pt_mono h hi hij hj).le

theorem pt_one (h : Table A) : pt A A.k = 1 := by
  rw [pt_nat]
  have := mag_high h 0
  rw [Nat.add_zero] at this
  rw [this, h.one]

theorem pt_high (h : Table A) (i : ℕ) : pt A (A.k + i) = A.e i := by
  have := pt_nat (A := A) (A.k + i)
  push_cast at this
  rw [this, mag_high h]

theorem pt_low (h : Table A) {i : ℕ} (hi : i < A.k) : pt A (A.k - i) = 1 / A.e i := by
  rcases Nat.eq_zero_or_pos i with rfl | h0
  · rw [h.one, div_one]; simpa using pt_one h
  · have := pt_nat (A := A) (A.k - i)
    rw [Nat.cast_sub (by omega)] at this
    rw [this, mag_low _ (by omega) (by omega)]
    congr 2; omega

/-! ## Members -/

theorem steps_range {v : ℤ} (hv : IsPat A v) : -(4 * A.k : ℤ) < steps A v ∧ steps A v ≤ 4 * A.k := by
  unfold IsPat at hv
  unfold steps; split_ifs <;> omega

theorem steps_inj {v w : ℤ} (hv : IsPat A v) (hw : IsPat A w) (h : steps A v = steps A w) : v = w := by
  unfold IsPat at hv hw
  unfold steps at h; split_ifs at h <;> omega

theorem steps_lt {v : ℤ} (hv : IsPat A v) (h : v ≠ 4 * A.k) : steps A v < 4 * A.k := by
  unfold IsPat at hv
  unfold steps; split_ifs <;> omega

/-- members of earlier patterns are smaller -/
theorem mem_lt (h : Table A) {v w : ℤ} (hv : IsPat A v) (hw : IsPat A w) {x y : ℚ} (hx : Mem A v (some x)) (hy : Mem A w (some y))
    (hlt : steps A v < steps A w) : x < y := by
  have v1 := (steps_range hv).1
  have w1 := steps_lt hw hy.1
  obtain ⟨-, hx⟩ := hx
  obtain ⟨-, hy⟩ := hy
  split_ifs at hx hy with ha hb hb
  · rw [hx, hy]; exact pt_mono h (by omega) (by omega) (by omega)
  · have := hy.1.resolve_left (by omega)
    rw [hx]
    exact lt_of_le_of_lt (pt_le h (by omega) (by omega) (by omega)) this
  · have := hx.2.resolve_left (by omega)
    rw [hy]
    exact lt_of_lt_of_le this (pt_le h (by omega) (by omega) (by omega))
  · have h1 := hx.2.resolve_left (by omega)
    have h2 := hy.1.resolve_left (by omega)
    exact h1.trans_le ((pt_le h (by omega) (by omega) (by omega)).trans h2.le)

theorem steps_le_of_le (h : Table A) {v w : ℤ} (hv : IsPat A v) (hw : IsPat A w) {x y : ℚ} (hx : Mem A v (some x))
    (hy : Mem A w (some y)) (hle : x ≤ y) : steps A v ≤ steps A w := by
  by_contra hc
  have := mem_lt h hw hv hy hx (by omega)
  linarith

theorem mem_unique (h : Table A) {v w : ℤ} (hv : IsPat A v) (hw : IsPat A w) {x : Option ℚ} (hx : Mem A v x) (hy : Mem A w x) : v = w := by
  cases x with
  | none => exact hx.trans hy.symm
  | some x =>
    have h1 := steps_le_of_le h hv hw hx hy le_rfl
    have h2 := steps_le_of_le h hw hv hy hx le_rfl
    exact steps_inj hv hw (by omega)

theorem steps_even {v : ℤ} : steps A v % 2 = v % 2 := by unfold steps; split_ifs <;> omega

/-- strictly larger than the exact number of `v`: a later pattern -/
theorem steps_lt_of_lt (h : Table A) {v w : ℤ} (hv : IsPat A v) (hw : IsPat A w) {x y : ℚ} (hx : Mem A v (some x))
    (hy : Mem A w (some y)) (hlt : x < y) (he : v % 2 = 0) : steps A v < steps A w := by
  have h1 := steps_le_of_le h hv hw hx hy hlt.le
  rcases eq_or_lt_of_le h1 with h2 | h2
  · have := steps_inj hv hw h2
    subst this
    obtain ⟨-, hx⟩ := hx
    obtain ⟨-, hy⟩ := hy
    rw [steps_even, if_pos he] at hx hy
    rw [hx, hy] at hlt
    exact absurd hlt (lt_irrefl _)
  · exact h2

/-! ## Patterns -/

variable (A)

theorem n2_eq : A.n2 = 8 * A.k := by
  unfold Alphabet.n2; rw [Nat.shiftLeft_eq]; push_cast; ring

variable {A}

theorem n2_half : A.n2 / 2 = 4 * A.k := by rw [n2_eq]; omega
theorem n2_quarter : A.n2 / 4 = 2 * A.k := by rw [n2_eq]; omega

theorem raw_id {x : ℤ} (h0 : 0 ≤ x) (h1 : x < 8 * A.k) : x % (8 * A.k : ℤ) = x := Int.emod_eq_of_lt h0 h1

theorem raw_neg {x : ℤ} (h0 : x < 0) (h1 : -(8 * A.k : ℤ) ≤ x) : x % (8 * A.k : ℤ) = x + 8 * A.k := by
  rw [← Int.add_emod_right]; exact Int.emod_eq_of_lt (by omega) (by omega)

theorem raw_over {x : ℤ} (h0 : (8 * A.k : ℤ) ≤ x) (h1 : x < 16 * A.k) : x % (8 * A.k : ℤ) = x - 8 * A.k := by
  have : x = (x - 8 * A.k) + 8 * A.k := by ring
  rw [this, Int.add_emod_right]
  rw [Int.emod_eq_of_lt (by omega) (by omega)]; ring

theorem isPat_mod (h : Table A) (x : ℤ) : IsPat A (x % (8 * A.k : ℤ)) := by
  have := h.kpos
  exact ⟨Int.emod_nonneg _ (by omega), Int.emod_lt_of_pos _ (by omega)⟩

theorem one_eq (h : Table A) : A.one = 2 * A.k := by
  have := h.kpos
  unfold Alphabet.one Alphabet.raw; rw [n2_quarter, n2_eq]; exact raw_id (by omega) (by omega)

theorem inf_eq (h : Table A) : A.inf = 4 * A.k := by
  have := h.kpos
  unfold Alphabet.inf Alphabet.raw; rw [n2_half, n2_eq]; exact raw_id (by omega) (by omega)

theorem zero_eq : A.zero = 0 := rfl

theorem neg_eq {v : ℤ} (hv : IsPat A v) : A.neg v = if v = 0 then 0 else 8 * A.k - v := by
  unfold IsPat at hv
  unfold Alphabet.neg Alphabet.raw
  rw [n2_eq]
  split_ifs with h0
  · subst h0; simp
  · rw [raw_neg (by omega) (by omega)]; ring

theorem inv_eq {v : ℤ} (hv : IsPat A v) : A.inv v = if v ≤ 4 * A.k then 4 * A.k - v else 12 * A.k - v := by
  unfold IsPat at hv
  unfold Alphabet.inv Alphabet.raw
  rw [n2_half, n2_eq]
  split_ifs with h0
  · rcases eq_or_lt_of_le h0 with rfl | h0
    · have : (-(4 * (A.k : ℤ) + 4 * A.k)) = -(8 * A.k) := by ring
      rw [this]; simp
    · rw [raw_neg (by omega) (by omega)]; ring
  · have : (-(v + 4 * (A.k : ℤ))) = (12 * A.k - v) + 8 * A.k * (-2) := by ring
    rw [this, Int.add_mul_emod_self_left, raw_id (by omega) (by omega)]

theorem next_eq {v : ℤ} (hv : IsPat A v) : A.next v = if v = 8 * A.k - 1 then 0 else v + 1 := by
  unfold IsPat at hv
  unfold Alphabet.next
  rw [n2_eq]
  split_ifs with h0
  · rw [h0]; simp
  · exact raw_id (by omega) (by omega)

theorem prev_eq {v : ℤ} (hv : IsPat A v) : A.prev v = if v = 0 then 8 * (A.k : ℤ) - 1 else v - 1 := by
  unfold IsPat at hv
  unfold Alphabet.prev
  rw [n2_eq]
  split_ifs with h0
  · rw [h0, raw_neg (by omega) (by omega)]; ring
  · exact raw_id (by omega) (by omega)

theorem fromExactsIndex_eq {i : ℕ} (hi : i < A.k) : A.fromExactsIndex i = 2 * A.k + 2 * i := by
  unfold Alphabet.fromExactsIndex Alphabet.raw
  rw [n2_quarter, n2_eq]
  exact raw_id (by omega) (by omega)

/-! ## Membership by pattern -/

theorem mem_even {v : ℤ} (hv : 0 ≤ v) (h4 : v < 4 * A.k) {x : ℚ} (he : v % 2 = 0) (hx : x = pt A (v / 2)) : Mem A v (some x) := by
  refine ⟨by omega, ?_⟩
  have : steps A v = v := by unfold steps; rw [if_neg (by omega)]
  rw [this, if_pos he]; exact hx

theorem mem_odd {v : ℤ} (hv : 0 ≤ v) (h4 : v < 4 * A.k) {x : ℚ} (he : v % 2 = 1) (h1 : pt A (v / 2) < x)
    (h2 : v = 4 * A.k - 1 ∨ x < pt A (v / 2 + 1)) : Mem A v (some x) := by
  refine ⟨by omega, ?_⟩
  have : steps A v = v := by unfold steps; rw [if_neg (by omega)]
  rw [this, if_neg (by omega)]; exact ⟨Or.inr h1, h2⟩

theorem isPat_neg (h : Table A) (v : ℤ) : IsPat A (A.neg v) := by
  unfold Alphabet.neg Alphabet.raw; rw [n2_eq]; exact isPat_mod h _

theorem isPat_inv (h : Table A) (v : ℤ) : IsPat A (A.inv v) := by
  unfold Alphabet.inv Alphabet.raw; rw [n2_eq]; exact isPat_mod h _

theorem isPat_next (h : Table A) (v : ℤ) : IsPat A (A.next v) := by
  unfold Alphabet.next; rw [n2_eq]; exact isPat_mod h _

theorem isPat_prev (h : Table A) (v : ℤ) : IsPat A (A.prev v) := by
  unfold Alphabet.prev; rw [n2_eq]; exact isPat_mod h _

theorem steps_neg {v : ℤ} (hv : IsPat A v) (h4 : v ≠ 4 * A.k) : steps A (A.neg v) = -steps A v := by
  rw [neg_eq hv]
  unfold IsPat at hv
  unfold steps; split_ifs <;> omega

theorem mem_neg (h : Table A) {v : ℤ} (hv : IsPat A v) {x : Option ℚ} (hx : Mem A v x) : Mem A (A.neg v) (pneg x) := by
  have hk := h.kpos
  cases x with
  | none =>
    have : v = 4 * A.k := hx
    show A.neg v = 4 * A.k
    rw [neg_eq hv]; split_ifs <;> omega
  | some x =>
    obtain ⟨h4, hx⟩ := hx
    show A.neg v ≠ 4 * A.k ∧ _
    refine ⟨by rw [neg_eq hv]; split_ifs <;> omega, ?_⟩
    have hs := steps_neg hv h4
    rw [hs]
    by_cases he : steps A v % 2 = 0
    · rw [if_pos he] at hx
      rw [if_pos (by omega), hx]
      show -pt A _ = _
      rw [← pt_neg]
      congr 1; omega
    · rw [if_neg he] at hx
      rw [if_neg (by omega)]
      have e1 : -steps A v / 2 = -(steps A v / 2 + 1) := by omega
      have e2 : -steps A v / 2 + 1 = -(steps A v / 2) := by omega
      rw [e2, e1, pt_neg, pt_neg]
      obtain ⟨a, b⟩ := hx
      constructor
      · rcases b with b | b
        · left; omega
        · right; linarith
      · rcases a with a | a
        · left; omega
        · right; linarith

theorem neg_neg_pat (h : Table A) {v : ℤ} (hv : IsPat A v) : A.neg (A.neg v) = v := by
  rw [neg_eq (isPat_neg h v), neg_eq hv]
  unfold IsPat at hv
  split_ifs <;> omega

theorem inv_inv_pat (h : Table A) {v : ℤ} (hv : IsPat A v) : A.inv (A.inv v) = v := by
  rw [inv_eq (isPat_inv h v), inv_eq hv]
  unfold IsPat at hv
  split_ifs <;> omega

theorem inv_neg_pat (h : Table A) {v : ℤ} (hv : IsPat A v) : A.inv (A.neg v) = A.neg (A.inv v) := by
  rw [inv_eq (isPat_neg h v), neg_eq hv, neg_eq (isPat_inv h v), inv_eq hv]
  unfold IsPat at hv
  split_ifs <;> omega

/-- reciprocals of exact numbers -/
theorem pt_inv (h : Table A) {i : ℤ} (h0 : 0 < i) (h1 : i < 2 * A.k) : pt A (2 * A.k - i) = 1 / pt A i := by
  have hk := h.kpos
  rcases le_or_gt i A.k with hi | hi
  · obtain ⟨j, hj⟩ : ∃ j : ℕ, i = A.k - j := ⟨(A.k - i).toNat, by omega⟩
    have e1 : (2 * A.k : ℤ) - i = A.k + j := by omega
    rw [e1, hj, pt_high h, pt_low h (by omega), one_div_one_div]
  · obtain ⟨j, hj⟩ : ∃ j : ℕ, i = A.k + j := ⟨(i - A.k).toNat, by omega⟩
    have e1 : (2 * A.k : ℤ) - i = A.k - j := by omega
    rw [e1, hj, pt_high h, pt_low h (by omega)]

theorem pt_pos (h : Table A) {i : ℤ} (h0 : 0 < i) (h1 : i < 2 * A.k) : 0 < pt A i := by
  have := pt_mono h (i := 0) (j := i) (by omega) h0 h1
  rwa [pt_zero] at this

/-- reciprocals of positive members -/
theorem mem_inv_pos (h : Table A) {v : ℤ} (h0 : 0 < v) (h4 : v < 4 * A.k) {x : ℚ} (hx : Mem A v (some x)) :
    0 < x ∧ Mem A (4 * A.k - v) (some (1 / x)) := by
  have hk := h.kpos
  obtain ⟨-, hx⟩ := hx
  have hs : steps A v = v := by unfold steps; rw [if_neg (by omega)]
  rw [hs] at hx
  by_cases he : v % 2 = 0
  · rw [if_pos he] at hx
    have hp := pt_pos h (i := v / 2) (by omega) (by omega)
    refine ⟨by rw [hx]; exact hp, mem_even (by omega) (by omega) (by omega) ?_⟩
    have : (4 * (A.k : ℤ) - v) / 2 = 2 * A.k - v / 2 := by omega
    rw [this, pt_inv h (by omega) (by omega), hx]
  · rw [if_neg he] at hx
    obtain ⟨a, b⟩ := hx
    have a := a.resolve_left (by omega)
    have hp : 0 ≤ pt A (v / 2) := by
      have := pt_le h (i := 0) (j := v / 2) (by omega) (by omega) (by omega)
      rwa [pt_zero] at this
    have hx0 : 0 < x := lt_of_le_of_lt hp a
    have e1 : (4 * (A.k : ℤ) - v) / 2 = 2 * A.k - (v / 2 + 1) := by omega
    have e2 : (4 * (A.k : ℤ) - v) / 2 + 1 = 2 * A.k - v / 2 := by omega
    refine ⟨hx0, mem_odd (by omega) (by omega) (by omega) ?_ ?_⟩
    · rw [e1]
      rcases b with b | b
      · have : (2 * (A.k : ℤ) - (v / 2 + 1)) = 0 := by omega
        rw [this, pt_zero]; positivity
      · by_cases hl : v = 4 * A.k - 1
        · have : (2 * (A.k : ℤ) - (v / 2 + 1)) = 0 := by omega
          rw [this, pt_zero]; positivity
        · rw [pt_inv h (by omega) (by omega)]
          exact one_div_lt_one_div_of_lt hx0 b
    · rw [e2]
      by_cases hv1 : v = 1
      · left; omega
      · right
        rw [pt_inv h (by omega) (by omega)]
        exact one_div_lt_one_div_of_lt (pt_pos h (by omega) (by omega)) a

theorem mem_zero : Mem A 0 (some 0) ↔ 0 < A.k := by
  constructor
  · intro h0
    have : (0 : ℤ) ≠ 4 * A.k := h0.1
    omega
  · intro hk
    exact mem_even le_rfl (by omega) (by omega) (by simp [pt_zero])

theorem mem_inv (h : Table A) {v : ℤ} (hv : IsPat A v) {x : Option ℚ} (hx : Mem A v x) : Mem A (A.inv v) (pinv x) := by
  have hk := h.kpos
  have h0m : Mem A 0 (some 0) := mem_zero.mpr hk
  have h0p : IsPat A 0 := ⟨le_rfl, by omega⟩
  have key : ∀ {v : ℤ}, IsPat A v → v ≤ 4 * A.k → ∀ {x : Option ℚ}, Mem A v x → Mem A (A.inv v) (pinv x) := by
    intro v hv h4 x hx
    rw [inv_eq hv, if_pos h4]
    cases x with
    | none =>
      have : v = 4 * A.k := hx
      subst this
      rw [sub_self]; exact h0m
    | some x =>
      rcases eq_or_lt_of_le hv.1 with hz | hz
      · subst hz
        have : x = 0 := by
          have := hx.2
          have hs : steps A 0 = 0 := by unfold steps; rw [if_neg (by omega)]
          rw [hs] at this
          simpa [pt_zero] using this
        subst this
        have : pinv (some 0) = none := rfl
        rw [this]
        show (4 * (A.k : ℤ) - 0) = 4 * A.k
        ring
      · have h4' : v < 4 * A.k := lt_of_le_of_ne h4 hx.1
        obtain ⟨p, q⟩ := mem_inv_pos h hz h4' hx
        have : pinv (some x) = some (1 / x) := if_neg p.ne'
        rw [this]; exact q
  by_cases h4 : v ≤ 4 * A.k
  · exact key hv h4 hx
  · have hn := mem_neg h hv hx
    have hle : A.neg v ≤ 4 * A.k := by rw [neg_eq hv]; unfold IsPat at hv; split_ifs <;> omega
    have h1 := key (isPat_neg h v) hle hn
    have h2 := mem_neg h (isPat_inv h _) h1
    rw [inv_neg_pat h hv, neg_neg_pat h (isPat_inv h v)] at h2
    have : pneg (pinv (pneg x)) = pinv x := by
      cases x with
      | none => simp [pneg, pinv]
      | some x =>
        unfold pneg pinv
        by_cases hx0 : x = 0
        · simp [hx0]
        · simp [hx0, div_neg]
    rwa [this] at h2

end Pnum
end Verif
