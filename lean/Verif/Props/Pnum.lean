import Verif.Lemmas.Pnum
import Mathlib.Tactic.NormNum

/-!
# C72: projective numbers, the lattice and the conversion
-/

namespace Verif
namespace Pnum

variable {A : Alphabet}

/-! ## The constructor -/

theorem increasing_iff : ∀ (l : List ℚ) (a : ℚ), increasing a l = true ↔
    (∀ i : ℕ, i < l.length → 1 ≤ l.getD i 0 ∧ a < l.getD i 0) ∧ ∀ i j : ℕ, i < j → j < l.length → l.getD i 0 < l.getD j 0
  | [], a => by simp [increasing]
  | x :: l, a => by
    unfold increasing
    have ih := increasing_iff l x
    by_cases hx : x < 1 ∨ x ≤ a
    · have : (decide (x < 1) || decide (x ≤ a)) = true := by simpa using hx
      rw [if_pos this]
      constructor
      · intro h; cases h
      · rintro ⟨h1, -⟩
        have := h1 0 (by simp)
        simp only [List.getD_cons_zero] at this
        rcases hx with hx | hx <;> linarith [this.1, this.2]
    · have : ¬ (decide (x < 1) || decide (x ≤ a)) = true := by simpa using hx
      rw [if_neg this, ih]
      push Not at hx
      constructor
      · rintro ⟨h1, h2⟩
        refine ⟨fun i hi => ?_, fun i j hij hj => ?_⟩
        · cases i with
          | zero => exact hx
          | succ i =>
            have := h1 i (by simpa using hi)
            rw [List.getD_cons_succ]
            exact ⟨this.1, hx.2.trans this.2⟩
        · cases j with
          | zero => omega
          | succ j =>
            have hj' : j < l.length := by simpa using hj
            cases i with
            | zero => exact (h1 j hj').2
            | succ i => exact h2 i j (by omega) hj'
      · rintro ⟨h1, h2⟩
        refine ⟨fun i hi => ?_, fun i j hij hj => ?_⟩
        · have a1 := (h1 (i + 1) (by simpa using hi)).1
          have a2 := h2 0 (i + 1) (by omega) (by simpa using hi)
          exact ⟨a1, a2⟩
        · exact h2 (i + 1) (j + 1) (by omega) (by simpa using hj)

theorem oneBit_iff (n : ℕ) : oneBit n = true ↔ ∃ j, n = 2 ^ j := by
  unfold oneBit
  simp only [Bool.and_eq_true, decide_eq_true_eq, beq_iff_eq, ne_eq]
  constructor
  · rintro ⟨-, h⟩; exact ⟨_, h.symm⟩
  · rintro ⟨j, rfl⟩
    exact ⟨by positivity, by rw [Nat.log2_two_pow]⟩

/-- **C72**: the constructor accepts exactly the increasing tables of `2^j` numbers that start with 1, and raises an exception
for all others. -/
theorem C72_make (l : List ℚ) : (∃ A, Alphabet.make l = .ok A) ↔ Table ⟨l⟩ := by
  unfold Alphabet.make
  cases l with
  | nil =>
    constructor
    · rintro ⟨A, h⟩; cases h
    · intro h
      have := h.kpos
      exact absurd this (by decide)
  | cons x l =>
    simp only []
    by_cases hx : x = 1
    · rw [if_neg (by simpa using hx)]
      by_cases hb : oneBit (x :: l).length = true
      · rw [hb]
        by_cases hi : increasing 0 (x :: l) = true
        · rw [hi]
          refine ⟨fun _ => ⟨(oneBit_iff _).mp hb, hx, ((increasing_iff _ _).mp hi).2⟩, fun _ => ⟨⟨x :: l⟩, rfl⟩⟩
        · constructor
          · rintro ⟨A, h⟩
            have : increasing 0 (x :: l) = false := by simpa using hi
            rw [this] at h
            cases h
          · intro h
            exfalso
            apply hi
            rw [increasing_iff]
            exact ⟨fun i hi => ⟨h.one_le hi, h.pos hi⟩, h.mono⟩
      · constructor
        · rintro ⟨A, h⟩
          have : oneBit (x :: l).length = false := by simpa using hb
          rw [this] at h
          cases h
        · intro h
          exact absurd ((oneBit_iff _).mpr h.pow) hb
    · rw [if_pos hx]
      constructor
      · rintro ⟨A, h⟩; cases h
      · intro h; exact absurd h.one hx

theorem table_p1 : Table p1 := (C72_make _).mp ⟨p1, by decide +kernel⟩
theorem table_p2 : Table p2 := (C72_make _).mp ⟨p2, by decide +kernel⟩
theorem table_p4 : Table p4 := (C72_make _).mp ⟨p4, by decide +kernel⟩
theorem table_p8 : Table p8 := (C72_make _).mp ⟨p8, by decide +kernel⟩

/-- **C72**: the constructor accepts the four tables of powers of two; `pK` holds the first `K` of them. -/
theorem C72_alphabets :
    (Table p1 ∧ p1.k = 1) ∧ (Table p2 ∧ p2.k = 2) ∧ (Table p4 ∧ p4.k = 4) ∧ (Table p8 ∧ p8.k = 8) ∧
    ∀ A, A = p1 ∨ A = p2 ∨ A = p4 ∨ A = p8 → ∀ i, i < A.k → A.e i = 2 ^ i := by
  refine ⟨⟨(C72_make _).mp ⟨p1, by decide +kernel⟩, by decide⟩, ⟨(C72_make _).mp ⟨p2, by decide +kernel⟩, by decide⟩,
    ⟨table_p4, by decide⟩, ⟨table_p8, by decide⟩, ?_⟩
  have key : ∀ A : Alphabet, (∀ i : Fin A.k, A.e i = 2 ^ (i : ℕ)) → ∀ i, i < A.k → A.e i = 2 ^ i := fun A h i hi => h ⟨i, hi⟩
  rintro A (rfl | rfl | rfl | rfl) <;> exact key _ (by decide +kernel)

example : p8.e 5 = 32 := by decide +kernel

example : Alphabet.make [1, 3 / 2, 2, 3] = .ok ⟨[1, 3 / 2, 2, 3]⟩ ∧ Alphabet.make [1, 2, 3] = .error .exception := by decide +kernel

/-- **C72**: `p8a()` and `p16a()` raise an exception: their tables are not increasing. -/
theorem C72_tables_wrong : Alphabet.make p8aTable = .error .exception ∧ Alphabet.make p16aTable = .error .exception := by
  decide +kernel

/-! ## Negation, reciprocal, neighbours -/

theorem pneg_pneg (x : Option ℚ) : pneg (pneg x) = x := by cases x <;> simp [pneg]

theorem pinv_pinv (x : Option ℚ) : pinv (pinv x) = x := by
  cases x with
  | none => rfl
  | some x =>
    unfold pinv
    by_cases hx : x = 0
    · simp [hx]
    · simp [hx]

/-- **C72**: the negative of a pattern stands for the negatives, the reciprocal for the reciprocals (of 0 infinity, of infinity
0); both are involutions and commute. -/
theorem C72_neg_inv (h : Table A) {v : ℤ} (hv : IsPat A v) (x : Option ℚ) :
    (Mem A (A.neg v) (pneg x) ↔ Mem A v x) ∧ (Mem A (A.inv v) (pinv x) ↔ Mem A v x) ∧
    A.neg (A.neg v) = v ∧ A.inv (A.inv v) = v ∧ A.inv (A.neg v) = A.neg (A.inv v) ∧ IsPat A (A.neg v) ∧ IsPat A (A.inv v) := by
  refine ⟨⟨fun hx => ?_, mem_neg h hv⟩, ⟨fun hx => ?_, mem_inv h hv⟩, neg_neg_pat h hv, inv_inv_pat h hv, inv_neg_pat h hv,
    isPat_neg h v, isPat_inv h v⟩
  · have := mem_neg h (isPat_neg h v) hx
    rwa [pneg_pneg, neg_neg_pat h hv] at this
  · have := mem_inv h (isPat_inv h v) hx
    rwa [pinv_pinv, inv_inv_pat h hv] at this

example : Table p4 ∧ IsPat p4 19 ∧ p4.neg 19 = 13 ∧ p4.inv 19 = 29 :=
  ⟨table_p4, ⟨by decide, by decide⟩, by decide +kernel, by decide +kernel⟩

/-- **C72**: `next` and `prev` are inverse to each other and alternate between exact numbers and intervals. -/
theorem C72_next_prev (h : Table A) {v : ℤ} (hv : IsPat A v) : IsPat A (A.next v) ∧ IsPat A (A.prev v) ∧
    A.prev (A.next v) = v ∧ A.next (A.prev v) = v ∧
    Alphabet.isExact (A.next v) = !Alphabet.isExact v ∧ Alphabet.isExact (A.prev v) = !Alphabet.isExact v := by
  refine ⟨isPat_next h v, isPat_prev h v, ?_, ?_, ?_, ?_⟩
  · rw [prev_eq (isPat_next h v), next_eq hv]; unfold IsPat at hv; split_ifs <;> omega
  · rw [next_eq (isPat_prev h v), prev_eq hv]; unfold IsPat at hv; split_ifs <;> omega
  · have : A.next v % 2 = (v + 1) % 2 := by rw [next_eq hv]; split_ifs <;> omega
    unfold Alphabet.isExact
    rw [this]
    rcases Int.emod_two_eq_zero_or_one v with e | e
    · have : (v + 1) % 2 = 1 := by omega
      rw [this, e]; rfl
    · have : (v + 1) % 2 = 0 := by omega
      rw [this, e]; rfl
  · have : A.prev v % 2 = (v + 1) % 2 := by rw [prev_eq hv]; split_ifs <;> omega
    unfold Alphabet.isExact
    rw [this]
    rcases Int.emod_two_eq_zero_or_one v with e | e
    · have : (v + 1) % 2 = 1 := by omega
      rw [this, e]; rfl
    · have : (v + 1) % 2 = 0 := by omega
      rw [this, e]; rfl

example : p2.next 15 = 0 ∧ p2.prev 0 = 15 ∧ p2.next 7 = 8 := by decide +kernel

/-! ## exactvalue -/

theorem exactBig_eq (h : Table A) {v : ℤ} (h1 : 2 * (A.k : ℤ) ≤ v) (h2 : v < 4 * A.k) : A.exactBig v = pt A (v / 2) := by
  unfold Alphabet.exactBig
  rw [n2_quarter, ← pt_high h]
  congr 1
  omega

theorem exactPos_eq (h : Table A) {v : ℤ} (h1 : 0 < v) (h2 : v < 4 * A.k) (he : v % 2 = 0) : A.exactPos v = pt A (v / 2) := by
  have hv : IsPat A v := ⟨by omega, by omega⟩
  have ha : A.abs v = v := by
    unfold Alphabet.abs Alphabet.isStrictlyNegative
    rw [n2_half, if_neg (by simp; omega)]
  have hf : A.isFractional v = decide (v < 2 * A.k) := by
    unfold Alphabet.isFractional
    rw [ha, n2_quarter]
    simp [h1]
  unfold Alphabet.exactPos
  rw [hf]
  by_cases hl : v < 2 * A.k
  · rw [if_pos (by simpa using hl), inv_eq hv, if_pos h2.le, exactBig_eq h (by omega) (by omega)]
    have : (4 * (A.k : ℤ) - v) / 2 = 2 * A.k - v / 2 := by omega
    rw [this, pt_inv h (by omega) (by omega), one_div_one_div]
  · rw [if_neg (by simpa using hl), exactBig_eq h (by omega) h2]

theorem exactValue_eq (h : Table A) {v : ℤ} (hv : IsPat A v) (he : v % 2 = 0) :
    A.exactValue v = if v = 4 * A.k then none else some (pt A (steps A v / 2)) := by
  have hk := h.kpos
  unfold Alphabet.exactValue Alphabet.isInf Alphabet.isStrictlyNegative
  rw [n2_half]
  by_cases h4 : v = 4 * A.k
  · rw [if_pos h4, if_pos (by simpa using h4)]
  · rw [if_neg h4, if_neg (by simpa using h4)]
    by_cases h0 : v = 0
    · rw [if_pos h0, h0]
      have : steps A 0 = 0 := by unfold steps; rw [if_neg (by omega)]
      rw [this]; simp [pt_zero]
    · rw [if_neg h0]
      obtain ⟨hv1, hv2⟩ := hv
      unfold steps
      by_cases hn : v > 4 * A.k
      · rw [if_pos (by simpa using hn), if_pos hn, neg_eq ⟨hv1, hv2⟩, if_neg h0, exactPos_eq h (by omega) (by omega) (by omega)]
        have : (8 * (A.k : ℤ) - v) / 2 = -((v - 8 * A.k) / 2) := by omega
        rw [this, pt_neg, neg_neg]
      · rw [if_neg (by simpa using hn), if_neg hn, exactPos_eq h (by omega) (by omega) he]

theorem mem_exactValue (h : Table A) {v : ℤ} (hv : IsPat A v) (he : v % 2 = 0) : Mem A v (A.exactValue v) := by
  rw [exactValue_eq h hv he]
  split_ifs with h4
  · exact h4
  · exact ⟨h4, by rw [steps_even, if_pos he]⟩

/-- **C72**: `exactvalue()` of an exact number is the only number it stands for. -/
theorem C72_exactValue (h : Table A) {v : ℤ} (hv : IsPat A v) (he : Alphabet.isExact v = true) (x : Option ℚ) :
    Mem A v x ↔ x = A.exactValue v := by
  have he : v % 2 = 0 := by unfold Alphabet.isExact at he; simpa using he
  constructor
  · intro hx
    rw [exactValue_eq h hv he]
    cases x with
    | none => rw [if_pos (show v = 4 * A.k from hx)]
    | some x =>
      rw [if_neg hx.1]
      have := hx.2
      rw [steps_even, if_pos he] at this
      rw [this]
  · rintro rfl; exact mem_exactValue h hv he

example : (p4.exactValue 26, p4.exactValue 14, p4.exactValue 16) = (some (-1 / 2 : ℚ), some (8 : ℚ), none) := by decide +kernel

/-! ## convert -/

theorem search_spec (p : ℕ → Bool) : ∀ lo hi : ℕ, lo < hi → ∀ P Q : ℕ → Prop, P lo → Q hi → (∀ m, p m = true → P m) →
    (∀ m, p m = false → Q m) → ∃ l, search p lo hi = (l, l + 1) ∧ lo ≤ l ∧ l + 1 ≤ hi ∧ P l ∧ Q (l + 1) := by
  intro lo hi
  induction hn : hi - lo using Nat.strong_induction_on generalizing lo hi with
  | _ n ih =>
    intro hlt P Q hP hQ h1 h2
    rw [search]
    split_ifs with hm hp
    · have : hi = lo + 1 := by omega
      subst this
      exact ⟨lo, rfl, le_rfl, le_rfl, hP, hQ⟩
    · obtain ⟨l, e1, e2, e3, e4, e5⟩ := ih (hi - (lo + (hi - lo) / 2)) (by omega) (lo + (hi - lo) / 2) hi rfl (by omega) P Q
        (h1 _ hp) hQ h1 h2
      exact ⟨l, e1, by omega, e3, e4, e5⟩
    · obtain ⟨l, e1, e2, e3, e4, e5⟩ := ih (lo + (hi - lo) / 2 - lo) (by omega) lo (lo + (hi - lo) / 2) rfl (by omega) P Q
        hP (h2 _ (by simpa using hp)) h1 h2
      exact ⟨l, e1, e2, by omega, e4, e5⟩

theorem searchPos_mem (h : Table A) {x : ℚ} (hx : 0 < x) : IsPat A (A.searchPos x) ∧ Mem A (A.searchPos x) (some x) := by
  have hk := h.kpos
  unfold Alphabet.searchPos
  have one : IsPat A (2 * A.k) := ⟨by omega, by omega⟩
  have infp : IsPat A (4 * A.k) := ⟨by omega, by omega⟩
  have fei : ∀ i : ℕ, i < A.k → IsPat A (2 * A.k + 2 * i) := fun i hi => ⟨by omega, by omega⟩
  by_cases h1 : x < 1
  · rw [if_pos h1]
    obtain ⟨l, e1, -, e3, e4, e5⟩ := search_spec (fun mid => decide (1 / A.e mid > x)) 0 A.k hk (fun m => m = 0 ∨ 1 / A.e m > x)
      (fun m => m = A.k ∨ 1 / A.e m ≤ x) (Or.inl rfl) (Or.inl rfl) (fun m hm => Or.inr (by simpa using hm))
      (fun m hm => Or.inr (by simpa using hm))
    rw [e1]
    simp only []
    split_ifs with c1 c2 c3 c4
    · rw [fromExactsIndex_eq (by omega), inv_eq (fei l (by omega)), if_pos (by omega)]
      refine ⟨⟨by omega, by omega⟩, mem_even (by omega) (by omega) (by omega) ?_⟩
      have : (4 * (A.k : ℤ) - (2 * A.k + 2 * l)) / 2 = A.k - l := by omega
      rw [this, pt_low h (by omega)]; exact c1.symm
    · rw [fromExactsIndex_eq c2.1, inv_eq (fei _ c2.1), if_pos (by omega)]
      refine ⟨⟨by omega, by omega⟩, mem_even (by omega) (by omega) (by omega) ?_⟩
      have : (4 * (A.k : ℤ) - (2 * A.k + 2 * (l + 1 : ℕ))) / 2 = A.k - (l + 1 : ℕ) := by omega
      rw [this, pt_low h (by omega)]; exact c2.2.symm
    · subst c3
      rw [one_eq h, prev_eq one, if_neg (by omega)]
      refine ⟨⟨by omega, by omega⟩, mem_odd (by omega) (by omega) (by omega) ?_ (Or.inr ?_)⟩
      · have : (2 * (A.k : ℤ) - 1) / 2 = A.k - 1 := by omega
        rw [this]
        rcases Nat.eq_or_lt_of_le (show 1 ≤ A.k from hk) with hk1 | hk1
        · rw [← hk1]; simpa [pt_zero] using hx
        · have := pt_low h hk1
          rw [Nat.cast_one] at this
          rw [this]
          have e5 := e5.resolve_left (by omega)
          exact lt_of_le_of_ne e5 fun hh => c2 ⟨by omega, hh⟩
      · have : (2 * (A.k : ℤ) - 1) / 2 + 1 = A.k := by omega
        rw [this, pt_one h]; exact h1
    · rw [zero_eq, next_eq ⟨le_rfl, by omega⟩, if_neg (by omega)]
      refine ⟨⟨by omega, by omega⟩, mem_odd (by omega) (by omega) (by omega) ?_ (Or.inr ?_)⟩
      · simpa [pt_zero] using hx
      · have hl : (0 + 1 : ℤ) / 2 + 1 = A.k - l := by omega
        rw [hl, pt_low h (by omega)]
        exact e4.resolve_left c3
    · have hfi := fei l (by omega)
      rw [fromExactsIndex_eq (by omega), next_eq hfi, if_neg (by omega), inv_eq ⟨by omega, by omega⟩, if_pos (by omega)]
      refine ⟨⟨by omega, by omega⟩, mem_odd (by omega) (by omega) (by omega) ?_ (Or.inr ?_)⟩
      · have : (4 * (A.k : ℤ) - (2 * A.k + 2 * l + 1)) / 2 = A.k - (l + 1 : ℕ) := by omega
        rw [this, pt_low h (by omega)]
        have e5 := e5.resolve_left (by omega)
        exact lt_of_le_of_ne e5 fun hh => c2 ⟨by omega, hh⟩
      · have : (4 * (A.k : ℤ) - (2 * A.k + 2 * l + 1)) / 2 + 1 = A.k - l := by omega
        rw [this, pt_low h (by omega)]
        exact e4.resolve_left c3
  · rw [if_neg h1]
    push Not at h1
    obtain ⟨l, e1, -, e3, e4, e5⟩ := search_spec (fun mid => decide (A.e mid < x)) 0 A.k hk (fun m => m = 0 ∨ A.e m < x)
      (fun m => m = A.k ∨ x ≤ A.e m) (Or.inl rfl) (Or.inl rfl) (fun m hm => Or.inr (by simpa using hm))
      (fun m hm => Or.inr (by simpa using hm))
    rw [e1]
    simp only []
    split_ifs with c1 c2 c3 c4
    · rw [fromExactsIndex_eq (by omega)]
      refine ⟨⟨by omega, by omega⟩, mem_even (by omega) (by omega) (by omega) ?_⟩
      have : (2 * (A.k : ℤ) + 2 * l) / 2 = A.k + l := by omega
      rw [this, pt_high h]; exact c1.symm
    · rw [fromExactsIndex_eq c2.1]
      refine ⟨⟨by omega, by omega⟩, mem_even (by omega) (by omega) (by omega) ?_⟩
      have : (2 * (A.k : ℤ) + 2 * (l + 1 : ℕ)) / 2 = A.k + (l + 1 : ℕ) := by omega
      rw [this, pt_high h]; exact c2.2.symm
    · subst c3
      rw [one_eq h, next_eq one, if_neg (by omega)]
      refine ⟨⟨by omega, by omega⟩, mem_odd (by omega) (by omega) (by omega) ?_ ?_⟩
      · have : (2 * (A.k : ℤ) + 1) / 2 = A.k := by omega
        rw [this, pt_one h]
        rw [h.one] at c1
        exact lt_of_le_of_ne h1 c1
      · rcases Nat.eq_or_lt_of_le (show 1 ≤ A.k from hk) with hk1 | hk1
        · left; omega
        · right
          have : (2 * (A.k : ℤ) + 1) / 2 + 1 = A.k + (1 : ℕ) := by omega
          rw [this, pt_high h]
          have e5 := e5.resolve_left (by omega)
          exact lt_of_le_of_ne e5 fun hh => c2 ⟨by omega, hh.symm⟩
    · rw [inf_eq h, prev_eq infp, if_neg (by omega)]
      refine ⟨⟨by omega, by omega⟩, mem_odd (by omega) (by omega) (by omega) ?_ (Or.inl rfl)⟩
      have : (4 * (A.k : ℤ) - 1) / 2 = A.k + l := by omega
      rw [this, pt_high h]
      exact e4.resolve_left c3
    · have hfi := fei l (by omega)
      rw [fromExactsIndex_eq (by omega), next_eq hfi, if_neg (by omega)]
      refine ⟨⟨by omega, by omega⟩, mem_odd (by omega) (by omega) (by omega) ?_ (Or.inr ?_)⟩
      · have : (2 * (A.k : ℤ) + 2 * l + 1) / 2 = A.k + l := by omega
        rw [this, pt_high h]
        exact e4.resolve_left c3
      · have : (2 * (A.k : ℤ) + 2 * l + 1) / 2 + 1 = A.k + (l + 1 : ℕ) := by omega
        rw [this, pt_high h]
        have e5 := e5.resolve_left (by omega)
        exact lt_of_le_of_ne e5 fun hh => c2 ⟨by omega, hh.symm⟩

theorem searchValue_mem (h : Table A) (x : ℚ) : IsPat A (A.searchValue x) ∧ Mem A (A.searchValue x) (some x) := by
  have hk := h.kpos
  unfold Alphabet.searchValue
  split_ifs with h0 h1
  · subst h0; exact ⟨⟨le_rfl, by rw [zero_eq]; omega⟩, mem_zero.mpr hk⟩
  · obtain ⟨p, q⟩ := searchPos_mem h (x := -x) (by linarith)
    have := mem_neg h p q
    refine ⟨isPat_neg h _, ?_⟩
    simpa [pneg] using this
  · exact searchPos_mem h (lt_of_le_of_ne (not_lt.mp h1) (Ne.symm h0))

/-- **C72**: the patterns partition the projective line: every number and infinity belongs to exactly one. -/
theorem C72_partition (h : Table A) (x : Option ℚ) : ∃! v, IsPat A v ∧ Mem A v x := by
  have hk := h.kpos
  cases x with
  | none => exact ⟨4 * A.k, ⟨⟨by omega, by omega⟩, rfl⟩, fun w hw => hw.2⟩
  | some x =>
    exact ⟨A.searchValue x, searchValue_mem h x, fun w hw => mem_unique h hw.1 (searchValue_mem h x).1 hw.2 (searchValue_mem h x).2⟩

/-- 5 lies only in the interval between 4 and 8 -/
example : ∃! v, IsPat p4 v ∧ Mem p4 v (some 5) := C72_partition table_p4 _
example : Table p4 ∧ p4.exactValue 12 = some 4 ∧ p4.exactValue 14 = some 8 := ⟨table_p4, by decide +kernel, by decide +kernel⟩

/-- **C72**: going from `inf.next()` upward, the patterns stand for larger and larger numbers. -/
theorem C72_order (h : Table A) {v w : ℤ} (hv : IsPat A v) (hw : IsPat A w) {x y : ℚ} (hx : Mem A v (some x))
    (hy : Mem A w (some y)) : (v - 4 * A.k) % (8 * A.k) < (w - 4 * A.k) % (8 * A.k) → x < y := by
  intro hlt
  refine mem_lt h hv hw hx hy ?_
  have hv4 := hx.1
  have hw4 := hy.1
  obtain ⟨v1, v2⟩ := hv
  obtain ⟨w1, w2⟩ := hw
  have em : ∀ u : ℤ, 0 ≤ u → u < 8 * A.k → u ≠ 4 * A.k → (u - 4 * A.k) % (8 * A.k) = steps A u + 4 * A.k := by
    intro u u1 u2 u4
    unfold steps
    split_ifs with hu
    · rw [raw_id (by omega) (by omega)]; ring
    · rw [raw_neg (by omega) (by omega)]; ring
  rw [em v v1 v2 hv4, em w w1 w2 hw4] at hlt
  omega

example : IsPat p2 9 ∧ IsPat p2 3 ∧ ((9 : ℤ) - 4 * p2.k) % (8 * p2.k) < (3 - 4 * p2.k) % (8 * p2.k) :=
  ⟨⟨by decide, by decide⟩, ⟨by decide, by decide⟩, by decide +kernel⟩

/-- **C72**: `convert` finds the pattern of the number that `float(value)` returns, which is the only one. -/
theorem C72_convert (h : Table A) {fl : ℚ → M ℚ} {x y : ℚ} (hf : fl x = .ok y) (v : ℤ) :
    A.convert fl x = .ok v ↔ IsPat A v ∧ Mem A v (some y) := by
  unfold Alphabet.convert
  rw [hf]
  obtain ⟨p, q⟩ := searchValue_mem h y
  constructor
  · intro hv
    have : A.searchValue y = v := by cases hv; rfl
    rw [← this]; exact ⟨p, q⟩
  · rintro ⟨hv, hm⟩
    show Except.ok (A.searchValue y) = .ok v
    rw [mem_unique h p hv q hm]

example : p4.convert .ok (-3) = .ok 21 ∧ p4.convert .ok (1 / 16) = .ok 1 ∧ p4.convert .ok (1 / 4) = .ok 4 ∧ p4.convert .ok 9 = .ok 15 := by
  decide +kernel

/-- **C72**: converting the value of an exact number gives it back, if `float()` is exact on it, as it is for the tables of
powers of two. -/
theorem C72_convert_exactValue (h : Table A) {fl : ℚ → M ℚ} {v : ℤ} (hv : IsPat A v) (he : Alphabet.isExact v = true) {x : ℚ}
    (hx : A.exactValue v = some x) (hf : fl x = .ok x) : A.convert fl x = .ok v :=
  (C72_convert h hf v).mpr ⟨hv, (C72_exactValue h hv he _).mpr hx.symm⟩

example : Table p8 ∧ IsPat p8 60 ∧ p8.exactValue 60 = some (-1 / 64) ∧ p8.convert .ok (-1 / 64) = .ok 60 :=
  ⟨table_p8, ⟨by decide, by decide⟩, by decide +kernel, by decide +kernel⟩

/-- **C72** fails for a reciprocal that `float()` rounds: with the points 1 and 3, the exact number 1/3 is never found. -/
theorem C72_convert_wrong : Table ⟨[1, 3]⟩ ∧ (⟨[1, 3]⟩ : Alphabet).exactValue 2 = some (1 / 3) ∧
    ∀ (fl : ℚ → M ℚ) (y : ℚ), y ≠ 1 / 3 → fl (1 / 3) = .ok y → (⟨[1, 3]⟩ : Alphabet).convert fl (1 / 3) ≠ .ok 2 := by
  have ht : Table ⟨[1, 3]⟩ := (C72_make _).mp ⟨⟨[1, 3]⟩, by decide +kernel⟩
  have hv : (⟨[1, 3]⟩ : Alphabet).exactValue 2 = some (1 / 3) := by decide +kernel
  refine ⟨ht, hv, fun fl y hy hf hc => hy ?_⟩
  obtain ⟨p, q⟩ := (C72_convert ht hf 2).mp hc
  have := (C72_exactValue ht p (by decide) _).mp q
  rw [hv] at this
  exact Option.some.inj this

end Pnum
end Verif
