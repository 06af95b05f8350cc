import Verif.Props.PnumArith

/-!
# C74, C75: bounds of projective numbers, and the pairs of the generated tables
-/

namespace Verif
namespace Pnum

variable {A : Alphabet}

/-- a bound made of patterns -/
def Pbound.Ok (A : Alphabet) (b : Pbound) : Prop := IsPat A b.first ∧ IsPat A b.last

theorem has_iff (h : Table A) {b : Pbound} (hb : b.empty = false) {v : ℤ} (hv : IsPat A v) {x : Option ℚ} (hm : Mem A v x) :
    b.Has A x ↔ InArc A b.first b.last v := by
  constructor
  · rintro ⟨-, u, hu, ha, hm'⟩
    rwa [mem_unique h hv hu hm hm']
  · intro ha; exact ⟨hb, v, hv, ha, hm⟩

/-- **C74**: the named bounds hold nothing, all finite numbers, all numbers but 0, and everything. -/
theorem C74_named (h : Table A) (x : Option ℚ) : ¬ (Pbound.none A).Has A x ∧ ((Pbound.finite A).Has A x ↔ x ≠ none) ∧
    ((Pbound.nonzero A).Has A x ↔ x ≠ some 0) ∧ (Pbound.everything A).Has A x ∧
    ((Pbound.single A.inf).Has A x ↔ x = none) ∧ ((Pbound.single A.zero).Has A x ↔ x = some 0) ∧
    ((Pbound.single A.one).Has A x ↔ x = some 1) := by
  have hk := h.kpos
  have p4 : IsPat A (4 * A.k) := ⟨by omega, by omega⟩
  have p0 : IsPat A 0 := ⟨le_rfl, by omega⟩
  have p2 : IsPat A (2 * A.k) := ⟨by omega, by omega⟩
  have m1 : Mem A (2 * A.k) (some 1) := mem_even (by omega) (by omega) (by omega) (by
      have : (2 * (A.k : ℤ)) / 2 = A.k := by omega
      rw [this, pt_one h])
  obtain ⟨v, ⟨hv, hm⟩, -⟩ := C72_partition h x
  have n4 : v = 4 * A.k ↔ x = none := by
    constructor
    · rintro rfl
      cases x with
      | none => rfl
      | some x => exact absurd rfl hm.1
    · rintro rfl; exact hm
  have single : ∀ {u : ℤ} {y : Option ℚ}, IsPat A u → u % 2 = 0 → Mem A u y → (Mem A u x ↔ x = y) := by
    intro u y hu he hy
    have := C72_exactValue h hu (isExact_iff.mpr he)
    rw [this x, (this y).mp hy]
  have n0 : v = 0 ↔ x = some 0 := by
    rw [← single p0 rfl (mem_zero.mpr hk)]
    constructor
    · rintro rfl; exact hm
    · intro hc; exact mem_unique h hv p0 hm hc
  refine ⟨fun hc => ?_, ?_, ?_, has_everything h x, ?_, ?_, ?_⟩
  · have := hc.1; cases this
  · rw [has_iff h rfl hv hm, ← not_iff_not, not_not, ← n4]
    show ¬ InArc A (A.next A.inf) (A.prev A.inf) v ↔ _
    rw [inArc_iff (isPat_next h _) (isPat_prev h _) hv, inf_eq h, next_eq p4, prev_eq p4]
    unfold IsPat at hv
    split_ifs <;> omega
  · rw [has_iff h rfl hv hm, ← not_iff_not, not_not, ← n0]
    show ¬ InArc A (A.next A.zero) (A.prev A.zero) v ↔ _
    rw [inArc_iff (isPat_next h _) (isPat_prev h _) hv, zero_eq, next_eq p0, prev_eq p0]
    unfold IsPat at hv
    split_ifs <;> omega
  · rw [inf_eq h, has_single p4, ← n4]
    exact ⟨fun hc => mem_unique h hv p4 hm hc, fun e => e ▸ hm⟩
  · rw [zero_eq, has_single p0, single p0 rfl (mem_zero.mpr hk)]
  · rw [one_eq h, has_single p2, single p2 (by omega) m1]

example : Pbound.finite p2 = ⟨false, 9, 7⟩ ∧ Pbound.nonzero p2 = ⟨false, 1, 15⟩ ∧ Pbound.everything p2 = ⟨false, 0, 15⟩ := by decide +kernel

/-- **C74**, partial: the complement holds exactly the numbers the bound does not — for bounds that do not hold everything. -/
theorem C74_complement_partial (h : Table A) {b : Pbound} (hb : b.Ok A) (he : b.empty = true ∨ A.next b.last ≠ b.first) (x : Option ℚ) :
    (b.complement A).Has A x ↔ ¬ b.Has A x := by
  obtain ⟨v, ⟨hv, hm⟩, -⟩ := C72_partition h x
  have hk := h.kpos
  unfold Pbound.complement Pbound.isEverything
  cases hem : b.empty with
  | true =>
    rw [if_pos rfl]
    refine ⟨fun _ hc => ?_, fun _ => has_everything h x⟩
    rw [hc.1] at hem; cases hem
  | false =>
    have he := he.resolve_left (by rw [hem]; decide)
    rw [if_neg (by decide), if_neg (by decide), has_iff h rfl hv hm, has_iff h hem hv hm]
    show InArc A (A.next b.last) (A.prev b.first) v ↔ _
    obtain ⟨b1, b2⟩ := hb
    rw [inArc_iff (isPat_next h _) (isPat_prev h _) hv, inArc_iff b1 b2 hv]
    rw [next_eq b2] at he ⊢
    rw [prev_eq b1]
    unfold IsPat at hv b1 b2
    split_ifs at he ⊢ <;> omega

example : (Pbound.complement p2 ⟨false, 3, 6⟩) = ⟨false, 7, 2⟩ ∧ (Pbound.complement p2 (Pbound.finite p2)) = Pbound.single 8 := by
  decide +kernel

/-- **C74** fails for everything: `iseverything()` compares two objects, which are never the same, and the complement of a bound
that holds everything holds everything. -/
theorem C74_complement_wrong (h : Table A) {b : Pbound} (hb : b.Ok A) (hem : b.empty = false) (he : A.next b.last = b.first)
    (x : Option ℚ) : b.Has A x ∧ (b.complement A).Has A x := by
  obtain ⟨v, ⟨hv, hm⟩, -⟩ := C72_partition h x
  have hk := h.kpos
  obtain ⟨b1, b2⟩ := hb
  unfold Pbound.complement Pbound.isEverything
  rw [hem, if_neg (by decide), if_neg (by decide), has_iff h hem hv hm, has_iff h rfl hv hm]
  show _ ∧ InArc A (A.next b.last) (A.prev b.first) v
  rw [inArc_iff (isPat_next h _) (isPat_prev h _) hv, inArc_iff b1 b2 hv]
  rw [next_eq b2] at he ⊢
  rw [prev_eq b1]
  unfold IsPat at hv b1 b2
  split_ifs at he ⊢ <;> omega

example : (Pbound.complement p2 (Pbound.everything p2)) = ⟨false, 0, 15⟩ ∧ p2.next (Pbound.everything p2).last = (Pbound.everything p2).first := by
  decide +kernel

/-- **C74**, partial: the reciprocal of a bound holds exactly the reciprocals — for bounds that are not empty. -/
theorem C74_invert_partial (h : Table A) {b : Pbound} (hb : b.Ok A) (hem : b.empty = false) (x : Option ℚ) :
    (b.invert A).Has A (pinv x) ↔ b.Has A x := by
  obtain ⟨v, ⟨hv, hm⟩, -⟩ := C72_partition h x
  have hk := h.kpos
  obtain ⟨b1, b2⟩ := hb
  unfold Pbound.invert Pbound.isEverything
  rw [if_neg (by decide), has_iff h hem hv hm, has_iff h rfl (isPat_inv h v) (mem_inv h hv hm)]
  show InArc A (A.inv b.last) (A.inv b.first) (A.inv v) ↔ _
  rw [inArc_iff (isPat_inv h _) (isPat_inv h _) (isPat_inv h _), inArc_iff b1 b2 hv, inv_eq b1, inv_eq b2, inv_eq hv]
  unfold IsPat at hv b1 b2
  split_ifs <;> omega

example : Pbound.invert p2 ⟨false, 14, 2⟩ = ⟨false, 6, 10⟩ := by decide +kernel

/-- **C74** fails for the empty bound, whose reciprocal holds infinity. -/
theorem C74_invert_wrong (h : Table A) : (Pbound.invert A (Pbound.none A)).Has A none ∧ ∀ x, ¬ (Pbound.none A).Has A x := by
  have hk := h.kpos
  have p0 : IsPat A 0 := ⟨le_rfl, by omega⟩
  refine ⟨?_, fun x hc => by have := hc.1; cases this⟩
  have e : Pbound.invert A (Pbound.none A) = Pbound.single (4 * A.k) := by
    unfold Pbound.invert Pbound.isEverything Pbound.none Pbound.single
    rw [if_neg (by decide), zero_eq, inv_eq p0, if_pos (by omega), sub_zero]
  rw [e]
  exact (has_single ⟨by omega, by omega⟩ _).mpr rfl

example : (Pbound.invert p4 (Pbound.none p4)).Has p4 none := (C74_invert_wrong table_p4).1

theorem iterFrom_spec (h : Table A) : ∀ (fuel : ℕ) (f l : ℤ), IsPat A f → IsPat A l → (l - f) % (8 * A.k) < fuel →
    Pbound.iterFrom A fuel f l = (List.range (((l - f) % (8 * A.k)).toNat + 1)).map fun i : ℕ => (f + i) % (8 * A.k)
  | 0, f, l, hf, hl, hfu => by
    have hk := h.kpos
    have := Int.emod_nonneg (l - f) (show (8 * (A.k : ℤ)) ≠ 0 by omega)
    omega
  | fuel + 1, f, l, hf, hl, hfu => by
    have hk := h.kpos
    have d : ∀ {g : ℤ}, IsPat A g → (l - g) % (8 * A.k) = if g ≤ l then l - g else l - g + 8 * A.k := by
      intro g hg
      unfold IsPat at hg hl
      split_ifs with hc
      · exact raw_id (by omega) (by omega)
      · exact raw_neg (by omega) (by omega)
    have hn := isPat_next h f
    unfold Pbound.iterFrom
    rw [List.range_succ_eq_map, List.map_cons, List.map_map]
    have e0 : (f + (0 : ℕ)) % (8 * (A.k : ℤ)) = f := by
      unfold IsPat at hf
      rw [Nat.cast_zero, add_zero]; exact raw_id hf.1 hf.2
    rw [e0]
    by_cases hfl : f = l
    · subst hfl
      simp
    · rw [if_pos hfl]
      have e1 : (l - A.next f) % (8 * A.k) = (l - f) % (8 * A.k) - 1 := by
        rw [d hn, d hf, next_eq hf]
        unfold IsPat at hf hl
        split_ifs <;> omega
      have e2 : 0 < (l - f) % (8 * A.k) := by
        rw [d hf]
        unfold IsPat at hf hl
        split_ifs <;> omega
      rw [iterFrom_spec h fuel (A.next f) l hn hl (by omega), e1]
      have e3 : ((l - f) % (8 * A.k) - 1).toNat + 1 = ((l - f) % (8 * A.k)).toNat := by omega
      rw [e3]
      congr 1
      apply List.map_congr_left
      intro i _
      simp only [Function.comp]
      unfold Alphabet.next
      rw [n2_eq, Int.emod_add_emod]
      congr 1
      push_cast; ring

/-- **C74**: `iter()` yields the patterns of the bound one after another, each once, starting with the first. -/
theorem C74_iter (h : Table A) {b : Pbound} (hb : b.Ok A) (hem : b.empty = false) :
    (b.iter A).head? = some b.first ∧ (b.iter A).Nodup ∧ (∀ v, v ∈ b.iter A ↔ IsPat A v ∧ InArc A b.first b.last v) ∧
    List.IsChain (fun v w => w = A.next v) (b.iter A) := by
  have hk := h.kpos
  obtain ⟨b1, b2⟩ := hb
  have hr := Int.emod_lt_of_pos (b.last - b.first) (show 0 < 8 * (A.k : ℤ) by omega)
  have hr0 := Int.emod_nonneg (b.last - b.first) (show 8 * (A.k : ℤ) ≠ 0 by omega)
  have e : b.iter A = (List.range (((b.last - b.first) % (8 * A.k)).toNat + 1)).map fun i : ℕ => (b.first + i) % (8 * A.k) := by
    unfold Pbound.iter
    rw [hem, if_neg (by decide), iterFrom_spec h _ _ _ b1 b2]
    rw [n2_eq]; omega
  have dd : ∀ {g : ℤ}, IsPat A g → (g - b.first) % (8 * A.k) = if b.first ≤ g then g - b.first else g - b.first + 8 * A.k := by
    intro g hg
    unfold IsPat at hg b1
    split_ifs with hc
    · exact raw_id (by omega) (by omega)
    · exact raw_neg (by omega) (by omega)
  have val : ∀ i : ℕ, i < 8 * A.k → (b.first + i) % (8 * A.k) = if b.first + i < 8 * A.k then b.first + i else b.first + i - 8 * A.k := by
    intro i hi
    unfold IsPat at b1
    split_ifs with hc
    · exact raw_id (by omega) hc
    · exact raw_over (by omega) (by omega)
  rw [e]
  refine ⟨?_, ?_, ?_, ?_⟩
  · rw [List.range_succ_eq_map, List.map_cons, List.head?_cons]
    rw [Nat.cast_zero, add_zero, raw_id b1.1 b1.2]
  · refine List.Nodup.map_on ?_ List.nodup_range
    intro i hi j hj hij
    rw [List.mem_range] at hi hj
    rw [val i (by omega), val j (by omega)] at hij
    split_ifs at hij <;> omega
  · intro v
    rw [List.mem_map]
    constructor
    · rintro ⟨i, hi, rfl⟩
      rw [List.mem_range] at hi
      refine ⟨isPat_mod h _, ?_⟩
      unfold InArc
      rw [Int.emod_sub_emod, add_sub_cancel_left, raw_id (by omega) (by omega)]
      omega
    · rintro ⟨hv, ha⟩
      unfold InArc at ha
      have n0 := Int.emod_nonneg (v - b.first) (show 8 * (A.k : ℤ) ≠ 0 by omega)
      refine ⟨((v - b.first) % (8 * A.k)).toNat, by rw [List.mem_range]; omega, ?_⟩
      rw [Int.toNat_of_nonneg n0, Int.add_emod_emod, add_sub_cancel, raw_id hv.1 hv.2]
  · rw [List.isChain_map]
    refine (List.isChain_range_succ _ _).mpr ?_
    intro i hi
    unfold Alphabet.next
    rw [n2_eq, Int.emod_add_emod]
    congr 1
    push_cast; ring

example : Pbound.iter p2 ⟨false, 14, 2⟩ = [14, 15, 0, 1, 2] := by decide +kernel

/-! ## The pairs of the generated tables -/

/-- the same pair up to order and sign of both -/
def SamePair (A : Alphabet) (p q : ℤ × ℤ) : Prop :=
  p = q ∨ p = (q.2, q.1) ∨ p = (A.neg q.1, A.neg q.2) ∨ p = (A.neg q.2, A.neg q.1)

theorem neg_pos {x : ℤ} (h0 : 0 < x) (h8 : x < 8 * A.k) : A.neg x = 8 * A.k - x := by
  rw [neg_eq ⟨h0.le, h8⟩, if_neg (by omega)]

theorem tabPairs_eq {i j : ℕ} (hij : i ≤ j) (hj : j < A.k) : tabPairs A i j =
    if i = 0 then
      if j = 0 then [(2 * (A.k : ℤ), 2 * (A.k : ℤ)), (6 * (A.k : ℤ), 2 * (A.k : ℤ))]
      else [(2 * (A.k : ℤ), 2 * (A.k : ℤ) + 2 * j), (2 * (A.k : ℤ), 6 * (A.k : ℤ) - 2 * j), (6 * (A.k : ℤ), 6 * (A.k : ℤ) + 2 * j),
        (2 * (A.k : ℤ), 6 * (A.k : ℤ) + 2 * j)]
    else if i = j then [(2 * (A.k : ℤ) + 2 * i, 2 * (A.k : ℤ) + 2 * i), (2 * (A.k : ℤ) + 2 * i, 6 * (A.k : ℤ) - 2 * i),
      (2 * (A.k : ℤ) - 2 * i, 2 * (A.k : ℤ) + 2 * i), (2 * (A.k : ℤ) - 2 * i, 2 * (A.k : ℤ) - 2 * i),
      (2 * (A.k : ℤ) + 2 * i, 6 * (A.k : ℤ) + 2 * i)]
    else [(2 * (A.k : ℤ) + 2 * i, 2 * (A.k : ℤ) + 2 * j), (2 * (A.k : ℤ) + 2 * i, 6 * (A.k : ℤ) - 2 * j),
      (2 * (A.k : ℤ) - 2 * i, 2 * (A.k : ℤ) + 2 * j), (6 * (A.k : ℤ) - 2 * i, 6 * (A.k : ℤ) + 2 * j),
      (6 * (A.k : ℤ) + 2 * i, 6 * (A.k : ℤ) + 2 * j), (2 * (A.k : ℤ) - 2 * i, 6 * (A.k : ℤ) + 2 * j),
      (2 * (A.k : ℤ) - 2 * i, 6 * (A.k : ℤ) - 2 * j), (2 * (A.k : ℤ) + 2 * i, 6 * (A.k : ℤ) + 2 * j)] := by
  have fi := fromExactsIndex_eq (A := A) (i := i) (by omega)
  have fj := fromExactsIndex_eq (A := A) (i := j) hj
  have ii : A.inv (2 * A.k + 2 * i) = 2 * A.k - 2 * i := by rw [inv_eq ⟨by omega, by omega⟩, if_pos (by omega)]; ring
  have ij : A.inv (2 * A.k + 2 * j) = 2 * A.k - 2 * j := by rw [inv_eq ⟨by omega, by omega⟩, if_pos (by omega)]; ring
  have n1 : A.neg (2 * A.k + 2 * i) = 6 * A.k - 2 * i := by rw [neg_pos (by omega) (by omega)]; ring
  have n2 : A.neg (2 * A.k + 2 * j) = 6 * A.k - 2 * j := by rw [neg_pos (by omega) (by omega)]; ring
  have n3 : A.neg (2 * A.k - 2 * i) = 6 * A.k + 2 * i := by rw [neg_pos (by omega) (by omega)]; ring
  have n4 : A.neg (2 * A.k - 2 * j) = 6 * A.k + 2 * j := by rw [neg_pos (by omega) (by omega)]; ring
  unfold tabPairs
  rw [fi, fj]
  simp only []
  rw [ii, ij, n1, n2, n3, n4]
  split_ifs with h1 h2 h3
  · subst h1; subst h2; simp
  · subst h1; simp
  · subst h3; rfl
  · rfl

theorem tab_pat {i j : ℕ} (hij : i ≤ j) (hj : j < A.k) {q : ℤ × ℤ} (hq : q ∈ tabPairs A i j) :
    (0 < q.1 ∧ q.1 < 8 * A.k) ∧ 0 < q.2 ∧ q.2 < 8 * A.k := by
  rw [tabPairs_eq hij hj] at hq
  split_ifs at hq <;> simp only [List.mem_cons, List.not_mem_nil, or_false] at hq <;>
    rcases hq with rfl | rfl | rfl | rfl | rfl | rfl | rfl | rfl | rfl <;> simp only [] <;> omega

/-- a finite exact number other than 0 by the index of its point -/
theorem exact_cases {v : ℤ} (hv : IsPat A v) (ev : v % 2 = 0) (v0 : v ≠ 0) (v4 : v ≠ 4 * A.k) : ∃ i : ℕ, i < A.k ∧
    (v = 2 * A.k + 2 * i ∨ v = 2 * A.k - 2 * i ∨ v = 6 * A.k - 2 * i ∨ v = 6 * A.k + 2 * i) := by
  unfold IsPat at hv
  by_cases h1 : v < 4 * A.k
  · by_cases h2 : 2 * A.k ≤ v
    · exact ⟨((v - 2 * A.k) / 2).toNat, by omega, by omega⟩
    · exact ⟨((2 * A.k - v) / 2).toNat, by omega, by omega⟩
  · by_cases h2 : 6 * A.k ≤ v
    · exact ⟨((v - 6 * A.k) / 2).toNat, by omega, by omega⟩
    · exact ⟨((6 * A.k - v) / 2).toNat, by omega, by omega⟩

theorem SamePair.swap {v w : ℤ} {q : ℤ × ℤ} (hs : SamePair A (v, w) q) : SamePair A (w, v) q := by
  unfold SamePair at *
  rcases hs with hs | hs | hs | hs
  · right; left; rw [← hs]
  · left
    rw [Prod.mk.injEq] at hs
    rw [hs.1, hs.2]
  · right; right; right
    rw [Prod.mk.injEq] at hs ⊢
    exact ⟨hs.2, hs.1⟩
  · right; right; left
    rw [Prod.mk.injEq] at hs ⊢
    exact ⟨hs.2, hs.1⟩

/-- the same pair, in numbers -/
def NumPair (A : Alphabet) (v w : ℤ) (q : ℤ × ℤ) : Prop :=
  v = q.1 ∧ w = q.2 ∨ v = q.2 ∧ w = q.1 ∨ v = 8 * A.k - q.1 ∧ w = 8 * A.k - q.2 ∨ v = 8 * A.k - q.2 ∧ w = 8 * A.k - q.1

theorem samePair_iff {i j : ℕ} (hij : i ≤ j) (hj : j < A.k) {v w : ℤ} {q : ℤ × ℤ} (hq : q ∈ tabPairs A i j) :
    SamePair A (v, w) q ↔ NumPair A v w q := by
  obtain ⟨⟨q1, q2⟩, q3, q4⟩ := tab_pat hij hj hq
  unfold SamePair NumPair
  rw [neg_pos q1 q2, neg_pos q3 q4]
  obtain ⟨a, b⟩ := q
  simp only [Prod.mk.injEq]

theorem num_same {v w a b : ℤ} (h1 : v = a) (h2 : w = b) : NumPair A v w (a, b) := Or.inl ⟨h1, h2⟩
theorem num_neg {v w a b : ℤ} (h1 : v = 8 * A.k - a) (h2 : w = 8 * A.k - b) : NumPair A v w (a, b) := Or.inr (Or.inr (Or.inl ⟨h1, h2⟩))

theorem pairs_aux {v w : ℤ} {i j : ℕ} (hij : i ≤ j) (hj : j < A.k)
    (hv : v = 2 * A.k + 2 * i ∨ v = 2 * A.k - 2 * i ∨ v = 6 * A.k - 2 * i ∨ v = 6 * A.k + 2 * i)
    (hw : w = 2 * A.k + 2 * j ∨ w = 2 * A.k - 2 * j ∨ w = 6 * A.k - 2 * j ∨ w = 6 * A.k + 2 * j)
    (hne : ¬ (w = 8 * A.k - v ∧ (v < 2 * A.k ∨ 6 * A.k < v))) : ∃ q ∈ tabPairs A i j, SamePair A (v, w) q := by
  suffices hs : ∃ q ∈ tabPairs A i j, NumPair A v w q by
    obtain ⟨q, hq, hc⟩ := hs
    exact ⟨q, hq, (samePair_iff hij hj hq).mpr hc⟩
  rw [tabPairs_eq hij hj]
  split_ifs with h1 h2 h3 <;> simp only [List.exists_mem_cons_iff, List.not_mem_nil, false_and, exists_false, or_false]
  · subst h1; subst h2
    unfold NumPair
    simp only [Nat.cast_zero, mul_zero, add_zero, sub_zero] at *; omega
  · subst h1
    simp only [Nat.cast_zero, mul_zero, add_zero, sub_zero] at *
    have hv : v = 2 * A.k ∨ v = 6 * A.k := by omega
    clear hne
    rcases hv with hv | hv <;> rcases hw with hw | hw | hw | hw
    · exact Or.inl (num_same hv hw)
    · exact Or.inr (Or.inr (Or.inl (num_neg (by omega) (by omega))))
    · exact Or.inr (Or.inl (num_same hv hw))
    · exact Or.inr (Or.inr (Or.inr (num_same hv hw)))
    · exact Or.inr (Or.inl (num_neg (by omega) (by omega)))
    · exact Or.inr (Or.inr (Or.inr (num_neg (by omega) (by omega))))
    · exact Or.inl (num_neg (by omega) (by omega))
    · exact Or.inr (Or.inr (Or.inl (num_same hv hw)))
  · subst h3
    rcases hv with hv | hv | hv | hv <;> rcases hw with hw | hw | hw | hw
    · exact Or.inl (num_same hv hw)
    · exact Or.inr (Or.inr (Or.inl (Or.inr (Or.inl ⟨hv, hw⟩))))
    · exact Or.inr (Or.inl (num_same hv hw))
    · exact Or.inr (Or.inr (Or.inr (Or.inr (num_same hv hw))))
    · exact Or.inr (Or.inr (Or.inl (num_same hv hw)))
    · exact Or.inr (Or.inr (Or.inr (Or.inl (num_same hv hw))))
    · exact Or.inr (Or.inr (Or.inr (Or.inr (Or.inr (Or.inr (Or.inr ⟨by omega, by omega⟩))))))
    · omega
    · exact Or.inr (Or.inl (num_neg (by omega) (by omega)))
    · exact Or.inr (Or.inr (Or.inr (Or.inr (num_neg (by omega) (by omega)))))
    · exact Or.inl (num_neg (by omega) (by omega))
    · exact Or.inr (Or.inr (Or.inl (Or.inr (Or.inr (Or.inr ⟨by omega, by omega⟩)))))
    · exact Or.inr (Or.inr (Or.inr (Or.inr (Or.inr (Or.inl ⟨hv, hw⟩)))))
    · omega
    · exact Or.inr (Or.inr (Or.inl (num_neg (by omega) (by omega))))
    · exact Or.inr (Or.inr (Or.inr (Or.inl (num_neg (by omega) (by omega)))))
  · clear hne
    rcases hv with hv | hv | hv | hv <;> rcases hw with hw | hw | hw | hw
    · exact Or.inl (num_same hv hw)
    · exact Or.inr (Or.inr (Or.inr (Or.inl (num_neg (by omega) (by omega)))))
    · exact Or.inr (Or.inl (num_same hv hw))
    · exact Or.inr (Or.inr (Or.inr (Or.inr (Or.inr (Or.inr (Or.inr (num_same hv hw)))))))
    · exact Or.inr (Or.inr (Or.inl (num_same hv hw)))
    · exact Or.inr (Or.inr (Or.inr (Or.inr (Or.inl (num_neg (by omega) (by omega))))))
    · exact Or.inr (Or.inr (Or.inr (Or.inr (Or.inr (Or.inr (Or.inl (num_same hv hw)))))))
    · exact Or.inr (Or.inr (Or.inr (Or.inr (Or.inr (Or.inl (num_same hv hw))))))
    · exact Or.inr (Or.inl (num_neg (by omega) (by omega)))
    · exact Or.inr (Or.inr (Or.inr (Or.inr (Or.inr (Or.inr (Or.inr (num_neg (by omega) (by omega))))))))
    · exact Or.inl (num_neg (by omega) (by omega))
    · exact Or.inr (Or.inr (Or.inr (Or.inl (num_same hv hw))))
    · exact Or.inr (Or.inr (Or.inr (Or.inr (Or.inr (Or.inr (Or.inl (num_neg (by omega) (by omega))))))))
    · exact Or.inr (Or.inr (Or.inr (Or.inr (Or.inr (Or.inl (num_neg (by omega) (by omega)))))))
    · exact Or.inr (Or.inr (Or.inl (num_neg (by omega) (by omega))))
    · exact Or.inr (Or.inr (Or.inr (Or.inr (Or.inl (num_same hv hw)))))

/-- **C75**, partial: up to order and common sign, every pair of exact numbers other than 0 and infinity is tabulated for some
`i ≤ j` — except for the reciprocals of a point above 1 and of its negative, see `C75_pairs_wrong`. -/
theorem C75_pairs_partial (h : Table A) {v w : ℤ} (hv : IsPat A v) (hw : IsPat A w) (ev : Alphabet.isExact v = true)
    (ew : Alphabet.isExact w = true) (v0 : v ≠ A.zero) (w0 : w ≠ A.zero) (v4 : v ≠ A.inf) (w4 : w ≠ A.inf)
    (hne : ¬ (w = A.neg v ∧ (v < 2 * A.k ∨ 6 * A.k < v))) :
    ∃ i j, i ≤ j ∧ j < A.k ∧ ∃ q ∈ tabPairs A i j, SamePair A (v, w) q := by
  rw [zero_eq] at v0 w0
  rw [inf_eq h] at v4 w4
  rw [isExact_iff] at ev ew
  obtain ⟨i, hi, ci⟩ := exact_cases hv ev v0 v4
  obtain ⟨j, hj, cj⟩ := exact_cases hw ew w0 w4
  rw [neg_eq hv, if_neg v0] at hne
  rcases le_total i j with hij | hij
  · exact ⟨i, j, hij, hj, pairs_aux hij hj ci cj hne⟩
  · obtain ⟨q, hq, hs⟩ := pairs_aux hij hi cj ci (by omega)
    exact ⟨j, i, hij, hi, q, hq, hs.swap⟩

example : (6, 10) ∈ tabPairs p2 1 1 ∧ (2, 6) ∈ tabPairs p2 1 1 ∧ ¬ ((6 : ℤ) < 2 * p2.k ∨ 6 * (p2.k : ℤ) < 6) := by decide +kernel

/-- **C75** fails for the reciprocals of a point above 1 and of its negative: this pair is in none of the lists. -/
theorem C75_pairs_wrong (h : Table A) {i : ℕ} (hi : 0 < i) (hk : i < A.k) :
    let r := A.inv (A.fromExactsIndex i)
    Mem A r (some (1 / A.e i)) ∧ ∀ m n, m ≤ n → n < A.k → ∀ q ∈ tabPairs A m n, ¬ SamePair A (r, A.neg r) q := by
  have er : A.inv (A.fromExactsIndex i) = 2 * A.k - 2 * i := by
    rw [fromExactsIndex_eq hk, inv_eq ⟨by omega, by omega⟩, if_pos (by omega)]; ring
  simp only []
  rw [er]
  refine ⟨?_, ?_⟩
  · refine mem_even (by omega) (by omega) (by omega) ?_
    have : (2 * (A.k : ℤ) - 2 * i) / 2 = A.k - i := by omega
    rw [this, pt_low h hk]
  · intro m n hmn hn q hq hs
    obtain ⟨⟨q1, q2⟩, q3, q4⟩ := tab_pat hmn hn hq
    unfold SamePair at hs
    rw [neg_pos q1 q2, neg_pos q3 q4, neg_pos (by omega) (by omega)] at hs
    rw [tabPairs_eq hmn hn] at hq
    split_ifs at hq with h1 h2 h3 <;> simp only [List.mem_cons, List.not_mem_nil, or_false] at hq <;>
      rcases hq with rfl | rfl | rfl | rfl | rfl | rfl | rfl | rfl | rfl <;> simp only [Prod.mk.injEq] at hs <;> omega

example : Table p4 ∧ p4.inv (p4.fromExactsIndex 2) = 4 := ⟨table_p4, by decide +kernel⟩

/-- the index of the point of an exact number -/
def idx (A : Alphabet) (v : ℤ) : ℤ := if v < 4 * A.k then |v - 2 * A.k| else |v - 6 * A.k|

theorem idx_neg {v : ℤ} (h4 : v ≠ 4 * A.k) : idx A (8 * A.k - v) = idx A v := by
  unfold idx
  by_cases hc : v < 4 * A.k
  · rw [if_pos hc, if_neg (by omega), ← abs_neg]; congr 1; ring
  · rw [if_neg hc, if_pos (by omega), ← abs_neg]; congr 1; ring

theorem idx_tab {i j : ℕ} (hij : i ≤ j) (hj : j < A.k) {q : ℤ × ℤ} (hq : q ∈ tabPairs A i j) :
    idx A q.1 = 2 * i ∧ idx A q.2 = 2 * j ∧ q.1 ≠ 4 * A.k ∧ q.2 ≠ 4 * A.k := by
  have v1 : ∀ m : ℕ, m < A.k → idx A (2 * A.k + 2 * m) = 2 * m := by
    intro m hm; unfold idx; rw [if_pos (by omega), add_sub_cancel_left, abs_of_nonneg (by omega)]
  have v2 : ∀ m : ℕ, m < A.k → idx A (2 * A.k - 2 * m) = 2 * m := by
    intro m hm; unfold idx; rw [if_pos (by omega), abs_of_nonpos (by omega)]; ring
  have v3 : ∀ m : ℕ, m < A.k → idx A (6 * A.k - 2 * m) = 2 * m := by
    intro m hm; unfold idx; rw [if_neg (by omega), abs_of_nonpos (by omega)]; ring
  have v4 : ∀ m : ℕ, m < A.k → idx A (6 * A.k + 2 * m) = 2 * m := by
    intro m hm; unfold idx; rw [if_neg (by omega), add_sub_cancel_left, abs_of_nonneg (by omega)]
  have hi : i < A.k := by omega
  have u1 := v1 i hi
  have u2 := v2 i hi
  have u3 := v3 i hi
  have u4 := v4 i hi
  have w1 := v1 j hj
  have w2 := v2 j hj
  have w3 := v3 j hj
  have w4 := v4 j hj
  clear v1 v2 v3 v4
  rw [tabPairs_eq hij hj] at hq
  split_ifs at hq with h1 h2 h3 <;> simp only [List.mem_cons, List.not_mem_nil, or_false] at hq <;>
    rcases hq with rfl | rfl | rfl | rfl | rfl | rfl | rfl | rfl | rfl <;>
    (try subst h1) <;> (try subst h2) <;> (try subst h3) <;> simp only [Nat.cast_zero, mul_zero, add_zero, sub_zero] at * <;>
    refine ⟨by assumption, by assumption, by omega, by omega⟩

/-- **C75**: no pair is tabulated twice. -/
theorem C75_pairs_once {i j m n : ℕ} (hij : i ≤ j) (hj : j < A.k) (hmn : m ≤ n) (hn : n < A.k) {p q : ℤ × ℤ}
    (hp : p ∈ tabPairs A i j) (hq : q ∈ tabPairs A m n) (hs : SamePair A p q) : i = m ∧ j = n ∧ p = q ∧ (tabPairs A i j).Nodup := by
  obtain ⟨p1, p2, p3, p4⟩ := idx_tab hij hj hp
  obtain ⟨q1, q2, q3, q4⟩ := idx_tab hmn hn hq
  have hs := (samePair_iff (v := p.1) (w := p.2) hmn hn hq).mp hs
  unfold NumPair at hs
  have e : i = m ∧ j = n := by
    rcases hs with ⟨a, b⟩ | ⟨a, b⟩ | ⟨a, b⟩ | ⟨a, b⟩ <;> rw [a] at p1 <;> rw [b] at p2 <;> (try rw [idx_neg (by assumption)] at p1 p2) <;> omega
  obtain ⟨rfl, rfl⟩ := e
  refine ⟨rfl, rfl, ?_, ?_⟩
  · clear p1 p2 p3 p4 q1 q2 q3 q4
    obtain ⟨p1, p2⟩ := p
    obtain ⟨q1, q2⟩ := q
    simp only [] at hs
    rw [tabPairs_eq hij hj] at hp hq
    rw [Prod.mk.injEq]
    split_ifs at hp hq with h1 h2 h3 <;> simp only [List.mem_cons, List.not_mem_nil, or_false, Prod.mk.injEq] at hp hq
    · omega
    · rcases hs with hs | hs | hs | hs <;> omega
    · subst h3
      rcases hs with hs | hs | hs | hs <;> rcases hp with hp | hp | hp | hp | hp <;> omega
    · rcases hs with hs | hs | hs | hs <;> rcases hp with hp | hp | hp | hp | hp | hp | hp | hp <;> omega
  · rw [tabPairs_eq hij hj]
    split_ifs <;> simp only [List.nodup_cons, List.mem_cons, List.not_mem_nil, or_false, not_false_eq_true, List.nodup_nil, Prod.mk.injEq, and_true] <;> omega

example : (10, 12) ∈ tabPairs p4 1 2 ∧ (tabPairs p4 1 2).length = 8 ∧ SamePair p4 (10, 12) (10, 12) :=
  ⟨by decide +kernel, by decide +kernel, Or.inl rfl⟩

end Pnum
end Verif
