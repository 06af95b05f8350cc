import Verif.Props.PnumBound
import Verif.Spec.PnumText

/-!
# C132: texts of projective numbers and bounds
-/

namespace Verif
namespace Pnum

variable {A : Alphabet}

/-- comparisons with an exact number -/
theorem key_lt (h : Table A) {v w : ℤ} (hv : IsPat A v) (hw : IsPat A w) (he : w % 2 = 0) {x : Option ℚ} (hm : Mem A v x) :
    (key (A.exactValue w) < key x ↔ steps A w < steps A v) ∧ (key x < key (A.exactValue w) ↔ steps A v < steps A w) ∧
    (x = A.exactValue w ↔ v = w) := by
  have hk := h.kpos
  have hy := mem_exactValue h hw he
  generalize A.exactValue w = y at hy
  have e3 : x = y ↔ v = w := by
    constructor
    · rintro rfl; exact mem_unique h hv hw hm hy
    · rintro rfl
      have c := C72_exactValue h hv (isExact_iff.mpr he)
      rw [(c x).mp hm, (c y).mp hy]
  have s4 : steps A (4 * A.k) = 4 * A.k := by unfold steps; rw [if_neg (by omega)]
  cases x with
  | none =>
    have hv4 : v = 4 * A.k := hm
    cases y with
    | none =>
      have hw4 : w = 4 * A.k := hy
      rw [hv4, hw4]
      simp [key]
    | some y =>
      have := steps_lt hw hy.1
      rw [hv4] at e3 ⊢
      rw [s4]
      exact ⟨⟨fun _ => this, fun _ => WithTop.coe_lt_top y⟩, ⟨fun hc => absurd hc not_top_lt, fun hc => by omega⟩, e3⟩
  | some x =>
    have l1 := steps_lt hv hm.1
    cases y with
    | none =>
      have hw4 : w = 4 * A.k := hy
      rw [hw4] at e3 ⊢
      rw [s4]
      exact ⟨⟨fun hc => absurd hc not_top_lt, fun hc => by omega⟩, ⟨fun _ => l1, fun _ => WithTop.coe_lt_top x⟩, e3⟩
    | some y =>
      have a1 : y < x → steps A w < steps A v := fun hl => steps_lt_of_lt h hw hv hy hm hl he
      have a2 : x < y → steps A v < steps A w := fun hl => by
        have := steps_le_of_le h hv hw hm hy hl.le
        rcases this.lt_or_eq with c | c
        · exact c
        · exact absurd (e3.mpr (steps_inj hv hw c)) (by simpa using hl.ne)
      have a3 : x = y → steps A v = steps A w := fun hl => by rw [e3.mp (by rw [hl])]
      have k1 : key (some y) < key (some x) ↔ y < x := WithTop.coe_lt_coe
      have k2 : key (some x) < key (some y) ↔ x < y := WithTop.coe_lt_coe
      refine ⟨?_, ?_, e3⟩
      · rw [k1]
        refine ⟨a1, fun hc => ?_⟩
        rcases lt_trichotomy x y with c | c | c
        · have := a2 c; omega
        · have := a3 c; omega
        · exact c
      · rw [k2]
        refine ⟨a2, fun hc => ?_⟩
        rcases lt_trichotomy x y with c | c | c
        · exact c
        · have := a3 c; omega
        · have := a1 c; omega

theorem between_iff (h : Table A) {v w u : ℤ} (hv : IsPat A v) (hw : IsPat A w) (hu : IsPat A u) (he : w % 2 = 0) (hf : u % 2 = 0)
    {x : Option ℚ} (hm : Mem A v x) : Between (A.exactValue w) (A.exactValue u) x ↔
    if steps A w < steps A u then steps A w < steps A v ∧ steps A v < steps A u else steps A w < steps A v ∨ steps A v < steps A u := by
  unfold Between
  rw [(key_lt h hv hw he hm).1, (key_lt h hv hu hf hm).2.1]
  have := (key_lt h hu hw he (mem_exactValue h hu hf)).1
  simp only [this]

/-- **C132**: read as an arc of the projective line, the text of a bound stands for exactly the numbers of the bound. -/
theorem C132_bound (h : Table A) {b : Pbound} (hb : b.Ok A) (x : Option ℚ) : (b.text A).Reads x ↔ b.Has A x := by
  have hk := h.kpos
  obtain ⟨e, f, l⟩ := b
  obtain ⟨hf, hl⟩ := hb
  simp only at hf hl
  cases e with
  | true => exact ⟨fun hc => hc.elim, fun hc => absurd hc.1 (by simp)⟩
  | false =>
    obtain ⟨v, ⟨hv, hm⟩, -⟩ := C72_partition h x
    rw [has_iff h rfl hv hm, inArc_iff hf hl hv]
    unfold Pbound.text
    simp only [Pbound.isEverything, Bool.false_eq_true, if_false]
    have hpf := isPat_prev h f
    have hnl := isPat_next h l
    have pf := prev_eq hf
    have nl := next_eq hl
    by_cases ef : f % 2 = 0 <;> by_cases el : l % 2 = 0
    · have xf := isExact_iff.mpr ef
      have xl := isExact_iff.mpr el
      by_cases hfl : f = l
      · subst hfl
        rw [if_pos rfl, if_pos xf, if_pos le_rfl]
        show x = _ ↔ _
        rw [(key_lt h hv hf ef hm).2.2]
        omega
      · rw [if_neg hfl]
        unfold Pbound.pre Pbound.post
        simp only [xf, xl, if_true]
        show _ ∨ _ ∧ _ ∨ _ ∧ _ ↔ _
        rw [between_iff h hv hf hl ef el hm, (key_lt h hv hf ef hm).2.2, (key_lt h hv hl el hm).2.2]
        simp only [true_and]
        unfold steps
        unfold IsPat at *
        split_ifs <;> omega
    · have xf := isExact_iff.mpr ef
      have xl : Alphabet.isExact l = false := by rw [← Bool.not_eq_true, isExact_iff]; exact el
      have hfl : f ≠ l := by omega
      have en : A.next l % 2 = 0 := by unfold IsPat at *; rw [nl]; split_ifs <;> omega
      rw [if_neg hfl]
      unfold Pbound.pre Pbound.post
      simp only [xf, xl, if_true, Bool.false_eq_true, if_false]
      show _ ∨ _ ∧ _ ∨ _ ∧ _ ↔ _
      rw [between_iff h hv hf hnl ef en hm, (key_lt h hv hf ef hm).2.2, nl]
      simp only [true_and, Bool.false_eq_true, false_and, or_false, false_or]
      unfold steps
      unfold IsPat at *
      split_ifs <;> omega
    · have xf : Alphabet.isExact f = false := by rw [← Bool.not_eq_true, isExact_iff]; exact ef
      have xl := isExact_iff.mpr el
      have hfl : f ≠ l := by omega
      have ep : A.prev f % 2 = 0 := by unfold IsPat at *; rw [pf]; split_ifs <;> omega
      rw [if_neg hfl]
      unfold Pbound.pre Pbound.post
      simp only [xf, xl, if_true, Bool.false_eq_true, if_false]
      show _ ∨ _ ∧ _ ∨ _ ∧ _ ↔ _
      rw [between_iff h hv hpf hl ep el hm, (key_lt h hv hl el hm).2.2, pf]
      simp only [true_and, Bool.false_eq_true, false_and, or_false, false_or]
      unfold steps
      unfold IsPat at *
      split_ifs <;> omega
    · have xf : Alphabet.isExact f = false := by rw [← Bool.not_eq_true, isExact_iff]; exact ef
      have xl : Alphabet.isExact l = false := by rw [← Bool.not_eq_true, isExact_iff]; exact el
      have en : A.next l % 2 = 0 := by unfold IsPat at *; rw [nl]; split_ifs <;> omega
      have ep : A.prev f % 2 = 0 := by unfold IsPat at *; rw [pf]; split_ifs <;> omega
      have same : (if f = l then if Alphabet.isExact f = true then Text.point (A.exactValue f)
          else .range false (A.exactValue (A.prev f)) (A.exactValue (A.next l)) false
          else .range (Pbound.pre A f).1 (Pbound.pre A f).2 (Pbound.post A l).1 (Pbound.post A l).2) =
          .range false (A.exactValue (A.prev f)) (A.exactValue (A.next l)) false := by
        unfold Pbound.pre Pbound.post
        simp only [xf, xl, Bool.false_eq_true, if_false, ite_self]
      rw [same]
      show _ ∨ _ ∧ _ ∨ _ ∧ _ ↔ _
      rw [between_iff h hv hpf hnl ep en hm, pf, nl]
      simp only [true_and, Bool.false_eq_true, false_and, or_false, false_or]
      unfold steps
      unfold IsPat at *
      split_ifs <;> omega

/-- numbers from 1/2 up, and those outside of them -/
example : Table p2 ∧ Pbound.Ok p2 ⟨false, 2, 7⟩ ∧ (⟨false, 2, 7⟩ : Pbound).text p2 = .range true (some (1 / 2)) none false ∧
    (⟨false, 8, 1⟩ : Pbound).text p2 = .range true none (some (1 / 2)) false :=
  ⟨table_p2, by unfold Pbound.Ok IsPat; decide, by decide +kernel, by decide +kernel⟩

/-- **C132**: no text is `[all]`; that of the bound of all numbers is `[0,0)`. -/
theorem C132_all_wrong (h : Table A) : (∀ b : Pbound, b.text A ≠ .all) ∧
    (Pbound.everything A).text A = .range true (some 0) (some 0) false ∧ ∀ x, (Pbound.everything A).Has A x := by
  have hk := h.kpos
  have p0 : IsPat A 0 := ⟨le_rfl, by omega⟩
  have e0 : A.exactValue 0 = some 0 := by
    rw [exactValue_eq h p0 rfl, if_neg (by omega)]
    unfold steps
    rw [if_neg (by omega)]
    exact congrArg some pt_zero
  refine ⟨fun b => ?_, ?_, fun x => has_everything h x⟩
  · unfold Pbound.text Pbound.isEverything
    simp only [Bool.false_eq_true, if_false]
    split_ifs <;> simp
  · have hp : A.prev A.zero = 8 * A.k - 1 := by rw [zero_eq, prev_eq p0, if_pos rfl]
    have hn : A.next (8 * A.k - 1) = 0 := by rw [next_eq ⟨by omega, by omega⟩, if_pos rfl]
    have x0 : Alphabet.isExact 0 = true := by decide
    have x1 : Alphabet.isExact (8 * (A.k : ℤ) - 1) = false := by rw [← Bool.not_eq_true, isExact_iff]; omega
    rw [zero_eq] at hp
    unfold Pbound.everything
    rw [zero_eq, hp]
    unfold Pbound.text Pbound.isEverything
    simp only [Bool.false_eq_true, if_false]
    rw [if_neg (by omega)]
    unfold Pbound.pre Pbound.post
    simp only [x0, x1, hn, e0, if_true, Bool.false_eq_true, if_false]

example : Table p4 := table_p4

/-! ## Numbers -/

/-- the exact neighbour of an inexact number that is nearer to 1 or to -1 -/
def near (A : Alphabet) (v : ℤ) : ℤ := if v < 2 * A.k ∨ (4 * A.k < v ∧ v < 6 * A.k) then v + 1 else v - 1

theorem exactPos_odd (h : Table A) {v : ℤ} (h1 : 0 < v) (h2 : v < 4 * A.k) (he : v % 2 = 1) :
    A.exactPos v = pt A ((if v < 2 * A.k then v + 1 else v - 1) / 2) := by
  have hv : IsPat A v := ⟨by omega, by omega⟩
  have ha : A.abs v = v := by
    unfold Alphabet.abs Alphabet.isStrictlyNegative
    rw [n2_half, if_neg (by simp; omega)]
  have hf : A.isFractional v = decide (v < 2 * A.k) := by
    unfold Alphabet.isFractional
    rw [ha, n2_quarter]
    simp [h1]
  unfold Alphabet.exactPos
  rw [hf]
  by_cases hl : v < 2 * A.k
  · rw [if_pos (by simpa using hl), inv_eq hv, if_pos h2.le, exactBig_eq h (by omega) (by omega), if_pos hl]
    have : (4 * (A.k : ℤ) - v) / 2 = 2 * A.k - (v + 1) / 2 := by omega
    rw [this, pt_inv h (by omega) (by omega), one_div_one_div]
  · rw [if_neg (by simpa using hl), exactBig_eq h (by omega) h2, if_neg hl]
    congr 1
    omega

theorem exactValue_odd (h : Table A) {v : ℤ} (hv : IsPat A v) (he : v % 2 = 1) :
    IsPat A (near A v) ∧ near A v % 2 = 0 ∧ near A v ≠ 4 * A.k ∧ A.exactValue v = A.exactValue (near A v) := by
  have hk := h.kpos
  have hv2 := hv
  obtain ⟨hv0, hv8⟩ := hv2
  have hp : IsPat A (near A v) := by unfold near IsPat; split_ifs <;> omega
  have h2 : near A v % 2 = 0 := by unfold near; split_ifs <;> omega
  have h4 : near A v ≠ 4 * A.k := by unfold near; split_ifs <;> omega
  refine ⟨hp, h2, h4, ?_⟩
  rw [exactValue_eq h hp h2, if_neg h4]
  unfold Alphabet.exactValue Alphabet.isInf Alphabet.isStrictlyNegative
  rw [n2_half, if_neg (by simp; omega), if_neg (by omega)]
  by_cases hn : v > 4 * A.k
  · rw [if_pos (by simpa using hn), neg_eq hv, if_neg (by omega), exactPos_odd h (by omega) (by omega) (by omega), ← pt_neg]
    congr 2
    unfold near steps
    split_ifs <;> omega
  · rw [if_neg (by simpa using hn), exactPos_odd h (by omega) (by omega) he]
    congr 2
    unfold near steps
    split_ifs <;> omega

/-- comparisons of a number with the exact number of a pattern -/
theorem cmp_exact (h : Table A) {v w : ℤ} (hv : IsPat A v) (hw : IsPat A w) (he : w % 2 = 0) {x q : ℚ} (hm : Mem A v (some x))
    (hq : Mem A w (some q)) : (q < x ↔ steps A w < steps A v) ∧ (x < q ↔ steps A v < steps A w) := by
  have e := (C72_exactValue h hw (isExact_iff.mpr he) (some q)).mp hq
  obtain ⟨k1, k2, -⟩ := key_lt h hv hw he hm
  rw [← e] at k1 k2
  exact ⟨WithTop.coe_lt_coe.symm.trans k1, WithTop.coe_lt_coe.symm.trans k2⟩

/-- **C132**: an exact number shows what it stands for. An inexact one shows, with a question mark, the end of its interval that is
nearer to 1 or -1. -/
theorem C132_num (h : Table A) {v : ℤ} (hv : IsPat A v) :
    (Alphabet.isExact v = true → (A.text v).1 = false ∧ ∀ x, Mem A v x ↔ x = (A.text v).2) ∧
    (Alphabet.isExact v = false → (A.text v).1 = true ∧ ∃ w q, (w = A.next v ∨ w = A.prev v) ∧ Mem A w (some q) ∧ Alphabet.isExact w = true ∧
      (A.text v).2 = some q ∧ ∀ x, Mem A v (some x) → 0 < x * q ∧ (|x| < |q| ∧ |q| ≤ 1 ∨ 1 ≤ |q| ∧ |q| < |x|)) := by
  have hk := h.kpos
  constructor
  · intro hx
    have he := isExact_iff.mp hx
    have ht : A.text v = (false, A.exactValue v) := by
      unfold Alphabet.text Alphabet.isInf
      rw [hx, n2_half]
      split_ifs with hc
      · rw [exactValue_eq h hv he, if_pos (by simpa using hc)]
      · rfl
    rw [ht]
    exact ⟨rfl, C72_exactValue h hv hx⟩
  · intro hx
    have he : v % 2 = 1 := by rw [← Bool.not_eq_true, isExact_iff] at hx; omega
    obtain ⟨n1, n2, n3, n4⟩ := exactValue_odd h hv he
    have ht : A.text v = (true, A.exactValue (near A v)) := by
      unfold Alphabet.text Alphabet.isInf
      rw [hx, n2_half, if_neg (by rw [beq_iff_eq]; omega), n4]
      rfl
    have hq := exactValue_eq h n1 n2
    rw [if_neg n3] at hq
    have hqm := mem_exactValue h n1 n2
    rw [hq] at hqm
    rw [ht]
    refine ⟨rfl, near A v, _, ?_, hqm, isExact_iff.mpr n2, hq, fun x hm => ?_⟩
    · rw [next_eq hv, prev_eq hv]
      unfold near
      unfold IsPat at hv
      split_ifs <;> omega
    · generalize pt A (steps A (near A v) / 2) = q at hqm
      have p0 : IsPat A 0 := ⟨le_rfl, by omega⟩
      have p1 : IsPat A (2 * A.k) := ⟨by omega, by omega⟩
      have p6 : IsPat A (6 * A.k) := ⟨by omega, by omega⟩
      have m0 : Mem A 0 (some 0) := mem_zero.mpr hk
      have m1 : Mem A (2 * A.k) (some 1) := mem_even (by omega) (by omega) (by omega) (by
        have : (2 * (A.k : ℤ)) / 2 = A.k := by omega
        rw [this, pt_one h])
      have m6 : Mem A (6 * A.k) (some (-1)) := by
        have := mem_neg h p1 m1
        rw [neg_eq p1, if_neg (by omega), show 8 * (A.k : ℤ) - 2 * A.k = 6 * A.k by ring] at this
        exact this
      have c0 := cmp_exact h hv p0 rfl hm m0
      have cq := cmp_exact h hv n1 n2 hm hqm
      have q0 := cmp_exact h n1 p0 rfl hqm m0
      have q1 := cmp_exact h n1 p1 (by omega) hqm m1
      have q6 := cmp_exact h n1 p6 (by omega) hqm m6
      obtain ⟨v0, v8⟩ := hv
      clear ht hq n4
      generalize hw : near A v = w at *
      unfold near at hw
      unfold steps at c0 cq q0 q1 q6
      by_cases a1 : v < 2 * A.k
      · rw [if_pos (Or.inl a1)] at hw
        have b1 : 0 < x := c0.1.mpr (by split_ifs <;> omega)
        have b2 : x < q := cq.2.mpr (by split_ifs <;> omega)
        have b3 : ¬ 1 < q := fun hc => absurd (q1.1.mp hc) (by split_ifs <;> omega)
        have b4 : 0 < q := by linarith
        rw [abs_of_pos b1, abs_of_pos b4]
        exact ⟨by positivity, Or.inl ⟨b2, by linarith⟩⟩
      · by_cases a2 : v < 4 * A.k
        · rw [if_neg (by omega)] at hw
          have b2 : q < x := cq.1.mpr (by split_ifs <;> omega)
          have b3 : ¬ q < 1 := fun hc => absurd (q1.2.mp hc) (by split_ifs <;> omega)
          have b4 : 0 < q := by linarith
          rw [abs_of_pos (b4.trans b2), abs_of_pos b4]
          exact ⟨mul_pos (b4.trans b2) b4, Or.inr ⟨by linarith, b2⟩⟩
        · by_cases a3 : v < 6 * A.k
          · rw [if_pos (by omega)] at hw
            have b2 : x < q := cq.2.mpr (by split_ifs <;> omega)
            have b3 : ¬ -1 < q := fun hc => absurd (q6.1.mp hc) (by split_ifs <;> omega)
            have b4 : q < 0 := by linarith
            rw [abs_of_neg (b2.trans b4), abs_of_neg b4]
            exact ⟨mul_pos_of_neg_of_neg (b2.trans b4) b4, Or.inr ⟨by linarith, by linarith⟩⟩
          · rw [if_neg (by omega)] at hw
            have b1 : x < 0 := c0.2.mpr (by split_ifs <;> omega)
            have b2 : q < x := cq.1.mpr (by split_ifs <;> omega)
            have b3 : ¬ q < -1 := fun hc => absurd (q6.2.mp hc) (by split_ifs <;> omega)
            have b4 : q < 0 := by linarith
            rw [abs_of_neg b1, abs_of_neg b4]
            exact ⟨mul_pos_of_neg_of_neg b1 b4, Or.inl ⟨by linarith, by linarith⟩⟩

example : Table p2 ∧ IsPat p2 13 ∧ Alphabet.isExact 13 = false ∧ p2.text 13 = (true, some (-1)) ∧ p2.text 14 = (false, some (-1 / 2)) :=
  ⟨table_p2, by unfold IsPat; decide, by decide, by decide +kernel, by decide +kernel⟩

/-- **C132**: the only different numbers with the same text are the two intervals next to 1 and the two next to -1. -/
theorem C132_same (h : Table A) {v w : ℤ} (hv : IsPat A v) (hw : IsPat A w) (hne : v < w) :
    A.text v = A.text w ↔ (v = A.prev A.one ∧ w = A.next A.one) ∨ (v = A.prev (A.neg A.one) ∧ w = A.next (A.neg A.one)) := by
  have hk := h.kpos
  have h1 : IsPat A (2 * A.k) := ⟨by omega, by omega⟩
  have h6 : IsPat A (6 * A.k) := ⟨by omega, by omega⟩
  have e1 : A.prev A.one = 2 * A.k - 1 := by rw [one_eq h, prev_eq h1, if_neg (by omega)]
  have e2 : A.next A.one = 2 * A.k + 1 := by rw [one_eq h, next_eq h1, if_neg (by omega)]
  have en : A.neg A.one = 6 * A.k := by rw [one_eq h, neg_eq h1, if_neg (by omega)]; ring
  have e3 : A.prev (A.neg A.one) = 6 * A.k - 1 := by rw [en, prev_eq h6, if_neg (by omega)]
  have e4 : A.next (A.neg A.one) = 6 * A.k + 1 := by rw [en, next_eq h6, if_neg (by omega)]
  rw [e1, e2, e3, e4]
  have te : ∀ {u : ℤ}, IsPat A u → u % 2 = 0 → A.text u = (false, A.exactValue u) := by
    intro u hu he
    unfold Alphabet.text Alphabet.isInf
    rw [isExact_iff.mpr he, n2_half]
    split_ifs with hc
    · rw [exactValue_eq h hu he, if_pos (by simpa using hc)]
    · rfl
  have tod : ∀ {u : ℤ}, IsPat A u → u % 2 = 1 → A.text u = (true, A.exactValue (near A u)) := by
    intro u hu he
    have : Alphabet.isExact u = false := by rw [← Bool.not_eq_true, isExact_iff]; omega
    unfold Alphabet.text Alphabet.isInf
    rw [this, n2_half, if_neg (by rw [beq_iff_eq]; omega), (exactValue_odd h hu he).2.2.2]
    rfl
  have inj : ∀ {u z : ℤ}, IsPat A u → IsPat A z → u % 2 = 0 → z % 2 = 0 → (A.exactValue u = A.exactValue z ↔ u = z) := by
    intro u z hu hz eu ez
    refine ⟨fun hc => ?_, fun hc => by rw [hc]⟩
    exact mem_unique h hu hz (mem_exactValue h hu eu) (hc ▸ mem_exactValue h hz ez)
  unfold IsPat at hv hw
  rcases Int.emod_two_eq_zero_or_one v with ev | ev <;> rcases Int.emod_two_eq_zero_or_one w with ew | ew
  · rw [te hv ev, te hw ew, Prod.mk.injEq, inj hv hw ev ew]; omega
  · rw [te hv ev, tod hw ew]; simp; omega
  · rw [tod hv ev, te hw ew]; simp; omega
  · obtain ⟨p1, p2, p3, p4⟩ := exactValue_odd h hv ev
    obtain ⟨q1, q2, q3, q4⟩ := exactValue_odd h hw ew
    rw [tod hv ev, tod hw ew, Prod.mk.injEq, inj p1 q1 p2 q2]
    simp only [true_and]
    unfold near
    split_ifs <;> omega

/-- the numbers between 1/2 and 1 and those between 1 and 2 -/
example : Table p2 ∧ p2.text 3 = (true, some 1) ∧ p2.text 5 = (true, some 1) ∧ p2.text 7 = (true, some 2) ∧ p2.text 1 = (true, some (1 / 2)) :=
  ⟨table_p2, by decide +kernel, by decide +kernel, by decide +kernel, by decide +kernel⟩

/-- **C132**: so different numbers have the same text. -/
theorem C132_text_wrong (h : Table A) : A.prev A.one ≠ A.next A.one ∧ A.text (A.prev A.one) = A.text (A.next A.one) := by
  have hk := h.kpos
  have h1 : IsPat A (2 * A.k) := ⟨by omega, by omega⟩
  have hlt : A.prev A.one < A.next A.one := by
    rw [one_eq h, prev_eq h1, next_eq h1, if_neg (by omega), if_neg (by omega)]
    omega
  exact ⟨hlt.ne, (C132_same h (isPat_prev h _) (isPat_next h _) hlt).mpr (Or.inl ⟨rfl, rfl⟩)⟩

example : Table p2 ∧ p2.prev p2.one = 3 ∧ p2.next p2.one = 5 := ⟨table_p2, by decide +kernel, by decide +kernel⟩

end Pnum
end Verif
