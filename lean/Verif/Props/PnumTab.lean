import Verif.Model.PnumTab
import Verif.Props.PnumBound

/-!
# C120: the tables written by scripts/validsgentable.py
-/

namespace Verif
namespace Pnum

variable {A : Alphabet}

/-! ## Lists of computations -/

theorem mapM_ok {ε α β : Type} {f : α → Except ε β} : ∀ {l : List α} {r : List β}, l.mapM f = .ok r →
    List.Forall₂ (fun a b => f a = .ok b) l r
  | [], r, h => by
    rw [List.mapM_nil] at h
    cases h
    exact .nil
  | a :: l, r, h => by
    rw [List.mapM_cons] at h
    cases hf : f a with
    | error e => rw [hf] at h; cases h
    | ok b =>
      rw [hf] at h
      cases hl : l.mapM f with
      | error e => rw [hl] at h; cases h
      | ok s =>
        rw [hl] at h
        cases h
        exact .cons hf (mapM_ok hl)

theorem mapM_exists {ε α β : Type} {f : α → Except ε β} : ∀ {l : List α}, (∀ a ∈ l, ∃ b, f a = .ok b) → ∃ r, l.mapM f = .ok r
  | [], _ => ⟨[], rfl⟩
  | a :: l, h => by
    obtain ⟨b, hb⟩ := h a (by simp)
    obtain ⟨r, hr⟩ := mapM_exists (f := f) (l := l) fun x hx => h x (by simp [hx])
    exact ⟨b :: r, by rw [List.mapM_cons, hb, hr]; rfl⟩

theorem forall₂_left {α β : Type} {R : α → β → Prop} : ∀ {l : List α} {r : List β}, List.Forall₂ R l r → ∀ a ∈ l, ∃ b ∈ r, R a b
  | _, _, .nil, a, ha => by cases ha
  | _, _, .cons (a := a') (b := b') h t, a, ha => by
    rcases List.mem_cons.mp ha with rfl | ha
    · exact ⟨_, by simp, h⟩
    · obtain ⟨b, hb, hr⟩ := forall₂_left t a ha
      exact ⟨b, by simp [hb], hr⟩

theorem forall₂_right {α β : Type} {R : α → β → Prop} : ∀ {l : List α} {r : List β}, List.Forall₂ R l r → ∀ b ∈ r, ∃ a ∈ l, R a b
  | _, _, .nil, b, hb => by cases hb
  | _, _, .cons h t, b, hb => by
    rcases List.mem_cons.mp hb with rfl | hb
    · exact ⟨_, by simp, h⟩
    · obtain ⟨a, ha, hr⟩ := forall₂_right t b hb
      exact ⟨a, by simp [ha], hr⟩

/-- what the two operations are to compute -/
def Op2.value : Op2 → ℚ → ℚ → ℚ
  | .plus, x, y => x + y
  | .times, x, y => x * y

theorem fn_eq (op : Op2) (x y : ℚ) : op.fn x y = op.value x y := by cases op <;> rfl

/-! ## Operands -/

theorem mem_tabAll {p : ℤ × ℤ} : p ∈ tabAll A ↔ ∃ i j, i ≤ j ∧ j < A.k ∧ p ∈ tabPairs A i j := by
  unfold tabAll
  simp only [List.mem_flatMap, List.mem_range]
  constructor
  · rintro ⟨i, hi, j, hj, hp⟩
    split_ifs at hp with hij
    · cases hp
    · exact ⟨i, j, by omega, hj, hp⟩
  · rintro ⟨i, j, hij, hj, hp⟩
    exact ⟨i, by omega, j, hj, by rw [if_neg (by omega)]; exact hp⟩

theorem tab_even {i j : ℕ} (hij : i ≤ j) (hj : j < A.k) {q : ℤ × ℤ} (hq : q ∈ tabPairs A i j) : q.1 % 2 = 0 ∧ q.2 % 2 = 0 := by
  rw [tabPairs_eq hij hj] at hq
  split_ifs at hq <;> simp only [List.mem_cons, List.not_mem_nil, or_false] at hq <;>
    rcases hq with rfl | rfl | rfl | rfl | rfl | rfl | rfl | rfl | rfl <;> simp only [] <;> omega

/-- an operand -/
structure Operand (A : Alphabet) (v : ℤ) (x : ℚ) : Prop where
  pat : IsPat A v
  exact : v % 2 = 0
  nonzero : v ≠ 0
  val : A.exactValue v = some x
  mem : Mem A v (some x)

theorem operand (h : Table A) {v : ℤ} (h0 : 0 < v) (h8 : v < 8 * A.k) (h4 : v ≠ 4 * A.k) (he : v % 2 = 0) : ∃ x, Operand A v x := by
  have hv : IsPat A v := ⟨h0.le, h8⟩
  have e := exactValue_eq h hv he
  rw [if_neg h4] at e
  exact ⟨_, hv, he, by omega, e, e ▸ mem_exactValue h hv he⟩

theorem operands (h : Table A) {p : ℤ × ℤ} (hp : p ∈ tabAll A) : ∃ x y, Operand A p.1 x ∧ Operand A p.2 y := by
  obtain ⟨i, j, hij, hj, hp⟩ := mem_tabAll.mp hp
  obtain ⟨⟨a, b⟩, c, d⟩ := tab_pat hij hj hp
  obtain ⟨-, -, e, f⟩ := idx_tab hij hj hp
  obtain ⟨g, k⟩ := tab_even hij hj hp
  obtain ⟨x, hx⟩ := operand h a b e g
  obtain ⟨y, hy⟩ := operand h c d f k
  exact ⟨x, y, hx, hy⟩

theorem tabRow_ok {p : ℤ × ℤ} {x y : ℚ} (hx : Operand A p.1 x) (hy : Operand A p.2 y) {fl : ℚ → M ℚ} {op : Op2} {r : ℤ × ℤ × ℤ}
    (hr : tabRow A fl op p = .ok r) : ∃ u, A.convert fl (op.fn x y) = .ok u ∧ r = (p.1, p.2, u) := by
  unfold tabRow at hr
  rw [hx.val, hy.val] at hr
  dsimp only at hr
  cases hc : A.convert fl (op.fn x y) with
  | error e => rw [hc] at hr; cases hr
  | ok u => rw [hc] at hr; cases hr; exact ⟨u, rfl, rfl⟩

theorem convert_ok (h : Table A) {fl : ℚ → M ℚ} {x : ℚ} {u : ℤ} (hc : A.convert fl x = .ok u) :
    ∃ z, fl x = .ok z ∧ IsPat A u ∧ Mem A u (some z) := by
  cases hz : fl x with
  | error e => unfold Alphabet.convert at hc; rw [hz] at hc; cases hc
  | ok z => exact ⟨z, rfl, (C72_convert h hz u).mp hc⟩

/-! ## The tables of sums and products -/

/-- **C120**: a line `ai bi yi` of the table of sums (products) holds two finite exact numbers other than 0 and the number of the
alphabet that contains their sum (product), as rounded to a float. The operands are those of C75, in order. -/
theorem C120_table (h : Table A) {fl : ℚ → M ℚ} {op : Op2} {rows : List (ℤ × ℤ × ℤ)} (hr : tabBinary A fl op = .ok rows) :
    rows.map (fun r => (r.1, r.2.1)) = tabAll A ∧
    ∀ r ∈ rows, ∃ x y z : ℚ, Alphabet.isExact r.1 = true ∧ Alphabet.isExact r.2.1 = true ∧ x ≠ 0 ∧ y ≠ 0 ∧
      Mem A r.1 (some x) ∧ Mem A r.2.1 (some y) ∧
      fl (op.value x y) = .ok z ∧ IsPat A r.2.2 ∧ Mem A r.2.2 (some z) := by
  have f := mapM_ok hr
  have key : ∀ l s, List.Forall₂ (fun p r => tabRow A fl op p = .ok r) l s → (∀ p ∈ l, p ∈ tabAll A) →
      s.map (fun r => (r.1, r.2.1)) = l ∧ ∀ r ∈ s, ∃ x y z : ℚ, Alphabet.isExact r.1 = true ∧ Alphabet.isExact r.2.1 = true ∧
      x ≠ 0 ∧ y ≠ 0 ∧ Mem A r.1 (some x) ∧ Mem A r.2.1 (some y) ∧
      fl (op.value x y) = .ok z ∧ IsPat A r.2.2 ∧ Mem A r.2.2 (some z) := by
    intro l s hs
    induction hs with
    | nil => intro _; exact ⟨rfl, by simp⟩
    | @cons p r l s hp _ ih =>
      intro hm
      obtain ⟨i1, i2⟩ := ih fun q hq => hm q (by simp [hq])
      obtain ⟨x, y, hx, hy⟩ := operands h (hm p (by simp))
      obtain ⟨u, hu, rfl⟩ := tabRow_ok hx hy hp
      refine ⟨by simp [i1], ?_⟩
      intro r hr
      rcases List.mem_cons.mp hr with rfl | hr
      · obtain ⟨z, hz, pu, mu⟩ := convert_ok h hu
        have nz : ∀ v x, Operand A v x → x ≠ 0 := by
          rintro v x hv rfl
          have m0 : Mem A 0 (some 0) := mem_zero.mpr h.kpos
          exact hv.nonzero (mem_unique h hv.pat ⟨le_rfl, by have := h.kpos; omega⟩ hv.mem m0)
        refine ⟨x, y, z, ?_, ?_, nz _ _ hx, nz _ _ hy, hx.mem, hy.mem, ?_, pu, mu⟩
        · rw [isExact_iff]; exact hx.exact
        · rw [isExact_iff]; exact hy.exact
        · rw [← fn_eq]; exact hz
      · exact i2 r hr
  exact key _ _ f fun p hp => hp

example : Table p2 ∧ tabBinary p2 .ok .plus = .ok [(4, 4, 6), (12, 4, 0), (4, 6, 7), (4, 10, 12), (12, 14, 11), (4, 14, 2), (6, 6, 7),
    (6, 10, 0), (2, 6, 7), (2, 2, 4), (6, 14, 5)] := ⟨table_p2, by decide +kernel⟩

/-- **C120**: the table is written if no sum (product) of two exact numbers overflows `float`. -/
theorem C120_written (h : Table A) {fl : ℚ → M ℚ} {op : Op2}
    (hf : ∀ v w x y, Alphabet.isExact v = true → Alphabet.isExact w = true → Mem A v (some x) → Mem A w (some y) →
      ∃ z, fl (op.value x y) = .ok z) : ∃ rows, tabBinary A fl op = .ok rows := by
  refine mapM_exists fun p hp => ?_
  obtain ⟨x, y, hx, hy⟩ := operands h hp
  obtain ⟨z, hz⟩ := hf p.1 p.2 x y (by rw [isExact_iff]; exact hx.exact) (by rw [isExact_iff]; exact hy.exact) hx.mem hy.mem
  rw [← fn_eq] at hz
  unfold tabRow
  rw [hx.val, hy.val]
  dsimp only
  unfold Alphabet.convert
  rw [hz]
  exact ⟨_, rfl⟩

example : ∃ rows, tabBinary p8 .ok .times = .ok rows := C120_written table_p8 fun _ _ _ _ _ _ _ _ => ⟨_, rfl⟩

/-- **C120**, partial: the sum and the product of two finite exact numbers other than 0 can be read off the tables, swapping the
operands or changing both signs if necessary; the sum then changes its sign too. Missing: the reciprocal of a point above 1 with
its negative, see `C75_pairs_wrong`. -/
theorem C120_lookup_partial (h : Table A) {fl : ℚ → M ℚ} (odd : ∀ x z, fl x = .ok z → fl (-x) = .ok (-z))
    {plus times : List (ℤ × ℤ × ℤ)} (hp : tabBinary A fl .plus = .ok plus) (ht : tabBinary A fl .times = .ok times)
    {v w : ℤ} (hv : IsPat A v) (hw : IsPat A w) (ev : Alphabet.isExact v = true)
    (ew : Alphabet.isExact w = true) (v0 : v ≠ A.zero) (w0 : w ≠ A.zero) (v4 : v ≠ A.inf) (w4 : w ≠ A.inf)
    (hne : ¬ (w = A.neg v ∧ (v < 2 * A.k ∨ 6 * A.k < v))) {x y : ℚ} (hx : Mem A v (some x)) (hy : Mem A w (some y)) :
    ∃ (f : ℤ × ℤ) (s t : ℤ), (f.1, f.2, s) ∈ plus ∧ (f.1, f.2, t) ∈ times ∧
      ∃ zs zt, fl (x + y) = .ok zs ∧ fl (x * y) = .ok zt ∧ Mem A t (some zt) ∧
        ((f = (v, w) ∨ f = (w, v)) ∧ Mem A s (some zs) ∨
          (f = (A.neg v, A.neg w) ∨ f = (A.neg w, A.neg v)) ∧ Mem A (A.neg s) (some zs)) := by
  obtain ⟨i, j, hij, hj, q, hq, hs⟩ := C75_pairs_partial h hv hw ev ew v0 w0 v4 w4 hne
  have hqa := mem_tabAll.mpr ⟨i, j, hij, hj, hq⟩
  obtain ⟨a, b, ha, hb⟩ := operands h hqa
  have look : ∀ op rows, tabBinary A fl op = .ok rows →
      ∃ u z, (q.1, q.2, u) ∈ rows ∧ fl (op.fn a b) = .ok z ∧ IsPat A u ∧ Mem A u (some z) := by
    intro op rows hr
    obtain ⟨r, hr1, hr2⟩ := forall₂_left (mapM_ok hr) q hqa
    obtain ⟨u, hu, rfl⟩ := tabRow_ok ha hb hr2
    obtain ⟨z, hz, m⟩ := convert_ok h hu
    exact ⟨u, z, hr1, hz, m⟩
  obtain ⟨s, zs, s1, s2, s3, s4⟩ := look _ _ hp
  obtain ⟨t, zt, t1, t2, -, t4⟩ := look _ _ ht
  have s2 : fl (a + b) = .ok zs := s2
  have t2 : fl (a * b) = .ok zt := t2
  have uniq : ∀ {u : ℤ} {c d : ℚ}, Operand A u c → Mem A u (some d) → d = c := fun {u c d} hu hd => by
    have := (C72_exactValue h hu.pat (by rw [isExact_iff]; exact hu.exact) _).mp hd
    rw [hu.val] at this
    exact Option.some.inj this
  have neg_mem : ∀ {u : ℤ} {d : ℚ}, IsPat A u → Mem A u (some d) → Mem A (A.neg u) (some (-d)) := fun {u d} hu hd =>
    ((C72_neg_inv h hu (some d)).1).mpr hd
  rcases hs with hs | hs | hs | hs <;> obtain ⟨rfl, rfl⟩ := Prod.mk.inj hs
  · obtain rfl := uniq ha hx
    obtain rfl := uniq hb hy
    exact ⟨q, s, t, s1, t1, zs, zt, s2, t2, t4, .inl ⟨.inl rfl, s4⟩⟩
  · obtain rfl := uniq hb hx
    obtain rfl := uniq ha hy
    exact ⟨q, s, t, s1, t1, zs, zt, by rw [add_comm]; exact s2, by rw [mul_comm]; exact t2, t4, .inl ⟨.inr rfl, s4⟩⟩
  · have n1 := neg_neg_pat h ha.pat
    have n2 := neg_neg_pat h hb.pat
    have e1 : -x = a := uniq ha (by have := neg_mem hv hx; rwa [n1] at this)
    have e2 : -y = b := uniq hb (by have := neg_mem hw hy; rwa [n2] at this)
    refine ⟨q, s, t, s1, t1, -zs, zt, ?_, ?_, t4, .inr ⟨.inl (by rw [n1, n2]), neg_mem s3 s4⟩⟩
    · have := odd _ _ s2
      rwa [← e1, ← e2, show -(-x + -y) = x + y by ring] at this
    · rw [← t2, ← e1, ← e2]; congr 1; ring
  · have n1 := neg_neg_pat h ha.pat
    have n2 := neg_neg_pat h hb.pat
    have e1 : -y = a := uniq ha (by have := neg_mem hw hy; rwa [n1] at this)
    have e2 : -x = b := uniq hb (by have := neg_mem hv hx; rwa [n2] at this)
    refine ⟨q, s, t, s1, t1, -zs, zt, ?_, ?_, t4, .inr ⟨.inr (by rw [n1, n2]), neg_mem s3 s4⟩⟩
    · have := odd _ _ s2
      rwa [← e1, ← e2, show -(-y + -x) = x + y by ring] at this
    · rw [← t2, ← e1, ← e2]; congr 1; ring

-- 2 + -1 is read off 1 + -2
example : Table p2 ∧ (∀ x z : ℚ, (.ok x : M ℚ) = .ok z → (.ok (-x) : M ℚ) = .ok (-z)) ∧ (∃ l, tabBinary p2 .ok .plus = .ok l) ∧
    (∃ l, tabBinary p2 .ok .times = .ok l) ∧ IsPat p2 6 ∧ IsPat p2 12 ∧ Alphabet.isExact 6 = true ∧ Alphabet.isExact 12 = true ∧
    (6 : ℤ) ≠ p2.zero ∧ (12 : ℤ) ≠ p2.zero ∧ (6 : ℤ) ≠ p2.inf ∧ (12 : ℤ) ≠ p2.inf ∧
    ¬ ((12 : ℤ) = p2.neg 6 ∧ ((6 : ℤ) < 2 * p2.k ∨ 6 * p2.k < (6 : ℤ))) ∧ Mem p2 6 (some 2) ∧ Mem p2 12 (some (-1)) :=
  ⟨table_p2, fun x z h => by rw [Except.ok.inj h], C120_written table_p2 fun _ _ _ _ _ _ _ _ => ⟨_, rfl⟩,
    C120_written table_p2 fun _ _ _ _ _ _ _ _ => ⟨_, rfl⟩, ⟨by decide, by decide⟩, ⟨by decide, by decide⟩, by decide, by decide,
    by decide, by decide, by decide, by decide, by decide,
    (C72_exactValue table_p2 ⟨by decide, by decide⟩ (by decide) _).mpr (by decide +kernel),
    (C72_exactValue table_p2 ⟨by decide, by decide⟩ (by decide) _).mpr (by decide +kernel)⟩

/-! ## The table of values -/

/-- six decimals -/
theorem sixDec_near (y : ℚ) : |(sixDec y : ℚ) / 1000000 - y| ≤ 1 / 2000000 ∧
    (|(sixDec y : ℚ) / 1000000 - y| = 1 / 2000000 → sixDec y % 2 = 0) := by
  have h1 := Int.floor_le (y * 1000000)
  have h2 := Int.lt_floor_add_one (y * 1000000)
  unfold sixDec
  dsimp only
  set f := ⌊y * 1000000⌋
  have key : ∀ n : ℤ, (n : ℚ) / 1000000 - y = (n - y * 1000000) / 1000000 := fun n => by ring
  split_ifs with c1 c2 c3
  all_goals rw [key]
  · rw [abs_div, abs_of_nonpos (by linarith), abs_of_pos (by norm_num)]
    exact ⟨by rw [div_le_iff₀ (by norm_num)]; linarith, fun he => by rw [div_eq_iff (by norm_num)] at he; linarith⟩
  · push_cast
    rw [abs_div, abs_of_nonneg (by linarith), abs_of_pos (by norm_num)]
    exact ⟨by rw [div_le_iff₀ (by norm_num)]; linarith, fun he => by rw [div_eq_iff (by norm_num)] at he; linarith⟩
  · rw [abs_div, abs_of_nonpos (by linarith), abs_of_pos (by norm_num)]
    exact ⟨by rw [div_le_iff₀ (by norm_num)]; linarith, fun _ => c3⟩
  · push_cast
    rw [abs_div, abs_of_nonneg (by linarith), abs_of_pos (by norm_num)]
    exact ⟨by rw [div_le_iff₀ (by norm_num)]; linarith, fun _ => by omega⟩

theorem tabFloat_mem (h : Table A) {r : ℤ × Option ℚ} (hr : r ∈ tabFloat A) :
    ∃ x, 0 < x ∧ r.2 = some x ∧ Operand A r.1 x := by
  unfold tabFloat at hr
  simp only [List.mem_flatMap, List.mem_range, List.mem_cons, List.not_mem_nil, or_false] at hr
  obtain ⟨i, hi, hr⟩ := hr
  have e1 := fromExactsIndex_eq hi
  have e2 : A.inv (2 * A.k + 2 * i) = 2 * A.k - 2 * i := by rw [inv_eq ⟨by omega, by omega⟩, if_pos (by omega)]; ring
  rw [e1, e2] at hr
  have key : ∀ v : ℤ, 0 < v → v < 4 * A.k → v % 2 = 0 → ∃ x, 0 < x ∧ A.exactValue v = some x ∧ Operand A v x := by
    intro v h0 h4 he
    obtain ⟨x, hx⟩ := operand h h0 (by omega) (by omega) he
    refine ⟨x, ?_, hx.val, hx⟩
    have e := exactValue_eq h hx.pat he
    rw [if_neg (by omega), hx.val] at e
    rw [Option.some.inj e]
    unfold steps
    rw [if_neg (by omega)]
    exact pt_pos h (by omega) (by omega)
  rcases hr with rfl | rfl
  · exact key _ (by omega) (by omega) (by omega)
  · exact key _ (by omega) (by omega) (by omega)

/-- **C120**: a line of the table `float` holds a positive exact number and its value, as rounded to a float and then to six
decimals; there is a line for every positive exact number. -/
theorem C120_float (h : Table A) {fl : ℚ → M ℚ} {lines : List (ℤ × ℤ)} (hl : floatLines A fl = .ok lines) :
    (∀ r ∈ lines, ∃ x z : ℚ, Alphabet.isExact r.1 = true ∧ 0 < x ∧ Mem A r.1 (some x) ∧ fl x = .ok z ∧
      |(r.2 : ℚ) / 1000000 - z| ≤ 1 / 2000000 ∧ (|(r.2 : ℚ) / 1000000 - z| = 1 / 2000000 → r.2 % 2 = 0)) ∧
    ∀ (v : ℤ) (x : ℚ), IsPat A v → Alphabet.isExact v = true → 0 < x → Mem A v (some x) → ∃ r ∈ lines, r.1 = v := by
  have f := mapM_ok hl
  have row : ∀ (a : ℤ × Option ℚ) (b : ℤ × ℤ), a ∈ tabFloat A →
      (match a.2 with
        | some y => do return (a.1, sixDec (← fl y))
        | none => .error .overflow : M (ℤ × ℤ)) = .ok b →
      ∃ x z, 0 < x ∧ Operand A a.1 x ∧ fl x = .ok z ∧ b = (a.1, sixDec z) := by
    intro a b ha hb
    obtain ⟨x, x0, e, hx⟩ := tabFloat_mem h ha
    rw [e] at hb
    dsimp only at hb
    cases hz : fl x with
    | error e => rw [hz] at hb; cases hb
    | ok z => rw [hz] at hb; cases hb; exact ⟨x, z, x0, hx, hz, rfl⟩
  constructor
  · intro r hr
    obtain ⟨a, ha, hb⟩ := forall₂_right f r hr
    obtain ⟨x, z, x0, hx, hz, rfl⟩ := row a r ha hb
    exact ⟨x, z, by rw [isExact_iff]; exact hx.exact, x0, hx.mem, hz, sixDec_near z⟩
  · intro v x hv ev x0 hx
    have ex := (C72_exactValue h hv ev _).mp hx
    rw [isExact_iff] at ev
    rw [exactValue_eq h hv ev, if_neg hx.1] at ex
    have ex := Option.some.inj ex
    have h4 := hx.1
    have vlt : v < 4 * A.k := by
      by_contra hc
      have : pt A (steps A v / 2) < pt A 0 := by
        unfold IsPat at hv
        unfold steps
        rw [if_pos (by omega)]
        exact pt_mono h (by omega) (by omega) (by have := h.kpos; omega)
      rw [pt_zero] at this
      linarith
    have v0 : v ≠ 0 := by
      rintro rfl
      rw [show steps A 0 / 2 = 0 by unfold steps; split_ifs <;> omega, pt_zero] at ex
      linarith
    obtain ⟨i, hi, ci⟩ := exact_cases hv ev v0 h4
    have e1 := fromExactsIndex_eq hi
    have e2 : A.inv (2 * A.k + 2 * i) = 2 * A.k - 2 * i := by rw [inv_eq ⟨by omega, by omega⟩, if_pos (by omega)]; ring
    have ha : ∃ a ∈ tabFloat A, a.1 = v := by
      have ci : v = A.fromExactsIndex i ∨ v = A.inv (A.fromExactsIndex i) := by rw [e1, e2]; omega
      rcases ci with rfl | rfl
      · exact ⟨_, by unfold tabFloat; simp only [List.mem_flatMap, List.mem_range]; exact ⟨i, hi, by simp; exact .inl rfl⟩, rfl⟩
      · exact ⟨_, by unfold tabFloat; simp only [List.mem_flatMap, List.mem_range]; exact ⟨i, hi, by simp; exact .inr rfl⟩, rfl⟩
    obtain ⟨a, ha, rfl⟩ := ha
    obtain ⟨b, hb, hr⟩ := forall₂_left f a ha
    obtain ⟨x, z, -, -, -, rfl⟩ := row a b ha hr
    exact ⟨_, hb, rfl⟩

example : Table p2 ∧ floatLines p2 .ok = .ok [(4, 1000000), (4, 1000000), (6, 2000000), (2, 500000)] := ⟨table_p2, by decide +kernel⟩

/-- **C120** does not extend to the digits: of the alphabet `p8`, 1/128 is written as 0.007812; and a point above 2000000 has the
reciprocal 0.000000. The number 1 is listed twice. -/
theorem C120_float_wrong :
    (∃ lines, floatLines p8 .ok = .ok lines ∧ (2, 7812) ∈ lines ∧ Mem p8 2 (some (1 / 128)) ∧ (7812 : ℚ) / 1000000 ≠ 1 / 128 ∧
      lines.count (16, 1000000) = 2) ∧
    ∃ lines, floatLines ⟨[1, 4194304]⟩ .ok = .ok lines ∧ (2, 0) ∈ lines ∧ Table ⟨[1, 4194304]⟩ ∧
      Mem ⟨[1, 4194304]⟩ 2 (some (1 / 4194304)) := by
  have t2 : Table ⟨[1, 4194304]⟩ := (C72_make _).mp ⟨⟨[1, 4194304]⟩, by decide +kernel⟩
  refine ⟨⟨[(16, 1000000), (16, 1000000), (18, 2000000), (14, 500000), (20, 4000000), (12, 250000), (22, 8000000), (10, 125000),
      (24, 16000000), (8, 62500), (26, 32000000), (6, 31250), (28, 64000000), (4, 15625), (30, 128000000), (2, 7812)],
      by decide +kernel, by decide, ?_, by norm_num, by decide⟩,
    ⟨[(4, 1000000), (4, 1000000), (6, 4194304000000), (2, 0)], by decide +kernel, by decide, t2, ?_⟩⟩
  · exact (C72_exactValue table_p8 ⟨by decide, by decide⟩ (by decide) _).mpr (by decide +kernel)
  · exact (C72_exactValue t2 ⟨by decide, by decide⟩ (by decide) _).mpr (by decide +kernel)

/-! ## The script -/

theorem forM_error {A : Alphabet} {fl : ℚ → M ℚ} {two a : ℤ} : ∀ {l : List Op1}, (∃ o ∈ l, o ≠ .float) →
    ∃ e, (forIn l PUnit.unit (fun o _ => do Op1.row A fl two a o; pure (ForInStep.yield PUnit.unit)) : Except TabErr PUnit) = .error e
  | [], h => by obtain ⟨o, ho, -⟩ := h; cases ho
  | o :: l, h => by
    rw [List.forIn_cons]
    cases o with
    | half => exact ⟨_, rfl⟩
    | twice => unfold Op1.row; cases A.slowTimes fl a two <;> exact ⟨_, rfl⟩
    | square => unfold Op1.row; cases A.slowTimes fl a a <;> exact ⟨_, rfl⟩
    | exp2 => exact ⟨_, rfl⟩
    | float =>
      obtain ⟨o, ho, hne⟩ := h
      have : o ∈ l := by
        rcases List.mem_cons.mp ho with h | h
        · exact absurd h hne
        · exact h
      obtain ⟨e, he⟩ := forM_error (A := A) (fl := fl) (two := two) (a := a) ⟨o, this, hne⟩
      exact ⟨e, he⟩

/-- **C120**: with an operation of `--op1` other than `float`, the default among them, the script stops with an exception
before writing anything. -/
theorem C120_op1_wrong (A : Alphabet) (fl : ℚ → M ℚ) (ops2 : List Op2) :
    (∀ ops1, (∃ o ∈ ops1, o ≠ .float) → ∃ e, tabMain A fl ops1 ops2 = .error e) ∧ ∃ e, tabMain A fl op1Default ops2 = .error e := by
  have key : ∀ ops1, (∃ o ∈ ops1, o ≠ .float) → ∃ e, tabMain A fl ops1 ops2 = .error e := by
    intro ops1 h
    unfold tabMain
    cases liftErr (A.convert fl 2) with
    | error e => exact ⟨e, rfl⟩
    | ok two =>
      obtain ⟨e, he⟩ := forM_error (A := A) (fl := fl) (two := two) (a := A.fromExactsIndex 0) h
      refine ⟨e, ?_⟩
      simp only [bind, Except.bind] at he ⊢
      rw [he]
  exact ⟨key, key _ ⟨.half, by decide, by decide⟩⟩

example : ∃ o ∈ [Op1.float, .square], o ≠ .float := ⟨.square, by decide, by decide⟩

theorem forM_float {A : Alphabet} {fl : ℚ → M ℚ} {two a : ℤ} : ∀ {l : List Op1}, (∀ o ∈ l, o = .float) →
    (forIn l PUnit.unit (fun o _ => do Op1.row A fl two a o; pure (ForInStep.yield PUnit.unit)) : Except TabErr PUnit) = .ok PUnit.unit
  | [], _ => rfl
  | o :: l, h => by
    rw [List.forIn_cons, h o (by simp)]
    exact forM_float (A := A) (fl := fl) (two := two) (a := a) fun o ho => h o (by simp [ho])

theorem liftErr_ok {α : Type} {m : M α} {x : α} (h : liftErr m = .ok x) : m = .ok x := by
  cases m with
  | error e => cases h
  | ok y => cases h; rfl

/-- **C120**: with `--op1 float` alone, every requested table is written as stated in
`C120_table` and `C120_float`, and then the script stops with a `TypeError`. -/
theorem C120_main (h : Table A) {fl : ℚ → M ℚ} {ops1 : List Op1} {ops2 : List Op2} (hf : ∀ o ∈ ops1, o = .float) :
    (∀ r, tabMain A fl ops1 ops2 = .ok r →
      r.binary.map Prod.fst = ops2 ∧ (∀ p ∈ r.binary, tabBinary A fl p.1 = .ok p.2) ∧
      (.float ∈ ops1 → ∃ lines, r.float = some lines ∧ floatLines A fl = .ok lines) ∧ (.float ∉ ops1 → r.float = none) ∧
      r.ends = some .type) ∧
    ((∀ x, ∃ z, fl x = .ok z) → ∃ r, tabMain A fl ops1 ops2 = .ok r) := by
  have he : A.exacts ≠ [] := by
    intro he
    have := h.kpos
    unfold Alphabet.k at this
    rw [he] at this
    cases this
  have main : tabMain A fl ops1 ops2 = (do
      let _two ← liftErr (A.convert fl 2)
      let bin ← ops2.mapM fun o => do return (o, ← liftErr (tabBinary A fl o))
      let flt ← floatFile A fl ops1
      return ⟨bin, flt, if A.exacts = [] then none else some .type⟩) := by
    unfold tabMain
    cases liftErr (A.convert fl 2) with
    | error e => rfl
    | ok two =>
      have := forM_float (A := A) (fl := fl) (two := two) (a := A.fromExactsIndex 0) hf
      simp only [bind, Except.bind] at this ⊢
      rw [this]
  rw [main]
  constructor
  · intro r hr
    cases hc : liftErr (A.convert fl 2) with
    | error e => rw [hc] at hr; cases hr
    | ok two =>
      rw [hc] at hr
      have row : ∀ (o : Op2) (b : Op2 × List (ℤ × ℤ × ℤ)),
          (do return (o, ← liftErr (tabBinary A fl o)) : Except TabErr _) = .ok b → b.1 = o ∧ tabBinary A fl b.1 = .ok b.2 := by
        intro o b hb
        cases ht : liftErr (tabBinary A fl o) with
        | error e => rw [ht] at hb; cases hb
        | ok v => rw [ht] at hb; cases hb; exact ⟨rfl, liftErr_ok ht⟩
      cases hb : ops2.mapM (fun o => (do return (o, ← liftErr (tabBinary A fl o)) : Except TabErr _)) with
      | error e => rw [hb] at hr; cases hr
      | ok bin =>
        rw [hb] at hr
        have f := mapM_ok hb
        have f1 : bin.map Prod.fst = ops2 := by
          clear hb hr main
          induction f with
          | nil => rfl
          | cons h1 _ ih => exact congrArg₂ List.cons (row _ _ h1).1 ih
        have f2 : ∀ p ∈ bin, tabBinary A fl p.1 = .ok p.2 := by
          intro p hp
          obtain ⟨o, -, ho⟩ := forall₂_right f p hp
          exact (row o p ho).2
        unfold floatFile at hr
        by_cases hm : Op1.float ∈ ops1
        · rw [if_pos hm] at hr
          cases ht : liftErr (floatLines A fl) with
          | error e => rw [ht] at hr; cases hr
          | ok v =>
            rw [ht] at hr
            obtain rfl := Except.ok.inj hr
            exact ⟨f1, f2, fun _ => ⟨v, rfl, liftErr_ok ht⟩, fun hn => absurd hm hn, if_neg he⟩
        · rw [if_neg hm] at hr
          obtain rfl := Except.ok.inj hr
          exact ⟨f1, f2, fun hn => absurd hn hm, fun _ => rfl, if_neg he⟩
  · intro tot
    have c2 : ∃ u, A.convert fl 2 = .ok u := by
      obtain ⟨z, hz⟩ := tot 2
      unfold Alphabet.convert
      rw [hz]; exact ⟨_, rfl⟩
    obtain ⟨u, hu⟩ := c2
    obtain ⟨bin, hb⟩ := mapM_exists (f := fun o => (do return (o, ← liftErr (tabBinary A fl o)) : Except TabErr _)) (l := ops2) (by
      intro o _
      obtain ⟨rows, hr⟩ := C120_written h (fl := fl) (op := o) fun _ _ x y _ _ _ _ => tot _
      exact ⟨(o, rows), by rw [hr]; rfl⟩)
    have hfl : ∃ lines, floatLines A fl = .ok lines := by
      refine mapM_exists fun a ha => ?_
      obtain ⟨x, -, e, -⟩ := tabFloat_mem h ha
      obtain ⟨z, hz⟩ := tot x
      rw [e]
      dsimp only
      rw [hz]
      exact ⟨_, rfl⟩
    obtain ⟨lines, hl⟩ := hfl
    unfold floatFile
    rw [hu, hb, hl]
    by_cases hm : Op1.float ∈ ops1
    · simp only [if_pos hm]; exact ⟨_, rfl⟩
    · simp only [if_neg hm]; exact ⟨_, rfl⟩

example : Table p2 ∧ (∀ o ∈ [Op1.float], o = .float) ∧ ∃ r, tabMain p2 .ok [.float] [.plus, .times] = .ok r :=
  ⟨table_p2, by decide, (C120_main table_p2 (by decide)).2 fun x => ⟨x, rfl⟩⟩

end Pnum
end Verif
