import Verif.Lemmas.AddReal

/-! # Symmetries of the operations: sign change and exchange of the operands -/

namespace Verif
open Fmt

variable {c : Cfg}

/-- sign change of an unpacked number, keeping its type -/
def Unp.flip (u : Unp) : Unp := { u with neg := !u.neg }

/-- sign change of a nonzero unpacked number; the result of an addition that is zero has no sign -/
def Unp.flipNZ (u : Unp) : Unp := if u.ty = .zero then u else u.flip

theorem unpackLow_neg (h : c.WF) {v : ℤ} (hv : c.fmt.IsReal v) (h0 : v ≠ 0) :
    ∃ r x w, Posit.unpackLow c v = .ok (Low.mk .regular (v < 0) r x w) ∧
      Posit.unpackLow c (-v) = .ok (Low.mk .regular (!decide (v < 0)) r x w) := by
  obtain ⟨r, m, rest, hd⟩ := exists_dec (M := c.N - 1) (p := v.natAbs) (by omega) (real_inRange hv)
  obtain ⟨hinf, hnan⟩ := real_not_special h hv
  obtain ⟨hinf', hnan'⟩ := real_not_special h hv.neg
  have h1 := unpackLow_body h (real_inRange hv) h0 hinf hnan hd
  have h2 := unpackLow_body h (real_inRange hv.neg) (by omega) hinf' hnan' (by rw [Int.natAbs_neg]; exact hd)
  refine ⟨_, _, _, h1, ?_⟩
  rw [h2]
  congr 2
  by_cases hn : v < 0
  · simp [hn]; omega
  · simp [hn]; omega

theorem unpack_neg (h : c.WF) {v e : ℤ} {f : ℕ} (hv : c.fmt.IsReal v) (h0 : v ≠ 0) (hu : Unpacks c v e f) :
    Posit.unpack c (-v) = .ok ⟨.regular, !decide (v < 0), e, f⟩ := by
  obtain ⟨r, x, w, h1, h2⟩ := unpackLow_neg h hv h0
  have he := hu.eq
  unfold Posit.unpack at *
  rw [h1] at he
  rw [h2]
  simp only [bind, Except.bind] at *
  unfold Posit.low2full at *
  simp only [if_true, bind, Except.bind, pure, Except.pure] at *
  cases hc : Posit.castMsb c.H c.F w with
  | error _ => rw [hc] at he; simp at he
  | ok q =>
    cases hj : Posit.joinRegExp c r x with
    | error _ => rw [hc, hj] at he; simp at he
    | ok j => rw [hc, hj] at he; simp only [Except.ok.injEq, Unp.mk.injEq] at he ⊢; simp [he]

theorem unpacks_neg (h : c.WF) {v e : ℤ} {f : ℕ} (hv : c.fmt.IsReal v) (h0 : v ≠ 0) (hu : Unpacks c v e f) :
    Unpacks c (-v) e f := by
  have e1 : |c.fmt.val (-v)| = |c.fmt.val v| := by rw [Format.val_neg, abs_neg]
  have e2 : (!decide (v < 0)) = decide (-v < 0) := by
    by_cases hn : v < 0
    · simp [hn]; omega
    · simp [hn]; omega
  refine ⟨?_, hu.f_lt, hu.e_lo, hu.e_hi, ?_, ?_, hu.dvd, ?_, ?_, ?_⟩
  · rw [unpack_neg h hv h0 hu, e2]
  · rw [e1]; exact hu.lower
  · rw [e1]; exact hu.upper
  · rw [e1]; exact hu.val
  · rw [e1]; exact hu.trunc
  · rw [e1]; exact hu.close

/-- packing commutes with sign change -/
theorem pack_flip (h : c.WF) {neg : Bool} {e : ℤ} {f : ℕ} (hf : f < 2 ^ c.F) :
    Posit.pack c ⟨.regular, !neg, e, f⟩ = (Posit.pack c ⟨.regular, neg, e, f⟩).map fun v => -v := by
  by_cases hs : c.PackSafe e
  · obtain ⟨p, hp, ht⟩ := pack_regular h neg hf hs
    obtain ⟨q, hq, ht'⟩ := pack_regular h (!neg) hf hs
    have := ht.unique ht'
    subst this
    rw [hp, hq]
    cases neg <;> simp [Except.map]
  · rw [pack_regular_ub h _ hf hs, pack_regular_ub h _ hf hs]; rfl

theorem normalized_flip (F E : ℕ) (t : Ty) (s : Bool) (e : ℤ) (f : ℕ) :
    (Unp.normalized F E ⟨t, s, e, f⟩).map Unp.flipNZ = Unp.normalized F E ⟨t, !s, e, f⟩ := by
  unfold Unp.normalized
  simp only []
  split_ifs with h0
  · rfl
  simp only [bind, Except.bind, pure, Except.pure]
  cases Unp.findLeft F f with
  | error _ => rfl
  | ok k =>
  simp only []
  cases arithS E (e - k) with
  | error _ => rfl
  | ok e =>
  simp only []
  cases shlU F f (k + 1) with
  | error _ => rfl
  | ok f => rfl

theorem addRegular_flip (F E : ℕ) (a b : Unp) :
    Unp.addRegular F E a.flip b.flip = (Unp.addRegular F E a b).map Unp.flipNZ := by
  unfold Unp.addRegular Unp.flip
  simp only [bind, Except.bind, pure, Except.pure]
  cases arithS E (a.exp - b.exp) with
  | error _ => rfl
  | ok dir =>
  simp only []
  cases arithS E ((if dir < 0 then b.exp else a.exp) + 1) with
  | error _ => rfl
  | ok ex =>
  simp only []
  cases Unp.condShr F (decide (dir < 0)) (Unp.leftmost F >>> 1 ||| a.frac >>> 2) (-dir) with
  | error _ => rfl
  | ok x =>
  simp only []
  cases Unp.condShr F (decide (¬ dir < 0)) (Unp.leftmost F >>> 1 ||| b.frac >>> 2) dir with
  | error _ => rfl
  | ok y =>
  simp only []
  have hm : ((!a.neg) = (!b.neg)) ↔ (a.neg = b.neg) := by cases a.neg <;> cases b.neg <;> simp
  simp only [hm]
  generalize (if a.neg = b.neg then (0 : ℤ) else if x > y then 1 else -1) = mode
  rw [normalized_flip]
  congr 2
  split_ifs <;> rfl

theorem normalized_sign {F E : ℕ} {e : ℤ} (s s' : Bool) : Unp.normalized F E ⟨.regular, s, e, 0⟩ =
    Unp.normalized F E ⟨.regular, s', e, 0⟩ := rfl

theorem addRegular_comm {F E : ℕ} (a b : Unp) (h1 : InS E (a.exp - b.exp)) (h2 : InS E (b.exp - a.exp)) :
    Unp.addRegular F E a b = Unp.addRegular F E b a := by
  unfold Unp.addRegular
  rw [arithS_ok' h1, arithS_ok' h2]
  simp only [bind, Except.bind, pure, Except.pure]
  generalize Unp.leftmost F >>> 1 ||| a.frac >>> 2 = x
  generalize Unp.leftmost F >>> 1 ||| b.frac >>> 2 = y
  have e0 : (if a.exp - b.exp < 0 then b.exp else a.exp) = if b.exp - a.exp < 0 then a.exp else b.exp := by
    split_ifs <;> omega
  rw [e0]
  cases arithS E ((if b.exp - a.exp < 0 then a.exp else b.exp) + 1) with
  | error _ => rfl
  | ok ex =>
  simp only []
  have fin : ∀ (x y : ℕ), Unp.normalized F E
      ⟨.regular, if (if a.neg = b.neg then (0 : ℤ) else if x > y then 1 else -1) ≥ 0 then a.neg else b.neg, wrapS E ex,
        if (if a.neg = b.neg then (0 : ℤ) else if x > y then 1 else -1) = 0 then (x + y) % 2 ^ F
        else if (if a.neg = b.neg then (0 : ℤ) else if x > y then 1 else -1) > 0 then wrapU F ((x : ℤ) - y)
        else wrapU F ((y : ℤ) - x)⟩ =
      Unp.normalized F E
      ⟨.regular, if (if b.neg = a.neg then (0 : ℤ) else if y > x then 1 else -1) ≥ 0 then b.neg else a.neg, wrapS E ex,
        if (if b.neg = a.neg then (0 : ℤ) else if y > x then 1 else -1) = 0 then (y + x) % 2 ^ F
        else if (if b.neg = a.neg then (0 : ℤ) else if y > x then 1 else -1) > 0 then wrapU F ((y : ℤ) - x)
        else wrapU F ((x : ℤ) - y)⟩ := by
    intro x y
    by_cases hs : a.neg = b.neg
    · simp [hs, Nat.add_comm]
    · have hs' : ¬ b.neg = a.neg := fun hh => hs hh.symm
      simp only [hs, hs', if_false]
      rcases lt_trichotomy x y with hlt | heq | hgt
      · simp [hlt, show ¬ y < x by omega]
      · subst heq
        have : wrapU F 0 = 0 := by simp [wrapU]
        simp only [lt_irrefl, gt_iff_lt, if_false, sub_self, this, ite_self,
          show ¬ ((-1 : ℤ) ≥ 0) by norm_num, show ¬ ((-1 : ℤ) = 0) by norm_num]
        rfl
      · simp [hgt, show ¬ x < y by omega]
  have hsub : b.exp - a.exp = -(a.exp - b.exp) := by ring
  rw [hsub, neg_neg]
  rcases lt_trichotomy (a.exp - b.exp) 0 with hlt | heq | hgt
  · simp only [hlt, show ¬ -(a.exp - b.exp) < 0 by omega, not_true, not_false_eq_true, decide_true, decide_false]
    unfold Unp.condShr
    simp only [if_true, Bool.false_eq_true, if_false]
    cases shrU F x (-(a.exp - b.exp)) with
    | error _ => rfl
    | ok x' => exact fin _ _
  · rw [heq]
    have hs : ∀ z, shrU F z 0 = .ok z := by
      intro z
      rw [shrU_ok (n := 0) (k := 0) rfl (by have := le_pw32 F; omega)]; simp
    unfold Unp.condShr
    simp only [neg_zero, lt_irrefl, not_false_eq_true, decide_true, decide_false, Bool.false_eq_true, if_false, if_true, hs]
    exact fin _ _
  · simp only [show ¬ a.exp - b.exp < 0 by omega, show -(a.exp - b.exp) < 0 by omega, not_true, not_false_eq_true,
      decide_true, decide_false]
    unfold Unp.condShr
    simp only [if_true, Bool.false_eq_true, if_false]
    cases shrU F y (a.exp - b.exp) with
    | error _ => rfl
    | ok x' => exact fin _ _

theorem addRegular_self (h : c.WF) {s : Bool} {e : ℤ} {f : ℕ} (he : |e| ≤ c.maxScale) :
    Unp.addRegular c.F c.E ⟨.regular, s, e, f⟩ ⟨.regular, !s, e, f⟩ = .ok (Unp.ofTy .zero) := by
  have hm := maxScale_pos h
  rw [abs_le] at he
  unfold Unp.addRegular
  have hs : ∀ z, shrU c.F z 0 = .ok z := by
    intro z
    rw [shrU_ok (n := 0) (k := 0) rfl (by have := le_pw32 c.F; omega)]; simp
  have hw : wrapU c.F 0 = 0 := by simp [wrapU]
  have hb : ¬ (s = !s) := by cases s <;> simp
  simp only [sub_self]
  rw [arithS_ok' (inS_wide h (x := 0) (by simp; omega))]
  simp only [bind, Except.bind, lt_irrefl, if_false]
  rw [arithS_ok' (inS_wide h (x := e + 1) (by rw [abs_le]; omega))]
  unfold Unp.condShr
  simp only [lt_irrefl, if_false, decide_false, decide_true, not_false_eq_true, neg_zero, if_true, hs, hb,
    gt_iff_lt, Bool.false_eq_true, sub_self, hw, ite_self, show ¬ ((-1 : ℤ) = 0) by norm_num]
  rfl

theorem mulRegular_comm (F E : ℕ) (a b : Unp) : Unp.mulRegular F E a b = Unp.mulRegular F E b a := by
  unfold Unp.mulRegular
  simp only [Nat.mul_comm (Unp.leftmost F ||| a.frac >>> 1), add_comm a.exp, Bool.xor_comm a.neg]

theorem mul_comm_unp (F E : ℕ) (a b : Unp) (ha : a.ty ≠ .nan) (hb : b.ty ≠ .nan) :
    Unp.mul F E a b = Unp.mul F E b a := by
  unfold Unp.mul
  simp only [ha, hb, or_self, if_false]
  obtain ⟨ta, na, ea, fa⟩ := a
  obtain ⟨tb, nb, eb, fb⟩ := b
  cases ta <;> cases tb <;> simp_all [mulRegular_comm, Bool.xor_comm]

theorem mulRegular_flip (F E : ℕ) (a b : Unp) :
    Unp.mulRegular F E a.flip b = (Unp.mulRegular F E a b).map Unp.flip := by
  unfold Unp.mulRegular Unp.flip
  simp only [bind, Except.bind, pure, Except.pure]
  cases arithS E (a.exp + b.exp) with
  | error _ => rfl
  | ok s =>
  simp only []
  generalize decide (_ = 0) = q
  cases arithS E (s + if q = true then 0 else 1) with
  | error _ => rfl
  | ok e => simp [Except.map, Unp.mk3]

theorem divRegular_flip (F E : ℕ) (a b : Unp) :
    Unp.divRegular F E a.flip b = (Unp.divRegular F E a b).map Unp.flip := by
  unfold Unp.divRegular Unp.flip
  simp only [bind, Except.bind, pure, Except.pure]
  cases arithS E (a.exp - b.exp) with
  | error _ => rfl
  | ok s =>
  simp only []
  cases arithS E (s + if (Unp.leftmost F ||| a.frac >>> 1) < (Unp.leftmost F ||| b.frac >>> 1) then -1 else 0) with
  | error _ => rfl
  | ok e =>
  simp only []
  split_ifs <;> simp [Except.map, Unp.mk3]

theorem divRegular_flip_right (F E : ℕ) (a b : Unp) :
    Unp.divRegular F E a b.flip = (Unp.divRegular F E a b).map Unp.flip := by
  unfold Unp.divRegular Unp.flip
  simp only [bind, Except.bind, pure, Except.pure]
  cases arithS E (a.exp - b.exp) with
  | error _ => rfl
  | ok s =>
  simp only []
  cases arithS E (s + if (Unp.leftmost F ||| a.frac >>> 1) < (Unp.leftmost F ||| b.frac >>> 1) then -1 else 0) with
  | error _ => rfl
  | ok e =>
  simp only []
  split_ifs <;> simp [Except.map, Unp.mk3]

/-- what `operator*`, `operator/` and `operator+` return on regular operands -/
theorem mulRegular_form {F E : ℕ} {a b r : Unp} (h : Unp.mulRegular F E a b = .ok r) : r.ty = .regular ∧ r.frac < 2 ^ F := by
  unfold Unp.mulRegular at h
  simp only [bind, Except.bind, pure, Except.pure] at h
  split at h
  · cases h
  · split at h
    · cases h
    · injection h with h; subst h
      exact ⟨rfl, Nat.mod_lt _ (by positivity)⟩

theorem divRegular_form {F E : ℕ} {a b r : Unp} (h : Unp.divRegular F E a b = .ok r) : r.ty = .regular ∧ r.frac < 2 ^ F := by
  unfold Unp.divRegular at h
  simp only [bind, Except.bind, pure, Except.pure] at h
  split at h
  · cases h
  · split at h
    · cases h
    · split at h
      · split at h
        · cases h
        · injection h with h; subst h
          exact ⟨rfl, Nat.mod_lt _ (by positivity)⟩
      · split at h
        · cases h
        · injection h with h; subst h
          exact ⟨rfl, Nat.mod_lt _ (by positivity)⟩

theorem normalized_form {F E : ℕ} {a r : Unp} (h : Unp.normalized F E a = .ok r) :
    (r.ty = .zero ∧ r.neg = false) ∨ (r.ty = .regular ∧ r.frac < 2 ^ F) := by
  unfold Unp.normalized at h
  simp only [bind, Except.bind, pure, Except.pure] at h
  split at h
  · injection h with h; subst h; exact Or.inl ⟨rfl, rfl⟩
  split at h
  · cases h
  split at h
  · cases h
  split at h
  · cases h
  injection h with h; subst h
  exact Or.inr ⟨rfl, Nat.mod_lt _ (by positivity)⟩

theorem normalized_zero {F E : ℕ} {a r : Unp} (h : Unp.normalized F E a = .ok r) (hr : r.ty = .zero) : a.frac = 0 := by
  by_contra h0
  unfold Unp.normalized at h
  simp only [h0, if_false, bind, Except.bind, pure, Except.pure] at h
  split at h
  · cases h
  split at h
  · cases h
  split at h
  · cases h
  injection h with h; subst h
  cases hr

theorem condShr_eq {F x y : ℕ} {n : ℤ} (h : Unp.condShr F true x n = .ok y) : y = x / 2 ^ n.toNat := by
  unfold Unp.condShr at h
  simp only [if_true] at h
  unfold shrU at h
  split at h
  · cases h
  injection h with h
  rw [← h, Nat.shiftRight_eq_div_pow]

theorem condShr_le {F x y : ℕ} {n : ℤ} (h : Unp.condShr F true x n = .ok y) : y ≤ x := by
  rw [condShr_eq h]; exact Nat.div_le_self _ _

theorem condShr_half {F x y : ℕ} {n : ℤ} (h : Unp.condShr F true x n = .ok y) (hn : 1 ≤ n) : y ≤ x / 2 := by
  rw [condShr_eq h, show n.toNat = 1 + (n.toNat - 1) by omega, pow_add, ← Nat.div_div_eq_div_mul]
  exact Nat.div_le_self _ _

/-- an addition yields zero only for opposite numbers -/
theorem addRegular_zero {F E : ℕ} (hF : F = 8 ∨ F = 16 ∨ F = 32 ∨ F = 64) {sa sb n : Bool} {ea eb e : ℤ} {fa fb f : ℕ}
    (h4a : 4 ∣ fa) (h4b : 4 ∣ fb) (hfa : fa < 2 ^ F) (hfb : fb < 2 ^ F) (h1 : InS E (ea - eb))
    (h : Unp.addRegular F E ⟨.regular, sa, ea, fa⟩ ⟨.regular, sb, eb, fb⟩ = .ok ⟨.zero, n, e, f⟩) :
    sa ≠ sb ∧ ea = eb ∧ fa = fb := by
  have hF2 : 2 ≤ F := by omega
  have hA := mant2_bounds hF2 hfa
  have hB := mant2_bounds hF2 hfb
  have hP := pow_F4 hF2
  unfold Unp.addRegular at h
  rw [arithS_ok' h1] at h
  simp only [bind, Except.bind, pure, Except.pure, mant2 hF2 hfa, mant2 hF2 hfb] at h
  split at h
  · cases h
  split at h
  · cases h
  rename_i x hx
  split at h
  · cases h
  rename_i y hy
  have hz := normalized_zero h rfl
  simp only at hz
  have hlt : x < 2 ^ F ∧ y < 2 ^ F ∧ 1 ≤ x + y := by
    rcases lt_or_ge (ea - eb) 0 with hlt | hge
    · simp only [hlt, decide_true, not_true, decide_false, condShr_false] at hx hy
      injection hy with hy
      have := condShr_le hx
      omega
    · simp only [not_lt.mpr hge, decide_false, not_false_eq_true, decide_true, condShr_false] at hx hy
      injection hx with hx
      have := condShr_le hy
      omega
  have hxy : sa ≠ sb ∧ x = y := by
    by_cases hs : sa = sb
    · exfalso
      simp only [hs, if_true] at hz
      have : x + y < 2 ^ F := by
        rcases lt_or_ge (ea - eb) 0 with hlt | hge
        · simp only [hlt, decide_true, not_true, decide_false, condShr_false] at hx hy
          injection hy with hy
          have := condShr_le hx
          omega
        · simp only [not_lt.mpr hge, decide_false, not_false_eq_true, decide_true, condShr_false] at hx hy
          injection hx with hx
          have := condShr_le hy
          omega
      rw [Nat.mod_eq_of_lt this] at hz
      omega
    · refine ⟨hs, ?_⟩
      by_cases hg : x > y
      · simp only [hs, hg, if_true, if_false, show ¬ ((1 : ℤ) = 0) by norm_num, show ((1 : ℤ) > 0) by norm_num] at hz
        rw [wrapU_sub hg.le hlt.1] at hz
        omega
      · simp only [hs, hg, if_false, show ¬ ((-1 : ℤ) = 0) by norm_num, show ¬ ((-1 : ℤ) > 0) by norm_num] at hz
        rw [wrapU_sub (by omega) hlt.2.1] at hz
        omega
  refine ⟨hxy.1, ?_⟩
  obtain ⟨hs, rfl⟩ := hxy
  rcases lt_trichotomy (ea - eb) 0 with hlt' | heq | hgt
  · exfalso
    simp only [hlt', decide_true, not_true, decide_false, condShr_false] at hx hy
    injection hy with hy
    have := condShr_half hx (by omega)
    omega
  · simp only [heq, lt_irrefl, decide_true, not_false_eq_true, decide_false, condShr_false] at hx hy
    injection hx with hx
    rw [condShr_true (d := 0) (by simp) (by unfold pw; omega)] at hy
    injection hy with hy
    simp only [pow_zero, Nat.div_one] at hy
    omega
  · exfalso
    simp only [not_lt.mpr hgt.le, decide_false, not_false_eq_true, decide_true, condShr_false] at hx hy
    injection hx with hx
    have := condShr_half hy (by omega)
    omega

theorem addRegular_form {F E : ℕ} {a b r : Unp} (h : Unp.addRegular F E a b = .ok r) :
    (r.ty = .zero ∧ r.neg = false) ∨ (r.ty = .regular ∧ r.frac < 2 ^ F) := by
  unfold Unp.addRegular at h
  simp only [bind, Except.bind, pure, Except.pure] at h
  split at h
  · cases h
  split at h
  · cases h
  split at h
  · cases h
  split at h
  · cases h
  exact normalized_form h

/-- packing a regular number with an in-range fraction gives a nonzero real posit -/
theorem pack_real_of_ok (h : c.WF) {neg : Bool} {e : ℤ} {f : ℕ} (hf : f < 2 ^ c.F) {v : ℤ}
    (hp : Posit.pack c ⟨.regular, neg, e, f⟩ = .ok v) : c.fmt.IsReal v ∧ v ≠ 0 := by
  by_cases hs : c.PackSafe e
  · obtain ⟨p, hq, ht⟩ := pack_regular h neg hf hs
    rw [hp] at hq
    injection hq with hq
    have h1 := ht.one_le
    have h2 := ht.le_max
    subst hq
    constructor
    · rw [Format.isReal_iff]; split_ifs <;> simpa using h2
    · split_ifs <;> omega
  · rw [pack_regular_ub h _ hf hs] at hp; cases hp

theorem pack_flip' (h : c.WF) {r : Unp} (ht : r.ty = .regular) (hf : r.frac < 2 ^ c.F) :
    Posit.pack c r.flip = (Posit.pack c r).map fun v => -v := by
  obtain ⟨t, n, e, f⟩ := r
  simp only at ht hf
  subst ht
  exact pack_flip h hf

end Verif
