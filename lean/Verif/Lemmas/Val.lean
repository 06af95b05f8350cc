import Verif.Lemmas.Format

/-! # Signed values, order and truncation -/

namespace Verif.Fmt

namespace Format
variable {f : Format}

theorem maxBody_lt (f : Format) : f.maxBody < 2 ^ (f.N - 1) := by
  unfold maxBody
  have := Nat.one_le_two_pow (n := f.N - 1)
  split_ifs <;> omega

theorem IsReal.natAbs_le {v : Int} (h : f.IsReal v) : v.natAbs ≤ f.maxBody := by
  unfold IsReal at h; omega

theorem IsReal.natAbs_lt {v : Int} (h : f.IsReal v) : v.natAbs < 2 ^ (f.N - 1) :=
  lt_of_le_of_lt h.natAbs_le (maxBody_lt f)

theorem isReal_iff {v : Int} : f.IsReal v ↔ v.natAbs ≤ f.maxBody := by
  unfold IsReal; omega

theorem IsReal.neg {v : Int} (h : f.IsReal v) : f.IsReal (-v) := by
  unfold IsReal at *; omega

theorem IsReal.canonical {v : Int} (h : f.IsReal v) : f.IsCanonical v := by
  have := maxBody_lt f
  have h2 : (f.maxBody : Int) < 2 ^ (f.N - 1) := by exact_mod_cast this
  unfold IsReal at h; unfold IsCanonical; omega

@[simp] theorem val_zero : f.val 0 = 0 := by simp [val]

theorem val_pos' {v : Int} (h : 0 < v) : f.val v = posVal f.N f.es v.natAbs := by
  rw [val, if_neg (by omega), if_pos h]; congr 1; omega

theorem val_neg' {v : Int} (h : v < 0) : f.val v = -posVal f.N f.es v.natAbs := by
  rw [val, if_neg (by omega), if_neg (by omega)]; congr 2; omega

theorem val_natCast {p : Nat} (h : 1 ≤ p) : f.val (p : Int) = posVal f.N f.es p := by
  rw [val_pos' (by omega)]; rfl

theorem val_neg (f : Format) (v : Int) : f.val (-v) = -f.val v := by
  rcases lt_trichotomy v 0 with h | h | h
  · rw [val_neg' h, val_pos' (by omega), Int.natAbs_neg, neg_neg]
  · subst h; simp
  · rw [val_pos' h, val_neg' (by omega), Int.natAbs_neg]

/-- the range on which `val` is meaningful -/
def InRange (f : Format) (v : Int) : Prop := v.natAbs < 2 ^ (f.N - 1)

theorem InRange.posVal_pos {v : Int} (h : f.InRange v) (h0 : v ≠ 0) : 0 < posVal f.N f.es v.natAbs :=
  Fmt.posVal_pos (by omega) h

theorem abs_val {v : Int} (h : f.InRange v) (h0 : v ≠ 0) : |f.val v| = posVal f.N f.es v.natAbs := by
  have hp := h.posVal_pos h0
  rcases lt_trichotomy v 0 with h1 | h1 | h1
  · rw [val_neg' h1, abs_neg, abs_of_pos hp]
  · exact absurd h1 h0
  · rw [val_pos' h1, abs_of_pos hp]

theorem val_pos_iff {v : Int} (h : f.InRange v) : 0 < f.val v ↔ 0 < v := by
  rcases lt_trichotomy v 0 with h1 | h1 | h1
  · have := h.posVal_pos (by omega)
    rw [val_neg' h1]
    constructor
    · intro; linarith
    · intro; omega
  · subst h1; simp
  · have := h.posVal_pos (by omega)
    rw [val_pos' h1]
    simp [this, h1]

theorem val_neg_iff {v : Int} (h : f.InRange v) : f.val v < 0 ↔ v < 0 := by
  have := val_pos_iff (f := f) (v := -v) (by unfold InRange at *; simpa using h)
  rw [val_neg] at this
  constructor
  · intro h; have := this.mp (by linarith); omega
  · intro h; have := this.mpr (by omega); linarith

theorem val_eq_zero_iff {v : Int} (h : f.InRange v) : f.val v = 0 ↔ v = 0 := by
  constructor
  · intro h0
    have h1 := val_pos_iff h
    have h2 := val_neg_iff h
    rw [h0] at h1 h2
    simp at h1 h2
    omega
  · rintro rfl; simp

theorem val_lt_iff {v w : Int} (hv : f.InRange v) (hw : f.InRange w) : f.val v < f.val w ↔ v < w := by
  rcases lt_trichotomy v 0 with h1 | h1 | h1 <;> rcases lt_trichotomy w 0 with h2 | h2 | h2
  · rw [val_neg' h1, val_neg' h2, neg_lt_neg_iff, posVal_lt_iff (by omega) hw (by omega) hv]
    omega
  · have := (val_neg_iff hv).mpr h1
    subst h2; simp; constructor <;> intro <;> assumption
  · have := (val_neg_iff hv).mpr h1
    have := (val_pos_iff hw).mpr h2
    constructor <;> intro
    · omega
    · linarith
  · have := (val_neg_iff hw).mpr h2
    subst h1; simp; constructor <;> intro
    · linarith
    · omega
  · subst h1; subst h2; simp
  · subst h1; simp [val_pos_iff hw]
  · have := (val_neg_iff hw).mpr h2
    have := (val_pos_iff hv).mpr h1
    constructor <;> intro
    · linarith
    · omega
  · have := (val_pos_iff hv).mpr h1
    subst h2; simp; constructor <;> intro
    · linarith
    · omega
  · rw [val_pos' h1, val_pos' h2, posVal_lt_iff (by omega) hv (by omega) hw]
    omega

theorem val_le_iff {v w : Int} (hv : f.InRange v) (hw : f.InRange w) : f.val v ≤ f.val w ↔ v ≤ w := by
  rw [← not_lt, val_lt_iff hw hv, not_lt]

theorem val_inj {v w : Int} (hv : f.InRange v) (hw : f.InRange w) : f.val v = f.val w ↔ v = w := by
  constructor
  · intro h
    have h1 := (val_le_iff hv hw).mp h.le
    have h2 := (val_le_iff hw hv).mp h.ge
    omega
  · rintro rfl; rfl

theorem IsReal.inRange {v : Int} (h : f.IsReal v) : f.InRange v := h.natAbs_lt

/-- truncation of a positive number, on bodies -/
structure TruncB (f : Format) (y : ℚ) (p : Nat) : Prop where
  one_le : 1 ≤ p
  le_max : p ≤ f.maxBody
  greatest : ∀ q, 1 ≤ q → q ≤ f.maxBody → posVal f.N f.es q ≤ y → q ≤ p
  below : posVal f.N f.es p ≤ y ∨ p = 1

theorem TruncB.unique {y : ℚ} {p q : Nat} (hp : f.TruncB y p) (hq : f.TruncB y q) : p = q := by
  have key : ∀ {p q : Nat}, f.TruncB y p → f.TruncB y q → p ≤ q := by
    intro p q hp hq
    rcases hp.below with h | h
    · exact hq.greatest p hp.one_le hp.le_max h
    · have := hq.one_le; omega
  exact le_antisymm (key hp hq) (key hq hp)

/-- only the set of posits not above `y` matters -/
theorem TruncB.congr {y y' : ℚ} {p : Nat} (h : f.TruncB y p)
    (hs : ∀ q, 1 ≤ q → q ≤ f.maxBody → (posVal f.N f.es q ≤ y ↔ posVal f.N f.es q ≤ y')) : f.TruncB y' p :=
  ⟨h.one_le, h.le_max, fun q h1 h2 h3 => h.greatest q h1 h2 ((hs q h1 h2).mpr h3),
    h.below.imp_left (hs p h.one_le h.le_max).mp⟩

theorem TruncB.mono {y y' : ℚ} {p p' : Nat} (h : f.TruncB y p) (h' : f.TruncB y' p') (hy : y ≤ y') : p ≤ p' := by
  rcases h.below with hb | hb
  · exact h'.greatest p h.one_le h.le_max (hb.trans hy)
  · have := h'.one_le; omega

theorem truncB_posVal {p : Nat} (h1 : 1 ≤ p) (h2 : p ≤ f.maxBody) : f.TruncB (posVal f.N f.es p) p := by
  have hl := maxBody_lt f
  exact ⟨h1, h2, fun q hq1 hq2 hq => (posVal_le_iff hq1 (by omega) h1 (by omega)).mp hq, Or.inl le_rfl⟩

theorem IsTrunc.of_pos {y : ℚ} {p : Nat} (hy : 0 < y) (h : f.TruncB y p) : f.IsTrunc y p := by
  have hl := maxBody_lt f
  have h1 := h.one_le
  have hr : f.IsReal (p : Int) := isReal_iff.mpr (by simpa using h.le_max)
  refine ⟨hr, Or.inl ⟨by omega, hy⟩, ?_, ?_⟩
  · intro w hw hw0 hle
    rw [abs_val hw.inRange hw0] at *
    rw [abs_val hr.inRange (by omega), posVal_le_iff (by omega) hw.natAbs_lt (by simpa using h1) (by simpa using hr.natAbs_lt)]
    rw [abs_of_pos hy] at hle
    simpa using h.greatest _ (by omega) hw.natAbs_le hle
  · rw [abs_val hr.inRange (by omega), abs_of_pos hy]
    rcases h.below with hb | hb
    · left; simpa using hb
    · right
      intro w hw hw0
      rw [abs_val hw.inRange hw0, posVal_le_iff (by simpa using h1) (by simpa using hr.natAbs_lt) (by omega) hw.natAbs_lt]
      simp; omega

theorem IsTrunc.neg {y : ℚ} {v : Int} (h : f.IsTrunc y v) : f.IsTrunc (-y) (-v) := by
  refine ⟨h.real.neg, ?_, ?_, ?_⟩
  · rcases h.sign with h | h
    · right; constructor <;> [omega; linarith]
    · left; constructor <;> [omega; linarith]
  · simpa only [val_neg, abs_neg] using h.greatest
  · simpa only [val_neg, abs_neg] using h.below

/-- truncation of a signed number from the truncation of its magnitude -/
theorem IsTrunc.of_sign {y : ℚ} {p : Nat} (neg : Bool) (hy : 0 < y) (h : f.TruncB y p) :
    f.IsTrunc ((if neg then -1 else 1) * y) (if neg then -(p : Int) else p) := by
  cases neg
  · simpa using IsTrunc.of_pos hy h
  · simpa using (IsTrunc.of_pos hy h).neg

theorem IsTrunc.truncB {y : ℚ} {v : Int} (h : f.IsTrunc y v) : f.TruncB |y| v.natAbs := by
  have hv0 : v ≠ 0 := by rcases h.sign with h | h <;> omega
  have hl := maxBody_lt f
  refine ⟨by omega, h.real.natAbs_le, ?_, ?_⟩
  · intro q h1 h2 h3
    have hr : f.IsReal (q : Int) := isReal_iff.mpr (by simpa using h2)
    have := h.greatest q hr (by omega)
    rw [abs_val hr.inRange (by omega), abs_val h.real.inRange hv0] at this
    have := this (by simpa using h3)
    rwa [posVal_le_iff (by simpa using h1) hr.natAbs_lt (by omega) h.real.natAbs_lt] at this
  · rcases h.below with hb | hb
    · left; rwa [abs_val h.real.inRange hv0] at hb
    · right
      have h1 : f.IsReal (1 : Int) := isReal_iff.mpr (by have := h.real.natAbs_le; simp; omega)
      have := hb 1 h1 (by omega)
      rw [abs_val h.real.inRange hv0, abs_val h1.inRange (by omega),
        posVal_le_iff (by omega) h.real.natAbs_lt (by simp) h1.natAbs_lt] at this
      simp at this; omega

theorem IsTrunc.unique {y : ℚ} {v w : Int} (hv : f.IsTrunc y v) (hw : f.IsTrunc y w) : v = w := by
  have := hv.truncB.unique hw.truncB
  have h1 := hv.sign
  have h2 := hw.sign
  rcases h1 with h1 | h1 <;> rcases h2 with h2 | h2
  · omega
  · exact absurd h1.2 (by linarith [h2.2])
  · exact absurd h1.2 (by linarith [h2.2])
  · omega

theorem isTrunc_val {v : Int} (h : f.IsReal v) (h0 : v ≠ 0) : f.IsTrunc (f.val v) v := by
  refine ⟨h, ?_, fun w _ _ hw => hw, Or.inl le_rfl⟩
  rcases lt_or_gt_of_ne h0 with h1 | h1
  · exact Or.inr ⟨h1, (val_neg_iff h.inRange).mpr h1⟩
  · exact Or.inl ⟨h1, (val_pos_iff h.inRange).mpr h1⟩

end Format
end Verif.Fmt
