import Verif.Spec.Sort
import Verif.Props.Order
import Verif.Props.U128
import Verif.Lemmas.Consts
import Verif.Props.EmuFull
import Verif.Props.Float16c
import Verif.Props.Float16n32
import Verif.Props.SoftWrap
import Verif.Model.PositFMore
import Verif.Model.Tabulated
import Verif.Model.Binary8

/-! # Which of the types can be sorted (C119) -/

namespace Verif

/-- a comparison that compares values of a linear order is a strict weak ordering -/
theorem StrictWeak.of_key {α β : Type} [LinearOrder β] {S : α → Prop} {lt : α → α → Prop} (f : α → β)
    (h : ∀ {a b}, S a → S b → (lt a b ↔ f a < f b)) : StrictWeak S lt where
  irrefl ha hl := lt_irrefl _ ((h ha ha).mp hl)
  trans ha hb hc h1 h2 := (h ha hc).mpr (((h ha hb).mp h1).trans ((h hb hc).mp h2))
  incomp ha hb hc h1 h2 h3 h4 := by
    rw [h ha hb] at h1; rw [h hb ha] at h2; rw [h hb hc] at h3; rw [h hc hb] at h4
    rw [h ha hc, h hc ha]
    have e1 := le_antisymm (not_lt.mp h2) (not_lt.mp h1)
    have e2 := le_antisymm (not_lt.mp h4) (not_lt.mp h3)
    rw [e1, e2]
    exact ⟨lt_irrefl _, lt_irrefl _⟩

theorem StrictWeak.not_lt_trans {α : Type} {S : α → Prop} {lt : α → α → Prop} (h : StrictWeak S lt) {a b c : α} (ha : S a) (hb : S b)
    (hc : S c) (h1 : ¬ lt b a) (h2 : ¬ lt c b) : ¬ lt c a := by
  intro h3
  have h4 : ¬ lt a b := fun k => h2 (h.trans hc ha hb h3 k)
  have h5 : ¬ lt b c := fun k => h1 (h.trans hb hc ha k h3)
  exact (h.incomp ha hb hc h4 h1 h5 h2).2 h3

/-- **C119**: for a strict weak ordering comparing neighbours is enough: this is what sorting relies on. -/
theorem C119_neighbours {α : Type} {S : α → Prop} {lt : α → α → Prop} (h : StrictWeak S lt) {l : List α} (hl : ∀ a ∈ l, S a) :
    NeighboursSorted lt l ↔ SortedBy lt l := by
  refine ⟨fun hc => ?_, fun hp => hp.isChain⟩
  induction l with
  | nil => exact List.Pairwise.nil
  | cons a l ih =>
    have hl' : ∀ b ∈ l, S b := fun b hb => hl b (List.mem_cons_of_mem _ hb)
    cases l with
    | nil => exact List.pairwise_singleton _ _
    | cons b l =>
      obtain ⟨h1, h2⟩ := List.isChain_cons_cons.mp hc
      have ih := ih hl' h2
      refine List.pairwise_cons.mpr ⟨fun d hd => ?_, ih⟩
      rcases List.mem_cons.mp hd with rfl | hd'
      · exact h1
      · exact h.not_lt_trans (hl a (by simp)) (hl' b (by simp)) (hl' d hd) h1 ((List.pairwise_cons.mp ih).1 d hd')

example : NeighboursSorted (fun a b : ℤ => a < b) [-1, 3, 3, 8] := by
  unfold NeighboursSorted; simp

/-! ## posits -/

variable {c : Cfg}

/-- the object `v` is not NaN, or the format has none -/
def NotNan (c : Cfg) (v : ℤ) : Prop := c.spec = .withInf ∨ v ≠ -(2 ^ (c.N - 1))

theorem posit_lt_iff (h : c.WF) {a b : ℤ} (ha : NotNan c a) (hb : NotNan c b) : Posit.lt c a b = true ↔ a < b := by
  have hz : (c.withnan && (Posit.isNaN c a || Posit.isNaN c b)) = false := by
    unfold Cfg.withnan Posit.isNaN
    rw [h.nan_eq]
    unfold NotNan at ha hb
    by_cases hs : c.spec = .withInf
    · simp [hs]
    · simp [hs, ha.resolve_left hs, hb.resolve_left hs]
  unfold Posit.lt
  rw [hz]; simp

/-- **C119**: `<` of `Posit` is a strict weak ordering of the objects that are not NaN, and two objects neither of which is less are
the same object. -/
theorem C119_posit (h : c.WF) : StrictWeak (NotNan c) (fun a b => Posit.lt c a b = true) ∧
    ∀ {a b}, NotNan c a → NotNan c b → Posit.lt c a b = false → Posit.lt c b a = false → a = b := by
  refine ⟨StrictWeak.of_key id fun ha hb => posit_lt_iff h ha hb, fun ha hb h1 h2 => ?_⟩
  have k1 := (posit_lt_iff h ha hb).not.mp (by simp [h1])
  have k2 := (posit_lt_iff h hb ha).not.mp (by simp [h2])
  omega

example : Cfg.WF ⟨8, 8, 0, 8, .withNan⟩ ∧ NotNan ⟨8, 8, 0, 8, .withNan⟩ (-127) ∧ NotNan ⟨8, 8, 0, 8, .withInf⟩ (-128) :=
  ⟨by decide +kernel, Or.inr (by decide), Or.inl rfl⟩

/-- **C119**: so there is one sorted arrangement of a list of posits, and real posits are sorted exactly if their values ascend. -/
theorem C119_sorted_unique (h : c.WF) {l m : List ℤ} (hl : ∀ a ∈ l, NotNan c a) (hp : l.Perm m)
    (h1 : SortedBy (fun a b => Posit.lt c a b = true) l) (h2 : SortedBy (fun a b => Posit.lt c a b = true) m) : l = m := by
  have hm : ∀ a ∈ m, NotNan c a := fun a ha => hl a (hp.mem_iff.mpr ha)
  refine hp.eq_of_pairwise (le := fun a b => ¬ Posit.lt c b a = true) ?_ h1 h2
  intro a b ha hb k1 k2
  exact (C119_posit h).2 (hl a ha) (hm b hb) (by simpa using k2) (by simpa using k1)

example : SortedBy (fun a b => Posit.lt ⟨8, 8, 0, 8, .withNan⟩ a b = true) [-100, -3, 0, 64, 64, 127] := by
  unfold SortedBy; decide +kernel

theorem C119_sorted_values (h : c.WF) {l : List ℤ} (hl : ∀ a ∈ l, c.fmt.IsReal a) :
    SortedBy (fun a b => Posit.lt c a b = true) l ↔ (l.map c.fmt.val).Pairwise (· ≤ ·) := by
  unfold SortedBy
  rw [List.pairwise_map]
  refine List.Pairwise.iff_of_mem fun {a b} ha hb => ?_
  exact (C04_compare h (hl b hb) (hl a ha)).1.not.trans not_lt

example : ([-100, -3, 0, 64, 64, 127].map (⟨8, 8, 0, 8, .withNan⟩ : Cfg).fmt.val).Pairwise (· ≤ ·) :=
  (C119_sorted_values (by decide +kernel) (by decide +kernel)).mp (by unfold SortedBy; decide +kernel)

/-- **C119** fails with a NaN in the list: 1 and NaN, and NaN and 0 are not comparable but 0 is less than 1, and the list 1, NaN, 0
passes for sorted. -/
theorem C119_nan_wrong (h : c.WF) (hs : c.spec ≠ .withInf) :
    ¬ StrictWeak (fun _ => True) (fun a b => Posit.lt c a b = true) ∧
    NeighboursSorted (fun a b => Posit.lt c a b = true) [c.one, c.nan, 0] ∧
    ¬ SortedBy (fun a b => Posit.lt c a b = true) [c.one, c.nan, 0] := by
  have hn1 : ∀ a, Posit.lt c a c.nan = false := fun a => (C05_nan_unordered h hs a c.nan (Or.inr h.nan_eq)).1
  have hn2 : ∀ a, Posit.lt c c.nan a = false := fun a => (C05_nan_unordered h hs c.nan a (Or.inl h.nan_eq)).1
  have hpos : (0 : ℤ) < 2 ^ (c.N - 2) := by positivity
  have hpos' : (0 : ℤ) < 2 ^ (c.N - 1) := by positivity
  have h01 : Posit.lt c 0 c.one = true := by
    refine (posit_lt_iff h (Or.inr (by omega)) (Or.inr ?_)).mpr ?_ <;> rw [one_eq h] <;> omega
  refine ⟨fun k => ?_, ?_, fun k => ?_⟩
  · exact (k.incomp (a := 0) (b := c.nan) (c := c.one) trivial trivial trivial (by simp [hn1]) (by simp [hn2]) (by simp [hn2])
      (by simp [hn1])).1 h01
  · unfold NeighboursSorted
    simp [hn1, hn2]
  · unfold SortedBy at k
    simp [h01] at k

example : NeighboursSorted (fun a b => Posit.lt ⟨8, 8, 0, 8, .withNan⟩ a b = true) [64, -128, 0] :=
  (C119_nan_wrong (c := ⟨8, 8, 0, 8, .withNan⟩) (by decide +kernel) (by decide)).2.1

/-! ## types compared by their patterns -/

/-- **C119**: `<` of `PositF` and of the tabulated types orders all objects, NaN included, and different ones are always comparable. -/
theorem C119_patterns : StrictWeak (fun _ => True) (fun a b => PositF.lt a b = true) ∧
    StrictWeak (fun _ => True) (fun a b => Posit8.lt a b = true) ∧ StrictWeak (fun _ => True) (fun a b => Posit10.lt a b = true) ∧
    StrictWeak (fun _ => True) (fun a b => Posit12.lt a b = true) ∧ StrictWeak (fun _ => True) (fun a b => Binary8.lt a b = true) ∧
    ∀ {a b : ℤ}, a ≠ b → (PositF.lt a b = true ∨ PositF.lt b a = true) ∧ (Posit8.lt a b = true ∨ Posit8.lt b a = true) ∧
      (Posit10.lt a b = true ∨ Posit10.lt b a = true) ∧ (Posit12.lt a b = true ∨ Posit12.lt b a = true) ∧
      (Binary8.lt a b = true ∨ Binary8.lt b a = true) := by
  refine ⟨StrictWeak.of_key (id : ℤ → ℤ) ?_, StrictWeak.of_key (id : ℤ → ℤ) ?_, StrictWeak.of_key (id : ℤ → ℤ) ?_,
    StrictWeak.of_key (id : ℤ → ℤ) ?_, StrictWeak.of_key (id : ℤ → ℤ) ?_, fun {a b} hab => ?_⟩
  · intro a b _ _; simp [PositF.lt]
  · intro a b _ _; simp [Posit8.lt]
  · intro a b _ _; simp [Posit10.lt]
  · intro a b _ _; simp [Posit12.lt]
  · intro a b _ _; simp [Binary8.lt]
  · simp only [PositF.lt, Posit8.lt, Posit10.lt, Posit12.lt, Binary8.lt, decide_eq_true_eq]
    omega

example : Posit8.lt (-128) (-127) = true ∧ Binary8.lt (-128) 0 = true := by decide +kernel

/-! ## types compared as floats -/

theorem StrictWeak.congr {α : Type} {S : α → Prop} {r q : α → α → Prop} (h : ∀ {a b}, S a → S b → (r a b ↔ q a b)) :
    StrictWeak S r ↔ StrictWeak S q := by
  have key : ∀ {r q : α → α → Prop}, (∀ {a b}, S a → S b → (r a b ↔ q a b)) → StrictWeak S q → StrictWeak S r := by
    intro r q h k
    refine ⟨fun ha => ?_, fun ha hb hc => ?_, fun ha hb hc => ?_⟩
    · rw [h ha ha]; exact k.irrefl ha
    · rw [h ha hb, h hb hc, h ha hc]; exact k.trans ha hb hc
    · rw [h ha hb, h hb ha, h hb hc, h hc hb, h ha hc, h hc ha]; exact k.incomp ha hb hc
  exact ⟨key fun ha hb => (h ha hb).symm, key h⟩

theorem below_strictWeak {α : Type} (f : α → XNum) {S : α → Prop} (hS : ∀ {a}, S a → f a ≠ .nan) :
    StrictWeak S (fun a b => (f a).Below (f b)) where
  irrefl {a} ha := by
    cases h : f a <;> simp [XNum.Below]
  trans {a b c} ha hb hc := by
    cases h1 : f a <;> cases h2 : f b <;> cases h3 : f c <;> simp_all [XNum.Below]
    exact lt_trans
  incomp {a b c} ha hb hc := by
    cases h1 : f a <;> cases h2 : f b <;> cases h3 : f c <;>
      first
      | exact absurd h1 (hS ha)
      | exact absurd h2 (hS hb)
      | exact absurd h3 (hS hc)
      | (simp only [XNum.Below, not_lt]
         intros
         first
         | (constructor <;> linarith)
         | simp_all)

theorem below_nan_not_strictWeak {α : Type} {S : α → Prop} {f : α → XNum} {a b n : α} (ha : S a) (hb : S b) (hS : S n) (hn : f n = .nan)
    (hab : (f a).Below (f b)) : ¬ StrictWeak S (fun a b => (f a).Below (f b)) := by
  intro k
  have h1 : ∀ X : XNum, ¬ X.Below .nan := fun X => by cases X <;> simp [XNum.Below]
  have h2 : ∀ X : XNum, ¬ XNum.nan.Below X := fun X => by cases X <;> simp [XNum.Below]
  exact (k.incomp (a := a) (b := n) (c := b) ha hS hb (by rw [hn]; exact h1 _) (by rw [hn]; exact h2 _)
    (by rw [hn]; exact h2 _) (by rw [hn]; exact h1 _)).1 hab

/-- **C119**: `<` of an emulated float is a strict weak ordering of the patterns that are not NaN; -/
theorem C119_anyfloat {eb fb neb nfb : ℕ} (h : EmuFor eb fb neb nfb) :
    StrictWeak (fun v => ieee eb fb v ≠ .nan) (fun a b => AnyFloat.lt (.any eb fb) (.any neb nfb) a b = .ok true) := by
  have e : ∀ {a b : ℕ}, AnyFloat.lt (.any eb fb) (.any neb nfb) a b = .ok true ↔
      ((ieee eb fb a).flush neb).Below ((ieee eb fb b).flush neb) := by
    intro a b
    rw [(C99_cmp h a b).2.2.1]
    simp
  refine (StrictWeak.congr fun _ _ => e).mpr (below_strictWeak (fun v => (ieee eb fb v).flush neb) fun {v} hv => ?_)
  cases hx : ieee eb fb v <;> simp_all [XNum.flush]
  split <;> simp

example : EmuFor 5 2 8 23 ∧ AnyFloat.lt (.any 5 2) (.any 8 23) 0x3c 0x40 = .ok true := by
  refine ⟨by constructor <;> omega, by decide +kernel⟩

/-- … not of all of them. -/
theorem C119_anyfloat_nan_wrong {eb fb neb nfb : ℕ} (h : EmuFor eb fb neb nfb) :
    ¬ StrictWeak (fun _ => True) (fun a b => AnyFloat.lt (.any eb fb) (.any neb nfb) a b = .ok true) := by
  have e : ∀ {a b : ℕ}, AnyFloat.lt (.any eb fb) (.any neb nfb) a b = .ok true ↔
      ((ieee eb fb a).flush neb).Below ((ieee eb fb b).flush neb) := by
    intro a b
    rw [(C99_cmp h a b).2.2.1]
    simp
  obtain ⟨-, -, -, -, -, hi, hm, hn⟩ := C51_constants (eb := eb) (fb := fb) (dn := true) h.heb h.hfb
  rw [StrictWeak.congr fun _ _ => e]
  refine below_nan_not_strictWeak (f := fun v => (ieee eb fb v).flush neb) (a := (FTrait.any eb fb).ninf) (b := (FTrait.any eb fb).pinf)
    (n := (FTrait.any eb fb).nan) trivial trivial trivial ?_ ?_
  · show (ieee eb fb _).flush neb = _
    rw [hn]; rfl
  · show ((ieee eb fb _).flush neb).Below ((ieee eb fb _).flush neb)
    rw [hi, hm]; exact ⟨rfl, rfl⟩

example : ieee 5 2 0x7f = .nan := by norm_num [ieee]

/-- **C119**: `<` of half floats with the F16C instructions, -/
theorem C119_float16c {k : F16C} (hk : k.Correct) :
    StrictWeak (fun v => v < 2 ^ 16 ∧ ieee 5 10 v ≠ .nan) (fun a b => Float16c.lt k a b = true) ∧
    ¬ StrictWeak (fun v => v < 2 ^ 16) (fun a b => Float16c.lt k a b = true) := by
  have e : ∀ {a b : ℕ}, a < 2 ^ 16 → b < 2 ^ 16 → (Float16c.lt k a b = true ↔ (ieee 5 10 a).Below (ieee 5 10 b)) := by
    intro a b ha hb
    rw [(Float16c.C101_cmp hk ha hb).2.1]
    simp
  refine ⟨(StrictWeak.congr fun ha hb => e ha.1 hb.1).mpr (below_strictWeak _ fun hv => hv.2), ?_⟩
  refine (StrictWeak.congr (S := fun v => v < 2 ^ 16) fun ha hb => e ha hb).not.mpr ?_
  refine below_nan_not_strictWeak (a := 0) (b := 0x3c00) (n := 0x7e00) (by norm_num) (by norm_num) (by norm_num) (by norm_num [ieee]) ?_
  rw [show ieee 5 10 0 = .num 0 by norm_num [ieee], show ieee 5 10 0x3c00 = .num 1 by norm_num [ieee]]
  show (0 : ℚ) < 1
  norm_num

example : ∃ k : F16C, k.Correct := Float16c.f16c_exists

/-- **C119**: … and of `softfloat16` and `softfloat32`: likewise. -/
theorem C119_soft {l : SoftLib} (hl : l.Correct) :
    StrictWeak (fun v => v < 2 ^ 16 ∧ ieee 5 10 v ≠ .nan) (fun a b => Soft16.lt l a b = true) ∧
    ¬ StrictWeak (fun v => v < 2 ^ 16) (fun a b => Soft16.lt l a b = true) ∧
    StrictWeak (fun v => v < 2 ^ 32 ∧ ieee 8 23 v ≠ .nan) (fun a b => Soft32.lt l a b = true) ∧
    ¬ StrictWeak (fun v => v < 2 ^ 32) (fun a b => Soft32.lt l a b = true) := by
  have e : ∀ {a b : ℕ}, a < 2 ^ 16 → b < 2 ^ 16 → (Soft16.lt l a b = true ↔ (ieee 5 10 a).Below (ieee 5 10 b)) := hl.f16.lt
  have e' : ∀ {a b : ℕ}, a < 2 ^ 32 → b < 2 ^ 32 → (Soft32.lt l a b = true ↔ (ieee 8 23 a).Below (ieee 8 23 b)) := hl.f32.lt
  refine ⟨(StrictWeak.congr fun ha hb => e ha.1 hb.1).mpr (below_strictWeak _ fun hv => hv.2), ?_,
    (StrictWeak.congr fun ha hb => e' ha.1 hb.1).mpr (below_strictWeak _ fun hv => hv.2), ?_⟩
  · refine (StrictWeak.congr (S := fun v => v < 2 ^ 16) fun ha hb => e ha hb).not.mpr ?_
    refine below_nan_not_strictWeak (a := 0) (b := 0x3c00) (n := 0x7e00) (by norm_num) (by norm_num) (by norm_num) (by norm_num [ieee]) ?_
    rw [show ieee 5 10 0 = .num 0 by norm_num [ieee], show ieee 5 10 0x3c00 = .num 1 by norm_num [ieee]]
    show (0 : ℚ) < 1
    norm_num
  · refine (StrictWeak.congr (S := fun v => v < 2 ^ 32) fun ha hb => e' ha hb).not.mpr ?_
    refine below_nan_not_strictWeak (a := 0) (b := 0x3f800000) (n := 0x7fc00000) (by norm_num) (by norm_num) (by norm_num)
      (by norm_num [ieee]) ?_
    rw [show ieee 8 23 0 = .num 0 by norm_num [ieee], show ieee 8 23 0x3f800000 = .num 1 by norm_num [ieee]]
    show (0 : ℚ) < 1
    norm_num

example : ∃ l : SoftLib, l.Correct := C107_exists

/-- **C119**: without the F16C instructions every half float, NaN included, becomes a number before it is compared: then `<`, although
wrong (C60), is a strict weak ordering of all patterns. -/
theorem C119_float16n32 {u2f : ℕ → ℕ} (hu : Float16n32.CorrectU u2f) :
    StrictWeak (fun v => v < 2 ^ 16) (fun a b => Float16n32.lt u2f a b = .ok true) := by
  have key : ∀ v, ∃ r y, v < 2 ^ 16 → Float16n32.toFloat u2f v = .ok r ∧ ieee 8 23 r = .num y := by
    intro v
    by_cases hv : v < 2 ^ 16
    swap
    · exact ⟨0, 0, fun h => absurd h hv⟩
    by_cases h0 : ieee 5 10 v = .num 0
    · obtain ⟨h1, h2⟩ := ieee_num_zero h0
      have hv' : v = 0 ∨ v = 0x8000 := by
        unfold fExp at h1
        unfold fMan at h2
        norm_num at h1 h2
        omega
      obtain ⟨y, hy, -⟩ := hu 0 (by norm_num)
      refine ⟨u2f 0, y, fun _ => ⟨?_, hy⟩⟩
      unfold Float16n32.toFloat
      have : Float16n32.widen v = .ok 0 := by rcases hv' with rfl | rfl <;> decide +kernel
      rw [this]; rfl
    · obtain ⟨r, hr, ⟨y, hy⟩, -⟩ := Float16n32.C60_toFloat_wrong hu h0
      exact ⟨r, y, fun _ => ⟨hr, hy⟩⟩
  choose r y hr using key
  refine StrictWeak.of_key y fun {a b} ha hb => ?_
  unfold Float16n32.lt
  rw [(hr a ha).1, (hr b hb).1]
  show (Except.ok (AnyFloat.xLt (ieee 8 23 (r a)) (ieee 8 23 (r b))) : M Bool) = .ok true ↔ _
  rw [(hr a ha).2, (hr b hb).2]
  simp [AnyFloat.xLt]

example : ∃ u2f, Float16n32.CorrectU u2f := Float16n32.correctU_exists

/-! ## two-word integers -/

/-- **C119**, `unsigned128`: `<` is irreflexive and transitive. Missing: that not being comparable is transitive, see
`C119_u128_wrong`. -/
theorem C119_u128_partial {a b d : U128} : U128.lt a a = false ∧ (U128.lt a b = true → U128.lt b d = true → U128.lt a d = true) := by
  unfold U128.lt
  simp only [Bool.and_eq_true, decide_eq_true_eq, Bool.and_eq_false_iff, decide_eq_false_iff_not]
  omega

example : U128.lt ⟨1, 2⟩ ⟨2, 3⟩ = true ∧ U128.lt ⟨2, 3⟩ ⟨4, 4⟩ = true := by decide

/-- … It is not, so `unsigned128` cannot be sorted: the list 2^64+1, 2^64, 0 passes for sorted. -/
theorem C119_u128_wrong : ¬ StrictWeak U128.Valid (fun a b => U128.lt a b = true) ∧
    NeighboursSorted (fun a b => U128.lt a b = true) [⟨1, 1⟩, ⟨1, 0⟩, ⟨0, 0⟩] ∧
    (⟨0, 0⟩ : U128).val < (⟨1, 0⟩ : U128).val ∧ (⟨1, 0⟩ : U128).val < (⟨1, 1⟩ : U128).val := by
  refine ⟨fun k => ?_, ?_, by decide, by decide⟩
  · exact absurd (k.incomp (a := ⟨0, 0⟩) (b := ⟨1, 0⟩) (c := ⟨1, 1⟩) ⟨by decide, by decide⟩ ⟨by decide, by decide⟩ ⟨by decide, by decide⟩
      (by decide) (by decide) (by decide) (by decide)).1 (by decide)
  · unfold NeighboursSorted
    simp [U128.lt]

end Verif
