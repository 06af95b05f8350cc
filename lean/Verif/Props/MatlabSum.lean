import Verif.Model.MatlabSum
import Verif.Props.MatlabTab
import Verif.Props.SumFaithful
import Verif.Lemmas.RootHalf

/-!
# C136: sums looked up in a table of posits; the half constants
-/

namespace Verif
open Fmt MTab

variable {o : FloatOps} {c : Cfg}

/-! ## The nearest entry -/

theorem rounds_exact {X : ℚ} {b : ℕ} (hX : ∃ g, ieee 11 52 g = .num X) (hb : RoundsTo 11 52 (.num X) b) : ieee 11 52 b = .num X := by
  rcases hb with hb | ⟨hb, -⟩
  · exact hb.exact hX
  · obtain ⟨g, hg⟩ := hX
    exact absurd (ieee_le_maxFin (by norm_num) hg) (not_le.mpr hb)

theorem sqDiff_exact (ho : o.Ieee 11 52) {a w : ℕ} (ha : a < 2 ^ 64) {A W : ℚ} (hA : ieee 11 52 a = .num A)
    (hW : ieee 11 52 w = .num W) (h1 : ∃ g, ieee 11 52 g = .num (W - A)) (h2 : ∃ g, ieee 11 52 g = .num ((W - A) * (W - A))) :
    ieee 11 52 (sqDiff o a w) = .num ((W - A) * (W - A)) := by
  have hn := (mtab_neg ha).1
  rw [hA] at hn
  have hadd := ho.add w (MTab.neg a)
  rw [hn, hW] at hadd
  have hd : ieee 11 52 (o.add w (MTab.neg a)) = .num (W - A) :=
    rounds_exact h1 (by simpa [XNum.neg, XNum.plus, sub_eq_add_neg] using hadd)
  have hmul := ho.mul (o.add w (MTab.neg a)) (o.add w (MTab.neg a))
  rw [hd] at hmul
  exact rounds_exact h2 hmul

/-- **C136** (`toindex`, mode `float`): the first of the entries nearest to the argument, if the differences of the numbers of
the table from it and their squares are doubles. Infinities and NaN in the table are passed over. -/
theorem C136_nearest (ho : o.Ieee 11 52) {zp : List Entry} {a : ℕ} (ha : a < 2 ^ 64) {A : ℚ} (hA : ieee 11 52 a = .num A)
    (hin : ∃ e ∈ zp, ∃ W, ieee 11 52 e.float = .num W)
    (hex : ∀ e ∈ zp, ∀ W, ieee 11 52 e.float = .num W →
      (∃ g, ieee 11 52 g = .num (W - A)) ∧ ∃ g, ieee 11 52 g = .num ((W - A) * (W - A))) :
    ∃ i e W, toindex o zp .float a = some (i + 1) ∧ zp[i]? = some e ∧ ieee 11 52 e.float = .num W ∧
      (∀ d ∈ zp, ∀ V, ieee 11 52 d.float = .num V → |W - A| ≤ |V - A|) ∧
      ∀ j < i, ∀ d, zp[j]? = some d → ∀ V, ieee 11 52 d.float = .num V → |W - A| < |V - A| := by
  have hS : toindex o zp .float a = (extreme (AnyFloat.natLt .double) (zp.map fun e => sqDiff o a e.float)).map (·.1) := rfl
  obtain ⟨e0, he0, W0, hW0⟩ := hin
  have hmem : ∀ {d : Entry}, d ∈ zp → sqDiff o a d.float ∈ zp.map fun e => sqDiff o a e.float :=
    fun hd => List.mem_map_of_mem (f := fun e : Entry => sqDiff o a e.float) hd
  obtain ⟨⟨k, m⟩, hb, hB⟩ := best_extreme dord_lt (List.ne_nil_of_mem (hmem he0))
  have hsq : ∀ {d : Entry}, d ∈ zp → ∀ {V}, ieee 11 52 d.float = .num V → ieee 11 52 (sqDiff o a d.float) = .num ((V - A) * (V - A)) :=
    fun hd V hV => sqDiff_exact ho ha hA hV (hex _ hd V hV).1 (hex _ hd V hV).2
  rw [hS, hb]
  have hmn : isNan m = false := by
    by_contra hc
    have hc : isNan m = true := by simpa using hc
    have := (hB.none hc).2 _ (hmem he0)
    rw [mtab_isNan, hsq he0 hW0] at this; cases this
  have hk := hB.mem
  rw [List.getElem?_map] at hk
  obtain ⟨e, he, hem⟩ := Option.map_eq_some_iff.mp hk
  simp only at hem
  have hez := List.mem_of_getElem? he
  obtain ⟨-, hc2, -, hc4⟩ := sqDiff_cases ho ha hA (w := e.float)
  have hm0 : ∃ W, ieee 11 52 e.float = .num W := by
    have hle := hB.least hmn _ (hmem he0)
    simp only at hle
    rw [← hem] at hle
    cases hw : ieee 11 52 e.float with
    | num W => exact ⟨W, rfl⟩
    | inf s =>
      have : AnyFloat.natLt .double (sqDiff o a e0.float) (sqDiff o a e.float) = true := by
        rw [dLt, hsq he0 hW0, hc4 ⟨s, hw⟩]; rfl
      rw [hle] at this; cases this
    | nan =>
      have hadd := ho.add e.float (MTab.neg a)
      rw [hw] at hadd
      have hd : ieee 11 52 (o.add e.float (MTab.neg a)) = .nan := (show _ ∧ _ from hadd).1
      have hmul := ho.mul (o.add e.float (MTab.neg a)) (o.add e.float (MTab.neg a))
      rw [hd] at hmul
      have h1 : ieee 11 52 (sqDiff o a e.float) = .nan := (show _ ∧ _ from hmul).1
      rw [hem, ← mtab_isNan] at h1
      rw [h1] at hmn; cases hmn
  obtain ⟨W, hW⟩ := hm0
  have hpos := hB.pos
  simp only at hpos
  refine ⟨k - 1, e, W, by simp only [Option.map_some]; rw [Nat.sub_add_cancel hpos], he, hW, fun d hd V hV => ?_, fun j hj d hd V hV => ?_⟩
  · have hle := hB.least hmn _ (hmem hd)
    simp only at hle
    by_contra hc
    have : AnyFloat.natLt .double (sqDiff o a d.float) m = true := by
      rw [← hem, dLt, hsq hez hW, hsq hd hV]
      show (V - A) * (V - A) < (W - A) * (W - A)
      rw [← abs_mul_abs_self (V - A), ← abs_mul_abs_self (W - A)]
      exact mul_self_lt_mul_self (abs_nonneg _) (not_le.mp hc)
    rw [hle] at this; cases this
  · have hdz := List.mem_of_getElem? hd
    have := hB.first hmn j (sqDiff o a d.float) (by simp only; omega) (by rw [List.getElem?_map, hd]; rfl)
    rcases this with h | h
    · rw [mtab_isNan, hsq hdz hV] at h; cases h
    · rw [dLt, ← hem, hsq hez hW, hsq hdz hV] at h
      have h : (W - A) * (W - A) < (V - A) * (V - A) := h
      rw [← abs_mul_abs_self (V - A), ← abs_mul_abs_self (W - A)] at h
      exact lt_of_mul_self_lt_mul_self₀ (abs_nonneg _) h

/-! ## The sum -/

/-- **C136** (`testfloat11.m`): for two entries that are numbers and whose sum is a double, the fields describe these entries,
`s` is the sum, `y` the first entry nearest to it and `diff` the error, provided that the differences and their squares are
doubles. -/
theorem C136_sum (ho : o.Ieee 11 52) (hw : ∀ x y, o.add x y < 2 ^ 64) {zp : List Entry} (hzp : ∀ e ∈ zp, e.float < 2 ^ 64)
    {mode : Mode} {a b i j : ℕ} {ea eb : Entry} {x y : ℚ}
    (ha : toindex o zp mode a = some (i + 1)) (hb : toindex o zp mode b = some (j + 1)) (hea : zp[i]? = some ea) (heb : zp[j]? = some eb)
    (hx : ieee 11 52 ea.float = .num x) (hy : ieee 11 52 eb.float = .num y) (hs : ∃ g, ieee 11 52 g = .num (x + y))
    (hex : ∀ e ∈ zp, ∀ W, ieee 11 52 e.float = .num W → (∃ g, ieee 11 52 g = .num (W - (x + y))) ∧
      (∃ g, ieee 11 52 g = .num ((W - (x + y)) * (W - (x + y))))) :
    ∃ s k e W d, testfloat11 o zp mode a b = some (some
        { a := ⟨i + 1, ea.signed, ea.unsigned, ea.float⟩, b := some ⟨j + 1, eb.signed, eb.unsigned, eb.float⟩, s := some s,
          y := some ⟨k + 1, e.signed, e.unsigned, e.float⟩, diff := some d }) ∧
      ieee 11 52 s = .num (x + y) ∧ zp[k]? = some e ∧ ieee 11 52 e.float = .num W ∧ ieee 11 52 d = .num (x + y - W) ∧
      (∀ f ∈ zp, ∀ V, ieee 11 52 f.float = .num V → |W - (x + y)| ≤ |V - (x + y)|) ∧
      ∀ l < k, ∀ f, zp[l]? = some f → ∀ V, ieee 11 52 f.float = .num V → |W - (x + y)| < |V - (x + y)| := by
  have hadd := ho.add ea.float eb.float
  rw [hx, hy] at hadd
  have hsum : ieee 11 52 (o.add ea.float eb.float) = .num (x + y) := rounds_exact hs hadd
  obtain ⟨k, e, W, h1, h2, h3, h4, h5⟩ := C136_nearest ho (hw _ _) hsum ⟨ea, List.mem_of_getElem? hea, x, hx⟩ hex
  have he := List.mem_of_getElem? h2
  have hn := (mtab_neg (hzp e he)).1
  rw [h3] at hn
  have hd := ho.add (o.add ea.float eb.float) (MTab.neg e.float)
  rw [hn, hsum] at hd
  have hneg : ∃ g, ieee 11 52 g = .num (x + y - W) := by
    obtain ⟨g, hg⟩ := (hex e he W h3).1
    have hg' : ieee 11 52 (g % 2 ^ 64) = .num (W - (x + y)) := (ieee_mod 11 52 g).trans hg
    refine ⟨MTab.neg (g % 2 ^ 64), ?_⟩
    rw [(mtab_neg (Nat.mod_lt _ (by norm_num))).1, hg']
    simp [XNum.neg]
  have hdiff : ieee 11 52 (o.add (o.add ea.float eb.float) (MTab.neg e.float)) = .num (x + y - W) :=
    rounds_exact hneg (by simpa [XNum.neg, XNum.plus, sub_eq_add_neg] using hd)
  refine ⟨_, k, e, W, _, ?_, hsum, h2, h3, hdiff, h4, h5⟩
  have f1 : ∀ {i : ℕ} {e : Entry}, zp[i]? = some e → found zp (i + 1) = some ⟨i + 1, e.signed, e.unsigned, e.float⟩ := by
    intro i e h
    simp [found, h]
  have f2 : ∀ {i : ℕ} {e : Entry}, zp[i]? = some e → fromindex zp .float (i + 1) = some e.float := by
    intro i e h
    simp [fromindex, h]
  unfold testfloat11
  simp only [ha, hb, f1 hea, f1 heb, f2 hea, f2 heb, bind, Option.bind, h1, f1 h2, pure]

/-- **C136** (`testfloat11.m`), the empty results: a number that is not in the table in the modes `signed` and `unsigned`. -/
theorem C136_empty (zp : List Entry) (mode : Mode) (a b : ℕ) :
    (toindex o zp mode a = none → testfloat11 o zp mode a b = some none) ∧
    (∀ i ea, toindex o zp mode a = some (i + 1) → zp[i]? = some ea → toindex o zp mode b = none →
      testfloat11 o zp mode a b = some (some { a := ⟨i + 1, ea.signed, ea.unsigned, ea.float⟩ })) ∧
    testfloat11 o zp .other a b = none := by
  refine ⟨fun h => by unfold testfloat11; rw [h], fun i ea h1 h2 h3 => ?_, rfl⟩
  unfold testfloat11
  simp [h1, h3, found, h2]

example : toindex o [(⟨0, 0x3ff0000000000000, 0, 0⟩ : Entry)] .unsigned 0x4000000000000000 = none := by
  have h2 : ieee 11 52 0x3ff0000000000000 = .num 1 := by norm_num [ieee]
  cases h : toindex o [(⟨0, 0x3ff0000000000000, 0, 0⟩ : Entry)] .unsigned 0x4000000000000000 with
  | none => rfl
  | some k =>
    obtain ⟨i, -, ⟨y, hy, hs⟩, -⟩ := (find_iff _ _ k).mp h
    have : y = 0x3ff0000000000000 := by
      cases i with
      | zero => exact (Option.some.inj hy).symm
      | succ i => simp at hy
    subst this
    rw [h2, ieee_two] at hs
    norm_num [XNum.Same] at hs

/-! ## Against the sums of the library -/

theorem faithful_nearest {f : Format} {z : ℚ} {u v : ℤ} (hu : f.IsFaithful z u) (hv : f.IsReal v)
    (hn : ∀ w, f.IsReal w → |f.val v - z| ≤ |f.val w - z|) : |v - u| ≤ 1 := by
  have key : ∀ {z : ℚ} {u v : ℤ}, f.IsFaithful z u → f.IsReal v → (∀ w, f.IsReal w → |f.val v - z| ≤ |f.val w - z|) → v ≤ u + 1 := by
    intro z u v hu hv hn
    by_contra hlt
    push Not at hlt
    have hr : f.IsReal (u + 1) := by
      have := hu.real
      unfold Format.IsReal at *; omega
    have h1 := hu.above (u + 1) hr ((Format.val_lt_iff hu.real.inRange hr.inRange).mpr (by omega))
    have h2 := (Format.val_lt_iff hr.inRange hv.inRange).mpr hlt
    have := hn _ hr
    rw [abs_of_pos (by linarith), abs_of_pos (by linarith)] at this
    linarith
  have h1 := key hu hv hn
  have h2 := key hu.neg hv.neg (fun w hw => by
    have := hn (-w) hw.neg
    rw [Format.val_neg] at this ⊢
    rw [show -f.val v - -z = -(f.val v - z) by ring, abs_neg, show f.val w - -z = -(-f.val w - z) by ring, abs_neg]
    exact this)
  rw [abs_le]; omega

/-- **C136**: in the table of all numbers of a format, the entry that `testfloat11.m` finds for the sum of two posits is the
sum that the library computes or one of its neighbours. -/
theorem C136_library (h : c.WF) (hF : c.fb + 3 ≤ c.F) (ho : o.Ieee 11 52) (hw : ∀ x y, o.add x y < 2 ^ 64) {zp : List Entry}
    (hzp : ∀ e ∈ zp, e.float < 2 ^ 64) (hall : ∀ v, c.fmt.IsReal v → ∃ e ∈ zp, ieee 11 52 e.float = .num (c.fmt.val v))
    (honly : ∀ e ∈ zp, ∀ x, ieee 11 52 e.float = .num x → ∃ v, c.fmt.IsReal v ∧ x = c.fmt.val v)
    {mode : Mode} {a b i j : ℕ} {ea eb : Entry} {p q u : ℤ} (hp : c.fmt.IsReal p) (hq : c.fmt.IsReal q)
    (ha : toindex o zp mode a = some (i + 1)) (hb : toindex o zp mode b = some (j + 1)) (hea : zp[i]? = some ea) (heb : zp[j]? = some eb)
    (hx : ieee 11 52 ea.float = .num (c.fmt.val p)) (hy : ieee 11 52 eb.float = .num (c.fmt.val q))
    (hs : ∃ g, ieee 11 52 g = .num (c.fmt.val p + c.fmt.val q))
    (hex : ∀ w, c.fmt.IsReal w → (∃ g, ieee 11 52 g = .num (c.fmt.val w - (c.fmt.val p + c.fmt.val q))) ∧
      (∃ g, ieee 11 52 g = .num ((c.fmt.val w - (c.fmt.val p + c.fmt.val q)) * (c.fmt.val w - (c.fmt.val p + c.fmt.val q)))))
    (hu : Posit.add c p q = .ok u) :
    ∃ r f v, testfloat11 o zp mode a b = some (some r) ∧ r.y = some f ∧ c.fmt.IsReal v ∧ ieee 11 52 f.float = .num (c.fmt.val v) ∧
      (∀ w, c.fmt.IsReal w → |c.fmt.val v - (c.fmt.val p + c.fmt.val q)| ≤ |c.fmt.val w - (c.fmt.val p + c.fmt.val q)|) ∧
      |v - u| ≤ 1 := by
  obtain ⟨s, k, e, W, d, h1, -, h3, h4, -, h6, -⟩ := C136_sum ho hw hzp ha hb hea heb hx hy hs (fun e he W hW => by
    obtain ⟨v, hv, rfl⟩ := honly e he W hW
    exact hex v hv)
  obtain ⟨v, hv, rfl⟩ := honly e (List.mem_of_getElem? h3) W h4
  have hn : ∀ w, c.fmt.IsReal w → |c.fmt.val v - (c.fmt.val p + c.fmt.val q)| ≤ |c.fmt.val w - (c.fmt.val p + c.fmt.val q)| := by
    intro w hw'
    obtain ⟨e', he', hv'⟩ := hall w hw'
    exact h6 e' he' _ hv'
  exact ⟨_, _, v, h1, rfl, hv, h4, hn, faithful_nearest (C137_add h hF hp hq hu).1 hv hn⟩

/-- an arithmetic whose sums are patterns of 64 bits -/
theorem floatOps_ieee_bounded : ∃ o : FloatOps, o.Ieee 11 52 ∧ ∀ x y, o.add x y < 2 ^ 64 := by
  obtain ⟨o, ho⟩ := floatOps_ieee_exists (eb := 11) (fb := 52) (by norm_num) (by norm_num)
  refine ⟨{ o with add := fun a b => o.add a b % 2 ^ 64 }, ⟨fun a b => ?_, ho.mul, ho.div⟩, fun x y => Nat.mod_lt _ (by norm_num)⟩
  have h := ho.add a b
  have hm : ieee 11 52 (o.add a b % 2 ^ 64) = ieee 11 52 (o.add a b) := ieee_mod 11 52 _
  show RoundsTo 11 52 _ (o.add a b % 2 ^ 64)
  cases hx : (ieee 11 52 a).plus (ieee 11 52 b) with
  | num x =>
    rw [hx] at h
    rcases h with ⟨y, hy, h⟩ | ⟨h1, h2⟩
    · exact Or.inl ⟨y, hm.trans hy, h⟩
    · refine Or.inr ⟨h1, ?_⟩
      rw [hm]; exact h2
  | inf s => rw [hx] at h; exact hm.trans h
  | nan =>
    rw [hx] at h
    refine ⟨hm.trans h.1, ?_⟩
    rw [show o.add a b % 2 ^ 64 % 2 ^ 52 = o.add a b % 2 ^ 52 from Nat.mod_mod_of_dvd _ (by norm_num)]
    exact h.2

/-- posits of four bits -/
abbrev P4c : Cfg := ⟨8, 4, 0, 8, .withNan⟩

/-- the doubles with the values of the posits of four bits, in ascending order, without the exception value -/
def tab4 : List Entry :=
  [0xC010000000000000, 0xC000000000000000, 0xBFF8000000000000, 0xBFF0000000000000, 0xBFE8000000000000, 0xBFE0000000000000,
    0xBFD0000000000000, 0, 0x3FD0000000000000, 0x3FE0000000000000, 0x3FE8000000000000, 0x3FF0000000000000, 0x3FF8000000000000,
    0x4000000000000000, 0x4010000000000000].map fun b => ⟨0, 0, b, 0⟩

theorem tab4_val (i : ℕ) (hi : i < 15) : ∃ e, tab4[i]? = some e ∧ e.float < 2 ^ 64 ∧ ieee 11 52 e.float = .num (P4c.fmt.val ((i : ℤ) - 7)) := by
  have hv : ∀ i : ℕ, i < 15 → P4c.fmt.val ((i : ℤ) - 7) =
      ([-4, -2, -3/2, -1, -3/4, -1/2, -1/4, 0, 1/4, 1/2, 3/4, 1, 3/2, 2, 4] : List ℚ)[i]! := by decide +kernel
  rw [hv i hi]
  interval_cases i <;> refine ⟨_, rfl, by norm_num, ?_⟩ <;> norm_num [ieee]

theorem tab4_all (v : ℤ) (hv : P4c.fmt.IsReal v) : ∃ e ∈ tab4, ieee 11 52 e.float = .num (P4c.fmt.val v) := by
  have : -7 ≤ v ∧ v ≤ 7 := by
    have h7 : P4c.fmt.maxBody = 7 := by decide +kernel
    unfold Format.IsReal at hv; rw [h7] at hv; omega
  obtain ⟨e, h1, -, h3⟩ := tab4_val (v + 7).toNat (by omega)
  refine ⟨e, List.mem_of_getElem? h1, ?_⟩
  rw [h3]; congr 2; omega

theorem tab4_only (e : Entry) (he : e ∈ tab4) : e.float < 2 ^ 64 ∧ ∃ v, P4c.fmt.IsReal v ∧ ieee 11 52 e.float = .num (P4c.fmt.val v) := by
  obtain ⟨i, hi⟩ := List.mem_iff_getElem?.mp he
  have hl : i < 15 := by
    by_contra hc
    rw [List.getElem?_eq_none (by simp [tab4]; omega)] at hi; cases hi
  obtain ⟨e', h1, h2, h3⟩ := tab4_val i hl
  obtain rfl := Option.some.inj (hi.symm.trans h1)
  have h7 : P4c.fmt.maxBody = 7 := by decide +kernel
  exact ⟨h2, _, by unfold Format.IsReal; rw [h7]; omega, h3⟩

theorem tab4_exact (w : ℤ) (hw : P4c.fmt.IsReal w) : (∃ g, ieee 11 52 g = .num (P4c.fmt.val w - (P4c.fmt.val 6 + P4c.fmt.val 5))) ∧
    ∃ g, ieee 11 52 g = .num ((P4c.fmt.val w - (P4c.fmt.val 6 + P4c.fmt.val 5)) * (P4c.fmt.val w - (P4c.fmt.val 6 + P4c.fmt.val 5))) := by
  have hk : ∃ k : ℤ, |k| < 2 ^ 10 ∧ P4c.fmt.val w - (P4c.fmt.val 6 + P4c.fmt.val 5) = k * 2 ^ (-2 : ℤ) := by
    have h7 : P4c.fmt.maxBody = 7 := by decide +kernel
    unfold Format.IsReal at hw; rw [h7] at hw
    have ht : ∀ i ∈ List.range 15, ∃ k ∈ List.range 100, P4c.fmt.val ((i : ℤ) - 7) - (P4c.fmt.val 6 + P4c.fmt.val 5) =
        ((k : ℤ) - 50 : ℤ) * (1 / 4) := by decide +kernel
    obtain ⟨k, hk, h⟩ := ht (w + 7).toNat (by rw [List.mem_range]; omega)
    rw [show (((w + 7).toNat : ℤ) - 7) = w by omega] at h
    rw [List.mem_range] at hk
    refine ⟨(k : ℤ) - 50, by rw [abs_lt]; omega, h.trans (by norm_num)⟩
  obtain ⟨k, hk, h⟩ := hk
  rw [h]
  refine ⟨HalfPrec.double_of_int (hk.trans (by norm_num)) (by norm_num) (by norm_num), ?_⟩
  obtain ⟨g, hg⟩ := HalfPrec.double_of_int (n := k * k) (W := -4) (by
    rw [abs_mul]; nlinarith [abs_nonneg k]) (by norm_num) (by norm_num)
  refine ⟨g, hg.trans ?_⟩
  congr 1
  push_cast
  rw [show (-4 : ℤ) = -2 + -2 by norm_num, zpow_add₀ (by norm_num : (2 : ℚ) ≠ 0)]
  ring

/-- **C136**: the entry that `testfloat11.m` finds need not be the sum of the library. In the table of the posits of four bits
it finds 4 for the sum of 2 and 3/2, and the library gives 2. -/
theorem C136_library_wrong (ho : o.Ieee 11 52) (hw : ∀ x y, o.add x y < 2 ^ 64) :
    ∃ r f, testfloat11 o tab4 .index 14 13 = some (some r) ∧ r.a.float = 0x4000000000000000 ∧ r.y = some f ∧
      ieee 11 52 f.float = .num 4 ∧ P4c.fmt.val 6 = 2 ∧ P4c.fmt.val 5 = 3 / 2 ∧ P4c.fmt.val 7 = 4 ∧ Posit.add P4c 6 5 = .ok 6 := by
  have e6 : P4c.fmt.val 6 = 2 := by decide +kernel
  have e5 : P4c.fmt.val 5 = 3 / 2 := by decide +kernel
  have e7 : P4c.fmt.val 7 = 4 := by decide +kernel
  have hu : Posit.add P4c 6 5 = .ok 6 := by decide +kernel
  have h6 : ieee 11 52 0x4000000000000000 = .num (P4c.fmt.val 6) := by rw [e6]; norm_num [ieee]
  have h5 : ieee 11 52 0x3FF8000000000000 = .num (P4c.fmt.val 5) := by rw [e5]; norm_num [ieee]
  have hs : ∃ g, ieee 11 52 g = .num (P4c.fmt.val 6 + P4c.fmt.val 5) := ⟨0x400C000000000000, by rw [e6, e5]; norm_num [ieee]⟩
  obtain ⟨s, k, e, W, d, h1, -, h3, h4, -, h6', -⟩ := C136_sum ho hw (fun e he => (tab4_only e he).1) (mode := .index) (a := 14) (b := 13)
    (i := 13) (j := 12) rfl rfl rfl rfl h6 h5 hs (fun e he W hW => by
      obtain ⟨-, v, hv, hv'⟩ := tab4_only e he
      obtain rfl := XNum.num.inj (hW.symm.trans hv')
      exact tab4_exact v hv)
  refine ⟨_, _, h1, rfl, rfl, ?_, e6, e5, e7, hu⟩
  obtain ⟨-, v, hv, hv'⟩ := tab4_only e (List.mem_of_getElem? h3)
  obtain rfl := XNum.num.inj (h4.symm.trans hv')
  obtain ⟨e', he', hv7⟩ := tab4_all 7 (by decide +kernel)
  have hle := h6' e' he' _ hv7
  have ht : ∀ i ∈ List.range 15, |P4c.fmt.val ((i : ℤ) - 7) - (P4c.fmt.val 6 + P4c.fmt.val 5)| ≤
      |P4c.fmt.val 7 - (P4c.fmt.val 6 + P4c.fmt.val 5)| → (i : ℤ) - 7 = 7 := by decide +kernel
  have h7 : P4c.fmt.maxBody = 7 := by decide +kernel
  unfold Format.IsReal at hv; rw [h7] at hv
  have := ht (v + 7).toNat (by rw [List.mem_range]; omega)
  rw [show (((v + 7).toNat : ℤ) - 7) = v by omega] at this
  rw [h4, this hle, e7]

example : ∃ o : FloatOps, o.Ieee 11 52 ∧ (∀ x y, o.add x y < 2 ^ 64) ∧ P4c.WF ∧ P4c.fb + 3 ≤ P4c.F ∧
    Posit.add P4c 6 5 = .ok 6 ∧ (∀ e ∈ tab4, e.float < 2 ^ 64) ∧
    toindex o tab4 .index 14 = some (13 + 1) ∧ (tab4[13]?).map (·.float) = some 0x4000000000000000 := by
  obtain ⟨o, ho, hw⟩ := floatOps_ieee_bounded
  exact ⟨o, ho, hw, by decide +kernel, by decide +kernel, by decide +kernel, fun e he => (tab4_only e he).1, rfl, rfl⟩

/-! ## The half constants -/

/-- **C136**: `halfprecisionmax` is the greatest number of the half floats, `halfprecisionmin` the least positive one. -/
theorem C136_half : ieee 5 10 halfprecisionmax = .num 65504 ∧ ieee 5 10 halfprecisionmin = .num (2 ^ (-24 : ℤ)) ∧
    ∀ b x, ieee 5 10 b = .num x → x ≤ 65504 ∧ (0 < x → 2 ^ (-24 : ℤ) ≤ x) := by
  refine ⟨by norm_num [ieee, halfprecisionmax], by norm_num [ieee, halfprecisionmin], fun b x hx => ⟨?_, fun h0 => ?_⟩⟩
  · have := ieee_le_maxFin (by norm_num) hx
    have h2 : maxFin 5 10 = 65504 := by unfold maxFin; norm_num
    rw [h2] at this
    exact le_trans (le_abs_self x) this
  · obtain ⟨k, hk⟩ := ieee_multiple hx
    have hm : minSub 5 10 = 2 ^ (-24 : ℤ) := by unfold minSub; norm_num
    rw [hm, abs_of_pos h0] at hk
    rcases Nat.eq_zero_or_pos k with rfl | hk0
    · rw [Nat.cast_zero, zero_mul] at hk; linarith
    · have h1 : (1 : ℚ) ≤ k := by exact_mod_cast hk0
      rw [hk]
      nlinarith [show (0 : ℚ) < 2 ^ (-24 : ℤ) by positivity]

end Verif
