import Verif.Props.Sum
import Verif.Props.Scale
import Verif.Props.Order
import Verif.Props.Special
import Verif.Props.Fused
import Verif.Props.Constants
import Verif.Lemmas.Grid
import Verif.Model.PositMul

/-!
# C65: expressions that are equal for the real numbers they denote have the same outcome
-/

namespace Verif
open Fmt

variable {c : Cfg}

/-! ## Outcomes determined by a number -/

/-- `r` is the outcome of rounding the number `x` toward zero -/
def Outcome (c : Cfg) (x : ℚ) (r : M ℤ) : Prop :=
  (x = 0 ∨ c.SafeMag x → ∃ v, r = .ok v ∧ c.fmt.IsCut0 x v) ∧ (¬ (x = 0 ∨ c.SafeMag x) → r = .error .shiftAmount)

theorem isCut0_unique {f : Format} {x : ℚ} {v w : ℤ} (hv : f.IsCut0 x v) (hw : f.IsCut0 x w) : v = w := by
  rcases hv with ⟨h1, rfl⟩ | h1 <;> rcases hw with ⟨h2, rfl⟩ | h2
  · rfl
  · have := h2.sign; rw [h1] at this; simp at this
  · have := h1.sign; rw [h2] at this; simp at this
  · exact h1.unique h2

theorem Outcome.unique {x : ℚ} {r s : M ℤ} (hr : Outcome c x r) (hs : Outcome c x s) : r = s := by
  by_cases hx : x = 0 ∨ c.SafeMag x
  · obtain ⟨v, h1, h2⟩ := hr.1 hx
    obtain ⟨w, h3, h4⟩ := hs.1 hx
    rw [h1, h3, isCut0_unique h2 h4]
  · rw [hr.2 hx, hs.2 hx]

theorem Outcome.exact {w : ℤ} {r : M ℤ} (hr : Outcome c (c.fmt.val w) r) (hw : c.fmt.IsReal w)
    (hs : c.fmt.val w = 0 ∨ c.SafeMag (c.fmt.val w)) : r = .ok w := by
  obtain ⟨v, h1, h2⟩ := hr.1 hs
  rw [h1, isCut0_unique h2 (isCut0_self hw)]

theorem outcome_mul (h : c.WF) (hF : c.fb + 2 ≤ c.F) {a b : ℤ} (ha : c.fmt.IsReal a) (hb : c.fmt.IsReal b) :
    Outcome c (c.fmt.val a * c.fmt.val b) (Posit.mul c a b) := by
  obtain ⟨ua, ub, m, h1, h2, h3, h4, -⟩ := app_mul h (by omega) ha hb
  have : Posit.mul c a b = Posit.pack c m := by
    unfold Posit.mul
    rw [h1, h2]
    simp only [bind, Except.bind]
    rw [h3]
  rw [this]
  exact app_pack h hF h4

theorem outcome_div (h : c.WF) (hF : c.fb + 2 ≤ c.F) {a b : ℤ} (ha : c.fmt.IsReal a) (hb : c.fmt.IsReal b) (hb0 : b ≠ 0) :
    Outcome c (c.fmt.val a / c.fmt.val b) (Posit.div c a b) := by
  by_cases ha0 : a = 0
  · subst ha0
    rw [Format.val_zero, zero_div, (C13_mul_zero h hb).2.2 hb0]
    exact ⟨fun _ => ⟨0, rfl, Or.inl ⟨rfl, rfl⟩⟩, fun hn => absurd (Or.inl rfl) hn⟩
  · have hx : c.fmt.val a / c.fmt.val b ≠ 0 :=
      div_ne_zero (fun hh => ha0 ((Format.val_eq_zero_iff ha.inRange).mp hh)) fun hh => hb0 ((Format.val_eq_zero_iff hb.inRange).mp hh)
    refine ⟨fun hs => ?_, fun hs => C09_div_ub h hF ha ha0 hb hb0 fun hh => hs (Or.inr hh)⟩
    obtain ⟨v, hv, ht⟩ := C09_div_partial h hF ha ha0 hb hb0 (hs.resolve_left hx)
    exact ⟨v, hv, Or.inr ht⟩

/-- a multiple of the unit is not cut -/
theorem cutTo_multiple {u x : ℚ} (hu : 0 < u) {n : ℕ} (hx : |x| = n * u) : cutTo u x = x := by
  have key : ∀ {x : ℚ}, 0 ≤ x → x = n * u → cutTo u x = x := by
    intro x h0 h1
    rw [cutTo_nonneg_eq h0]
    nth_rewrite 1 [h1]
    rw [mul_div_cancel_right₀ _ hu.ne', Nat.floor_natCast, ← h1]
  rcases le_total 0 x with h0 | h0
  · exact key h0 (by rwa [abs_of_nonneg h0] at hx)
  · have := key (x := -x) (by linarith) (by rwa [abs_of_nonpos h0] at hx)
    rw [cutTo_neg] at this; linarith

/-- a sum of two nonzero numbers that are not cut, and not a single unit -/
theorem outcome_add (h : c.WF) {a b : ℤ} (ha : c.fmt.IsReal a) (ha0 : a ≠ 0) (hb : c.fmt.IsReal b) (hb0 : b ≠ 0)
    (hok : SumOK c.F (c.fmt.val a) (c.fmt.val b)) :
    Outcome c (cutSum c.F (c.fmt.val a) (c.fmt.val b)) (Posit.add c a b) := by
  have va : c.fmt.val a ≠ 0 := fun hh => ha0 ((Format.val_eq_zero_iff ha.inRange).mp hh)
  have vb : c.fmt.val b ≠ 0 := fun hh => hb0 ((Format.val_eq_zero_iff hb.inRange).mp hh)
  have key := C63_add h ha hb
  have hal : alignedSum c.F (c.fmt.val a) (c.fmt.val b) = cutSum c.F (c.fmt.val a) (c.fmt.val b) := by
    unfold alignedSum; rw [if_neg va, if_neg vb]
  rw [hal] at key
  refine ⟨fun hs => key.1 (Or.inr (Or.inr ⟨hok, hs⟩)), fun hs => key.2 ?_⟩
  rintro (h1 | h1 | ⟨-, h1⟩)
  · exact va h1
  · exact vb h1
  · exact hs h1

/-! ## C65 -/

/-- **C65**, doubling: `x + x` and `x * t`, `t` being the number two, have the same outcome for every real `x`. -/
theorem C65_double (h : c.WF) (hF : c.fb + 2 ≤ c.F) {x t : ℤ} (hx : c.fmt.IsReal x) (ht : c.fmt.IsReal t)
    (h2 : c.fmt.val t = 2) : Posit.add c x x = Posit.mul c x t := by
  by_cases h0 : x = 0
  · subst h0
    rw [(C13_add_zero c 0).1, (C13_mul_zero h ht).2.1]
  · have vx : c.fmt.val x ≠ 0 := fun hh => h0 ((Format.val_eq_zero_iff hx.inRange).mp hh)
    have hF8 := h.hF
    have hc : cutSum c.F (c.fmt.val x) (c.fmt.val x) = c.fmt.val x * c.fmt.val t := by
      unfold cutSum sumUnit
      rw [max_self, exact_val h hF hx vx, h2]; ring
    refine Outcome.unique (x := c.fmt.val x * c.fmt.val t) ?_ (outcome_mul h hF hx ht)
    rw [← hc]
    refine outcome_add h hx h0 hx h0 (Or.inr (Or.inr ⟨?_, ?_⟩))
    · rw [sub_self, abs_zero]; unfold pw; push_cast; omega
    · rintro ⟨-, he⟩
      rw [hc, h2, abs_mul, abs_two] at he
      unfold sumUnit at he
      rw [max_self] at he
      have h1 := log_le vx le_rfl
      have h3 : (2 : ℚ) ^ (Int.log 2 |c.fmt.val x| + 2 - c.F : ℤ) ≤ 2 ^ (Int.log 2 |c.fmt.val x|) :=
        zpow_le_zpow_right₀ (by norm_num) (by omega)
      have h4 : (0 : ℚ) < 2 ^ (Int.log 2 |c.fmt.val x|) := by positivity
      linarith

example : P16.WF ∧ P16.fb + 2 ≤ P16.F ∧ P16.fmt.IsReal 12001 ∧ P16.fmt.IsReal P16.two ∧ P16.fmt.val P16.two = 2 ∧
    Posit.add P16 12001 12001 = .ok 14049 ∧ Posit.mul P16 12001 P16.two = .ok 14049 := by decide +kernel

/-- **C65**, `twice()` is `x * 2` and `x + x`, under the conditions of `C18_twice_partial`. -/
theorem C65_twice_partial (h : c.WF) (hF : c.fb + 2 ≤ c.F) {x t : ℤ} (hx : c.fmt.IsReal x) (ht : c.fmt.IsReal t)
    (h2 : c.fmt.val t = 2) (hs : x = 0 ∨ c.SafeMag (2 * c.fmt.val x))
    (hz : c.es = 0 → x.natAbs ≠ c.fmt.maxBody ∨ (c.spec ≠ .withNanInf ∧ c.N + 2 < pw c.H)) :
    Posit.twice c x = Posit.mul c x t ∧ Posit.twice c x = Posit.add c x x := by
  rw [C65_double h hF hx ht h2, and_self]
  by_cases h0 : x = 0
  · rw [(C18_special h (Or.inr (Or.inr h0))).2]
    subst h0
    exact (C13_mul_zero h ht).2.1.symm
  · obtain ⟨w, h1, h3⟩ := C18_twice_partial h hx h0 (hs.resolve_left h0) hz
    have hm := outcome_mul h hF hx ht
    rw [h2, mul_comm] at hm
    obtain ⟨v, h4, h5⟩ := hm.1 (Or.inr (hs.resolve_left h0))
    rw [h1, h4, isCut0_unique h5 (Or.inr h3)]

example : P16.WF ∧ P16.fb + 2 ≤ P16.F ∧ P16.SafeMag (2 * P16.fmt.val 12001) ∧ P16.es ≠ 0 ∧
    Posit.twice P16 12001 = .ok 14049 := by decide +kernel
example : P8.WF ∧ P8.fb + 2 ≤ P8.F ∧ P8.SafeMag (2 * P8.fmt.val 127) ∧ P8.spec ≠ .withNanInf ∧ P8.N + 2 < pw P8.H ∧
    Posit.twice P8 127 = .ok 127 ∧ Posit.add P8 127 127 = .ok 127 := by decide +kernel

/-- **C65**, halving: `x / t` and `x * s`, `t` being two and `s` one half, have the same outcome for every real `x`; it is
that of `half()` unless `x/2` is below the least magnitude. -/
theorem C65_half (h : c.WF) (hF : c.fb + 2 ≤ c.F) {x t s : ℤ} (hx : c.fmt.IsReal x) (ht : c.fmt.IsReal t)
    (h2 : c.fmt.val t = 2) (hs : c.fmt.IsReal s) (hs2 : c.fmt.val s = 1 / 2) :
    Posit.div c x t = Posit.mul c x s ∧
    ((∃ u, c.fmt.IsReal u ∧ u ≠ 0 ∧ |c.fmt.val u| ≤ |c.fmt.val x / 2|) ∨ x = 0 → Posit.half c x = Posit.div c x t) := by
  have ht0 : t ≠ 0 := by rintro rfl; rw [Format.val_zero] at h2; norm_num at h2
  have hd := outcome_div h hF hx ht ht0
  have hm := outcome_mul h hF hx hs
  rw [h2] at hd
  rw [hs2, mul_one_div] at hm
  refine ⟨hd.unique hm, fun hu => ?_⟩
  by_cases h0 : x = 0
  · rw [(C18_special h (Or.inr (Or.inr h0))).1]
    subst h0
    exact ((C13_mul_zero h ht).2.2 ht0).symm
  · have hlo := hu.resolve_right h0
    have vx : c.fmt.val x / 2 ≠ 0 :=
      div_ne_zero (fun hh => h0 ((Format.val_eq_zero_iff hx.inRange).mp hh)) (by norm_num)
    obtain ⟨h1, h3⟩ := C18_half_partial h hx h0 hlo
    refine Outcome.unique ⟨fun hs => ?_, fun hs => h3 fun hh => hs (Or.inr hh)⟩ hd
    obtain ⟨w, h4, h5⟩ := h1 (hs.resolve_left vx)
    exact ⟨w, h4, Or.inr h5⟩

example : P16.WF ∧ P16.fb + 2 ≤ P16.F ∧ P16.fmt.IsReal 12001 ∧ P16.fmt.val P16.two = 2 ∧ P16.fmt.IsReal P16.half ∧
    P16.fmt.val P16.half = 1 / 2 ∧ |P16.fmt.val 1| ≤ |P16.fmt.val 12001 / 2| ∧ Posit.half P16 12001 = .ok 9953 ∧
    Posit.div P16 12001 P16.two = .ok 9953 ∧ Posit.mul P16 12001 P16.half = .ok 9953 := by decide +kernel

/-- **C65**, division by a number with an exact reciprocal is multiplication by the reciprocal, for every real `x`. -/
theorem C65_div_reciprocal (h : c.WF) (hF : c.fb + 2 ≤ c.F) {x y z : ℤ} (hx : c.fmt.IsReal x) (hy : c.fmt.IsReal y)
    (hz : c.fmt.IsReal z) (hyz : c.fmt.val y * c.fmt.val z = 1) : Posit.div c x y = Posit.mul c x z := by
  have hy0 : y ≠ 0 := by rintro rfl; rw [Format.val_zero] at hyz; norm_num at hyz
  have vy : c.fmt.val y ≠ 0 := fun hh => hy0 ((Format.val_eq_zero_iff hy.inRange).mp hh)
  have hd := outcome_div h hF hx hy hy0
  have : c.fmt.val x / c.fmt.val y = c.fmt.val x * c.fmt.val z := by
    rw [div_eq_iff vy, mul_assoc, mul_comm (c.fmt.val z), hyz, mul_one]
  rw [this] at hd
  exact hd.unique (outcome_mul h hF hx hz)

example : P32.WF ∧ P32.fb + 2 ≤ P32.F ∧ P32.fmt.IsReal 1234567890 ∧ P32.fmt.IsReal (2 ^ 29) ∧ P32.fmt.IsReal (3 * 2 ^ 29) ∧
    P32.fmt.val (2 ^ 29) * P32.fmt.val (3 * 2 ^ 29) = 1 ∧ Posit.div P32 1234567890 (2 ^ 29) = .ok 1691025769 := by
  decide +kernel

/-- **C65**, signs: `0 - x` is `-x` and `a - (-b)` is `a + b` for all reals; `x * -1` and `x / -1` are `-x` when `x` can be
repacked; `b - a` is the negated `a - b`. -/
theorem C65_signs (h : c.WF) (hF : c.fb + 2 ≤ c.F) {a b : ℤ} (ha : c.fmt.IsReal a) (hb : c.fmt.IsReal b) :
    Posit.sub c 0 a = .ok (-a) ∧ Posit.sub c a (-b) = Posit.add c a b ∧
    (Posit.sub c b a = (Posit.sub c a b).map fun v => -v) ∧
    (a = 0 ∨ c.SafeMag (c.fmt.val a) → Posit.mul c a c.mone = .ok (-a) ∧ Posit.div c a c.mone = .ok (-a)) := by
  refine ⟨?_, ?_, ?_, fun hs => ?_⟩
  · rw [sub_as_add h 0 ha]; exact (C13_add_zero c _).2
  · rw [sub_as_add h a hb.neg, neg_neg]
  · rw [sub_as_add h b ha, sub_as_add h a hb]
    have hn : ∀ {v : ℤ}, c.fmt.IsReal v → Posit.isNaN c v = false := fun hv => (real_not_special h hv).2
    have hcomm := C12_add_comm_partial h hb.canonical ha.neg.canonical (hn hb) (hn ha.neg)
    rw [hcomm]
    have key := C43_add_sign h ha hb.neg
    rw [neg_ok h ha.inRange, neg_ok h hb.neg.inRange, neg_neg, map_neg_bind h (fun v hv => add_real_of_ok h ha hb.neg hv)] at key
    exact key
  · obtain ⟨-, -, hm1, hm2⟩ := C19_zero_one h
    have hm0 : c.mone ≠ 0 := by intro hh; rw [hh, Format.val_zero] at hm2; norm_num at hm2
    have hsn : c.fmt.val (-a) = 0 ∨ c.SafeMag (c.fmt.val (-a)) := by
      rw [Format.val_neg]
      rcases hs with rfl | hs
      · left; rw [Format.val_zero, neg_zero]
      · right; unfold Cfg.SafeMag at hs ⊢; rwa [abs_neg]
    have e1 := outcome_mul h hF ha hm1
    have e2 := outcome_div h hF ha hm1 hm0
    rw [hm2, mul_neg_one, ← Format.val_neg] at e1
    rw [hm2, div_neg, div_one, ← Format.val_neg] at e2
    exact ⟨e1.exact ha.neg hsn, e2.exact ha.neg hsn⟩

example : P32.WF ∧ P32.fb + 2 ≤ P32.F ∧ P32.fmt.IsReal 1234567890 ∧ P32.fmt.IsReal (-777777777) ∧
    P32.SafeMag (P32.fmt.val 1234567890) ∧ Posit.sub P32 1234567890 (-777777777) = .ok 1235401398 ∧
    Posit.sub P32 (-777777777) 1234567890 = .ok (-1235401398) := by decide +kernel

/-- **C65**, fused multiply-add with an exact product: if `w` is the exact product of `a` and `b`, then `fma(a,b,d)` is
`w + d`; so with `POSITMUL` defined `a*b + d` and `d + a*b` have the outcome they have without it. -/
theorem C65_fma_product (h : c.WF) (hF : c.fb + 2 ≤ c.F) {a b d w : ℤ} (ha : c.fmt.IsReal a) (hb : c.fmt.IsReal b)
    (hd : c.fmt.IsReal d) (hw : c.fmt.IsReal w) (he : c.fmt.val w = c.fmt.val a * c.fmt.val b)
    (hs : w = 0 ∨ c.SafeMag (c.fmt.val w)) (hsd : d = 0 ∨ c.SafeMag (c.fmt.val d)) :
    Posit.fma c a b d = Posit.add c w d ∧ Posit.mul c a b = .ok w ∧
    Posit.delayedAdd c ⟨a, b⟩ d = (do let p ← Posit.mul c a b; Posit.add c p d) ∧
    Posit.addDelayed c d ⟨a, b⟩ = (do let p ← Posit.mul c a b; Posit.add c d p) := by
  have hz : ∀ {v : ℤ}, c.fmt.IsReal v → (v = 0 ∨ c.SafeMag (c.fmt.val v)) → (c.fmt.val v = 0 ∨ c.SafeMag (c.fmt.val v)) := by
    rintro v - (rfl | hv)
    · exact Or.inl Format.val_zero
    · exact Or.inr hv
  have hmul : Posit.mul c a b = .ok w := by
    have := outcome_mul h hF ha hb
    rw [← he] at this
    exact this.exact hw (hz hw hs)
  have hfma : Posit.fma c a b d = Posit.add c w d := by
    have k1 := C63_fma h hF ha hb hd
    rw [← he] at k1
    by_cases hw0 : w = 0
    · subst hw0
      rw [(C13_add_zero c d).2]
      have hal : alignedSum c.F (c.fmt.val 0) (c.fmt.val d) = c.fmt.val d := by
        unfold alignedSum; rw [if_pos Format.val_zero]
      rw [hal] at k1
      obtain ⟨v, h1, h2⟩ := k1.1 ⟨Or.inl Format.val_zero, hz hd hsd⟩
      rw [h1, isCut0_unique h2 (isCut0_self hd)]
    by_cases hd0 : d = 0
    · subst hd0
      rw [C30_fma_zero h, hmul, (C13_add_zero c w).1]
    have vw : c.fmt.val w ≠ 0 := fun hh => hw0 ((Format.val_eq_zero_iff hw.inRange).mp hh)
    have vd : c.fmt.val d ≠ 0 := fun hh => hd0 ((Format.val_eq_zero_iff hd.inRange).mp hh)
    have k2 := C63_add h hw hd
    by_cases hok : SumOK c.F (c.fmt.val w) (c.fmt.val d) ∧ (alignedSum c.F (c.fmt.val w) (c.fmt.val d) = 0 ∨
        c.SafeMag (alignedSum c.F (c.fmt.val w) (c.fmt.val d)))
    · obtain ⟨v, h1, h2⟩ := k1.1 hok
      obtain ⟨u, h3, h4⟩ := k2.1 (Or.inr (Or.inr hok))
      rw [h1, h3, isCut0_unique h2 h4]
    · rw [k1.2 hok, k2.2]
      rintro (hh | hh | hh)
      · exact vw hh
      · exact vd hh
      · exact hok hh
  refine ⟨hfma, hmul, ?_, ?_⟩
  · rw [hmul]; exact hfma
  · rw [hmul]
    have hn : ∀ {v : ℤ}, c.fmt.IsReal v → Posit.isNaN c v = false := fun hv => (real_not_special h hv).2
    have : (do let p ← (Except.ok w : M ℤ); Posit.add c d p) = Posit.add c d w := rfl
    rw [this, C12_add_comm_partial h hd.canonical hw.canonical (hn hd) (hn hw)]
    exact hfma

example : P16.WF ∧ P16.fb + 2 ≤ P16.F ∧ P16.fmt.val 18688 = P16.fmt.val 17408 * P16.fmt.val 17408 ∧
    P16.SafeMag (P16.fmt.val 18688) ∧ P16.SafeMag (P16.fmt.val 12345) ∧
    Posit.fma P16 17408 17408 12345 = .ok 18951 ∧ Posit.add P16 18688 12345 = .ok 18951 := by decide +kernel

/-- **C65**: with a product that is not a posit, `a*b + d` depends on `POSITMUL`: rounding once or twice. -/
theorem C65_fma_not_always : P8h.WF ∧ Posit.delayedAdd P8h ⟨72, 74⟩ (-64) = .ok 41 ∧
    (do let p ← Posit.mul P8h 72 74; Posit.add P8h p (-64)) = .ok 40 := by decide +kernel

/-- **C65**, `fma(a,1,d)` and `fma(1,a,d)` are `a + d`, for real `a`, `d` that can be repacked. -/
theorem C65_fma_one (h : c.WF) (hF : c.fb + 2 ≤ c.F) {a d : ℤ} (ha : c.fmt.IsReal a) (hd : c.fmt.IsReal d)
    (hs : a = 0 ∨ c.SafeMag (c.fmt.val a)) (hsd : d = 0 ∨ c.SafeMag (c.fmt.val d)) :
    Posit.fma c a c.one d = Posit.add c a d ∧ Posit.fma c c.one a d = Posit.add c a d := by
  obtain ⟨-, ⟨h1, h2⟩, -⟩ := C19_zero_one h
  exact ⟨(C65_fma_product h hF ha h1 hd ha (by rw [h2, mul_one]) hs hsd).1,
    (C65_fma_product h hF h1 ha hd ha (by rw [h2, one_mul]) hs hsd).1⟩

example : P16.WF ∧ P16.fb + 2 ≤ P16.F ∧ P16.SafeMag (P16.fmt.val 17001) ∧ P16.SafeMag (P16.fmt.val (-12345)) ∧
    Posit.fma P16 17001 P16.one (-12345) = .ok 16474 ∧ Posit.add P16 17001 (-12345) = .ok 16474 := by decide +kernel

/-- the outcome of a sum of two numbers, the second of which may be zero -/
theorem sum_unique {x y : ℚ} {r s : M ℤ}
    (hr : (SumOK c.F x y ∧ (alignedSum c.F x y = 0 ∨ c.SafeMag (alignedSum c.F x y)) →
        ∃ v, r = .ok v ∧ c.fmt.IsCut0 (alignedSum c.F x y) v) ∧
      (¬ (SumOK c.F x y ∧ (alignedSum c.F x y = 0 ∨ c.SafeMag (alignedSum c.F x y))) → r = .error .shiftAmount))
    (hs : (SumOK c.F x y ∧ (alignedSum c.F x y = 0 ∨ c.SafeMag (alignedSum c.F x y)) →
        ∃ v, s = .ok v ∧ c.fmt.IsCut0 (alignedSum c.F x y) v) ∧
      (¬ (SumOK c.F x y ∧ (alignedSum c.F x y = 0 ∨ c.SafeMag (alignedSum c.F x y))) → s = .error .shiftAmount)) : r = s := by
  by_cases hok : SumOK c.F x y ∧ (alignedSum c.F x y = 0 ∨ c.SafeMag (alignedSum c.F x y))
  · obtain ⟨v, h1, h2⟩ := hr.1 hok
    obtain ⟨w, h3, h4⟩ := hs.1 hok
    rw [h1, h3, isCut0_unique h2 h4]
  · rw [hr.2 hok, hs.2 hok]

/-- **C65**, sums of two products depend on the exact products only: if `a*b = a'*b'` and `x*y = x'*y'` as numbers, the
outcomes are the same. -/
theorem C65_mulAddMul_products (h : c.WF) (hF : c.fb + 2 ≤ c.F) {a b x y a' b' x' y' : ℤ} (ha : c.fmt.IsReal a)
    (hb : c.fmt.IsReal b) (hx : c.fmt.IsReal x) (hy : c.fmt.IsReal y) (ha' : c.fmt.IsReal a') (hb' : c.fmt.IsReal b')
    (hx' : c.fmt.IsReal x') (hy' : c.fmt.IsReal y') (h1 : c.fmt.val a * c.fmt.val b = c.fmt.val a' * c.fmt.val b')
    (h2 : c.fmt.val x * c.fmt.val y = c.fmt.val x' * c.fmt.val y') :
    Posit.delayedAddDelayed c ⟨a, b⟩ ⟨x, y⟩ = Posit.delayedAddDelayed c ⟨a', b'⟩ ⟨x', y'⟩ := by
  have k1 := C63_mulAddMul h hF ha hb hx hy
  have k2 := C63_mulAddMul h hF ha' hb' hx' hy'
  rw [← h1, ← h2] at k2
  exact sum_unique k1 k2

example : P16.WF ∧ P16.fb + 2 ≤ P16.F ∧ P16.fmt.val 17001 * P16.fmt.val 12288 = P16.fmt.val 12905 * P16.fmt.val 16384 ∧
    Posit.delayedAddDelayed P16 ⟨17001, 12288⟩ ⟨17000, -6000⟩ = .ok 12750 ∧
    Posit.delayedAddDelayed P16 ⟨12905, 16384⟩ ⟨-6000, 17000⟩ = .ok 12750 := by decide +kernel

/-- **C65**: `a*b + d*1` is `fma(a,b,d)`, and the two products of a sum and the factors of a product can be exchanged. -/
theorem C65_mulAddMul (h : c.WF) (hF : c.fb + 2 ≤ c.F) {a b x y : ℤ} (ha : c.fmt.IsReal a) (hb : c.fmt.IsReal b)
    (hx : c.fmt.IsReal x) (hy : c.fmt.IsReal y) :
    Posit.delayedAddDelayed c ⟨a, b⟩ ⟨x, c.one⟩ = Posit.fma c a b x ∧
    Posit.delayedAddDelayed c ⟨a, b⟩ ⟨x, y⟩ = Posit.delayedAddDelayed c ⟨x, y⟩ ⟨a, b⟩ ∧
    Posit.fma c a b x = Posit.fma c b a x := by
  obtain ⟨-, ⟨h1, h2⟩, -⟩ := C19_zero_one h
  refine ⟨?_, ?_, ?_⟩
  · have k1 := C63_mulAddMul h hF ha hb hx h1
    rw [h2, mul_one] at k1
    exact sum_unique k1 (C63_fma h hF ha hb hx)
  · have k1 := C63_mulAddMul h hF ha hb hx hy
    have k2 := C63_mulAddMul h hF hx hy ha hb
    refine sum_unique k1 ?_
    rw [alignedSum_comm c.F (c.fmt.val a * c.fmt.val b)]
    have : SumOK c.F (c.fmt.val a * c.fmt.val b) (c.fmt.val x * c.fmt.val y) ↔
        SumOK c.F (c.fmt.val x * c.fmt.val y) (c.fmt.val a * c.fmt.val b) := by
      unfold SumOK
      rw [cutSum_comm, abs_sub_comm]
      have : sumUnit c.F (c.fmt.val a * c.fmt.val b) (c.fmt.val x * c.fmt.val y) =
          sumUnit c.F (c.fmt.val x * c.fmt.val y) (c.fmt.val a * c.fmt.val b) := by unfold sumUnit; rw [max_comm]
      rw [this]; tauto
    rw [this]
    exact k2
  · have k1 := C63_fma h hF ha hb hx
    rw [mul_comm] at k1
    exact sum_unique k1 (C63_fma h hF hb ha hx)

example : P16.WF ∧ P16.fb + 2 ≤ P16.F ∧ P16.fmt.IsReal 17001 ∧ P16.fmt.IsReal (-17100) ∧
    Posit.delayedAddDelayed P16 ⟨17001, 17003⟩ ⟨-17100, P16.one⟩ = .ok 13065 ∧
    Posit.fma P16 17003 17001 (-17100) = .ok 13065 := by decide +kernel

/-- **C65**, difference of two products: `a*b - x*y` is `a*b + (-x)*y` for nonzero `x`, `y`. -/
theorem C65_mulSubMul_partial (h : c.WF) (hF : c.fb + 2 ≤ c.F) {a b x y : ℤ} (ha : c.fmt.IsReal a) (hb : c.fmt.IsReal b)
    (hx : c.fmt.IsReal x) (hx0 : x ≠ 0) (hy : c.fmt.IsReal y) (hy0 : y ≠ 0) :
    Posit.delayedSubDelayed c ⟨a, b⟩ ⟨x, y⟩ = Posit.delayedAddDelayed c ⟨a, b⟩ ⟨-x, y⟩ := by
  have vxy : c.fmt.val x * c.fmt.val y ≠ 0 := mul_ne_zero (fun hh => hx0 ((Format.val_eq_zero_iff hx.inRange).mp hh))
    fun hh => hy0 ((Format.val_eq_zero_iff hy.inRange).mp hh)
  have k1 := C63_mulSubMul h hF ha hb hx hy (m := -(c.fmt.val x * c.fmt.val y)) (by rw [if_neg vxy])
  have k2 := C63_mulAddMul h hF ha hb hx.neg hy
  rw [Format.val_neg, neg_mul] at k2
  exact sum_unique k1 k2

example : P16.WF ∧ P16.fb + 2 ≤ P16.F ∧ Posit.delayedSubDelayed P16 ⟨17001, 17003⟩ ⟨17100, 16384⟩ = .ok 13065 ∧
    Posit.delayedAddDelayed P16 ⟨17001, 17003⟩ ⟨-17100, 16384⟩ = .ok 13065 := by decide +kernel

/-- **C65** fails for a second product that is zero. -/
theorem C65_mulSubMul_wrong : P8h.WF ∧ Posit.delayedSubDelayed P8h ⟨96, 72⟩ ⟨0, 64⟩ = .ok 80 ∧
    Posit.delayedAddDelayed P8h ⟨96, 72⟩ ⟨-0, 64⟩ = .ok 100 := by decide +kernel

/-- **C65**, dot products: of two pairs it is the sum of the two delayed products, for all patterns. -/
theorem C65_dot_two (a b x y : ℤ) : Posit.dot c [(a, b), (x, y)] = Posit.delayedAddDelayed c ⟨a, b⟩ ⟨x, y⟩ := by
  unfold Posit.dot Posit.delayedAddDelayed Posit.mulAddMul Posit.dotLoop Posit.dotLoop
  simp only [bind, Except.bind]
  cases Posit.unpack c a with
  | error => rfl
  | ok ua =>
  cases Posit.unpack c b with
  | error => rfl
  | ok ub =>
  dsimp only
  cases Unp.mul c.F c.E ua ub with
  | error => rfl
  | ok m =>
  cases Posit.unpack c x with
  | error => rfl
  | ok ux =>
  cases Posit.unpack c y with
  | error => rfl
  | ok uy =>
  dsimp only
  cases Unp.mul c.F c.E ux uy with
  | error => rfl
  | ok n =>
  dsimp only
  cases Unp.add c.F c.E m n <;> rfl

example : Posit.dot P16 [(17001, 17003), (-17100, P16.one)] = .ok 13065 := by decide +kernel

/-- **C65**, compound assignments store what the binary operators return, and a delayed product converted to a posit is the
product, for all patterns. -/
theorem C65_assign (a b : ℤ) : Posit.mulAssign c a b = Posit.mul c a b ∧ Posit.addAssign c a b = Posit.add c a b ∧
    Posit.divAssign c a b = Posit.div c a b ∧ Posit.Delayed.asPosit c ⟨a, b⟩ = Posit.mul c a b := by
  refine ⟨rfl, ?_, ?_, rfl⟩
  · unfold Posit.addAssign; cases Posit.add c a b <;> rfl
  · unfold Posit.divAssign; cases Posit.div c a b <;> rfl

example : Posit.mulAssign P16 17001 17003 = .ok 17806 ∧ Posit.addAssign P16 17001 17003 = .ok 19050 := by decide +kernel

/-- **C65**, minimum, maximum and absolute value: `max(a,b) = -min(-a,-b)` and `abs(a) = max(a,-a)` for reals. -/
theorem C65_minmax (h : c.WF) {a b : ℤ} (ha : c.fmt.IsReal a) (hb : c.fmt.IsReal b) :
    Posit.stdMax c a b = -Posit.stdMin c (-a) (-b) ∧ Posit.abs c a = .ok (Posit.stdMax c a (-a)) := by
  have hn : ∀ {v : ℤ}, c.fmt.IsReal v → Posit.isNaN c v = false := fun hv => (real_not_special h hv).2
  have hle : ∀ {u v : ℤ}, c.fmt.IsReal u → c.fmt.IsReal v → Posit.le c u v = decide (u ≤ v) := by
    intro u v hu hv; unfold Posit.le; rw [hn hu, hn hv]; simp
  have hge : ∀ {u v : ℤ}, c.fmt.IsReal u → c.fmt.IsReal v → Posit.ge c u v = decide (u ≥ v) := by
    intro u v hu hv; unfold Posit.ge; rw [hn hu, hn hv]; simp
  constructor
  · unfold Posit.stdMax Posit.stdMin
    rw [hge ha hb, hle ha.neg hb.neg]
    by_cases hab : a ≥ b
    · simp [hab]
    · have : ¬ (-a ≤ -b) := by omega
      simp [hab]
  · unfold Posit.stdMax
    rw [hge ha ha.neg]
    unfold Posit.abs Posit.pcabs Posit.condNeg
    by_cases h0 : a < 0
    · have : ¬ (a ≥ -a) := by omega
      have hneg := neg_ok h ha.inRange
      unfold Posit.neg at hneg
      simp only [h0, decide_true, if_true, this, decide_false]
      exact hneg
    · have : a ≥ -a := by omega
      simp [h0, this, pure, Except.pure]

example : P8.WF ∧ P8.fmt.IsReal (-100) ∧ P8.fmt.IsReal 33 ∧ Posit.stdMax P8 (-100) 33 = 33 ∧ Posit.abs P8 (-100) = .ok 100 := by
  decide +kernel

end Verif
