import Verif.Lemmas.Sym
import Verif.Props.Order

/-!
# Arithmetic: C08 (product), C09 (quotient), C10 (sum), C11 (difference)

`c.fb + 2 ≤ c.F` / `c.fb + 3 ≤ c.F` say that the fraction type holds the longest fraction of the format plus 2 / 3 bits;
both hold whenever `FT` has at least `N` bits.
-/

namespace Verif
open Fmt

variable {c : Cfg}

/-! ## C08 -/

/-- **C08** on the safe range: the product of nonzero reals is the exact product rounded toward zero, saturating.
Missing: the products outside `SafeMag`, which are `C08_mul_ub`. -/
theorem C08_mul_partial (h : c.WF) (hF : c.fb + 2 ≤ c.F) {a b : ℤ} (ha : c.fmt.IsReal a) (ha0 : a ≠ 0)
    (hb : c.fmt.IsReal b) (hb0 : b ≠ 0) (hs : c.SafeMag (c.fmt.val a * c.fmt.val b)) :
    ∃ v, Posit.mul c a b = .ok v ∧ c.fmt.IsTrunc (c.fmt.val a * c.fmt.val b) v :=
  (mul_real h hF ha ha0 hb hb0).1 hs

example : P32.WF ∧ P32.fb + 2 ≤ P32.F ∧ P32.fmt.IsReal 1234567890 ∧ P32.fmt.IsReal (-987654321) ∧
    P32.SafeMag (P32.fmt.val 1234567890 * P32.fmt.val (-987654321)) ∧
    Posit.mul P32 1234567890 (-987654321) = .ok (-1154207237) := by decide +kernel

/-- **C08** for every pair of nonzero reals, when the posit is at least two bits narrower than the promoted holder. -/
theorem C08_mul (h : c.WF) (hF : c.fb + 2 ≤ c.F) (hN : c.N + 1 < pw c.H) {a b : ℤ} (ha : c.fmt.IsReal a) (ha0 : a ≠ 0)
    (hb : c.fmt.IsReal b) (hb0 : b ≠ 0) :
    ∃ v, Posit.mul c a b = .ok v ∧ c.fmt.IsTrunc (c.fmt.val a * c.fmt.val b) v :=
  C08_mul_partial h hF ha ha0 hb hb0 (safeMag_of_narrow h hN _)

example : P8.WF ∧ P8.fb + 2 ≤ P8.F ∧ P8.N + 1 < pw P8.H ∧ P8.fmt.IsReal 72 ∧ P8.fmt.IsReal (-100) ∧
    P8.fmt.val 72 = 5 / 4 ∧ P8.fmt.val (-100) = -5 / 2 ∧ Posit.mul P8 72 (-100) = .ok (-105) ∧
    P8.fmt.val (-105) = -25 / 8 := by decide +kernel

/-- **C08**, exactness: a product that is a posit is returned exactly. -/
theorem C08_mul_exact (h : c.WF) (hF : c.fb + 2 ≤ c.F) {a b w : ℤ} (ha : c.fmt.IsReal a) (ha0 : a ≠ 0)
    (hb : c.fmt.IsReal b) (hb0 : b ≠ 0) (hs : c.SafeMag (c.fmt.val a * c.fmt.val b)) (hw : c.fmt.IsReal w)
    (he : c.fmt.val w = c.fmt.val a * c.fmt.val b) : Posit.mul c a b = .ok w := by
  obtain ⟨v, hv, ht⟩ := C08_mul_partial h hF ha ha0 hb hb0 hs
  rw [hv, ht.faithful.exact hw he]

example : P60.WF ∧ P60.fb + 2 ≤ P60.F ∧ P60.fmt.val (2 ^ 58 + 2 ^ 55) * P60.fmt.val (2 ^ 58 + 2 ^ 54) =
    P60.fmt.val (2 ^ 58 + 2 ^ 55 + 2 ^ 54) := by
  decide +kernel

/-- **C08** fails on the remaining operands: packing the product executes an out-of-range shift. -/
theorem C08_mul_ub (h : c.WF) (hF : c.fb + 2 ≤ c.F) {a b : ℤ} (ha : c.fmt.IsReal a) (ha0 : a ≠ 0)
    (hb : c.fmt.IsReal b) (hb0 : b ≠ 0) (hs : ¬ c.SafeMag (c.fmt.val a * c.fmt.val b)) :
    Posit.mul c a b = .error .shiftAmount :=
  (mul_real h hF ha ha0 hb hb0).2 hs

example : P32.WF ∧ P32.fb + 2 ≤ P32.F ∧ P32.fmt.IsReal 7 ∧ ¬ P32.SafeMag (P32.fmt.val 7 * P32.fmt.val 7) := by
  decide +kernel

/-- **C08**, counterexample to the unrestricted claim: `1 * minpos` is undefined for `Posit<int32_t,32,3,uint32_t>`. -/
theorem C08_not_always : ∃ c : Cfg, c.WF ∧ c.fb + 2 ≤ c.F ∧ ∃ a b, c.fmt.IsReal a ∧ a ≠ 0 ∧ c.fmt.IsReal b ∧ b ≠ 0 ∧
    Posit.mul c a b = .error .shiftAmount :=
  ⟨P32, by decide, by decide, 1, 2 ^ 30, by decide +kernel⟩

/-! ## C09 -/

/-- **C09** on the safe range: the quotient of nonzero reals is the exact quotient rounded toward zero, saturating.
Missing: the quotients outside `SafeMag`, which are `C09_div_ub`. -/
theorem C09_div_partial (h : c.WF) (hF : c.fb + 2 ≤ c.F) {a b : ℤ} (ha : c.fmt.IsReal a) (ha0 : a ≠ 0)
    (hb : c.fmt.IsReal b) (hb0 : b ≠ 0) (hs : c.SafeMag (c.fmt.val a / c.fmt.val b)) :
    ∃ v, Posit.div c a b = .ok v ∧ c.fmt.IsTrunc (c.fmt.val a / c.fmt.val b) v :=
  (div_real h hF ha ha0 hb hb0).1 hs

example : P32.WF ∧ P32.fb + 2 ≤ P32.F ∧ P32.fmt.IsReal 1234567890 ∧ P32.fmt.IsReal (-987654321) ∧
    P32.SafeMag (P32.fmt.val 1234567890 / P32.fmt.val (-987654321)) := by decide +kernel

/-- **C09** for every pair of nonzero reals, when the posit is at least two bits narrower than the promoted holder. -/
theorem C09_div (h : c.WF) (hF : c.fb + 2 ≤ c.F) (hN : c.N + 1 < pw c.H) {a b : ℤ} (ha : c.fmt.IsReal a) (ha0 : a ≠ 0)
    (hb : c.fmt.IsReal b) (hb0 : b ≠ 0) :
    ∃ v, Posit.div c a b = .ok v ∧ c.fmt.IsTrunc (c.fmt.val a / c.fmt.val b) v :=
  C09_div_partial h hF ha ha0 hb hb0 (safeMag_of_narrow h hN _)

example : P8.WF ∧ P8.fb + 2 ≤ P8.F ∧ P8.N + 1 < pw P8.H ∧ P8.fmt.IsReal 64 ∧ P8.fmt.IsReal (-104) ∧
    P8.fmt.val (-104) = -3 ∧ Posit.div P8 64 (-104) = .ok (-21) ∧ P8.fmt.val (-21) = -21 / 64 := by decide +kernel

/-- **C09**, exactness: a quotient that is a posit is returned exactly. -/
theorem C09_div_exact (h : c.WF) (hF : c.fb + 2 ≤ c.F) {a b w : ℤ} (ha : c.fmt.IsReal a) (ha0 : a ≠ 0)
    (hb : c.fmt.IsReal b) (hb0 : b ≠ 0) (hs : c.SafeMag (c.fmt.val a / c.fmt.val b)) (hw : c.fmt.IsReal w)
    (he : c.fmt.val w = c.fmt.val a / c.fmt.val b) : Posit.div c a b = .ok w := by
  obtain ⟨v, hv, ht⟩ := C09_div_partial h hF ha ha0 hb hb0 hs
  rw [hv, ht.faithful.exact hw he]

example : P12.WF ∧ P12.fb + 2 ≤ P12.F ∧ P12.fmt.IsReal 1536 ∧ P12.fmt.IsReal 1280 ∧
    P12.fmt.val 1280 = P12.fmt.val 1536 / P12.fmt.val 1280 := by decide +kernel

/-- **C09** fails on the remaining operands: packing the quotient executes an out-of-range shift. -/
theorem C09_div_ub (h : c.WF) (hF : c.fb + 2 ≤ c.F) {a b : ℤ} (ha : c.fmt.IsReal a) (ha0 : a ≠ 0)
    (hb : c.fmt.IsReal b) (hb0 : b ≠ 0) (hs : ¬ c.SafeMag (c.fmt.val a / c.fmt.val b)) :
    Posit.div c a b = .error .shiftAmount :=
  (div_real h hF ha ha0 hb hb0).2 hs

example : P32.WF ∧ P32.fb + 2 ≤ P32.F ∧ P32.fmt.IsReal 7 ∧ P32.fmt.IsReal (2 ^ 30) ∧
    ¬ P32.SafeMag (P32.fmt.val 7 / P32.fmt.val (2 ^ 30)) := by decide +kernel

/-- **C09**, counterexample to the unrestricted claim: `minpos / 1` is undefined for `Posit<int32_t,32,3,uint32_t>`. -/
theorem C09_not_always : ∃ c : Cfg, c.WF ∧ c.fb + 2 ≤ c.F ∧ ∃ a b, c.fmt.IsReal a ∧ a ≠ 0 ∧ c.fmt.IsReal b ∧ b ≠ 0 ∧
    Posit.div c a b = .error .shiftAmount :=
  ⟨P32, by decide, by decide, 1, 2 ^ 30, by decide +kernel⟩

/-! ## C10 -/

theorem val_mul_pos_iff {a b : ℤ} (ha : c.fmt.IsReal a) (ha0 : a ≠ 0) (hb : c.fmt.IsReal b) (hb0 : b ≠ 0) :
    0 < c.fmt.val a * c.fmt.val b ↔ (a < 0 ↔ b < 0) := by
  rcases lt_or_gt_of_ne ha0 with h1 | h1 <;> rcases lt_or_gt_of_ne hb0 with h2 | h2
  · have := (Format.val_neg_iff ha.inRange).mpr h1
    have := (Format.val_neg_iff hb.inRange).mpr h2
    exact ⟨fun _ => ⟨fun _ => h2, fun _ => h1⟩, fun _ => by nlinarith⟩
  · have := (Format.val_neg_iff ha.inRange).mpr h1
    have := (Format.val_pos_iff hb.inRange).mpr h2
    exact ⟨fun _ => by nlinarith, fun hh => by have := hh.mp h1; omega⟩
  · have := (Format.val_pos_iff ha.inRange).mpr h1
    have := (Format.val_neg_iff hb.inRange).mpr h2
    exact ⟨fun _ => by nlinarith, fun hh => by have := hh.mpr h2; omega⟩
  · have := (Format.val_pos_iff ha.inRange).mpr h1
    have := (Format.val_pos_iff hb.inRange).mpr h2
    exact ⟨fun _ => ⟨fun _ => by omega, fun _ => by omega⟩, fun _ => by nlinarith⟩

/-- **C10** on the operands `AddSafe`: the sum is a faithful rounding of the exact sum (and hence exact if the exact sum
is a posit); zero only if the exact sum is zero; rounded toward zero for operands of equal sign.
Missing: the operands outside `AddSafe`; for those of equal sign, and those with exponents far apart, `C10_add_ub_range`
and `C10_add_ub_far` prove undefined behaviour. -/
theorem C10_add_partial (h : c.WF) (hF : c.fb + 3 ≤ c.F) {a b : ℤ} (ha : c.fmt.IsReal a) (hb : c.fmt.IsReal b)
    (hs : c.AddSafe (c.fmt.val a) (c.fmt.val b)) :
    ∃ v, Posit.add c a b = .ok v ∧ c.fmt.IsFaithful (c.fmt.val a + c.fmt.val b) v ∧
      (v = 0 ↔ c.fmt.val a + c.fmt.val b = 0) ∧
      (∀ w, c.fmt.IsReal w → c.fmt.val w = c.fmt.val a + c.fmt.val b → v = w) ∧
      (0 < c.fmt.val a * c.fmt.val b → c.fmt.IsTrunc (c.fmt.val a + c.fmt.val b) v) := by
  suffices hh : ∃ v, Posit.add c a b = .ok v ∧ c.fmt.IsFaithful (c.fmt.val a + c.fmt.val b) v ∧
      (c.fmt.val a + c.fmt.val b ≠ 0 → v ≠ 0) ∧
      (0 < c.fmt.val a * c.fmt.val b → c.fmt.IsTrunc (c.fmt.val a + c.fmt.val b) v) by
    obtain ⟨v, h1, h2, h3, h4⟩ := hh
    refine ⟨v, h1, h2, ⟨fun h0 => ?_, fun h0 => ?_⟩, fun w hw he => h2.exact hw he, h4⟩
    · by_contra hc; exact h3 hc h0
    · exact h2.exact (by unfold Format.IsReal; omega) (by rw [h0]; simp)
  by_cases ha0 : a = 0
  · subst ha0
    refine ⟨b, by unfold Posit.add Posit.isZero; simp, ?_, ?_, ?_⟩
    · simpa using Format.isFaithful_val hb
    · intro h0 hb; apply h0; simp [hb]
    · simp
  by_cases hb0 : b = 0
  · subst hb0
    refine ⟨a, by unfold Posit.add Posit.isZero; simp [ha0], ?_, ?_, ?_⟩
    · simpa using Format.isFaithful_val ha
    · intro h0 _; exact ha0 ‹_›
    · simp
  have hva : c.fmt.val a ≠ 0 := fun hh => ha0 ((Format.val_eq_zero_iff ha.inRange).mp hh)
  have hvb : c.fmt.val b ≠ 0 := fun hh => hb0 ((Format.val_eq_zero_iff hb.inRange).mp hh)
  rcases hs with hs | hs | ⟨hd, ⟨hp, hs⟩ | ⟨hp, hsm, hsa, hsb, hs⟩⟩
  · exact absurd hs hva
  · exact absurd hs hvb
  · obtain ⟨v, hv, ht⟩ := (add_real_same h (by omega) ha ha0 hb hb0 ((val_mul_pos_iff ha ha0 hb hb0).mp hp) hd).1 hs
    exact ⟨v, hv, ht.faithful, fun _ => by rcases ht.sign with hh | hh <;> omega, fun _ => ht⟩
  · obtain ⟨k1, k2⟩ := add_real_opp h hF ha ha0 hb hb0
      (fun hh => by have := (val_mul_pos_iff ha ha0 hb hb0).mpr hh; linarith) hsm hd hsa hsb
    by_cases h0 : c.fmt.val a + c.fmt.val b = 0
    · refine ⟨0, k1 h0, ?_, fun hh => absurd h0 hh, fun hh => by linarith⟩
      rw [h0]
      have : c.fmt.IsReal 0 := by unfold Format.IsReal; omega
      simpa using Format.isFaithful_val this
    · obtain ⟨v, hv, hf, hv0⟩ := k2 h0 (hs.resolve_left h0)
      exact ⟨v, hv, hf, fun _ => hv0, fun hh => by linarith⟩

example : P32.WF ∧ P32.fb + 3 ≤ P32.F ∧ P32.fmt.IsReal 1234567890 ∧ P32.fmt.IsReal (-1134567890) ∧
    P32.AddSafe (P32.fmt.val 1234567890) (P32.fmt.val (-1134567890)) := by decide +kernel
example : P12.WF ∧ P12.fb + 3 ≤ P12.F ∧ P12.AddSafe (P12.fmt.val 1100) (P12.fmt.val 800) ∧
    Posit.add P12 1100 800 = .ok 1244 := by decide +kernel

theorem addSafe_of_narrow (h : c.WF) (hN : c.N + 1 < pw c.H) (hr : c.topExp + c.maxScale < pw c.F)
    (hsm : c.F < 32 ∨ c.fb + 4 ≤ c.F) {a b : ℤ} (ha : c.fmt.IsReal a) (hb : c.fmt.IsReal b) :
    c.AddSafe (c.fmt.val a) (c.fmt.val b) := by
  have hs := safeMag_of_narrow h hN
  by_cases ha0 : a = 0
  · left; simp [ha0]
  by_cases hb0 : b = 0
  · right; left; simp [hb0]
  refine Or.inr (Or.inr ⟨log_close h ha ha0 hb hb0 hr, ?_⟩)
  rcases lt_trichotomy (c.fmt.val a * c.fmt.val b) 0 with hlt | heq | hgt
  · exact Or.inr ⟨hlt, hsm, hs _, hs _, Or.inr (hs _)⟩
  · rcases mul_eq_zero.mp heq with hz | hz
    · exact absurd ((Format.val_eq_zero_iff ha.inRange).mp hz) ha0
    · exact absurd ((Format.val_eq_zero_iff hb.inRange).mp hz) hb0
  · exact Or.inl ⟨hgt, hs _⟩

/-- **C10** for every pair of reals, for formats whose dynamic range is below the width of the aligning shift. -/
theorem C10_add (h : c.WF) (hF : c.fb + 3 ≤ c.F) (hN : c.N + 1 < pw c.H) (hr : c.topExp + c.maxScale < pw c.F)
    (hsm : c.F < 32 ∨ c.fb + 4 ≤ c.F) {a b : ℤ} (ha : c.fmt.IsReal a) (hb : c.fmt.IsReal b) :
    ∃ v, Posit.add c a b = .ok v ∧ c.fmt.IsFaithful (c.fmt.val a + c.fmt.val b) v ∧
      (v = 0 ↔ c.fmt.val a + c.fmt.val b = 0) ∧
      (∀ w, c.fmt.IsReal w → c.fmt.val w = c.fmt.val a + c.fmt.val b → v = w) ∧
      (0 < c.fmt.val a * c.fmt.val b → c.fmt.IsTrunc (c.fmt.val a + c.fmt.val b) v) :=
  C10_add_partial h hF ha hb (addSafe_of_narrow h hN hr hsm ha hb)

example : P8.WF ∧ P8.fb + 3 ≤ P8.F ∧ P8.N + 1 < pw P8.H ∧ P8.topExp + P8.maxScale < pw P8.F ∧ P8.F < 32 ∧
    P8.fmt.IsReal 100 ∧ P8.fmt.IsReal (-33) ∧ Posit.add P8 100 (-33) = .ok 96 := by decide +kernel

/-- **C10** fails for operands whose exponents differ by `max 32 F` or more: the aligning shift is out of range. -/
theorem C10_add_ub_far (h : c.WF) {a b : ℤ} (ha : c.fmt.IsReal a) (ha0 : a ≠ 0) (hb : c.fmt.IsReal b) (hb0 : b ≠ 0)
    (hd : pw c.F ≤ |c.fmt.scale a - c.fmt.scale b|) : Posit.add c a b = .error .shiftAmount :=
  add_real_ub h ha ha0 hb hb0 hd

example : P12.WF ∧ P12.fmt.IsReal 2047 ∧ P12.fmt.IsReal 1 ∧ pw P12.F ≤ |P12.fmt.scale 2047 - P12.fmt.scale 1| := by
  decide +kernel

/-- **C10** fails for operands of equal sign with a sum outside the safe range: packing shifts out of range. -/
theorem C10_add_ub_range (h : c.WF) (hF : c.fb + 2 ≤ c.F) {a b : ℤ} (ha : c.fmt.IsReal a) (hb : c.fmt.IsReal b)
    (hp : 0 < c.fmt.val a * c.fmt.val b) (hd : |c.fmt.scale a - c.fmt.scale b| < pw c.F)
    (hs : ¬ c.SafeMag (c.fmt.val a + c.fmt.val b)) : Posit.add c a b = .error .shiftAmount := by
  have ha0 : a ≠ 0 := by rintro rfl; simp at hp
  have hb0 : b ≠ 0 := by rintro rfl; simp at hp
  exact (add_real_same h hF ha ha0 hb hb0 ((val_mul_pos_iff ha ha0 hb hb0).mp hp) hd).2 hs

example : P32.WF ∧ P32.fb + 2 ≤ P32.F ∧ P32.fmt.IsReal 5 ∧ 0 < P32.fmt.val 5 * P32.fmt.val 6 ∧
    |P32.fmt.scale 5 - P32.fmt.scale 6| < pw P32.F ∧ ¬ P32.SafeMag (P32.fmt.val 5 + P32.fmt.val 6) := by decide +kernel

/-- **C10**, counterexamples to the unrestricted claim: `maxpos + minpos` is undefined for
`Posit<int16_t,12,1,uint16_t>`, and `1 - prev(1)` for `Posit<int32_t,32,0,uint32_t>`. -/
theorem C10_not_always :
    (P12.WF ∧ P12.fb + 3 ≤ P12.F ∧ P12.fmt.IsReal 2047 ∧ P12.fmt.IsReal 1 ∧ Posit.add P12 2047 1 = .error .shiftAmount) ∧
    (∃ c : Cfg, c.WF ∧ c.fb + 3 ≤ c.F ∧ c.fmt.IsReal (2 ^ 30) ∧ c.fmt.IsReal (-(2 ^ 30 - 1)) ∧
      Posit.add c (2 ^ 30) (-(2 ^ 30 - 1)) = .error .shiftAmount) :=
  ⟨by decide +kernel, ⟨32, 32, 0, 32, .withNan⟩, by decide +kernel⟩

/-! ## C11 -/

theorem sub_as_add (h : c.WF) (a : ℤ) {b : ℤ} (hb : c.fmt.IsReal b) : Posit.sub c a b = Posit.add c a (-b) := by
  unfold Posit.sub
  rw [neg_ok h hb.inRange]
  rfl

/-- **C11**: `x - x` is zero for every real `x` of every instantiation. -/
theorem C11_sub_self (h : c.WF) {x : ℤ} (hx : c.fmt.IsReal x) : Posit.sub c x x = .ok 0 := by
  rw [sub_as_add h x hx]
  by_cases h0 : x = 0
  · subst h0; rfl
  obtain ⟨e, f, hu⟩ := unpack_real h hx h0
  rw [add_unfold h0 (by omega) hu (unpacks_neg h hx h0 hu)]
  have hs : decide (-x < 0) = !decide (x < 0) := by
    by_cases hn : x < 0
    · simp [hn]; omega
    · simp [hn]; omega
  rw [hs, addRegular_self h (hu.e_abs h)]
  rfl

example : P32.WF ∧ P32.fmt.IsReal 1 ∧ Posit.sub P32 1 1 = .ok 0 := by decide +kernel

/-- **C11** on the operands `AddSafe`: the difference is a faithful rounding of the exact difference, exact when that is
a posit, and zero only for equal operands. Missing: operands outside `AddSafe`, see `C11_not_always`. -/
theorem C11_sub_partial (h : c.WF) (hF : c.fb + 3 ≤ c.F) {a b : ℤ} (ha : c.fmt.IsReal a) (hb : c.fmt.IsReal b)
    (hs : c.AddSafe (c.fmt.val a) (-c.fmt.val b)) :
    ∃ v, Posit.sub c a b = .ok v ∧ c.fmt.IsFaithful (c.fmt.val a - c.fmt.val b) v ∧ (v = 0 ↔ a = b) ∧
      (∀ w, c.fmt.IsReal w → c.fmt.val w = c.fmt.val a - c.fmt.val b → v = w) := by
  rw [sub_as_add h a hb]
  rw [← Format.val_neg] at hs
  obtain ⟨v, h1, h2, h3, h4, -⟩ := C10_add_partial h hF ha hb.neg hs
  rw [Format.val_neg, ← sub_eq_add_neg] at h2 h3 h4
  refine ⟨v, h1, h2, ?_, h4⟩
  rw [h3, sub_eq_zero, Format.val_inj ha.inRange hb.inRange]

example : P32.WF ∧ P32.fb + 3 ≤ P32.F ∧ P32.AddSafe (P32.fmt.val 1234567) (-P32.fmt.val 1234568) ∧
    Posit.sub P32 1234567 1234568 = .ok (-262144) := by decide +kernel

/-- **C11** for every pair of reals, for formats whose dynamic range is below the width of the aligning shift. -/
theorem C11_sub (h : c.WF) (hF : c.fb + 3 ≤ c.F) (hN : c.N + 1 < pw c.H) (hr : c.topExp + c.maxScale < pw c.F)
    (hsm : c.F < 32 ∨ c.fb + 4 ≤ c.F) {a b : ℤ} (ha : c.fmt.IsReal a) (hb : c.fmt.IsReal b) :
    ∃ v, Posit.sub c a b = .ok v ∧ c.fmt.IsFaithful (c.fmt.val a - c.fmt.val b) v ∧ (v = 0 ↔ a = b) ∧
      (∀ w, c.fmt.IsReal w → c.fmt.val w = c.fmt.val a - c.fmt.val b → v = w) :=
  C11_sub_partial h hF ha hb (by rw [← Format.val_neg]; exact addSafe_of_narrow h hN hr hsm ha hb.neg)

example : P8.WF ∧ P8.fb + 3 ≤ P8.F ∧ P8.N + 1 < pw P8.H ∧ P8.topExp + P8.maxScale < pw P8.F ∧ P8.F < 32 ∧
    Posit.sub P8 100 99 = .ok 8 := by decide +kernel

/-- **C11**, counterexample to the unrestricted claim: `1 - prev(1)` is undefined for
`Posit<int32_t,32,0,uint32_t>`. -/
theorem C11_not_always : ∃ c : Cfg, c.WF ∧ c.fb + 3 ≤ c.F ∧ c.fmt.IsReal (2 ^ 30) ∧ c.fmt.IsReal (2 ^ 30 - 1) ∧
      Posit.sub c (2 ^ 30) (2 ^ 30 - 1) = .error .shiftAmount :=
  ⟨⟨32, 32, 0, 32, .withNan⟩, by decide +kernel⟩

end Verif
