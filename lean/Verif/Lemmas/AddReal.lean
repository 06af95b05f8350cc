import Verif.Lemmas.Low

/-! # `Posit + Posit` on real operands -/

namespace Verif
open Fmt

variable {c : Cfg}

theorem add_unfold {a b ea eb : ℤ} {fa fb : ℕ} (ha0 : a ≠ 0) (hb0 : b ≠ 0) (hua : Unpacks c a ea fa)
    (hub : Unpacks c b eb fb) :
    Posit.add c a b = (do let r ← Unp.addRegular c.F c.E ⟨.regular, a < 0, ea, fa⟩ ⟨.regular, b < 0, eb, fb⟩
                          Posit.pack c r) := by
  unfold Posit.add Posit.isZero
  rw [hua.eq, hub.eq]
  simp only [ha0, hb0, decide_false, Bool.false_eq_true, if_false, bind, Except.bind]
  unfold Unp.add
  simp only [reduceCtorEq, or_self, if_false]

theorem unpacks_addRange (h : c.WF) {a b ea eb : ℤ} {fa fb : ℕ} (hua : Unpacks c a ea fa) (hub : Unpacks c b eb fb) :
    AddRange c.E c.F ea eb := by
  have h1 := hua.e_abs h
  have h2 := hub.e_abs h
  refine addRange_of h h1 h2 (by omega) ?_
  rw [abs_le] at *
  omega

theorem add_real_same (h : c.WF) (hF : c.fb + 2 ≤ c.F) {a b : ℤ} (ha : c.fmt.IsReal a) (ha0 : a ≠ 0)
    (hb : c.fmt.IsReal b) (hb0 : b ≠ 0) (hsgn : a < 0 ↔ b < 0)
    (hd : |c.fmt.scale a - c.fmt.scale b| < pw c.F) :
    (c.SafeMag (c.fmt.val a + c.fmt.val b) →
      ∃ v, Posit.add c a b = .ok v ∧ c.fmt.IsTrunc (c.fmt.val a + c.fmt.val b) v) ∧
    (¬ c.SafeMag (c.fmt.val a + c.fmt.val b) → Posit.add c a b = .error .shiftAmount) := by
  obtain ⟨ea, fa, hua⟩ := unpack_real h ha ha0
  obtain ⟨eb, fb, hub⟩ := unpack_real h hb hb0
  unfold Format.scale at hd
  rw [hua.log, hub.log] at hd
  have key := add_pack_same (s := decide (a < 0)) h hF hua.f_lt hub.f_lt (hua.dvd_pow (k := 2) (by omega))
    (hub.dvd_pow (k := 2) (by omega)) hd (unpacks_addRange h hua hub)
  have hsame : decide (b < 0) = decide (a < 0) := by simp [hsgn]
  rw [add_unfold ha0 hb0 hua hub, hsame]
  have hv : c.fmt.val a + c.fmt.val b =
      (if decide (a < 0) then -1 else 1) * (mag c.F ea fa + mag c.F eb fb) := by
    rw [hua.sign_val (by omega) ha ha0, hub.sign_val (by omega) hb hb0]
    by_cases hn : a < 0
    · simp [hn, hsgn.mp hn]; ring
    · simp [hn, show ¬ b < 0 from fun hh => hn (hsgn.mpr hh)]
  have hs : c.SafeMag (c.fmt.val a + c.fmt.val b) ↔ c.SafeMag (mag c.F ea fa + mag c.F eb fb) := by
    rw [← SafeMag_abs, hv, abs_mul, ← SafeMag_abs (y := mag c.F ea fa + mag c.F eb fb)]
    by_cases hn : a < 0 <;> simp [hn]
  rw [hs, hv]
  exact key

theorem add_real_opp (h : c.WF) (hF : c.fb + 3 ≤ c.F) {a b : ℤ} (ha : c.fmt.IsReal a) (ha0 : a ≠ 0)
    (hb : c.fmt.IsReal b) (hb0 : b ≠ 0) (hsgn : ¬ (a < 0 ↔ b < 0)) (hsm : c.F < 32 ∨ c.fb + 4 ≤ c.F)
    (hd : |c.fmt.scale a - c.fmt.scale b| < pw c.F)
    (hsa : c.SafeMag (c.fmt.val a)) (hsb : c.SafeMag (c.fmt.val b)) :
    (c.fmt.val a + c.fmt.val b = 0 → Posit.add c a b = .ok 0) ∧
    (c.fmt.val a + c.fmt.val b ≠ 0 → c.SafeMag (c.fmt.val a + c.fmt.val b) →
      ∃ v, Posit.add c a b = .ok v ∧ c.fmt.IsFaithful (c.fmt.val a + c.fmt.val b) v ∧ v ≠ 0) := by
  obtain ⟨ea, fa, hua⟩ := unpack_real h ha ha0
  obtain ⟨eb, fb, hub⟩ := unpack_real h hb hb0
  unfold Format.scale at hd
  rw [hua.log, hub.log] at hd
  have hE := E_ge h
  have hopp : decide (b < 0) = !decide (a < 0) := by
    by_cases h1 : a < 0 <;> by_cases h2 : b < 0 <;> simp_all
  have h8a := hua.dvd_pow (k := 3) (by omega)
  have h8b := hub.dvd_pow (k := 3) (by omega)
  have hsm' : c.F < 32 ∨ (16 ∣ fa ∧ 16 ∣ fb) :=
    hsm.imp id fun h4 => ⟨hua.dvd_pow (k := 4) (by omega), hub.dvd_pow (k := 4) (by omega)⟩
  have hr := unpacks_addRange h hua hub
  have hv : c.fmt.val a + c.fmt.val b =
      (if decide (a < 0) then -1 else 1) * (mag c.F ea fa - mag c.F eb fb) := by
    rw [hua.sign_val (by omega) ha ha0, hub.sign_val (by omega) hb hb0]
    by_cases h1 : a < 0
    · have h2 : ¬ b < 0 := fun hh => hsgn ⟨fun _ => hh, fun _ => h1⟩
      simp only [h1, h2, decide_true, if_true, if_false]; ring
    · have h2 : b < 0 := by by_contra hh; exact hsgn ⟨fun h' => absurd h' h1, fun h' => absurd h' hh⟩
      simp only [h1, h2, decide_false, if_true, if_false, Bool.false_eq_true]; ring
  have hz : c.fmt.val a + c.fmt.val b = 0 ↔ mag c.F ea fa = mag c.F eb fb := by
    rw [hv]
    rw [← sub_eq_zero (a := mag c.F ea fa)]
    by_cases hn : a < 0
    · simp only [hn, decide_true, if_true, neg_mul, one_mul, neg_eq_zero]
    · simp only [hn, decide_false, Bool.false_eq_true, if_false, one_mul]
  rw [add_unfold ha0 hb0 hua hub, hopp]
  constructor
  · intro h0
    rw [(addRegular_opp h.hF (by omega) hua.f_lt hub.f_lt h8a h8b hsm' hd hr).1 (hz.mp h0)]
    rfl
  · intro h0 hs
    have key := add_pack_opp (s := decide (a < 0)) h hF hua.f_lt hub.f_lt h8a h8b hsm' hd hr (fun hh => h0 (hz.mpr hh))
      (by rw [← hua.abs_val (by omega)]; exact SafeMag_abs.mpr hsa)
      (by rw [← hub.abs_val (by omega)]; exact SafeMag_abs.mpr hsb)
      (by
        rw [← SafeMag_abs, hv, abs_mul] at hs
        rw [← SafeMag_abs]
        by_cases hn : a < 0 <;> simpa [hn] using hs)
    rw [hv]
    exact key

theorem add_real_ub (h : c.WF) {a b : ℤ} (ha : c.fmt.IsReal a) (ha0 : a ≠ 0)
    (hb : c.fmt.IsReal b) (hb0 : b ≠ 0)
    (hd : pw c.F ≤ |c.fmt.scale a - c.fmt.scale b|) :
    Posit.add c a b = .error .shiftAmount := by
  obtain ⟨ea, fa, hua⟩ := unpack_real h ha ha0
  obtain ⟨eb, fb, hub⟩ := unpack_real h hb hb0
  unfold Format.scale at hd
  rw [hua.log, hub.log] at hd
  rw [add_unfold ha0 hb0 hua hub, addRegular_ub hd (unpacks_addRange h hua hub)]
  rfl

/-- exponents of a narrow enough format are always close enough for the aligning shift -/
theorem log_close (h : c.WF) {a b : ℤ} (ha : c.fmt.IsReal a) (ha0 : a ≠ 0) (hb : c.fmt.IsReal b) (hb0 : b ≠ 0)
    (hr : c.topExp + c.maxScale < pw c.F) :
    |c.fmt.scale a - c.fmt.scale b| < pw c.F := by
  obtain ⟨ea, fa, hua⟩ := unpack_real h ha ha0
  obtain ⟨eb, fb, hub⟩ := unpack_real h hb hb0
  unfold Format.scale
  rw [hua.log, hub.log]
  have := hua.e_lo
  have := hua.e_hi
  have := hub.e_lo
  have := hub.e_hi
  rw [abs_lt]
  omega

end Verif
