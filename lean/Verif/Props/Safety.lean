import Verif.Props.Special

/-! # C24: operations on canonical posits execute no undefined behaviour -/

namespace Verif
open Fmt

variable {c : Cfg}

/-- every canonical pattern decodes to an object with a fraction in range; a regular one has a bounded exponent -/
theorem unpack_bounds (h : c.WF) {v : ℤ} (hv : c.fmt.IsCanonical v) :
    ∃ u, Posit.unpack c v = .ok u ∧ u.frac < 2 ^ c.F ∧ |u.exp| ≤ c.maxScale := by
  have hp : 0 < 2 ^ c.F := by positivity
  rcases unpack_cases h hv with h0 | ⟨-, -, e, f, hu⟩ | ⟨-, -, hu⟩ | ⟨-, hu⟩
  · exact ⟨_, by rw [h0]; exact unpack_zero h, hp, by simp⟩
  · exact ⟨_, hu.eq, hu.f_lt, hu.e_abs h⟩
  · exact ⟨_, hu, hp, by simp [Unp.ofTy]⟩
  · exact ⟨_, hu, hp, by simp [Unp.ofTy]⟩

theorem pack_total (h : c.WF) (hN : c.N + 1 < pw c.H) {u : Unp} (hf : u.frac < 2 ^ c.F) : ∃ v, Posit.pack c u = .ok v := by
  obtain ⟨t, s, e, f⟩ := u
  obtain ⟨h1, h2, h3⟩ := C03_pack_special h s e f
  cases t
  · obtain ⟨v, hv, -⟩ := C03_pack_truncates h hN s e hf
    exact ⟨v, hv⟩
  · exact ⟨_, h3⟩
  · exact ⟨_, h2⟩
  · exact ⟨_, h1⟩

theorem mul_unp_total (h : c.WF) {u w : Unp} (hu : u.frac < 2 ^ c.F) (hw : w.frac < 2 ^ c.F) (heu : |u.exp| ≤ c.maxScale)
    (hew : |w.exp| ≤ c.maxScale) : ∃ r, Unp.mul c.F c.E u w = .ok r ∧ r.frac < 2 ^ c.F ∧ |r.exp| ≤ 2 * c.maxScale + 1 := by
  have hp : 0 < 2 ^ c.F := by positivity
  have hE := E_ge h
  have hF := h.F_pos
  obtain ⟨t, s, e, f⟩ := u
  obtain ⟨t', s', e', f'⟩ := w
  simp only at hu hw heu hew
  rw [abs_le] at heu hew
  by_cases hr : t = .regular ∧ t' = .regular
  · obtain ⟨rfl, rfl⟩ := hr
    obtain ⟨e1, f1, heq, hf, -, -, he⟩ := mulRegular_eq (na := s) (nb := s') (E := c.E) (F := c.F) (by omega) (by omega) hu hw
      (inS_wide h (x := e + e') (by rw [abs_le]; omega)) (inS_wide h (x := e + e' + 1) (by rw [abs_le]; omega)) rfl
    refine ⟨_, heq, hf, ?_⟩
    simp only; rw [abs_le]; omega
  · have h0 : |(0 : ℤ)| ≤ 2 * c.maxScale + 1 := by simp; omega
    have h1 : |e| ≤ 2 * (c.maxScale : ℤ) + 1 := by rw [abs_le]; omega
    cases t <;> cases t' <;> first
      | exact absurd ⟨rfl, rfl⟩ hr
      | exact ⟨_, rfl, hp, h0⟩
      | exact ⟨_, rfl, hu, h1⟩

theorem div_unp_total (h : c.WF) {u w : Unp} (hu : u.frac < 2 ^ c.F) (heu : |u.exp| ≤ c.maxScale)
    (hew : |w.exp| ≤ c.maxScale) : ∃ r, Unp.div c.F c.E u w = .ok r ∧ r.frac < 2 ^ c.F := by
  have hp : 0 < 2 ^ c.F := by positivity
  have hF := h.F_pos
  obtain ⟨t, s, e, f⟩ := u
  obtain ⟨t', s', e', f'⟩ := w
  simp only at hu heu hew
  rw [abs_le] at heu hew
  by_cases hr : t = .regular ∧ t' = .regular
  · obtain ⟨rfl, rfl⟩ := hr
    show ∃ r, Unp.divRegular c.F c.E _ _ = .ok r ∧ _
    unfold Unp.divRegular
    simp only []
    rw [arithS_ok' (inS_wide h (x := e - e') (by rw [abs_le]; omega))]
    simp only [bind, Except.bind]
    have hin : ∀ b : Bool, InS c.E (e - e' + (if b then -1 else 0)) := by
      intro b
      apply inS_wide h
      rw [abs_le]
      cases b <;> simp <;> omega
    have hl : 2 ≤ Unp.leftmost c.F := by
      unfold Unp.leftmost
      calc 2 = 2 ^ 1 := by norm_num
        _ ≤ _ := Nat.pow_le_pow_right (by norm_num) (by omega)
    have hge : Unp.leftmost c.F ≤ Unp.leftmost c.F ||| f' >>> 1 := Nat.left_le_or
    have := hin (decide (Unp.leftmost c.F ||| f >>> 1 < Unp.leftmost c.F ||| f' >>> 1))
    simp only [decide_eq_true_eq] at this
    rw [arithS_ok' this]
    simp only []
    generalize Unp.leftmost c.F ||| f' >>> 1 = B at *
    have hB : (if Unp.leftmost c.F ||| f >>> 1 < B then B >>> 1 else B) ≠ 0 := by
      rw [Nat.shiftRight_eq_div_pow]
      split_ifs <;> omega
    rw [if_neg hB]
    exact ⟨_, rfl, Nat.mod_lt _ hp⟩
  · cases t <;> cases t' <;> first
      | exact absurd ⟨rfl, rfl⟩ hr
      | exact ⟨_, rfl, hp⟩
      | exact ⟨_, rfl, hu⟩

theorem add_unp_special {u w : Unp} (hu : u.frac < 2 ^ c.F) (hw : w.frac < 2 ^ c.F)
    (hnr : ¬ (u.ty = .regular ∧ w.ty = .regular)) : ∃ r, Unp.add c.F c.E u w = .ok r ∧ r.frac < 2 ^ c.F := by
  have hp : 0 < 2 ^ c.F := by positivity
  obtain ⟨t, s, e, f⟩ := u
  obtain ⟨t', s', e', f'⟩ := w
  simp only at hnr hu hw
  cases t <;> cases t' <;> first
    | exact absurd ⟨rfl, rfl⟩ hnr
    | exact ⟨_, rfl, hu⟩
    | exact ⟨_, rfl, hw⟩
    | exact ⟨_, rfl, hp⟩
    | (cases s <;> cases s' <;> first | exact ⟨_, rfl, hu⟩ | exact ⟨_, rfl, hp⟩)

/-- **C24**, decoding: no undefined behaviour for any canonical pattern, every instantiation. -/
theorem C24_unpack (h : c.WF) {v : ℤ} (hv : c.fmt.IsCanonical v) : ∃ u, Posit.unpack c v = .ok u := unpack_total h hv

example : P32.WF ∧ P32.fmt.IsCanonical (-2 ^ 31) ∧ P32.fmt.IsCanonical (2 ^ 31 - 1) ∧
    Posit.unpack P32 1 = .ok ⟨.regular, false, -240, 0⟩ := by decide +kernel

/-- **C24**, packing: every object with a fraction in range packs without undefined behaviour, when the posit is at least
two bits narrower than the promoted holder. -/
theorem C24_pack (h : c.WF) (hN : c.N + 1 < pw c.H) {u : Unp} (hf : u.frac < 2 ^ c.F) : ∃ v, Posit.pack c u = .ok v :=
  pack_total h hN hf

example : P28.WF ∧ P28.N + 1 < pw P28.H ∧ Posit.pack P28 ⟨.regular, true, -100000, 77⟩ = .ok (-1) := by decide +kernel

/-- **C24**, multiplication of any two canonical patterns, when the posit is at least two bits narrower than the promoted
holder. No condition on the fraction type. -/
theorem C24_mul (h : c.WF) (hN : c.N + 1 < pw c.H) {a b : ℤ} (ha : c.fmt.IsCanonical a) (hb : c.fmt.IsCanonical b) :
    ∃ v, Posit.mul c a b = .ok v := by
  obtain ⟨ua, h1, h2, h3⟩ := unpack_bounds h ha
  obtain ⟨ub, h4, h5, h6⟩ := unpack_bounds h hb
  obtain ⟨r, hr, hf, -⟩ := mul_unp_total h h2 h5 h3 h6
  obtain ⟨v, hv⟩ := pack_total h hN hf
  refine ⟨v, ?_⟩
  unfold Posit.mul
  rw [h1, h4]
  simp only [bind, Except.bind]
  rw [hr]; exact hv

example : P8i.WF ∧ P8i.N + 1 < pw P8i.H ∧ P8i.fmt.IsCanonical 127 ∧ P8i.fmt.IsCanonical (-128) ∧
    Posit.mul P8i 127 3 = .ok 127 := by decide +kernel

/-- **C24**, division of any two canonical patterns (zero divisors included), when the posit is at least two bits narrower
than the promoted holder. -/
theorem C24_div (h : c.WF) (hN : c.N + 1 < pw c.H) {a b : ℤ} (ha : c.fmt.IsCanonical a) (hb : c.fmt.IsCanonical b) :
    ∃ v, Posit.div c a b = .ok v := by
  obtain ⟨ua, h1, h2, h3⟩ := unpack_bounds h ha
  obtain ⟨ub, h4, h5, h6⟩ := unpack_bounds h hb
  obtain ⟨r, hr, hf⟩ := div_unp_total h h2 h3 h6
  obtain ⟨v, hv⟩ := pack_total h hN hf
  refine ⟨v, ?_⟩
  unfold Posit.div
  rw [h1, h4]
  simp only [bind, Except.bind]
  rw [hr]; exact hv

example : P8.WF ∧ P8.N + 1 < pw P8.H ∧ P8.fmt.IsCanonical 0 ∧ Posit.div P8 64 0 = .ok (-128) := by decide +kernel

/-- **C24**, addition of any two canonical patterns, for formats at least two bits narrower than the promoted holder, with
a dynamic range below the width of the aligning shift and a spare fraction bit (or `FT` below 32 bits). -/
theorem C24_add (h : c.WF) (hF : c.fb + 3 ≤ c.F) (hN : c.N + 1 < pw c.H) (hr : c.topExp + c.maxScale < pw c.F)
    (hsm : c.F < 32 ∨ c.fb + 4 ≤ c.F) {a b : ℤ} (ha : c.fmt.IsCanonical a) (hb : c.fmt.IsCanonical b) :
    ∃ v, Posit.add c a b = .ok v := by
  by_cases hra : c.fmt.IsReal a ∧ c.fmt.IsReal b
  · obtain ⟨v, hv, -⟩ := C10_add h hF hN hr hsm hra.1 hra.2
    exact ⟨v, hv⟩
  · by_cases ha0 : a = 0
    · subst ha0; exact ⟨b, rfl⟩
    by_cases hb0 : b = 0
    · refine ⟨a, ?_⟩
      unfold Posit.add Posit.isZero; simp [ha0, hb0]
    have hp : 0 < 2 ^ c.F := by positivity
    have key : ∃ ua ub r, Posit.unpack c a = .ok ua ∧ Posit.unpack c b = .ok ub ∧ Unp.add c.F c.E ua ub = .ok r ∧
        r.frac < 2 ^ c.F := by
      obtain ⟨ua, h1, h2, -⟩ := unpack_bounds h ha
      obtain ⟨ub, h4, h5, -⟩ := unpack_bounds h hb
      have hnr : ¬ (ua.ty = .regular ∧ ub.ty = .regular) := by
        rintro ⟨t1, t2⟩
        apply hra
        constructor
        · rcases unpack_cases h ha with h0 | ⟨-, hr, -⟩ | ⟨-, -, hu⟩ | ⟨-, hu⟩
          · exact absurd h0 ha0
          · exact hr
          · rw [h1] at hu; injection hu with hu; rw [hu] at t1; cases t1
          · rw [h1] at hu; injection hu with hu; rw [hu] at t1; cases t1
        · rcases unpack_cases h hb with h0 | ⟨-, hr, -⟩ | ⟨-, -, hu⟩ | ⟨-, hu⟩
          · exact absurd h0 hb0
          · exact hr
          · rw [h4] at hu; injection hu with hu; rw [hu] at t2; cases t2
          · rw [h4] at hu; injection hu with hu; rw [hu] at t2; cases t2
      obtain ⟨r, h6, h7⟩ := add_unp_special h2 h5 hnr
      exact ⟨ua, ub, r, h1, h4, h6, h7⟩
    obtain ⟨ua, ub, r, h1, h2, h3, h4⟩ := key
    obtain ⟨v, hv⟩ := pack_total h hN h4
    refine ⟨v, ?_⟩
    unfold Posit.add Posit.isZero
    rw [h1, h2]
    simp only [ha0, hb0, decide_false, Bool.false_eq_true, if_false, bind, Except.bind]
    rw [h3]; exact hv

example : P8.WF ∧ P8.fb + 3 ≤ P8.F ∧ P8.N + 1 < pw P8.H ∧ P8.topExp + P8.maxScale < pw P8.F ∧ P8.F < 32 ∧
    P8.fmt.IsCanonical (-128) ∧ Posit.add P8 (-128) 3 = .ok (-128) := by decide +kernel

/-- **C24**, subtraction of a real from any canonical pattern, under the same conditions. -/
theorem C24_sub_partial (h : c.WF) (hF : c.fb + 3 ≤ c.F) (hN : c.N + 1 < pw c.H) (hr : c.topExp + c.maxScale < pw c.F)
    (hsm : c.F < 32 ∨ c.fb + 4 ≤ c.F) {a b : ℤ} (ha : c.fmt.IsCanonical a) (hb : c.fmt.IsReal b) :
    ∃ v, Posit.sub c a b = .ok v := by
  rw [sub_as_add h a hb]
  exact C24_add h hF hN hr hsm ha hb.neg.canonical

example : Posit.sub P8 (-128) 3 = .ok (-128) ∧ Posit.sub P8 5 127 = .ok (-127) := by decide +kernel

/-- **C24** fails: the least positive `Posit<int32_t,32,3,uint32_t>` times one shifts out of range, as do the sum of the
greatest and the least `Posit<int16_t,12,1,uint16_t>`; subtracting NaN from one in `Posit<int16_t,12,1,uint16_t>` (and
negating NaN in a posit that fills an `int32_t`) overflows or shifts a non-canonical pattern. -/
theorem C24_not_always :
    Posit.mul P32 1 P32.one = .error .shiftAmount ∧ Posit.add P12 P12.maxpos P12.after0 = .error .shiftAmount ∧
    (∃ e, Posit.sub P12 P12.one P12.nan = .error e) ∧ Posit.neg P32 P32.nan = .error .overflow ∧
    P32.WF ∧ P12.WF := by
  refine ⟨by decide +kernel, by decide +kernel, ?_, by decide +kernel, by decide, by decide⟩
  exact ⟨.shiftValue, by decide +kernel⟩

end Verif
