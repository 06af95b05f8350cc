import Verif.Props.Equiv
import Verif.Props.Convert
import Verif.Props.Fixed
import Verif.Props.Unpacked
import Verif.Props.Float
import Verif.Model.FloatConv

/-!
# C70: computing in a wider format and narrowing the result

Rounding toward zero twice is the same as rounding once, so a program that widens its operands, computes and narrows the
result gets the bits of the narrow computation.
-/

namespace Verif
open Fmt

variable {c c' : Cfg}

/-- every real posit of `f` is the value of a real posit of `g` -/
def Sub (f g : Format) : Prop := ∀ v, f.IsReal v → ∃ w, g.IsReal w ∧ g.val w = f.val v

/-- rounding to `g` first, to the smaller format `f` afterwards -/
theorem trunc_trunc {f g : Format} (hs : Sub f g) {y : ℚ} {p w : ℤ} (hp : g.IsTrunc y p) (hw : f.IsTrunc (g.val p) w) :
    f.IsTrunc y w := by
  have emb : ∀ v, f.IsReal v → v ≠ 0 → ∃ u, g.IsReal u ∧ u ≠ 0 ∧ g.val u = f.val v := by
    intro v hv h0
    obtain ⟨u, hu, he⟩ := hs v hv
    refine ⟨u, hu, ?_, he⟩
    rintro rfl
    rw [Format.val_zero] at he
    exact h0 ((Format.val_eq_zero_iff hv.inRange).mp he.symm)
  refine ⟨hw.real, ?_, fun v hv h0 hle => ?_, ?_⟩
  · rcases hp.sign with ⟨h1, h2⟩ | ⟨h1, h2⟩ <;> rcases hw.sign with ⟨h3, h4⟩ | ⟨h3, h4⟩
    · exact Or.inl ⟨h3, h2⟩
    · have := (Format.val_pos_iff hp.real.inRange).mpr h1; linarith
    · have := (Format.val_neg_iff hp.real.inRange).mpr h1; linarith
    · exact Or.inr ⟨h3, h2⟩
  · obtain ⟨u, hu, hu0, he⟩ := emb v hv h0
    have := hp.greatest u hu hu0 (by rwa [he])
    rw [he] at this
    exact hw.greatest v hv h0 this
  · rcases hw.below with hb | hb
    · rcases hp.below with hb' | hb'
      · exact Or.inl (le_trans hb hb')
      · right
        intro v hv h0
        obtain ⟨u, hu, hu0, he⟩ := emb v hv h0
        exact le_trans hb (he ▸ hb' u hu hu0)
    · exact Or.inr hb

theorem cut_cut {f g : Format} (hs : Sub f g) {y : ℚ} {p w : ℤ} (hp : g.IsCut0 y p) (hw : f.IsCut0 (g.val p) w) :
    f.IsCut0 y w := by
  rcases hp with ⟨h1, h2⟩ | hp
  · subst h2
    rcases hw with ⟨-, h3⟩ | hw
    · exact Or.inl ⟨h1, h3⟩
    · have := hw.sign; simp at this
  · rcases hw with ⟨h3, -⟩ | hw
    · have h0 := (Format.val_eq_zero_iff hp.real.inRange).mp h3
      have := hp.sign; omega
    · exact Or.inr (trunc_trunc hs hp hw)

/-- the conversion between instantiations, `Posit2(p.unpack())` -/
abbrev conv (c c' : Cfg) (v : ℤ) : M ℤ := do let u ← Posit.unpack c v; Posit.pack c' u

/-- two instantiations with the same `Unpacked` type (`FT` and `exponenttype`; others cannot be converted), the second one
wider, without out-of-range shifts in packing -/
structure Wider (c c' : Cfg) : Prop where
  wf : c.WF
  wf' : c'.WF
  F : c.F = c'.F
  E : c.E = c'.E
  es : c'.es = c.es
  N : c.N < c'.N
  frac : c'.fb + 2 ≤ c'.F
  safe : c.N + 1 < pw c.H
  safe' : c'.N + 1 < pw c'.H

namespace Wider

theorem fb_le (h : Wider c c') : c.fb + 2 ≤ c.F := by
  have := h.frac; have := h.N; have := h.es; have := h.F
  unfold Cfg.fb at *; omega

theorem widen (h : Wider c c') {v : ℤ} (hv : c.fmt.IsReal v) :
    ∃ w, conv c c' v = .ok w ∧ c'.fmt.IsReal w ∧ c'.fmt.val w = c.fmt.val v :=
  C48_widen h.wf h.wf' h.F (by have := h.fb_le; omega) h.es h.N.le (Or.inl h.N) h.safe' hv

theorem widen_ok (h : Wider c c') {v w : ℤ} (hv : c.fmt.IsReal v) (hw : conv c c' v = .ok w) :
    c'.fmt.IsReal w ∧ c'.fmt.val w = c.fmt.val v := by
  obtain ⟨u, h1, h2⟩ := h.widen hv
  rw [hw] at h1; injection h1 with h1; subst h1; exact h2

theorem zero (h : Wider c c') : conv c' c 0 = .ok 0 := by
  unfold conv
  rw [unpack_zero h.wf']; rfl

theorem sub (h : Wider c c') : Sub c.fmt c'.fmt := fun v hv => by
  obtain ⟨w, -, h1, h2⟩ := h.widen hv
  exact ⟨w, h1, h2⟩

theorem narrow (h : Wider c c') {p : ℤ} (hp : c'.fmt.IsReal p) :
    ∃ w, conv c' c p = .ok w ∧ c.fmt.IsCut0 (c'.fmt.val p) w := by
  by_cases h0 : p = 0
  · subst h0
    refine ⟨0, ?_, Or.inl ⟨by simp, rfl⟩⟩
    unfold conv
    rw [unpack_zero h.wf']; rfl
  · obtain ⟨w, hw, ht⟩ := C48_convert h.wf' h.wf h.F.symm (by have := h.frac; omega) hp h0 (safeMag_of_narrow h.wf h.safe _)
    exact ⟨w, hw, Or.inr ht⟩

/-- a number rounded to the wide format and then converted is the number rounded to the narrow one -/
theorem back (h : Wider c c') {x : ℚ} {p v : ℤ} (hp : c'.fmt.IsCut0 x p) (hv : c.fmt.IsCut0 x v) :
    conv c' c p = .ok v := by
  obtain ⟨w, hw, hc⟩ := h.narrow (IsCut0.real hp)
  rw [hw, isCut0_unique (cut_cut h.sub hp hc) hv]

theorem outcome {c : Cfg} (h : c.WF) (hN : c.N + 1 < pw c.H) {x : ℚ} {r : M ℤ} (ho : Outcome c x r) :
    ∃ v, r = .ok v ∧ c.fmt.IsCut0 x v := ho.1 (Or.inr (safeMag_of_narrow h hN _))

/-- two computations with the same outcome up to the format -/
theorem same (h : Wider c c') {A A' : Prop} (hA : A ↔ A') {x : ℚ} {r r' : M ℤ}
    (hr : (A → ∃ v, r = .ok v ∧ c.fmt.IsCut0 x v) ∧ (¬ A → r = .error .shiftAmount))
    (hr' : (A' → ∃ v, r' = .ok v ∧ c'.fmt.IsCut0 x v) ∧ (¬ A' → r' = .error .shiftAmount)) :
    (do let p ← r'; conv c' c p) = r := by
  by_cases ha : A
  · obtain ⟨v, v1, v2⟩ := hr.1 ha
    obtain ⟨p, p1, p2⟩ := hr'.1 (hA.mp ha)
    rw [p1, v1]
    exact h.back p2 v2
  · rw [hr.2 ha, hr'.2 (fun hh => ha (hA.mpr hh))]; rfl

theorem safeMag (h : Wider c c') (x : ℚ) : c.SafeMag x ↔ c'.SafeMag x :=
  iff_of_true (safeMag_of_narrow h.wf h.safe _) (safeMag_of_narrow h.wf' h.safe' _)

/-- the same number is decoded to the same object -/
theorem unpack (h : Wider c c') {a a' : ℤ} (ha : c.fmt.IsReal a) (ha' : c'.fmt.IsReal a')
    (hv : c'.fmt.val a' = c.fmt.val a) : Posit.unpack c' a' = Posit.unpack c a := by
  by_cases h0 : a = 0
  · subst h0
    rw [Format.val_zero] at hv
    have := (Format.val_eq_zero_iff ha'.inRange).mp hv
    subst this
    rw [unpack_zero h.wf, unpack_zero h.wf']
  have h0' : a' ≠ 0 := by
    rintro rfl
    rw [Format.val_zero] at hv
    exact h0 ((Format.val_eq_zero_iff ha.inRange).mp hv.symm)
  obtain ⟨e, f, u1, u2, u3⟩ := C01_unpack_value h.wf (by have := h.fb_le; omega) ha h0
  obtain ⟨e', f', w1, w2, w3⟩ := C01_unpack_value h.wf' (by have := h.frac; omega) ha' h0'
  have hsign : (a' < 0) = (a < 0) := by
    rw [← Format.val_neg_iff ha.inRange, ← Format.val_neg_iff ha'.inRange, hv]
  rw [u1, w1]
  simp only [hsign]
  rw [hv, ← u3, h.F] at w3
  simp only [hsign] at w3
  rw [h.F] at u2
  have hm : mag c'.F e' f' = mag c'.F e f := by
    have := congrArg abs w3
    rw [tripleVal_mag, tripleVal_mag, abs_sign_mul _ (mag_pos _ _ _).le, abs_sign_mul _ (mag_pos _ _ _).le] at this
    exact this
  obtain ⟨r1, r2⟩ := mag_inj w2 u2 hm
  rw [r1, r2]

end Wider

/-! ## C70 -/

/-- **C70**: for all real operands, the product and the quotient computed in the wider format and converted back are the
product and quotient of the narrow format. -/
theorem C70_mul_div (h : Wider c c') {a b : ℤ} (ha : c.fmt.IsReal a) (hb : c.fmt.IsReal b) :
    ((do let a' ← conv c c' a; let b' ← conv c c' b; let p ← Posit.mul c' a' b'; conv c' c p) = Posit.mul c a b) ∧
    (b ≠ 0 →
      (do let a' ← conv c c' a; let b' ← conv c c' b; let p ← Posit.div c' a' b'; conv c' c p) = Posit.div c a b) := by
  obtain ⟨a', a1, a2, a3⟩ := h.widen ha
  obtain ⟨b', b1, b2, b3⟩ := h.widen hb
  constructor
  · obtain ⟨p, p1, p2⟩ := Wider.outcome h.wf' h.safe' (outcome_mul h.wf' h.frac a2 b2)
    obtain ⟨v, v1, v2⟩ := Wider.outcome h.wf h.safe (outcome_mul h.wf h.fb_le ha hb)
    rw [a3, b3] at p2
    rw [a1, b1]
    simp only [bind, Except.bind]
    rw [p1, v1]
    exact h.back p2 v2
  · intro hb0
    have hb0' : b' ≠ 0 := by
      rintro rfl
      rw [Format.val_zero] at b3
      exact hb0 ((Format.val_eq_zero_iff hb.inRange).mp b3.symm)
    obtain ⟨p, p1, p2⟩ := Wider.outcome h.wf' h.safe' (outcome_div h.wf' h.frac a2 b2 hb0')
    obtain ⟨v, v1, v2⟩ := Wider.outcome h.wf h.safe (outcome_div h.wf h.fb_le ha hb hb0)
    rw [a3, b3] at p2
    rw [a1, b1]
    simp only [bind, Except.bind]
    rw [p1, v1]
    exact h.back p2 v2

/-- `Posit<int8_t,8,0,uint16_t>` and `Posit<int16_t,14,0,uint16_t>` -/
example : Wider P8h ⟨16, 14, 0, 16, .withNan⟩ ∧ P8h.fmt.IsReal 77 ∧ P8h.fmt.IsReal (-45) ∧
    conv P8h ⟨16, 14, 0, 16, .withNan⟩ 77 = .ok 4928 ∧ conv P8h ⟨16, 14, 0, 16, .withNan⟩ (-45) = .ok (-2880) ∧
    Posit.mul ⟨16, 14, 0, 16, .withNan⟩ 4928 (-2880) = .ok (-4050) ∧
    conv ⟨16, 14, 0, 16, .withNan⟩ P8h (-4050) = .ok (-63) ∧ Posit.mul P8h 77 (-45) = .ok (-63) := by
  refine ⟨⟨?_, ?_, ?_, ?_, ?_, ?_, ?_, ?_, ?_⟩, ?_⟩ <;> decide +kernel

/-- **C70**: likewise for sums and differences, for all real operands, also in whether they are undefined. -/
theorem C70_add_sub (h : Wider c c') {a b a' b' : ℤ} (ha : c.fmt.IsReal a) (hb : c.fmt.IsReal b)
    (ha' : conv c c' a = .ok a') (hb' : conv c c' b = .ok b') :
    ((do let p ← Posit.add c' a' b'; conv c' c p) = Posit.add c a b) ∧
    ((do let p ← Posit.sub c' a' b'; conv c' c p) = Posit.sub c a b) := by
  obtain ⟨a2, a3⟩ := h.widen_ok ha ha'
  obtain ⟨b2, b3⟩ := h.widen_ok hb hb'
  constructor
  · have k := C63_add h.wf ha hb
    have k' := C63_add h.wf' a2 b2
    rw [a3, b3, ← h.F] at k'
    exact h.same (by rw [h.safeMag]) k k'
  · have k := C63_sub h.wf ha hb
    have k' := C63_sub h.wf' a2 b2
    rw [a3, b3, ← h.F] at k'
    exact h.same (by rw [h.safeMag]) k k'

example : Posit.add P8h 77 (-45) = .ok 45 ∧ Posit.add ⟨16, 14, 0, 16, .withNan⟩ 4928 (-2880) = .ok 2880 ∧ conv ⟨16, 14, 0, 16, .withNan⟩ P8h 2880 = .ok 45 := by
  decide +kernel


/-- **C70**: likewise for fused multiply-add and the sum and difference of two products. -/
theorem C70_fused (h : Wider c c') {a b x y a' b' x' y' : ℤ} (ha : c.fmt.IsReal a) (hb : c.fmt.IsReal b)
    (hx : c.fmt.IsReal x) (hy : c.fmt.IsReal y) (ha' : conv c c' a = .ok a') (hb' : conv c c' b = .ok b')
    (hx' : conv c c' x = .ok x') (hy' : conv c c' y = .ok y') :
    ((do let p ← Posit.fma c' a' b' x'; conv c' c p) = Posit.fma c a b x) ∧
    ((do let p ← Posit.mulAddMul c' a' b' x' y'; conv c' c p) = Posit.mulAddMul c a b x y) ∧
    ((do let p ← Posit.mulSubMul c' a' b' x' y'; conv c' c p) = Posit.mulSubMul c a b x y) := by
  obtain ⟨a2, a3⟩ := h.widen_ok ha ha'
  obtain ⟨b2, b3⟩ := h.widen_ok hb hb'
  obtain ⟨x2, x3⟩ := h.widen_ok hx hx'
  obtain ⟨y2, y3⟩ := h.widen_ok hy hy'
  refine ⟨?_, ?_, ?_⟩
  · have k := C63_fma h.wf h.fb_le ha hb hx
    have k' := C63_fma h.wf' h.frac a2 b2 x2
    rw [a3, b3, x3, ← h.F] at k'
    exact h.same (by rw [h.safeMag]) k k'
  · have k := C63_mulAddMul h.wf h.fb_le ha hb hx hy
    have k' := C63_mulAddMul h.wf' h.frac a2 b2 x2 y2
    rw [a3, b3, x3, y3, ← h.F] at k'
    exact h.same (by rw [h.safeMag]) k k'
  · have k := C63_mulSubMul h.wf h.fb_le ha hb hx hy rfl
    have k' := C63_mulSubMul h.wf' h.frac a2 b2 x2 y2 rfl
    rw [a3, b3, x3, y3, ← h.F] at k'
    exact h.same (by rw [h.safeMag]) k k'

example : Posit.fma P8h 77 (-45) 77 = .ok 26 ∧ Posit.fma ⟨16, 14, 0, 16, .withNan⟩ 4928 (-2880) 4928 = .ok 1710 ∧
    conv ⟨16, 14, 0, 16, .withNan⟩ P8h 1710 = .ok 26 := by decide +kernel


/-- **C70**: likewise for dot products of fewer than `2^60` pairs. -/
theorem C70_dot (h : Wider c c') {l l' : List (ℤ × ℤ)} (hl : ∀ p ∈ l, c.fmt.IsReal p.1 ∧ c.fmt.IsReal p.2)
    (hl' : List.Forall₂ (fun p p' => conv c c' p.1 = .ok p'.1 ∧ conv c c' p.2 = .ok p'.2) l l') (hlen : l.length < 2 ^ 60) :
    (do let p ← Posit.dot c' l'; conv c' c p) = Posit.dot c l := by
  cases hl' with
  | nil =>
    rw [C29_dot_nil.1, C29_dot_nil.1]
    exact h.zero
  | @cons p p' t t' hp ht =>
    obtain ⟨p1, p2⟩ := hl p (by simp)
    obtain ⟨a2, a3⟩ := h.widen_ok p1 hp.1
    obtain ⟨b2, b3⟩ := h.widen_ok p2 hp.2
    have hall : (∀ q ∈ t', c'.fmt.IsReal q.1 ∧ c'.fmt.IsReal q.2) ∧
        t'.map (fun q => c'.fmt.val q.1 * c'.fmt.val q.2) = t.map (fun q => c.fmt.val q.1 * c.fmt.val q.2) := by
      have ht0 : ∀ q ∈ t, c.fmt.IsReal q.1 ∧ c.fmt.IsReal q.2 := fun q hq => hl q (by simp [hq])
      clear hl hlen
      induction ht with
      | nil => exact ⟨by simp, rfl⟩
      | @cons q q' s s' hq hs ih =>
        obtain ⟨i1, i2⟩ := ih fun r hr => ht0 r (by simp [hr])
        obtain ⟨q1, q2⟩ := ht0 q (by simp)
        obtain ⟨c2, c3⟩ := h.widen_ok q1 hq.1
        obtain ⟨d2, d3⟩ := h.widen_ok q2 hq.2
        refine ⟨fun r hr => ?_, ?_⟩
        · rcases List.mem_cons.mp hr with rfl | hr
          · exact ⟨c2, d2⟩
          · exact i1 r hr
        · rw [List.map_cons, List.map_cons, c3, d3, i2]
    have hlen' : t'.length = t.length := ht.length_eq.symm
    rw [List.length_cons] at hlen
    have k := C63_dot h.wf h.fb_le p1 p2 (fun q hq => hl q (by simp [hq])) hlen rfl rfl
    have k' := C63_dot h.wf' h.frac a2 b2 hall.1 (by rw [hlen']; exact hlen) rfl rfl
    rw [a3, b3, hall.2, ← h.F] at k'
    exact h.same (by rw [h.safeMag]) k k'

example : Posit.dot P8h [(77, -45), (77, 77)] = .ok 63 ∧ Posit.dot ⟨16, 14, 0, 16, .withNan⟩ [(4928, -2880), (4928, 4928)] = .ok 4050 ∧
    conv ⟨16, 14, 0, 16, .withNan⟩ P8h 4050 = .ok 63 := by decide +kernel


/-- **C70**: comparisons give the same answers, and conversions to int, float and double the same results. -/
theorem C70_observe (h : Wider c c') {a b a' b' : ℤ} (ha : c.fmt.IsReal a) (hb : c.fmt.IsReal b)
    (ha' : conv c c' a = .ok a') (hb' : conv c c' b = .ok b') :
    Posit.lt c' a' b' = Posit.lt c a b ∧ Posit.le c' a' b' = Posit.le c a b ∧ Posit.gt c' a' b' = Posit.gt c a b ∧
    Posit.ge c' a' b' = Posit.ge c a b ∧ Posit.eq c' a' b' = Posit.eq c a b ∧ Posit.ne c' a' b' = Posit.ne c a b ∧
    Posit.toInt c' a' = Posit.toInt c a ∧ ∀ t, Posit.toFloat c' t a' = Posit.toFloat c t a := by
  obtain ⟨a2, a3⟩ := h.widen_ok ha ha'
  obtain ⟨b2, b3⟩ := h.widen_ok hb hb'
  have k := C04_compare h.wf ha hb
  have k' := C04_compare h.wf' a2 b2
  rw [a3, b3] at k'
  simp only [Bool.eq_iff_iff, k, k', true_and]
  have hu := h.unpack ha a2 a3
  refine ⟨?_, fun t => ?_⟩
  · unfold Posit.toInt; rw [hu, h.F]
  · unfold Posit.toFloat; rw [hu, h.F, h.E]

example : conv P8h ⟨16, 14, 0, 16, .withNan⟩ 77 = .ok 4928 ∧ conv P8h ⟨16, 14, 0, 16, .withNan⟩ (-45) = .ok (-2880) ∧
    Posit.lt P8h (-45) 77 = true ∧ Posit.lt ⟨16, 14, 0, 16, .withNan⟩ (-2880) 4928 = true ∧
    Posit.toFloat P8h .single 77 = Posit.toFloat ⟨16, 14, 0, 16, .withNan⟩ .single 4928 := by decide +kernel

/-- **C70**: converting a posit to a third format directly or by way of a wider one is the same. -/
theorem C70_convert (h : Wider c c') (d : Cfg) {a a' : ℤ} (ha : c.fmt.IsReal a) (ha' : conv c c' a = .ok a') :
    conv c' d a' = conv c d a := by
  obtain ⟨a2, a3⟩ := h.widen_ok ha ha'
  unfold conv; rw [h.unpack ha a2 a3]

/-- on to 16 bits with `es = 2` -/
example : conv P8h ⟨16, 14, 0, 16, .withNan⟩ 77 = .ok 4928 ∧ conv P8h P16 77 = .ok 17216 ∧ conv ⟨16, 14, 0, 16, .withNan⟩ P16 4928 = .ok 17216 := by
  decide +kernel

/-- **C70**, special patterns, for any two formats: NaN becomes NaN and an infinity an infinity where the target has them
(the top pattern otherwise); the sign is kept between formats with two infinities, and the only infinity of a format becomes
the negative one of two. -/
theorem C70_special (h : c.WF) (h' : c'.WF) (neg : Bool) :
    (c.spec ≠ .withInf → conv c c' c.topPat = .ok c'.topPat) ∧
    (c.spec = .withNanInf → conv c c' (c.infPat neg) = .ok (c'.infPat neg)) ∧
    (c.spec = .withInf → conv c c' c.topPat = .ok (c'.infPat true)) := by
  refine ⟨fun hs => ?_, fun hs => ?_, fun hs => ?_⟩ <;> unfold conv
  · rw [unpack_top h hs]
    exact (C03_pack_special h' false 0 0).2.1
  · have := (C01_unpack_inf h).2 hs
    unfold Cfg.infPat
    rw [if_pos hs]
    cases neg
    · simp only [Bool.false_eq_true, if_false]
      rw [this.1]; exact pack_inf h' false
    · simp only [if_true]
      rw [this.2]; exact pack_inf h' true
  · unfold Cfg.topPat
    rw [(C01_unpack_inf h).1 hs]; exact pack_inf h' true

example : P16.spec = .withInf ∧ conv P16 P8i P16.topPat = .ok (-127) ∧ P8i.fmt.IsCanonical (-127) ∧
    Posit.isInfinity P8i (-127) = true ∧ conv P8i P8 P8i.topPat = .ok (-128) := by decide +kernel

/-- **C70**: an object that stands for a number, packed to the wide and converted to the narrow format, is the object
packed to the narrow one. -/
theorem C70_pack (h : Wider c c') {u : Unp} (hf : u.frac < 2 ^ c.F) {x : ℚ} (hu : u.denote c.F = .num x) :
    (do let p ← Posit.pack c' u; conv c' c p) = Posit.pack c u := by
  obtain ⟨v, v1, v2⟩ := pack_num h.wf h.safe hf hu
  rw [h.F] at hf hu
  obtain ⟨p, p1, p2⟩ := pack_num h.wf' h.safe' hf hu
  rw [p1, v1]
  exact h.back p2 v2

example : Posit.pack ⟨16, 14, 0, 16, .withNan⟩ ⟨.regular, true, 1, 0x5555⟩ = .ok (-6485) ∧
    conv ⟨16, 14, 0, 16, .withNan⟩ P8h (-6485) = .ok (-101) ∧ Posit.pack P8h ⟨.regular, true, 1, 0x5555⟩ = .ok (-101) := by decide +kernel

/-- **C70**: an int converted to the wide and then to the narrow format is the int converted to the narrow one, also in
whether this is undefined (`INT_MIN`). -/
theorem C70_ofInt (h : Wider c c') {i : ℤ} (h1 : -2 ^ 31 ≤ i) (h2 : i < 2 ^ 31) :
    (do let p ← Posit.ofInt c' i; conv c' c p) = Posit.ofInt c i := by
  by_cases hmin : i = -2 ^ 31
  · subst hmin
    rw [C20_min_ub, C20_min_ub]; rfl
  by_cases h0 : i = 0
  · subst h0
    rw [C20_zero h.wf, C20_zero h.wf']
    exact h.zero
  have hL := natAbs_log_lt h0 (k := 31) (by rw [abs_lt]; omega)
  have hF8 : 8 ≤ c.F := by have := h.wf.hF; omega
  have hu := unpackFixed_eq (F := c.F) (E := c.E) (N := 32) (q := 0) (by omega) (by omega) (by have := E_ge h.wf; omega) h0
    ⟨by norm_num; omega, by norm_num; omega⟩ (Or.inr (by norm_num; omega)) (inS_log (E_ge h.wf) (by omega))
  unfold Posit.ofInt
  rw [← h.F, ← h.E, hu]
  exact C70_pack h (fracOf_lt (intLog i h0).2) rfl

example : Posit.ofInt ⟨16, 14, 0, 16, .withNan⟩ (-21) = .ok (-7976) ∧ conv ⟨16, 14, 0, 16, .withNan⟩ P8h (-7976) = .ok (-124) ∧
    Posit.ofInt P8h (-21) = .ok (-124) := by decide +kernel

/-- **C70**: likewise for floats and doubles with a normal number. -/
theorem C70_ofFloat (h : Wider c c') {eb fb : ℕ} (dn : Bool) (heb : 2 ≤ eb) (hfb : 1 ≤ fb) (hE : eb ≤ c.E) (heb30 : eb ≤ 30)
    {b : ℕ} (h1 : b / 2 ^ fb % 2 ^ eb ≠ 0) (h2 : b / 2 ^ fb % 2 ^ eb ≠ 2 ^ eb - 1) :
    (do let p ← Posit.ofFloat c' (.any eb fb dn) b; conv c' c p) = Posit.ofFloat c (.any eb fb dn) b := by
  have hF8 : 8 ≤ c.F := by have := h.wf.hF; omega
  have hu := unpackFloat_normal (F := c.F) (dn := dn) heb hfb (by omega) hE heb30 (b := b) h1 h2
  unfold Posit.ofFloat
  rw [← h.F, ← h.E, hu]
  exact C70_pack h (fracOf_lt (by have := fMan_lt fb b; rw [pow_succ]; omega)) rfl

example : FTrait.single = .any 8 23 ∧ 8 ≤ P8h.E ∧ Posit.ofFloat P8h .single 0x40490fdb = .ok 105 ∧
    Posit.ofFloat ⟨16, 14, 0, 16, .withNan⟩ .single 0x40490fdb = .ok 6728 ∧ conv ⟨16, 14, 0, 16, .withNan⟩ P8h 6728 = .ok 105 := by decide +kernel

end Verif
