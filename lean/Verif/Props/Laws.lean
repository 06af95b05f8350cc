import Verif.Props.Equiv

/-!
# C69: undoing a multiplication or a division
-/

namespace Verif
open Fmt

variable {c : Cfg}

/-! ## Rounding toward zero -/

theorem IsTrunc.le_abs {f : Format} {y : ℚ} {v : ℤ} (hv : f.IsTrunc y v) (h1 : f.IsReal 1) (hy : |f.val 1| ≤ |y|) :
    |f.val v| ≤ |y| := by
  rcases hv.below with hb | hb
  · exact hb
  · exact le_trans (hb 1 h1 one_ne_zero) hy

theorem IsTrunc.ne_zero {f : Format} {y : ℚ} {v : ℤ} (hv : f.IsTrunc y v) : v ≠ 0 ∧ y ≠ 0 := by
  rcases hv.sign with ⟨h1, h2⟩ | ⟨h1, h2⟩
  · exact ⟨by omega, h2.ne'⟩
  · exact ⟨by omega, h2.ne⟩

theorem one_isReal (h : c.WF) : c.fmt.IsReal 1 := by
  have hm := maxBody_ge h
  have h4 : 4 ≤ 2 ^ (c.N - 1) := by have := h.pow_ge; exact_mod_cast this
  rw [Format.isReal_iff]
  have : (1 : ℤ).natAbs = 1 := rfl
  rw [this]
  omega

/-- the least positive posit is below every other -/
theorem least_le (h : c.WF) {v : ℤ} (hv : c.fmt.IsReal v) (h0 : v ≠ 0) : |c.fmt.val 1| ≤ |c.fmt.val v| := by
  rw [Format.abs_val (one_isReal h).inRange one_ne_zero, Format.abs_val hv.inRange h0]
  refine (posVal_le_iff (by norm_num) (one_isReal h).inRange (by omega) hv.inRange).mpr ?_
  have : (1 : ℤ).natAbs = 1 := rfl
  omega

/-- two real posits of equal sign and magnitude are the same -/
theorem eq_of_abs {f : Format} {v w : ℤ} (hv : f.IsReal v) (hw : f.IsReal w) (hs : 0 < f.val v * f.val w)
    (ha : |f.val v| = |f.val w|) : v = w := by
  rw [← Format.val_inj hv.inRange hw.inRange]
  rcases abs_eq_abs.mp ha with he | he
  · exact he
  · rw [he] at hs
    have := mul_self_nonneg (f.val w)
    linarith

theorem IsTrunc.val_sign {f : Format} {y : ℚ} {v : ℤ} (hv : f.IsTrunc y v) : 0 < f.val v * y := by
  rcases hv.sign with ⟨h1, h2⟩ | ⟨h1, h2⟩
  · exact mul_pos ((Format.val_pos_iff hv.real.inRange).mpr h1) h2
  · exact mul_pos_of_neg_of_neg ((Format.val_neg_iff hv.real.inRange).mpr h1) h2

/-! ## C69 -/

/-- **C69**: `x / x` is one for every nonzero real, in every instantiation. -/
theorem C69_div_self (h : c.WF) (hF : c.fb + 2 ≤ c.F) {x : ℤ} (hx : c.fmt.IsReal x) (h0 : x ≠ 0) :
    Posit.div c x x = .ok c.one ∧ c.fmt.val c.one = 1 := by
  have vx : c.fmt.val x ≠ 0 := fun hh => h0 ((Format.val_eq_zero_iff hx.inRange).mp hh)
  have hd : c.fmt.val x / c.fmt.val x = 1 := div_self vx
  have hs : c.SafeMag 1 := safeMag_near_one h (by
    rw [abs_one]; exact zpow_le_one_of_nonpos₀ (by norm_num) (by omega)) (by rw [abs_one]; norm_num)
  exact ⟨C09_div_exact h hF hx h0 hx h0 (by rwa [hd]) (one_real h).1 (by rw [hd]; exact val_one h), val_one h⟩

example : P32.WF ∧ P32.fb + 2 ≤ P32.F ∧ P32.fmt.IsReal (-1) ∧ Posit.div P32 (-1) (-1) = .ok P32.one := by decide +kernel

/-- **C69**: a product is zero only if a factor is; likewise a quotient. -/
theorem C69_zero_iff (h : c.WF) {a b v : ℤ} (ha : c.fmt.IsReal a) (hb : c.fmt.IsReal b) :
    (Posit.mul c a b = .ok v → (v = 0 ↔ a = 0 ∨ b = 0)) ∧ (b ≠ 0 → Posit.div c a b = .ok v → (v = 0 ↔ a = 0)) :=
  ⟨fun hv => (mul_real_of_ok h ha hb hv).2, fun hb0 hv => (div_real_of_ok h ha hb hb0 hv).2⟩

example : P8.WF ∧ P8.fmt.IsReal 1 ∧ Posit.mul P8 1 1 = .ok 1 ∧ Posit.div P8 1 127 = .ok 1 := by decide +kernel

/-- **C69**: dividing a product by one of its factors never gives a number beyond the other factor, and the other factor
itself if the product was exact. Products below the least posit are excluded: they are rounded up to it. -/
theorem C69_mul_div (h : c.WF) (hF : c.fb + 2 ≤ c.F) {a b p q : ℤ} (ha : c.fmt.IsReal a) (ha0 : a ≠ 0)
    (hb : c.fmt.IsReal b) (hb0 : b ≠ 0) (hp : Posit.mul c a b = .ok p) (hq : Posit.div c p b = .ok q)
    (hm : |c.fmt.val 1| ≤ |c.fmt.val a * c.fmt.val b|) :
    0 < c.fmt.val a * c.fmt.val q ∧ |c.fmt.val q| ≤ |c.fmt.val a| ∧
      (c.fmt.val p = c.fmt.val a * c.fmt.val b → q = a) := by
  have va : c.fmt.val a ≠ 0 := fun hh => ha0 ((Format.val_eq_zero_iff ha.inRange).mp hh)
  have vb : c.fmt.val b ≠ 0 := fun hh => hb0 ((Format.val_eq_zero_iff hb.inRange).mp hh)
  have h1 := (mul_trunc_of_ok h hF ha hb hp).resolve_left fun hh => mul_ne_zero va vb hh.1
  have vp : c.fmt.val p ≠ 0 := fun hh => (IsTrunc.ne_zero h1).1 ((Format.val_eq_zero_iff h1.real.inRange).mp hh)
  have h2 := (div_trunc_of_ok h hF h1.real hb hb0 hq).resolve_left fun hh => div_ne_zero vp vb hh.1
  have hle := IsTrunc.le_abs h1 (one_isReal h) hm
  have hd : |c.fmt.val p / c.fmt.val b| ≤ |c.fmt.val a| := by
    rw [abs_div, div_le_iff₀ (abs_pos.mpr vb), ← abs_mul]; exact hle
  have s1 := IsTrunc.val_sign h1
  have s2 := IsTrunc.val_sign h2
  have s3 : 0 < c.fmt.val a * c.fmt.val q := by
    have hb2 : 0 < c.fmt.val b * c.fmt.val b := mul_self_pos.mpr vb
    have hp2 : 0 < c.fmt.val p * c.fmt.val p := mul_self_pos.mpr vp
    have e : c.fmt.val p * (c.fmt.val a * c.fmt.val b) * (c.fmt.val q * (c.fmt.val p / c.fmt.val b)) =
        c.fmt.val a * c.fmt.val q * (c.fmt.val p * c.fmt.val p) := by field_simp
    have := mul_pos s1 s2
    rw [e] at this
    exact (mul_pos_iff_of_pos_right hp2).mp this
  refine ⟨s3, ?_, fun he => ?_⟩
  · rcases h2.below with hb' | hb'
    · exact le_trans hb' hd
    · exact hb' a ha ha0
  · have : c.fmt.val p / c.fmt.val b = c.fmt.val a := by rw [he]; field_simp
    rw [this] at h2
    exact h2.unique (Format.isTrunc_val ha ha0)

example : P16.WF ∧ P16.fb + 2 ≤ P16.F ∧ P16.fmt.IsReal 12345 ∧ P16.fmt.IsReal (-17001) ∧
    |P16.fmt.val 1| ≤ |P16.fmt.val 12345 * P16.fmt.val (-17001)| ∧ Posit.mul P16 12345 (-17001) = .ok (-12979) ∧
    Posit.div P16 (-12979) (-17001) = .ok 12344 := by decide +kernel

/-- **C69**: multiplying a quotient by its divisor never gives a number beyond the dividend, and the dividend itself if
the quotient was exact. -/
theorem C69_div_mul (h : c.WF) (hF : c.fb + 2 ≤ c.F) {a b p q : ℤ} (ha : c.fmt.IsReal a) (ha0 : a ≠ 0)
    (hb : c.fmt.IsReal b) (hb0 : b ≠ 0) (hq : Posit.div c a b = .ok q) (hp : Posit.mul c q b = .ok p)
    (hm : |c.fmt.val 1| ≤ |c.fmt.val a / c.fmt.val b|) :
    0 < c.fmt.val a * c.fmt.val p ∧ |c.fmt.val p| ≤ |c.fmt.val a| ∧
      (c.fmt.val q = c.fmt.val a / c.fmt.val b → p = a) := by
  have va : c.fmt.val a ≠ 0 := fun hh => ha0 ((Format.val_eq_zero_iff ha.inRange).mp hh)
  have vb : c.fmt.val b ≠ 0 := fun hh => hb0 ((Format.val_eq_zero_iff hb.inRange).mp hh)
  have h1 := (div_trunc_of_ok h hF ha hb hb0 hq).resolve_left fun hh => div_ne_zero va vb hh.1
  have vq : c.fmt.val q ≠ 0 := fun hh => (IsTrunc.ne_zero h1).1 ((Format.val_eq_zero_iff h1.real.inRange).mp hh)
  have h2 := (mul_trunc_of_ok h hF h1.real hb hp).resolve_left fun hh => mul_ne_zero vq vb hh.1
  have hle := IsTrunc.le_abs h1 (one_isReal h) hm
  have hd : |c.fmt.val q * c.fmt.val b| ≤ |c.fmt.val a| := by
    rw [abs_mul]
    rw [abs_div, le_div_iff₀ (abs_pos.mpr vb)] at hle
    exact hle
  have s1 := IsTrunc.val_sign h1
  have s2 := IsTrunc.val_sign h2
  have s3 : 0 < c.fmt.val a * c.fmt.val p := by
    have hq2 : 0 < c.fmt.val q * c.fmt.val q := mul_self_pos.mpr vq
    have e : c.fmt.val q * (c.fmt.val a / c.fmt.val b) * (c.fmt.val p * (c.fmt.val q * c.fmt.val b)) =
        c.fmt.val a * c.fmt.val p * (c.fmt.val q * c.fmt.val q) := by field_simp
    have := mul_pos s1 s2
    rw [e] at this
    exact (mul_pos_iff_of_pos_right hq2).mp this
  refine ⟨s3, ?_, fun he => ?_⟩
  · rcases h2.below with hb' | hb'
    · exact le_trans hb' hd
    · exact hb' a ha ha0
  · have : c.fmt.val q * c.fmt.val b = c.fmt.val a := by rw [he]; field_simp
    rw [this] at h2
    exact h2.unique (Format.isTrunc_val ha ha0)

example : P16.WF ∧ P16.fb + 2 ≤ P16.F ∧ P16.fmt.IsReal 12345 ∧ P16.fmt.IsReal (-17001) ∧
    |P16.fmt.val 1| ≤ |P16.fmt.val 12345 / P16.fmt.val (-17001)| ∧ Posit.div P16 12345 (-17001) = .ok (-11427) ∧
    Posit.mul P16 (-11427) (-17001) = .ok 12344 := by decide +kernel

/-- **C69** needs the bound: a product or quotient below the least posit is rounded up, so that undoing it gives more
than the start. -/
theorem C69_least_wrong : P8.WF ∧ P8.fb + 2 ≤ P8.F ∧ Posit.mul P8 1 2 = .ok 1 ∧ Posit.div P8 1 2 = .ok 32 ∧
    P8.fmt.val 1 < P8.fmt.val 32 ∧ Posit.div P8 1 127 = .ok 1 ∧ Posit.mul P8 1 127 = .ok 64 ∧
    P8.fmt.val 1 < P8.fmt.val 64 := by decide +kernel

/-- **C69**: dividing `a` by a rounded quotient `a / y` gives at least the divisor `y`; dividing once more gives the first
quotient again. -/
theorem C69_div_div (h : c.WF) (hF : c.fb + 2 ≤ c.F) {a y q r s : ℤ} (ha : c.fmt.IsReal a) (ha0 : a ≠ 0)
    (hy : c.fmt.IsReal y) (hy0 : y ≠ 0) (hq : Posit.div c a y = .ok q) (hr : Posit.div c a q = .ok r)
    (hs : Posit.div c a r = .ok s) (hm : |c.fmt.val 1| ≤ |c.fmt.val a / c.fmt.val y|) :
    0 < c.fmt.val y * c.fmt.val r ∧ |c.fmt.val y| ≤ |c.fmt.val r| ∧ s = q := by
  have va : c.fmt.val a ≠ 0 := fun hh => ha0 ((Format.val_eq_zero_iff ha.inRange).mp hh)
  have vy : c.fmt.val y ≠ 0 := fun hh => hy0 ((Format.val_eq_zero_iff hy.inRange).mp hh)
  have h1 := (div_trunc_of_ok h hF ha hy hy0 hq).resolve_left fun hh => div_ne_zero va vy hh.1
  have hq0 := (IsTrunc.ne_zero h1).1
  have vq : c.fmt.val q ≠ 0 := fun hh => hq0 ((Format.val_eq_zero_iff h1.real.inRange).mp hh)
  have h2 := (div_trunc_of_ok h hF ha h1.real hq0 hr).resolve_left fun hh => div_ne_zero va vq hh.1
  have hr0 := (IsTrunc.ne_zero h2).1
  have vr : c.fmt.val r ≠ 0 := fun hh => hr0 ((Format.val_eq_zero_iff h2.real.inRange).mp hh)
  have h3 := (div_trunc_of_ok h hF ha h2.real hr0 hs).resolve_left fun hh => div_ne_zero va vr hh.1
  have one := one_isReal h
  have pa := abs_pos.mpr va
  have py := abs_pos.mpr vy
  have pq := abs_pos.mpr vq
  have pr := abs_pos.mpr vr
  -- the first quotient is not above the exact one
  have l1 := IsTrunc.le_abs h1 one hm
  rw [abs_div, le_div_iff₀ py] at l1
  -- so the second is not below the divisor
  have l2 : |c.fmt.val y| ≤ |c.fmt.val a / c.fmt.val q| := by
    rw [abs_div, le_div_iff₀ pq]; linarith
  have l3 := h2.greatest y hy hy0 l2
  have l4 := IsTrunc.le_abs h2 one (le_trans (least_le h hy hy0) l2)
  rw [abs_div, le_div_iff₀ pq] at l4
  -- and the third lies between the first quotient and itself
  have l5 : |c.fmt.val q| ≤ |c.fmt.val a / c.fmt.val r| := by
    rw [abs_div, le_div_iff₀ pr]; linarith
  have l6 := h3.greatest q h1.real hq0 l5
  have l7 := IsTrunc.le_abs h3 one (le_trans (least_le h h1.real hq0) l5)
  have l8 : |c.fmt.val s| ≤ |c.fmt.val a / c.fmt.val y| := by
    refine le_trans l7 ?_
    rw [abs_div, abs_div]
    exact div_le_div_of_nonneg_left pa.le py l3
  have hs0 := (IsTrunc.ne_zero h3).1
  have l9 := h1.greatest s h3.real hs0 l8
  have s1 := IsTrunc.val_sign h1
  have s2 := IsTrunc.val_sign h2
  have s3 := IsTrunc.val_sign h3
  have sg : ∀ {u v w : ℚ}, w ≠ 0 → v ≠ 0 → 0 < u * (w / v) → 0 < w * u * v := by
    intro u v w hw hv hh
    have e : w * u * v = u * (w / v) * (v * v) := by field_simp
    rw [e]
    exact mul_pos hh (mul_self_pos.mpr hv)
  have t1 := sg va vy s1
  have t2 := sg va vq s2
  have t3 := sg va vr s3
  have cancel : ∀ {x z w : ℚ}, w ≠ 0 → 0 < w * x * z → ∀ {t : ℚ}, 0 < w * t * x → x ≠ 0 → 0 < z * t := by
    intro x z w hw h1 t h2 hx
    have e : w * x * z * (w * t * x) = z * t * ((w * x) * (w * x)) := by ring
    have := mul_pos h1 h2
    rw [e] at this
    exact (mul_pos_iff_of_pos_right (mul_self_pos.mpr (mul_ne_zero hw hx))).mp this
  refine ⟨cancel va t1 t2 vq, l3, ?_⟩
  refine eq_of_abs h3.real h1.real ?_ (le_antisymm l9 l6)
  have := cancel va t2 t3 vr
  rwa [mul_comm] at this

example : P16.WF ∧ P16.fb + 2 ≤ P16.F ∧ P16.fmt.IsReal 16384 ∧ P16.fmt.IsReal 20368 ∧
    |P16.fmt.val 1| ≤ |P16.fmt.val 16384 / P16.fmt.val 20368| ∧ Posit.div P16 16384 20368 = .ok 12345 ∧
    Posit.div P16 16384 12345 = .ok 20369 ∧ Posit.div P16 16384 20369 = .ok 12345 := by decide +kernel

theorem inv_trunc_of_ok (h : c.WF) (hF : c.fb + 2 ≤ c.F) {x v : ℤ} (hx : c.fmt.IsReal x) (h0 : x ≠ 0)
    (hni : c.spec = .withNanInf → x ≠ 1 ∧ x ≠ -1) (hv : Posit.inv c x = .ok v) : Posit.div c c.one x = .ok v := by
  rw [← C16_inv_eq_div h hF hx h0 hni, hv]

/-- the reciprocal of a posit is not below the least one -/
theorem least_le_inv (h : c.WF) {x : ℤ} (hx : c.fmt.IsReal x) (h0 : x ≠ 0) : |c.fmt.val 1| ≤ |1 / c.fmt.val x| := by
  have h1 := one_isReal h
  have hm := maxBody_ge h
  have h4 : 4 ≤ 2 ^ (c.N - 1) := by have := h.pow_ge; exact_mod_cast this
  have px := hx.inRange.posVal_pos h0
  rw [abs_div, abs_one, Format.abs_val hx.inRange h0, Format.abs_val h1.inRange one_ne_zero, le_div_iff₀ px]
  have e1 : posVal c.fmt.N c.fmt.es (1 : ℤ).natAbs = 2 ^ (-(c.maxScale : ℤ)) := posVal_one h
  have e2 := posVal_maxBody h
  have hle : posVal c.fmt.N c.fmt.es x.natAbs ≤ posVal c.N c.es c.fmt.maxBody :=
    (posVal_le_iff (by omega) hx.inRange (by omega) (Format.maxBody_lt c.fmt)).mpr hx.natAbs_le
  rw [e2] at hle
  rw [e1]
  have ht : c.topExp ≤ c.maxScale := by
    unfold Cfg.topExp
    have : (0 : ℤ) < 2 ^ c.es := by positivity
    split_ifs <;> omega
  calc (2 : ℚ) ^ (-(c.maxScale : ℤ)) * posVal c.fmt.N c.fmt.es x.natAbs
      ≤ 2 ^ (-(c.maxScale : ℤ)) * 2 ^ (c.maxScale : ℤ) :=
        mul_le_mul_of_nonneg_left (le_trans hle (zpow_le_zpow_right₀ (by norm_num) ht)) (by positivity)
    _ = 1 := by rw [← zpow_add₀ (by norm_num)]; simp

/-- **C69**: the reciprocal of the reciprocal is at least the number, and the third reciprocal is the first. (`hni`: the
reciprocal of the least posit of a format with infinities is infinite, `C16_not_always`.) -/
theorem C69_inv_inv (h : c.WF) (hF : c.fb + 2 ≤ c.F) {x q r s : ℤ} (hx : c.fmt.IsReal x) (h0 : x ≠ 0)
    (hni : c.spec = .withNanInf → x.natAbs ≠ 1 ∧ q.natAbs ≠ 1 ∧ r.natAbs ≠ 1)
    (hq : Posit.inv c x = .ok q) (hr : Posit.inv c q = .ok r) (hs : Posit.inv c r = .ok s) :
    0 < c.fmt.val x * c.fmt.val r ∧ |c.fmt.val x| ≤ |c.fmt.val r| ∧ s = q ∧ ((∃ y, c.fmt.IsReal y ∧ y ≠ 0 ∧
      (c.spec = .withNanInf → y.natAbs ≠ 1) ∧ Posit.inv c y = .ok x) → r = x) := by
  obtain ⟨o1, o2⟩ := one_real h
  have v1 := val_one h
  have one : c.fmt.val c.one ≠ 0 := by rw [v1]; norm_num
  have hq' := inv_trunc_of_ok h hF hx h0 (fun hh => by have := hni hh; omega) hq
  have vx : c.fmt.val x ≠ 0 := fun hh => h0 ((Format.val_eq_zero_iff hx.inRange).mp hh)
  have h1 := (div_trunc_of_ok h hF o1 hx h0 hq').resolve_left fun hh => div_ne_zero one vx hh.1
  have hq0 := (IsTrunc.ne_zero h1).1
  have hr' := inv_trunc_of_ok h hF h1.real hq0 (fun hh => by have := hni hh; omega) hr
  have vq : c.fmt.val q ≠ 0 := fun hh => hq0 ((Format.val_eq_zero_iff h1.real.inRange).mp hh)
  have h2 := (div_trunc_of_ok h hF o1 h1.real hq0 hr').resolve_left fun hh => div_ne_zero one vq hh.1
  have hr0 := (IsTrunc.ne_zero h2).1
  have hs' := inv_trunc_of_ok h hF h2.real hr0 (fun hh => by have := hni hh; omega) hs
  have := C69_div_div h hF o1 o2 hx h0 hq' hr' hs' (by rw [v1]; exact least_le_inv h hx h0)
  refine ⟨this.1, this.2.1, this.2.2, ?_⟩
  rintro ⟨y, hy, hy0, hyn, hyx⟩
  have hy' := inv_trunc_of_ok h hF hy hy0 (fun hh => by have := hyn hh; omega) hyx
  exact (C69_div_div h hF o1 o2 hy hy0 hy' hq' hr' (by rw [v1]; exact least_le_inv h hy hy0)).2.2

example : P16.WF ∧ P16.fb + 2 ≤ P16.F ∧ P16.spec ≠ .withNanInf ∧ P16.fmt.IsReal 20368 ∧ Posit.inv P16 20368 = .ok 12345 ∧
    Posit.inv P16 12345 = .ok 20369 ∧ Posit.inv P16 20369 = .ok 12345 := by decide +kernel

/-- **C69**: a positive number is not increased by a factor of at most one or a divisor of at least one, and not
decreased by a factor of at least one or a positive divisor of at most one. -/
theorem C69_factor (h : c.WF) (hF : c.fb + 2 ≤ c.F) {a b p q : ℤ} (ha : c.fmt.IsReal a) (ha0 : 0 < a)
    (hb : c.fmt.IsReal b) (hb0 : 0 < b) (hp : Posit.mul c a b = .ok p) (hq : Posit.div c a b = .ok q) :
    (c.fmt.val b ≤ 1 → p ≤ a ∧ a ≤ q) ∧ (1 ≤ c.fmt.val b → a ≤ p ∧ q ≤ a) := by
  have va := (Format.val_pos_iff ha.inRange).mpr ha0
  have vb := (Format.val_pos_iff hb.inRange).mpr hb0
  have h1 := mul_trunc_of_ok h hF ha hb hp
  have h2 := div_trunc_of_ok h hF ha hb (by omega) hq
  have h3 : (c.fmt.val a = 0 ∧ a = 0) ∨ c.fmt.IsTrunc (c.fmt.val a) a := Or.inr (Format.isTrunc_val ha (by omega))
  constructor
  · intro hle
    exact ⟨trunc0_mono h1 h3 (by nlinarith), trunc0_mono h3 h2 (by rw [le_div_iff₀ vb]; nlinarith)⟩
  · intro hle
    exact ⟨trunc0_mono h3 h1 (by nlinarith), trunc0_mono h2 h3 (by rw [div_le_iff₀ vb]; nlinarith)⟩

example : P8.WF ∧ P8.fb + 2 ≤ P8.F ∧ P8.fmt.IsReal 100 ∧ P8.fmt.IsReal 63 ∧ P8.fmt.val 63 ≤ 1 ∧
    Posit.mul P8 100 63 = .ok 99 ∧ Posit.div P8 100 63 = .ok 100 := by decide +kernel

/-- **C69**: adding a nonnegative number never decreases, adding a nonpositive one never increases. -/
theorem C69_add_ge (h : c.WF) (hF : c.fb + 2 ≤ c.F) {a b v : ℤ} (ha : c.fmt.IsReal a) (hb : c.fmt.IsReal b)
    (hv : Posit.add c a b = .ok v) : (0 ≤ a → b ≤ v) ∧ (a ≤ 0 → v ≤ b) ∧ (0 ≤ b → a ≤ v) ∧ (b ≤ 0 → v ≤ a) := by
  have z : c.fmt.IsReal 0 := by unfold Format.IsReal; omega
  have hr := IsCut0.real (add_cut_of_ok h ha hb hv)
  have le : ∀ {x y : ℤ}, c.fmt.IsReal x → c.fmt.IsReal y → (Posit.le c x y = true ↔ x ≤ y) := fun hx hy => by
    rw [(C04_compare h hx hy).2.1, Format.val_le_iff hx.inRange hy.inRange]
  obtain ⟨z1, z2⟩ := C13_add_zero c b
  obtain ⟨z3, z4⟩ := C13_add_zero c a
  refine ⟨fun h0 => ?_, fun h0 => ?_, fun h0 => ?_, fun h0 => ?_⟩
  · exact (le hb hr).mp (C64_add_mono_partial h hF z ha hb ((le z ha).mpr h0) z2 hv)
  · exact (le hr hb).mp (C64_add_mono_partial h hF ha z hb ((le ha z).mpr h0) hv z2)
  · exact (le ha hr).mp (C64_add_mono_right_partial h hF z hb ha ((le z hb).mpr h0) z3 hv)
  · exact (le hr ha).mp (C64_add_mono_right_partial h hF hb z ha ((le hb z).mpr h0) hv z3)

example : P8.WF ∧ P8.fb + 2 ≤ P8.F ∧ P8.fmt.IsReal 20 ∧ P8.fmt.IsReal (-100) ∧ Posit.add P8 20 (-100) = .ok (-97) := by
  decide +kernel

end Verif
