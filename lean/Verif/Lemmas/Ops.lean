import Verif.Lemmas.AddArith

/-! # `+ * /` on real posits -/

namespace Verif
open Fmt

variable {c : Cfg}

/-! ## rounding relations -/

namespace Fmt.Format
variable {f : Format}

theorem IsTrunc.faithful {y : ℚ} {v : ℤ} (h : f.IsTrunc y v) : f.IsFaithful y v := by
  have hv := h.real.inRange
  rcases h.sign with ⟨hs, hy⟩ | ⟨hs, hy⟩
  · have hvp := (val_pos_iff hv).mpr hs
    refine ⟨h.real, fun w hw hlt => ?_, fun w hw hlt => ?_⟩
    · by_contra hc
      have hw0 : 0 < f.val w := by linarith
      have hw1 : w ≠ 0 := by rintro rfl; simp at hw0
      have := h.greatest w hw hw1 (by rw [abs_of_pos hw0, abs_of_pos hy]; linarith)
      rw [abs_of_pos hw0, abs_of_pos hvp] at this
      linarith
    · rcases h.below with hb | hb
      · rw [abs_of_pos hvp, abs_of_pos hy] at hb; linarith
      · by_contra hc
        have hw0 : 0 < f.val w := by linarith
        have hw1 : w ≠ 0 := by rintro rfl; simp at hw0
        have := hb w hw hw1
        rw [abs_of_pos hw0, abs_of_pos hvp] at this
        linarith
  · have hvp := (val_neg_iff hv).mpr hs
    refine ⟨h.real, fun w hw hlt => ?_, fun w hw hlt => ?_⟩
    · rcases h.below with hb | hb
      · rw [abs_of_neg hvp, abs_of_neg hy] at hb; linarith
      · by_contra hc
        have hw0 : f.val w < 0 := by linarith
        have hw1 : w ≠ 0 := by rintro rfl; simp at hw0
        have := hb w hw hw1
        rw [abs_of_neg hw0, abs_of_neg hvp] at this
        linarith
    · by_contra hc
      have hw0 : f.val w < 0 := by linarith
      have hw1 : w ≠ 0 := by rintro rfl; simp at hw0
      have := h.greatest w hw hw1 (by rw [abs_of_neg hw0, abs_of_neg hy]; linarith)
      rw [abs_of_neg hw0, abs_of_neg hvp] at this
      linarith

theorem IsFaithful.neg {y : ℚ} {v : ℤ} (h : f.IsFaithful y v) : f.IsFaithful (-y) (-v) := by
  refine ⟨h.real.neg, fun w hw hlt => ?_, fun w hw hlt => ?_⟩
  · rw [val_neg] at hlt
    have := h.below (-w) hw.neg (by rw [val_neg]; linarith)
    rw [val_neg] at this; linarith
  · rw [val_neg] at hlt
    have := h.above (-w) hw.neg (by rw [val_neg]; linarith)
    rw [val_neg] at this; linarith

theorem isFaithful_val {v : ℤ} (h : f.IsReal v) : f.IsFaithful (f.val v) v :=
  ⟨h, fun _ _ h => h, fun _ _ h => h⟩

/-- a faithful rounding is exact on the numbers of the format -/
theorem IsFaithful.exact {y : ℚ} {v w : ℤ} (h : f.IsFaithful y v) (hw : f.IsReal w) (hy : f.val w = y) : v = w := by
  rcases lt_trichotomy (f.val v) (f.val w) with hlt | heq | hgt
  · have := h.above w hw hlt; linarith
  · exact (val_inj h.real.inRange hw.inRange).mp heq
  · have := h.below w hw hgt; linarith

/-- a faithful rounding of a positive number rounded up past it -/
theorem IsFaithful.of_pos {y z : ℚ} {p : ℕ} (ht : f.TruncB z p) (hyz : y ≤ z) (hy0 : 0 < y)
    (hgap : ∀ q, 1 ≤ q → q ≤ f.maxBody → posVal f.N f.es q < z → posVal f.N f.es q < y) :
    f.IsFaithful y p := by
  have hl := maxBody_lt f
  have h1 := ht.one_le
  have hr : f.IsReal (p : Int) := isReal_iff.mpr (by simpa using ht.le_max)
  have hvp := (val_pos_iff hr.inRange).mpr (by omega)
  refine ⟨hr, fun w hw hlt => ?_, fun w hw hlt => ?_⟩
  · have hw0 : 0 < w := (val_pos_iff hw.inRange).mp (by linarith)
    have hwn : w.natAbs ≤ f.maxBody := hw.natAbs_le
    by_contra hc
    have hle : posVal f.N f.es w.natAbs ≤ z := by rw [← val_pos' hw0]; linarith
    have := ht.greatest w.natAbs (by omega) hwn hle
    have h2 := (val_lt_iff hr.inRange hw.inRange).mp hlt
    omega
  · by_cases hw0 : 0 < w
    · have h2 := (val_lt_iff hw.inRange hr.inRange).mp hlt
      rcases ht.below with hb | hb
      · rw [val_pos' hw0]
        apply hgap _ (by omega) hw.natAbs_le
        rw [← val_pos' hw0]
        rw [← val_natCast h1] at hb
        linarith
      · omega
    · have : ¬ 0 < f.val w := fun hh => hw0 ((val_pos_iff hw.inRange).mp hh)
      linarith

end Fmt.Format

/-! ## decoded operands -/

theorem Unpacks.sign_val {v e : ℤ} {f : ℕ} (hu : Unpacks c v e f) (hF : c.fb ≤ c.F) (hv : c.fmt.IsReal v) (h0 : v ≠ 0) :
    c.fmt.val v = (if v < 0 then -1 else 1) * mag c.F e f := by
  have := hu.val hF
  unfold mag
  rw [← this]
  split_ifs with hn
  · rw [abs_of_neg ((Format.val_neg_iff hv.inRange).mpr hn)]; ring
  · rw [abs_of_pos ((Format.val_pos_iff hv.inRange).mpr (by omega))]; ring

theorem Unpacks.abs_val {v e : ℤ} {f : ℕ} (hu : Unpacks c v e f) (hF : c.fb ≤ c.F) : |c.fmt.val v| = mag c.F e f :=
  hu.val hF

theorem Unpacks.dvd_pow {v e : ℤ} {f k : ℕ} (hu : Unpacks c v e f) (hF : c.fb + k ≤ c.F) : 2 ^ k ∣ f :=
  Dvd.dvd.trans (pow_dvd_pow _ (by omega)) (hu.dvd (by omega))

theorem Unpacks.e_abs (h : c.WF) {v e : ℤ} {f : ℕ} (hu : Unpacks c v e f) : |e| ≤ c.maxScale := by
  have := hu.e_lo
  have := hu.e_hi
  have := topExp_le h
  rw [abs_le]; omega

theorem xor_sign {a b : ℤ} (ha : a ≠ 0) (hb : b ≠ 0) :
    ((if a < 0 then -1 else 1) * (if b < 0 then -1 else 1) : ℚ) = if xor (decide (a < 0)) (decide (b < 0)) then -1 else 1 := by
  by_cases h1 : a < 0 <;> by_cases h2 : b < 0 <;> simp [h1, h2]

theorem inS_wide (h : c.WF) {x : ℤ} (hx : |x| ≤ 3 * c.maxScale + 66) : InS c.E x := by
  have h1 := maxScale_bound h
  have h2 := maxScale_pos h
  have h3 : (8 : ℤ) * 16 ≤ 2 ^ (c.E - 1) := by
    have := E_ge h
    calc (8 : ℤ) * 16 = 2 ^ 7 := by norm_num
      _ ≤ 2 ^ (c.E - 1) := pow_le_pow_right₀ (by norm_num) (by omega)
  rw [abs_le] at hx
  unfold InS; constructor <;> omega

theorem F_le (h : c.WF) : c.F ≤ 64 := by have := h.hF; omega

theorem addRange_of (h : c.WF) {ea eb : ℤ} {K : ℤ} (ha : |ea| ≤ K) (hb : |eb| ≤ K) (hK : K ≤ 2 * c.maxScale + 1)
    (hd : |ea - eb| ≤ 3 * c.maxScale + 66) : AddRange c.E c.F ea eb := by
  have hF := F_le h
  rw [abs_le] at ha hb
  refine ⟨inS_wide h hd, fun x h1 h2 => inS_wide h ?_⟩
  have := maxScale_pos h
  rw [abs_le]; omega

/-- a number packs safely iff its magnitude is safe -/
theorem pack_safe_iff {neg : Bool} (h : c.WF) {e : ℤ} {f : ℕ} (hf : f < 2 ^ c.F) {u : ℕ} {Y : ℤ} {y : ℚ} (hu : 1 ≤ u)
    (hval : mag c.F e f = u * 2 ^ Y) (hy1 : (u : ℚ) * 2 ^ Y ≤ y)
    (hy2 : y < (u + 1 : ℚ) * 2 ^ Y) (hs : ¬ c.SafeMag y) : Posit.pack c ⟨.regular, neg, e, f⟩ = .error .shiftAmount := by
  obtain ⟨b1, b2⟩ := unit_binade hf hu hval hy1 hy2
  have hy0 : 0 < y := lt_of_lt_of_le (by positivity) b1
  refine pack_regular_ub h neg hf fun hp => hs ?_
  exact safeMag_of_packSafe (by rwa [abs_of_pos hy0]) (by rwa [abs_of_pos hy0]) hp

theorem SafeMag_abs {y : ℚ} : c.SafeMag |y| ↔ c.SafeMag y := by
  unfold Cfg.SafeMag; rw [abs_abs]

/-! ## multiplication and division -/

/-- what the decoded product is -/
theorem mul_unp (h : c.WF) (hF : c.fb + 1 ≤ c.F) {a b ea eb : ℤ} {fa fb : ℕ} (ha : Unpacks c a ea fa) (hb : Unpacks c b eb fb) :
    ∃ e f u Y, Unp.mul c.F c.E ⟨.regular, a < 0, ea, fa⟩ ⟨.regular, b < 0, eb, fb⟩ =
        .ok ⟨.regular, xor (a < 0) (b < 0), e, f⟩ ∧
      f < 2 ^ c.F ∧ 2 ^ (c.F - 2) ≤ u ∧ mag c.F e f = (u : ℕ) * 2 ^ (Y : ℤ) ∧
      (u : ℚ) * 2 ^ Y ≤ |c.fmt.val a * c.fmt.val b| ∧ |c.fmt.val a * c.fmt.val b| < (u + 1 : ℚ) * 2 ^ Y ∧
      (e = ea + eb ∨ e = ea + eb + 1) := by
  have hE := E_ge h
  have hF8 := h.F_pos
  have h1 := ha.e_abs h
  have h2 := hb.e_abs h
  rw [abs_le] at h1 h2
  obtain ⟨e, f, heq, hf, hu, hm, he⟩ := mulRegular_eq (na := a < 0) (nb := b < 0) (E := c.E) (by omega) (by omega) ha.f_lt hb.f_lt
    (inS_wide h (x := ea + eb) (by rw [abs_le]; omega)) (inS_wide h (x := ea + eb + 1) (by rw [abs_le]; omega)) rfl
  obtain ⟨hb1, hb2⟩ := mul_bounds (F := c.F) (ea := ea) (eb := eb) (by omega) (ha.dvd_pow hF) (hb.dvd_pow hF) rfl
  rw [abs_mul, ha.abs_val (by omega), hb.abs_val (by omega)]
  exact ⟨e, f, _, _, heq, hf, hu, hm, hb1, hb2, he⟩

theorem mul_real_sign {a b : ℤ} (ha : c.fmt.IsReal a) (ha0 : a ≠ 0) (hb : c.fmt.IsReal b) (hb0 : b ≠ 0) :
    (if xor (decide (a < 0)) (decide (b < 0)) then -1 else 1 : ℚ) * |c.fmt.val a * c.fmt.val b| = c.fmt.val a * c.fmt.val b := by
  rw [← xor_sign ha0 hb0, abs_mul]
  have key : ∀ {v : ℤ}, c.fmt.IsReal v → v ≠ 0 → (if v < 0 then -1 else 1 : ℚ) * |c.fmt.val v| = c.fmt.val v := by
    intro v hv h0
    split_ifs with hn
    · rw [abs_of_neg ((Format.val_neg_iff hv.inRange).mpr hn)]; ring
    · rw [abs_of_pos ((Format.val_pos_iff hv.inRange).mpr (by omega))]; ring
  calc _ = ((if a < 0 then -1 else 1 : ℚ) * |c.fmt.val a|) * ((if b < 0 then -1 else 1 : ℚ) * |c.fmt.val b|) := by ring
    _ = _ := by rw [key ha ha0, key hb hb0]

theorem div_real_sign {a b : ℤ} (ha : c.fmt.IsReal a) (ha0 : a ≠ 0) (hb : c.fmt.IsReal b) (hb0 : b ≠ 0) :
    (if xor (decide (a < 0)) (decide (b < 0)) then -1 else 1 : ℚ) * |c.fmt.val a / c.fmt.val b| = c.fmt.val a / c.fmt.val b := by
  have hb' : c.fmt.val b ≠ 0 := fun hh => hb0 ((Format.val_eq_zero_iff hb.inRange).mp hh)
  have e1 : |c.fmt.val a / c.fmt.val b| = |c.fmt.val a * c.fmt.val b| / (c.fmt.val b) ^ 2 := by
    rw [abs_div, abs_mul, ← sq_abs (c.fmt.val b)]
    have : |c.fmt.val b| ≠ 0 := abs_ne_zero.mpr hb'
    field_simp
  rw [e1, ← mul_div_assoc, mul_real_sign ha ha0 hb hb0]
  field_simp

theorem mul_real (h : c.WF) (hF : c.fb + 2 ≤ c.F) {a b : ℤ} (ha : c.fmt.IsReal a) (ha0 : a ≠ 0) (hb : c.fmt.IsReal b)
    (hb0 : b ≠ 0) :
    (c.SafeMag (c.fmt.val a * c.fmt.val b) →
      ∃ v, Posit.mul c a b = .ok v ∧ c.fmt.IsTrunc (c.fmt.val a * c.fmt.val b) v) ∧
    (¬ c.SafeMag (c.fmt.val a * c.fmt.val b) → Posit.mul c a b = .error .shiftAmount) := by
  obtain ⟨ea, fa, hua⟩ := unpack_real h ha ha0
  obtain ⟨eb, fb, hub⟩ := unpack_real h hb hb0
  obtain ⟨e, f, u, Y, heq, hf, hu, hm, hy1, hy2, -⟩ := mul_unp h (by omega) hua hub
  have hu' : 2 ^ c.fb ≤ u := le_trans (Nat.pow_le_pow_right (by norm_num) (by omega)) hu
  unfold Posit.mul
  rw [hua.eq, hub.eq]
  simp only [bind, Except.bind]
  rw [heq]
  simp only []
  constructor
  · intro hs
    obtain ⟨p, hp, ht⟩ := pack_of_unit h (xor (a < 0) (b < 0)) hf hu' hm hy1 hy2 (SafeMag_abs.mpr hs)
    refine ⟨_, hp, ?_⟩
    have hpos : 0 < |c.fmt.val a * c.fmt.val b| := lt_of_lt_of_le (by rw [← hm]; exact mag_pos _ _ _) hy1
    have := Format.IsTrunc.of_sign (xor (a < 0) (b < 0)) hpos ht
    rwa [mul_real_sign ha ha0 hb hb0] at this
  · intro hs
    exact pack_safe_iff h hf (le_trans Nat.one_le_two_pow hu) hm hy1 hy2 (fun hh => hs (SafeMag_abs.mp hh))

theorem div_real (h : c.WF) (hF : c.fb + 2 ≤ c.F) {a b : ℤ} (ha : c.fmt.IsReal a) (ha0 : a ≠ 0) (hb : c.fmt.IsReal b)
    (hb0 : b ≠ 0) :
    (c.SafeMag (c.fmt.val a / c.fmt.val b) →
      ∃ v, Posit.div c a b = .ok v ∧ c.fmt.IsTrunc (c.fmt.val a / c.fmt.val b) v) ∧
    (¬ c.SafeMag (c.fmt.val a / c.fmt.val b) → Posit.div c a b = .error .shiftAmount) := by
  obtain ⟨ea, fa, hua⟩ := unpack_real h ha ha0
  obtain ⟨eb, fb, hub⟩ := unpack_real h hb hb0
  have hE := E_ge h
  have hF8 := h.F_pos
  have h1 := hua.e_abs h
  have h2 := hub.e_abs h
  rw [abs_le] at h1 h2
  obtain ⟨e, f, u, Y, heq, hf, hu, hm, hy1, hy2⟩ := divRegular_eq (na := a < 0) (nb := b < 0) (E := c.E) (by omega) (by omega)
    hua.f_lt hub.f_lt (hua.dvd_pow (k := 1) (by omega)) (hub.dvd_pow (k := 2) (by omega))
    (inS_wide h (x := ea - eb) (by rw [abs_le]; omega)) (inS_wide h (x := ea - eb - 1) (by rw [abs_le]; omega))
  rw [← hua.abs_val (by omega), ← hub.abs_val (by omega), ← abs_div] at hy1 hy2
  have hu' : 2 ^ c.fb ≤ u := le_trans (Nat.pow_le_pow_right (by norm_num) (by omega)) hu
  unfold Posit.div
  rw [hua.eq, hub.eq]
  simp only [bind, Except.bind]
  unfold Unp.div
  simp only [reduceCtorEq, or_self, if_false]
  rw [heq]
  simp only []
  constructor
  · intro hs
    obtain ⟨p, hp, ht⟩ := pack_of_unit h (xor (a < 0) (b < 0)) hf hu' hm hy1 hy2 (SafeMag_abs.mpr hs)
    refine ⟨_, hp, ?_⟩
    have hpos : 0 < |c.fmt.val a / c.fmt.val b| := lt_of_lt_of_le (by rw [← hm]; exact mag_pos _ _ _) hy1
    have := Format.IsTrunc.of_sign (xor (a < 0) (b < 0)) hpos ht
    rwa [div_real_sign ha ha0 hb hb0] at this
  · intro hs
    exact pack_safe_iff h hf (le_trans Nat.one_le_two_pow hu) hm hy1 hy2 (fun hh => hs (SafeMag_abs.mp hh))

/-! ## addition -/

/-- packing a number just above `y` -/
theorem pack_above (h : c.WF) (neg : Bool) {e : ℤ} {f : ℕ} (hf : f < 2 ^ c.F) {u : ℕ} {Y : ℤ} {y : ℚ}
    (hu : 2 ^ c.fb + 1 ≤ u) (hval : mag c.F e f = u * 2 ^ Y) (hy1 : (u - 1 : ℚ) * 2 ^ Y < y)
    (hy2 : y < (u : ℚ) * 2 ^ Y) (hs : c.PackSafe e) :
    ∃ p : ℕ, Posit.pack c ⟨.regular, neg, e, f⟩ = .ok (if neg then -(p : ℤ) else p) ∧
      c.fmt.IsFaithful ((if neg then -1 else 1) * y) (if neg then -(p : ℤ) else p) := by
  obtain ⟨p, hp, ht⟩ := pack_regular h neg hf hs
  refine ⟨p, hp, ?_⟩
  have hml := Format.maxBody_lt c.fmt
  have hu1 : ((u - 1 : ℕ) : ℚ) = u - 1 := by
    have : 1 ≤ 2 ^ c.fb := Nat.one_le_two_pow
    rw [Nat.cast_sub (by omega)]; push_cast; rfl
  have hu0 : (0 : ℚ) ≤ u - 1 := by rw [← hu1]; positivity
  have hY : (0 : ℚ) < 2 ^ Y := by positivity
  have hpos : 0 < y := lt_of_le_of_lt (by positivity) hy1
  unfold mag at hval
  rw [hval] at ht
  have hfa : c.fmt.IsFaithful y p := by
    refine Format.IsFaithful.of_pos ht hy2.le hpos ?_
    intro q hq1 hq2 hq
    by_contra hc
    have hgt : ((u - 1 : ℕ) : ℚ) * 2 ^ Y < posVal c.N c.es q := by
      rw [hu1]; simp only [fmt_N, fmt_es] at hc; linarith
    have := no_posit_between h hq1 (lt_of_le_of_lt hq2 hml) (by omega : 2 ^ c.fb ≤ u - 1) hgt
    rw [hu1] at this
    simp only [fmt_N, fmt_es] at hq
    have e1 : ((u : ℚ) - 1 + 1) * 2 ^ Y = u * 2 ^ Y := by ring
    rw [e1] at this
    linarith
  cases neg
  · simpa using hfa
  · simpa using hfa.neg

/-- decoded operands of an addition (used by `+`, `fma`, `dot`) -/
theorem add_pack_same (h : c.WF) (hF : c.fb + 2 ≤ c.F) {s : Bool} {ea eb : ℤ} {fa fb : ℕ} (hfa : fa < 2 ^ c.F) (hfb : fb < 2 ^ c.F)
    (h4a : 4 ∣ fa) (h4b : 4 ∣ fb) (hd : |ea - eb| < pw c.F) (hr : AddRange c.E c.F ea eb) :
    (c.SafeMag (mag c.F ea fa + mag c.F eb fb) →
      ∃ v, (do let r ← Unp.addRegular c.F c.E ⟨.regular, s, ea, fa⟩ ⟨.regular, s, eb, fb⟩; Posit.pack c r) = .ok v ∧
        c.fmt.IsTrunc ((if s then -1 else 1) * (mag c.F ea fa + mag c.F eb fb)) v) ∧
    (¬ c.SafeMag (mag c.F ea fa + mag c.F eb fb) →
      (do let r ← Unp.addRegular c.F c.E ⟨.regular, s, ea, fa⟩ ⟨.regular, s, eb, fb⟩; Posit.pack c r) =
        .error .shiftAmount) := by
  have hE := E_ge h
  obtain ⟨e, f, u, heq, hf, hu, hm, hy1, hy2, -, -⟩ := addRegular_same (s := s) h.hF (by omega) hfa hfb h4a h4b hd hr
  have hu' : 2 ^ c.fb ≤ u := le_trans (Nat.pow_le_pow_right (by norm_num) (by omega)) hu
  rw [heq]
  simp only [bind, Except.bind]
  constructor
  · intro hs
    obtain ⟨p, hp, ht⟩ := pack_of_unit h s hf hu' hm hy1 hy2 hs
    exact ⟨_, hp, Format.IsTrunc.of_sign s (add_pos (mag_pos _ _ _) (mag_pos _ _ _)) ht⟩
  · intro hs
    exact pack_safe_iff h hf (le_trans Nat.one_le_two_pow hu) hm hy1 hy2 hs

theorem mag_lt {F : ℕ} {e : ℤ} {f : ℕ} (hf : f < 2 ^ F) : mag F e f < 2 ^ (e + 1) := by
  unfold mag
  have : (f : ℚ) / 2 ^ F < 1 := by rw [div_lt_one (by positivity)]; exact_mod_cast hf
  rw [zpow_add_one₀ (by norm_num)]
  have : (0 : ℚ) < 2 ^ e := by positivity
  nlinarith

theorem le_mag (F : ℕ) (e : ℤ) (f : ℕ) : (2 : ℚ) ^ e ≤ mag F e f := by
  unfold mag
  have : (0 : ℚ) ≤ (f : ℚ) / 2 ^ F := by positivity
  have : (0 : ℚ) < 2 ^ e := by positivity
  nlinarith

theorem add_pack_opp (h : c.WF) (hF : c.fb + 3 ≤ c.F) {s : Bool} {ea eb : ℤ} {fa fb : ℕ} (hfa : fa < 2 ^ c.F) (hfb : fb < 2 ^ c.F)
    (h8a : 8 ∣ fa) (h8b : 8 ∣ fb) (hsm : c.F < 32 ∨ (16 ∣ fa ∧ 16 ∣ fb)) (hd : |ea - eb| < pw c.F)
    (hr : AddRange c.E c.F ea eb) (hne : mag c.F ea fa ≠ mag c.F eb fb)
    (hsa : c.SafeMag (mag c.F ea fa)) (hsb : c.SafeMag (mag c.F eb fb))
    (hs : c.SafeMag (mag c.F ea fa - mag c.F eb fb)) :
    ∃ v, (do let r ← Unp.addRegular c.F c.E ⟨.regular, s, ea, fa⟩ ⟨.regular, !s, eb, fb⟩; Posit.pack c r) = .ok v ∧
        c.fmt.IsFaithful ((if s then -1 else 1) * (mag c.F ea fa - mag c.F eb fb)) v ∧ v ≠ 0 := by
  have hE := E_ge h
  obtain ⟨e, f, u, Y, heq, hf, hu, hm, hy, hle, -, -⟩ :=
    (addRegular_opp (s := s) h.hF (by omega) hfa hfb h8a h8b hsm hd hr).2 hne
  rw [heq]
  simp only [bind, Except.bind]
  set s' := if mag c.F eb fb < mag c.F ea fa then s else !s with hs'
  have hsgn : (if s then -1 else 1 : ℚ) * (mag c.F ea fa - mag c.F eb fb) =
      (if s' then -1 else 1) * |mag c.F ea fa - mag c.F eb fb| := by
    by_cases hlt : mag c.F eb fb < mag c.F ea fa
    · rw [hs', if_pos hlt, abs_of_pos (by linarith)]
    · have := lt_of_le_of_ne (not_lt.mp hlt) hne
      rw [hs', if_neg hlt, abs_of_neg (by linarith)]
      cases s <;> simp
  rw [hsgn]
  have habs : 0 < |mag c.F ea fa - mag c.F eb fb| := abs_pos.mpr (sub_ne_zero.mpr hne)
  have hps : c.PackSafe e := by
    have hup : |mag c.F ea fa - mag c.F eb fb| ≤ mag c.F e f := by
      rw [hm]; rcases hy with hy | ⟨-, -, hy⟩ <;> linarith
    refine ⟨hs.1.imp_left fun hh => ?_, ?_⟩
    · have := lt_of_le_of_lt (le_trans hh hup) (mag_lt hf)
      have := (zpow_lt_zpow_iff_right₀ (by norm_num : (1 : ℚ) < 2)).mp this
      omega
    · rcases hsa.2 with ha | ha
      · rcases hsb.2 with hb | hb
        · left
          rw [abs_of_pos (mag_pos _ _ _)] at ha hb
          have := lt_of_le_of_lt (le_trans (le_mag c.F e f) hle) (max_lt ha hb)
          exact (zpow_lt_zpow_iff_right₀ (by norm_num : (1 : ℚ) < 2)).mp this
        · exact Or.inr hb
      · exact Or.inr ha
  rcases hy with hy | ⟨hu3, hy1, hy2⟩
  · obtain ⟨p, hp, ht⟩ := pack_regular h s' hf hps
    have ht' : c.fmt.TruncB |mag c.F ea fa - mag c.F eb fb| p := by
      rw [hy, ← hm]; exact ht
    refine ⟨_, hp, (Format.IsTrunc.of_sign s' habs ht').faithful, ?_⟩
    have := ht'.one_le
    split_ifs <;> omega
  · have hu' : 2 ^ c.fb + 1 ≤ u := le_trans (Nat.add_le_add_right (Nat.pow_le_pow_right (by norm_num) (by omega)) 1) hu3
    obtain ⟨p, hp, hfa⟩ := pack_above h s' hf hu' hm hy1 hy2 hps
    obtain ⟨p', hp', ht⟩ := pack_regular h s' hf hps
    refine ⟨_, hp, hfa, ?_⟩
    rw [hp] at hp'
    have := ht.one_le
    injection hp' with hp'
    rw [hp']
    split_ifs <;> omega

end Verif
