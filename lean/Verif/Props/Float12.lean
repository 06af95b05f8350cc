import Verif.Lemmas.Float12

/-! # C121: the conversions of the emulated 12-bit float -/

namespace Verif.Float12
open HalfPrec

/-- `h` is the half precision pattern of `v` rounded as the rounding mode says; `s` is the sign bit of the argument -/
def IsModeRounded (mode : Mode) (v : ℚ) (s : Bool) (h : ℕ) : Prop :=
  match mode with
  | .nearEven => IsNearestEven 5 10 v h
  | .nearMaxMag => IsNearestHalf v s h
  | .minMag => IsTowardZero 5 10 v h
  | .min => IsDownward 5 10 v h
  | .max => IsUpward 5 10 v h

/-- what a conversion to half precision has to return for a float that stands for `n` and has the sign bit `s` -/
def NarrowsTo (mode : Mode) (n : XNum) (s : Bool) (h : ℕ) : Prop :=
  match n with
  | .nan => ieee 5 10 h = .nan
  | .inf t => ieee 5 10 h = .inf t
  | .num v => (h / 2 ^ 15 = 1 ↔ s = true) ∧ IsModeRounded mode v s h

/-- the functions for NaNs as the library has them for x86, used in the examples -/
def exNan : NanExt where
  of32 a := (a / 2 ^ 31, a * 2 ^ 41 % 2 ^ 64)
  to32 s v := s * 2 ^ 31 ||| 0x7FC00000 ||| v / 2 ^ 41

theorem val32 {s e m : ℕ} (hs : s < 2) (he : e < 255) (hm : m < 2 ^ 23) :
    ieee 8 23 (s * 2 ^ (8 + 23) + e * 2 ^ 23 + m) =
      .num ((if s = 1 then -1 else 1) * (if e = 0 then (m : ℚ) * 2 ^ (-149 : ℤ) else (2 ^ 23 + m : ℕ) * 2 ^ ((e : ℤ) - 150))) := by
  rw [ieee_fields 8 23 s e m hs (by omega) hm, if_neg (by omega)]
  have e1 : ((2 : ℤ) - 2 ^ (8 - 1) - (23 : ℕ)) = -149 := by norm_num
  have e2 : ((e : ℤ) - (2 ^ (8 - 1) - 1) - (23 : ℕ)) = e - 150 := by norm_num; ring
  rw [e1, e2]
  split
  · rfl
  · push_cast; rfl

theorem mode_of_core {mode : Mode} {s : ℕ} {v : ℚ} {k : ℕ} (hs : s < 2) (hv : 0 ≤ v) (h : Core mode s v k) :
    IsModeRounded mode ((if s = 1 then -1 else 1) * v) (decide (s = 1)) (s * 2 ^ 15 + k) := by
  have hk := core_lt h
  cases mode with
  | nearEven =>
    have hn := core_even h
    have ha : |(if s = 1 then -1 else 1) * v| = v := by
      rw [abs_mul, abs_of_nonneg hv]
      split <;> simp
    refine (nearest_iff (by omega) ?_).2 ?_
    · intro h0
      have hv0 : v ≠ 0 := by rintro rfl; simp at h0
      have hv1 : 0 < v := lt_of_le_of_ne hv hv0.symm
      rw [show (s * 2 ^ 15 + k) / 2 ^ 15 = s by omega]
      by_cases c : s = 1
      · simp [c, hv1]
      · simp [c, hv]
    · rw [ha, show (s * 2 ^ 15 + k) % 2 ^ 15 = k by omega]
      exact hn
  | nearMaxMag => exact isNearest_of_rounds v s k hs hv (core_max h)
  | minMag =>
    have hr : roundIncrement .minMag s = 0 := by
      unfold roundIncrement
      by_cases c : s = 0 <;> simp [c]
    exact towardZero_mag hs hv (core_down hr h)
  | min =>
    show IsDownward _ _ _ _
    by_cases c : s = 1
    · subst c
      have := downward_neg hv (core_up (by simp [roundIncrement]) h)
      simpa using this
    · obtain rfl : s = 0 := by omega
      have := downward_pos hv (core_down (by simp [roundIncrement]) h)
      simpa using this
  | max =>
    show IsUpward _ _ _ _
    by_cases c : s = 1
    · subst c
      have := upward_neg hv (core_down (by simp [roundIncrement]) h)
      simpa using this
    · obtain rfl : s = 0 := by omega
      have := upward_pos hv (core_up (by simp [roundIncrement]) h)
      simpa using this

theorem pos32 (e m : ℕ) : (0 : ℚ) ≤ (if e = 0 then (m : ℚ) * 2 ^ (-149 : ℤ) else (2 ^ 23 + m : ℕ) * 2 ^ ((e : ℤ) - 150)) := by
  split <;> positivity

theorem nan_ok {W : ℕ} (hW : 16 ≤ W) {t v : ℕ} (ht : t < 2) (hv : v < 2 ^ 64) :
    nanTo12 W t v < 2 ^ 16 ∧ ieee 5 10 (nanTo12 W t v) = .nan := by
  have hp : 2 ^ 16 ≤ 2 ^ W := Nat.pow_le_pow_right (by norm_num) hW
  have h9 : v >>> 54 < 2 ^ 10 := by rw [Nat.shiftRight_eq_div_pow]; omega
  unfold nanTo12
  generalize v >>> 54 = u at *
  have a1 : (0x200 ||| u) < 2 ^ 10 := Nat.or_lt_two_pow (by norm_num) h9
  have a0 : 0x200 ≤ (0x200 ||| u) := Nat.left_le_or
  have e1 : t <<< 15 ||| 0x7E00 ||| u = t * 2 ^ 15 + (0x7C00 + (0x200 ||| u)) := by
    have a2 := or_add (t * 2 ^ 5 + 31) (0x200 ||| u) 10 a1
    have a3 := or_add t 0x7C00 15 (by norm_num)
    rw [Nat.shiftLeft_eq, show (0x7E00 : ℕ) = 0x7C00 ||| 0x200 by decide, ← Nat.or_assoc, a3, Nat.or_assoc,
      show t * 2 ^ 15 + 0x7C00 = (t * 2 ^ 5 + 31) * 2 ^ 10 by ring, a2]
    ring
  rw [e1, Nat.mod_eq_of_lt (by omega)]
  refine ⟨by omega, ?_⟩
  rw [ieee_half t _ ht (by omega), if_neg (by omega), if_neg (by omega)]

/-- **C121** (narrowing): with words of 16 bits or more, and instantiated with the constants of the library it was copied from (9 and
`0x1FF`), `f32_to_f12` turns every float into a half precision pattern: NaN into NaN, infinities into infinities, and every number into
the number rounded as the rounding mode of the library says, overflow and subnormal results included, keeping the sign bit. -/
theorem C121_narrow {W : ℕ} (hW : 16 ≤ W) (x : NanExt) (mode : Mode) (a : ℕ) (ha : a < 2 ^ 32) (hx1 : (x.of32 a).1 < 2)
    (hx2 : (x.of32 a).2 < 2 ^ 64) :
    ∃ h, ofF32 W 9 0x1FF x mode a = .ok h ∧ h < 2 ^ 16 ∧ NarrowsTo mode (ieee 8 23 a) (decide (a / 2 ^ 31 = 1)) h := by
  have hp : 2 ^ 16 ≤ 2 ^ W := Nat.pow_le_pow_right (by norm_num) hW
  obtain ⟨s, e, m, hs, he, hm, hae, hsign⟩ := fields32 a ha
  by_cases c1 : e = 255
  · have hof := ofF32_special W 9 0x1FF x mode (a := a) hs hm (by rw [hae, c1])
    have hval : ieee 8 23 a = if m = 0 then .inf (decide (s = 1)) else .nan := by
      rw [hae, ieee_fields 8 23 s e m hs he hm, if_pos (by omega)]
    rw [hof, hval]
    by_cases c2 : m = 0
    · rw [if_neg (by simpa using c2), if_pos c2, pack_eq hW hs (by norm_num), Nat.mod_eq_of_lt (by omega)]
      refine ⟨_, rfl, by omega, ?_⟩
      show ieee 5 10 _ = _
      have := ieee_half s 31744 hs (by norm_num)
      rw [if_neg (by omega), if_pos rfl] at this
      exact this
    · rw [if_pos c2, if_neg c2]
      obtain ⟨n1, n2⟩ := nan_ok hW hx1 hx2
      exact ⟨_, rfl, n1, n2⟩
  · obtain ⟨k, hk1, hk2⟩ := ofF32_core hW x mode hs (by omega) hm (e := e)
    rw [← hae] at hk1
    have hk3 := core_lt hk2
    refine ⟨_, hk1, by omega, ?_⟩
    rw [hae, val32 hs (by omega) hm, ← hae, hsign]
    refine ⟨?_, mode_of_core hs (pos32 e m) hk2⟩
    rw [decide_eq_true_eq]
    omega

example : ∃ h, ofF32 16 9 0x1FF exNan .max 1 = .ok h ∧ h < 2 ^ 16 ∧ NarrowsTo .max (ieee 8 23 1) (decide (1 / 2 ^ 31 = 1)) h :=
  C121_narrow (by norm_num) exNan .max 1 (by norm_num) (by decide) (by decide)

/-- halfway between two halves, beyond the greatest half, below the least one, and a NaN -/
example : ofF32 16 9 0x1FF exNan .nearEven 0x3F801000 = .ok 0x3C00 ∧ ofF32 16 9 0x1FF exNan .nearMaxMag 0x3F801000 = .ok 0x3C01 ∧
    ofF32 16 9 0x1FF exNan .max 0xBF801000 = .ok 0xBC00 ∧ ofF32 16 9 0x1FF exNan .min 0xBF801000 = .ok 0xBC01 ∧
    ofF32 16 9 0x1FF exNan .nearEven 0x477FF000 = .ok 0x7C00 ∧ ofF32 16 9 0x1FF exNan .minMag 0x477FF000 = .ok 0x7BFF ∧
    ofF32 16 9 0x1FF exNan .max 1 = .ok 1 ∧ ofF32 16 9 0x1FF exNan .nearEven 0x33800000 = .ok 1 ∧
    ofF32 16 9 0x1FF exNan .min 0xFF800001 = .ok 0xFE00 := by decide +kernel

/-- a half from its fields -/
theorem toF32_eq (x : NanExt) {s e m : ℕ} (hs : s < 2) (he : e < 2 ^ 5) (hm : m < 2 ^ 10) (hn : ¬ (e = 31 ∧ m ≠ 0)) :
    ∃ f E, toF32 x (s * 2 ^ (5 + 10) + e * 2 ^ 10 + m) = .ok (s * 2 ^ (8 + 23) + E * 2 ^ 23 + f) ∧ f < 2 ^ 23 ∧ E < 2 ^ 8 ∧
      (e = 31 → E = 255 ∧ f = 0) ∧ (e ≠ 31 → E < 255 ∧
        (if E = 0 then (f : ℚ) * 2 ^ (-149 : ℤ) else (2 ^ 23 + f : ℕ) * 2 ^ ((E : ℤ) - 150)) = g (e * 1024 + m)) := by
  have f1 : ((s * 2 ^ (5 + 10) + e * 2 ^ 10 + m) >>> 15) % 2 = s := by rw [Nat.shiftRight_eq_div_pow]; omega
  have f2 : ((s * 2 ^ (5 + 10) + e * 2 ^ 10 + m) >>> 10) &&& 0x1F = e := by
    rw [show (0x1F : ℕ) = 2 ^ 5 - 1 by norm_num, Nat.and_two_pow_sub_one_eq_mod, Nat.shiftRight_eq_div_pow]; omega
  have f3 : (s * 2 ^ (5 + 10) + e * 2 ^ 10 + m) &&& 0x3FF = m := by
    rw [show (0x3FF : ℕ) = 2 ^ 10 - 1 by norm_num, Nat.and_two_pow_sub_one_eq_mod]; omega
  have hpack : ∀ (E : ℤ) (f : ℕ), 0 ≤ E → E * 2 ^ 23 + f < 2 ^ 31 → pack32 s E f = s * 2 ^ (8 + 23) + E.toNat * 2 ^ 23 + f := by
    intro E f h0 h1
    have w : wrapU 32 E = E.toNat := by unfold wrapU; omega
    unfold pack32
    rw [w, Nat.shiftLeft_eq, Nat.shiftLeft_eq]
    omega
  unfold toF32
  simp only [f1, f2, f3]
  by_cases c1 : e = 0x1F
  · have hm0 : m = 0 := by
      by_contra h; exact hn ⟨c1, h⟩
    rw [if_pos c1, if_neg (by simpa using hm0), hpack _ _ (by norm_num) (by norm_num)]
    exact ⟨0, 255, by simp, by norm_num, by norm_num, fun _ => ⟨rfl, rfl⟩, fun h => absurd c1 h⟩
  rw [if_neg c1]
  by_cases c2 : e = 0
  · rw [if_pos c2]
    subst c2
    by_cases c3 : m = 0
    · rw [if_pos c3, hpack _ _ (by norm_num) (by norm_num)]
      subst c3
      exact ⟨0, 0, by simp, by norm_num, by norm_num, by simp, fun _ => ⟨by norm_num, by simp [g_zero]⟩⟩
    · rw [if_neg c3]
      have hlog := Nat.log2_self_le c3
      have hlog2 := Nat.lt_log2_self (n := m)
      have hl : Nat.log2 m ≤ 9 := by
        have := (Nat.log2_lt c3).2 hm
        omega
      generalize hL : Nat.log2 m = L at *
      have hclz : (clz 16 m : ℤ) - 5 = ((10 - L : ℕ) : ℤ) := by unfold clz; rw [hL]; omega
      have hpw : 2 ^ L * 2 ^ (10 - L) = 1024 := by rw [← pow_add, show L + (10 - L) = 10 by omega]; norm_num
      have hpp : 0 < 2 ^ (10 - L) := by positivity
      have b1 : 1024 ≤ m * 2 ^ (10 - L) := by rw [← hpw]; exact Nat.mul_le_mul_right _ hlog
      have b2 : m * 2 ^ (10 - L) < 2048 := by
        rw [show 2048 = 2 ^ (L + 1) * 2 ^ (10 - L) by rw [pow_succ, Nat.mul_right_comm, hpw]]
        exact Nat.mul_lt_mul_of_pos_right hlog2 hpp
      have hsh : shlU 16 m ((10 - L : ℕ) : ℤ) = .ok (m * 2 ^ (10 - L)) := by
        unfold shlU
        rw [if_neg (by simp [pw]; omega), if_pos (by norm_num), Int.toNat_natCast, Nat.shiftLeft_eq, if_pos (by omega)]
      have hns : normSubnormal m = .ok (1 - ((10 - L : ℕ) : ℤ), m * 2 ^ (10 - L)) := by
        unfold normSubnormal
        simp only [hclz, hsh]
        show Except.ok _ = _
        rw [Nat.mod_eq_of_lt (by omega)]
      rw [hns]
      show ∃ f E, (Except.ok (pack32 s (1 - ((10 - L : ℕ) : ℤ) - 1 + 0x70) ((m * 2 ^ (10 - L)) <<< 13 % 2 ^ 32)) : Except UB ℕ) = _ ∧ _
      have hfr : (m * 2 ^ (10 - L)) <<< 13 % 2 ^ 32 = m * 2 ^ (10 - L) * 2 ^ 13 := by rw [Nat.shiftLeft_eq]; omega
      rw [hfr, hpack _ _ (by omega) (by omega)]
      refine ⟨m * 2 ^ (10 - L) * 2 ^ 13 - 2 ^ 23, 103 + L, congrArg Except.ok (by omega), by omega, by omega, by simp, fun _ => ⟨by omega, ?_⟩⟩
      rw [if_neg (by omega), show 2 ^ 23 + (m * 2 ^ (10 - L) * 2 ^ 13 - 2 ^ 23) = m * 2 ^ (10 - L) * 2 ^ 13 by omega, Nat.zero_mul,
        Nat.zero_add, g_sub m (by omega)]
      push_cast
      rw [mul_assoc, mul_assoc]
      congr 1
      rw [show (8192 : ℚ) = 2 ^ (13 : ℤ) by norm_num, ← zpow_natCast, ← zpow_add₀ (by norm_num), ← zpow_add₀ (by norm_num)]
      congr 1
      push_cast
      omega
  · have hfr : m <<< 13 % 2 ^ 32 = m * 2 ^ 13 := by rw [Nat.shiftLeft_eq]; omega
    rw [if_neg c2, hfr, hpack _ _ (by omega) (by omega)]
    refine ⟨m * 2 ^ 13, e + 112, congrArg Except.ok (by omega), by omega, by omega, fun h => absurd h c1, fun _ => ⟨by omega, ?_⟩⟩
    rw [if_neg (by omega), g_norm e m (by omega) (by omega)]
    push_cast
    rw [show (8388608 : ℚ) + m * 8192 = (1024 + m) * 2 ^ (13 : ℤ) by norm_num; ring, mul_assoc, ← zpow_add₀ (by norm_num)]
    congr 2
    ring

/-- **C121** (widening): `f12_to_f32` turns every half precision pattern except the NaNs into the float of the same value and sign, exactly;
it has no undefined behaviour. -/
theorem C121_widen (x : NanExt) (h : ℕ) (hh : h < 2 ^ 16) (hn : ieee 5 10 h ≠ .nan) :
    ∃ f, toF32 x h = .ok f ∧ f < 2 ^ 32 ∧ ieee 8 23 f = ieee 5 10 h ∧ f / 2 ^ 31 = h / 2 ^ 15 := by
  obtain ⟨s, e, m, hs, he, hm, hhe, hsign⟩ := fields16 h hh
  have hval := ieee_half s (e * 1024 + m) hs (by omega)
  rw [show s * 2 ^ 15 + (e * 1024 + m) = h by omega] at hval
  have hn' : ¬ (e = 31 ∧ m ≠ 0) := by
    rintro ⟨h1, h2⟩
    rw [if_neg (by omega), if_neg (by omega)] at hval
    exact hn hval
  obtain ⟨f, E, h1, h2, h3, h4, h5⟩ := toF32_eq x hs he hm hn'
  rw [← hhe] at h1
  refine ⟨_, h1, by omega, ?_, by omega⟩
  by_cases c : e = 31
  · obtain ⟨rfl, rfl⟩ := h4 c
    rw [hval, if_neg (by omega), if_pos (by omega), ieee_fields 8 23 s 255 0 hs (by norm_num) (by norm_num), if_pos (by norm_num),
      if_pos rfl]
  · obtain ⟨h6, h7⟩ := h5 c
    rw [hval, if_pos (by omega), val32 hs h6 h2, h7]

example : ∃ f, toF32 exNan 0x8001 = .ok f ∧ f < 2 ^ 32 ∧ ieee 8 23 f = ieee 5 10 0x8001 ∧ f / 2 ^ 31 = 0x8001 / 2 ^ 15 :=
  C121_widen exNan 0x8001 (by norm_num) (by norm_num [ieee]; nofun)

example : toF32 exNan 0x8001 = .ok 0xB3800000 ∧ toF32 exNan 0x3555 = .ok 0x3EAAA000 ∧ toF32 exNan 0xFC00 = .ok 0xFF800000 := by
  decide +kernel

/-- **C121** (NaN): a NaN is handed on to the library with its sign and its fraction at the top of a 64-bit word. -/
theorem C121_widen_nan (x : NanExt) (h : ℕ) (hh : h < 2 ^ 16) (hn : ieee 5 10 h = .nan) :
    toF32 x h = .ok (x.to32 (h / 2 ^ 15) (h % 2 ^ 10 * 2 ^ 54)) := by
  obtain ⟨s, e, m, hs, he, hm, hhe, hsign⟩ := fields16 h hh
  have hval := ieee_half s (e * 1024 + m) hs (by omega)
  rw [show s * 2 ^ 15 + (e * 1024 + m) = h by omega, hn] at hval
  have he31 : e = 31 ∧ m ≠ 0 := by
    split at hval
    · cases hval
    split at hval
    · cases hval
    · omega
  have f2 : (h >>> 10) &&& 0x1F = 0x1F := by
    rw [show (0x1F : ℕ) = 2 ^ 5 - 1 by norm_num, Nat.and_two_pow_sub_one_eq_mod, Nat.shiftRight_eq_div_pow]; omega
  have f3 : h &&& 0x3FF = m := by
    rw [show (0x3FF : ℕ) = 2 ^ 10 - 1 by norm_num, Nat.and_two_pow_sub_one_eq_mod]; omega
  unfold toF32
  simp only [f2, f3, if_true]
  rw [if_pos he31.2, Nat.shiftRight_eq_div_pow, Nat.shiftLeft_eq]
  congr 2
  omega

example : toF32 exNan 0xFE01 = .ok (exNan.to32 1 (0x201 * 2 ^ 54)) :=
  C121_widen_nan exNan 0xFE01 (by norm_num) (by norm_num [ieee])

/-- **C121** (there and back): widening a half precision pattern that is not a NaN and narrowing the float gives the pattern back, in every
rounding mode. -/
theorem C121_back {W : ℕ} (hW : 16 ≤ W) (x : NanExt) (mode : Mode) (h : ℕ) (hh : h < 2 ^ 16) (hn : ieee 5 10 h ≠ .nan) :
    (toF32 x h >>= ofF32 W 9 0x1FF x mode) = .ok h := by
  have hp : 2 ^ 16 ≤ 2 ^ W := Nat.pow_le_pow_right (by norm_num) hW
  obtain ⟨s, e, m, hs, he, hm, hhe, hsign⟩ := fields16 h hh
  have hval := ieee_half s (e * 1024 + m) hs (by omega)
  rw [show s * 2 ^ 15 + (e * 1024 + m) = h by omega] at hval
  have hn' : ¬ (e = 31 ∧ m ≠ 0) := by
    rintro ⟨h1, h2⟩
    rw [if_neg (by omega), if_neg (by omega)] at hval
    exact hn hval
  obtain ⟨f, E, h1, h2, h3, h4, h5⟩ := toF32_eq x hs he hm hn'
  rw [← hhe] at h1
  have hb : ∀ F, ((Except.ok F : Except UB ℕ) >>= ofF32 W 9 0x1FF x mode) = ofF32 W 9 0x1FF x mode F := fun _ => rfl
  rw [h1, hb]
  by_cases c : e = 31
  · obtain ⟨rfl, rfl⟩ := h4 c
    rw [ofF32_special W 9 0x1FF x mode (s := s) (m := 0) hs (by norm_num) rfl]
    rw [if_neg (by simp), pack_eq hW hs (by norm_num), Nat.mod_eq_of_lt (by omega)]
    exact congrArg Except.ok (by omega)
  · obtain ⟨h6, h7⟩ := h5 c
    obtain ⟨k, hk1, hk2⟩ := ofF32_core hW x mode hs h6 h2 (e := E)
    rw [h7] at hk2
    have := core_exact (by omega) hk2
    rw [hk1, this]
    exact congrArg Except.ok (by omega)

example : (toF32 exNan 0x03FF >>= ofF32 16 9 0x1FF exNan .max) = .ok 0x03FF :=
  C121_back (by norm_num) exNan .max 0x03FF (by norm_num) (by norm_num [ieee]; nofun)

/-- **C121** (words of 12 bits): if `uint_fast12_t` had the 12 bits of its name, no result would have a sign bit and the hidden bit `0x4000`
would be lost: 1 and every other power of two in the range of normal results would become zero. -/
theorem C121_width_wrong (x : NanExt) (mode : Mode) :
    (∀ a h, ofF32 12 9 0x1FF x mode a = .ok h → h < 2 ^ 12) ∧
    ∀ e, 113 ≤ e → e ≤ 142 → ofF32 12 9 0x1FF x mode (e * 2 ^ 23) = .ok 0 := by
  have tl : ∀ s e sig, roundTail 12 mode s e sig < 2 ^ 12 := fun s e sig => Nat.mod_lt _ (by norm_num)
  have rp : ∀ s e sig, roundPack 12 mode s e sig < 2 ^ 12 := by
    intro s e sig
    unfold roundPack
    split
    · split
      · exact tl _ _ _
      · split
        · exact Nat.mod_lt _ (by norm_num)
        · exact tl _ _ _
    · exact tl _ _ _
  constructor
  · intro a h ha
    have fin : ∀ s e f, ofFinite 12 mode s e f < 2 ^ 12 := by
      intro s e f
      unfold ofFinite
      split
      · exact Nat.mod_lt _ (by norm_num)
      · exact rp _ _ _
    have hsh : ∀ y, shrU 32 y ((9 : ℕ) : ℤ) = .ok (y >>> 9) := by
      intro y
      unfold shrU
      rw [if_neg (by simp [pw])]; rfl
    unfold ofF32 at ha
    simp only [hsh] at ha
    by_cases c1 : (a >>> 23) &&& 0xFF = 0xFF
    · rw [if_pos c1] at ha
      by_cases c2 : a &&& 0x007FFFFF ≠ 0
      · rw [if_pos c2] at ha
        rw [← Except.ok.inj ha]; exact Nat.mod_lt _ (by norm_num)
      · rw [if_neg c2] at ha
        rw [← Except.ok.inj ha]; exact Nat.mod_lt _ (by norm_num)
    · rw [if_neg c1] at ha
      rw [← Except.ok.inj ha]; exact fin _ _ _
  · intro e h1 h2
    interval_cases e <;> cases mode <;> rfl

example : ofF32 12 9 0x1FF exNan .nearEven 0x3F800000 = .ok 0 ∧ ieee 8 23 0x3F800000 = .num 1 :=
  ⟨(C121_width_wrong exNan .nearEven).2 127 (by norm_num) (by norm_num), by norm_num [ieee]⟩

/-- **C121** (other numbers of bits): with 6 bits and the mask `0x3F`, as the comment "f12 is typically 1 5 6" suggests, the float 1.5 is
narrowed to the pattern of 1 with 16-bit words, and to that of 16 with wider ones: only 9 and `0x1FF` fit the rest of the code. -/
theorem C121_params_wrong (x : NanExt) (mode : Mode) :
    ieee 8 23 0x3FC00000 = .num (3 / 2) ∧
    ofF32 16 6 0x3F x mode 0x3FC00000 = .ok 0x3C00 ∧ ieee 5 10 0x3C00 = .num 1 ∧
    ofF32 32 6 0x3F x mode 0x3FC00000 = .ok 0x4C00 ∧ ieee 5 10 0x4C00 = .num 16 := by
  refine ⟨by norm_num [ieee], ?_, by norm_num [ieee], ?_, by norm_num [ieee]⟩
  · cases mode <;> rfl
  · cases mode <;> rfl

example : ofF32 16 6 0x3F exNan .max 0x3FC00000 = .ok 0x3C00 := (C121_params_wrong exNan .max).2.1

/-- **C121** (not a 12-bit format): the pattern of every number of magnitude 1/2048 or more, and of every negative number, does not fit
12 bits. -/
theorem C121_not12 {W : ℕ} (hW : 16 ≤ W) (x : NanExt) (mode : Mode) (a h : ℕ) (ha : a < 2 ^ 32) {v : ℚ} (hv : ieee 8 23 a = .num v)
    (hbig : 1 / 2048 ≤ |v| ∨ v < 0) (hh : ofF32 W 9 0x1FF x mode a = .ok h) : 2 ^ 12 ≤ h := by
  obtain ⟨s, e, m, hs, he, hm, hae, hsign⟩ := fields32 a ha
  have c1 : e ≠ 255 := by
    intro c
    rw [hae, ieee_fields 8 23 s e m hs he hm, if_pos (by omega)] at hv
    split at hv <;> cases hv
  obtain ⟨k, hk1, hk2⟩ := ofF32_core hW x mode hs (by omega) hm (e := e)
  rw [← hae, hh] at hk1
  obtain rfl := Except.ok.inj hk1
  rw [hae, val32 hs (by omega) hm] at hv
  have hp := pos32 e m
  generalize (if e = 0 then (m : ℚ) * 2 ^ (-149 : ℤ) else (2 ^ 23 + m : ℕ) * 2 ^ ((e : ℤ) - 150)) = u at *
  obtain rfl := XNum.num.inj hv
  by_cases c : s = 1
  · omega
  · rw [if_neg c, one_mul, abs_of_nonneg hp] at hbig
    have hu : 1 / 2048 ≤ u := hbig.resolve_right (by linarith)
    have g4 : g 4096 = 1 / 2048 := by norm_num [g]
    have : 4096 ≤ k := by
      rcases hk2 with ⟨-, hk⟩ | ⟨k0, -, h0, h1, hk⟩
      · split at hk <;> omega
      · have : 4096 < k0 + 1 := g_mono.lt_iff_lt.1 (by linarith)
        omega
    omega

example : 2 ^ 12 ≤ 0x3C00 :=
  C121_not12 (W := 16) (by norm_num) exNan .nearEven 0x3F800000 0x3C00 (by norm_num) (v := 1) (by norm_num [ieee])
    (Or.inl (by norm_num)) (by decide +kernel)

end Verif.Float12
