import Verif.Lemmas.SoftWrap

/-! Lemmas about IEEE 754 operations in any format: existence, exact results, errors, order -/

namespace Verif
namespace NearGen

variable {eb fb : ℕ}

/-- square roots exist -/
theorem exists_root (heb : 2 ≤ eb) {a : ℕ} (ha : a < 2 ^ (eb + fb + 1)) {x : ℚ} (hx : ieee eb fb a = .num x) (h0 : 0 ≤ x) :
    ∃ b, b < 2 ^ (eb + fb + 1) ∧ NearestReal eb fb (√(x : ℝ)) b ∧ signBit eb fb b = signBit eb fb a := by
  rcases h0.eq_or_lt with rfl | hpos
  · refine ⟨a, ha, ⟨0, hx, fun g z _ => ?_⟩, rfl⟩
    simp
  · have hsa : signBit eb fb a = false := by
      rw [signBit_num ha hx hpos.ne']; simp [h0]
    obtain ⟨b, y, hy, hall⟩ := exists_nearestReal (eb := eb) (fb := fb) heb (√(x : ℝ))
    have hz := hall 0 0 (ieee_zero' heb)
    have hr := Real.sqrt_nonneg (x : ℝ)
    rw [Rat.cast_zero, sub_zero, abs_of_nonneg hr] at hz
    have hy0 : 0 ≤ y := by
      by_contra hc
      have : (y : ℝ) < 0 := by exact_mod_cast not_le.mp hc
      rw [abs_of_nonneg (by linarith)] at hz
      linarith
    rcases hy0.eq_or_lt with rfl | hyp
    · exact ⟨0, by positivity, ⟨0, ieee_zero' heb, hall⟩, by rw [hsa]; unfold signBit; simp⟩
    · have hlt : b % 2 ^ (eb + fb + 1) < 2 ^ (eb + fb + 1) := Nat.mod_lt _ (by positivity)
      have hy' : ieee eb fb (b % 2 ^ (eb + fb + 1)) = .num y := by rw [ieee_mod, hy]
      refine ⟨b % 2 ^ (eb + fb + 1), hlt, ⟨y, hy', hall⟩, ?_⟩
      rw [hsa, signBit_num hlt hy' hyp.ne']; simp [hy0]

/-- there is an implementation of IEEE 754 in any format -/
theorem softOps_exists (heb : 2 ≤ eb) (hfb : 1 ≤ fb) : ∃ o : SoftOps, o.Correct eb fb := by
  classical
  have R := fun X s => exists_roundedAs (eb := eb) (fb := fb) heb hfb X s
  choose R hR using R
  have remE : ∀ a b, ∃ c, (∀ x y, ieee eb fb a = .num x → ieee eb fb b = .num y → y ≠ 0 →
        ∃ r, IsRemainder x y r ∧ RoundedAs eb fb (.num r) (signBit eb fb a) c) ∧
      ((ieee eb fb b = .num 0 ∨ (∃ s, ieee eb fb a = .inf s) ∨ ieee eb fb a = .nan ∨ ieee eb fb b = .nan) → NearestTo eb fb .nan c) ∧
      (∀ x s, ieee eb fb a = .num x → ieee eb fb b = .inf s → c = a) := by
    intro a b
    by_cases h1 : (ieee eb fb b = .num 0 ∨ (∃ s, ieee eb fb a = .inf s) ∨ ieee eb fb a = .nan ∨ ieee eb fb b = .nan)
    · refine ⟨R .nan false, fun x y hx hy h0 => ?_, fun _ => (hR .nan false).1, fun x s hx hs => ?_⟩
      · rw [hx, hy] at h1; simp [h0] at h1
      · rw [hx, hs] at h1; simp at h1
    · push Not at h1
      obtain ⟨h1, h2, h3, h4⟩ := h1
      cases ha : ieee eb fb a with
      | nan => exact absurd ha h3
      | inf s => exact absurd ha (h2 s)
      | num x =>
        cases hb : ieee eb fb b with
        | nan => exact absurd hb h4
        | inf s => exact ⟨a, fun x y _ hy => by (cases hy), fun h => (by simp at h), fun _ _ _ _ => rfl⟩
        | num y =>
          have hy : y ≠ 0 := fun h => h1 (by rw [hb, h])
          obtain ⟨r, hr⟩ := exists_remainder x hy
          refine ⟨R (.num r) (signBit eb fb a), fun x' y' hx' hy' _ => ?_, fun h => (by simp [hy] at h), fun _ _ _ h => (by cases h)⟩
          injection hx' with hx'; injection hy' with hy'
          subst hx' hy'
          exact ⟨r, hr, hR _ _⟩
  choose rm hrm using remE
  have rootE : ∀ a, ∃ c, (a < 2 ^ (eb + fb + 1) → ∀ x, ieee eb fb a = .num x → 0 ≤ x →
        c < 2 ^ (eb + fb + 1) ∧ NearestReal eb fb (√(x : ℝ)) c ∧ signBit eb fb c = signBit eb fb a) ∧
      (∀ x, ieee eb fb a = .num x → x < 0 → NearestTo eb fb .nan c) ∧
      (∀ s, ieee eb fb a = .inf s → NearestTo eb fb (if s then .nan else .inf false) c) ∧
      (ieee eb fb a = .nan → NearestTo eb fb .nan c) := by
    intro a
    cases ha : ieee eb fb a with
    | nan => exact ⟨R .nan false, fun _ _ h => (by cases h), fun _ h => (by cases h), fun _ h => (by cases h), fun _ => (hR .nan false).1⟩
    | inf s => exact ⟨R (if s then .nan else .inf false) false, fun _ _ h => (by cases h), fun _ h => (by cases h),
        fun t h => (by injection h with h; subst h; exact (hR _ false).1), fun h => (by cases h)⟩
    | num x =>
      rcases lt_or_ge x 0 with hx | hx
      · exact ⟨R .nan false, fun _ y h h0 => (by injection h with h; linarith), fun _ _ _ => (hR .nan false).1,
          fun _ h => (by cases h), fun h => (by cases h)⟩
      · by_cases hl : a < 2 ^ (eb + fb + 1)
        · obtain ⟨b, hb⟩ := exists_root heb hl ha hx
          exact ⟨b, fun _ y h _ => (by injection h with h; subst h; exact hb), fun y h h0 => (by injection h with h; linarith),
            fun _ h => (by cases h), fun h => (by cases h)⟩
        · exact ⟨0, fun h => absurd h hl, fun y h h0 => (by injection h with h; linarith), fun _ h => (by cases h), fun h => (by cases h)⟩
  choose rt hrt using rootE
  refine ⟨{ add := fun a b => R ((ieee eb fb a).plus (ieee eb fb b)) (signBit eb fb a && signBit eb fb b)
            sub := fun a b => R ((ieee eb fb a).plus (ieee eb fb b).neg) (signBit eb fb a && !signBit eb fb b)
            mul := fun a b => R ((ieee eb fb a).times (ieee eb fb b)) (signBit eb fb a ^^ signBit eb fb b)
            div := fun a b => R (quotientOf eb fb a b) (signBit eb fb a ^^ signBit eb fb b)
            mulAdd := fun a b c => R (((ieee eb fb a).times (ieee eb fb b)).plus (ieee eb fb c))
              ((signBit eb fb a ^^ signBit eb fb b) && signBit eb fb c)
            rem := rm
            sqrt := rt
            eq := fun a b => decide ((ieee eb fb a).Same (ieee eb fb b))
            lt := fun a b => decide ((ieee eb fb a).Below (ieee eb fb b))
            le := fun a b => decide ((ieee eb fb a).Below (ieee eb fb b) ∨ (ieee eb fb a).Same (ieee eb fb b))
            ui32 := fun n => R (.num n) false
            i32 := fun n => R (.num n) false }, ?_⟩
  exact
    { add := fun _ _ => hR _ _
      sub := fun _ _ => hR _ _
      mul := fun _ _ => hR _ _
      div := fun _ _ => hR _ _
      mulAdd := fun _ _ _ => hR _ _
      rem := fun _ _ hx hy h0 => (hrm _ _).1 _ _ hx hy h0
      rem_nan := fun _ _ h => (hrm _ _).2.1 h
      rem_inf := fun _ _ hx hs => (hrm _ _).2.2 _ _ hx hs
      sqrt := fun ha hx h0 => (hrt _).1 ha _ hx h0
      sqrt_neg := fun _ hx h0 => (hrt _).2.1 _ hx h0
      sqrt_inf := fun _ hs => (hrt _).2.2.1 _ hs
      sqrt_nan := fun _ hs => (hrt _).2.2.2 hs
      eq := fun _ _ => decide_eq_true_iff
      lt := fun _ _ => decide_eq_true_iff
      le := fun _ _ => decide_eq_true_iff
      ui32 := fun _ => hR _ _
      i32 := fun _ _ => hR _ _ }

/-- the numbers of a format are multiples of its least one -/
theorem num_multiple {a : ℕ} {x : ℚ} (h : ieee eb fb a = .num x) : ∃ n : ℤ, x = n * 2 ^ ((2 : ℤ) - 2 ^ (eb - 1) - fb) := by
  obtain ⟨n, A, -, hx, hA, -⟩ := ieee_int h
  obtain ⟨i, hi⟩ : ∃ i : ℕ, A = (2 : ℤ) - 2 ^ (eb - 1) - fb + i := ⟨(A - ((2 : ℤ) - 2 ^ (eb - 1) - fb)).toNat, by omega⟩
  refine ⟨n * 2 ^ i, ?_⟩
  rw [hx, hi, zpow_add₀ (by norm_num), zpow_natCast]; push_cast; ring

/-- multiples of the least number below the normal numbers are numbers of the format -/
theorem small_exact (heb : 2 ≤ eb) {x : ℚ} {n : ℤ} (hx : x = n * 2 ^ ((2 : ℤ) - 2 ^ (eb - 1) - fb)) (h : |x| < minNorm eb) :
    ∃ c, ieee eb fb c = .num x := by
  have hp : (0 : ℚ) < 2 ^ ((2 : ℤ) - 2 ^ (eb - 1) - fb) := by positivity
  have hn : |n| < 2 ^ fb := by
    have e : minNorm eb = 2 ^ fb * 2 ^ ((2 : ℤ) - 2 ^ (eb - 1) - fb) := by
      unfold minNorm; rw [← zpow_natCast, ← zpow_add₀ (by norm_num)]; congr 1; ring
    rw [hx, abs_mul, abs_of_pos hp, e] at h
    have := lt_of_mul_lt_mul_right h hp.le
    rw [← Int.cast_abs] at this
    exact_mod_cast this
  rw [hx]
  refine ieee_of_int heb (hn.trans_le (pow_le_pow_right₀ (by norm_num) (by omega))) le_rfl ?_
  rw [← hx]
  refine h.trans_le ?_
  unfold minNorm
  refine zpow_le_zpow_right₀ (by norm_num) ?_
  have : (2 : ℤ) ^ 1 ≤ 2 ^ (eb - 1) := pow_le_pow_right₀ (by norm_num) (by omega)
  omega

/-- rounded sums of numbers have a small relative error whatever their size -/
theorem sum_error (heb : 2 ≤ eb) (hfb : 1 ≤ fb) {a b c : ℕ} {x y : ℚ} (hx : ieee eb fb a = .num x) (hy : ieee eb fb b = .num y)
    (h : IsNearestEven eb fb (x + y) c) (hlt : |x + y| < overflowAt eb fb) :
    ∃ z, ieee eb fb c = .num z ∧ |z - (x + y)| ≤ |x + y| / 2 ^ (fb + 1) := by
  obtain ⟨z, hz, h1, -⟩ := nearest_error heb hfb h hlt
  rcases le_or_gt (minNorm eb) |x + y| with hm | hm
  · exact ⟨z, hz, h1 hm⟩
  · obtain ⟨n, hn⟩ := num_multiple hx
    obtain ⟨m, hm'⟩ := num_multiple hy
    obtain ⟨d, hd⟩ := small_exact (fb := fb) heb (x := x + y) (n := n + m) (by rw [hn, hm']; push_cast; ring) hm
    refine ⟨x + y, nearest_exact heb h hd, ?_⟩
    rw [sub_self, abs_zero]; positivity

/-- a nonzero sum is not rounded to zero -/
theorem sum_ne_zero (heb : 2 ≤ eb) (hfb : 1 ≤ fb) {a b c : ℕ} {x y : ℚ} (hx : ieee eb fb a = .num x) (hy : ieee eb fb b = .num y)
    (h : IsNearestEven eb fb (x + y) c) : ieee eb fb c = .num 0 ↔ x + y = 0 := by
  constructor
  · intro h0
    rcases lt_or_ge |x + y| (overflowAt eb fb) with hlt | hge
    · obtain ⟨z, hz, h1⟩ := sum_error heb hfb hx hy h hlt
      rw [h0] at hz
      injection hz with hz
      rw [← hz, zero_sub, abs_neg] at h1
      by_contra hc
      have hp := abs_pos.mpr hc
      have : |x + y| / 2 ^ (fb + 1) < |x + y| := div_lt_self hp (one_lt_pow₀ (by norm_num) (by omega))
      linarith
    · rw [h.2.2.1 hge] at h0; cases h0
  · intro h0
    rw [h0] at h
    exact nearest_exact heb h (ieee_zero' heb)

/-- differences of numbers within a factor of two of each other are numbers of the format -/
theorem sterbenz (heb : 2 ≤ eb) {a b : ℕ} {x y : ℚ} (hx : ieee eb fb a = .num x) (hy : ieee eb fb b = .num y)
    (h1 : y / 2 ≤ x) (h2 : x ≤ 2 * y) : ∃ c, ieee eb fb c = .num (x - y) := by
  have hy0 : 0 ≤ y := by linarith
  have hx0 : 0 ≤ x := by linarith
  have b1 : |x - y| ≤ |x| := by rw [abs_of_nonneg hx0, abs_le]; constructor <;> linarith
  have b2 : |x - y| ≤ |y| := by rw [abs_of_nonneg hy0, abs_le]; constructor <;> linarith
  obtain ⟨n, A, hn, hx', hA, -⟩ := ieee_int hx
  obtain ⟨m, B, hm, hy', hB, -⟩ := ieee_int hy
  have hmax : |x - y| < 2 ^ ((2 : ℤ) ^ (eb - 1)) := lt_of_le_of_lt b1 (lt_of_le_of_lt (ieee_le_maxFin heb hx) maxFin_lt)
  have key : ∀ (t T M : ℤ) , x - y = t * 2 ^ T → (2 : ℤ) - 2 ^ (eb - 1) - fb ≤ T → |x - y| ≤ |(M : ℚ) * 2 ^ T| → |M| < 2 ^ (fb + 1) →
      ∃ g, ieee eb fb g = .num (x - y) := by
    intro t T M ht hT hle hM
    have hp : (0 : ℚ) < 2 ^ T := by positivity
    rw [ht] at hmax hle ⊢
    refine ieee_of_int heb ?_ hT hmax
    rw [abs_mul, abs_mul, abs_of_pos hp] at hle
    have := le_of_mul_le_mul_right hle hp
    rw [← Int.cast_abs, ← Int.cast_abs] at this
    have h6 : |t| ≤ |M| := by exact_mod_cast this
    exact lt_of_le_of_lt h6 hM
  rcases le_total A B with hAB | hAB
  · obtain ⟨i, rfl⟩ : ∃ i : ℕ, B = A + i := ⟨(B - A).toNat, by omega⟩
    refine key (n - m * 2 ^ i) A n ?_ hA (by rw [← hx']; exact b1) hn
    rw [hx', hy', zpow_add₀ (by norm_num), zpow_natCast]; push_cast; ring
  · obtain ⟨i, rfl⟩ : ∃ i : ℕ, A = B + i := ⟨(A - B).toNat, by omega⟩
    refine key (n * 2 ^ i - m) B m ?_ hB (by rw [← hy']; exact b2) hm
    rw [hx', hy', zpow_add₀ (by norm_num), zpow_natCast]; push_cast; ring

/-- integers of at most `fb + 1` bits are numbers of the format -/
theorem int_exact (heb : 2 ≤ eb) (hbig : (fb : ℤ) + 2 ≤ 2 ^ (eb - 1)) {n : ℤ} (hn : |n| ≤ 2 ^ (fb + 1)) : ∃ c, ieee eb fb c = .num n := by
  have hlt : ∀ m : ℤ, ∀ e : ℤ, |m| < 2 ^ (fb + 1) → 0 ≤ e → e ≤ 1 → ∃ c, ieee eb fb c = .num ((m : ℚ) * 2 ^ e) := by
    intro m e hm he0 he1
    refine ieee_of_int heb hm ?_ ?_
    · have : (2 : ℤ) ^ 1 ≤ 2 ^ (eb - 1) := pow_le_pow_right₀ (by norm_num) (by omega)
      omega
    · have hp : (0 : ℚ) < 2 ^ e := by positivity
      rw [abs_mul, abs_of_pos hp, ← Int.cast_abs]
      have : ((|m| : ℤ) : ℚ) < 2 ^ (fb + 1) := by exact_mod_cast hm
      calc ((|m| : ℤ) : ℚ) * 2 ^ e < 2 ^ (fb + 1) * 2 ^ e := by gcongr
        _ = 2 ^ (((fb : ℤ) + 1) + e) := by rw [zpow_add₀ (by norm_num)]; norm_cast
        _ ≤ _ := zpow_le_zpow_right₀ (by norm_num) (by omega)
  rcases lt_or_eq_of_le hn with h | h
  · have := hlt n 0 h le_rfl (by norm_num)
    rwa [zpow_zero, mul_one] at this
  · rcases abs_eq (by positivity : (0 : ℤ) ≤ 2 ^ (fb + 1)) |>.mp h with rfl | rfl
    · obtain ⟨c, hc⟩ := hlt (2 ^ fb) 1 (by rw [abs_of_nonneg (by positivity), pow_succ]; have : (0 : ℤ) < 2 ^ fb := by positivity
                                           omega) (by norm_num) le_rfl
      exact ⟨c, by rw [hc]; congr 1; push_cast; rw [pow_succ]⟩
    · obtain ⟨c, hc⟩ := hlt (-2 ^ fb) 1 (by rw [abs_neg, abs_of_nonneg (by positivity), pow_succ]; have : (0 : ℤ) < 2 ^ fb := by positivity
                                            omega) (by norm_num) le_rfl
      exact ⟨c, by rw [hc]; congr 1; push_cast; rw [pow_succ]; ring⟩

/-- halving a normal number lowers its exponent field -/
theorem g_half {k : ℕ} (h : 2 * 2 ^ fb ≤ k) : g eb fb (k - 2 ^ fb) = g eb fb k / 2 := by
  have hB : 0 < 2 ^ fb := by positivity
  obtain ⟨E, i, hE, hi, rfl⟩ : ∃ E i, 2 ≤ E ∧ i < 2 ^ fb ∧ k = E * 2 ^ fb + i :=
    ⟨k / 2 ^ fb, k % 2 ^ fb, (Nat.le_div_iff_mul_le hB).2 h, Nat.mod_lt _ hB, (Nat.div_add_mod' _ _).symm⟩
  have e : E * 2 ^ fb + i - 2 ^ fb = (E - 1) * 2 ^ fb + i := by
    obtain ⟨D, rfl⟩ : ∃ D, E = D + 1 := ⟨E - 1, by omega⟩
    rw [add_mul, one_mul, Nat.add_sub_cancel]; omega
  rw [e, g_norm _ _ (by omega) hi.le, g_norm _ _ (by omega) hi.le, Nat.cast_sub (by omega),
    show (E : ℤ) - (2 ^ (eb - 1) - 1) - fb = ((E : ℤ) - (1 : ℕ) - (2 ^ (eb - 1) - 1) - fb) + 1 by push_cast; ring,
    zpow_add_one₀ (by norm_num)]
  ring

/-- halves of normal numbers above the least are exact -/
theorem half_exact (heb : 2 ≤ eb) {a c : ℕ} {x : ℚ} {s : Bool} (ha : a < 2 ^ (eb + fb + 1)) (hx : ieee eb fb a = .num x)
    (h2 : 2 * minNorm eb ≤ |x|) (hc : RoundedAs eb fb (.num (x / 2)) s c) : c = a - 2 ^ fb ∧ ieee eb fb c = .num (x / 2) := by
  obtain ⟨t, k, ht, hk, rfl⟩ := split_word ha
  have hkt : k < top eb fb := by
    by_contra hn
    rw [ieee_gen _ _ ht hk, if_neg hn] at hx
    split at hx <;> cases hx
  have hx0 := hx
  rw [ieee_gen _ _ ht hk, if_pos hkt] at hx
  injection hx with hx
  have gk := g_nonneg (eb := eb) (fb := fb) k
  have hax : |x| = g eb fb k := by
    rw [← hx, abs_mul, abs_of_nonneg gk]
    split <;> simp
  have hk2 : 2 * 2 ^ fb ≤ k := by
    have e : 2 * minNorm eb = g eb fb (2 * 2 ^ fb) := by
      rw [← minNorm_eq (fb := fb)]
      have := g_half (eb := eb) (fb := fb) (k := 2 * 2 ^ fb) le_rfl
      rw [show 2 * 2 ^ fb - 2 ^ fb = 2 ^ fb by omega] at this
      rw [this]; ring
    rw [e, hax] at h2
    exact g_mono.le_iff_le.1 h2
  have hv : ieee eb fb (t * 2 ^ (eb + fb) + k - 2 ^ fb) = .num (x / 2) := by
    rw [Nat.add_sub_assoc (by omega), ieee_gen _ _ ht (by omega), if_pos (by omega), g_half hk2, ← hx]
    congr 1; ring
  have hcv := nearest_exact heb hc.1 hv
  refine ⟨?_, hcv⟩
  have hp : x ≠ 0 := by
    rintro rfl
    rw [abs_zero] at h2
    have : (0 : ℚ) < minNorm eb := by unfold minNorm; positivity
    linarith
  have hlt : t * 2 ^ (eb + fb) + k - 2 ^ fb < 2 ^ (eb + fb + 1) := by omega
  refine ieee_inj hc.1.1 hlt (hcv.trans hv.symm) (by rw [hcv]; simp) ?_
  have h0 : x / 2 ≠ 0 := by intro h; exact hp (by linarith)
  rw [signBit_num hc.1.1 hcv h0, signBit_num hlt hv h0]

/-- the numbers of a format around a real number -/
theorem exists_between_real (heb : 2 ≤ eb) {v : ℝ} (h0 : 0 ≤ v) (h1 : v < ((2 ^ ((2 : ℤ) ^ (eb - 1)) : ℚ) : ℝ)) :
    ∃ j, j + 1 ≤ top eb fb ∧ ((g eb fb j : ℚ) : ℝ) ≤ v ∧ v < ((g eb fb (j + 1) : ℚ) : ℝ) := by
  classical
  have hp := top_pos (fb := fb) heb
  have ht : v < ((g eb fb (top eb fb - 1 + 1) : ℚ) : ℝ) := by
    rw [show top eb fb - 1 + 1 = top eb fb by omega, g_top heb]; exact h1
  have hex : ∃ j, v < ((g eb fb (j + 1) : ℚ) : ℝ) := ⟨_, ht⟩
  refine ⟨Nat.find hex, ?_, ?_, Nat.find_spec hex⟩
  · have : Nat.find hex ≤ top eb fb - 1 := Nat.find_min' hex ht
    omega
  · rcases Nat.eq_zero_or_pos (Nat.find hex) with h | h
    · rw [h, g_zero]; simpa using h0
    · have := Nat.find_min hex (Nat.sub_lt h Nat.one_pos)
      rw [show Nat.find hex - 1 + 1 = Nat.find hex by omega] at this
      linarith

/-- numbers of the format from magnitude bits -/
theorem ieee_mag {k : ℕ} (hk : k < top eb fb) : ieee eb fb k = .num (g eb fb k) := by
  have := ieee_gen (eb := eb) (fb := fb) 0 k (by norm_num) (hk.trans top_lt)
  rw [zero_mul, zero_add, if_pos hk] at this
  simpa using this

/-- the error of rounding a real number in the normal range -/
theorem nearestReal_error (heb : 2 ≤ eb) {r : ℝ} {b : ℕ} (h : NearestReal eb fb r b) (h1 : ((minNorm eb : ℚ) : ℝ) ≤ r)
    (h2 : r ≤ ((maxFin eb fb : ℚ) : ℝ)) : ∃ y : ℚ, ieee eb fb b = .num y ∧ |(y : ℝ) - r| ≤ r / 2 ^ (fb + 1) := by
  obtain ⟨y, hy, hall⟩ := h
  refine ⟨y, hy, ?_⟩
  have hm0 : (0 : ℝ) < ((minNorm eb : ℚ) : ℝ) := by
    have : (0 : ℚ) < minNorm eb := by unfold minNorm; positivity
    exact_mod_cast this
  have hr0 : 0 < r := by linarith
  have hlt : r < ((2 ^ ((2 : ℤ) ^ (eb - 1)) : ℚ) : ℝ) := by
    refine h2.trans_lt ?_
    exact_mod_cast maxFin_lt (eb := eb) (fb := fb)
  obtain ⟨j, hj, hj1, hj2⟩ := exists_between_real (fb := fb) heb hr0.le hlt
  have d1 := hall j _ (ieee_mag (by omega))
  have hjB : 2 ^ fb ≤ j := by
    by_contra hc
    have : g eb fb (j + 1) ≤ g eb fb (2 ^ fb) := g_mono.monotone (by omega)
    rw [minNorm_eq] at this
    have : ((g eb fb (j + 1) : ℚ) : ℝ) ≤ ((minNorm eb : ℚ) : ℝ) := by exact_mod_cast this
    linarith
  have hg := gap_norm (eb := eb) hjB
  have hg' : ((g eb fb (j + 1) : ℚ) : ℝ) - ((g eb fb j : ℚ) : ℝ) ≤ ((g eb fb j : ℚ) : ℝ) / 2 ^ fb := by exact_mod_cast hg
  have hle : ((g eb fb j : ℚ) : ℝ) / 2 ^ fb ≤ r / 2 ^ fb := by gcongr
  rw [abs_of_nonneg (show 0 ≤ r - ((g eb fb j : ℚ) : ℝ) by linarith)] at d1
  rw [abs_sub_comm, pow_succ, ← div_div]
  rcases Nat.lt_or_ge (j + 1) (top eb fb) with hjt | hjt
  · have d2 := hall (j + 1) _ (ieee_mag hjt)
    rw [abs_of_nonpos (show r - ((g eb fb (j + 1) : ℚ) : ℝ) ≤ 0 by linarith)] at d2
    linarith
  · have e : g eb fb j = maxFin eb fb := by rw [← g_top' heb]; congr 1; omega
    rw [e] at hj1 d1
    have : r - ((maxFin eb fb : ℚ) : ℝ) = 0 := by linarith
    rw [this] at d1
    have : (0 : ℝ) ≤ r / 2 ^ fb / 2 := by positivity
    linarith

end NearGen
end Verif

namespace Verif
namespace NearGen

variable {eb fb : ℕ} {o : SoftOps} {a b c : ℕ}

/-- integers as constructor arguments -/
theorem ofInt_exact (heb : 2 ≤ eb) (hbig : (fb : ℤ) + 2 ≤ 2 ^ (eb - 1)) (ho : o.Correct eb fb) {n : ℤ} (h1 : -2 ^ 31 ≤ n) (h2 : n < 2 ^ 31)
    (hn : |n| ≤ 2 ^ (fb + 1)) : ieee eb fb (o.i32 n) = .num n ∧ o.i32 n < 2 ^ (eb + fb + 1) := by
  have := ho.i32 h1 h2
  obtain ⟨c, hc⟩ := int_exact (fb := fb) heb hbig hn
  exact ⟨nearest_exact heb this.1 hc, this.1.1⟩

theorem over_two (X : XNum) : X.over (.num 2) = X.times (.num (1 / 2)) := by
  cases X with
  | num x => simp only [XNum.over, XNum.times]; rw [if_neg (by norm_num)]; congr 1; ring
  | inf s => simp only [XNum.over, XNum.times]; rw [if_neg (by norm_num)]; congr 2; norm_num
  | nan => rfl

theorem quotient_of_num {y : ℚ} (hb : ieee eb fb b = .num y) (h0 : y ≠ 0) : quotientOf eb fb a b = (ieee eb fb a).over (.num y) := by
  unfold quotientOf
  rw [if_neg, hb]
  rintro rfl
  have := ieee_gen (eb := eb) (fb := fb) 1 0 (by norm_num) (by positivity)
  rw [one_mul, add_zero, hb, g_zero, mul_zero] at this
  split at this
  · injection this with this; exact h0 this
  · split at this <;> cases this

/-- half of an operand -/
theorem half_rounded (heb : 2 ≤ eb) (hfb : 1 ≤ fb) (hbig : (fb : ℤ) + 2 ≤ 2 ^ (eb - 1)) (ho : o.Correct eb fb) (ha : a < 2 ^ (eb + fb + 1)) :
    RoundedAs eb fb ((ieee eb fb a).times (.num (1 / 2))) (signBit eb fb a) (o.div a (o.i32 2)) := by
  have h4 : (4 : ℤ) ≤ 2 ^ (fb + 1) := by
    calc (4 : ℤ) = 2 ^ 2 := by norm_num
      _ ≤ _ := pow_le_pow_right₀ (by norm_num) (by omega)
  obtain ⟨h2, hlt⟩ := ofInt_exact heb hbig ho (n := 2) (by norm_num) (by norm_num) (by rw [abs_of_nonneg (by norm_num)]; omega)
  have h2' : ieee eb fb (o.i32 2) = .num 2 := by rw [h2]; norm_num
  have := ho.div ha hlt
  rw [quotient_of_num h2' (by norm_num), over_two, signBit_num hlt h2' (by norm_num), decide_eq_false (by norm_num), Bool.xor_false] at this
  exact this

/-- the sign of a square -/
theorem square_sign (heb : 2 ≤ eb) (hfb : 1 ≤ fb) (ho : o.Correct eb fb) (ha : a < 2 ^ (eb + fb + 1)) (hn : ieee eb fb a ≠ .nan) :
    signBit eb fb (o.mul a a) = false := by
  have h := ho.mul ha ha
  rw [Bool.xor_self] at h
  cases hx : ieee eb fb a with
  | nan => exact absurd hx hn
  | inf s =>
    rw [hx] at h
    simp only [XNum.times, Bool.xor_self] at h
    exact signBit_inf h.1.1 h.1.2
  | num x =>
    rw [hx] at h
    simp only [XNum.times] at h
    by_cases h0 : x * x = 0
    · exact h.2 (by rw [h0])
    · have := h.1.2.1 h0
      unfold signBit
      have hx2 : ¬ x * x < 0 := not_lt.mpr (mul_self_nonneg x)
      have hd : o.mul a a / 2 ^ (eb + fb) < 2 := by
        rw [Nat.div_lt_iff_lt_mul (by positivity), mul_comm, ← pow_succ]; exact h.1.1
      rw [Nat.mod_eq_of_lt hd]
      exact decide_eq_false (fun hc => hx2 (this.1 hc))

theorem plus_comm (X Y : XNum) : X.plus Y = Y.plus X := by
  cases X <;> cases Y <;> simp only [XNum.plus]
  · rw [add_comm]
  · rename_i s t; by_cases h : s = t
    · subst h; rfl
    · rw [if_neg h, if_neg (Ne.symm h)]

theorem times_comm (X Y : XNum) : X.times Y = Y.times X := by
  cases X <;> cases Y <;> simp only [XNum.times]
  · rw [mul_comm]
  · rw [Bool.xor_comm]

theorem times_neg (X Y : XNum) : X.neg.times Y = (X.times Y).neg := by
  cases X <;> cases Y <;> simp only [XNum.times, XNum.neg]
  · rw [neg_mul]
  · rename_i x s
    by_cases h : x = 0
    · rw [if_pos h, if_pos (by rw [h, neg_zero])]
    · rw [if_neg h, if_neg (neg_ne_zero.mpr h)]
      simp only
      congr 1
      rcases lt_or_gt_of_ne h with h1 | h1
      · simp [h1, not_lt.mpr h1.le]
      · simp [h1, not_lt.mpr h1.le]
  · rename_i s y
    by_cases h : y = 0
    · rw [if_pos h, if_pos h]
    · rw [if_neg h, if_neg h]; simp
  · simp

theorem plus_neg (X Y : XNum) : X.neg.plus Y.neg = (X.plus Y).neg := by
  cases X <;> cases Y <;> simp only [XNum.plus, XNum.neg]
  · congr 1; ring
  · rename_i s t; by_cases h : s = t
    · subst h; simp
    · have : (!s) ≠ !t := by simpa using h
      rw [if_neg h, if_neg this]

theorem neg_neg' (X : XNum) : X.neg.neg = X := by
  cases X <;> simp [XNum.neg]

theorem neg_nan {X : XNum} : X.neg = .nan ↔ X = .nan := by
  cases X <;> simp [XNum.neg]

/-- not NaN: comparable -/
theorem below_total {X Y : XNum} (hX : X ≠ .nan) (hY : Y ≠ .nan) : (X.Below Y ∨ X.Same Y) ↔ ¬ Y.Below X := by
  cases X with
  | nan => exact absurd rfl hX
  | num x =>
    cases Y with
    | nan => exact absurd rfl hY
    | num y => simp only [XNum.Below, XNum.Same, not_lt]; exact le_iff_lt_or_eq.symm
    | inf t => cases t <;> simp [XNum.Below, XNum.Same]
  | inf s =>
    cases Y with
    | nan => exact absurd rfl hY
    | num y => cases s <;> simp [XNum.Below, XNum.Same]
    | inf t => cases s <;> cases t <;> simp [XNum.Below, XNum.Same]

theorem nearest_not_nan {x : ℚ} (h : IsNearestEven eb fb x b) : ieee eb fb b ≠ .nan := by
  intro hc
  rcases lt_or_ge |x| (overflowAt eb fb) with h1 | h1
  · obtain ⟨y, hy, -⟩ := h.2.2.2 h1
    rw [hc] at hy; cases hy
  · rw [h.2.2.1 h1] at hc; cases hc

/-- order of rounded results -/
theorem rounded_le (heb : 2 ≤ eb) (hfb : 1 ≤ fb) (ho : o.Correct eb fb) {x y : ℚ} (hx : IsNearestEven eb fb x a)
    (hy : IsNearestEven eb fb y b) (h : x ≤ y) : o.le a b = true := by
  rw [ho.le hx.1 hy.1, below_total (nearest_not_nan hx) (nearest_not_nan hy)]
  exact nearest_mono heb hfb hx hy h

theorem le_num (ho : o.Correct eb fb) (ha : a < 2 ^ (eb + fb + 1)) (hb : b < 2 ^ (eb + fb + 1)) {x y : ℚ} (hx : ieee eb fb a = .num x)
    (hy : ieee eb fb b = .num y) : o.le a b = true ↔ x ≤ y := by
  rw [ho.le ha hb, hx, hy]
  simp only [XNum.Below, XNum.Same]
  exact le_iff_lt_or_eq.symm

/-- numbers of a narrower format are numbers of a wider one -/
theorem widen_num {eb' fb' : ℕ} (heb : 2 ≤ eb) (hee : eb ≤ eb') (hff : fb ≤ fb') {x : ℚ} (hx : ieee eb fb a = .num x) :
    ∃ c, ieee eb' fb' c = .num x := by
  obtain ⟨n, A, hn, hx', hA, -⟩ := ieee_int hx
  have hmax := lt_of_le_of_lt (ieee_le_maxFin heb hx) maxFin_lt
  have h2 : (2 : ℤ) ^ (eb - 1) ≤ 2 ^ (eb' - 1) := pow_le_pow_right₀ (by norm_num) (by omega)
  rw [hx'] at hmax ⊢
  refine ieee_of_int (by omega) (hn.trans_le (pow_le_pow_right₀ (by norm_num) (by omega))) (by omega)
    (hmax.trans_le (zpow_le_zpow_right₀ (by norm_num) h2))

/-- widening is exact -/
theorem widen_exact {eb' fb' : ℕ} {f : ℕ → ℕ} (heb : 2 ≤ eb) (hee : eb ≤ eb') (hff : fb ≤ fb') (hf : Converts eb fb eb' fb' f)
    (ha : a < 2 ^ (eb + fb + 1)) : ieee eb' fb' (f a) = ieee eb fb a ∧ f a < 2 ^ (eb' + fb' + 1) ∧
      (ieee eb fb a ≠ .nan → signBit eb' fb' (f a) = signBit eb fb a) := by
  have h := hf ha
  have hlt := rounded_lt h.1
  have hv : ieee eb' fb' (f a) = ieee eb fb a := by
    cases hx : ieee eb fb a with
    | nan => rw [hx] at h; exact h.1.2
    | inf s => rw [hx] at h; exact h.1.2
    | num x =>
      rw [hx] at h
      obtain ⟨c, hc⟩ := widen_num heb hee hff hx
      exact nearest_exact (by omega) h.1 hc
  refine ⟨hv, hlt, fun hn => ?_⟩
  cases hx : ieee eb fb a with
  | nan => exact absurd hx hn
  | inf s => rw [signBit_inf ha hx, signBit_inf hlt (hv.trans hx)]
  | num x =>
    by_cases h0 : x = 0
    · exact h.2 (by rw [hx, h0])
    · rw [signBit_num ha hx h0, signBit_num hlt (hv.trans hx) h0]

/-- narrowing what was widened gives it back -/
theorem narrow_widen {eb' fb' : ℕ} {f k : ℕ → ℕ} (heb : 2 ≤ eb) (hfb : 1 ≤ fb) (hee : eb ≤ eb') (hff : fb ≤ fb')
    (hf : Converts eb fb eb' fb' f) (hk : Converts eb' fb' eb fb k) (ha : a < 2 ^ (eb + fb + 1)) :
    ieee eb fb (k (f a)) = ieee eb fb a ∧ (ieee eb fb a ≠ .nan → k (f a) = a) := by
  obtain ⟨hv, hlt, hs⟩ := widen_exact heb hee hff hf ha
  have h := hk hlt
  rw [hv] at h
  by_cases hn : ieee eb fb a = .nan
  · refine ⟨?_, fun h => absurd hn h⟩
    rw [hn] at h ⊢; exact h.1.2
  · rw [hs hn] at h
    have : RoundedAs eb fb (ieee eb fb a) (signBit eb fb a) a := by
      refine ⟨?_, fun _ => rfl⟩
      cases hx : ieee eb fb a with
      | nan => exact absurd hx hn
      | inf s => exact ⟨ha, hx⟩
      | num x =>
        refine ⟨ha, fun h0 => ?_, fun hc => ?_, fun _ => ⟨x, hx, fun g z _ => ⟨by simp, fun h1 => ?_⟩⟩⟩
        · have := signBit_num ha hx h0
          have hd : a / 2 ^ (eb + fb) < 2 := by rw [Nat.div_lt_iff_lt_mul (by positivity), mul_comm, ← pow_succ]; exact ha
          unfold signBit at this
          rw [Nat.mod_eq_of_lt hd, decide_eq_decide] at this
          exact this
        · have := lt_of_le_of_lt (ieee_le_maxFin heb hx) maxFin_lt_overflowAt
          linarith
        · left
          rw [sub_self, abs_zero] at h1
          have := abs_eq_zero.mp h1.symm
          linarith
    have e := rounded_unique heb hfb hn h this
    exact ⟨by rw [e], fun _ => e⟩

theorem times_one (X : XNum) : X.times (.num 1) = X := by
  cases X with
  | num x => simp [XNum.times]
  | inf s => simp only [XNum.times]; rw [if_neg (by norm_num), decide_eq_false (by norm_num), Bool.xor_false]
  | nan => rfl

theorem sub_eq_zero' {X Y : XNum} (h : X.plus Y.neg = .num 0) : X = Y := by
  cases X with
  | nan => cases Y <;> cases h
  | num x =>
    cases Y with
    | num y =>
      simp only [XNum.plus, XNum.neg] at h
      injection h with h
      congr 1; linarith
    | inf t => cases h
    | nan => cases h
  | inf s =>
    cases Y with
    | num y => cases h
    | inf t =>
      simp only [XNum.plus, XNum.neg] at h
      by_cases hc : s = !t
      · rw [if_pos hc] at h; cases h
      · rw [if_neg hc] at h; cases h
    | nan => cases h

end NearGen
end Verif
