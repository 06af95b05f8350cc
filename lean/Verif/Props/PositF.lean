import Verif.Lemmas.PositF
import Verif.Props.Arith
import Verif.Props.Special
import Verif.Props.Algebra
import Mathlib.Data.Finset.Max

/-!
# C54: posits that compute with native floats (`PositF`, include/positf.h)

`FloatFor c t` (Lemmas/PositF.lean): `t` is `float` or `double`, the configuration is well formed and at least two bits
narrower than the promoted holder, the exponent type has at least 16 bits, and every real posit is a normal number of `t`.
The native operations are any that round correctly (`FloatOps.Correct`), in whichever rounding mode.
-/

namespace Verif
open Fmt

variable {c : Cfg} {t : FTrait} {o : FloatOps}

/-- a configuration of `PositF<int16_t,12,1,float>` -/
theorem floatFor_P12 : FloatFor ⟨16, 12, 1, 32, .withNan⟩ .single :=
  ⟨Or.inl rfl, by decide, by decide, by decide, by decide, by decide, by decide⟩

/-- a configuration of `PositF<int8_t,8,0,double>` -/
theorem floatFor_P8 : FloatFor ⟨8, 8, 0, 64, .withNan⟩ .double :=
  ⟨Or.inr rfl, by decide, by decide, by decide, by decide, by decide, by decide⟩

/-! ## the assumption on the native arithmetic can be met -/

theorem ieee_mod (eb fb g : ℕ) : ieee eb fb (g % 2 ^ (eb + fb + 1)) = ieee eb fb g := by
  have e1 : g % 2 ^ (eb + fb + 1) / 2 ^ (eb + fb) % 2 = g / 2 ^ (eb + fb) % 2 := by
    rw [pow_succ, Nat.mod_mul_right_div_self, Nat.mod_mod]
  have e2 : g % 2 ^ (eb + fb + 1) / 2 ^ fb % 2 ^ eb = g / 2 ^ fb % 2 ^ eb := by
    rw [show 2 ^ (eb + fb + 1) = 2 ^ fb * (2 ^ eb * 2) by rw [pow_succ, pow_add]; ring, Nat.mod_mul_right_div_self,
      Nat.mod_mul_right_mod]
  have e3 : g % 2 ^ (eb + fb + 1) % 2 ^ fb = g % 2 ^ fb := by
    rw [show 2 ^ (eb + fb + 1) = 2 ^ fb * (2 ^ eb * 2) by rw [pow_succ, pow_add]; ring, Nat.mod_mul_right_mod]
  unfold ieee
  rw [e1, e2, e3]

/-- every number of the float range has a correct rounding -/
theorem exists_rounded {eb fb : ℕ} (heb : 2 ≤ eb) (hfb : 1 ≤ fb) {x : ℚ} (hx : |x| ≤ maxFin eb fb) :
    ∃ b, IsRounded eb fb x b := by
  classical
  obtain ⟨_, _, _, _, hlow, _⟩ := C51_constants (dn := true) heb hfb
  let val : ℕ → ℚ := fun g => match ieee eb fb g with | .num z => z | _ => 0
  have hval : ∀ {g z}, ieee eb fb g = .num z → val g = z := by intro g z hg; simp only [val, hg]
  let S := (Finset.range (2 ^ (eb + fb + 1))).filter fun g => (∃ z, ieee eb fb g = .num z) ∧ val g ≤ x
  have hS : ∀ {g z}, ieee eb fb g = .num z → z ≤ x → g % 2 ^ (eb + fb + 1) ∈ S := by
    intro g z hg hz
    have hg' : ieee eb fb (g % 2 ^ (eb + fb + 1)) = .num z := by rw [ieee_mod, hg]
    simp only [S, Finset.mem_filter, Finset.mem_range]
    exact ⟨Nat.mod_lt _ (by positivity), ⟨z, hg'⟩, by rw [hval hg']; exact hz⟩
  have hne : S.Nonempty := ⟨_, hS hlow (by
    have := (abs_le.mp hx).1; unfold maxFin at this; exact this)⟩
  obtain ⟨b, hb, hmax⟩ := S.exists_max_image val hne
  simp only [S, Finset.mem_filter] at hb
  obtain ⟨-, ⟨y, hy⟩, hle⟩ := hb
  rw [hval hy] at hle
  refine ⟨b, y, hy, fun g z hg => ⟨fun hz => ?_, fun hz => hle.trans hz⟩⟩
  have := hmax _ (hS hg hz)
  rwa [hval hy, hval ((ieee_mod eb fb g).trans hg)] at this

/-- there is a correctly rounding arithmetic: the hypothesis `FloatOps.Correct` of the theorems below is not vacuous -/
theorem floatOps_exists {eb fb : ℕ} (heb : 2 ≤ eb) (hfb : 1 ≤ fb) : ∃ o : FloatOps, o.Correct eb fb := by
  classical
  obtain ⟨_, _, _, _, _, hinf, _, hnan⟩ := C51_constants (dn := true) heb hfb
  have hr : ∀ x : ℚ, ∃ b, |x| ≤ maxFin eb fb → IsRounded eb fb x b := by
    intro x
    by_cases hx : |x| ≤ maxFin eb fb
    · obtain ⟨b, hb⟩ := exists_rounded heb hfb hx; exact ⟨b, fun _ => hb⟩
    · exact ⟨0, fun hc => absurd hc hx⟩
  choose r hr using hr
  let nan := (FTrait.any eb fb true).nan
  let inf := (FTrait.any eb fb true).pinf
  let lift : (ℚ → ℚ → ℕ) → ℕ → ℕ → ℕ := fun f a b =>
    match ieee eb fb a, ieee eb fb b with | .num x, .num y => f x y | _, _ => nan
  have hlift : ∀ {f a b x y}, ieee eb fb a = .num x → ieee eb fb b = .num y → lift f a b = f x y := by
    intro f a b x y h1 h2; simp only [lift, h1, h2]
  have hl : ∀ {f a b}, ieee eb fb a = .nan ∨ ieee eb fb b = .nan → lift f a b = nan := by
    intro f a b h
    rcases h with h | h
    · simp only [lift, h]
    · simp only [lift]
      cases ieee eb fb a <;> simp [h]
  refine ⟨⟨lift fun x y => r (x + y), lift fun x y => r (x * y),
    lift fun x y => if y = 0 then (if x = 0 then nan else inf) else r (x / y)⟩, ?_, ?_, ?_, ?_, ?_, ?_⟩
  · intro a b x y h1 h2 h3; show IsRounded _ _ _ (lift _ a b); rw [hlift h1 h2]; exact hr _ h3
  · intro a b x y h1 h2 h3; show IsRounded _ _ _ (lift _ a b); rw [hlift h1 h2]; exact hr _ h3
  · intro a b x y h1 h2 h0 h3; show IsRounded _ _ _ (lift _ a b); rw [hlift h1 h2, if_neg h0]; exact hr _ h3
  · intro a b x h1 h0 h2; refine ⟨false, ?_⟩; show ieee _ _ (lift _ a b) = _
    rw [hlift h1 h2, if_pos rfl, if_neg h0]; exact hinf
  · intro a b h1 h2; show ieee _ _ (lift _ a b) = _; rw [hlift h1 h2, if_pos rfl, if_pos rfl]; exact hnan
  · intro a b h
    refine ⟨?_, ?_, ?_⟩ <;> show ieee _ _ (lift _ a b) = _ <;> rw [hl h] <;> exact hnan

/-- every number of `float` is a number of `double` -/
theorem double_of_single {b : ℕ} {x : ℚ} (hb : ieee 8 23 b = .num x) : ∃ g, ieee 11 52 g = .num x := by
  by_cases h0 : x = 0
  · exact ⟨0, by rw [h0]; norm_num [ieee]⟩
  obtain ⟨hne, hx⟩ := ieee_num hb
  have hlt := fExp_lt 8 23 b
  have hm := fMan_lt 23 b
  have hle := ieee_le_maxFin (by norm_num) hb
  have hhi : |x| < 2 ^ ((2 : ℤ) ^ (11 - 1)) := by
    refine lt_of_le_of_lt hle ?_
    unfold maxFin
    calc (2 - 1 / 2 ^ 23 : ℚ) * 2 ^ ((2 : ℤ) ^ (8 - 1) - 1) ≤ 2 * 2 ^ ((2 : ℤ) ^ (8 - 1) - 1) :=
          mul_le_mul_of_nonneg_right (by norm_num) (by positivity)
      _ = 2 ^ (128 : ℤ) := by norm_num
      _ < _ := zpow_lt_zpow_right₀ (by norm_num) (by norm_num)
  obtain ⟨n, X, hn, hX, he⟩ : ∃ (n : ℕ) (X : ℤ), n < 2 ^ 24 ∧ -149 ≤ X ∧ |x| = n * 2 ^ X := by
    rcases hx with ⟨h1, h2⟩ | ⟨h1, h2⟩
    · exact ⟨fMan 23 b, _, by omega, by norm_num, (sub_abs h2).1⟩
    · refine ⟨2 ^ 23 + fMan 23 b, (fExp 8 23 b : ℤ) - (2 ^ (8 - 1) - 1) - (23 : ℕ), by omega, ?_, ?_⟩
      · norm_num; omega
      · have hp : ∀ (m : ℕ) (e : ℤ), (0 : ℚ) ≤ (2 ^ 23 + m) * 2 ^ e := fun m e =>
          mul_nonneg (add_nonneg (pow_nonneg (by norm_num) _) (Nat.cast_nonneg m)) (zpow_nonneg (by norm_num) e)
        rw [h2, abs_sign_mul _ (hp _ _), Nat.cast_add, Nat.cast_pow, Nat.cast_two]
  have hn1 : 1 ≤ n := by
    rcases Nat.eq_zero_or_pos n with h | h
    · rw [h] at he; simp at he; exact absurd he h0
    · exact h
  refine float_of_fits (by norm_num) ?_ ?_ hhi
  · rcases abs_choice x with hc | hc
    · refine ⟨n, X, ?_, by rw [← hc, he]; push_cast; rfl⟩
      rw [abs_of_nonneg (by positivity)]
      have : n < 2 ^ (52 + 1) := by omega
      exact_mod_cast this
    · refine ⟨-n, X, ?_, by rw [← neg_eq_iff_eq_neg.mpr hc, he]; push_cast; ring⟩
      rw [abs_neg, abs_of_nonneg (by positivity)]
      have : n < 2 ^ (52 + 1) := by omega
      exact_mod_cast this
  · rw [he]
    calc (2 : ℚ) ^ ((2 : ℤ) - 2 ^ (11 - 1)) ≤ 2 ^ X := zpow_le_zpow_right₀ (by norm_num) (by norm_num; omega)
      _ = 1 * 2 ^ X := (one_mul _).symm
      _ ≤ n * 2 ^ X := mul_le_mul_of_nonneg_right (by exact_mod_cast hn1) (by positivity)

/-- exact conversions to `double` exist, from `float` and from `double` -/
theorem doubleConv_exists {t : FTrait} (ht : t = .single ∨ t = .double) : ∃ d : DoubleConv, d.Correct t.eb t.fb := by
  have hi : ∀ i : ℤ, ∃ g, -2 ^ 31 ≤ i → i < 2 ^ 31 → ieee 11 52 g = .num i := by
    intro i
    by_cases h0 : i = 0
    · exact ⟨0, fun _ _ => by rw [h0]; norm_num [ieee]⟩
    by_cases hr : -2 ^ 31 ≤ i ∧ i < 2 ^ 31
    · have h1 : |i| ≤ 2 ^ 31 := abs_le.mpr ⟨hr.1, hr.2.le⟩
      have h2 := Int.one_le_abs h0
      have h1q : |(i : ℚ)| ≤ 2 ^ 31 := by rw [← Int.cast_abs]; exact_mod_cast h1
      have h2q : 1 ≤ |(i : ℚ)| := by rw [← Int.cast_abs]; exact_mod_cast h2
      obtain ⟨g, hg⟩ := float_of_fits (eb := 11) (fb := 52) (by norm_num) (x := i)
        ⟨i, 0, by norm_num at h1 ⊢; omega, by simp⟩
        (le_trans (by rw [← zpow_zero (2 : ℚ)]; exact zpow_le_zpow_right₀ (by norm_num) (by norm_num)) h2q)
        (lt_of_le_of_lt h1q (by
          rw [← zpow_natCast]; exact zpow_lt_zpow_right₀ (by norm_num) (by norm_num)))
      exact ⟨g, fun _ _ => hg⟩
    · exact ⟨0, fun h1 h2 => absurd ⟨h1, h2⟩ hr⟩
  choose f hf using hi
  obtain ⟨_, _, _, _, _, hinf, hninf, hnan⟩ := C51_constants (eb := 11) (fb := 52) (dn := true) (by norm_num) (by norm_num)
  have hw : ∀ b, ∃ g, ieee 11 52 g = ieee t.eb t.fb b := by
    intro b
    rcases ht with rfl | rfl
    · show ∃ g, ieee 11 52 g = ieee 8 23 b
      cases hb : ieee 8 23 b with
      | num x => exact double_of_single hb
      | inf s => cases s; exacts [⟨_, hinf⟩, ⟨_, hninf⟩]
      | nan => exact ⟨_, hnan⟩
    · exact ⟨b, rfl⟩
  choose w hw using hw
  exact ⟨⟨w, f⟩, hw, hf⟩

/-! ## multiplication -/

/-- **C54**: the product of two nonzero posits is rounded to a neighbouring posit, never to zero; it is rounded toward zero, as
by `Posit`, if the float has one more than twice the fraction bits (so that the product is exact). -/
theorem C54_mul_partial (h : FloatFor c t) (ho : o.Correct t.eb t.fb) (hr : 2 * c.maxScale + 3 ≤ 2 ^ (t.eb - 1)) {a b : ℤ}
    (ha : c.fmt.IsReal a) (ha0 : a ≠ 0) (hb : c.fmt.IsReal b) (hb0 : b ≠ 0) :
    ∃ v, PositF.mul c t o a b = .ok v ∧ c.fmt.IsFaithful (c.fmt.val a * c.fmt.val b) v ∧ v ≠ 0 ∧
      (2 * c.fb + 1 ≤ t.fb → c.fmt.IsTrunc (c.fmt.val a * c.fmt.val b) v) := by
  obtain ⟨heb, -, hfb, -⟩ := h.heb
  have hB : ((2 : ℤ) ^ (t.eb - 1)) = ((2 ^ (t.eb - 1) : ℕ) : ℤ) := by push_cast; rfl
  obtain ⟨x, hx, hxv⟩ := h.toFloat ha
  obtain ⟨y, hy, hyv⟩ := h.toFloat hb
  obtain ⟨a1, a2⟩ := val_abs_bounds h.wf ha ha0
  obtain ⟨b1, b2⟩ := val_abs_bounds h.wf hb hb0
  have hlo : (2 : ℚ) ^ ((2 : ℤ) - 2 ^ (t.eb - 1)) ≤ |c.fmt.val a * c.fmt.val b| := by
    rw [abs_mul]
    calc (2 : ℚ) ^ ((2 : ℤ) - 2 ^ (t.eb - 1)) ≤ 2 ^ (-(c.maxScale : ℤ)) * 2 ^ (-(c.maxScale : ℤ)) := by
          rw [← zpow_add₀ (by norm_num)]; exact zpow_le_zpow_right₀ (by norm_num) (by omega)
      _ ≤ _ := mul_le_mul a1 b1 (by positivity) (abs_nonneg _)
  have hhi : |c.fmt.val a * c.fmt.val b| ≤ 2 ^ (2 * (c.maxScale : ℤ) + 2) := by
    rw [abs_mul, show 2 * (c.maxScale : ℤ) + 2 = (c.maxScale + 1) + (c.maxScale + 1) by ring, zpow_add₀ (by norm_num)]
    exact mul_le_mul a2 b2 (abs_nonneg _) (by positivity)
  obtain ⟨v, hv, hfa, h0, ht⟩ := h.ofFloat (ho.mul hxv hyv (hhi.trans (maxFin_ge (by omega)))) hlo
  refine ⟨v, by unfold PositF.mul; rw [hx, hy]; exact hv, hfa, h0, fun hf => ht ?_⟩
  exact float_of_fits heb (((fits_posit h.wf ha).mul (fits_posit h.wf hb)).mono (by omega)) hlo
    (lt_of_le_of_lt hhi (zpow_lt_zpow_right₀ (by norm_num) (by omega)))

example : FloatFor ⟨16, 12, 1, 32, .withNan⟩ .single ∧ (∃ o : FloatOps, o.Correct FTrait.single.eb FTrait.single.fb) ∧
    2 * (⟨16, 12, 1, 32, .withNan⟩ : Cfg).maxScale + 3 ≤ 2 ^ (FTrait.single.eb - 1) ∧
    2 * (⟨16, 12, 1, 32, .withNan⟩ : Cfg).fb + 1 ≤ FTrait.single.fb ∧
    (⟨16, 12, 1, 32, .withNan⟩ : Cfg).fmt.IsReal 1234 ∧ (⟨16, 12, 1, 32, .withNan⟩ : Cfg).fmt.IsReal (-777) :=
  ⟨floatFor_P12, floatOps_exists (by decide) (by decide), by decide, by decide, by decide, by decide⟩

/-- **C54**: it then agrees with the multiplication of `Posit`. -/
theorem C54_mul_agrees_partial (h : FloatFor c t) (ho : o.Correct t.eb t.fb) (hr : 2 * c.maxScale + 3 ≤ 2 ^ (t.eb - 1))
    (hf : 2 * c.fb + 1 ≤ t.fb) (hF : c.fb + 2 ≤ c.F) {a b : ℤ}
    (ha : c.fmt.IsReal a) (ha0 : a ≠ 0) (hb : c.fmt.IsReal b) (hb0 : b ≠ 0) :
    PositF.mul c t o a b = Posit.mul c a b := by
  obtain ⟨v, hv, -, -, ht⟩ := C54_mul_partial h ho hr ha ha0 hb hb0
  obtain ⟨w, hw, hwt⟩ := C08_mul h.wf hF h.narrow ha ha0 hb hb0
  rw [hv, hw, (ht hf).unique hwt]

example : FloatFor ⟨8, 8, 0, 64, .withNan⟩ .double ∧ (∃ o : FloatOps, o.Correct FTrait.double.eb FTrait.double.fb) ∧
    2 * (⟨8, 8, 0, 64, .withNan⟩ : Cfg).fb + 1 ≤ FTrait.double.fb ∧
    (⟨8, 8, 0, 64, .withNan⟩ : Cfg).fmt.IsReal 100 ∧ (⟨8, 8, 0, 64, .withNan⟩ : Cfg).fmt.IsReal (-33) ∧
    Posit.mul ⟨8, 8, 0, 64, .withNan⟩ 100 (-33) = .ok (-73) :=
  ⟨floatFor_P8, floatOps_exists (by decide) (by decide), by decide, by decide, by decide, by decide +kernel⟩

/-- **C54**: a product with zero is zero. -/
theorem C54_mul_zero_partial (h : FloatFor c t) (ho : o.Correct t.eb t.fb) {a b : ℤ} (ha : c.fmt.IsReal a)
    (hb : c.fmt.IsReal b) (h0 : a = 0 ∨ b = 0) : PositF.mul c t o a b = .ok 0 := by
  obtain ⟨heb, -, hfb, -⟩ := h.heb
  have hB : 2 ≤ 2 ^ (t.eb - 1) := two_le_pow heb
  have hB' : ((2 : ℤ) ^ (t.eb - 1)) = ((2 ^ (t.eb - 1) : ℕ) : ℤ) := by push_cast; rfl
  obtain ⟨x, hx, hxv⟩ := h.toFloat ha
  obtain ⟨y, hy, hyv⟩ := h.toFloat hb
  have hz : c.fmt.val a * c.fmt.val b = 0 := by rcases h0 with rfl | rfl <;> simp [Format.val_zero]
  have hp : (0 : ℚ) ≤ maxFin t.eb t.fb := le_trans (by positivity) (maxFin_ge (eb := t.eb) (fb := t.fb) (m := 0) (by omega))
  have hm := ho.mul hxv hyv (by rw [hz, abs_zero]; exact hp)
  rw [hz] at hm
  unfold PositF.mul
  rw [hx, hy]
  exact h.ofFloat_zero (hm.exact ⟨0, ieee_zero.resolve_right (by omega)⟩)

example : FloatFor ⟨16, 12, 1, 32, .withNan⟩ .single ∧ (⟨16, 12, 1, 32, .withNan⟩ : Cfg).fmt.IsReal 0 ∧
    (⟨16, 12, 1, 32, .withNan⟩ : Cfg).fmt.IsReal (-777) := ⟨floatFor_P12, by decide, by decide⟩

/-! ## addition and subtraction -/

/-- **C54**: the sum of two posits is rounded to a neighbouring posit and is zero only if the exact sum is; it is rounded
toward zero if the exact sum is a float. -/
theorem C54_add_partial (h : FloatFor c t) (ho : o.Correct t.eb t.fb) (hr : c.maxScale + c.fb + 3 ≤ 2 ^ (t.eb - 1)) {a b : ℤ}
    (ha : c.fmt.IsReal a) (hb : c.fmt.IsReal b) :
    ∃ v, PositF.add c t o a b = .ok v ∧ c.fmt.IsFaithful (c.fmt.val a + c.fmt.val b) v ∧
      (v = 0 ↔ c.fmt.val a + c.fmt.val b = 0) ∧
      (c.fmt.val a + c.fmt.val b ≠ 0 → Fits (t.fb + 1) (c.fmt.val a + c.fmt.val b) →
        c.fmt.IsTrunc (c.fmt.val a + c.fmt.val b) v) := by
  obtain ⟨heb, -, hfb, -⟩ := h.heb
  have hB : ((2 : ℤ) ^ (t.eb - 1)) = ((2 ^ (t.eb - 1) : ℕ) : ℤ) := by push_cast; rfl
  have hself : ∀ {w}, c.fmt.IsReal w → c.fmt.IsFaithful (c.fmt.val w) w := by
    intro w hw
    exact ⟨hw, fun u _ hlt => hlt, fun u _ hlt => hlt⟩
  have hz0 : ∀ {w}, c.fmt.IsReal w → (w = 0 ↔ c.fmt.val w = 0) := by
    intro w hw
    refine ⟨fun e => by rw [e, Format.val_zero], fun e => ?_⟩
    by_contra hc
    have := (val_abs_bounds h.wf hw hc).1
    rw [e, abs_zero] at this
    exact absurd this (not_le.mpr (by positivity))
  unfold PositF.add
  by_cases ha0 : a = 0
  · rw [if_pos ha0, ha0, Format.val_zero, zero_add]
    exact ⟨b, rfl, hself hb, hz0 hb, fun hne _ => Format.isTrunc_val hb (fun e => hne ((hz0 hb).mp e))⟩
  rw [if_neg ha0]
  by_cases hb0 : b = 0
  · rw [if_pos hb0, hb0, Format.val_zero, add_zero]
    exact ⟨a, rfl, hself ha, hz0 ha, fun hne _ => Format.isTrunc_val ha (fun e => hne ((hz0 ha).mp e))⟩
  rw [if_neg hb0]
  obtain ⟨x, hx, hxv⟩ := h.toFloat ha
  obtain ⟨y, hy, hyv⟩ := h.toFloat hb
  have hhi : |c.fmt.val a + c.fmt.val b| ≤ 2 ^ ((c.maxScale : ℤ) + 2) := by
    have a2 := (val_abs_bounds h.wf ha ha0).2
    have b2 := (val_abs_bounds h.wf hb hb0).2
    calc |c.fmt.val a + c.fmt.val b| ≤ |c.fmt.val a| + |c.fmt.val b| := abs_add_le _ _
      _ ≤ 2 ^ ((c.maxScale : ℤ) + 1) + 2 ^ ((c.maxScale : ℤ) + 1) := add_le_add a2 b2
      _ = 2 ^ ((c.maxScale : ℤ) + 2) := by
          rw [show (c.maxScale : ℤ) + 2 = (c.maxScale + 1) + 1 by ring, zpow_add₀ (by norm_num) ((c.maxScale : ℤ) + 1) 1]
          norm_num; ring
  have hm := ho.add hxv hyv (hhi.trans (maxFin_ge (by omega)))
  rw [hx, hy]
  by_cases hs : c.fmt.val a + c.fmt.val b = 0
  · rw [hs] at hm ⊢
    refine ⟨0, h.ofFloat_zero (hm.exact ⟨0, ieee_zero.resolve_right (by omega)⟩), ?_, by simp, fun hc => absurd rfl hc⟩
    have := hself (w := 0) (by unfold Format.IsReal; omega)
    rwa [Format.val_zero] at this
  · have hlo : (2 : ℚ) ^ ((2 : ℤ) - 2 ^ (t.eb - 1)) ≤ |c.fmt.val a + c.fmt.val b| :=
      le_trans (zpow_le_zpow_right₀ (by norm_num) (by push_cast; omega)) (sum_lower h.wf ha hb hs)
    obtain ⟨v, hv, hfa, h0, ht⟩ := h.ofFloat hm hlo
    exact ⟨v, hv, hfa, by simp [h0, hs], fun _ hf => ht (float_of_fits heb hf hlo
      (lt_of_le_of_lt hhi (zpow_lt_zpow_right₀ (by norm_num) (by omega))))⟩

example : FloatFor ⟨16, 12, 1, 32, .withNan⟩ .single ∧
    (⟨16, 12, 1, 32, .withNan⟩ : Cfg).maxScale + (⟨16, 12, 1, 32, .withNan⟩ : Cfg).fb + 3 ≤ 2 ^ (FTrait.single.eb - 1) ∧
    (⟨16, 12, 1, 32, .withNan⟩ : Cfg).fmt.IsReal 1234 ∧ (⟨16, 12, 1, 32, .withNan⟩ : Cfg).fmt.IsReal (-777) :=
  ⟨floatFor_P12, by decide, by decide, by decide⟩

/-- **C54**: the sum is rounded toward zero if the whole range of the posit fits in the fraction of the float. -/
theorem C54_add_trunc_partial (h : FloatFor c t) (ho : o.Correct t.eb t.fb) (hr : c.maxScale + c.fb + 3 ≤ 2 ^ (t.eb - 1))
    (hf : 2 * c.maxScale + c.fb + 2 ≤ t.fb) {a b : ℤ} (ha : c.fmt.IsReal a) (hb : c.fmt.IsReal b)
    (hs : c.fmt.val a + c.fmt.val b ≠ 0) :
    ∃ v, PositF.add c t o a b = .ok v ∧ c.fmt.IsTrunc (c.fmt.val a + c.fmt.val b) v := by
  obtain ⟨v, hv, -, -, ht⟩ := C54_add_partial h ho hr ha hb
  refine ⟨v, hv, ht hs ?_⟩
  obtain ⟨k, hk⟩ := posit_grid h.wf ha
  obtain ⟨l, hl⟩ := posit_grid h.wf hb
  refine ⟨k + l, -((c.maxScale + c.fb : ℕ) : ℤ), ?_, by rw [hk, hl]; push_cast; ring⟩
  have hp : (0 : ℚ) < 2 ^ (-((c.maxScale + c.fb : ℕ) : ℤ)) := by positivity
  have hbd : ∀ {w}, c.fmt.IsReal w → |c.fmt.val w| ≤ 2 ^ ((c.maxScale : ℤ) + 1) := by
    intro w hw
    by_cases h0 : w = 0
    · rw [h0, Format.val_zero, abs_zero]; positivity
    · exact (val_abs_bounds h.wf hw h0).2
  have h1 : |c.fmt.val a + c.fmt.val b| ≤ 2 ^ ((c.maxScale : ℤ) + 2) := by
    calc |c.fmt.val a + c.fmt.val b| ≤ |c.fmt.val a| + |c.fmt.val b| := abs_add_le _ _
      _ ≤ 2 ^ ((c.maxScale : ℤ) + 1) + 2 ^ ((c.maxScale : ℤ) + 1) := add_le_add (hbd ha) (hbd hb)
      _ = 2 ^ ((c.maxScale : ℤ) + 2) := by
          rw [show (c.maxScale : ℤ) + 2 = (c.maxScale + 1) + 1 by ring, zpow_add₀ (by norm_num) ((c.maxScale : ℤ) + 1) 1]
          norm_num; ring
  rw [hk, hl, ← add_mul, abs_mul, abs_of_pos hp, zpow_neg, ← div_eq_mul_inv, div_le_iff₀ (by positivity),
    ← zpow_add₀ (by norm_num)] at h1
  have h2 : (2 : ℚ) ^ ((c.maxScale : ℤ) + 2 + ((c.maxScale + c.fb : ℕ) : ℤ)) < 2 ^ ((t.fb + 1 : ℕ) : ℤ) :=
    zpow_lt_zpow_right₀ (by norm_num) (by push_cast; omega)
  rw [zpow_natCast] at h2
  have h3 : ((|k + l| : ℤ) : ℚ) < ((2 ^ (t.fb + 1) : ℤ) : ℚ) := by push_cast; linarith
  exact_mod_cast h3

example : FloatFor ⟨8, 8, 0, 64, .withNan⟩ .double ∧
    2 * (⟨8, 8, 0, 64, .withNan⟩ : Cfg).maxScale + (⟨8, 8, 0, 64, .withNan⟩ : Cfg).fb + 2 ≤ FTrait.double.fb ∧
    (⟨8, 8, 0, 64, .withNan⟩ : Cfg).fmt.IsReal 100 ∧ (⟨8, 8, 0, 64, .withNan⟩ : Cfg).fmt.IsReal (-33) ∧
    (⟨8, 8, 0, 64, .withNan⟩ : Cfg).fmt.val 100 + (⟨8, 8, 0, 64, .withNan⟩ : Cfg).fmt.val (-33) ≠ 0 :=
  ⟨floatFor_P8, by decide, by decide, by decide, by decide +kernel⟩

/-- **C54**: the difference of two posits is rounded to a neighbouring posit and is zero only if they are equal. -/
theorem C54_sub_partial (h : FloatFor c t) (ho : o.Correct t.eb t.fb) (hr : c.maxScale + c.fb + 3 ≤ 2 ^ (t.eb - 1)) {a b : ℤ}
    (ha : c.fmt.IsReal a) (hb : c.fmt.IsReal b) :
    ∃ v, PositF.sub c t o a b = .ok v ∧ c.fmt.IsFaithful (c.fmt.val a - c.fmt.val b) v ∧ (v = 0 ↔ a = b) ∧
      (a ≠ b → Fits (t.fb + 1) (c.fmt.val a - c.fmt.val b) → c.fmt.IsTrunc (c.fmt.val a - c.fmt.val b) v) := by
  obtain ⟨v, hv, h1, h2, h3⟩ := C54_add_partial h ho hr ha hb.neg
  rw [Format.val_neg, ← sub_eq_add_neg] at h1 h2 h3
  have he : c.fmt.val a - c.fmt.val b = 0 ↔ a = b := by
    rw [sub_eq_zero]
    refine ⟨fun e => ?_, fun e => by rw [e]⟩
    rcases lt_trichotomy a b with hc | hc | hc
    · exact absurd e ((Format.val_lt_iff ha.inRange hb.inRange).mpr hc).ne
    · exact hc
    · exact absurd e ((Format.val_lt_iff hb.inRange ha.inRange).mpr hc).ne'
  rw [he] at h2
  refine ⟨v, ?_, h1, h2, fun hne hf => h3 (fun e => hne (he.mp e)) hf⟩
  unfold PositF.sub
  rw [neg_ok h.wf hb.inRange]
  exact hv

example : FloatFor ⟨16, 12, 1, 32, .withNan⟩ .single ∧ (⟨16, 12, 1, 32, .withNan⟩ : Cfg).fmt.IsReal 1234 ∧
    (⟨16, 12, 1, 32, .withNan⟩ : Cfg).fmt.IsReal 1233 := ⟨floatFor_P12, by decide, by decide⟩

/-! ## division -/

/-- **C54**: the quotient of two nonzero posits is rounded to a neighbouring posit, never to zero; it is rounded toward zero if
the float has one more than twice the fraction bits (and at least two more). -/
theorem C54_div_partial (h : FloatFor c t) (ho : o.Correct t.eb t.fb) (hr : 2 * c.maxScale + 3 ≤ 2 ^ (t.eb - 1)) {a b : ℤ}
    (ha : c.fmt.IsReal a) (ha0 : a ≠ 0) (hb : c.fmt.IsReal b) (hb0 : b ≠ 0) :
    ∃ v, PositF.div c t o a b = .ok v ∧ c.fmt.IsFaithful (c.fmt.val a / c.fmt.val b) v ∧ v ≠ 0 ∧
      (2 * c.fb + 1 ≤ t.fb → c.fb + 2 ≤ t.fb → c.fmt.IsTrunc (c.fmt.val a / c.fmt.val b) v) := by
  have hB : ((2 : ℤ) ^ (t.eb - 1)) = ((2 ^ (t.eb - 1) : ℕ) : ℤ) := by push_cast; rfl
  obtain ⟨x, hx, hxv⟩ := h.toFloat ha
  obtain ⟨y, hy, hyv⟩ := h.toFloat hb
  obtain ⟨a1, a2⟩ := val_abs_bounds h.wf ha ha0
  obtain ⟨b1, b2⟩ := val_abs_bounds h.wf hb hb0
  have hbp : 0 < |c.fmt.val b| := lt_of_lt_of_le (by positivity) b1
  have hhi : |c.fmt.val a / c.fmt.val b| ≤ 2 ^ (2 * (c.maxScale : ℤ) + 1) := by
    rw [abs_div, div_le_iff₀ hbp]
    calc |c.fmt.val a| ≤ 2 ^ ((c.maxScale : ℤ) + 1) := a2
      _ = 2 ^ (2 * (c.maxScale : ℤ) + 1) * 2 ^ (-(c.maxScale : ℤ)) := by rw [← zpow_add₀ (by norm_num)]; congr 1; ring
      _ ≤ _ := mul_le_mul_of_nonneg_left b1 (by positivity)
  obtain ⟨v, hv, hh⟩ := h.ofFloat_div hr ha ha0 hb hb0
    (ho.div hxv hyv (fun e => by rw [e, abs_zero] at hbp; exact lt_irrefl _ hbp) (hhi.trans (maxFin_ge (by omega))))
  exact ⟨v, by unfold PositF.div; rw [hx, hy]; exact hv, hh⟩

example : FloatFor ⟨16, 12, 1, 32, .withNan⟩ .single ∧
    2 * (⟨16, 12, 1, 32, .withNan⟩ : Cfg).maxScale + 3 ≤ 2 ^ (FTrait.single.eb - 1) ∧
    (⟨16, 12, 1, 32, .withNan⟩ : Cfg).fb + 2 ≤ FTrait.single.fb ∧ 2 * (⟨16, 12, 1, 32, .withNan⟩ : Cfg).fb + 1 ≤ FTrait.single.fb ∧
    (⟨16, 12, 1, 32, .withNan⟩ : Cfg).fmt.IsReal 1234 ∧ (⟨16, 12, 1, 32, .withNan⟩ : Cfg).fmt.IsReal (-777) :=
  ⟨floatFor_P12, by decide, by decide, by decide, by decide, by decide⟩

/-- **C54**: it then agrees with the division of `Posit`. -/
theorem C54_div_agrees_partial (h : FloatFor c t) (ho : o.Correct t.eb t.fb) (hr : 2 * c.maxScale + 3 ≤ 2 ^ (t.eb - 1))
    (hf : 2 * c.fb + 1 ≤ t.fb) (hf2 : c.fb + 2 ≤ t.fb) (hF : c.fb + 2 ≤ c.F) {a b : ℤ}
    (ha : c.fmt.IsReal a) (ha0 : a ≠ 0) (hb : c.fmt.IsReal b) (hb0 : b ≠ 0) :
    PositF.div c t o a b = Posit.div c a b := by
  obtain ⟨v, hv, -, -, ht⟩ := C54_div_partial h ho hr ha ha0 hb hb0
  obtain ⟨w, hw, hwt⟩ := C09_div h.wf hF h.narrow ha ha0 hb hb0
  rw [hv, hw, (ht hf hf2).unique hwt]

example : FloatFor ⟨8, 8, 0, 64, .withNan⟩ .double ∧ 2 * (⟨8, 8, 0, 64, .withNan⟩ : Cfg).fb + 1 ≤ FTrait.double.fb ∧
    (⟨8, 8, 0, 64, .withNan⟩ : Cfg).fmt.IsReal 100 ∧ (⟨8, 8, 0, 64, .withNan⟩ : Cfg).fmt.IsReal (-33) ∧
    Posit.div ⟨8, 8, 0, 64, .withNan⟩ 100 (-33) = .ok (-113) :=
  ⟨floatFor_P8, by decide, by decide, by decide, by decide +kernel⟩

/-- **C54**: a nonzero posit divided by zero gives infinity (the NaN pattern where there is no infinity), zero divided by a
nonzero posit zero, and zero divided by zero NaN (infinity where there is no NaN). -/
theorem C54_div_zero_partial (h : FloatFor c t) (ho : o.Correct t.eb t.fb) (hF : c.spec ≠ .withNanInf ∨ t.fb ≤ c.F) {a : ℤ}
    (ha : c.fmt.IsReal a) (ha0 : a ≠ 0) :
    (∃ s, PositF.div c t o a 0 = .ok (c.infPat s)) ∧ PositF.div c t o 0 a = .ok 0 ∧
    PositF.div c t o 0 0 = .ok c.topPat := by
  obtain ⟨heb, -, hfb, -⟩ := h.heb
  have hB : 2 ≤ 2 ^ (t.eb - 1) := two_le_pow heb
  have hB' : ((2 : ℤ) ^ (t.eb - 1)) = ((2 ^ (t.eb - 1) : ℕ) : ℤ) := by push_cast; rfl
  have hz : c.fmt.IsReal 0 := by unfold Format.IsReal; omega
  obtain ⟨x, hx, hxv⟩ := h.toFloat ha
  obtain ⟨y, hy, hyv⟩ := h.toFloat hz
  rw [Format.val_zero] at hyv
  have hne : c.fmt.val a ≠ 0 := by
    intro e
    have := (val_abs_bounds h.wf ha ha0).1
    rw [e, abs_zero] at this
    exact absurd this (not_le.mpr (by positivity))
  unfold PositF.div
  rw [hx, hy]
  refine ⟨?_, ?_, h.ofFloat_nan hF (ho.zero_div_zero hyv hyv)⟩
  · obtain ⟨s, hs⟩ := ho.div_zero hxv hne hyv
    exact ⟨s, h.ofFloat_inf hs⟩
  · have hp : (0 : ℚ) ≤ maxFin t.eb t.fb := le_trans (by positivity) (maxFin_ge (eb := t.eb) (fb := t.fb) (m := 0) (by omega))
    have hm := ho.div hyv hxv hne (by rw [zero_div, abs_zero]; exact hp)
    rw [zero_div] at hm
    exact h.ofFloat_zero (hm.exact ⟨0, ieee_zero.resolve_right (by omega)⟩)

example : FloatFor ⟨16, 12, 1, 32, .withNan⟩ .single ∧ FTrait.single.fb ≤ 32 ∧
    (⟨16, 12, 1, 32, .withNan⟩ : Cfg).fmt.IsReal (-777) := ⟨floatFor_P12, by decide, by decide⟩

/-- **C54**: the reciprocal of a nonzero posit is rounded to a neighbouring posit, never to zero; it is rounded toward zero if
the float has one more than twice the fraction bits (and at least two more). -/
theorem C54_inv_partial (h : FloatFor c t) (ho : o.Correct t.eb t.fb) (hr : 2 * c.maxScale + 3 ≤ 2 ^ (t.eb - 1)) {a : ℤ}
    (ha : c.fmt.IsReal a) (ha0 : a ≠ 0) :
    ∃ v, PositF.inv c t o a = .ok v ∧ c.fmt.IsFaithful (1 / c.fmt.val a) v ∧ v ≠ 0 ∧
      (2 * c.fb + 1 ≤ t.fb → c.fb + 2 ≤ t.fb → c.fmt.IsTrunc (1 / c.fmt.val a) v) := by
  obtain ⟨heb, -, hfb, hte⟩ := h.heb
  have hB : ((2 : ℤ) ^ (t.eb - 1)) = ((2 ^ (t.eb - 1) : ℕ) : ℤ) := by push_cast; rfl
  have hone : ieee t.eb t.fb t.one = .num 1 := by
    have := (C51_constants (dn := true) heb hfb).1
    rwa [← hte] at this
  obtain ⟨h1r, h10⟩ : c.fmt.IsReal c.one ∧ c.one ≠ 0 := one_real h.wf
  obtain ⟨x, hx, hxv⟩ := h.toFloat ha
  obtain ⟨a1, a2⟩ := val_abs_bounds h.wf ha ha0
  have hbp : 0 < |c.fmt.val a| := lt_of_lt_of_le (by positivity) a1
  have hhi : |1 / c.fmt.val a| ≤ 2 ^ (c.maxScale : ℤ) := by
    rw [abs_div, abs_one, div_le_iff₀ hbp]
    calc (1 : ℚ) = 2 ^ (c.maxScale : ℤ) * 2 ^ (-(c.maxScale : ℤ)) := by rw [← zpow_add₀ (by norm_num)]; simp
      _ ≤ _ := mul_le_mul_of_nonneg_left a1 (by positivity)
  obtain ⟨v, hv, hh⟩ := h.ofFloat_div hr h1r h10 ha ha0 (g := o.div t.one x) (by
    rw [val_one h.wf]
    exact ho.div hone hxv (fun e => by rw [e, abs_zero] at hbp; exact lt_irrefl _ hbp) (hhi.trans (maxFin_ge (by omega))))
  rw [val_one h.wf] at hh
  exact ⟨v, by unfold PositF.inv; rw [hx]; exact hv, hh⟩

example : FloatFor ⟨16, 12, 1, 32, .withNan⟩ .single ∧ (⟨16, 12, 1, 32, .withNan⟩ : Cfg).fmt.IsReal (-777) :=
  ⟨floatFor_P12, by decide⟩

/-! ## doubling and halving -/

/-- **C54**: doubling rounds toward zero. -/
theorem C54_twice_partial (h : FloatFor c t) (ho : o.Correct t.eb t.fb) {a : ℤ} (ha : c.fmt.IsReal a) (ha0 : a ≠ 0) :
    ∃ v, PositF.twice c t o a = .ok v ∧ c.fmt.IsTrunc (2 * c.fmt.val a) v := by
  obtain ⟨heb, -, hfb, hte⟩ := h.heb
  have hB : ((2 : ℤ) ^ (t.eb - 1)) = ((2 ^ (t.eb - 1) : ℕ) : ℤ) := by push_cast; rfl
  have hrg := h.range
  have htwo : ieee t.eb t.fb t.two = .num 2 := by
    have := (C51_constants (dn := true) heb hfb).2.1
    rwa [← hte] at this
  obtain ⟨x, hx, hxv⟩ := h.toFloat ha
  have hlo : (2 : ℚ) ^ ((2 : ℤ) - 2 ^ (t.eb - 1)) ≤ |2 * c.fmt.val a| := by
    have : (2 : ℚ) ^ ((2 : ℤ) - 2 ^ (t.eb - 1)) ≤ |c.fmt.val a| :=
      le_trans (zpow_le_zpow_right₀ (by norm_num) (by omega)) (val_abs_bounds h.wf ha ha0).1
    rw [abs_mul, abs_of_pos (by norm_num : (0 : ℚ) < 2)]
    have := abs_nonneg (c.fmt.val a)
    linarith
  obtain ⟨e, f, hu⟩ := unpack_real h.wf ha ha0
  have hhi : |2 * c.fmt.val a| < 2 ^ ((2 : ℤ) ^ (t.eb - 1)) := by
    have h1 := hu.upper
    have h2 := hu.e_abs h.wf
    rw [abs_le] at h2
    calc |2 * c.fmt.val a| < 2 * 2 ^ (e + 1) := by
          rw [abs_mul, abs_of_pos (by norm_num : (0 : ℚ) < 2)]; linarith
      _ = 2 ^ (e + 2) := by rw [show e + 2 = e + 1 + 1 by ring, zpow_add₀ (by norm_num) (e + 1) 1]; ring
      _ ≤ _ := zpow_le_zpow_right₀ (by norm_num) (by omega)
  have hfit : Fits (t.fb + 1) (2 * c.fmt.val a) := by
    obtain ⟨n, X, hn, he⟩ := (fits_posit h.wf ha).mono (show c.fb + 1 ≤ t.fb + 1 by have := h.hfb; omega)
    exact ⟨n, X + 1, hn, by rw [he, zpow_add₀ (by norm_num)]; ring⟩
  obtain ⟨g, hg⟩ := float_of_fits heb hfit hlo hhi
  obtain ⟨v, hv, -, -, ht⟩ := h.ofFloat (ho.mul htwo hxv (ieee_le_maxFin heb hg)) hlo
  exact ⟨v, by unfold PositF.twice; rw [hx]; exact hv, ht ⟨g, hg⟩⟩

example : FloatFor ⟨16, 12, 1, 32, .withNan⟩ .single ∧ (⟨16, 12, 1, 32, .withNan⟩ : Cfg).fmt.IsReal (-777) :=
  ⟨floatFor_P12, by decide⟩

variable {od : FloatOps} {d : DoubleConv}

/-- **C54**: halving rounds toward zero (the product is computed in `double`). -/
theorem C54_half_partial (h : FloatFor c t) (ho : od.Correct 11 52) (hd : d.Correct t.eb t.fb) (hr : c.maxScale + 3 ≤ 2 ^ 10)
    {a : ℤ} (ha : c.fmt.IsReal a) (ha0 : a ≠ 0) : ∃ v, PositF.half c t od d a = .ok v ∧ c.fmt.IsTrunc (c.fmt.val a / 2) v := by
  obtain ⟨x, hx, hxv⟩ := h.toFloat ha
  have hhalf : ieee 11 52 0x3fe0000000000000 = .num (1 / 2) := by norm_num [ieee]
  have hdb := h.double
  obtain ⟨e, f, hu⟩ := unpack_real h.wf ha ha0
  have h2 := hu.e_abs h.wf
  rw [abs_le] at h2
  have habs : |1 / 2 * c.fmt.val a| = |c.fmt.val a| / 2 := by
    rw [abs_mul, abs_of_pos (by norm_num : (0 : ℚ) < 1 / 2)]; ring
  have hlo : (2 : ℚ) ^ ((2 : ℤ) - 2 ^ (11 - 1)) ≤ |1 / 2 * c.fmt.val a| := by
    rw [habs, le_div_iff₀ (by norm_num)]
    calc (2 : ℚ) ^ ((2 : ℤ) - 2 ^ (11 - 1)) * 2 = 2 ^ ((2 : ℤ) - 2 ^ (11 - 1) + 1) := by
          rw [zpow_add₀ (by norm_num) _ 1]; ring
      _ ≤ 2 ^ e := zpow_le_zpow_right₀ (by norm_num) (by norm_num; omega)
      _ ≤ _ := hu.lower
  have hhi : |1 / 2 * c.fmt.val a| < 2 ^ ((2 : ℤ) ^ (11 - 1)) := by
    rw [habs]
    calc |c.fmt.val a| / 2 ≤ |c.fmt.val a| := by have := abs_nonneg (c.fmt.val a); linarith
      _ < 2 ^ (e + 1) := hu.upper
      _ ≤ _ := zpow_le_zpow_right₀ (by norm_num) (by norm_num; omega)
  have hfit : Fits (52 + 1) (1 / 2 * c.fmt.val a) := by
    obtain ⟨n, X, hn, he⟩ := (fits_posit h.wf ha).mono (show c.fb + 1 ≤ 52 + 1 by have := hdb.hfb; exact Nat.succ_le_succ this)
    exact ⟨n, X - 1, hn, by rw [he, zpow_sub₀ (by norm_num)]; ring⟩
  obtain ⟨g, hg⟩ := float_of_fits (by norm_num) hfit hlo hhi
  obtain ⟨v, hv, -, -, ht⟩ := hdb.ofFloat (ho.mul hhalf ((hd.widen x).trans hxv) (ieee_le_maxFin (by norm_num) hg)) hlo
  refine ⟨v, by unfold PositF.half; rw [hx]; exact hv, ?_⟩
  have := ht ⟨g, hg⟩
  rwa [show 1 / 2 * c.fmt.val a = c.fmt.val a / 2 by ring] at this

example : FloatFor ⟨16, 12, 1, 32, .withNan⟩ .single ∧ (∃ o : FloatOps, o.Correct 11 52) ∧
    (∃ d : DoubleConv, d.Correct FTrait.single.eb FTrait.single.fb) ∧
    (⟨16, 12, 1, 32, .withNan⟩ : Cfg).maxScale + 3 ≤ 2 ^ 10 ∧ (⟨16, 12, 1, 32, .withNan⟩ : Cfg).fmt.IsReal (-777) :=
  ⟨floatFor_P12, floatOps_exists (by decide) (by decide), doubleConv_exists (Or.inl rfl), by decide, by decide⟩

/-! ## integers -/

/-- **C54**: construction from an `int` rounds toward zero, for every `int`. -/
theorem C54_ofInt_partial (h : FloatFor c t) (hd : d.Correct t.eb t.fb) {i : ℤ} (h1 : -2 ^ 31 ≤ i) (h2 : i < 2 ^ 31) :
    (i = 0 → PositF.ofInt c d i = .ok 0) ∧ (i ≠ 0 → ∃ v, PositF.ofInt c d i = .ok v ∧ c.fmt.IsTrunc i v) := by
  have hi := hd.ofInt i h1 h2
  constructor
  · rintro rfl
    exact h.double.ofFloat_zero (by exact_mod_cast hi)
  · intro h0
    have habs : (1 : ℚ) ≤ |(i : ℚ)| := by
      rw [← Int.cast_abs]; exact_mod_cast Int.one_le_abs h0
    obtain ⟨v, hv, -, -, ht⟩ := h.double.ofFloat (x := i) (IsRounded.of_num hi) (by
      refine le_trans ?_ habs
      rw [← zpow_zero (2 : ℚ)]
      exact zpow_le_zpow_right₀ (by norm_num) (by norm_num [FTrait.double]))
    exact ⟨v, hv, ht ⟨_, hi⟩⟩

example : FloatFor ⟨16, 12, 1, 32, .withNan⟩ .single ∧ (∃ d : DoubleConv, d.Correct FTrait.single.eb FTrait.single.fb) ∧
    -2 ^ 31 ≤ (-2 ^ 31 : ℤ) := ⟨floatFor_P12, doubleConv_exists (Or.inl rfl), by norm_num⟩

/-! ## NaN -/

/-- the cases of a canonical operand, converted to a float -/
theorem FloatFor.toFloat_any (h : FloatFor c t) {v : ℤ} (hv : c.fmt.IsCanonical v) : ∃ b, Posit.toFloat c t v = .ok b := by
  obtain ⟨heb, -, hfb, hte⟩ := h.heb
  rcases unpack_cases h.wf hv with rfl | ⟨-, hr, -⟩ | ⟨hi, -, -⟩ | ⟨hn, -⟩
  · obtain ⟨b, hb, -⟩ := h.toFloat (v := 0) (by unfold Format.IsReal; omega); exact ⟨b, hb⟩
  · obtain ⟨b, hb, -⟩ := h.toFloat hr; exact ⟨b, hb⟩
  · obtain ⟨b, hb, -⟩ := (C23_special (dn := true) h.wf heb hfb hv).2.2 hi
    rw [← hte] at hb; exact ⟨b, hb⟩
  · obtain ⟨b, hb, -⟩ := h.toFloat_nan hv hn; exact ⟨b, hb⟩

/-- **C54**: a NaN operand on either side gives NaN (unlike `Posit`, whose `Unpacked` forgets a NaN on the right, C13);
addition of zero is excluded, since it returns the other operand, NaN included. -/
theorem C54_nan_partial (h : FloatFor c t) (ho : o.Correct t.eb t.fb) (hF : c.spec ≠ .withNanInf ∨ t.fb ≤ c.F) {a b : ℤ}
    (ha : c.fmt.IsCanonical a) (hb : c.fmt.IsCanonical b) (hn : Posit.isNaN c a = true ∨ Posit.isNaN c b = true) :
    PositF.add c t o a b = .ok c.nan ∧ PositF.mul c t o a b = .ok c.nan ∧ PositF.div c t o a b = .ok c.nan := by
  have htop : c.topPat = c.nan := by
    rcases hn with hn | hn <;> · rw [h.wf.nan_eq]; rfl
  have hnan : ∀ {v}, Posit.isNaN c v = true → v = c.nan ∧ v ≠ 0 := by
    intro v hv
    unfold Posit.isNaN at hv
    simp only [Bool.and_eq_true, decide_eq_true_eq, bne_iff_ne, beq_iff_eq] at hv
    refine ⟨hv.2, ?_⟩
    rw [hv.2, h.wf.nan_eq]
    exact neg_ne_zero.mpr (by positivity)
  obtain ⟨x, hx⟩ := h.toFloat_any ha
  obtain ⟨y, hy⟩ := h.toFloat_any hb
  have hxy : ieee t.eb t.fb x = .nan ∨ ieee t.eb t.fb y = .nan := by
    rcases hn with hn | hn
    · obtain ⟨x', hx', hxn⟩ := h.toFloat_nan ha hn
      rw [hx] at hx'; rw [Except.ok.inj hx']; exact Or.inl hxn
    · obtain ⟨x', hx', hxn⟩ := h.toFloat_nan hb hn
      rw [hy] at hx'; rw [Except.ok.inj hx']; exact Or.inr hxn
  obtain ⟨n1, n2, n3⟩ := ho.nan hxy
  refine ⟨?_, ?_, ?_⟩
  · unfold PositF.add
    by_cases ha0 : a = 0
    · rw [if_pos ha0]
      rcases hn with hn | hn
      · exact absurd ha0 (hnan hn).2
      · rw [(hnan hn).1]
    rw [if_neg ha0]
    by_cases hb0 : b = 0
    · rw [if_pos hb0]
      rcases hn with hn | hn
      · rw [(hnan hn).1]
      · exact absurd hb0 (hnan hn).2
    rw [if_neg hb0, hx, hy, ← htop]
    exact h.ofFloat_nan hF n1
  · unfold PositF.mul; rw [hx, hy, ← htop]; exact h.ofFloat_nan hF n2
  · unfold PositF.div; rw [hx, hy, ← htop]; exact h.ofFloat_nan hF n3

example : FloatFor ⟨16, 12, 1, 32, .withNan⟩ .single ∧ (⟨16, 12, 1, 32, .withNan⟩ : Cfg).fmt.IsCanonical 1234 ∧
    (⟨16, 12, 1, 32, .withNan⟩ : Cfg).fmt.IsCanonical (-2048) ∧ Posit.isNaN ⟨16, 12, 1, 32, .withNan⟩ (-2048) = true :=
  ⟨floatFor_P12, by decide, by decide, by decide⟩

/-! ## the narrow exponent type -/

/-- **C54** fails for narrow posits, whose exponent type has 8 bits: `PositF<int8_t,6,0,double>` turns every product equal to 2
into 0, even `2 * 1`, and the integer 2 into 0. -/
theorem C54_narrow_wrong (o : FloatOps) (ho : o.mul 0x4000000000000000 0x3ff0000000000000 = 0x4000000000000000) (d : DoubleConv)
    (hd : d.ofInt 2 = 0x4000000000000000) :
    let c : Cfg := ⟨8, 6, 0, 64, .withNan⟩
    c.WF ∧ c.fmt.val 24 = 2 ∧ c.fmt.val 16 = 1 ∧ PositF.mul c .double o 24 16 = .ok 0 ∧ PositF.ofInt c d 2 = .ok 0 := by
  intro c
  refine ⟨by decide, by decide +kernel, by decide +kernel, ?_, ?_⟩
  · have e1 : Posit.toFloat c .double 24 = .ok 0x4000000000000000 := by decide +kernel
    have e2 : Posit.toFloat c .double 16 = .ok 0x3ff0000000000000 := by decide +kernel
    unfold PositF.mul
    rw [e1, e2]
    show Posit.ofFloat c .double (o.mul _ _) = _
    rw [ho]
    decide +kernel
  · unfold PositF.ofInt
    rw [hd]
    decide +kernel

/-- `2 * 1` and `2`, with an arithmetic that has them right -/
example : PositF.mul ⟨8, 6, 0, 64, .withNan⟩ .double ⟨fun a _ => a, fun a _ => a, fun a _ => a⟩ 24 16 = .ok 0 :=
  (C54_narrow_wrong ⟨fun a _ => a, fun a _ => a, fun a _ => a⟩ rfl ⟨id, fun _ => 0x4000000000000000⟩ rfl).2.2.2.1

end Verif
