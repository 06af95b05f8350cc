import Verif.Model.TPosit
import Verif.Props.Algebra
import Verif.Props.TestIdentities
import Verif.Lemmas.Float2Posit
import Verif.Lemmas.HalfPrecWiden
import Verif.Lemmas.SoftWrap

/-! # The tabulated template `tposit` (C122) -/

namespace Verif
namespace TPosit
open Fmt

variable {c : Cfg}

theorem deep_id {x : ℤ} (h1 : -128 ≤ x) (h2 : x < 128) : deep x = x :=
  wrapS_of_inS (by norm_num) ⟨by norm_num; exact h1, by norm_num; exact h2⟩

theorem deep_range (x : ℤ) : -128 ≤ deep x ∧ deep x < 128 := by
  have := wrapS_inS (w := 8) (by norm_num) x
  unfold InS at this
  norm_num at this
  exact this

theorem uu_eight (h8 : c.H = 8) (v : ℤ) : (uu c v : ℤ) = v % 256 := by
  unfold uu wrapU
  rw [h8, Int.toNat_of_nonneg (Int.emod_nonneg _ (by norm_num))]
  norm_num

theorem index_eight (h8 : c.H = 8) (a b : ℤ) : index c a b = uu c a * 256 + uu c b := by
  have h1 := uu_eight h8 a
  have h2 := uu_eight h8 b
  unfold index
  rw [h8, show pw 8 = 32 from rfl]
  apply Nat.mod_eq_of_lt
  norm_num
  omega

theorem canonical_eight (h : c.WF) (h8 : c.H = 8) {v : ℤ} (hv : c.fmt.IsCanonical v) : -128 ≤ v ∧ v < 128 := by
  obtain ⟨h1, h2⟩ := hv
  have hN : c.N ≤ 8 := h8 ▸ h.hN
  have : (2 : ℤ) ^ (c.N - 1) ≤ 2 ^ 7 := pow_le_pow_right₀ (by norm_num) (by omega)
  have e : c.fmt.N = c.N := rfl
  rw [e] at h1 h2
  norm_num at this
  omega

/-- **C122**, an 8-bit holder: for every operation on `int8_t` there is a table with which the operators and functions of the class compute it, for
all operands. -/
theorem C122_holds (h8 : c.H = 8) :
    (∀ f : ℤ → ℤ, (∀ v, -128 ≤ f v ∧ f v < 128) → ∃ t, ∀ v, -128 ≤ v → v < 128 → op1 c t v = f v) ∧
    ∀ f : ℤ → ℤ → ℤ, (∀ v w, -128 ≤ f v w ∧ f v w < 128) → ∃ t, ∀ v w, -128 ≤ v → v < 128 → -128 ≤ w → w < 128 → op2 c t v w = f v w := by
  have key : ∀ v : ℤ, -128 ≤ v → v < 128 → (if (uu c v) < 128 then (uu c v : ℤ) else uu c v - 256) = v := by
    intro v h1 h2
    have := uu_eight h8 v
    split_ifs <;> omega
  constructor
  · intro f hf
    refine ⟨fun i => f (if i < 128 then (i : ℤ) else i - 256), fun v h1 h2 => ?_⟩
    unfold op1
    dsimp only
    rw [key v h1 h2]
    exact deep_id (hf v).1 (hf v).2
  · intro f hf
    refine ⟨fun i => f (if i / 256 < 128 then ((i / 256 : ℕ) : ℤ) else ((i / 256 : ℕ) : ℤ) - 256)
      (if i % 256 < 128 then ((i % 256 : ℕ) : ℤ) else ((i % 256 : ℕ) : ℤ) - 256), fun v w h1 h2 h3 h4 => ?_⟩
    have hv := uu_eight h8 v
    have hw := uu_eight h8 w
    unfold op2
    rw [index_eight h8]
    dsimp only
    rw [show (uu c v * 256 + uu c w) / 256 = uu c v by omega, show (uu c v * 256 + uu c w) % 256 = uu c w by omega, key v h1 h2,
      key w h3 h4]
    exact deep_id (hf v w).1 (hf v w).2

example : P8.H = 8 ∧ op2 P8 (fun i => if i = 64 * 256 + 64 then 96 else 0) 64 64 = 96 ∧ op1 P8 (fun i => -(i : ℤ)) 64 = -64 := by decide

/-- the result of an operation, when it is an `int8_t` -/
def pick : M ℤ → ℤ
  | .ok r => if -128 ≤ r ∧ r < 128 then r else 0
  | .error _ => 0

theorem pick_range : ∀ x : M ℤ, -128 ≤ pick x ∧ pick x < 128
  | .error _ => by simp [pick]
  | .ok r => by by_cases hr : -128 ≤ r ∧ r < 128 <;> simp [pick, hr]

/-- **C122**, an 8-bit holder: tables exist with which `+`, `-`, `*`, `/` of real posits return what `Posit` returns. -/
theorem C122_matches_partial (h : c.WF) (h8 : c.H = 8) (hF : c.fb + 2 ≤ c.F) :
    ∃ tadd tmul tdiv : ℕ → ℤ, ∀ a b v : ℤ, c.fmt.IsReal a → c.fmt.IsReal b →
      (Posit.add c a b = .ok v → op2 c tadd a b = v) ∧ (Posit.sub c a b = .ok v → sub c tadd a b = .ok v) ∧
      (Posit.mul c a b = .ok v → op2 c tmul a b = v) ∧ (b ≠ 0 → Posit.div c a b = .ok v → op2 c tdiv a b = v) := by
  have val : ∀ p : ℤ → ℤ → M ℤ, ∃ t, ∀ v w r, -128 ≤ v → v < 128 → -128 ≤ w → w < 128 → -128 ≤ r → r < 128 → p v w = .ok r →
      op2 c t v w = r := by
    intro p
    obtain ⟨t, ht⟩ := (C122_holds h8).2 (fun v w => pick (p v w)) fun v w => pick_range _
    refine ⟨t, fun v w r h1 h2 h3 h4 h5 h6 hr => ?_⟩
    rw [ht v w h1 h2 h3 h4, hr]
    simp [pick, h5, h6]
  obtain ⟨t1, h1⟩ := val (Posit.add c)
  obtain ⟨t2, h2⟩ := val (Posit.mul c)
  obtain ⟨t3, h3⟩ := val (Posit.div c)
  refine ⟨t1, t2, t3, fun a b v ha hb => ?_⟩
  obtain ⟨a1, a2⟩ := canonical_eight h h8 ha.canonical
  obtain ⟨b1, b2⟩ := canonical_eight h h8 hb.canonical
  have can : ∀ {v}, c.fmt.IsReal v → -128 ≤ v ∧ v < 128 := fun hv => canonical_eight h h8 hv.canonical
  have add : ∀ {b'}, c.fmt.IsReal b' → Posit.add c a b' = .ok v → op2 c t1 a b' = v := fun {b'} hb' hv =>
    h1 a b' v a1 a2 (can hb').1 (can hb').2 (can ((C44_add_closed_partial h hF ha hb').1 hv).1).1
      (can ((C44_add_closed_partial h hF ha hb').1 hv).1).2 hv
  refine ⟨add hb, fun hv => ?_, fun hv => ?_, fun hb0 hv => ?_⟩
  · rw [sub_as_add h a hb] at hv
    have e : neg c b = .ok (-b) := by
      unfold neg arithS
      rw [h8, show pw 8 = 32 from rfl, if_pos (by norm_num; omega)]
      exact congrArg Except.ok (deep_id (can hb.neg).1 (can hb.neg).2)
    unfold sub
    rw [e]
    exact congrArg Except.ok (add hb.neg hv)
  · have r := (C44_mul_closed_partial h ha hb hv).1
    exact h2 a b v a1 a2 b1 b2 (can r).1 (can r).2 hv
  · have r := (C44_div_closed_partial h ha hb hb0 hv).1
    exact h3 a b v a1 a2 b1 b2 (can r).1 (can r).2 hv

example : P8.WF ∧ P8.H = 8 ∧ P8.fb + 2 ≤ P8.F ∧ P8.fmt.IsReal 64 ∧ Posit.add P8 64 64 = .ok 96 ∧ Posit.sub P8 64 96 = .ok (-64) ∧
    op2 P8 (fun i => if i = 64 * 256 + 64 then 96 else 0) 64 64 = 96 := by decide +kernel

/-- **C122**, comparisons, `std::min` and `std::max` order real posits by value, for every holder. -/
theorem C122_order {a b : ℤ} (ha : c.fmt.IsReal a) (hb : c.fmt.IsReal b) :
    (lt a b = true ↔ c.fmt.val a < c.fmt.val b) ∧ (gt a b = true ↔ c.fmt.val b < c.fmt.val a) ∧
    (le a b = true ↔ c.fmt.val a ≤ c.fmt.val b) ∧ (ge a b = true ↔ c.fmt.val b ≤ c.fmt.val a) ∧
    (eq a b = true ↔ c.fmt.val a = c.fmt.val b) ∧ (ne a b = true ↔ c.fmt.val a ≠ c.fmt.val b) ∧
    c.fmt.val (min a b) = Min.min (c.fmt.val a) (c.fmt.val b) ∧ c.fmt.val (max a b) = Max.max (c.fmt.val a) (c.fmt.val b) := by
  have h1 := Format.val_le_iff ha.inRange hb.inRange
  have h2 := Format.val_le_iff hb.inRange ha.inRange
  have h3 := Format.val_inj ha.inRange hb.inRange
  have h4 := Format.val_lt_iff ha.inRange hb.inRange
  have h5 := Format.val_lt_iff hb.inRange ha.inRange
  refine ⟨by simp [lt, h4], by simp [gt, h5], by simp [le, h1], by simp [ge, h2], by simp [eq, h3], by simp [ne, h3], ?_, ?_⟩
  · unfold min le
    by_cases h : a ≤ b
    · rw [if_pos (by simpa using h), min_eq_left (h1.mpr h)]
    · rw [if_neg (by simpa using h), min_eq_right (h2.mpr (by omega))]
  · unfold max ge
    by_cases h : b ≤ a
    · rw [if_pos (by simpa using h), max_eq_left (h2.mpr h)]
    · rw [if_neg (by simpa using h), max_eq_right (h1.mpr (by omega))]

example : P16.fmt.IsReal (-5) ∧ P16.fmt.IsReal 300 ∧ lt (-5) 300 = true ∧ min (-5) 300 = -5 ∧ max (-5) 300 = 300 := by decide

/-- **C122**, an 8-bit holder: unary minus and `std::abs` of real posits are exact. -/
theorem C122_neg (h : c.WF) (h8 : c.H = 8) {v : ℤ} (hv : c.fmt.IsReal v) :
    (∃ w, neg c v = .ok w ∧ c.fmt.IsReal w ∧ c.fmt.val w = -c.fmt.val v) ∧
    ∃ w, abs c v = .ok w ∧ c.fmt.IsReal w ∧ c.fmt.val w = |c.fmt.val v| := by
  have can : ∀ {v}, c.fmt.IsReal v → -128 ≤ v ∧ v < 128 := fun hv => canonical_eight h h8 hv.canonical
  have e : neg c v = .ok (-v) := by
    unfold neg arithS
    have := can hv
    rw [h8, show pw 8 = 32 from rfl, if_pos (by norm_num; omega)]
    exact congrArg Except.ok (deep_id (can hv.neg).1 (can hv.neg).2)
  refine ⟨⟨-v, e, hv.neg, Format.val_neg _ _⟩, ?_⟩
  unfold abs
  by_cases h0 : v < 0
  · rw [if_pos h0]
    exact ⟨-v, e, hv.neg, by rw [Format.val_neg, abs_of_neg ((Format.val_neg_iff hv.inRange).mpr h0)]⟩
  · rw [if_neg h0]
    refine ⟨v, congrArg Except.ok (deep_id (can hv).1 (can hv).2), hv, ?_⟩
    rw [abs_of_nonneg]
    by_contra hc
    exact h0 ((Format.val_neg_iff hv.inRange).mp (not_le.mp hc))

example : P8.WF ∧ P8.H = 8 ∧ P8.fmt.IsReal (-96) ∧ neg P8 (-96) = .ok 96 ∧ abs P8 (-96) = .ok 96 ∧ P8.fmt.val 96 = 2 := by decide +kernel

/-- **C122**, the constructor from `int` returns what that of `Posit` returns, for every `int`. -/
theorem C122_ofInt (h : c.WF) (hF : c.fb + 2 ≤ c.F) (a : ℤ) : ofInt c a = Posit.ofInt c a := by
  unfold ofInt
  split_ifs with h0 h1
  · rw [h0, C20_zero h]
  · rw [h1, (C93_one h hF).2.2.2.2.2]
  · rfl

example : P16.WF ∧ P16.fb + 2 ≤ P16.F ∧ ofInt P16 1 = .ok P16.one ∧ P16.one = 2 ^ 14 := by decide +kernel

/-- **C122** does not hold for more than 8 bits: the constructor of every result takes an `int8_t`. `one()` is right exactly up to 8 bits;
from 10 bits on no table whatsoever makes `1 + 0`, `1 * 1` or `1 / 1` right, and `-(1)` is 0. -/
theorem C122_wide_wrong (h : c.WF) :
    (one c = c.one ↔ c.N ≤ 8) ∧
    (9 ≤ c.N → ∀ (t : ℕ → ℤ) (a b : ℤ), op2 c t a b ≠ c.one ∧ op1 c t a ≠ c.one) ∧
    (10 ≤ c.N → one c = 0 ∧ neg c c.one = .ok 0 ∧ neg c c.mone = .ok 0) := by
  have e := one_eq h
  have e' := mone_eq h
  have hN := h.N_ge
  have big : 9 ≤ c.N → 128 ≤ c.one := fun h9 => by
    rw [e]
    calc (128 : ℤ) = 2 ^ 7 := by norm_num
      _ ≤ _ := pow_le_pow_right₀ (by norm_num) (by omega)
  refine ⟨⟨fun hh => ?_, fun hh => ?_⟩, fun h9 t a b => ⟨fun hh => ?_, fun hh => ?_⟩, fun h10 => ?_⟩
  · by_contra hc
    have := big (by omega)
    have := deep_range c.one
    unfold one at hh
    omega
  · have : (2 : ℤ) ^ (c.N - 2) ≤ 2 ^ 6 := pow_le_pow_right₀ (by norm_num) (by omega)
    have h0 : (0 : ℤ) < 2 ^ (c.N - 2) := by positivity
    norm_num at this
    exact deep_id (by omega) (by omega)
  · have := big h9
    have := deep_range (t (index c a b))
    unfold op2 at hh
    omega
  · have := big h9
    have := deep_range (t (uu c a))
    unfold op1 at hh
    omega
  · obtain ⟨k, hk⟩ : ∃ k, c.N - 2 = 8 + k := ⟨c.N - 10, by omega⟩
    have d1 : deep (2 ^ (c.N - 2)) = 0 := wrapS_eq (by norm_num) (2 ^ k) (by rw [hk, pow_add]; ring) ⟨by norm_num, by norm_num⟩
    have d2 : deep (-2 ^ (c.N - 2)) = 0 := wrapS_eq (by norm_num) (-2 ^ k) (by rw [hk, pow_add]; ring) ⟨by norm_num, by norm_num⟩
    have hp : (2 : ℤ) ^ (c.N - 2) < 2 ^ (pw c.H - 1) := by
      apply pow_lt_pow_right₀ (by norm_num)
      have := le_pw c.H
      have := h.hN
      omega
    have h0 : (0 : ℤ) < 2 ^ (c.N - 2) := by positivity
    unfold one neg arithS
    rw [e, e']
    refine ⟨d1, ?_, ?_⟩
    · rw [if_pos (by constructor <;> omega)]
      exact congrArg Except.ok d2
    · rw [if_pos (by constructor <;> omega), neg_neg]
      exact congrArg Except.ok d1

example : P16.WF ∧ 10 ≤ P16.N ∧ P16.one = 16384 ∧ one P16 = 0 ∧ P8.WF ∧ one P8 = 64 ∧ Posit.add P16 P16.one 0 = .ok P16.one := by decide +kernel

/-- **C122** would not hold for wider holders with a wider argument of the constructor either: the operands `(1, b)` and `(0, 256 + b)`
share a place in the table. -/
theorem C122_stride_wrong (h : c.WF) (hH : c.H ≠ 8) {a b : ℤ} (ha : 0 ≤ a) (hb : 0 ≤ b) (ha2 : a < 2 ^ (c.H - 1) - 1)
    (hb2 : b + 256 < 2 ^ (c.H - 1)) (t : ℕ → ℤ) :
    index c (a + 1) b = index c a (b + 256) ∧ op2 c t (a + 1) b = op2 c t a (b + 256) := by
  have key : index c (a + 1) b = index c a (b + 256) := by
    have hp : (2 : ℤ) ^ c.H = 2 ^ (c.H - 1) * 2 := by
      rw [← pow_succ]; congr 1; have := h.hH; omega
    have u : ∀ x : ℤ, 0 ≤ x → x < 2 ^ (c.H - 1) → uu c x = x.toNat := by
      intro x h0 h1
      unfold uu wrapU
      rw [Int.emod_eq_of_lt h0 (by omega)]
    unfold index
    rw [u _ (by omega) (by omega), u _ (by omega) (by omega), u _ (by omega) (by omega), u _ (by omega) (by omega)]
    rw [show (a + 1).toNat * 256 + b.toNat = a.toNat * 256 + (b + 256).toNat by omega]
  exact ⟨key, by unfold op2; rw [key]⟩

example : P16.WF ∧ P16.H ≠ 8 ∧ index P16 1 0 = 256 ∧ index P16 0 256 = 256 ∧ Posit.add P16 1 0 = .ok 1 ∧
    Posit.add P16 0 256 = .ok 256 := by decide +kernel

/-- **C122**, special values: up to 8 bits the constants are those of `Posit`; `is_nan()` is that of `Posit`, for every pattern. -/
theorem C122_special (h : c.WF) :
    (c.N ≤ 8 → nan c = c.nan ∧ pinfinity c = c.pinf ∧ ninfinity c = c.ninf) ∧
    (∀ v, isNan c v = Posit.isNaN c v) ∧ (c.spec ≠ .withNan → ∀ v, isInfinity c v = Posit.isInfinity c v) := by
  refine ⟨fun h8 => ?_, fun v => ?_, fun hs v => ?_⟩
  · have : (2 : ℤ) ^ (c.N - 1) ≤ 2 ^ 7 := pow_le_pow_right₀ (by norm_num) (by omega)
    have h0 : (0 : ℤ) < 2 ^ (c.N - 1) := by positivity
    norm_num at this
    unfold nan pinfinity ninfinity
    rw [h.nan_eq, h.pinf_eq, h.ninf_eq]
    refine ⟨deep_id (by omega) (by omega), deep_id ?_ ?_, deep_id ?_ ?_⟩ <;> split_ifs <;> omega
  · unfold isNan Posit.isNaN Cfg.withnan
    rfl
  · unfold isInfinity Posit.isInfinity
    simp [hs, Bool.or_comm]

example : P8.WF ∧ P8.N ≤ 8 ∧ nan P8 = -128 ∧ P8i.WF ∧ P8i.spec ≠ .withNan ∧ isInfinity P8i P8i.pinf = true := by decide

/-- **C122** does not hold for `is_infinity()` of a format without infinities: NaN counts as infinite. -/
theorem C122_infinity_wrong (h : c.WF) (hs : c.spec = .withNan) : isInfinity c c.nan = true ∧ isNan c c.nan = true ∧ Posit.isInfinity c c.nan = false := by
  unfold isInfinity isNan Posit.isInfinity Cfg.withnan
  rw [h.nan_eq, h.pinf_eq, h.ninf_eq]
  simp [hs]

example : P8.WF ∧ P8.spec = .withNan ∧ P8.nan = -128 := by decide

/-! ## Conversion to float -/

theorem num_field {b : ℕ} {q : ℚ} (hb : b < 2 ^ 32) (h : ieee 8 23 b = .num q) : ∃ s e m : ℕ, s < 2 ∧ e < 255 ∧ m < 2 ^ 23 ∧
    b = s * 2 ^ 31 + e * 2 ^ 23 + m ∧
    q = (if s = 1 then -1 else 1) * (if e = 0 then (m : ℚ) * 2 ^ (-149 : ℤ) else (2 ^ 23 + m) * 2 ^ ((e : ℤ) - 150)) := by
  have hb' : b = b / 2 ^ 31 * 2 ^ 31 + b / 2 ^ 23 % 2 ^ 8 * 2 ^ 23 + b % 2 ^ 23 := by omega
  have hf := HalfPrec.ieee_fields 8 23 (b / 2 ^ 31) (b / 2 ^ 23 % 2 ^ 8) (b % 2 ^ 23) (by omega) (Nat.mod_lt _ (by norm_num)) (Nat.mod_lt _ (by norm_num))
  rw [show 8 + 23 = 31 from rfl, ← hb', h] at hf
  have he := Nat.mod_lt (b / 2 ^ 23) (show 0 < 2 ^ 8 by norm_num)
  refine ⟨b / 2 ^ 31, b / 2 ^ 23 % 2 ^ 8, b % 2 ^ 23, by omega, ?_, Nat.mod_lt _ (by norm_num), hb', ?_⟩
  · by_contra hc
    rw [if_pos (by omega)] at hf
    split_ifs at hf
  · by_cases h1 : b / 2 ^ 23 % 2 ^ 8 = 2 ^ 8 - 1
    · rw [if_pos h1] at hf
      split_ifs at hf
    · rw [if_neg h1] at hf
      by_cases h2 : b / 2 ^ 23 % 2 ^ 8 = 0
      · rw [if_pos h2] at hf ⊢
        rw [XNum.num.inj hf]
        norm_num
      · rw [if_neg h2] at hf ⊢
        rw [XNum.num.inj hf]
        congr 3
        push_cast
        ring

theorem ieee_zero32 : ieee 8 23 0 = .num 0 := by norm_num [ieee]

/-- **C122** does not hold for the conversion to `float`: the table holds floats, but the entry is converted to an integer whose
bits become the result. With an entry of finite value `q` the conversion returns a float of that value only if `q = 0`, and
is undefined for every `q ≤ -1`. -/
theorem C122_float_wrong (t : ℕ → ℕ) (v : ℤ) {q : ℚ} (hb : t (uu c v) < 2 ^ 32) (hq : ieee 8 23 (t (uu c v)) = .num q) :
    ((∃ r, toFloat c t v = .ok r ∧ ieee 8 23 r = .num q) ↔ q = 0) ∧ (q ≤ -1 → toFloat c t v = .error .overflow) := by
  unfold toFloat
  generalize t (uu c v) = b at hb hq
  obtain ⟨s, e, m, hs, he, hm, hbe, hv⟩ := num_field hb hq
  have f1 : b / 2 ^ 23 % 256 = e := by omega
  have f2 : b / 2 ^ 31 % 2 = s := by omega
  have f3 : b % 2 ^ 23 = m := by omega
  have hm' : (m : ℚ) < 2 ^ 23 := by exact_mod_cast hm
  have hm0 : (0 : ℚ) ≤ m := by positivity
  unfold toU32
  rw [f1, f2, f3]
  dsimp only
  by_cases h1 : e < 127
  · rw [if_pos h1]
    constructor
    · constructor
      · rintro ⟨r, hr, hrq⟩
        rw [← Except.ok.inj hr, ieee_zero32] at hrq
        exact (XNum.num.inj hrq).symm
      · rintro rfl
        exact ⟨0, rfl, ieee_zero32⟩
    · intro hq1
      have lt1 : (if e = 0 then (m : ℚ) * 2 ^ (-149 : ℤ) else (2 ^ 23 + m) * 2 ^ ((e : ℤ) - 150)) < 1 := by
        split_ifs with h0
        · have : (2 : ℚ) ^ (-149 : ℤ) ≤ 2 ^ (-23 : ℤ) := zpow_le_zpow_right₀ (by norm_num) (by norm_num)
          have e23 : (2 : ℚ) ^ 23 * 2 ^ (-23 : ℤ) = 1 := by norm_num
          have p : (0 : ℚ) < 2 ^ (-23 : ℤ) := by positivity
          nlinarith
        · have : (2 : ℚ) ^ ((e : ℤ) - 150) ≤ 2 ^ (-24 : ℤ) := zpow_le_zpow_right₀ (by norm_num) (by omega)
          have e23 : (2 : ℚ) ^ 24 * 2 ^ (-24 : ℤ) = 1 := by norm_num
          have p : (0 : ℚ) < 2 ^ (-24 : ℤ) := by positivity
          nlinarith
      have ge0 : (0 : ℚ) ≤ (if e = 0 then (m : ℚ) * 2 ^ (-149 : ℤ) else (2 ^ 23 + m) * 2 ^ ((e : ℤ) - 150)) := by
        split_ifs <;> positivity
      exfalso
      rw [hv] at hq1
      split_ifs at hq1 lt1 ge0 <;> linarith
  · rw [if_neg h1]
    rw [if_neg (show e ≠ 0 by omega)] at hv
    have pos : (0 : ℚ) < (2 ^ 23 + m) * 2 ^ ((e : ℤ) - 150) := by positivity
    by_cases h2 : s = 1 ∨ 158 < e
    · rw [if_pos h2]
      refine ⟨⟨(fun ⟨r, hr, _⟩ => by cases hr), fun h0 => ?_⟩, fun _ => rfl⟩
      exfalso
      split_ifs at hv <;> linarith
    · rw [if_neg h2]
      have hs0 : s = 0 := by omega
      rw [if_neg (by omega), one_mul] at hv
      rw [← hv] at pos
      refine ⟨⟨?_, fun h0 => absurd h0 pos.ne'⟩, fun hq1 => by linarith⟩
      rintro ⟨r, hr, hrq⟩
      exfalso
      have hr' := Except.ok.inj hr
      have rlt : r < 2 ^ 32 := by
        rw [← hr']
        obtain ⟨k, rfl⟩ : ∃ k, e = 127 + k := ⟨e - 127, by omega⟩
        have hk : k ≤ 31 := by omega
        have : 2 ^ (127 + k - 127) ≤ 2 ^ 31 := Nat.pow_le_pow_right (by norm_num) (by omega)
        rw [Nat.div_lt_iff_lt_mul (by norm_num)]
        calc (2 ^ 23 + m) * 2 ^ (127 + k - 127) ≤ (2 ^ 23 + m) * 2 ^ 31 := Nat.mul_le_mul_left _ this
          _ < _ := by omega
      have rb : r = b := by
        refine NearGen.ieee_inj (eb := 8) (fb := 23) (by omega) (by omega) (by rw [hrq, hq]) (by rw [hrq]; nofun) ?_
        obtain ⟨s', e', m', hs', he', hm'', hre, hv'⟩ := num_field rlt hrq
        have hs1 : s' = 0 := by
          by_contra hc
          have ge0 : (0 : ℚ) ≤ (if e' = 0 then (m' : ℚ) * 2 ^ (-149 : ℤ) else (2 ^ 23 + m') * 2 ^ ((e' : ℤ) - 150)) := by
            split_ifs <;> positivity
          rw [if_pos (show s' = 1 by omega)] at hv'
          linarith
        unfold signBit
        rw [show r / 2 ^ (8 + 23) % 2 = 0 by omega, show b / 2 ^ (8 + 23) % 2 = 0 by omega]
      rw [rb] at hr'
      interval_cases e <;> norm_num at hr' <;> omega

example : ieee 8 23 0x3f800000 = .num 1 ∧ toFloat P8 (fun _ => 0x3f800000) 64 = .ok 1 ∧ ieee 8 23 0xc0000000 = .num (-2) ∧
    toFloat P8 (fun _ => 0xc0000000) (-96) = .error .overflow := by
  refine ⟨by norm_num [ieee], by decide, by norm_num [ieee], by decide⟩

end TPosit
end Verif
