import Verif.Props.SoftWrap
import Verif.Spec.SoftExp2

/-!
# C108 — the table of exp2 for half floats

src/softfloat_gen.cpp:7-23 and tests/testsoftfloat.cpp:10-15. `IsExp2` states what is assumed of the C function.
-/

namespace Verif
open NearGen

variable {l : SoftLib} {e : ℕ → ℕ} {a b : ℕ}

/-- The assumption on `exp2` can be met. -/
theorem C108_exists : ∃ e, IsExp2 e := by
  classical
  have htv : g 8 23 (top 8 23) = 2 ^ (128 : ℤ) := by rw [g_top (by norm_num)]; norm_num
  have ht32 : top 8 23 + 1 < 2 ^ (8 + 23) := by norm_num [top]
  -- magnitude bits of the greatest number not above `v`
  have J : ∀ v : ℝ, ∃ j, j ≤ top 8 23 ∧ (0 ≤ v → v < 2 ^ (128 : ℤ) →
      j < top 8 23 ∧ ((g 8 23 j : ℚ) : ℝ) ≤ v ∧ v < ((g 8 23 (j + 1) : ℚ) : ℝ)) ∧ (2 ^ (128 : ℤ) ≤ v → j = top 8 23) := by
    intro v
    by_cases hv : 0 ≤ v ∧ v < 2 ^ (128 : ℤ)
    · obtain ⟨j, h1, h2, h3⟩ := exists_between_real (eb := 8) (fb := 23) (by norm_num) hv.1 (by
        have : ((2 ^ ((2 : ℤ) ^ (8 - 1)) : ℚ) : ℝ) = 2 ^ (128 : ℤ) := by norm_num
        rw [this]; exact hv.2)
      exact ⟨j, by omega, fun _ _ => ⟨by omega, h2, h3⟩, fun h => by linarith [hv.2]⟩
    · exact ⟨top 8 23, le_rfl, fun h1 h2 => absurd ⟨h1, h2⟩ hv, fun _ => rfl⟩
  choose J hJt hJ hJb using J
  have hpos : ∀ x : ℚ, (0 : ℝ) < (2 : ℝ) ^ (x : ℝ) := fun x => Real.rpow_pos_of_pos (by norm_num) _
  have hJm : ∀ v w : ℝ, 0 ≤ v → v ≤ w → J v ≤ J w := by
    intro v w h0 h
    rcases lt_or_ge w (2 ^ (128 : ℤ)) with hw | hw
    · obtain ⟨-, h1, -⟩ := hJ v h0 (lt_of_le_of_lt h hw)
      obtain ⟨-, -, h2⟩ := hJ w (h0.trans h) hw
      have : g 8 23 (J v) < g 8 23 (J w + 1) := by
        have : ((g 8 23 (J v) : ℚ) : ℝ) < ((g 8 23 (J w + 1) : ℚ) : ℝ) := by linarith
        exact_mod_cast this
      have := (g_mono (eb := 8) (fb := 23)).lt_iff_lt.1 this
      omega
    · rw [hJb w hw]; exact hJt v
  have val : ∀ k, k ≤ top 8 23 → ieee 8 23 k = if k < top 8 23 then .num (g 8 23 k) else .inf false := by
    intro k hk
    have := ieee_gen (eb := 8) (fb := 23) 0 k (by norm_num) (by omega)
    rw [zero_mul, zero_add] at this
    rw [this]
    by_cases h : k < top 8 23
    · rw [if_pos h, if_pos h]; simp
    · rw [if_neg h, if_neg h, if_pos (by omega)]; simp
  refine ⟨fun f => match ieee 8 23 f with
    | .num x => J ((2 : ℝ) ^ (x : ℝ))
    | .inf false => top 8 23
    | .inf true => 0
    | .nan => top 8 23 + 1, ?_⟩
  refine ⟨fun f => ?_, fun {f x} hx => ?_, fun {f f' x x'} hx hx' h => ?_, fun {f n} hx h1 h2 => ?_, fun {f x} hx h1 h2 => ?_,
    fun {f} hf => ?_, fun {f} hf => ?_, fun {f} hf => ?_⟩
  · split
    · exact (hJt _).trans_lt (by norm_num [top])
    all_goals norm_num [top]
  · rw [hx]
    dsimp only
    rw [val _ (hJt _)]
    split
    · exact Or.inl ⟨_, rfl, g_nonneg _⟩
    · exact Or.inr rfl
  · rw [hx, hx']
    dsimp only
    have hm := hJm ((2 : ℝ) ^ (x : ℝ)) ((2 : ℝ) ^ (x' : ℝ)) (hpos x).le
      (Real.rpow_le_rpow_of_exponent_le (by norm_num) (by exact_mod_cast h))
    rw [val _ (hJt _), val _ (hJt _)]
    have hg := (g_mono (eb := 8) (fb := 23)).monotone hm
    split <;> split
    · simp only [XNum.Below, not_lt]; exact hg
    · have := hJt ((2 : ℝ) ^ (x : ℝ)); omega
    · simp [XNum.Below]
    · simp [XNum.Below]
  · rw [hx]
    dsimp only
    have ev : (2 : ℝ) ^ (((n : ℚ)) : ℝ) = (((2 : ℚ) ^ n : ℚ) : ℝ) := by
      rw [Rat.cast_intCast, Real.rpow_intCast]; push_cast; rfl
    obtain ⟨c, hc⟩ := ieee_of_int (eb := 8) (fb := 23) (by norm_num) (n := 1) (A := n) (by norm_num) (by norm_num; omega) (by
      rw [Int.cast_one, one_mul, abs_of_pos (by positivity)]
      exact zpow_lt_zpow_right₀ (by norm_num) (by norm_num; omega))
    rw [Int.cast_one, one_mul] at hc
    obtain ⟨s, k, hs, hk, -, hq⟩ := ieee_num_gen hc
    have hs1 : ¬ s = 1 := fun h => by
      rw [if_pos h] at hq
      have := g_nonneg (eb := 8) (fb := 23) k
      have : (0 : ℚ) < 2 ^ n := by positivity
      linarith
    rw [if_neg hs1, one_mul] at hq
    have hlt : (((2 : ℚ) ^ n : ℚ) : ℝ) < 2 ^ (128 : ℤ) := by
      push_cast
      exact zpow_lt_zpow_right₀ (by norm_num) h2
    rw [ev]
    obtain ⟨h3, h4, h5⟩ := hJ (((2 : ℚ) ^ n : ℚ) : ℝ) (by positivity) hlt
    have h4' : g 8 23 (J (((2 : ℚ) ^ n : ℚ) : ℝ)) ≤ 2 ^ n := by exact_mod_cast h4
    have h5' : (2 : ℚ) ^ n < g 8 23 (J (((2 : ℚ) ^ n : ℚ) : ℝ) + 1) := by exact_mod_cast h5
    rw [hq] at h4' h5'
    have i1 := (g_mono (eb := 8) (fb := 23)).le_iff_le.1 h4'
    have i2 := (g_mono (eb := 8) (fb := 23)).lt_iff_lt.1 h5'
    have i3 : J (g 8 23 k : ℝ) = k := by omega
    rw [hq, i3, val k hk.le, if_pos hk]
  · rw [hx]
    dsimp only
    have hlt : (2 : ℝ) ^ (x : ℝ) < 2 ^ (128 : ℤ) := by
      rw [← Real.rpow_intCast]
      exact Real.rpow_lt_rpow_of_exponent_lt (by norm_num) (by exact_mod_cast h2)
    have hge : (((2 : ℚ) ^ (-126 : ℤ) : ℚ) : ℝ) ≤ (2 : ℝ) ^ (x : ℝ) := by
      have : (((2 : ℚ) ^ (-126 : ℤ) : ℚ) : ℝ) = (2 : ℝ) ^ ((-126 : ℤ) : ℝ) := by rw [Real.rpow_intCast]; push_cast; rfl
      rw [this]
      exact Real.rpow_le_rpow_of_exponent_le (by norm_num) (by exact_mod_cast h1)
    obtain ⟨h3, h4, h5⟩ := hJ _ (hpos x).le hlt
    generalize J ((2 : ℝ) ^ (x : ℝ)) = j at *
    refine ⟨g 8 23 j, by rw [val j h3.le, if_pos h3], ?_⟩
    have hj : 2 ^ 23 ≤ j := by
      by_contra hc
      have : g 8 23 (j + 1) ≤ g 8 23 (2 ^ 23) := g_mono.monotone (by omega)
      rw [minNorm_eq] at this
      have e : minNorm 8 = 2 ^ (-126 : ℤ) := by norm_num [minNorm]
      rw [e] at this
      have : ((g 8 23 (j + 1) : ℚ) : ℝ) ≤ (((2 : ℚ) ^ (-126 : ℤ) : ℚ) : ℝ) := by exact_mod_cast this
      linarith
    have hg := gap_norm (eb := 8) hj
    have hg' : ((g 8 23 (j + 1) : ℚ) : ℝ) - ((g 8 23 j : ℚ) : ℝ) ≤ ((g 8 23 j : ℚ) : ℝ) / 2 ^ 23 := by exact_mod_cast hg
    rw [abs_of_nonpos (by linarith)]
    have hp := hpos x
    have : ((g 8 23 j : ℚ) : ℝ) / 2 ^ 23 ≤ (2 : ℝ) ^ (x : ℝ) / 2 ^ 23 := by gcongr
    have : (2 : ℝ) ^ (x : ℝ) / 2 ^ 23 ≤ (2 : ℝ) ^ (x : ℝ) / 2 ^ 22 := by
      apply div_le_div_of_nonneg_left hp.le <;> norm_num
    linarith
  · rw [hf]; dsimp only; rw [val _ le_rfl, if_neg (lt_irrefl _)]
  · rw [hf]; dsimp only; exact ieee_zero' (by norm_num)
  · rw [hf]; dsimp only
    norm_num [top, ieee]

/-- Every half float has an entry: the `exp2` of its `float`, converted back. -/
theorem C108_entry (a : ℕ) (ha : a < 2 ^ 16) : Soft16.exp2t l e a = some (Soft16.ofFloat l (e (Soft16.toFloat l a))) := by
  unfold Soft16.exp2t Soft16.exp2Table
  rw [Array.getElem?_map, Array.getElem?_range, if_pos (by simpa using ha)]
  rfl

example : Soft16.exp2t l e 0xFFFF = some (Soft16.ofFloat l (e (Soft16.toFloat l 0xFFFF))) := C108_entry _ (by norm_num)

/-- a pattern of a number in the format of `float` -/
theorem float_of_half (hl : l.Correct) (ha : a < 2 ^ 16) : ieee 8 23 (Soft16.toFloat l a) = ieee 5 10 a :=
  ((C107_widen hl).1 ha).1

/-- Entries of integers are exact: 2^n from -24 to 15. From 16 on the entry is infinity, up to -25 it is zero, also between integers. -/
theorem C108_int (hl : l.Correct) (he : IsExp2 e) (ha : a < 2 ^ 16) {x : ℚ} (hx : ieee 5 10 a = .num x) :
    ∃ b, Soft16.exp2t l e a = some b ∧ (∀ n : ℤ, x = n → -24 ≤ n → n ≤ 15 → ieee 5 10 b = .num (2 ^ n)) ∧
      (16 ≤ x → ieee 5 10 b = .inf false) ∧ (x ≤ -25 → ieee 5 10 b = .num 0) := by
  refine ⟨_, C108_entry a ha, fun n hn h1 h2 => ?_, fun h => ?_, fun h => ?_⟩
  all_goals
    have hf := (float_of_half hl ha).trans hx
    have hr := (hl.f32_to_f16 (he.lt (Soft16.toFloat l a))).1
    unfold Soft16.ofFloat
  · rw [hn] at hf
    rw [he.int hf (by omega) (by omega)] at hr
    obtain ⟨c, hc⟩ := ieee_of_int (eb := 5) (fb := 10) (by norm_num) (n := 1) (A := n) (by norm_num) (by norm_num; omega) (by
      rw [Int.cast_one, one_mul, abs_of_pos (by positivity)]
      exact zpow_lt_zpow_right₀ (by norm_num) (by norm_num; omega))
    rw [Int.cast_one, one_mul] at hc
    exact nearest_exact (by norm_num) hr hc
  · have h16 : ieee 8 23 0x41800000 = .num ((16 : ℤ) : ℚ) := by norm_num [ieee]
    have hm := he.mono h16 hf (by exact_mod_cast h)
    rw [he.int h16 (by norm_num) (by norm_num)] at hm
    rcases he.nonneg hf with ⟨y, hy, hy0⟩ | hy
    · rw [hy] at hm hr
      simp only [XNum.Below, not_lt] at hm
      have := hr.2.2.1 (by
        rw [abs_of_nonneg hy0]
        refine le_trans ?_ hm
        norm_num [overflowAt])
      rw [this, decide_eq_false (not_lt.mpr hy0)]
    · rw [hy] at hr; exact hr.2
  · have h25 : ieee 8 23 0xc1c80000 = .num ((-25 : ℤ) : ℚ) := by norm_num [ieee]
    have hm := he.mono hf h25 (by exact_mod_cast h)
    rw [he.int h25 (by norm_num) (by norm_num)] at hm
    rcases he.nonneg hf with ⟨y, hy, hy0⟩ | hy
    · rw [hy] at hm hr
      simp only [XNum.Below, not_lt] at hm
      -- at most half the least number: rounded to zero
      have hb : |y| < overflowAt 5 10 := by
        rw [abs_of_nonneg hy0]
        refine lt_of_le_of_lt hm ?_
        norm_num [overflowAt]
      obtain ⟨s, k, hs2, hk, hbk, hs, hn⟩ := nearest_split (by norm_num) (by norm_num) hr
      have hk0 : k = 0 := by
        by_contra hc
        obtain ⟨i, rfl⟩ : ∃ i, k = i + 1 := ⟨k - 1, by omega⟩
        obtain ⟨m1, m2⟩ := hn.2.1 i rfl
        have h0 : mid 5 10 0 = 2 ^ (-25 : ℤ) := by
          unfold mid
          rw [g_zero, g_sub 1 (by norm_num)]; norm_num
        have hle : mid 5 10 0 ≤ mid 5 10 i := mid_mono.monotone (Nat.zero_le i)
        rw [abs_of_nonneg hy0] at m1 m2
        rw [h0] at hle
        have hi : mid 5 10 i = mid 5 10 0 := by rw [h0]; linarith
        have hi0 := (mid_mono (eb := 5) (fb := 10)).injective hi
        subst hi0
        have := m2 (by rw [h0]; linarith)
        omega
      obtain ⟨z, hz, -⟩ := hr.2.2.2 hb
      rw [hbk, hk0] at hz ⊢
      rw [ieee_gen s 0 hs2 (by norm_num), if_pos (by norm_num [top]), g_zero, mul_zero]
    · rw [hy] at hm; simp [XNum.Below] at hm

example (hl : l.Correct) (he : IsExp2 e) : ∃ b, Soft16.exp2t l e 0xC880 = some b ∧ ieee 5 10 b = .num (2 ^ (-9 : ℤ)) := by
  obtain ⟨b, h1, h2, -⟩ := C108_int hl he (a := 0xC880) (x := -9) (by norm_num) (by norm_num [ieee])
  exact ⟨b, h1, h2 (-9) (by norm_num) (by norm_num) (by norm_num)⟩

/-- Greater operands do not have lesser entries. -/
theorem C108_mono (hl : l.Correct) (he : IsExp2 e) (ha : a < 2 ^ 16) (hb : b < 2 ^ 16) {x y : ℚ} (hx : ieee 5 10 a = .num x)
    (hy : ieee 5 10 b = .num y) (h : Soft16.le l a b = true) :
    ∃ p q, Soft16.exp2t l e a = some p ∧ Soft16.exp2t l e b = some q ∧ Soft16.le l p q = true := by
  have hxy : x ≤ y := (le_num hl.f16 ha hb hx hy).1 h
  have fa := (float_of_half hl ha).trans hx
  have fb := (float_of_half hl hb).trans hy
  have hm := he.mono fa fb hxy
  refine ⟨_, _, C108_entry a ha, C108_entry b hb, ?_⟩
  have ra := (hl.f32_to_f16 (he.lt (Soft16.toFloat l a))).1
  have rb := (hl.f32_to_f16 (he.lt (Soft16.toFloat l b))).1
  unfold Soft16.ofFloat
  rcases he.nonneg fa with ⟨u, hu, hu0⟩ | hu
  · rw [hu] at hm ra
    rcases he.nonneg fb with ⟨v, hv, hv0⟩ | hv
    · rw [hv] at hm rb
      exact rounded_le (by norm_num) (by norm_num) hl.f16 ra rb (not_lt.mp hm)
    · rw [hv] at rb
      refine (hl.f16.le ra.1 rb.1).2 ?_
      rw [rb.2, below_total (nearest_not_nan ra) (by simp)]
      cases ieee 5 10 (l.f32_to_f16 (e (Soft16.toFloat l a))) <;> simp [XNum.Below]
  · rw [hu] at hm ra
    rcases he.nonneg fb with ⟨v, hv, hv0⟩ | hv
    · rw [hv] at hm; simp [XNum.Below] at hm
    · rw [hv] at rb
      refine (hl.f16.le ra.1 rb.1).2 ?_
      rw [ra.2, rb.2]; simp [XNum.Same]

example (hl : l.Correct) (he : IsExp2 e) : ∃ p q, Soft16.exp2t l e 0x3C00 = some p ∧ Soft16.exp2t l e 0x4000 = some q ∧ Soft16.le l p q = true :=
  C108_mono hl he (x := 1) (y := 2) (by norm_num) (by norm_num) (by norm_num [ieee]) (by norm_num [ieee])
    ((le_num hl.f16 (by norm_num) (by norm_num) (x := 1) (y := 2) (by norm_num [ieee]) (by norm_num [ieee])).2 (by norm_num))

/-- From -14 to below 16 the relative error of the entries is at most half a unit in the last place plus that of `exp2`. -/
theorem C108_error (hl : l.Correct) (he : IsExp2 e) (ha : a < 2 ^ 16) {x : ℚ} (hx : ieee 5 10 a = .num x) (h1 : -14 ≤ x) (h2 : x < 16) :
    ∃ b z, Soft16.exp2t l e a = some b ∧ ieee 5 10 b = .num z ∧ |(z : ℝ) - (2 : ℝ) ^ (x : ℝ)| ≤ (2 : ℝ) ^ (x : ℝ) * (1 / 2 ^ 11 + 1 / 2 ^ 21) := by
  have hf := (float_of_half hl ha).trans hx
  have hr := (hl.f32_to_f16 (he.lt (Soft16.toFloat l a))).1
  obtain ⟨y, hy, hacc⟩ := he.acc hf (by linarith) (by linarith)
  rw [hy] at hr
  have hp : (0 : ℝ) < (2 : ℝ) ^ (x : ℝ) := Real.rpow_pos_of_pos (by norm_num) _
  -- not below the normal range
  have h14 : ieee 8 23 0xc1600000 = .num ((-14 : ℤ) : ℚ) := by norm_num [ieee]
  have hm := he.mono h14 hf (by exact_mod_cast h1)
  rw [he.int h14 (by norm_num) (by norm_num), hy] at hm
  simp only [XNum.Below, not_lt] at hm
  have hy0 : 0 < y := lt_of_lt_of_le (by positivity) hm
  have hmn : minNorm 5 ≤ |y| := by
    rw [abs_of_pos hy0]; refine le_trans ?_ hm; norm_num [minNorm]
  -- below overflow: the greatest half below 16 is 16 - 1/128
  have hx64 : x ≤ 16 - 1 / 128 := by
    obtain ⟨s, k, hs, hk, -, hz⟩ := ieee_num_gen hx
    have gk := g_nonneg (eb := 5) (fb := 10) k
    by_cases hs1 : s = 1
    · rw [if_pos hs1] at hz; linarith
    · rw [if_neg hs1, one_mul] at hz
      have g1 : g 5 10 0x4C00 = 16 := by
        have h1 := ieee_mag (eb := 5) (fb := 10) (k := 0x4C00) (by norm_num [top])
        rw [show ieee 5 10 0x4C00 = .num 16 by norm_num [ieee]] at h1
        injection h1 with h1; exact h1.symm
      have g2 : g 5 10 0x4BFF = 16 - 1 / 128 := by
        have h1 := ieee_mag (eb := 5) (fb := 10) (k := 0x4BFF) (by norm_num [top])
        rw [show ieee 5 10 0x4BFF = .num (16 - 1 / 128) by norm_num [ieee]] at h1
        injection h1 with h1; exact h1.symm
      rw [hz, ← g1] at h2
      have h3 := (g_mono (eb := 5) (fb := 10)).lt_iff_lt.1 h2
      have h4 : g 5 10 k ≤ g 5 10 0x4BFF := g_mono.monotone (by omega)
      rw [hz]; linarith
  have hup : (2 : ℝ) ^ (x : ℝ) ≤ 65536 * 0.995 := by
    have e1 : (2 : ℝ) ^ (x : ℝ) ≤ (2 : ℝ) ^ ((16 : ℝ) - 1 / 128) :=
      Real.rpow_le_rpow_of_exponent_le (by norm_num) (by
        have : ((x : ℚ) : ℝ) ≤ ((16 - 1 / 128 : ℚ) : ℝ) := by exact_mod_cast hx64
        push_cast at this; exact this)
    refine e1.trans ?_
    rw [Real.rpow_sub (by norm_num)]
    rw [div_le_iff₀ (Real.rpow_pos_of_pos (by norm_num) _)]
    have e2 : (1 / 0.995 : ℝ) ≤ (2 : ℝ) ^ ((1 : ℝ) / 128) := by
      have : ((1 / 0.995 : ℝ) ^ (128 : ℕ)) ^ ((1 : ℝ) / 128) ≤ (2 : ℝ) ^ ((1 : ℝ) / 128) :=
        Real.rpow_le_rpow (by positivity) (by norm_num) (by norm_num)
      rwa [← Real.rpow_natCast, ← Real.rpow_mul (by norm_num), show ((128 : ℕ) : ℝ) * (1 / 128) = 1 by norm_num, Real.rpow_one] at this
    have e3 : (2 : ℝ) ^ (16 : ℝ) = 65536 := by
      rw [show (16 : ℝ) = ((16 : ℕ) : ℝ) by norm_num, Real.rpow_natCast]; norm_num
    rw [e3]
    calc (65536 : ℝ) = 65536 * 0.995 * (1 / 0.995) := by norm_num
      _ ≤ _ := mul_le_mul_of_nonneg_left e2 (by norm_num)
  have hyub : |y| < overflowAt 5 10 := by
    rw [abs_of_pos hy0]
    have := (abs_le.mp hacc).2
    have h3 : (y : ℝ) < 65520 := by
      have : (2 : ℝ) ^ (x : ℝ) / 2 ^ 22 ≤ 65536 * 0.995 / 2 ^ 22 := by gcongr
      have : (65536 * 0.995 : ℝ) + 65536 * 0.995 / 2 ^ 22 < 65520 := by norm_num
      linarith
    have h4 : y < 65520 := by exact_mod_cast h3
    have : overflowAt 5 10 = 65520 := by norm_num [overflowAt]
    rw [this]; exact h4
  obtain ⟨z, hz, herr, -⟩ := nearest_error (by norm_num) (by norm_num) hr hyub
  refine ⟨_, z, C108_entry a ha, hz, ?_⟩
  have h5 := herr hmn
  rw [abs_of_pos hy0] at h5
  have h5' : |(z : ℝ) - y| ≤ (y : ℝ) / 2 ^ 11 := by exact_mod_cast h5
  have h6 := (abs_le.mp hacc).2
  calc |(z : ℝ) - (2 : ℝ) ^ (x : ℝ)| = |((z : ℝ) - y) + (y - (2 : ℝ) ^ (x : ℝ))| := by ring_nf
    _ ≤ |(z : ℝ) - y| + |(y : ℝ) - (2 : ℝ) ^ (x : ℝ)| := abs_add_le _ _
    _ ≤ (y : ℝ) / 2 ^ 11 + (2 : ℝ) ^ (x : ℝ) / 2 ^ 22 := add_le_add h5' hacc
    _ ≤ ((2 : ℝ) ^ (x : ℝ) + (2 : ℝ) ^ (x : ℝ) / 2 ^ 22) / 2 ^ 11 + (2 : ℝ) ^ (x : ℝ) / 2 ^ 22 := by gcongr; linarith
    _ ≤ _ := by
      have : (2 : ℝ) ^ (x : ℝ) * (1 / 2 ^ 11 + 1 / 2 ^ 21) - (((2 : ℝ) ^ (x : ℝ) + (2 : ℝ) ^ (x : ℝ) / 2 ^ 22) / 2 ^ 11 + (2 : ℝ) ^ (x : ℝ) / 2 ^ 22) =
          (2 : ℝ) ^ (x : ℝ) * (1 / 2 ^ 21 - 1 / 2 ^ 22 - 1 / 2 ^ 33) := by ring
      have : (0 : ℝ) ≤ (2 : ℝ) ^ (x : ℝ) * (1 / 2 ^ 21 - 1 / 2 ^ 22 - 1 / 2 ^ 33) := mul_nonneg hp.le (by norm_num)
      linarith

example (hl : l.Correct) (he : IsExp2 e) : ∃ b z, Soft16.exp2t l e 0x3800 = some b ∧ ieee 5 10 b = .num z ∧
    |(z : ℝ) - (2 : ℝ) ^ (((1 / 2 : ℚ)) : ℝ)| ≤ (2 : ℝ) ^ (((1 / 2 : ℚ)) : ℝ) * (1 / 2 ^ 11 + 1 / 2 ^ 21) :=
  C108_error hl he (by norm_num) (by norm_num [ieee]) (by norm_num) (by norm_num)

/-- The entries of infinities and NaN: infinity, zero, NaN. -/
theorem C108_special (hl : l.Correct) (he : IsExp2 e) (ha : a < 2 ^ 16) : ∃ b, Soft16.exp2t l e a = some b ∧
    (ieee 5 10 a = .inf false → ieee 5 10 b = .inf false) ∧ (ieee 5 10 a = .inf true → ieee 5 10 b = .num 0) ∧
    (ieee 5 10 a = .nan → ieee 5 10 b = .nan) := by
  have hf := float_of_half hl ha
  have hr := (hl.f32_to_f16 (he.lt (Soft16.toFloat l a))).1
  refine ⟨_, C108_entry a ha, fun h => ?_, fun h => ?_, fun h => ?_⟩
  · rw [he.pinf (hf.trans h)] at hr; exact hr.2
  · rw [he.ninf (hf.trans h)] at hr; exact nearest_exact (by norm_num) hr (ieee_zero' (by norm_num))
  · rw [he.nan (hf.trans h)] at hr; exact hr.2

example (hl : l.Correct) (he : IsExp2 e) : ∃ b, Soft16.exp2t l e 0xFC00 = some b ∧ ieee 5 10 b = .num 0 := by
  obtain ⟨b, h, -, h2, -⟩ := C108_special hl he (a := 0xFC00) (by norm_num)
  exact ⟨b, h, h2 (by norm_num [ieee])⟩

end Verif
