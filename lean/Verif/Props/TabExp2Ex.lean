import Verif.Spec.TabExp2
import Verif.Props.SoftExp2

/-! # The assumption on `exp2` in C110 can be met -/

namespace Verif
open NearGen

set_option maxHeartbeats 400000 in
/-- There is such a function: `2^x` rounded to nearest below 1 and down from 1 on, with a quiet NaN. -/
theorem C110_exists : ∃ e, IsExp2Close e ∧ ∀ f, ieee 8 23 (e f) = .nan → 2 ^ 22 ≤ e f % 2 ^ 23 := by
  classical
  have htv : g 8 23 (top 8 23) = 2 ^ (128 : ℤ) := by rw [g_top (by norm_num)]; norm_num
  have ht32 : top 8 23 + 1 < 2 ^ (8 + 23) := by norm_num [top]
  -- magnitude bits of the greatest number not above `v`
  have J : ∀ v : ℝ, ∃ j, j ≤ top 8 23 ∧ (0 ≤ v → v < 2 ^ (128 : ℤ) →
      j < top 8 23 ∧ ((g 8 23 j : ℚ) : ℝ) ≤ v ∧ v < ((g 8 23 (j + 1) : ℚ) : ℝ)) ∧ (2 ^ (128 : ℤ) ≤ v → j = top 8 23) := by
    intro v
    by_cases hv : 0 ≤ v ∧ v < 2 ^ (128 : ℤ)
    · obtain ⟨j, h1, h2, h3⟩ := exists_between_real (eb := 8) (fb := 23) (by norm_num) hv.1 (by
        have : ((2 ^ ((2 : ℤ) ^ (8 - 1)) : ℚ) : ℝ) = 2 ^ (128 : ℤ) := by norm_num
        rw [this]; exact hv.2)
      exact ⟨j, by omega, fun _ _ => ⟨by omega, h2, h3⟩, fun h => by linarith [hv.2]⟩
    · exact ⟨top 8 23, le_rfl, fun h1 h2 => absurd ⟨h1, h2⟩ hv, fun _ => rfl⟩
  choose J hJt hJ hJb using J
  have hpos : ∀ x : ℚ, (0 : ℝ) < (2 : ℝ) ^ (x : ℝ) := fun x => Real.rpow_pos_of_pos (by norm_num) _
  have hJm : ∀ v w : ℝ, 0 ≤ v → v ≤ w → J v ≤ J w := by
    intro v w h0 h
    rcases lt_or_ge w (2 ^ (128 : ℤ)) with hw | hw
    · obtain ⟨-, h1, -⟩ := hJ v h0 (lt_of_le_of_lt h hw)
      obtain ⟨-, -, h2⟩ := hJ w (h0.trans h) hw
      have : g 8 23 (J v) < g 8 23 (J w + 1) := by
        have : ((g 8 23 (J v) : ℚ) : ℝ) < ((g 8 23 (J w + 1) : ℚ) : ℝ) := by linarith
        exact_mod_cast this
      have := (g_mono (eb := 8) (fb := 23)).lt_iff_lt.1 this
      omega
    · rw [hJb w hw]; exact hJt v
  have val : ∀ k, k ≤ top 8 23 → ieee 8 23 k = if k < top 8 23 then .num (g 8 23 k) else .inf false := by
    intro k hk
    have := ieee_gen (eb := 8) (fb := 23) 0 k (by norm_num) (by omega)
    rw [zero_mul, zero_add] at this
    rw [this]
    by_cases h : k < top 8 23
    · rw [if_pos h, if_pos h]; simp
    · rw [if_neg h, if_neg h, if_pos (by omega)]; simp
  have g1 : ∃ k, k < top 8 23 ∧ ((g 8 23 k : ℚ) : ℝ) = 1 := by
    obtain ⟨s, k, -, hk, -, hq⟩ := ieee_num_gen (eb := 8) (fb := 23) (h := 0x3F800000) (q := 1) (by norm_num [ieee])
    refine ⟨k, hk, ?_⟩
    split_ifs at hq
    · have := g_nonneg (eb := 8) (fb := 23) k
      linarith
    · rw [one_mul] at hq
      rw [← hq, Rat.cast_one]
  obtain ⟨k1, hk1, g1⟩ := g1
  have J1 : ∀ v : ℝ, 0 ≤ v → v < 1 → J v < k1 ∧ ((g 8 23 (J v + 1) : ℚ) : ℝ) ≤ 1 := by
    intro v h0 h1
    obtain ⟨-, h2, -⟩ := hJ v h0 (lt_trans h1 (by norm_num))
    have h3 : g 8 23 (J v) < g 8 23 k1 := by
      have : ((g 8 23 (J v) : ℚ) : ℝ) < ((g 8 23 k1 : ℚ) : ℝ) := by rw [g1]; linarith
      exact_mod_cast this
    have h4 := (g_mono (eb := 8) (fb := 23)).lt_iff_lt.1 h3
    refine ⟨h4, ?_⟩
    rw [← g1]
    exact_mod_cast (g_mono (eb := 8) (fb := 23)).monotone (by omega : J v + 1 ≤ k1)
  -- the nearest number below 1, the greatest not above from 1 on
  let K : ℝ → ℕ := fun v => if v < 1 ∧ ((g 8 23 (J v) : ℚ) : ℝ) + ((g 8 23 (J v + 1) : ℚ) : ℝ) < 2 * v then J v + 1 else J v
  have hK0 : ∀ v, J v ≤ K v ∧ K v ≤ J v + 1 := by intro v; dsimp only [K]; split_ifs <;> omega
  have hKt : ∀ v, 0 ≤ v → K v ≤ top 8 23 := by
    intro v h0
    by_cases h : v < 1
    · have := (J1 v h0 h).1
      have := (hK0 v).2
      omega
    · have := hJt v
      dsimp only [K]; rw [if_neg (fun hc => h hc.1)]; exact this
  have hKm : ∀ v w : ℝ, 0 ≤ v → v ≤ w → K v ≤ K w := by
    intro v w h0 h
    have h1 := hJm v w h0 h
    rcases h1.lt_or_eq with h2 | h2
    · have := (hK0 v).2
      have := (hK0 w).1
      omega
    · dsimp only [K]
      rw [← h2]
      by_cases hc : v < 1 ∧ ((g 8 23 (J v) : ℚ) : ℝ) + ((g 8 23 (J v + 1) : ℚ) : ℝ) < 2 * v
      · have hw : w < 1 := by
          by_contra hw
          have hj := J1 v h0 hc.1
          rcases lt_or_ge w (2 ^ (128 : ℤ)) with hb | hb
          · have := (hJ w (h0.trans h) hb).2.2
            rw [← h2] at this
            linarith [hj.2]
          · have := hJb w hb
            omega
        rw [if_pos hc, if_pos ⟨hw, by linarith [hc.2]⟩]
      · rw [if_neg hc]
        split_ifs <;> omega
  refine ⟨fun f => match ieee 8 23 f with
    | .num x => K ((2 : ℝ) ^ (x : ℝ))
    | .inf false => top 8 23
    | .inf true => 0
    | .nan => top 8 23 + 2 ^ 22, ?_, fun f => ?_⟩
  · refine ⟨⟨fun f => ?_, fun {f x} hx => ?_, fun {f f' x x'} hx hx' h => ?_, fun {f n} hx h1 h2 => ?_, fun {f x} hx h1 h2 => ?_,
      fun {f} hf => ?_, fun {f} hf => ?_, fun {f} hf => ?_⟩, fun {f x} hx h => ?_, fun {f x} hx h1 h2 => ?_⟩
    · split
      · exact (hKt _ (hpos _).le).trans_lt (by norm_num [top])
      all_goals norm_num [top]
    · rw [hx]
      dsimp only
      rw [val _ (hKt _ (hpos _).le)]
      split
      · exact Or.inl ⟨_, rfl, g_nonneg _⟩
      · exact Or.inr rfl
    · rw [hx, hx']
      dsimp only
      have hm := hKm ((2 : ℝ) ^ (x : ℝ)) ((2 : ℝ) ^ (x' : ℝ)) (hpos x).le
        (Real.rpow_le_rpow_of_exponent_le (by norm_num) (by exact_mod_cast h))
      rw [val _ (hKt _ (hpos _).le), val _ (hKt _ (hpos _).le)]
      have hg := (g_mono (eb := 8) (fb := 23)).monotone hm
      split <;> split
      · simp only [XNum.Below, not_lt]; exact hg
      · have := hKt ((2 : ℝ) ^ (x : ℝ)) (hpos _).le; omega
      · simp [XNum.Below]
      · simp [XNum.Below]
    · rw [hx]
      dsimp only
      have ev : (2 : ℝ) ^ (((n : ℚ)) : ℝ) = (((2 : ℚ) ^ n : ℚ) : ℝ) := by
        rw [Rat.cast_intCast, Real.rpow_intCast]; push_cast; rfl
      obtain ⟨c, hc⟩ := ieee_of_int (eb := 8) (fb := 23) (by norm_num) (n := 1) (A := n) (by norm_num) (by norm_num; omega) (by
        rw [Int.cast_one, one_mul, abs_of_pos (by positivity)]
        exact zpow_lt_zpow_right₀ (by norm_num) (by norm_num; omega))
      rw [Int.cast_one, one_mul] at hc
      obtain ⟨s, k, hs, hk, -, hq⟩ := ieee_num_gen hc
      have hs1 : ¬ s = 1 := fun h => by
        rw [if_pos h] at hq
        have := g_nonneg (eb := 8) (fb := 23) k
        have : (0 : ℚ) < 2 ^ n := by positivity
        linarith
      rw [if_neg hs1, one_mul] at hq
      have hlt : (((2 : ℚ) ^ n : ℚ) : ℝ) < 2 ^ (128 : ℤ) := by
        push_cast
        exact zpow_lt_zpow_right₀ (by norm_num) h2
      rw [ev]
      obtain ⟨h3, h4, h5⟩ := hJ (((2 : ℚ) ^ n : ℚ) : ℝ) (by positivity) hlt
      have h4' : g 8 23 (J (((2 : ℚ) ^ n : ℚ) : ℝ)) ≤ 2 ^ n := by exact_mod_cast h4
      have h5' : (2 : ℚ) ^ n < g 8 23 (J (((2 : ℚ) ^ n : ℚ) : ℝ) + 1) := by exact_mod_cast h5
      rw [hq] at h4' h5'
      have i1 := (g_mono (eb := 8) (fb := 23)).le_iff_le.1 h4'
      have i2 := (g_mono (eb := 8) (fb := 23)).lt_iff_lt.1 h5'
      have i3 : J (g 8 23 k : ℝ) = k := by omega
      have i4 : K (g 8 23 k : ℝ) = k := by
        dsimp only [K]
        rw [i3, if_neg]
        rintro ⟨-, hc⟩
        have : ((g 8 23 k : ℚ) : ℝ) < ((g 8 23 (k + 1) : ℚ) : ℝ) := by exact_mod_cast g_mono (Nat.lt_succ_self k)
        linarith
      rw [hq, i4, val k hk.le, if_pos hk]
    · rw [hx]
      dsimp only
      have hlt : (2 : ℝ) ^ (x : ℝ) < 2 ^ (128 : ℤ) := by
        rw [← Real.rpow_intCast]
        exact Real.rpow_lt_rpow_of_exponent_lt (by norm_num) (by exact_mod_cast h2)
      have hge : (((2 : ℚ) ^ (-126 : ℤ) : ℚ) : ℝ) ≤ (2 : ℝ) ^ (x : ℝ) := by
        have : (((2 : ℚ) ^ (-126 : ℤ) : ℚ) : ℝ) = (2 : ℝ) ^ ((-126 : ℤ) : ℝ) := by rw [Real.rpow_intCast]; push_cast; rfl
        rw [this]
        exact Real.rpow_le_rpow_of_exponent_le (by norm_num) (by exact_mod_cast h1)
      obtain ⟨h3, h4, h5⟩ := hJ _ (hpos x).le hlt
      have hkj := hK0 ((2 : ℝ) ^ (x : ℝ))
      have hkt : K ((2 : ℝ) ^ (x : ℝ)) < top 8 23 := by
        by_cases h : (2 : ℝ) ^ (x : ℝ) < 1
        · have := (J1 _ (hpos x).le h).1; omega
        · dsimp only [K]; rw [if_neg (fun hc => h hc.1)]; exact h3
      generalize K ((2 : ℝ) ^ (x : ℝ)) = k at *
      refine ⟨g 8 23 k, by rw [val k hkt.le, if_pos hkt], ?_⟩
      generalize J ((2 : ℝ) ^ (x : ℝ)) = j at *
      have hj : 2 ^ 23 ≤ j := by
        by_contra hc
        have : g 8 23 (j + 1) ≤ g 8 23 (2 ^ 23) := g_mono.monotone (by omega)
        rw [minNorm_eq] at this
        have e : minNorm 8 = 2 ^ (-126 : ℤ) := by norm_num [minNorm]
        rw [e] at this
        have : ((g 8 23 (j + 1) : ℚ) : ℝ) ≤ (((2 : ℚ) ^ (-126 : ℤ) : ℚ) : ℝ) := by exact_mod_cast this
        linarith
      have hg := gap_norm (eb := 8) hj
      have hg' : ((g 8 23 (j + 1) : ℚ) : ℝ) - ((g 8 23 j : ℚ) : ℝ) ≤ ((g 8 23 j : ℚ) : ℝ) / 2 ^ 23 := by exact_mod_cast hg
      have hd : |((g 8 23 k : ℚ) : ℝ) - (2 : ℝ) ^ (x : ℝ)| ≤ ((g 8 23 j : ℚ) : ℝ) / 2 ^ 23 := by
        rcases (by omega : k = j ∨ k = j + 1) with rfl | rfl
        · rw [abs_of_nonpos (by linarith)]; linarith
        · rw [abs_of_nonneg (by linarith)]; linarith
      have hp := hpos x
      have : ((g 8 23 j : ℚ) : ℝ) / 2 ^ 23 ≤ (2 : ℝ) ^ (x : ℝ) / 2 ^ 23 := by gcongr
      have : (2 : ℝ) ^ (x : ℝ) / 2 ^ 23 ≤ (2 : ℝ) ^ (x : ℝ) / 2 ^ 22 := by
        apply div_le_div_of_nonneg_left hp.le <;> norm_num
      linarith
    · rw [hf]; dsimp only; rw [val _ le_rfl, if_neg (lt_irrefl _)]
    · rw [hf]; dsimp only; exact ieee_zero' (by norm_num)
    · rw [hf]; dsimp only
      norm_num [top, ieee]
    · rw [hx]
      dsimp only
      have hv : (2 : ℝ) ^ (128 : ℤ) ≤ (2 : ℝ) ^ (x : ℝ) := by
        rw [← Real.rpow_intCast]
        exact Real.rpow_le_rpow_of_exponent_le (by norm_num) (by exact_mod_cast h)
      have hK : K ((2 : ℝ) ^ (x : ℝ)) = top 8 23 := by
        dsimp only [K]
        rw [if_neg, hJb _ hv]
        rintro ⟨hc, -⟩
        have := hv.trans hc.le
        norm_num at this
      rw [hK, val _ le_rfl, if_neg (lt_irrefl _)]
    · rw [hx]
      dsimp only
      have hl1 : (2 : ℝ) ^ (x : ℝ) < 1 := Real.rpow_lt_one_of_one_lt_of_neg (by norm_num) (by exact_mod_cast h2)
      obtain ⟨h3, h4, h5⟩ := hJ _ (hpos x).le (lt_trans hl1 (by norm_num))
      obtain ⟨j1, j2⟩ := J1 _ (hpos x).le hl1
      have hkt : K ((2 : ℝ) ^ (x : ℝ)) < top 8 23 := by
        have := (hK0 ((2 : ℝ) ^ (x : ℝ))).2
        omega
      refine ⟨g 8 23 (K ((2 : ℝ) ^ (x : ℝ))), by rw [val _ hkt.le, if_pos hkt], ?_⟩
      have hgap : ((g 8 23 (J ((2 : ℝ) ^ (x : ℝ)) + 1) : ℚ) : ℝ) - ((g 8 23 (J ((2 : ℝ) ^ (x : ℝ))) : ℚ) : ℝ) ≤ 1 / 2 ^ 24 := by
        have gv : ∀ k q, k < top 8 23 → ieee 8 23 k = .num q → g 8 23 k = q := by
          intro k q hk h
          rw [val k hk.le, if_pos hk] at h
          exact XNum.num.inj h
        have e1 := gv 0x3F800000 1 (by norm_num [top]) (by norm_num [ieee])
        have e2 := gv 0x3F000000 (1 / 2) (by norm_num [top]) (by norm_num [ieee])
        have i1 : J ((2 : ℝ) ^ (x : ℝ)) < 0x3F800000 := by
          have : g 8 23 (J ((2 : ℝ) ^ (x : ℝ))) < g 8 23 0x3F800000 := by
            have : ((g 8 23 (J ((2 : ℝ) ^ (x : ℝ))) : ℚ) : ℝ) < ((g 8 23 0x3F800000 : ℚ) : ℝ) := by
              rw [e1, Rat.cast_one]; linarith
            exact_mod_cast this
          exact g_mono.lt_iff_lt.1 this
        have i2 : 0x3F000000 < J ((2 : ℝ) ^ (x : ℝ)) + 1 := by
          have h6 : (1 / 2 : ℝ) ≤ (2 : ℝ) ^ (x : ℝ) := by
            have : (2 : ℝ) ^ ((-1 : ℝ)) ≤ (2 : ℝ) ^ (x : ℝ) := Real.rpow_le_rpow_of_exponent_le (by norm_num) (by exact_mod_cast h1)
            rw [Real.rpow_neg_one] at this
            linarith
          have : g 8 23 0x3F000000 < g 8 23 (J ((2 : ℝ) ^ (x : ℝ)) + 1) := by
            have : ((g 8 23 0x3F000000 : ℚ) : ℝ) < ((g 8 23 (J ((2 : ℝ) ^ (x : ℝ)) + 1) : ℚ) : ℝ) := by
              rw [e2]; push_cast; linarith
            exact_mod_cast this
          exact g_mono.lt_iff_lt.1 this
        obtain ⟨i, hi, hJi⟩ : ∃ i, i < 2 ^ 23 ∧ J ((2 : ℝ) ^ (x : ℝ)) = 126 * 2 ^ 23 + i :=
          ⟨J ((2 : ℝ) ^ (x : ℝ)) - 126 * 2 ^ 23, by omega, by omega⟩
        rw [hJi, add_assoc, g_norm 126 i (by norm_num) hi.le, g_norm 126 (i + 1) (by norm_num) hi]
        push_cast
        norm_num
        linarith
      dsimp only [K]
      rw [abs_le]
      split_ifs with hc
      · constructor <;> linarith [hc.2]
      · have : 2 * (2 : ℝ) ^ (x : ℝ) ≤ ((g 8 23 (J ((2 : ℝ) ^ (x : ℝ))) : ℚ) : ℝ) + ((g 8 23 (J ((2 : ℝ) ^ (x : ℝ)) + 1) : ℚ) : ℝ) := by
          by_contra h
          exact hc ⟨hl1, not_le.mp h⟩
        constructor <;> linarith
  · dsimp only
    split
    · rw [val _ (hKt _ (hpos _).le)]
      split_ifs <;> nofun
    · rw [val _ le_rfl, if_neg (lt_irrefl _)]; nofun
    · rw [ieee_zero' (by norm_num)]; nofun
    · norm_num [top]

end Verif
