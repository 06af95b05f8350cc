import Verif.Lemmas.Format
import Verif.Spec.Spacing

/-! # Exponent and last place of a posit

A positive posit is `n * 2^(e-J)` with `J` fraction bits, `2^J ≤ n < 2^(J+1)`, where `J` depends only on the regime of `e`;
when there is no room for the whole exponent it is a power of two. -/

namespace Verif.Fmt

theorem runExtra_lip {r s : ℤ} (h : s ≤ r) : runExtra r - runExtra s ≤ r - s ∧ runExtra s - runExtra r ≤ r - s := by
  unfold runExtra; omega

theorem posVal_form {N es p : ℕ} (hp : 1 ≤ p) (hlt : p < 2 ^ (N - 1)) :
    ∃ e : ℤ, (∃ J n : ℕ, fracBits N es e = J ∧ 2 ^ J ≤ n ∧ n < 2 ^ (J + 1) ∧ posVal N es p = n * 2 ^ (e - J)) ∨
      (fracBits N es e < 0 ∧ posVal N es p = 2 ^ e) := by
  obtain ⟨r, m, rest, hd⟩ := exists_dec hp hlt
  have hv := hd.posVal (es := es)
  obtain ⟨hrest, hc⟩ := hd
  have hes : (0 : ℤ) < 2 ^ es := by positivity
  by_cases htop : r = (N - 1 : ℕ) - 1 ∧ rest = 0 ∧ 1 ≤ N - 1
  · obtain ⟨hr, h0, hN⟩ := htop
    refine ⟨2 ^ es * r, Or.inr ⟨?_, ?_⟩⟩
    · unfold fracBits runExtra
      rw [Int.mul_ediv_cancel_left _ hes.ne']; omega
    · rw [hv, h0]
      have := L_intCast (2 ^ es * r)
      rw [← this]; congr 1; push_cast; simp
  · have hm : (N : ℤ) - 3 - runExtra r = m := by
      unfold runExtra
      rcases hc with ⟨h1, h2, -⟩ | ⟨h1, h2, -⟩ | ⟨h1, h2, h3, h4, -⟩
      · omega
      · omega
      · exact absurd ⟨h1, h4, h2⟩ htop
    rcases le_or_gt es m with hle | hgt
    · obtain ⟨j, rfl⟩ := Nat.exists_eq_add_of_le hle
      have hE : rest / 2 ^ j < 2 ^ es := by
        rw [Nat.div_lt_iff_lt_mul (by positivity), ← pow_add]; exact hrest
      have hdiv : (2 ^ es * r + ((rest / 2 ^ j : ℕ) : ℤ)) / 2 ^ es = r := by
        have hE' : ((rest / 2 ^ j : ℕ) : ℤ) < 2 ^ es := by exact_mod_cast hE
        rw [add_comm, Int.add_mul_ediv_left _ _ hes.ne', Int.ediv_eq_zero_of_lt (Int.natCast_nonneg _) hE', zero_add]
      have hb : rest % 2 ^ j < 2 ^ j := Nat.mod_lt _ (by positivity)
      refine ⟨2 ^ es * r + ((rest / 2 ^ j : ℕ) : ℤ), Or.inl ⟨j, 2 ^ j + rest % 2 ^ j, ?_, by omega, by rw [pow_succ]; omega, ?_⟩⟩
      · unfold fracBits; rw [hdiv]; push_cast at hm; omega
      · have hj : (0 : ℚ) < 2 ^ j := by positivity
        have hb' : ((rest % 2 ^ j : ℕ) : ℚ) < 2 ^ j := by exact_mod_cast hb
        have hdm : (rest : ℚ) = 2 ^ j * (rest / 2 ^ j : ℕ) + (rest % 2 ^ j : ℕ) := by
          exact_mod_cast (Nat.div_add_mod rest (2 ^ j)).symm
        have key := L_int_add (2 ^ es * r + ((rest / 2 ^ j : ℕ) : ℤ)) (x := ((rest % 2 ^ j : ℕ) : ℚ) / 2 ^ j)
          (by positivity) (by rw [div_lt_one hj]; exact hb')
        have harg : (2 : ℚ) ^ es * (r + (rest : ℚ) / 2 ^ (es + j)) =
            ((2 ^ es * r + ((rest / 2 ^ j : ℕ) : ℤ) : ℤ) : ℚ) + ((rest % 2 ^ j : ℕ) : ℚ) / 2 ^ j := by
          generalize rest / 2 ^ j = A at *
          generalize rest % 2 ^ j = B at *
          push_cast
          rw [hdm, pow_add]
          field_simp
          ring
        rw [hv, harg, key, zpow_sub₀ (by norm_num), zpow_natCast]
        generalize rest % 2 ^ j = B at *
        push_cast
        field_simp
    · refine ⟨2 ^ es * r + ((rest * 2 ^ (es - m) : ℕ) : ℤ), Or.inr ⟨?_, ?_⟩⟩
      · have hlt2 : ((rest * 2 ^ (es - m) : ℕ) : ℤ) < 2 ^ es := by
          have : rest * 2 ^ (es - m) < 2 ^ m * 2 ^ (es - m) := Nat.mul_lt_mul_of_pos_right hrest (by positivity)
          rw [← pow_add, show m + (es - m) = es by omega] at this
          exact_mod_cast this
        unfold fracBits
        rw [add_comm, Int.add_mul_ediv_left _ _ hes.ne', Int.ediv_eq_zero_of_lt (Int.natCast_nonneg _) hlt2, zero_add]
        omega
      · have key := L_intCast (2 ^ es * r + ((rest * 2 ^ (es - m) : ℕ) : ℤ))
        rw [hv, ← key]
        congr 1
        obtain ⟨d, rfl⟩ := Nat.exists_eq_add_of_lt hgt
        push_cast
        rw [show m + d + 1 - m = d + 1 by omega, show m + d + 1 = m + (d + 1) by omega, pow_add]
        field_simp

/-- every number with the fraction bits of its exponent is a posit -/
theorem exists_posVal {N es : ℕ} {e : ℤ} {J n : ℕ} (hJ : fracBits N es e = J) (h1 : 2 ^ J ≤ n) (h2 : n < 2 ^ (J + 1)) :
    ∃ p, 1 ≤ p ∧ p < 2 ^ (N - 1) ∧ posVal N es p = n * 2 ^ (e - J) := by
  have hes : (0 : ℤ) < 2 ^ es := by positivity
  set r := e / 2 ^ es with hr
  obtain ⟨E, hE⟩ : ∃ E : ℕ, (E : ℤ) = e % 2 ^ es := ⟨(e % 2 ^ es).toNat, Int.toNat_of_nonneg (Int.emod_nonneg _ hes.ne')⟩
  have hElt : E < 2 ^ es := by
    have := Int.emod_lt_of_pos e hes
    rw [← hE] at this; exact_mod_cast this
  have he : e = 2 ^ es * r + E := by rw [hE, hr]; exact (Int.mul_ediv_add_emod e (2 ^ es)).symm
  have hm : (N : ℤ) - 3 - runExtra r = (es + J : ℕ) := by unfold fracBits at hJ; rw [← hr] at hJ; push_cast; omega
  rw [pow_succ] at h2
  obtain ⟨g, rfl⟩ := Nat.exists_eq_add_of_le h1
  have hg : g < 2 ^ J := by omega
  have hrest : E * 2 ^ J + g < 2 ^ (es + J) := by
    rw [pow_add]
    have : (E + 1) * 2 ^ J ≤ 2 ^ es * 2 ^ J := Nat.mul_le_mul_right _ hElt
    nlinarith
  have hval : ∀ p, Dec (N - 1) p r (es + J) (E * 2 ^ J + g) → posVal N es p = ((2 ^ J + g : ℕ) : ℚ) * 2 ^ (e - J) := by
    intro p hd
    have hJ0 : (0 : ℚ) < 2 ^ J := by positivity
    have hg' : (g : ℚ) < 2 ^ J := by exact_mod_cast hg
    have key := L_int_add e (x := (g : ℚ) / 2 ^ J) (by positivity) (by rw [div_lt_one hJ0]; exact hg')
    have harg : (2 : ℚ) ^ es * (r + ((E * 2 ^ J + g : ℕ) : ℚ) / 2 ^ (es + J)) = (e : ℚ) + (g : ℚ) / 2 ^ J := by
      rw [he]; push_cast; rw [pow_add]; field_simp; ring
    rw [hd.posVal, harg, key, zpow_sub₀ (by norm_num), zpow_natCast]
    push_cast
    field_simp
  have hN : 1 ≤ N := by unfold runExtra at hm; omega
  rcases lt_or_ge r 0 with hneg | hpos
  · have hp : Dec (N - 1) (2 ^ (es + J) + (E * 2 ^ J + g)) r (es + J) (E * 2 ^ J + g) :=
      ⟨hrest, Or.inl ⟨hneg, by unfold runExtra at hm; omega, rfl⟩⟩
    refine ⟨_, ?_, ?_, hval _ hp⟩
    · have := Nat.one_le_two_pow (n := es + J); omega
    · have : 2 ^ (es + J + 1) ≤ 2 ^ (N - 1) := Nat.pow_le_pow_right (by norm_num) (by unfold runExtra at hm; omega)
      rw [pow_succ] at this; omega
  · have hle : 2 ^ (es + J + 1 + 1) ≤ 2 ^ (N - 1) := Nat.pow_le_pow_right (by norm_num) (by unfold runExtra at hm; omega)
    have h1' := Nat.one_le_two_pow (n := es + J)
    rw [pow_succ, pow_succ] at hle
    have hp : Dec (N - 1) (2 ^ (N - 1) - 2 ^ (es + J + 1) + (E * 2 ^ J + g)) r (es + J) (E * 2 ^ J + g) :=
      ⟨hrest, Or.inr (Or.inl ⟨hpos, by unfold runExtra at hm; omega, by rw [pow_succ]; omega⟩)⟩
    refine ⟨_, ?_, ?_, hval _ hp⟩
    · rw [pow_succ]; omega
    · rw [pow_succ]; omega

/-- fraction bits change more slowly than exponents -/
theorem fracBits_step {N es : ℕ} {e e' : ℤ} (h : e' ≤ e) :
    fracBits N es e - (e - e') ≤ fracBits N es e' ∧ fracBits N es e' - (e - e') ≤ fracBits N es e := by
  have hes : (0 : ℤ) < 2 ^ es := by positivity
  have hmono : e' / 2 ^ es ≤ e / 2 ^ es := Int.ediv_le_ediv hes h
  obtain ⟨l1, l2⟩ := runExtra_lip hmono
  have hd : e / 2 ^ es - e' / 2 ^ es ≤ e - e' := by
    have a1 := Int.mul_ediv_add_emod e (2 ^ es)
    have a2 := Int.mul_ediv_add_emod e' (2 ^ es)
    have b1 := Int.emod_nonneg e hes.ne'
    have b2 := Int.emod_lt_of_pos e' hes
    generalize e / 2 ^ es = r at *
    generalize e' / 2 ^ es = r' at *
    generalize e % 2 ^ es = s at *
    generalize e' % 2 ^ es = s' at *
    generalize (2 : ℤ) ^ es = P at *
    by_cases h0 : r = r'
    · omega
    · have : 1 ≤ r - r' := by omega
      nlinarith
  unfold fracBits
  omega

theorem posVal_log {N es p : ℕ} {e : ℤ} {J n : ℕ} (h1 : 2 ^ J ≤ n) (h2 : n < 2 ^ (J + 1))
    (hv : posVal N es p = n * 2 ^ (e - J)) : (2 : ℚ) ^ e ≤ posVal N es p ∧ posVal N es p < 2 ^ (e + 1) := by
  have h1' : (2 : ℚ) ^ J ≤ n := by exact_mod_cast h1
  have h2' : (n : ℚ) < 2 ^ (J + 1) := by exact_mod_cast h2
  have hp : (0 : ℚ) < 2 ^ (e - J) := by positivity
  have e1 : (2 : ℚ) ^ J * 2 ^ (e - J) = 2 ^ e := by
    rw [← zpow_natCast, ← zpow_add₀ (by norm_num)]; congr 1; ring
  have e2 : (2 : ℚ) ^ (J + 1) * 2 ^ (e - J) = 2 ^ (e + 1) := by
    rw [← zpow_natCast, ← zpow_add₀ (by norm_num)]; congr 1; push_cast; ring
  rw [hv, ← e1, ← e2]
  exact ⟨mul_le_mul_of_nonneg_right h1' hp.le, mul_lt_mul_of_pos_right h2' hp⟩

/-- the difference of two positive posits within a factor of two is a posit -/
theorem posVal_sub {N es p q : ℕ} (hp : 1 ≤ p) (hpl : p < 2 ^ (N - 1)) (hq : 1 ≤ q) (hql : q < 2 ^ (N - 1))
    (hlt : posVal N es q < posVal N es p) (hle : posVal N es p ≤ 2 * posVal N es q) :
    ∃ k, 1 ≤ k ∧ k ≤ q ∧ posVal N es k = posVal N es p - posVal N es q := by
  suffices hh : ∃ k, 1 ≤ k ∧ k < 2 ^ (N - 1) ∧ posVal N es k = posVal N es p - posVal N es q by
    obtain ⟨k, h1, h2, h3⟩ := hh
    exact ⟨k, h1, (posVal_le_iff (es := es) h1 h2 hq hql).mp (by linarith), h3⟩
  have two : ∀ {x y : ℤ}, (2 : ℚ) ^ x < 2 ^ y → x < y := fun h => (zpow_lt_zpow_iff_right₀ (by norm_num)).mp h
  have hq0 := posVal_pos (es := es) hq hql
  obtain ⟨eb, hb⟩ := posVal_form (es := es) hq hql
  obtain ⟨ea, ha⟩ := posVal_form (es := es) hp hpl
  have la : (2 : ℚ) ^ ea ≤ posVal N es p ∧ posVal N es p < 2 ^ (ea + 1) := by
    rcases ha with ⟨J, n, -, h1, h2, h3⟩ | ⟨-, h3⟩
    · exact posVal_log h1 h2 h3
    · rw [h3]; exact ⟨le_rfl, zpow_lt_zpow_right₀ (by norm_num) (by omega)⟩
  have lb : (2 : ℚ) ^ eb ≤ posVal N es q ∧ posVal N es q < 2 ^ (eb + 1) := by
    rcases hb with ⟨J, n, -, h1, h2, h3⟩ | ⟨-, h3⟩
    · exact posVal_log h1 h2 h3
    · rw [h3]; exact ⟨le_rfl, zpow_lt_zpow_right₀ (by norm_num) (by omega)⟩
  have hab : eb ≤ ea := by
    have := two (lt_of_le_of_lt lb.1 (hlt.trans la.2)); omega
  by_cases h2b : posVal N es p = 2 * posVal N es q
  · exact ⟨q, hq, hql, by rw [h2b]; ring⟩
  rcases hb with ⟨J, n, hJ, hn1, hn2, hbv⟩ | ⟨hJ, hbv⟩
  · -- `p` is a multiple of the last place of `q`
    obtain ⟨m, hm⟩ : ∃ m : ℤ, posVal N es p = m * 2 ^ (eb - J) := by
      rcases ha with ⟨J', n', hJ', -, -, hav⟩ | ⟨-, hav⟩
      · have hge : eb - J ≤ ea - J' := by
          have := (fracBits_step (N := N) (es := es) hab).1; omega
        obtain ⟨d, hd⟩ : ∃ d : ℕ, ea - J' = (eb - J) + d := ⟨(ea - J' - (eb - J)).toNat, by omega⟩
        refine ⟨n' * 2 ^ d, ?_⟩
        rw [hav, hd, zpow_add₀ (by norm_num), zpow_natCast]; push_cast; ring
      · obtain ⟨d, hd⟩ : ∃ d : ℕ, ea = (eb - J) + d := ⟨(ea - (eb - J)).toNat, by omega⟩
        refine ⟨2 ^ d, ?_⟩
        rw [hav, hd, zpow_add₀ (by norm_num), zpow_natCast]; push_cast; ring
    have hu : (0 : ℚ) < 2 ^ (eb - J) := by positivity
    obtain ⟨k, hk⟩ : ∃ k : ℕ, (k : ℤ) = m - n := by
      have : (0 : ℚ) < (m - n : ℤ) := by
        have : (n : ℚ) * 2 ^ (eb - J) < m * 2 ^ (eb - J) := by rw [← hbv, ← hm]; exact hlt
        have := lt_of_mul_lt_mul_right this hu.le
        push_cast; linarith
      have h0 : 0 < m - n := by exact_mod_cast this
      exact ⟨(m - n).toNat, by omega⟩
    have hx : posVal N es p - posVal N es q = k * 2 ^ (eb - J) := by
      have : (k : ℚ) = m - n := by exact_mod_cast hk
      rw [hm, hbv, this]; ring
    have hk0 : 1 ≤ k := by
      rcases Nat.eq_zero_or_pos k with h0 | h0
      · rw [h0] at hx; simp at hx; linarith
      · exact h0
    have hkn : k ≤ n := by
      have h : (k : ℚ) * 2 ^ (eb - J) ≤ n * 2 ^ (eb - J) := by rw [← hx, ← hbv]; linarith
      have := le_of_mul_le_mul_right h hu
      exact_mod_cast this
    -- exponent of the difference
    set t := Nat.log2 k with ht
    have t1 : 2 ^ t ≤ k := Nat.log2_self_le (by omega)
    have t2 : k < 2 ^ (t + 1) := Nat.lt_log2_self
    have htJ : t ≤ J := by
      have : 2 ^ t < 2 ^ (J + 1) := lt_of_le_of_lt (t1.trans hkn) hn2
      have := (Nat.pow_lt_pow_iff_right (by norm_num : 1 < 2)).mp this
      omega
    have hs := (fracBits_step (N := N) (es := es) (e := eb) (e' := eb - J + t) (by omega)).1
    obtain ⟨J', hJ'⟩ : ∃ J' : ℕ, fracBits N es (eb - J + t) = J' := ⟨(fracBits N es (eb - J + t)).toNat, by omega⟩
    have hJt : t ≤ J' := by omega
    obtain ⟨w, hw1, hw2, hw3⟩ := exists_posVal (n := k * 2 ^ (J' - t)) hJ'
      (by calc 2 ^ J' = 2 ^ t * 2 ^ (J' - t) := by rw [← pow_add]; congr 1; omega
            _ ≤ _ := Nat.mul_le_mul_right _ t1)
      (by calc k * 2 ^ (J' - t) < 2 ^ (t + 1) * 2 ^ (J' - t) := Nat.mul_lt_mul_of_pos_right t2 (by positivity)
            _ = _ := by rw [← pow_add]; congr 1; omega)
    refine ⟨w, hw1, hw2, ?_⟩
    rw [hw3, hx]
    push_cast
    rw [mul_assoc, ← zpow_natCast, ← zpow_add₀ (by norm_num)]
    congr 2; omega
  · exfalso
    have hlt2 : posVal N es p < 2 * posVal N es q := lt_of_le_of_ne hle h2b
    have hae : ea = eb := by
      have h1 : (2 : ℚ) ^ ea < 2 ^ (eb + 1) := by
        refine lt_of_le_of_lt la.1 ?_
        rw [zpow_add₀ (by norm_num), zpow_one, ← hbv]; linarith
      have := two h1; omega
    subst hae
    rcases ha with ⟨J, n, hJ', -⟩ | ⟨-, hav⟩
    · omega
    · rw [hav, hbv] at hlt; exact lt_irrefl _ hlt

end Verif.Fmt
