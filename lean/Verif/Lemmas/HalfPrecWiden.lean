import Verif.Lemmas.HalfPrecBits

/-! Widening of halves, arrays -/

namespace Verif.HalfPrec

/-- the number of a pattern put together from its fields -/
theorem ieee_fields (eb fb s e m : ℕ) (hs : s < 2) (he : e < 2 ^ eb) (hm : m < 2 ^ fb) :
    ieee eb fb (s * 2 ^ (eb + fb) + e * 2 ^ fb + m) =
      if e = 2 ^ eb - 1 then (if m = 0 then .inf (decide (s = 1)) else .nan)
      else if e = 0 then .num ((if s = 1 then -1 else 1) * (m * 2 ^ ((2 : ℤ) - 2 ^ (eb - 1) - fb)))
      else .num ((if s = 1 then -1 else 1) * ((2 ^ fb + m) * 2 ^ ((e : ℤ) - (2 ^ (eb - 1) - 1) - fb))) := by
  have hfb : 0 < 2 ^ fb := by positivity
  have f1 : (s * 2 ^ (eb + fb) + e * 2 ^ fb + m) = (s * 2 ^ eb + e) * 2 ^ fb + m := by rw [pow_add]; ring
  have f2 : ((s * 2 ^ eb + e) * 2 ^ fb + m) / 2 ^ fb = s * 2 ^ eb + e := by
    rw [Nat.add_comm, Nat.add_mul_div_right _ _ hfb, Nat.div_eq_of_lt hm, Nat.zero_add]
  have e1 : (s * 2 ^ (eb + fb) + e * 2 ^ fb + m) / 2 ^ (eb + fb) % 2 = s := by
    rw [f1, Nat.add_comm eb fb, pow_add, ← Nat.div_div_eq_div_mul, f2, Nat.add_comm,
      Nat.add_mul_div_right _ _ (by positivity), Nat.div_eq_of_lt he, Nat.zero_add]
    omega
  have e2 : (s * 2 ^ (eb + fb) + e * 2 ^ fb + m) / 2 ^ fb % 2 ^ eb = e := by
    rw [f1, f2, Nat.add_comm, Nat.add_mul_mod_self_right, Nat.mod_eq_of_lt he]
  have e3 : (s * 2 ^ (eb + fb) + e * 2 ^ fb + m) % 2 ^ fb = m := by
    rw [f1, Nat.add_comm, Nat.add_mul_mod_self_right, Nat.mod_eq_of_lt hm]
  unfold ieee
  simp only [e1, e2, e3, decide_eq_true_eq]

/-- the normalizing loop ends with the mantissa between 1024 and 2047 -/
theorem normLoop_spec (fuel : ℕ) : ∀ (e : ℤ) (hm : ℕ), 1 ≤ hm → hm < 1024 → 1024 ≤ hm * 2 ^ fuel →
    ∃ j, 1 ≤ j ∧ j ≤ fuel ∧ normLoop fuel e hm = some (e + j, hm * 2 ^ j) ∧ 1024 ≤ hm * 2 ^ j ∧ hm * 2 ^ j < 2048 := by
  induction fuel with
  | zero => intro e hm _ h1 h2; omega
  | succ fuel ih =>
    intro e hm h0 h1 h2
    have hs : (hm <<< 1) % 2 ^ 16 = hm * 2 := by rw [Nat.shiftLeft_eq]; omega
    have hb : hm * 2 &&& 0x0400 = hm * 2 / 2 ^ 10 % 2 ^ 1 * 2 ^ 10 := and_field (hm * 2) 1 10
    unfold normLoop
    simp only [hs, hb]
    by_cases c : hm * 2 < 1024
    · rw [if_pos (by omega)]
      obtain ⟨j, a1, a2, a3, a4, a5⟩ := ih (e + 1) (hm * 2) (by omega) c (by rw [Nat.mul_assoc, ← pow_succ']; exact h2)
      refine ⟨j + 1, by omega, by omega, ?_, ?_, ?_⟩
      · rw [a3, pow_succ']
        push_cast
        rw [Nat.mul_assoc, add_assoc, add_comm (1 : ℤ)]
      · rw [pow_succ', ← Nat.mul_assoc]; exact a4
      · rw [pow_succ', ← Nat.mul_assoc]; exact a5
    · rw [if_neg (by omega)]
      exact ⟨1, le_refl _, by omega, by simp, by omega, by omega⟩

theorem normLoop_ok (hm : ℕ) (h0 : 1 ≤ hm) (h1 : hm < 1024) :
    ∃ j : ℕ, j ≤ 9 ∧ normLoop 16 (-1) hm = some ((j : ℤ), hm * 2 ^ (j + 1)) ∧ 1024 ≤ hm * 2 ^ (j + 1) ∧
      hm * 2 ^ (j + 1) < 2048 := by
  obtain ⟨j, a1, a2, a3, a4, a5⟩ := normLoop_spec 16 (-1) hm h0 h1 (by omega)
  obtain ⟨i, rfl⟩ : ∃ i, j = i + 1 := ⟨j - 1, by omega⟩
  refine ⟨i, ?_, ?_, a4, a5⟩
  · by_contra hc
    have : 2 ^ 11 ≤ 2 ^ (i + 1) := Nat.pow_le_pow_right (by norm_num) (by omega)
    have : 1 * 2 ^ 11 ≤ hm * 2 ^ (i + 1) := Nat.mul_le_mul h0 this
    omega
  · rw [a3]
    push_cast
    norm_num

/-- three disjoint fields -/
theorem or3 (s e m a b : ℕ) (he : e < 2 ^ a) (hm : m < 2 ^ b) :
    s * 2 ^ (a + b) ||| e * 2 ^ b ||| m = s * 2 ^ (a + b) + e * 2 ^ b + m := by
  have h1 : e * 2 ^ b < 2 ^ (a + b) := by rw [pow_add]; exact Nat.mul_lt_mul_of_pos_right he (by positivity)
  rw [or_add s (e * 2 ^ b) (a + b) h1]
  have : s * 2 ^ (a + b) + e * 2 ^ b = (s * 2 ^ a + e) * 2 ^ b := by rw [pow_add]; ring
  rw [this, or_add _ _ _ hm]

/-- the copying loop: every element is converted, nothing else is written -/
theorem copyLoop_spec (conv : ℕ → Option (M ℕ)) (f : ℕ → ℕ) (ss ts : ℕ) (hts : 1 ≤ ts) (src : Mem) (n : ℕ) :
    ∀ (s t : ℕ) (tgt : Mem), (∀ i < n, conv (src (s + i * ss)) = some (.ok (f i))) →
      ∃ r, copyLoop conv ss ts src n s t tgt = some (.ok r) ∧ (∀ i < n, r (t + i * ts) = f i) ∧
        ∀ j, (∀ i < n, j ≠ t + i * ts) → r j = tgt j := by
  induction n generalizing f with
  | zero => intro s t tgt _; exact ⟨tgt, rfl, fun i h => by omega, fun j _ => rfl⟩
  | succ n ih =>
    intro s t tgt h
    have h0 := h 0 (by omega)
    rw [Nat.zero_mul, Nat.add_zero] at h0
    obtain ⟨r, r1, r2, r3⟩ := ih (fun i => f (i + 1)) (s + ss) (t + ts) (tgt.set t (f 0)) (fun i hi => by
      have := h (i + 1) (by omega)
      rw [Nat.add_mul, Nat.one_mul, Nat.add_comm (i * ss), ← Nat.add_assoc] at this
      exact this)
    have heq : ∀ i, t + (i + 1) * ts = t + ts + i * ts := fun i => by ring
    refine ⟨r, by unfold copyLoop; rw [h0]; exact r1, ?_, ?_⟩
    · intro i hi
      rcases i with _ | i
      · rw [Nat.zero_mul, Nat.add_zero, r3 t (fun i _ => by omega)]
        unfold Mem.set
        rw [if_pos rfl]
      · rw [heq]
        exact r2 i (by omega)
    · intro j hj
      rw [r3 j (fun i hi => by rw [← heq]; exact hj (i + 1) (by omega))]
      have := hj 0 (by omega)
      unfold Mem.set
      rw [if_neg (by omega)]

end Verif.HalfPrec
