import Verif.Lemmas.HalfPrec

/-! The half precision conversions in terms of sign, exponent and fraction -/

namespace Verif.HalfPrec

theorem and_low (x a : ℕ) : x &&& (2 ^ a - 1) = x % 2 ^ a := Nat.and_two_pow_sub_one_eq_mod x a

theorem shl_small (E : ℕ) (n : ℕ) (hn : n < 32) (h : E * 2 ^ n < 2 ^ 31) : shlS 32 (E : ℤ) (n : ℤ) = .ok ((E * 2 ^ n : ℕ) : ℤ) := by
  unfold shlS
  have hp : pw 32 = 32 := by decide
  have hc : ((E : ℤ) * 2 ^ n) = ((E * 2 ^ n : ℕ) : ℤ) := by push_cast; ring
  rw [hp, Int.toNat_natCast, if_neg (by omega), hc, if_neg (by omega)]
  exact congrArg Except.ok (wrapS_of_inS (by norm_num) ⟨by omega, by omega⟩)

theorem wrapU_small (w a : ℕ) (h : a < 2 ^ w) : wrapU w (a : ℤ) = a := by
  unfold wrapU
  have : ((a : ℤ) % (2 ^ w : ℤ)) = a := Int.emod_eq_of_lt (by omega) (by exact_mod_cast h)
  rw [this]
  simp

theorem shr_ok (x n : ℕ) (hn : n < 32) : shrU 32 x (n : ℤ) = .ok (x / 2 ^ n) := by
  unfold shrU
  have hp : pw 32 = 32 := by decide
  rw [hp, if_neg (by omega), Int.toNat_natCast, Nat.shiftRight_eq_div_pow]

/-- the conversion of a float by fields -/
theorem ofSingle_eq (s e m : ℕ) (hs : s < 2) (he : e < 256) (hm : m < 2 ^ 23) :
    ofSingle (s * 2 ^ 31 + e * 2 ^ 23 + m) =
      if e = 255 then (if m = 0 then .ok (s * 2 ^ 15 + 31744) else .ok 0xFE00)
      else if e < 102 then .ok (s * 2 ^ 15)
      else if e ≤ 112 then
        .ok (s * 2 ^ 15 + ((2 ^ 23 + m) / 2 ^ (126 - e) + (2 ^ 23 + m) / 2 ^ (125 - e) % 2))
      else if e ≤ 142 then
        .ok (s * 2 ^ 15 + ((e - 112) * 1024 + ((2 ^ 23 + m) / 2 ^ 13 - 1024) + (2 ^ 23 + m) / 2 ^ 12 % 2))
      else .ok (s * 2 ^ 15 + 31744) := by
  obtain ⟨x, hx⟩ : ∃ x, x = s * 2 ^ 31 + e * 2 ^ 23 + m := ⟨_, rfl⟩
  rw [← hx]
  obtain ⟨q1, q2, q3, q4, hsx, hsx2, hor2, hse, hx16⟩ :
      (x % 2 ^ 31 = e * 2 ^ 23 + m) ∧
      (x / 2 ^ 31 % 2 ^ 1 * 2 ^ 31 = s * 2 ^ 31) ∧
      (x / 2 ^ 23 % 2 ^ 8 * 2 ^ 23 = e * 2 ^ 23) ∧
      (x % 2 ^ 23 = m) ∧
      (s * 2 ^ 31 / 2 ^ 16 = s * 2 ^ 15) ∧
      ((s * 2 ^ 15) % 2 ^ 16 = s * 2 ^ 15) ∧
      ((s * 2 ^ 15 + 31744) % 2 ^ 16 = s * 2 ^ 15 + 31744) ∧
      (e * 2 ^ 23 / 2 ^ 23 = e) ∧
      (e * 2 ^ 23 + m = 0 → x / 2 ^ 16 % 2 ^ 16 = s * 2 ^ 15) := by
    refine ⟨?_, ?_, ?_, ?_, ?_, ?_, ?_, ?_, ?_⟩ <;> omega
  unfold ofSingle
  have r1 : x &&& 0x7FFFFFFF = _ := and_low x 31
  have r2 : x &&& 0x80000000 = _ := and_field x 1 31
  have r3 : x &&& 0x7F800000 = _ := and_field x 8 23
  have r4 : x &&& 0x007FFFFF = _ := and_low x 23
  rw [r1, r2, r3, r4, q1, q2, q3, q4]
  clear r1 r2 r3 r4
  simp only [Nat.shiftRight_eq_div_pow, hsx, hsx2, (or_add s 31744 15 (by norm_num) : s * 2 ^ 15 ||| 0x7c00 = _), hor2, hse]
  clear q1 q2 q3 q4 hsx hsx2 hor2 hse hx
  by_cases c0 : e * 2 ^ 23 + m = 0
  · rw [if_pos c0, if_neg (by omega), if_pos (by omega)]
    exact congrArg Except.ok (hx16 c0)
  rw [if_neg c0]
  by_cases c1 : e * 2 ^ 23 = 0
  · rw [if_pos c1, if_neg (by omega), if_pos (by omega)]
  rw [if_neg c1]
  by_cases c2 : e = 255
  · rw [if_pos (by omega), if_pos c2]
  have c2' : ¬ e * 2 ^ 23 = 2139095040 := fun h => c2 (Nat.eq_of_mul_eq_mul_right (show 0 < 2 ^ 23 by norm_num)
    (h.trans (show 2139095040 = 255 * 2 ^ 23 by norm_num)))
  rw [if_neg c2', if_neg c2]
  by_cases c3 : e > 142
  · rw [if_pos (by omega), if_neg (by omega), if_neg (by omega), if_neg (by omega)]
  rw [if_neg (by omega)]
  by_cases c4 : e ≤ 112
  · rw [if_pos (by omega)]
    by_cases c5 : e < 102
    · rw [if_pos (by omega), if_pos c5, Nat.or_zero]
    rw [if_neg (by omega), if_neg c5, if_pos c4]
    have o1 : m ||| 0x00800000 = 2 ^ 23 + m := by
      rw [Nat.or_comm]; exact or_add 1 m 23 hm
    have a1 : (14 - ((e : ℤ) - 127 + 15)) = ((126 - e : ℕ) : ℤ) := by omega
    have a2 : (13 - ((e : ℤ) - 127 + 15)) = ((125 - e : ℕ) : ℤ) := by omega
    rw [o1, a1, a2, shr_ok _ _ (by omega), shr_ok _ _ (by omega)]
    obtain ⟨M, hM⟩ : ∃ M, M = 2 ^ 23 + m := ⟨_, rfl⟩
    rw [← hM]
    have b1 : M / 2 ^ (126 - e) ≤ 1023 := by
      have : 2 ^ 14 ≤ 2 ^ (126 - e) := Nat.pow_le_pow_right (by norm_num) (by omega)
      have := Nat.div_le_div_left (a := M) this (by norm_num)
      omega
    generalize hQ : M / 2 ^ (126 - e) = Q at b1 ⊢
    have e1 : Q % 2 ^ 16 = Q := by omega
    have e2 : (Q + 1) % 2 ^ 16 = Q + 1 := by omega
    have e3 : M / 2 ^ (125 - e) &&& 1 = M / 2 ^ (125 - e) % 2 := Nat.and_one_is_mod _
    refine congrArg Except.ok ?_
    rw [e1, e2, e3]
    split
    · rw [or_add _ _ 15 (by omega)]; omega
    · rw [or_add _ _ 15 (by omega)]; omega
  · rw [if_neg (by omega), if_neg (by omega), if_neg (by omega), if_pos (by omega)]
    have a1 : ((e : ℤ) - 127 + 15) = ((e - 112 : ℕ) : ℤ) := by omega
    rw [a1, show (10 : ℤ) = ((10 : ℕ) : ℤ) by rfl, shl_small _ 10 (by norm_num) (by omega)]
    have hb : m &&& 0x00001000 = (m / 2 ^ 12 % 2) * 2 ^ 12 := and_field m 1 12
    have o1 : s * 2 ^ 15 ||| (e - 112) * 2 ^ 10 = s * 2 ^ 15 + (e - 112) * 2 ^ 10 := or_add _ _ 15 (by omega)
    have o2 : s * 2 ^ 15 + (e - 112) * 2 ^ 10 ||| m / 2 ^ 13 = s * 2 ^ 15 + (e - 112) * 2 ^ 10 + m / 2 ^ 13 := by
      have := or_add (s * 2 ^ 5 + (e - 112)) (m / 2 ^ 13) 10 (by omega)
      rw [show (s * 2 ^ 5 + (e - 112)) * 2 ^ 10 = s * 2 ^ 15 + (e - 112) * 2 ^ 10 by ring] at this
      exact this
    show (if m &&& 0x00001000 ≠ 0 then Except.ok _ else Except.ok _) = _
    rw [hb, wrapU_small 16 _ (by omega), show m / 2 ^ 13 % 2 ^ 16 = m / 2 ^ 13 by omega, o1, o2]
    split
    · exact congrArg Except.ok (by omega)
    · exact congrArg Except.ok (by omega)

/-- the conversion of the upper word of a double by fields -/
theorem ofDoubleHigh_eq (s e m : ℕ) (hs : s < 2) (he : e < 2048) (hm : m < 2 ^ 20) :
    ofDoubleHigh (s * 2 ^ 31 + e * 2 ^ 20 + m) =
      if e = 2047 then (if m = 0 then .ok (s * 2 ^ 15 + 31744) else .ok 0xFE00)
      else if e < 998 then .ok (s * 2 ^ 15)
      else if e ≤ 1008 then
        .ok (s * 2 ^ 15 + ((2 ^ 20 + m) / 2 ^ (1019 - e) + (2 ^ 20 + m) / 2 ^ (1018 - e) % 2))
      else if e ≤ 1038 then
        .ok (s * 2 ^ 15 + ((e - 1008) * 1024 + ((2 ^ 20 + m) / 2 ^ 10 - 1024) + (2 ^ 20 + m) / 2 ^ 9 % 2))
      else .ok (s * 2 ^ 15 + 31744) := by
  obtain ⟨x, hx⟩ : ∃ x, x = s * 2 ^ 31 + e * 2 ^ 20 + m := ⟨_, rfl⟩
  rw [← hx]
  obtain ⟨q1, q2, q3, q4, hsx, hsx2, hor2, hse, hx16⟩ :
      (x % 2 ^ 31 = e * 2 ^ 20 + m) ∧
      (x / 2 ^ 31 % 2 ^ 1 * 2 ^ 31 = s * 2 ^ 31) ∧
      (x / 2 ^ 20 % 2 ^ 11 * 2 ^ 20 = e * 2 ^ 20) ∧
      (x % 2 ^ 20 = m) ∧
      (s * 2 ^ 31 / 2 ^ 16 = s * 2 ^ 15) ∧
      ((s * 2 ^ 15) % 2 ^ 16 = s * 2 ^ 15) ∧
      ((s * 2 ^ 15 + 31744) % 2 ^ 16 = s * 2 ^ 15 + 31744) ∧
      (e * 2 ^ 20 / 2 ^ 20 = e) ∧
      (e * 2 ^ 20 + m = 0 → x / 2 ^ 16 % 2 ^ 16 = s * 2 ^ 15) := by
    refine ⟨?_, ?_, ?_, ?_, ?_, ?_, ?_, ?_, ?_⟩ <;> omega
  unfold ofDoubleHigh
  have r1 : x &&& 0x7FFFFFFF = _ := and_low x 31
  have r2 : x &&& 0x80000000 = _ := and_field x 1 31
  have r3 : x &&& 0x7FF00000 = _ := and_field x 11 20
  have r4 : x &&& 0x000FFFFF = _ := and_low x 20
  rw [r1, r2, r3, r4, q1, q2, q3, q4]
  clear r1 r2 r3 r4
  simp only [Nat.shiftRight_eq_div_pow, hsx, hsx2, (or_add s 31744 15 (by norm_num) : s * 2 ^ 15 ||| 0x7c00 = _), hor2, hse]
  clear q1 q2 q3 q4 hsx hsx2 hor2 hse hx
  by_cases c0 : e * 2 ^ 20 + m = 0
  · rw [if_pos c0, if_neg (by omega), if_pos (by omega)]
    exact congrArg Except.ok (hx16 c0)
  rw [if_neg c0]
  by_cases c1 : e * 2 ^ 20 = 0
  · rw [if_pos c1, if_neg (by omega), if_pos (by omega)]
  rw [if_neg c1]
  by_cases c2 : e = 2047
  · rw [if_pos (by omega), if_pos c2]
  have c2' : ¬ e * 2 ^ 20 = 2146435072 := fun h => c2 (Nat.eq_of_mul_eq_mul_right (show 0 < 2 ^ 20 by norm_num)
    (h.trans (show 2146435072 = 2047 * 2 ^ 20 by norm_num)))
  rw [if_neg c2', if_neg c2]
  by_cases c3 : e > 1038
  · rw [if_pos (by omega), if_neg (by omega), if_neg (by omega), if_neg (by omega)]
  rw [if_neg (by omega)]
  by_cases c4 : e ≤ 1008
  · rw [if_pos (by omega)]
    by_cases c5 : e < 997
    · rw [if_pos (by omega), if_pos (by omega), Nat.or_zero]
    rw [if_neg (by omega)]
    have o1 : m ||| 0x00100000 = 2 ^ 20 + m := by
      rw [Nat.or_comm]; exact or_add 1 m 20 hm
    have a1 : (11 - ((e : ℤ) - 1023 + 15)) = ((1019 - e : ℕ) : ℤ) := by omega
    have a2 : (10 - ((e : ℤ) - 1023 + 15)) = ((1018 - e : ℕ) : ℤ) := by omega
    rw [o1, a1, a2, shr_ok _ _ (by omega), shr_ok _ _ (by omega)]
    obtain ⟨M, hM⟩ : ∃ M, M = 2 ^ 20 + m := ⟨_, rfl⟩
    rw [← hM]
    have b1 : M / 2 ^ (1019 - e) ≤ 1023 := by
      have : 2 ^ 11 ≤ 2 ^ (1019 - e) := Nat.pow_le_pow_right (by norm_num) (by omega)
      have := Nat.div_le_div_left (a := M) this (by norm_num)
      omega
    generalize hQ : M / 2 ^ (1019 - e) = Q at b1 ⊢
    have e1 : Q % 2 ^ 16 = Q := by omega
    have e2 : (Q + 1) % 2 ^ 16 = Q + 1 := by omega
    have e3 : M / 2 ^ (1018 - e) &&& 1 = M / 2 ^ (1018 - e) % 2 := Nat.and_one_is_mod _
    by_cases c6 : e < 998
    · rw [if_pos c6]
      have : e = 997 := by omega
      subst this
      have z1 : M / 2 ^ (1019 - 997) = 0 := Nat.div_eq_of_lt (by norm_num; omega)
      have z2 : M / 2 ^ (1018 - 997) = 0 := Nat.div_eq_of_lt (by norm_num; omega)
      refine congrArg Except.ok ?_
      rw [← hQ, z1, z2]
      simp
    rw [if_neg c6, if_pos c4]
    refine congrArg Except.ok ?_
    rw [e1, e2, e3]
    split
    · rw [or_add _ _ 15 (by omega)]; omega
    · rw [or_add _ _ 15 (by omega)]; omega
  · rw [if_neg (by omega), if_neg (by omega), if_neg (by omega), if_pos (by omega)]
    have a1 : ((e : ℤ) - 1023 + 15) = ((e - 1008 : ℕ) : ℤ) := by omega
    rw [a1, show (10 : ℤ) = ((10 : ℕ) : ℤ) by rfl, shl_small _ 10 (by norm_num) (by omega)]
    have hb : m &&& 0x00000200 = (m / 2 ^ 9 % 2) * 2 ^ 9 := and_field m 1 9
    have o1 : s * 2 ^ 15 ||| (e - 1008) * 2 ^ 10 = s * 2 ^ 15 + (e - 1008) * 2 ^ 10 := or_add _ _ 15 (by omega)
    have o2 : s * 2 ^ 15 + (e - 1008) * 2 ^ 10 ||| m / 2 ^ 10 = s * 2 ^ 15 + (e - 1008) * 2 ^ 10 + m / 2 ^ 10 := by
      have := or_add (s * 2 ^ 5 + (e - 1008)) (m / 2 ^ 10) 10 (by omega)
      rw [show (s * 2 ^ 5 + (e - 1008)) * 2 ^ 10 = s * 2 ^ 15 + (e - 1008) * 2 ^ 10 by ring] at this
      exact this
    show (if m &&& 0x00000200 ≠ 0 then Except.ok _ else Except.ok _) = _
    rw [hb, wrapU_small 16 _ (by omega), show m / 2 ^ 10 % 2 ^ 16 = m / 2 ^ 10 by omega, o1, o2]
    split
    · exact congrArg Except.ok (by omega)
    · exact congrArg Except.ok (by omega)

end Verif.HalfPrec
