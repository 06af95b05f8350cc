import Verif.Lemmas.Float2Bits
import Verif.Props.AnyFloatSpecial

/-! # `float2bits` returns the bits of a float (C59) -/

namespace Verif
namespace Float2Bits

variable {o : FloatOps}

theorem abs_of_ieee {f : ℕ} (hf : f < 2 ^ 32) {x : ℚ} (hx : ieee 8 23 f = .num x) :
    AnyFloat.natLt .single f 0 = decide (x < 0) ∧ ieee 8 23 (if x < 0 then f ^^^ 0x80000000 else f) = .num |x| := by
  constructor
  · show AnyFloat.xLt (ieee 8 23 f) (ieee 8 23 0) = _
    rw [hx, show ieee 8 23 0 = .num 0 by norm_num [ieee]]; rfl
  · split_ifs with h
    · have := (C57_neg (eb := 8) (fb := 23) hf).2.1
      rw [hx] at this
      rw [abs_of_neg h]
      exact this
    · rw [abs_of_nonneg (not_lt.mp h), hx]

/-- magnitude and sign of a nonzero number -/
theorem fields_of {f : ℕ} {x : ℚ} (hx : ieee 8 23 f = .num x) (h0 : x ≠ 0) :
    fSign 8 23 f = decide (x < 0) ∧
    ((fExp 8 23 f = 0 ∧ 0 < fMan 23 f ∧ |x| = (fMan 23 f : ℚ) * 2 ^ (-149 : ℤ)) ∨
     (0 < fExp 8 23 f ∧ fExp 8 23 f < 255 ∧ |x| = ((2 ^ 23 + fMan 23 f : ℕ) : ℚ) * 2 ^ ((fExp 8 23 f : ℤ) - 150))) := by
  have hlt := fExp_lt 8 23 f
  obtain ⟨hne, ⟨h1, h2⟩ | ⟨h1, h2⟩⟩ := ieee_num hx
  · have e : ((2 : ℤ) - 2 ^ (8 - 1) - (23 : ℕ)) = -149 := by norm_num
    rw [e] at h2
    have hm : 0 < fMan 23 f := by
      rcases Nat.eq_zero_or_pos (fMan 23 f) with h | h
      · rw [h] at h2; simp at h2; exact absurd h2 h0
      · exact h
    have hp : 0 < (fMan 23 f : ℚ) * 2 ^ (-149 : ℤ) := by
      have : (0 : ℚ) < fMan 23 f := by exact_mod_cast hm
      positivity
    generalize (fMan 23 f : ℚ) * 2 ^ (-149 : ℤ) = y at *
    refine ⟨?_, Or.inl ⟨h1, hm, ?_⟩⟩
    · cases hb : fSign 8 23 f <;> rw [hb] at h2 <;> simp at h2 <;> rw [h2] <;> simp [hp, hp.le]
    · cases hb : fSign 8 23 f <;> rw [hb] at h2 <;> simp at h2 <;> rw [h2] <;> simp [abs_of_pos hp]
  · have e : ((fExp 8 23 f : ℤ) - (2 ^ (8 - 1) - 1) - (23 : ℕ)) = (fExp 8 23 f : ℤ) - 150 := by norm_num; ring
    have e' : (2 ^ 23 + fMan 23 f : ℚ) = ((2 ^ 23 + fMan 23 f : ℕ) : ℚ) := by push_cast; rfl
    rw [e, e'] at h2
    have hp : 0 < ((2 ^ 23 + fMan 23 f : ℕ) : ℚ) * 2 ^ ((fExp 8 23 f : ℤ) - 150) := by positivity
    generalize ((2 ^ 23 + fMan 23 f : ℕ) : ℚ) * 2 ^ ((fExp 8 23 f : ℤ) - 150) = y at *
    refine ⟨?_, Or.inr ⟨by omega, by omega, ?_⟩⟩
    · cases hb : fSign 8 23 f <;> rw [hb] at h2 <;> simp at h2 <;> rw [h2] <;> simp [hp, hp.le]
    · cases hb : fSign 8 23 f <;> rw [hb] at h2 <;> simp at h2 <;> rw [h2] <;> simp [abs_of_pos hp]

theorem pow_lt_of {m k : ℕ} {A B : ℤ} (hm : m < 2 ^ k) (h : (2 : ℚ) ^ A ≤ (m : ℚ) * 2 ^ B) : A < B + k := by
  have h1 : (m : ℚ) < 2 ^ (k : ℤ) := by rw [zpow_natCast]; exact_mod_cast hm
  have h2 : (2 : ℚ) ^ A < 2 ^ (B + k) := by
    rw [zpow_add₀ (by norm_num), mul_comm]
    exact h.trans_lt (mul_lt_mul_of_pos_right h1 (by positivity))
  exact (zpow_lt_zpow_iff_right₀ (by norm_num)).mp h2

theorem lt_of_pow {m k : ℕ} {A B : ℤ} (hm : 2 ^ k ≤ m) (h : (m : ℚ) * 2 ^ B < 2 ^ A) : B + k < A := by
  have h1 : (2 : ℚ) ^ (k : ℤ) ≤ m := by rw [zpow_natCast]; exact_mod_cast hm
  have h2 : (2 : ℚ) ^ (B + k) < 2 ^ A := by
    rw [zpow_add₀ (by norm_num), mul_comm]
    exact (mul_le_mul_of_nonneg_right h1 (by positivity)).trans_lt h
  exact (zpow_lt_zpow_iff_right₀ (by norm_num)).mp h2

/-- **C59**: of every float that is a nonzero number, normal or subnormal, `float2bits` returns the bits, in every rounding mode;
the loop ends after at most six rounds. -/
theorem C59_num (ho : o.Correct 8 23) {n f : ℕ} (hn : 7 ≤ n) (hf : f < 2 ^ 32) {x : ℚ} (hx : ieee 8 23 f = .num x) (h0 : x ≠ 0) :
    float2bits o n f = some (.ok f) := by
  have hz : ieee 8 23 0 = .num 0 := by norm_num [ieee]
  have hi : ieee 8 23 0x7f800000 = .inf false := by norm_num [ieee]
  have hi' : ieee 8 23 0xff800000 = .inf true := by norm_num [ieee]
  unfold float2bits
  have e1 : AnyFloat.natEq .single f 0 = false := by
    show AnyFloat.xEq (ieee 8 23 f) (ieee 8 23 0) = _
    rw [hx, hz]; simp [AnyFloat.xEq, h0]
  have e2 : AnyFloat.natEq .single f 0x7f800000 = false := by
    show AnyFloat.xEq (ieee 8 23 f) (ieee 8 23 0x7f800000) = _
    rw [hx, hi]; rfl
  have e3 : AnyFloat.natEq .single f 0xff800000 = false := by
    show AnyFloat.xEq (ieee 8 23 f) (ieee 8 23 0xff800000) = _
    rw [hx, hi']; rfl
  have e4 : AnyFloat.natEq .single f f = true := by
    show AnyFloat.xEq (ieee 8 23 f) (ieee 8 23 f) = _
    rw [hx]; simp [AnyFloat.xEq]
  obtain ⟨e5, e6⟩ := abs_of_ieee hf hx
  simp only [e1, e2, e3, e4, e5, Bool.false_eq_true, if_false, Bool.not_true, decide_eq_true_eq]
  obtain ⟨hs, hc⟩ := fields_of hx h0
  have hman := fMan_lt 23 f
  have hx2 := fJoin_fields (eb := 8) (fb := 23) hf
  rw [hs] at hx2
  have hmax := ieee_le_maxFin (by norm_num) hx
  have hmax' := hmax.trans_lt (maxFin_lt (eb := 8) (fb := 23))
  rw [show ((2 : ℤ) ^ (8 - 1)) = 128 by norm_num] at hmax'
  generalize (if x < 0 then f ^^^ 0x80000000 else f) = a at *
  rcases hc with ⟨hE, hM, hv⟩ | ⟨hE, hE', hv⟩
  · rw [hv] at e6 hmax'
    generalize fMan 23 f = m at *
    have hm1 : (1 : ℚ) ≤ m := by exact_mod_cast hM
    obtain ⟨k, hk, a', l1, l2, l3, l4⟩ := loop_spec ho hM (by omega) 6 (e := 254) (fuel := n) (by omega) e6 le_rfl hmax' (by
      calc (2 : ℚ) ^ (87 : ℤ) ≤ 2 ^ ((-149 : ℤ) + 41 * (6 : ℕ)) := zpow_le_zpow_right₀ (by norm_num) (by norm_num)
        _ ≤ m * 2 ^ ((-149 : ℤ) + 41 * (6 : ℕ)) := le_mul_of_one_le_left (by positivity) hm1)
    have hk6 : k = 6 := by
      have := pow_lt_of hman l3
      omega
    subst hk6
    have h5 := scale ho hM (by omega) l2 pm64 (by norm_num) (lt_trans (by
      apply mul_lt_mul_of_pos_left _ (by linarith)
      exact zpow_lt_zpow_right₀ (by norm_num) (by norm_num)) l4)
    rw [show ((-149 : ℤ) + 41 * (6 : ℕ) + -64) = ((33 : ℕ) : ℤ) by norm_num, zpow_natCast,
      show (m : ℚ) * 2 ^ 33 = ((m * 2 ^ 33 : ℕ) : ℚ) by push_cast; rfl] at h5
    have q1 := Nat.log2_self_le (n := m) (by omega)
    have q2 := Nat.lt_log2_self (n := m)
    have q3 : m.log2 < 23 := by rw [Nat.log2_lt (by omega)]; exact hman
    rw [l1]
    simp only [Option.some.injEq]
    generalize m.log2 = l at *
    have g1 : 2 ^ (l + 33) ≤ m * 2 ^ 33 := by rw [pow_add]; exact Nat.mul_le_mul_right _ q1
    have g2 : m * 2 ^ 33 < 2 ^ (l + 33 + 1) := by
      have e : (2 : ℕ) ^ (l + 33 + 1) = 2 ^ (l + 1) * 2 ^ 33 := by ring
      rw [e]; exact Nat.mul_lt_mul_of_pos_right q2 (by norm_num)
    have g3 : (if (254 : ℤ) - 41 * (6 : ℕ) - (63 - ((l + 33 : ℕ) : ℤ)) ≤ 0 then ((0 : ℤ), (8 : ℤ) - 1)
        else ((254 : ℤ) - 41 * (6 : ℕ) - (63 - ((l + 33 : ℕ) : ℤ)), 63 - ((l + 33 : ℕ) : ℤ))) = (0, 7) := by
      rw [if_pos (by push_cast; omega)]; norm_num
    have g4 : m * 2 ^ 33 * 2 ^ 8 % 2 ^ 64 / 2 ^ 41 = m := by omega
    have g5 := finish_eq (sign := decide (x < 0)) (x := 0) (k := 8) h5 g1 g2 (by omega) g3 (by norm_num) (by norm_num) (by norm_num)
      (by norm_num) g4 hman
    rw [g5, ← hE, hx2]
  · rw [hv] at e6 hmax'
    have hmm : 2 ^ 23 ≤ 2 ^ 23 + fMan 23 f := by omega
    have hmm' : 2 ^ 23 + fMan 23 f < 2 ^ 24 := by omega
    have hme : fMan 23 f = 2 ^ 23 + fMan 23 f - 2 ^ 23 := by omega
    generalize 2 ^ 23 + fMan 23 f = m at *
    generalize hex : fExp 8 23 f = ex at *
    have hm0 : 0 < m := by omega
    have hm1 : (1 : ℚ) ≤ m := by exact_mod_cast hm0
    obtain ⟨k, hk, a', l1, l2, l3, l4⟩ := loop_spec ho hm0 hmm' 6 (e := 254) (fuel := n) (by omega) e6 (by omega) hmax' (by
      calc (2 : ℚ) ^ (87 : ℤ) ≤ 2 ^ ((ex : ℤ) - 150 + 41 * (6 : ℕ)) := zpow_le_zpow_right₀ (by norm_num) (by push_cast; omega)
        _ ≤ m * 2 ^ ((ex : ℤ) - 150 + 41 * (6 : ℕ)) := le_mul_of_one_le_left (by positivity) hm1)
    have b1 := pow_lt_of hmm' l3
    have b2 := lt_of_pow hmm l4
    obtain ⟨s, hs'⟩ : ∃ s : ℕ, (ex : ℤ) - 150 + 41 * (k : ℤ) + -64 = s := ⟨((ex : ℤ) - 150 + 41 * (k : ℤ) + -64).toNat, by omega⟩
    have h5 := scale ho hm0 hmm' l2 pm64 (by omega) (lt_trans (by
      apply mul_lt_mul_of_pos_left _ (by linarith)
      exact zpow_lt_zpow_right₀ (by norm_num) (by omega)) l4)
    rw [hs', zpow_natCast, show (m : ℚ) * 2 ^ s = ((m * 2 ^ s : ℕ) : ℚ) by push_cast; rfl] at h5
    rw [l1]
    simp only [Option.some.injEq]
    have g1 : 2 ^ (23 + s) ≤ m * 2 ^ s := by rw [pow_add]; exact Nat.mul_le_mul_right _ hmm
    have g2 : m * 2 ^ s < 2 ^ (23 + s + 1) := by
      have e : (2 : ℕ) ^ (23 + s + 1) = 2 ^ 24 * 2 ^ s := by ring
      rw [e]; exact Nat.mul_lt_mul_of_pos_right hmm' (by positivity)
    have g3 : (if (254 : ℤ) - 41 * k - (63 - ((23 + s : ℕ) : ℤ)) ≤ 0 then ((0 : ℤ), (8 : ℤ) - 1)
        else ((254 : ℤ) - 41 * k - (63 - ((23 + s : ℕ) : ℤ)), 63 - ((23 + s : ℕ) : ℤ))) = ((ex : ℤ), 40 - (s : ℤ)) := by
      rw [if_neg (by push_cast; omega)]
      exact Prod.ext (by push_cast; omega) (by push_cast; omega)
    have g4 : m * 2 ^ s * 2 ^ (41 - s) % 2 ^ 64 / 2 ^ 41 = m - 2 ^ 23 := by
      have e : m * 2 ^ s * 2 ^ (41 - s) = m * 2 ^ 41 := by
        rw [mul_assoc, ← pow_add, show s + (41 - s) = 41 by omega]
      rw [e]; omega
    have g5 := finish_eq (sign := decide (x < 0)) (x := ex) (k := 41 - s) h5 g1 g2 (by omega) g3 rfl (by omega) (by push_cast; omega)
      (by omega) g4 (by omega)
    rw [g5, ← hme, hx2]

/-- the least subnormal number -/
example (ho : o.Correct 8 23) : float2bits o 7 1 = some (.ok 1) :=
  C59_num ho le_rfl (by norm_num) (x := 2 ^ (-149 : ℤ)) (by norm_num [ieee]) (by positivity)

/-- **C59**: infinities are kept; of a NaN the canonical quiet NaN is returned. -/
theorem C59_special {n f : ℕ} : (∀ s, ieee 8 23 f = .inf s → f < 2 ^ 32 → float2bits o n f = some (.ok f)) ∧
    (ieee 8 23 f = .nan → float2bits o n f = some (.ok 0x7fc00000)) ∧ ieee 8 23 0x7fc00000 = .nan := by
  have hz : ieee 8 23 0 = .num 0 := by norm_num [ieee]
  have hi : ieee 8 23 0x7f800000 = .inf false := by norm_num [ieee]
  have hi' : ieee 8 23 0xff800000 = .inf true := by norm_num [ieee]
  have key : ∀ g, AnyFloat.natEq .single f g = AnyFloat.xEq (ieee 8 23 f) (ieee 8 23 g) := fun _ => rfl
  refine ⟨fun s hs hf => ?_, fun h => ?_, by norm_num [ieee]⟩
  · have hv : f = if s then 0xff800000 else 0x7f800000 := by
      rw [ieee_eq] at hs
      split_ifs at hs with h1 h2
      simp only [XNum.inf.injEq] at hs
      have := fJoin_fields (eb := 8) (fb := 23) hf
      rw [hs, h1, h2] at this
      rw [← this]
      cases s <;> decide +kernel
    unfold float2bits
    rw [key, key, key, hs, hz, hi, hi', hv]
    cases s <;> simp [AnyFloat.xEq]
  · unfold float2bits
    rw [key, key, key, key, h, hz, hi, hi']
    simp [AnyFloat.xEq]

/-- -infinity and a signalling NaN -/
example : float2bits o 9 0xff800000 = some (.ok 0xff800000) ∧ float2bits o 9 0x7f800001 = some (.ok 0x7fc00000) :=
  ⟨C59_special.1 true (by norm_num [ieee]) (by norm_num), C59_special.2.1 (by norm_num [ieee])⟩

/-- **C59**, zero: +0 is right, -0 loses its sign. -/
theorem C59_zero_wrong {n : ℕ} : float2bits o n 0 = some (.ok 0) ∧ float2bits o n 0x80000000 = some (.ok 0) ∧
    ieee 8 23 0x80000000 = .num 0 := by
  have hz : ieee 8 23 0 = .num 0 := by norm_num [ieee]
  have hz' : ieee 8 23 0x80000000 = .num 0 := by norm_num [ieee]
  have key : ∀ f g, AnyFloat.natEq .single f g = AnyFloat.xEq (ieee 8 23 f) (ieee 8 23 g) := fun _ _ => rfl
  refine ⟨?_, ?_, hz'⟩
  · unfold float2bits; rw [if_pos (by rw [key, hz]; rfl)]
  · unfold float2bits; rw [if_pos (by rw [key, hz, hz']; rfl)]

/-- a subnormal number, a negative normal number, the greatest number -/
example : ∃ o : FloatOps, o.Correct 8 23 ∧ float2bits o 7 1 = some (.ok 1) ∧ float2bits o 7 0xbf800001 = some (.ok 0xbf800001) ∧
    float2bits o 7 0x7f7fffff = some (.ok 0x7f7fffff) := by
  obtain ⟨o, ho⟩ := floatOps_exists (eb := 8) (fb := 23) (by norm_num) (by norm_num)
  refine ⟨o, ho, ?_, ?_, ?_⟩
  · exact C59_num ho le_rfl (by norm_num) (x := 2 ^ (-149 : ℤ)) (by norm_num [ieee]) (by positivity)
  · exact C59_num ho le_rfl (by norm_num) (x := -8388609 / 8388608) (by norm_num [ieee]) (by norm_num)
  · exact C59_num ho le_rfl (by norm_num) (x := 16777215 * 2 ^ (104 : ℤ)) (by norm_num [ieee]) (by positivity)

/-- **C59**, the conversion to `uint64_t`: numbers from 0 up to 2^64 lose their fraction; it is undefined for numbers out of range,
infinities and NaN. -/
theorem C59_toU64 (x : XNum) : (∀ q, x = .num q → 0 ≤ q → q < 2 ^ 64 → ∃ n : ℕ, toU64 x = .ok n ∧ (n : ℚ) ≤ q ∧ q < n + 1) ∧
    (∀ q, x = .num q → q ≤ -1 ∨ 2 ^ 64 ≤ q → toU64 x = .error .overflow) ∧ ((∀ q, x ≠ .num q) → toU64 x = .error .overflow) := by
  refine ⟨fun q hx h0 h1 => ?_, fun q hx h => ?_, fun h => ?_⟩
  · subst hx
    have hf : 0 ≤ ⌊q⌋ := Int.floor_nonneg.mpr h0
    have e : ((⌊q⌋.toNat : ℕ) : ℚ) = ⌊q⌋ := by
      rw [← Int.cast_natCast, Int.toNat_of_nonneg hf]
    refine ⟨⌊q⌋.toNat, ?_, by rw [e]; exact Int.floor_le q, by rw [e]; exact Int.lt_floor_add_one q⟩
    show (if _ then _ else _) = _
    rw [if_pos ⟨by linarith, h1⟩]
  · subst hx
    show (if _ then _ else _) = _
    rw [if_neg]
    rintro ⟨h1, h2⟩
    rcases h with h | h <;> linarith
  · cases x with
    | num q => exact absurd rfl (h q)
    | inf s => rfl
    | nan => rfl

example : toU64 (.num (7 / 2)) = .ok 3 ∧ toU64 (.num (-1)) = .error .overflow ∧ toU64 .nan = .error .overflow := by decide +kernel

end Float2Bits
end Verif
