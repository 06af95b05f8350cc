import Verif.Model.Float12
import Verif.Spec.Directed
import Verif.Spec.TowardZero
import Verif.Lemmas.NearestEven
import Verif.Lemmas.HalfPrecWiden
import Verif.Props.HalfPrec

/-! Lemmas about the emulated 12-bit float -/

namespace Verif.Float12
open HalfPrec

/-! ## shifting with a sticky last bit -/

/-- quotient whose last bit is set if there is a remainder -/
def jam (M A : ℕ) : ℕ := M / A ||| (if M % A ≠ 0 then 1 else 0)

theorem or_one (P : ℕ) : P ||| 1 = 2 * (P / 2) + 1 := by
  have h := or_add (P / 2) 1 1 (by norm_num)
  have h2 : P ||| 1 = P / 2 * 2 ^ 1 ||| 1 := by
    apply Nat.eq_of_testBit_eq
    intro i
    rcases i with _ | i
    · simp
    · have e1 : Nat.testBit 1 (i + 1) = false := by simp [Nat.testBit_succ]
      rw [Nat.testBit_or, Nat.testBit_or, e1, Nat.testBit_succ, Nat.testBit_succ]
      simp
  rw [h2, h]; omega

theorem jam_eq (M A : ℕ) : jam M A = 2 * (M / A / 2) + (if M / A % 2 = 1 ∨ M % A ≠ 0 then 1 else 0) := by
  unfold jam
  by_cases h : M % A = 0
  · simp only [h, ne_eq, not_true, if_false, Nat.or_zero, or_false]
    split <;> omega
  · simp only [ne_eq, h, not_false_iff, if_true, or_true, or_one]

theorem jam_half (M A : ℕ) : jam M A / 2 = M / A / 2 := by
  rw [jam_eq]; split <;> omega

theorem jam_jam (M A d : ℕ) (hd : 1 ≤ d) : jam (jam M A) (2 ^ d) = jam M (A * 2 ^ d) := by
  obtain ⟨c, rfl⟩ : ∃ c, d = c + 1 := ⟨d - 1, by omega⟩
  have e1 : jam M A / 2 ^ (c + 1) = M / (A * 2 ^ (c + 1)) := by
    rw [pow_succ', ← Nat.div_div_eq_div_mul, jam_half, Nat.div_div_eq_div_mul, Nat.div_div_eq_div_mul]
  have e2 : jam M A % 2 ^ (c + 1) = 0 ↔ M % (A * 2 ^ (c + 1)) = 0 := by
    rw [Nat.mod_mul]
    constructor
    · intro h
      have h2 : jam M A % 2 = 0 := by
        have := Nat.mod_mod_of_dvd (jam M A) (show 2 ∣ 2 ^ (c + 1) from Dvd.intro_left _ (pow_succ 2 c).symm)
        rw [h] at this; omega
      have hj := jam_eq M A
      have h3 : ¬ (M / A % 2 = 1 ∨ M % A ≠ 0) := by
        intro hc; rw [if_pos hc] at hj; omega
      rw [if_neg h3] at hj
      push Not at h3
      have : jam M A = M / A := by omega
      rw [this] at h
      rw [h, h3.2]; simp
    · intro h
      have h1 : M % A = 0 := by omega
      rw [h1, Nat.zero_add] at h
      rcases Nat.mul_eq_zero.1 h with h0 | h0
      · subst h0; simp at h1; subst h1; simp [jam]
      · unfold jam; simp only [h1, ne_eq, not_true, if_false, Nat.or_zero, h0]
  have u : ∀ a b, jam a b = a / b ||| (if a % b ≠ 0 then 1 else 0) := fun _ _ => rfl
  rw [u (jam M A), u M (A * 2 ^ (c + 1)), ← e1]
  simp only [ne_eq, e2]

theorem jam_small {M A : ℕ} (h0 : M ≠ 0) (h1 : M < A) : jam M A = 1 := by
  unfold jam
  rw [Nat.div_eq_of_lt h1, Nat.mod_eq_of_lt h1, if_pos h0]; rfl

theorem jam_cmp (M A : ℕ) (hA : 0 < A) :
    jam M A / 16 = M / (A * 16) ∧ (jam M A % 16 = 0 ↔ M % (A * 16) = 0) ∧ (jam M A % 16 < 8 ↔ M % (A * 16) < A * 8) ∧
      (jam M A % 16 = 8 ↔ M % (A * 16) = A * 8) := by
  have hR : M % A < A := Nat.mod_lt _ hA
  have hj := jam_eq M A
  have hm : M % (A * 16) = M % A + A * (M / A % 16) := Nat.mod_mul
  have hd : M / (A * 16) = M / A / 16 := (Nat.div_div_eq_div_mul _ _ _).symm
  rw [hd, hm]
  generalize M / A = P at *
  generalize M % A = R at *
  generalize jam M A = S at *
  refine ⟨by split at hj <;> omega, ?_⟩
  have hp : P % 16 < 16 := Nat.mod_lt _ (by norm_num)
  have hs : S % 16 = 2 * (P % 16 / 2) + (if P % 16 % 2 = 1 ∨ R ≠ 0 then 1 else 0) := by
    have : P % 16 % 2 = P % 2 := by omega
    rw [this]
    split at hj <;> rename_i hc
    · rw [if_pos hc]; omega
    · rw [if_neg hc]; omega
  rw [hs]
  clear hs hj hm
  generalize P % 16 = p at *
  by_cases h0 : R = 0
  · subst h0
    interval_cases p <;> simp <;> omega
  · interval_cases p <;> simp [h0] <;> omega

/-! ## what is added -/

/-- what rounding adds to a quotient `q` with the four bits `r` behind it -/
def upOf (mode : Mode) (s q r : ℕ) : ℕ :=
  if mode = .nearEven then (if 8 < r ∨ r = 8 ∧ q % 2 = 1 then 1 else 0)
  else if mode = .nearMaxMag then (if 8 ≤ r then 1 else 0)
  else if roundIncrement mode s = 15 then (if 0 < r then 1 else 0)
  else 0

theorem inc_cases (mode : Mode) (s : ℕ) : roundIncrement mode s = 8 ∨ roundIncrement mode s = 15 ∨ roundIncrement mode s = 0 := by
  cases mode <;> unfold roundIncrement <;> by_cases h : s = 0 <;> simp [h]

theorem pack_eq {W : ℕ} (hW : 16 ≤ W) {s e k : ℕ} (hs : s < 2) (he : e < 2 ^ 10) :
    pack W s e k = s * 2 ^ 15 + e * 1024 + k := by
  have hp : 2 ^ 16 ≤ 2 ^ W := Nat.pow_le_pow_right (by norm_num) hW
  unfold pack
  rw [Nat.mod_eq_of_lt (by omega), Nat.mod_eq_of_lt (by omega), Nat.shiftLeft_eq, Nat.shiftLeft_eq]

theorem tail_eq {W : ℕ} (hW : 16 ≤ W) (mode : Mode) {s exp sig : ℕ} (hs : s < 2) (hsig : sig < 2 ^ 15) (he : exp ≤ 29)
    (hz : exp = 0 ∨ 16 ≤ sig) :
    roundTail W mode s exp sig = s * 2 ^ 15 + (exp * 1024 + sig / 16 + upOf mode s (sig / 16) (sig % 16)) := by
  have hp : 2 ^ 16 ≤ 2 ^ W := Nat.pow_le_pow_right (by norm_num) hW
  have h1 : sig &&& 0xF = sig % 16 := Nat.and_two_pow_sub_one_eq_mod sig 4
  have hinc := inc_cases mode s
  have h2 : (sig + roundIncrement mode s) >>> 4 % 2 ^ W = (sig + roundIncrement mode s) / 16 := by
    rw [Nat.shiftRight_eq_div_pow, Nat.mod_eq_of_lt]
    have : (sig + roundIncrement mode s) / 2 ^ 4 < 2 ^ 16 := by omega
    omega
  have hx : (sig % 16 ^^^ 8 = 0) ↔ sig % 16 = 8 := by rw [Nat.xor_eq_zero_iff]
  have h3 : ((sig + roundIncrement mode s) / 16 &&& (2 ^ W - 1 - (if sig % 16 = 8 ∧ mode = .nearEven then 1 else 0)))
      = sig / 16 + upOf mode s (sig / 16) (sig % 16) := by
    by_cases hc : sig % 16 = 8 ∧ mode = .nearEven
    · rw [if_pos hc]
      obtain ⟨hc1, rfl⟩ := hc
      have hr : roundIncrement .nearEven s = 8 := by simp [roundIncrement]
      have hm : 2 ^ W - 1 - 1 = (2 ^ (W - 1) - 1) * 2 ^ 1 := by
        obtain ⟨V, rfl⟩ : ∃ V, W = V + 1 := ⟨W - 1, by omega⟩
        rw [pow_succ]; simp; omega
      rw [hr, hm, and_field]
      have hlt : (sig + 8) / 16 / 2 ^ 1 < 2 ^ (W - 1) := by
        have : 2 ^ 15 ≤ 2 ^ (W - 1) := Nat.pow_le_pow_right (by norm_num) (by omega)
        omega
      rw [Nat.mod_eq_of_lt hlt]
      unfold upOf
      rw [if_pos rfl, hc1]
      split <;> omega
    · rw [if_neg hc, Nat.sub_zero, Nat.and_two_pow_sub_one_eq_mod, Nat.mod_eq_of_lt (by omega)]
      unfold upOf
      by_cases m1 : mode = .nearEven
      · subst m1
        have hr : roundIncrement .nearEven s = 8 := by simp [roundIncrement]
        have : sig % 16 ≠ 8 := fun h => hc ⟨h, rfl⟩
        rw [hr, if_pos rfl]
        split <;> omega
      · by_cases m2 : mode = .nearMaxMag
        · subst m2
          have hr : roundIncrement .nearMaxMag s = 8 := by simp [roundIncrement]
          rw [hr, if_neg m1, if_pos rfl]
          split <;> omega
        · have hn8 : roundIncrement mode s ≠ 8 := by
            unfold roundIncrement
            rw [if_pos ⟨m1, m2⟩]
            split <;> split <;> omega
          rw [if_neg m1, if_neg m2]
          by_cases h15 : roundIncrement mode s = 15
          · rw [if_pos h15, h15]
            split <;> omega
          · rw [if_neg h15]
            omega
  unfold roundTail
  simp only [h1, h2, hx, h3]
  have hu : upOf mode s (sig / 16) (sig % 16) ≤ 1 := by
    unfold upOf; repeat' split
    all_goals omega
  rw [show (if sig / 16 + upOf mode s (sig / 16) (sig % 16) = 0 then 0 else exp) = exp by split <;> omega,
    pack_eq hW hs (by omega), Nat.mod_eq_of_lt (by omega)]
  omega

/-! ## what it means -/

/-- rounding in terms of magnitudes: `k` is the pattern of the magnitude that `v` is rounded to -/
def upV (mode : Mode) (s k0 : ℕ) (v : ℚ) : ℕ :=
  if mode = .nearEven then (if mid k0 < v ∨ mid k0 = v ∧ k0 % 2 = 1 then 1 else 0)
  else if mode = .nearMaxMag then (if mid k0 ≤ v then 1 else 0)
  else if roundIncrement mode s = 15 then (if g k0 < v then 1 else 0)
  else 0

def Core (mode : Mode) (s : ℕ) (v : ℚ) (k : ℕ) : Prop :=
  (65536 ≤ v ∧ k = if roundIncrement mode s = 0 then 31743 else 31744) ∨
  ∃ k0 ≤ 31743, g k0 ≤ v ∧ v < g (k0 + 1) ∧ k = k0 + upV mode s k0 v

theorem core_div (mode : Mode) (s M A k0 : ℕ) (w v : ℚ) (hA : 0 < A) (hw : 0 < w) (hk : k0 ≤ 31743)
    (hpar : k0 % 2 = M / (A * 16) % 2)
    (h0 : g k0 = (M / (A * 16) : ℕ) * w) (h1 : g (k0 + 1) = ((M / (A * 16) : ℕ) + 1) * w) (hv : v * (A * 16) = M * w) :
    Core mode s v (k0 + upOf mode s (jam M A / 16) (jam M A % 16)) := by
  obtain ⟨c1, c2, c3, c4⟩ := jam_cmp M A hA
  rw [c1]
  right
  have hdm : (M : ℚ) = (A * 16) * (M / (A * 16) : ℕ) + (M % (A * 16) : ℕ) := by
    exact_mod_cast (Nat.div_add_mod M (A * 16)).symm
  have hR : M % (A * 16) < A * 16 := Nat.mod_lt _ (by omega)
  have hR' : ((M % (A * 16) : ℕ) : ℚ) < A * 16 := by exact_mod_cast hR
  have hR0 : (0 : ℚ) ≤ (M % (A * 16) : ℕ) := by positivity
  generalize M / (A * 16) = q at *
  have e0 : (M % (A * 16) = 0) ↔ ((M % (A * 16) : ℕ) : ℚ) = 0 := by exact_mod_cast Iff.rfl
  have e8 : (M % (A * 16) < A * 8) ↔ ((M % (A * 16) : ℕ) : ℚ) < A * 8 := by exact_mod_cast Iff.rfl
  have e88 : (M % (A * 16) = A * 8) ↔ ((M % (A * 16) : ℕ) : ℚ) = A * 8 := by exact_mod_cast Iff.rfl
  rw [e0] at c2; rw [e8] at c3; rw [e88] at c4
  generalize ((M % (A * 16) : ℕ) : ℚ) = R at *
  generalize jam M A % 16 = r at *
  have hA' : (0 : ℚ) < A := by exact_mod_cast hA
  -- v in terms of the remainder
  have hvR : (v - q * w) * (A * 16) = R * w := by rw [sub_mul, hv, hdm]; ring
  have cmp : ∀ t : ℚ, (v < q * w + t * w ↔ R < t * (A * 16)) ∧ (v = q * w + t * w ↔ R = t * (A * 16)) := by
    intro t
    have hpos : (0 : ℚ) < A * 16 := by linarith
    constructor
    · rw [← sub_lt_iff_lt_add', ← mul_lt_mul_iff_left₀ hpos, hvR, mul_right_comm, mul_lt_mul_iff_left₀ hw]
    · rw [← sub_eq_iff_eq_add', ← mul_left_inj' hpos.ne', hvR, mul_right_comm, mul_left_inj' hw.ne']
  have hmid : mid k0 = q * w + 1 / 2 * w := by unfold mid; rw [h0, h1]; ring
  have m1 : v < mid k0 ↔ r < 8 := by rw [hmid, (cmp (1 / 2)).1, c3, show (1 / 2 : ℚ) * (A * 16) = A * 8 by ring]
  have m2 : v = mid k0 ↔ r = 8 := by rw [hmid, (cmp (1 / 2)).2, c4, show (1 / 2 : ℚ) * (A * 16) = A * 8 by ring]
  have m3 : v < g k0 ↔ False := by
    rw [h0]; have := (cmp 0).1
    rw [zero_mul, add_zero, zero_mul] at this
    rw [this]; simp [hR0]
  have m4 : v = g k0 ↔ r = 0 := by
    rw [h0]; have := (cmp 0).2
    rw [zero_mul, add_zero, zero_mul] at this
    rw [this, c2]
  have m5 : v < g (k0 + 1) := by
    rw [h1, add_mul]; apply (cmp 1).1.2; linarith
  have m3' : g k0 ≤ v := not_lt.mp (fun h => m3.1 h)
  refine ⟨k0, hk, m3', m5, ?_⟩
  congr 1
  unfold upOf upV
  have a1 : mid k0 < v ↔ 8 < r := by
    rw [← not_le, le_iff_lt_or_eq, m1, m2]; omega
  have a2 : mid k0 = v ↔ r = 8 := by rw [eq_comm, m2]
  have a3 : mid k0 ≤ v ↔ 8 ≤ r := by rw [← not_lt, m1]; omega
  have a4 : g k0 < v ↔ 0 < r := by
    rw [lt_iff_le_and_ne, ne_comm, ne_eq, m4]
    constructor
    · rintro ⟨-, h⟩; omega
    · intro h; exact ⟨m3', by omega⟩
  simp only [a1, a2, a3, a4, hpar]

theorem shiftJam_eq {a d : ℕ} (ha : a < 2 ^ 31) (h0 : a ≠ 0) : shiftRightJam a d = jam a (2 ^ d) := by
  unfold shiftRightJam
  by_cases hd : d < 31
  · rw [if_pos hd, Nat.shiftRight_eq_div_pow]; rfl
  · rw [if_neg hd, if_pos h0, jam_small h0]
    exact lt_of_lt_of_le ha (Nat.pow_le_pow_right (by norm_num) (by omega))

/-- fields of a float -/
theorem ofF32_fields {W : ℕ} (hW : 16 ≤ W) (x : NanExt) (mode : Mode) {s e m : ℕ} (hs : s < 2) (he : e < 255) (hm : m < 2 ^ 23) :
    ofF32 W 9 0x1FF x mode (s * 2 ^ (8 + 23) + e * 2 ^ 23 + m) =
      .ok (if e = 0 ∧ m = 0 then s * 2 ^ 15 else roundPack W mode s ((e : ℤ) - 0x71) (2 ^ 14 + jam m 512)) := by
  have hp : 2 ^ 16 ≤ 2 ^ W := Nat.pow_le_pow_right (by norm_num) hW
  have f1 : ((s * 2 ^ (8 + 23) + e * 2 ^ 23 + m) % 2 ^ 32) >>> 31 = s := by
    rw [Nat.shiftRight_eq_div_pow]; omega
  have f2 : ((s * 2 ^ (8 + 23) + e * 2 ^ 23 + m) >>> 23) &&& 0xFF = e := by
    rw [show (0xFF : ℕ) = 2 ^ 8 - 1 by norm_num, Nat.and_two_pow_sub_one_eq_mod, Nat.shiftRight_eq_div_pow]; omega
  have f3 : (s * 2 ^ (8 + 23) + e * 2 ^ 23 + m) &&& 0x007FFFFF = m := by
    rw [show (0x007FFFFF : ℕ) = 2 ^ 23 - 1 by norm_num, Nat.and_two_pow_sub_one_eq_mod]; omega
  have f4 : m &&& 0x1FF = m % 512 := Nat.and_two_pow_sub_one_eq_mod m 9
  have f5 : shrU 32 m ((9 : ℕ) : ℤ) = .ok (m / 512) := by
    unfold shrU
    rw [if_neg (by simp [pw])]
    rw [Int.toNat_natCast, Nat.shiftRight_eq_div_pow]
  have j1 : jam m 512 < 2 ^ 14 := by rw [jam_eq]; split <;> omega
  have j2 : (m / 512 ||| if m % 512 ≠ 0 then 1 else 0) % 2 ^ W = jam m 512 := by
    rw [Nat.mod_eq_of_lt]
    · rfl
    · show jam m 512 < _
      omega
  have j3 : (jam m 512 ||| 0x4000) % 2 ^ W = 2 ^ 14 + jam m 512 := by
    have := or_add 1 (jam m 512) 14 j1
    rw [Nat.or_comm, show (0x4000 : ℕ) = 1 * 2 ^ 14 by norm_num, this, Nat.mod_eq_of_lt (by omega)]
    omega
  have j4 : jam m 512 = 0 ↔ m = 0 := by
    rw [jam_eq]; split <;> omega
  unfold ofF32
  simp only [f1, f2, f3, f4, f5]
  rw [if_neg (by omega)]
  show Except.ok (ofFinite W mode s e ((m / 512 ||| if m % 512 ≠ 0 then 1 else 0) % 2 ^ W)) = _
  rw [j2]
  congr 1
  unfold ofFinite
  rw [j3, pack_eq hW hs (by norm_num), Nat.mod_eq_of_lt (by omega)]
  by_cases hc : e = 0 ∧ m = 0
  · rw [if_pos hc, if_pos (by rw [Nat.or_eq_zero_iff, j4]; exact hc), Nat.zero_mul, Nat.add_zero]
  · rw [if_neg hc, if_neg (by rw [Nat.or_eq_zero_iff, j4]; exact hc)]

/-- infinities and NaNs -/
theorem ofF32_special (W mb mk : ℕ) (x : NanExt) (mode : Mode) {a s m : ℕ} (hs : s < 2) (hm : m < 2 ^ 23)
    (ha : a = s * 2 ^ (8 + 23) + 255 * 2 ^ 23 + m) :
    ofF32 W mb mk x mode a = if m ≠ 0 then .ok (nanTo12 W (x.of32 a).1 (x.of32 a).2) else .ok (pack W s 0x1F 0 % 2 ^ W) := by
  have f1 : (a % 2 ^ 32) >>> 31 = s := by rw [Nat.shiftRight_eq_div_pow]; omega
  have f2 : (a >>> 23) &&& 0xFF = 0xFF := by
    rw [show (0xFF : ℕ) = 2 ^ 8 - 1 by norm_num, Nat.and_two_pow_sub_one_eq_mod, Nat.shiftRight_eq_div_pow]; omega
  have f3 : a &&& 0x007FFFFF = m := by
    rw [show (0x007FFFFF : ℕ) = 2 ^ 23 - 1 by norm_num, Nat.and_two_pow_sub_one_eq_mod]; omega
  unfold ofF32
  simp only [f1, f2, f3, if_true]

/-- the magnitude of the result -/
theorem ofF32_core {W : ℕ} (hW : 16 ≤ W) (x : NanExt) (mode : Mode) {s e m : ℕ} (hs : s < 2) (he : e < 255) (hm : m < 2 ^ 23) :
    ∃ k, ofF32 W 9 0x1FF x mode (s * 2 ^ (8 + 23) + e * 2 ^ 23 + m) = .ok (s * 2 ^ 15 + k) ∧
      Core mode s (if e = 0 then m * 2 ^ (-149 : ℤ) else (2 ^ 23 + m : ℕ) * 2 ^ ((e : ℤ) - 150)) k := by
  have hp : 2 ^ 16 ≤ 2 ^ W := Nat.pow_le_pow_right (by norm_num) hW
  rw [ofF32_fields hW x mode hs he hm]
  have j1 : jam m 512 < 2 ^ 14 := by rw [jam_eq]; split <;> omega
  have jm : 2 ^ 14 + jam m 512 = jam (2 ^ 23 + m) 512 := by
    rw [jam_eq, jam_eq, show (2 ^ 23 + m) / 512 = 2 ^ 14 + m / 512 by omega, show (2 ^ 23 + m) % 512 = m % 512 by omega,
      show (2 ^ 14 + m / 512) % 2 = m / 512 % 2 by omega]
    split <;> omega
  by_cases c0 : e = 0 ∧ m = 0
  · obtain ⟨rfl, rfl⟩ := c0
    refine ⟨0, by simp, Or.inr ⟨0, by omega, ?_, ?_, ?_⟩⟩
    · simp [g_zero]
    · rw [g_sub 1 (by omega)]; norm_num
    · have hmid : mid 0 = 2 ^ (-25 : ℤ) := by unfold mid; rw [g_zero, g_sub 1 (by omega)]; norm_num
      have hmp : (0 : ℚ) < 2 ^ (-25 : ℤ) := by positivity
      unfold upV
      simp only [hmid, g_zero, if_true, Nat.cast_zero, zero_mul, lt_irrefl, not_lt.mpr hmp.le, not_le.mpr hmp, hmp.ne', if_false,
        false_and, or_false, ite_self]
  rw [if_neg c0]
  by_cases c1 : e < 113
  · -- subnormal results
    have hneg : ((e : ℤ) - 0x71) < 0 := by omega
    have hwrap : 0x1D ≤ wrapU 32 ((e : ℤ) - 0x71) := by unfold wrapU; omega
    have hd : (-((e : ℤ) - 0x71)).toNat = 113 - e := by omega
    unfold roundPack
    rw [if_pos hwrap, if_pos hneg, hd, shiftJam_eq (by omega) (by omega), jm, jam_jam _ _ _ (by omega)]
    have key : ∀ M A : ℕ, 2 ^ 10 ≤ A → M < 2 ^ 24 → ∀ v : ℚ, v * (A * 16) = M * 2 ^ (-24 : ℤ) →
        ∃ k, (.ok (roundTail W mode s 0 (jam M A % 2 ^ W)) : Except UB ℕ) = .ok (s * 2 ^ 15 + k) ∧ Core mode s v k := by
      intro M A hA hM v hv
      have q1 : M / (A * 16) < 1024 := by
        rw [Nat.div_lt_iff_lt_mul (by omega)]
        omega
      have q2 : jam M A < 2 ^ 14 := by
        have := (jam_cmp M A (by omega)).1
        omega
      rw [Nat.mod_eq_of_lt (by omega), tail_eq hW mode hs (by omega) (by omega) (Or.inl rfl)]
      refine ⟨_, rfl, ?_⟩
      rw [Nat.zero_mul, Nat.zero_add]
      have := core_div mode s M A (M / (A * 16)) (2 ^ (-24 : ℤ)) v (by omega) (by positivity) (by omega) rfl
        (g_sub _ (by omega)) (by rw [g_sub _ (by omega)]; push_cast; ring) hv
      rw [(jam_cmp M A (by omega)).1] at this ⊢
      exact this
    by_cases c2 : e = 0
    · subst c2
      rw [if_pos rfl]
      have hm0 : m ≠ 0 := fun h => c0 ⟨rfl, h⟩
      have : jam (2 ^ 23 + m) (512 * 2 ^ (113 - 0)) = jam m (2 ^ 121) := by
        rw [jam_small (by omega) (by omega), jam_small hm0 (by omega)]
      rw [this]
      refine key m (2 ^ 121) (by norm_num) (by omega) _ ?_
      rw [mul_assoc]
      congr 1
      norm_num
    · rw [if_neg c2]
      refine key (2 ^ 23 + m) (512 * 2 ^ (113 - e)) ?_ (by omega) _ ?_
      · have : 2 ^ 1 ≤ 2 ^ (113 - e) := Nat.pow_le_pow_right (by norm_num) (by omega)
        omega
      · rw [mul_assoc]
        congr 1
        push_cast
        rw [show (512 : ℚ) * 2 ^ (113 - e) * 16 = 2 ^ ((126 : ℤ) - e) by
          rw [show (126 : ℤ) - e = ((113 - e : ℕ) : ℤ) + 13 by omega, zpow_add₀ (by norm_num), zpow_natCast]
          norm_num; ring, ← zpow_add₀ (by norm_num)]
        congr 1; ring
  rw [if_neg (by omega)]
  have hS := jam_cmp (2 ^ 23 + m) 512 (by norm_num)
  have hin := inc_cases mode s
  by_cases c3 : 142 < e
  · -- beyond the greatest half
    unfold roundPack
    have hwrap : 0x1D ≤ wrapU 32 ((e : ℤ) - 0x71) := by unfold wrapU; omega
    rw [if_pos hwrap, if_neg (by omega), if_pos (Or.inl (by omega)), pack_eq hW hs (by norm_num)]
    refine ⟨if roundIncrement mode s = 0 then 31743 else 31744, ?_, Or.inl ⟨?_, rfl⟩⟩
    · congr 1
      split <;> rw [Nat.mod_eq_of_lt (by omega)] <;> omega
    · have h1 : (2 : ℚ) ^ (-7 : ℤ) ≤ 2 ^ ((e : ℤ) - 150) := zpow_le_zpow_right₀ (by norm_num) (by omega)
      have h2 : ((2 : ℚ) ^ 23) ≤ (2 ^ 23 + m : ℕ) := by push_cast; linarith [show (0 : ℚ) ≤ m by positivity]
      calc (65536 : ℚ) = 2 ^ 23 * 2 ^ (-7 : ℤ) := by norm_num
        _ ≤ 2 ^ 23 * 2 ^ ((e : ℤ) - 150) := mul_le_mul_of_nonneg_left h1 (by positivity)
        _ ≤ _ := mul_le_mul_of_nonneg_right h2 (by positivity)
  -- normal results
  have qlo : 1024 ≤ (2 ^ 23 + m) / (512 * 16) := by omega
  have qhi : (2 ^ 23 + m) / (512 * 16) < 2048 := by omega
  have hexp : ((e : ℤ) - 0x71).toNat = e - 113 := by omega
  have htail := tail_eq hW mode hs (exp := e - 113) (sig := jam (2 ^ 23 + m) 512) (by omega) (by omega) (Or.inr (by omega))
  have hrp : roundPack W mode s ((e : ℤ) - 0x71) (2 ^ 14 + jam m 512) =
      s * 2 ^ 15 + ((e - 113) * 1024 + jam (2 ^ 23 + m) 512 / 16 +
        upOf mode s (jam (2 ^ 23 + m) 512 / 16) (jam (2 ^ 23 + m) 512 % 16)) := by
    unfold roundPack
    rw [jm, hexp, htail]
    by_cases c4 : 0x1D ≤ wrapU 32 ((e : ℤ) - 0x71)
    · rw [if_pos c4, if_neg (by omega)]
      by_cases c5 : (0x1D : ℤ) < (e : ℤ) - 0x71 ∨ 0x8000 ≤ jam (2 ^ 23 + m) 512 + roundIncrement mode s
      · rw [if_pos c5]
        have e142 : e = 142 := by unfold wrapU at c4; omega
        have c5' : 0x8000 ≤ jam (2 ^ 23 + m) 512 + roundIncrement mode s := by omega
        generalize jam (2 ^ 23 + m) 512 = S at *
        have hr0 : roundIncrement mode s ≠ 0 := by omega
        rw [if_neg hr0, pack_eq hW hs (by norm_num), Nat.mod_eq_of_lt (by omega)]
        have hu : upOf mode s (S / 16) (S % 16) = 1 := by
          have hq : S / 16 = 2047 := by omega
          unfold upOf
          rw [hq]
          by_cases m1 : mode = .nearEven
          · subst m1
            have hr : roundIncrement .nearEven s = 8 := by simp [roundIncrement]
            rw [if_pos rfl, if_pos (by omega)]
          · by_cases m2 : mode = .nearMaxMag
            · subst m2
              have hr : roundIncrement .nearMaxMag s = 8 := by simp [roundIncrement]
              rw [if_neg m1, if_pos rfl, if_pos (by omega)]
            · have hn8 : roundIncrement mode s ≠ 8 := by
                unfold roundIncrement
                rw [if_pos ⟨m1, m2⟩]
                split <;> split <;> omega
              rw [if_neg m1, if_neg m2, if_pos (by omega), if_pos (by omega)]
        rw [hu]; omega
      · rw [if_neg c5]
    · rw [if_neg c4]
  rw [hrp]
  refine ⟨_, rfl, ?_⟩
  have cast : (((2 ^ 23 + m) / (512 * 16) - 1024 : ℕ) : ℚ) = ((2 ^ 23 + m) / (512 * 16) : ℕ) - 1024 := by
    rw [Nat.cast_sub qlo]; norm_num
  have hk0 : (e - 113) * 1024 + (2 ^ 23 + m) / (512 * 16) = (e - 112) * 1024 + ((2 ^ 23 + m) / (512 * 16) - 1024) := by omega
  have hE : ((e - 112 : ℕ) : ℤ) - 25 = e - 137 := by omega
  have := core_div mode s (2 ^ 23 + m) 512 ((e - 113) * 1024 + (2 ^ 23 + m) / (512 * 16)) (2 ^ ((e : ℤ) - 137))
    ((2 ^ 23 + m : ℕ) * 2 ^ ((e : ℤ) - 150)) (by norm_num) (by positivity) (by omega) (by omega)
    (by rw [hk0, g_norm _ _ (by omega) (by omega), hE, cast]; ring)
    (by
      rw [hk0, Nat.add_assoc, g_norm _ _ (by omega) (by omega), hE, Nat.cast_add, cast]
      push_cast; ring)
    (by
      rw [mul_assoc]; congr 1
      rw [show ((e : ℤ) - 137) = e - 150 + 13 by ring, zpow_add₀ (by norm_num)]
      norm_num)
  rw [hS.1] at this ⊢
  exact this

/-! ## from magnitudes to the specifications -/

theorem maxFin_half : maxFin 5 10 = 65504 := by norm_num [maxFin]

/-- greatest magnitude not above `v` -/
def MagDown (v : ℚ) (k : ℕ) : Prop := k ≤ 31743 ∧ g k ≤ v ∧ ∀ j ≤ 31743, g j ≤ v → j ≤ k

/-- least magnitude not below `v` -/
def MagUp (v : ℚ) (k : ℕ) : Prop := k ≤ 31744 ∧ (k ≤ 31743 → v ≤ g k) ∧ ∀ j, j < k → g j < v

theorem core_down {mode : Mode} {s : ℕ} {v : ℚ} {k : ℕ} (hr : roundIncrement mode s = 0) (h : Core mode s v k) : MagDown v k := by
  obtain ⟨t1, t2⟩ := g_top
  have hm1 : mode ≠ .nearEven := by rintro rfl; simp [roundIncrement] at hr
  have hm2 : mode ≠ .nearMaxMag := by rintro rfl; simp [roundIncrement] at hr
  rcases h with ⟨h, hk⟩ | ⟨k0, hk0, h0, h1, hk⟩
  · rw [if_pos hr] at hk
    subst hk
    exact ⟨le_rfl, by rw [t1]; linarith, fun j hj _ => hj⟩
  · unfold upV at hk
    rw [if_neg hm1, if_neg hm2, if_neg (by omega), Nat.add_zero] at hk
    subst hk
    refine ⟨hk0, h0, fun j _ hj => ?_⟩
    by_contra hc
    have := g_mono.monotone (show k + 1 ≤ j by omega)
    linarith

theorem core_up {mode : Mode} {s : ℕ} {v : ℚ} {k : ℕ} (hr : roundIncrement mode s = 15) (h : Core mode s v k) : MagUp v k := by
  obtain ⟨t1, t2⟩ := g_top
  have hm1 : mode ≠ .nearEven := by rintro rfl; simp [roundIncrement] at hr
  have hm2 : mode ≠ .nearMaxMag := by rintro rfl; simp [roundIncrement] at hr
  rcases h with ⟨h, hk⟩ | ⟨k0, hk0, h0, h1, hk⟩
  · rw [if_neg (by omega)] at hk
    subst hk
    refine ⟨le_rfl, fun h => by omega, fun j hj => ?_⟩
    have := g_mono.monotone (show j ≤ 31743 by omega)
    rw [t1] at this
    linarith
  · unfold upV at hk
    rw [if_neg hm1, if_neg hm2, if_pos hr] at hk
    by_cases hc : g k0 < v
    · rw [if_pos hc] at hk
      subst hk
      refine ⟨by omega, fun _ => h1.le, fun j hj => ?_⟩
      have := g_mono.monotone (show j ≤ k0 by omega)
      linarith
    · rw [if_neg hc, Nat.add_zero] at hk
      subst hk
      refine ⟨by omega, fun _ => not_lt.mp hc, fun j hj => ?_⟩
      have := g_mono hj
      linarith

theorem core_even {s : ℕ} {v : ℚ} {k : ℕ} (h : Core .nearEven s v k) : Near v k := by
  have hr : roundIncrement .nearEven s = 8 := by simp [roundIncrement]
  rcases h with ⟨h, hk⟩ | ⟨k0, hk0, h0, h1, hk⟩
  · rw [if_neg (by omega)] at hk
    subst hk
    refine ⟨le_rfl, fun j hj => ?_, fun h => by omega⟩
    obtain rfl : j = 31743 := by omega
    rw [mid_top]
    exact ⟨by linarith, fun h => by linarith⟩
  · unfold upV at hk
    rw [if_pos rfl] at hk
    have l1 : g k0 < g (k0 + 1) := by linarith
    have l2 := g_mono (Nat.lt_succ_self (k0 + 1))
    simp only [Nat.succ_eq_add_one] at l2
    by_cases hc : mid k0 < v ∨ mid k0 = v ∧ k0 % 2 = 1
    · rw [if_pos hc] at hk
      subst hk
      refine ⟨by omega, fun j hj => ?_, fun _ => ?_⟩
      · obtain rfl : j = k0 := by omega
        rcases hc with hc | hc
        · exact ⟨hc.le, fun h => absurd h hc.ne⟩
        · exact ⟨hc.1.le, fun _ => by omega⟩
      · have : v < mid (k0 + 1) := by unfold mid; linarith
        exact ⟨this.le, fun h => absurd h this.ne⟩
    · rw [if_neg hc, Nat.add_zero] at hk
      subst hk
      push Not at hc
      refine ⟨by omega, fun j hj => ?_, fun _ => ⟨hc.1, fun h => ?_⟩⟩
      · have l3 := g_mono (Nat.lt_succ_self j)
        simp only [Nat.succ_eq_add_one, hj] at l3
        have : mid j < v := by unfold mid; rw [hj]; linarith
        exact ⟨this.le, fun h => absurd h this.ne⟩
      · have := hc.2 h.symm
        omega

theorem core_max {s : ℕ} {v : ℚ} {k : ℕ} (h : Core .nearMaxMag s v k) : Rounds v k := by
  have hr : roundIncrement .nearMaxMag s = 8 := by simp [roundIncrement]
  rcases h with ⟨h, hk⟩ | ⟨k0, hk0, h0, h1, hk⟩
  · rw [if_neg (by omega)] at hk
    exact Or.inl ⟨h, hk⟩
  · refine Or.inr ⟨k0, hk0, h0, h1, ?_⟩
    unfold upV at hk
    rw [if_neg (by simp), if_pos rfl] at hk
    rw [hk]
    congr 1
    have : mid k0 ≤ v ↔ g k0 + g (k0 + 1) ≤ 2 * v := by
      unfold mid
      constructor <;> intro h <;> linarith
    simp only [this]

/-- numbers that are halves stay as they are -/
theorem core_exact {mode : Mode} {s : ℕ} {k k' : ℕ} (hk : k ≤ 31743) (h : Core mode s (g k) k') : k' = k := by
  obtain ⟨t1, t2⟩ := g_top
  rcases h with ⟨h, -⟩ | ⟨k0, hk0, h0, h1, hk'⟩
  · have := g_mono.monotone hk
    rw [t1] at this; linarith
  · have e : k0 = k := by
      have a1 := g_mono.le_iff_le.1 h0
      have a2 := g_mono.lt_iff_lt.1 h1
      omega
    subst e
    have l1 : g k0 < g (k0 + 1) := by linarith
    have m1 : g k0 < mid k0 := by unfold mid; linarith
    unfold upV at hk'
    simp only [not_lt.mpr m1.le, m1.ne', not_le.mpr m1, lt_irrefl, false_and, or_false, if_false, ite_self, Nat.add_zero] at hk'
    exact hk'

theorem core_lt {mode : Mode} {s : ℕ} {v : ℚ} {k : ℕ} (h : Core mode s v k) : k ≤ 31744 := by
  rcases h with ⟨h, hk⟩ | ⟨k0, hk0, h0, h1, hk⟩
  · split at hk <;> omega
  · have : upV mode s k0 v ≤ 1 := by
      unfold upV; repeat' split
      all_goals omega
    omega

theorem upward_pos {v : ℚ} {k : ℕ} (hv : 0 ≤ v) (h : MagUp v k) : IsUpward 5 10 v (0 * 2 ^ 15 + k) := by
  obtain ⟨t1, t2⟩ := g_top
  obtain ⟨hk, h1, h2⟩ := h
  constructor <;> intro hc <;> rw [maxFin_half] at hc
  · have : k = 31744 := by
      by_contra hne
      have a1 := h1 (by omega)
      have a2 := g_mono.monotone (show k ≤ 31743 by omega)
      rw [t1] at a2; linarith
    rw [ieee_half 0 k (by norm_num) (by omega), if_neg (by omega), if_pos this]; rfl
  · have hk' : k ≤ 31743 := by
      by_contra hne
      have := h2 31743 (by omega)
      rw [t1] at this; linarith
    refine ⟨g k, ?_, h1 hk', fun h' z hz hle => ?_⟩
    · rw [ieee_half 0 k (by norm_num) (by omega), if_pos (by omega)]; simp
    · obtain ⟨hj, rfl⟩ := half_num hz
      generalize h' % 2 ^ 15 = j at *
      have key : v ≤ g j → g k ≤ g j := fun h => g_mono.monotone (by
        by_contra hlt
        have := h2 j (by omega)
        linarith)
      split at hle <;> rename_i hs
      · rw [if_pos hs]
        have gj := g_nonneg j
        have := key (by linarith)
        linarith
      · rw [if_neg hs, one_mul] at *
        exact key hle

theorem upward_neg {v : ℚ} {k : ℕ} (hv : 0 ≤ v) (h : MagDown v k) : IsUpward 5 10 (-v) (1 * 2 ^ 15 + k) := by
  obtain ⟨hk, h1, h2⟩ := h
  constructor <;> intro hc <;> rw [maxFin_half] at hc
  · linarith
  · refine ⟨-g k, ?_, by linarith, fun h' z hz hle => ?_⟩
    · rw [ieee_half 1 k (by norm_num) (by omega), if_pos (by omega)]; simp
    · obtain ⟨hj, rfl⟩ := half_num hz
      generalize h' % 2 ^ 15 = j at *
      have gj := g_nonneg j
      have gk := g_nonneg k
      split at hle <;> rename_i hs
      · rw [if_pos hs]
        have := g_mono.monotone (h2 j hj (by linarith))
        linarith
      · rw [if_neg hs]; linarith

theorem downward_neg {v : ℚ} {k : ℕ} (hv : 0 ≤ v) (h : MagUp v k) : IsDownward 5 10 (-v) (1 * 2 ^ 15 + k) := by
  obtain ⟨t1, t2⟩ := g_top
  obtain ⟨hk, h1, h2⟩ := h
  constructor <;> intro hc <;> rw [maxFin_half] at hc
  · have : k = 31744 := by
      by_contra hne
      have a1 := h1 (by omega)
      have a2 := g_mono.monotone (show k ≤ 31743 by omega)
      rw [t1] at a2; linarith
    rw [ieee_half 1 k (by norm_num) (by omega), if_neg (by omega), if_pos this]; rfl
  · have hk' : k ≤ 31743 := by
      by_contra hne
      have := h2 31743 (by omega)
      rw [t1] at this; linarith
    refine ⟨-g k, ?_, by linarith [h1 hk'], fun h' z hz hle => ?_⟩
    · rw [ieee_half 1 k (by norm_num) (by omega), if_pos (by omega)]; simp
    · obtain ⟨hj, rfl⟩ := half_num hz
      generalize h' % 2 ^ 15 = j at *
      have key : v ≤ g j → g k ≤ g j := fun h => g_mono.monotone (by
        by_contra hlt
        have := h2 j (by omega)
        linarith)
      have gj := g_nonneg j
      split at hle <;> rename_i hs
      · rw [if_pos hs]
        have := key (by linarith)
        linarith
      · rw [if_neg hs, one_mul] at *
        have := key (by linarith)
        linarith

theorem downward_pos {v : ℚ} {k : ℕ} (hv : 0 ≤ v) (h : MagDown v k) : IsDownward 5 10 v (0 * 2 ^ 15 + k) := by
  obtain ⟨hk, h1, h2⟩ := h
  constructor <;> intro hc <;> rw [maxFin_half] at hc
  · linarith
  · refine ⟨g k, ?_, by linarith, fun h' z hz hle => ?_⟩
    · rw [ieee_half 0 k (by norm_num) (by omega), if_pos (by omega)]; simp
    · obtain ⟨hj, rfl⟩ := half_num hz
      generalize h' % 2 ^ 15 = j at *
      have gj := g_nonneg j
      have gk := g_nonneg k
      split at hle <;> rename_i hs
      · rw [if_pos hs]; linarith
      · rw [if_neg hs, one_mul] at *
        exact g_mono.monotone (h2 j hj hle)

theorem towardZero_mag {v : ℚ} {s k : ℕ} (hs : s < 2) (hv : 0 ≤ v) (h : MagDown v k) :
    IsTowardZero 5 10 ((if s = 1 then -1 else 1) * v) (s * 2 ^ 15 + k) := by
  obtain ⟨hk, h1, h2⟩ := h
  have gk := g_nonneg k
  have ab : ∀ {t : ℕ} {y : ℚ}, 0 ≤ y → |(if t = 1 then (-1 : ℚ) else 1) * y| = y := by
    intro t y hy
    rw [abs_mul, abs_of_nonneg hy]
    split <;> simp
  refine ⟨(if s = 1 then -1 else 1) * g k, ?_, ?_, ?_, fun h' z hz hle => ?_⟩
  · rw [ieee_half s k hs (by omega), if_pos (by omega)]
  · split
    · nlinarith
    · nlinarith
  · rw [ab gk, ab hv]; exact h1
  · obtain ⟨hj, rfl⟩ := half_num hz
    rw [ab (g_nonneg _), ab hv] at hle
    rw [ab (g_nonneg _), ab gk]
    exact g_mono.monotone (h2 _ hj hle)

end Verif.Float12
