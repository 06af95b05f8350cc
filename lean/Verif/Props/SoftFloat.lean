import Verif.Lemmas.SoftFloat
import Verif.Model.FloatConv

/-!
# `Unpacked` as a number type of its own: C68

Operands are arbitrary regular numbers, not only decoded posits: every bit of the fraction may be set.
-/

namespace Verif
open Fmt

variable {F E : ℕ}

theorem reg_eq {u : Unp} (hu : u.IsReg F) : u = ⟨.regular, u.neg, u.exp, u.frac⟩ := by
  obtain ⟨ty, n, e, f⟩ := u
  have := hu.1
  simp only at this
  subst this
  rfl

theorem mul_reg {u v : Unp} (hu : u.IsReg F) (hv : v.IsReg F) : Unp.mul F E u v = Unp.mulRegular F E u v := by
  unfold Unp.mul; simp [hu.1, hv.1]

theorem div_reg {u v : Unp} (hu : u.IsReg F) (hv : v.IsReg F) : Unp.div F E u v = Unp.divRegular F E u v := by
  unfold Unp.div; simp [hu.1, hv.1]

/-! ## products -/

/-- **C68**: the product. Each operand loses its last bit, and the product of what is left is cut at a fixed place. -/
theorem C68_mul (hF : 2 ≤ F) (hE : 1 ≤ E) {u v : Unp} (hu : u.IsReg F) (hv : v.IsReg F) (h1 : InS E (u.exp + v.exp))
    (h2 : InS E (u.exp + v.exp + 1)) : ∃ r, Unp.mul F E u v = .ok r ∧ r.IsReg F ∧
      r.val F = cutTo (2 ^ (u.exp + v.exp + 2 - F : ℤ)) (cutSig F (u.val F) * cutSig F (v.val F)) := by
  obtain ⟨e, f, heq, hf, -, hm, -⟩ := mulRegular_eq (na := u.neg) (nb := v.neg) hF hE hu.2 hv.2 h1 h2 rfl
  rw [mul_reg hu hv]
  rw [reg_eq hu, reg_eq hv] at *
  refine ⟨_, heq, ⟨rfl, hf⟩, ?_⟩
  rw [cutSig_one (by omega) hu, cutSig_one (by omega) hv, val_eq]
  simp only
  rw [hm, mul_mul_mul_comm, ← sq_xor]
  generalize hA : 2 ^ (F - 1) + u.frac / 2 = A
  generalize hB : 2 ^ (F - 1) + v.frac / 2 = B
  have hA0 : 0 < A := by rw [← hA]; positivity
  have hB0 : 0 < B := by rw [← hB]; positivity
  have hA1 : (0 : ℚ) < A := by exact_mod_cast hA0
  have hB1 : (0 : ℚ) < B := by exact_mod_cast hB0
  rw [sign_of_cut _ (by positivity)]
  congr 3
  have : (A : ℚ) * 2 ^ (u.exp + 1 - F : ℤ) * (B * 2 ^ (v.exp + 1 - F : ℤ)) / 2 ^ (u.exp + v.exp + 2 - F : ℤ) =
      ((A * B : ℕ) : ℚ) / ((2 ^ F : ℕ) : ℚ) := by
    have e1 : (2 : ℚ) ^ (u.exp + v.exp + 2 - F : ℤ) = 2 ^ (u.exp + 1 - F : ℤ) * 2 ^ (v.exp + 1 - F : ℤ) * 2 ^ F := by
      rw [← zpow_natCast, ← zpow_add₀ (by norm_num), ← zpow_add₀ (by norm_num)]; congr 1; ring
    rw [e1]
    push_cast
    field_simp
  rw [this, Nat.floor_div_natCast, Nat.floor_natCast]

example : ∃ r, Unp.mul 16 32 ⟨.regular, true, 3, 40001⟩ ⟨.regular, false, -2, 7⟩ = .ok r ∧ r.IsReg 16 ∧ r.val 16 =
    cutTo (2 ^ (3 + -2 + 2 - (16 : ℕ) : ℤ)) (cutSig 16 ((⟨.regular, true, 3, 40001⟩ : Unp).val 16) *
      cutSig 16 ((⟨.regular, false, -2, 7⟩ : Unp).val 16)) :=
  C68_mul (by norm_num) (by norm_num) (by decide) (by decide) (by unfold InS; norm_num) (by unfold InS; norm_num)

example : Unp.mul 16 32 ⟨.regular, true, 3, 40001⟩ ⟨.regular, false, -2, 7⟩ = .ok ⟨.regular, true, 1, 40008⟩ := by decide

/-- **C68**: the exponent is not checked; in an 8-bit exponent type `2^100 * 2^100` is `2^-56`. -/
theorem C68_wrap_wrong : Unp.mul 32 8 ⟨.regular, false, 100, 0⟩ ⟨.regular, false, 100, 0⟩ = .ok ⟨.regular, false, -56, 0⟩ := by
  decide

/-! ## quotients -/

theorem signif_one {u : Unp} (hF : 1 ≤ F) (hu : u.IsReg F) :
    signif (cutSig F (u.val F)) = ((2 ^ (F - 1) + u.frac / 2 : ℕ) : ℚ) / 2 ^ (F - 1) := by
  have hP := two_pow_pred_nat (w := F) hF
  have := hu.2
  rw [cutSig_one hF hu, signif_of_mul _ (m := F - 1) (by omega) (by rw [pow_succ]; omega)]

theorem signif_two {u : Unp} (hF : 2 ≤ F) (hu : u.IsReg F) :
    signif (cutSig (F - 1) (u.val F)) = ((2 * (2 ^ (F - 2) + u.frac / 4) : ℕ) : ℚ) / 2 ^ (F - 1) := by
  have hP := two_pow_pred_nat (w := F) (by omega)
  have hP2 : 2 ^ (F - 1) = 2 * 2 ^ (F - 2) := two_pow_pred_nat (w := F - 1) (by omega)
  have := hu.2
  rw [cutSig_two hF hu, signif_of_mul _ (m := F - 2) (by omega) (by rw [pow_succ]; omega)]
  have : ((2 : ℚ) ^ (F - 1)) = 2 * 2 ^ (F - 2) := by exact_mod_cast hP2
  rw [this]
  push_cast
  field_simp

/-- **C68**: the quotient, for all operands. The dividend loses its last bit; the divisor loses its last bit, or the last
two when its significand is the greater one. The result is the quotient of what is left, cut to `F+1` significant bits —
unless the significand of the dividend is equal to that of the divisor cut by two bits but less than that of the divisor
cut by one: then the result is one half of that quotient. -/
theorem C68_div (hF : 2 ≤ F) (hE : 1 ≤ E) {u v : Unp} (hu : u.IsReg F) (hv : v.IsReg F) (h1 : InS E (u.exp - v.exp))
    (h2 : InS E (u.exp - v.exp - 1)) : ∃ r, Unp.div F E u v = .ok r ∧ r.IsReg F ∧
      (signif (cutSig F (v.val F)) ≤ signif (cutSig F (u.val F)) →
        r.val F = cutSig (F + 1) (cutSig F (u.val F) / cutSig F (v.val F))) ∧
      (signif (cutSig F (u.val F)) < signif (cutSig (F - 1) (v.val F)) →
        r.val F = cutSig (F + 1) (cutSig F (u.val F) / cutSig (F - 1) (v.val F))) ∧
      (signif (cutSig (F - 1) (v.val F)) ≤ signif (cutSig F (u.val F)) →
        signif (cutSig F (u.val F)) < signif (cutSig F (v.val F)) →
        r.val F = cutSig F (u.val F) / cutSig (F - 1) (v.val F) / 2) := by
  rw [div_reg hu hv]
  have hP2 : 2 ^ (F - 1) = 2 * 2 ^ (F - 2) := two_pow_pred_nat (w := F - 1) (by omega)
  obtain ⟨k1, k2, k3⟩ := divRegular_gen hF hE hu hv h1 h2 rfl rfl rfl
  rw [signif_one (by omega) hu, signif_one (by omega) hv, signif_two hF hv]
  have hp : (0 : ℚ) < 2 ^ (F - 1) := by positivity
  rw [div_le_div_iff_of_pos_right hp, div_lt_div_iff_of_pos_right hp, div_le_div_iff_of_pos_right hp,
    div_lt_div_iff_of_pos_right hp, Nat.cast_le, Nat.cast_lt, Nat.cast_le, Nat.cast_lt, cutSig_one (by omega) hu,
    cutSig_one (by omega) hv, cutSig_two hF hv]
  generalize hA : 2 ^ (F - 1) + u.frac / 2 = A at *
  generalize hB : 2 ^ (F - 1) + v.frac / 2 = B at *
  generalize hC : 2 ^ (F - 2) + v.frac / 4 = C at *
  have hp0 : 0 < 2 ^ (F - 2) := by positivity
  have hA0 : (0 : ℚ) < A := by exact_mod_cast (by omega : 0 < A)
  have hB0 : (0 : ℚ) < B := by exact_mod_cast (by omega : 0 < B)
  have hC0 : (0 : ℚ) < C := by exact_mod_cast (by omega : 0 < C)
  have hC2 : C = B / 2 := by omega
  have key : ∀ (D : ℕ) (X Y : ℚ), sq u.neg * (A * X) / (sq v.neg * (D * Y)) = sq (xor u.neg v.neg) * ((A : ℚ) / D * (X / Y)) := by
    intro D X Y
    rw [sq_div, mul_div_mul_comm, mul_div_mul_comm]
  have bounds : ∀ (D : ℕ) (Y : ℤ), 0 < D → ((A * 2 ^ F / D : ℕ) : ℚ) * 2 ^ (Y - F) ≤ (A : ℚ) / D * 2 ^ Y ∧
      (A : ℚ) / D * 2 ^ Y < ((A * 2 ^ F / D : ℕ) + 1 : ℚ) * 2 ^ (Y - F) := by
    intro D Y hD
    obtain ⟨d1, d2⟩ := div_bounds (A * 2 ^ F) D hD
    have hDq : (0 : ℚ) < D := by exact_mod_cast hD
    have e1 : (A : ℚ) / D * 2 ^ Y = ((A * 2 ^ F : ℕ) : ℚ) / D * 2 ^ (Y - F) := by
      rw [show Y = (Y - F) + F by ring, zpow_add₀ (by norm_num) _ (F : ℤ), zpow_natCast, show Y - (F : ℤ) + F - F = Y - F by ring]
      push_cast
      field_simp
    rw [e1]
    have hpos : (0 : ℚ) < 2 ^ (Y - F : ℤ) := by positivity
    refine ⟨mul_le_mul_of_nonneg_right ?_ hpos.le, mul_lt_mul_of_pos_right ?_ hpos⟩
    · rw [le_div_iff₀ hDq]; exact d1
    · rw [div_lt_iff₀ hDq]; exact d2
  rcases le_or_gt B A with hle | hlt
  · obtain ⟨heq, l, r⟩ := k1 hle
    refine ⟨_, heq, ⟨rfl, by simp only; rw [pow_succ] at r; omega⟩, fun _ => ?_, fun h => by omega, fun _ h => by omega⟩
    have e2 : (2 : ℚ) ^ (u.exp + 1 - F : ℤ) / 2 ^ (v.exp + 1 - F : ℤ) = 2 ^ (u.exp - v.exp : ℤ) := by
      rw [← zpow_sub₀ (by norm_num)]; congr 1; ring
    rw [key, e2, mag_quot l]
    obtain ⟨b1, b2⟩ := bounds B (u.exp - v.exp) (by omega)
    rw [cutSig_of_bounds _ l r b1 b2]
  · have e2 : (2 : ℚ) ^ (u.exp + 1 - F : ℤ) / 2 ^ (v.exp + 2 - F : ℤ) = 2 ^ (u.exp - v.exp - 1 : ℤ) := by
      rw [← zpow_sub₀ (by norm_num)]; congr 1; ring
    rcases lt_or_ge A (2 * C) with hlt2 | hge
    · obtain ⟨heq, l, r⟩ := k2 hlt2
      refine ⟨_, heq, ⟨rfl, by simp only; rw [pow_succ] at r; omega⟩, fun _ => by omega, fun h => ?_, fun _ h => by omega⟩
      rw [key, e2, mag_quot l]
      obtain ⟨b1, b2⟩ := bounds C (u.exp - v.exp - 1) (by omega)
      rw [cutSig_of_bounds _ l r b1 b2]
    · have hAC : A = 2 * C := by omega
      refine ⟨_, k3 hAC hlt, ⟨rfl, by positivity⟩, fun _ => by omega, fun h => by omega, fun _ _ => ?_⟩
      rw [key, e2, val_eq, hAC]
      simp only [mag]
      push_cast
      field_simp
      ring

example : ∃ r, Unp.div 16 32 ⟨.regular, true, 3, 40001⟩ ⟨.regular, false, -2, 50007⟩ = .ok r ∧ r.IsReg 16 :=
  (C68_div (by norm_num) (by norm_num) (by decide) (by decide) (by unfold InS; norm_num) (by unfold InS; norm_num)).imp
    fun _ h => ⟨h.1, h.2.1⟩

/-- **C68**, concretely: `(1 + 4/65536) / (1 + 6/65536)` in 16 bits is one half. -/
theorem C68_div_wrong : Unp.div 16 32 ⟨.regular, false, 0, 4⟩ ⟨.regular, false, 0, 6⟩ = .ok ⟨.regular, false, -1, 0⟩ := by decide

/-! ## reciprocals -/

/-- **C68**: `inv()` has the same outcome as the quotient of one, for all regular operands. -/
theorem C68_inv_eq (hF : 1 ≤ F) {u : Unp} (hu : u.IsReg F) : Unp.inv F E u = Unp.div F E ⟨.regular, false, 0, 0⟩ u := by
  rw [div_reg ⟨rfl, by positivity⟩ hu]
  unfold Unp.inv Unp.divRegular
  have hP := two_pow_pred_nat (w := F) hF
  simp only [hu.1, mant1 hF hu.2, mant1 hF (show 0 < 2 ^ F by positivity)]
  have hl : Unp.leftmost F = 2 ^ (F - 1) := rfl
  have hp : 0 < 2 ^ (F - 1) := by positivity
  simp only [hl, Nat.zero_div, add_zero, zero_sub]
  by_cases h0 : u.frac = 0
  · simp only [h0, if_true, Nat.zero_div, add_zero, lt_self_iff_false, if_false, hp.ne', Bool.false_xor]
    unfold arithS
    split_ifs with h1
    · simp only [bind, Except.bind, pure, Except.pure, h1, and_self, if_true, Nat.shiftLeft_eq,
        Nat.mul_div_cancel_left _ hp, Except.ok.injEq]
      unfold Unp.mk3
      simp
    · rfl
  · simp only [h0, if_false, Bool.false_xor]
    by_cases hlt : 2 ^ (F - 1) < 2 ^ (F - 1) + u.frac / 2
    · simp only [hlt, if_true]
      rfl
    · simp only [hlt, if_false, add_zero]
      have hne : ¬ (2 ^ (F - 1) + u.frac / 2 = 0) := by omega
      simp only [hne, if_false]
      unfold arithS
      by_cases h1 : -(2 ^ (pw E - 1) : ℤ) ≤ -u.exp ∧ -u.exp < 2 ^ (pw E - 1)
      · simp only [h1, and_self, if_true, bind, Except.bind]
      · simp only [h1, if_false, bind, Except.bind]

example : Unp.inv 16 32 ⟨.regular, true, 3, 40001⟩ = Unp.div 16 32 ⟨.regular, false, 0, 0⟩ ⟨.regular, true, 3, 40001⟩ ∧
    Unp.inv 16 32 ⟨.regular, true, 3, 40001⟩ = .ok ⟨.regular, true, -4, 15857⟩ := ⟨C68_inv_eq (by norm_num) (by decide), by decide⟩

theorem one_isReg (F : ℕ) : (⟨.regular, false, 0, 0⟩ : Unp).IsReg F := ⟨rfl, by positivity⟩

theorem cutSig_of_one (hF : 1 ≤ F) : cutSig F ((⟨.regular, false, 0, 0⟩ : Unp).val F) = 1 := by
  rw [cutSig_one hF (one_isReg F)]
  have : (0 : ℤ) + 1 - F = -((F - 1 : ℕ) : ℤ) := by omega
  simp only [sq, this, zpow_neg, zpow_natCast, Nat.zero_div, add_zero]
  push_cast
  field_simp

theorem signif_of_one : signif 1 = 1 := by simp [signif]

theorem one_le_signif {x : ℚ} (hx : x ≠ 0) : 1 ≤ signif x := by
  unfold signif
  rw [le_div_iff₀ (by positivity), one_mul]
  have := Int.zpow_log_le_self (b := 2) (by norm_num) (abs_pos.mpr hx)
  exact_mod_cast this

theorem cutSig_one_ne {u : Unp} (hF : 1 ≤ F) (hu : u.IsReg F) : cutSig F (u.val F) ≠ 0 := by
  rw [cutSig_one hF hu]
  exact mul_ne_zero (sq_ne _) (by positivity)

theorem cutSig_two_ne {u : Unp} (hF : 2 ≤ F) (hu : u.IsReg F) : cutSig (F - 1) (u.val F) ≠ 0 := by
  rw [cutSig_two hF hu]
  exact mul_ne_zero (sq_ne _) (by positivity)

/-- **C68**: the reciprocal, for all operands. It is the reciprocal of the number without its last two bits, cut to `F+1`
significant bits — unless what the last two bits hold is all that distinguishes the operand from a power of two and the
upper one of them is set: then the result is one half of that. -/
theorem C68_inv (hF : 2 ≤ F) (hE : 1 ≤ E) {u : Unp} (hu : u.IsReg F) (h1 : InS E (-u.exp)) (h2 : InS E (-u.exp - 1)) :
    ∃ r, Unp.inv F E u = .ok r ∧ r.IsReg F ∧
      (signif (cutSig F (u.val F)) = 1 → r.val F = cutSig (F + 1) (1 / cutSig F (u.val F))) ∧
      (1 < signif (cutSig (F - 1) (u.val F)) → r.val F = cutSig (F + 1) (1 / cutSig (F - 1) (u.val F))) ∧
      (signif (cutSig (F - 1) (u.val F)) = 1 → signif (cutSig F (u.val F)) ≠ 1 →
        r.val F = 1 / cutSig (F - 1) (u.val F) / 2) := by
  rw [C68_inv_eq (by omega) hu]
  obtain ⟨r, hr, hreg, k1, k2, k3⟩ := C68_div hF hE (one_isReg F) hu (by simpa using h1) (by simpa using h2)
  rw [cutSig_of_one (by omega), signif_of_one] at *
  refine ⟨r, hr, hreg, fun h => k1 h.le, k2, fun h h' => k3 h.le ?_⟩
  exact lt_of_le_of_ne (one_le_signif (cutSig_one_ne (by omega) hu)) (Ne.symm h')

example : ∃ r, Unp.inv 16 32 ⟨.regular, true, 3, 40001⟩ = .ok r ∧ r.IsReg 16 :=
  (C68_inv (by norm_num) (by norm_num) (by decide) (by unfold InS; norm_num) (by unfold InS; norm_num)).imp fun _ h => ⟨h.1, h.2.1⟩

/-- **C68**, concretely: the float `1 + 2^-15` as an `Unpacked<uint16_t>` has the reciprocal one half. -/
theorem C68_inv_wrong : Unp.unpackFloat 16 32 FTrait.single 0x3F800100 = .ok ⟨.regular, false, 0, 2⟩ ∧
    Unp.inv 16 32 ⟨.regular, false, 0, 2⟩ = .ok ⟨.regular, false, -1, 0⟩ := by decide +kernel

/-! ## twice a number -/

theorem wrapS_wrapS (hE : 1 ≤ E) (x : ℤ) : wrapS E (wrapS E x) = wrapS E x := by
  unfold wrapS; simp

theorem arithS_wrapS (hE : 1 ≤ E) (x : ℤ) : arithS E (wrapS E x) = .ok (wrapS E x) := by
  apply arithS_ok'
  have h2 := two_pow_pred (w := E) hE
  unfold InS wrapS
  have a := Int.le_bmod (x := x) (m := 2 ^ E) (by positivity)
  have b := Int.bmod_lt (x := x) (m := 2 ^ E) (by positivity)
  push_cast at a b
  omega

/-- **C68**: `u + u` and `2 * u` have the same outcome (tests/testunpacked.cpp:64,116), for every regular number. -/
theorem C68_double (hF : 2 ≤ F) (hE : 1 ≤ E) {u : Unp} (hu : u.IsReg F) :
    Unp.add F E u u = Unp.mul F E ⟨.regular, false, 1, 0⟩ u := by
  rw [mul_reg ⟨rfl, by positivity⟩ hu]
  have hP := two_pow_pred_nat (w := F) (by omega)
  have hP2 : 2 ^ (F - 1) = 2 * 2 ^ (F - 2) := two_pow_pred_nat (w := F - 1) (by omega)
  have hp : 0 < 2 ^ (F - 2) := by positivity
  have hu2 := hu.2
  have hadd : Unp.add F E u u = Unp.addRegular F E u u := by unfold Unp.add; simp [hu.1]
  rw [hadd]
  obtain ⟨A, hA⟩ : ∃ A, A = 2 ^ (F - 2) + u.frac / 4 := ⟨_, rfl⟩
  have hB : 2 ^ (F - 1) * (2 ^ (F - 1) + u.frac / 2) / 2 ^ F = A := by
    rw [hP, Nat.mul_comm 2, Nat.mul_div_mul_left _ _ (by positivity)]; omega
  have e0 : arithS E 0 = .ok 0 := arithS_ok' (by
    have : (0 : ℤ) < 2 ^ (E - 1) := by positivity
    unfold InS; omega)
  have hsh : Unp.condShr F true A 0 = .ok A := by
    have := condShr_true (F := F) (x := A) (n := 0) (d := 0) rfl (by unfold pw; omega)
    simpa using this
  have htest : A &&& Unp.leftmost F = 0 := by
    unfold Unp.leftmost
    rw [and_two_pow_eq_zero_iff, Nat.div_eq_of_lt (by omega)]
  have hlog : Nat.log2 (A + A) = F - 1 := by
    rw [Nat.log2_eq_iff (by omega)]
    refine ⟨by omega, ?_⟩
    rw [show F - 1 + 1 = F by omega]; omega
  have hn : ∀ e : ℤ, Unp.normalized F E ⟨.regular, u.neg, wrapS E e, (A + A) % 2 ^ F⟩ =
      .ok (Unp.mk3 F E e (A <<< 1 <<< 1) u.neg) := by
    intro e
    rw [Nat.mod_eq_of_lt (by omega)]
    unfold Unp.normalized Unp.findLeft
    have h0 : A + A ≠ 0 := by omega
    have hk : clz F (A + A) = 0 := by unfold clz; omega
    simp only [h0, if_false, hk, bind, Except.bind, Nat.cast_zero, sub_zero, arithS_wrapS hE]
    obtain ⟨y, hy1, hy2⟩ := shlU_ok_mod (w := F) (x := A + A) (n := 0 + 1) (k := 1) (by simp) (by unfold pw; omega) (fun hw => by
      have : 2 ^ F ≤ 2 ^ 31 := Nat.pow_le_pow_right (by norm_num) (by omega)
      omega)
    rw [hy1]
    simp only [pure, Except.pure]
    unfold Unp.mk3
    rw [hy2, wrapS_wrapS hE]
    simp only [Nat.shiftLeft_eq]
    rw [show (A + A) * 2 ^ 1 = A * 2 ^ 1 * 2 ^ 1 by ring]
  unfold Unp.addRegular Unp.mulRegular
  simp only [mant1 (by omega : 1 ≤ F) hu.2, mant1 (by omega : 1 ≤ F) (show 0 < 2 ^ F by positivity), mant2 hF hu.2]
  simp only [Nat.zero_div, ← hA, Nat.shiftRight_eq_div_pow, sub_self, e0, Nat.add_zero, hB]
  simp only [htest, bind, Except.bind, lt_self_iff_false, if_false, decide_false, not_false_eq_true, decide_true, condShr_false,
    hsh, if_true, Bool.false_xor, add_zero, ge_iff_le, le_refl, add_comm (1 : ℤ) u.exp]
  unfold arithS
  by_cases h1 : -(2 ^ (pw E - 1) : ℤ) ≤ u.exp + 1 ∧ u.exp + 1 < 2 ^ (pw E - 1)
  · simp only [h1, and_self, if_true]
    exact hn _
  · simp only [h1, if_false]

example : Unp.add 16 32 ⟨.regular, true, 3, 40001⟩ ⟨.regular, true, 3, 40001⟩ =
    Unp.mul 16 32 ⟨.regular, false, 1, 0⟩ ⟨.regular, true, 3, 40001⟩ ∧
    Unp.add 16 32 ⟨.regular, true, 3, 40001⟩ ⟨.regular, true, 3, 40001⟩ = .ok ⟨.regular, true, 4, 40000⟩ :=
  ⟨C68_double (by norm_num) (by norm_num) (by decide), by decide⟩

/-- **C68**: for NaN they differ: `2 * NaN` is two. -/
theorem C68_double_nan : Unp.add F E (Unp.ofTy .nan) (Unp.ofTy .nan) = .ok (Unp.ofTy .nan) ∧
    Unp.mul F E ⟨.regular, false, 1, 0⟩ (Unp.ofTy .nan) = .ok ⟨.regular, false, 1, 0⟩ := ⟨rfl, rfl⟩

theorem two_mul_eq (hF : 2 ≤ F) (hE : 1 ≤ E) {u : Unp} (hu : u.IsReg F) (h1 : InS E (u.exp + 1)) :
    Unp.mul F E ⟨.regular, false, 1, 0⟩ u = .ok ⟨.regular, u.neg, u.exp + 1, 4 * (u.frac / 4)⟩ := by
  rw [mul_reg ⟨rfl, by positivity⟩ hu]
  have hP := two_pow_pred_nat (w := F) (by omega)
  have hP2 : 2 ^ (F - 1) = 2 * 2 ^ (F - 2) := two_pow_pred_nat (w := F - 1) (by omega)
  have hp : 0 < 2 ^ (F - 2) := by positivity
  have hu2 := hu.2
  obtain ⟨A, hA⟩ : ∃ A, A = 2 ^ (F - 2) + u.frac / 4 := ⟨_, rfl⟩
  have hB : 2 ^ (F - 1) * (2 ^ (F - 1) + u.frac / 2) / 2 ^ F = A := by
    rw [hP, Nat.mul_comm 2, Nat.mul_div_mul_left _ _ (by positivity)]; omega
  have htest : A &&& Unp.leftmost F = 0 := by
    unfold Unp.leftmost
    rw [and_two_pow_eq_zero_iff, Nat.div_eq_of_lt (by omega)]
  unfold Unp.mulRegular
  simp only [mant1 (by omega : 1 ≤ F) hu.2, mant1 (by omega : 1 ≤ F) (show 0 < 2 ^ F by positivity)]
  simp only [Nat.zero_div, Nat.shiftRight_eq_div_pow, Nat.add_zero, hB]
  simp only [htest, bind, Except.bind, decide_true, if_true, Bool.false_xor, add_zero, add_comm (1 : ℤ) u.exp, arithS_ok' h1,
    pure, Except.pure]
  have e1 : A <<< 1 <<< 1 = 4 * A := by simp only [Nat.shiftLeft_eq]; ring
  rw [e1, mk3_mod hE h1 (by omega) (by rw [pow_succ]; omega)]
  congr 2
  omega

/-- **C68**: `(2 * u) / u` (tests/testunpacked.cpp:63,115) is two if the upper one of the last two fraction bits of `u` is
clear, and one otherwise. -/
theorem C68_div_two (hF : 2 ≤ F) (hE : 2 ≤ E) {u : Unp} (hu : u.IsReg F) (h1 : InS E (u.exp + 1)) :
    ∃ d, Unp.mul F E ⟨.regular, false, 1, 0⟩ u = .ok d ∧
      Unp.div F E d u = .ok ⟨.regular, false, if u.frac % 4 < 2 then 1 else 0, 0⟩ := by
  refine ⟨_, two_mul_eq hF (by omega) hu h1, ?_⟩
  have hP := two_pow_pred_nat (w := F) (by omega)
  have hP2 : 2 ^ (F - 1) = 2 * 2 ^ (F - 2) := two_pow_pred_nat (w := F - 1) (by omega)
  have hp : 0 < 2 ^ (F - 2) := by positivity
  have hu2 := hu.2
  have hd : (⟨.regular, u.neg, u.exp + 1, 4 * (u.frac / 4)⟩ : Unp).IsReg F := ⟨rfl, by simp only; omega⟩
  have hE2 : (2 : ℤ) ^ 1 ≤ 2 ^ (E - 1) := pow_le_pow_right₀ (by norm_num) (by omega)
  rw [div_reg hd hu]
  obtain ⟨k1, -, k3⟩ := divRegular_gen hF (by omega : 1 ≤ E) hd hu (by simp only; unfold InS; omega)
    (by simp only; unfold InS; omega) rfl rfl rfl
  simp only [show 4 * (u.frac / 4) / 2 = 2 * (u.frac / 4) by omega, add_sub_cancel_left, Bool.xor_self, sub_self] at k1 k3
  by_cases h : u.frac % 4 < 2
  · rw [if_pos h]
    have hAB : 2 ^ (F - 1) + 2 * (u.frac / 4) = 2 ^ (F - 1) + u.frac / 2 := by omega
    rw [hAB] at k1
    rw [(k1 le_rfl).1, Nat.mul_div_cancel_left _ (by omega), Nat.sub_self]
  · rw [if_neg h]
    exact k3 (by omega) (by omega)

example : ∃ d, Unp.mul 16 32 ⟨.regular, false, 1, 0⟩ ⟨.regular, true, 3, 40001⟩ = .ok d ∧
    Unp.div 16 32 d ⟨.regular, true, 3, 40001⟩ = .ok ⟨.regular, false, 1, 0⟩ :=
  C68_div_two (by norm_num) (by norm_num) (by decide) (by unfold InS; norm_num)

/-- **C68**, concretely: `Unpacked<uint16_t>` of `1 + 2^-15`, and the test's `(2*u)/u`. -/
theorem C68_div_two_wrong : Unp.mul 16 32 ⟨.regular, false, 1, 0⟩ ⟨.regular, false, 0, 2⟩ = .ok ⟨.regular, false, 1, 0⟩ ∧
    Unp.div 16 32 ⟨.regular, false, 1, 0⟩ ⟨.regular, false, 0, 2⟩ = .ok ⟨.regular, false, 0, 0⟩ := by decide

/-! ## reciprocal of the reciprocal -/

theorem inv_small (hF : 2 ≤ F) (hE : 1 ≤ E) {u : Unp} (hu : u.IsReg F) (h1 : InS E (-u.exp)) (h2 : InS E (-u.exp - 1)) :
    (u.frac < 2 → Unp.inv F E u = .ok ⟨.regular, u.neg, -u.exp, 0⟩) ∧
    (2 ≤ u.frac → u.frac < 4 → Unp.inv F E u = .ok ⟨.regular, u.neg, -u.exp - 1, 0⟩) ∧
    (4 ≤ u.frac → Unp.inv F E u = .ok ⟨.regular, u.neg, -u.exp - 1, 2 ^ (2 * F - 1) / (2 ^ (F - 2) + u.frac / 4) - 2 ^ F⟩ ∧
      2 ^ F ≤ 2 ^ (2 * F - 1) / (2 ^ (F - 2) + u.frac / 4) ∧
      2 ^ (2 * F - 1) / (2 ^ (F - 2) + u.frac / 4) < 2 ^ (F + 1)) := by
  rw [C68_inv_eq (by omega) hu, div_reg (one_isReg F) hu]
  have hP := two_pow_pred_nat (w := F) (by omega)
  have hP2 : 2 ^ (F - 1) = 2 * 2 ^ (F - 2) := two_pow_pred_nat (w := F - 1) (by omega)
  have hp : 0 < 2 ^ (F - 2) := by positivity
  have hpp : 2 ^ (F - 1) * 2 ^ F = 2 ^ (2 * F - 1) := by rw [← pow_add]; congr 1; omega
  obtain ⟨k1, k2, k3⟩ := divRegular_gen hF hE (one_isReg F) hu (by simpa using h1) (by simpa using h2) rfl rfl rfl
  simp only [Nat.zero_div, add_zero, Bool.false_xor, zero_sub] at k1 k2 k3
  refine ⟨fun h => ?_, fun h h' => ?_, fun h => ?_⟩
  · have hz : u.frac / 2 = 0 := by omega
    rw [hz] at k1
    rw [(k1 (by omega)).1, add_zero, Nat.mul_div_cancel_left _ (by omega), Nat.sub_self]
  · exact k3 (by omega) (by omega)
  · rw [hpp] at k2
    exact k2 (by omega)

/-- **C68**: the reciprocal of the reciprocal (tests/testunpacked.cpp:31,60) is within eight units of the last place of the
number, with two exceptions: fractions of two or three units give about twice the number, and fractions of at least
`2^F-4` about one half of it. -/
theorem C68_inv_inv (hF : 4 ≤ F) (hE : 1 ≤ E) {u : Unp} (hu : u.IsReg F) (h1 : InS E (-u.exp)) (h2 : InS E (-u.exp - 1))
    (h3 : InS E u.exp) (h4 : InS E (u.exp - 1)) (h5 : InS E (u.exp + 1)) :
    ∃ t r, Unp.inv F E u = .ok t ∧ Unp.inv F E t = .ok r ∧ r.IsReg F ∧ r.neg = u.neg ∧
      ((u.frac < 2 ∨ 4 ≤ u.frac) → u.frac < 2 ^ F - 4 → |r.val F - u.val F| ≤ 2 ^ (u.exp + 3 - F : ℤ)) ∧
      (2 ≤ u.frac → u.frac < 4 → |r.val F| = 2 ^ (u.exp + 1)) ∧
      (2 ^ F - 4 ≤ u.frac → |r.val F| = 2 ^ u.exp) := by
  have hP := two_pow_pred_nat (w := F) (by omega)
  have hP2 : 2 ^ (F - 1) = 2 * 2 ^ (F - 2) := two_pow_pred_nat (w := F - 1) (by omega)
  have hP4 : 2 ^ 2 ≤ 2 ^ (F - 2) := Nat.pow_le_pow_right (by norm_num) (by omega)
  have hu2 := hu.2
  obtain ⟨a1, a2, a3⟩ := inv_small (by omega : 2 ≤ F) hE hu h1 h2
  have hdiff : ∀ (e : ℤ) (f : ℕ), |(⟨.regular, u.neg, e, f⟩ : Unp).val F - u.val F| =
      |mag F e f - mag F u.exp u.frac| := by
    intro e f
    rw [val_eq, val_eq, ← mul_sub]
    cases u.neg <;> simp [sq]
    rw [abs_sub_comm]
  have hmag : ∀ (e : ℤ) (f : ℕ), mag F e f = ((2 ^ F + f : ℕ) : ℚ) * 2 ^ (e - F : ℤ) := by
    intro e f
    have := mag_sub (F := F) (e := e) (x := 2 ^ F + f) (by omega)
    rwa [show 2 ^ F + f - 2 ^ F = f by omega] at this
  rcases lt_or_ge u.frac 2 with hf | hf
  · have ht : (⟨.regular, u.neg, -u.exp, 0⟩ : Unp).IsReg F := ⟨rfl, by positivity⟩
    obtain ⟨b1, -, -⟩ := inv_small (by omega : 2 ≤ F) hE ht (by simpa using h3) (by simpa using h4)
    refine ⟨_, _, a1 hf, b1 (by simp), ⟨rfl, by positivity⟩, rfl, fun _ _ => ?_, fun h => by omega, fun h => by omega⟩
    rw [hdiff, neg_neg, hmag, hmag, ← sub_mul, abs_mul, abs_of_pos (by positivity : (0 : ℚ) < 2 ^ (u.exp - F : ℤ)),
      show u.exp + 3 - (F : ℤ) = 3 + (u.exp - F) by ring, zpow_add₀ (by norm_num) 3]
    refine mul_le_mul_of_nonneg_right ?_ (by positivity)
    have : (u.frac : ℚ) < 2 := by exact_mod_cast hf
    have h0 : (0 : ℚ) ≤ u.frac := by positivity
    rw [abs_le]; push_cast
    norm_num
    constructor <;> linarith
  rcases lt_or_ge u.frac 4 with hf4 | hf4
  · have ht : (⟨.regular, u.neg, -u.exp - 1, 0⟩ : Unp).IsReg F := ⟨rfl, by positivity⟩
    obtain ⟨b1, -, -⟩ := inv_small (by omega : 2 ≤ F) hE ht
      (by simp only; rw [show -(-u.exp - 1) = u.exp + 1 by ring]; exact h5)
      (by simp only; rw [show -(-u.exp - 1) - 1 = u.exp by ring]; exact h3)
    refine ⟨_, _, a2 hf hf4, b1 (by simp), ⟨rfl, by positivity⟩, rfl, fun h _ => by omega, fun _ _ => ?_, fun h => by omega⟩
    rw [val_eq, abs_sq _ (mag_pos _ _ _).le]
    simp only [mag]
    rw [show -(-u.exp - 1) = u.exp + 1 by ring]
    simp
  obtain ⟨heq, l, r⟩ := a3 hf4
  generalize hC : 2 ^ (F - 2) + u.frac / 4 = C at *
  generalize hn : 2 ^ (2 * F - 1) / C = n at *
  have hN : 2 ^ (2 * F - 1) = 2 ^ (F - 1) * 2 ^ F := by rw [← pow_add]; congr 1; omega
  have ht : (⟨.regular, u.neg, -u.exp - 1, n - 2 ^ F⟩ : Unp).IsReg F := ⟨rfl, by simp only; rw [pow_succ] at r; omega⟩
  obtain ⟨b1, b2, b3⟩ := inv_small (by omega : 2 ≤ F) hE ht
    (by simp only; rw [show -(-u.exp - 1) = u.exp + 1 by ring]; exact h5)
    (by simp only; rw [show -(-u.exp - 1) - 1 = u.exp by ring]; exact h3)
  simp only [show -(-u.exp - 1) = u.exp + 1 by ring, show u.exp + 1 - 1 = u.exp by ring] at b1 b2 b3
  have hC1 : 2 ^ (F - 2) < C := by omega
  have hC2 : C < 2 ^ (F - 1) := by omega
  rcases lt_or_ge u.frac (2 ^ F - 4) with hlt | hge
  · have hC3 : C + 2 ≤ 2 ^ (F - 1) := by omega
    have hn4 : 2 ^ F + 4 ≤ n := by
      rw [← hn, Nat.le_div_iff_mul_le (by omega), hN]
      calc (2 ^ F + 4) * C ≤ (2 ^ F + 4) * (2 ^ (F - 1) - 2) := Nat.mul_le_mul_left _ (by omega)
        _ ≤ _ := by
          obtain ⟨q, hq⟩ : ∃ q, 2 ^ (F - 1) = q + 2 := ⟨2 ^ (F - 1) - 2, by omega⟩
          rw [hP, hq]
          simp only [Nat.add_sub_cancel]
          nlinarith
    obtain ⟨heq2, l2, r2⟩ := b3 (by omega)
    have hC' : 2 ^ (F - 2) + (n - 2 ^ F) / 4 = n / 4 := by omega
    rw [hC'] at heq2 l2 r2
    refine ⟨_, _, heq, heq2, ⟨rfl, by simp only; rw [pow_succ] at r2; omega⟩, rfl, fun _ _ => ?_, fun h => by omega, fun h => by omega⟩
    have hn2 : n / 4 = 2 ^ (2 * F - 1) / (4 * C) := by rw [← hn, Nat.div_div_eq_div_mul, mul_comm C]
    generalize hD : n / 4 = D at *
    have hD0 : 2 ^ (F - 2) ≤ D := by omega
    have lo : 4 * C ≤ 2 ^ (2 * F - 1) / D := by
      rw [Nat.le_div_iff_mul_le (by omega), hn2]
      exact Nat.mul_div_le _ _
    have hi : 2 ^ (2 * F - 1) / D < 4 * C + 9 := by
      rw [Nat.div_lt_iff_lt_mul (by omega)]
      have : 2 ^ (2 * F - 1) < 4 * C * (D + 1) := by
        rw [hn2]
        exact Nat.lt_mul_div_succ _ (by omega)
      nlinarith
    generalize 2 ^ (2 * F - 1) / D = m at *
    rw [hdiff, hmag, hmag, ← sub_mul, abs_mul,
      abs_of_pos (by positivity : (0 : ℚ) < 2 ^ (u.exp - F : ℤ)),
      show u.exp + 3 - (F : ℤ) = 3 + (u.exp - F) by ring, zpow_add₀ (by norm_num) 3]
    refine mul_le_mul_of_nonneg_right ?_ (by positivity)
    rw [show 2 ^ F + (m - 2 ^ F) = m by omega, abs_le]
    have c1 : m ≤ 2 ^ F + u.frac + 8 := by omega
    have c2 : 2 ^ F + u.frac ≤ m + 8 := by omega
    have c1' : (m : ℚ) ≤ ((2 ^ F + u.frac : ℕ) : ℚ) + 8 := by exact_mod_cast c1
    have c2' : ((2 ^ F + u.frac : ℕ) : ℚ) ≤ (m : ℚ) + 8 := by exact_mod_cast c2
    norm_num at c1' c2' ⊢
    constructor <;> linarith
  · have hC3 : C = 2 ^ (F - 1) - 1 := by omega
    have hn' : n = 2 ^ F + 2 := by
      rw [← hn, hC3, hN]
      obtain ⟨q, hq⟩ : ∃ q, 2 ^ (F - 1) = q + 1 := ⟨2 ^ (F - 1) - 1, by omega⟩
      rw [hP, hq, Nat.add_sub_cancel]
      apply Nat.div_eq_of_lt_le
      · nlinarith
      · have : 3 ≤ q := by omega
        nlinarith
    refine ⟨_, _, heq, b2 (by omega) (by omega), ⟨rfl, by positivity⟩, rfl, fun _ h => by omega, fun h => by omega, fun _ => ?_⟩
    rw [val_eq, abs_sq _ (mag_pos _ _ _).le]
    simp [mag]

example : ∃ t r, Unp.inv 16 32 ⟨.regular, true, 3, 40001⟩ = .ok t ∧ Unp.inv 16 32 t = .ok r ∧
    |r.val 16 - (⟨.regular, true, 3, 40001⟩ : Unp).val 16| ≤ 2 ^ (3 + 3 - (16 : ℕ) : ℤ) := by
  obtain ⟨t, r, h1, h2, -, -, h3, -⟩ := C68_inv_inv (F := 16) (E := 32) (u := ⟨.regular, true, 3, 40001⟩) (by norm_num) (by norm_num)
    (by decide) (by unfold InS; norm_num) (by unfold InS; norm_num) (by unfold InS; norm_num) (by unfold InS; norm_num) (by unfold InS; norm_num)
  exact ⟨t, r, h1, h2, h3 (Or.inr (by norm_num)) (by norm_num)⟩

/-! ## sums -/

theorem add_reg {u v : Unp} (hu : u.IsReg F) (hv : v.IsReg F) : Unp.add F E u v = Unp.addRegular F E u v := by
  unfold Unp.add; simp [hu.1, hv.1]

/-- **C68**: the sum of two regular numbers, completely: the aligned operands are added and the result is exact; undefined
exactly when a shift is out of range. -/
theorem C68_add (hF : F = 8 ∨ F = 16 ∨ F = 32 ∨ F = 64) (hE : 1 ≤ E) {u v : Unp} (hu : u.IsReg F) (hv : v.IsReg F)
    (hd : InS E (u.exp - v.exp)) (hr : ∀ x : ℤ, max u.exp v.exp - F ≤ x → x ≤ max u.exp v.exp + 1 → InS E x) :
    (SumOK F (u.val F) (v.val F) → ∃ r, Unp.add F E u v = .ok r ∧
      ((cutSum F (u.val F) (v.val F) = 0 ∧ r = Unp.ofTy .zero) ∨ (r.IsReg F ∧ r.val F = cutSum F (u.val F) (v.val F)))) ∧
    (¬ SumOK F (u.val F) (v.val F) → Unp.add F E u v = .error .shiftAmount) := by
  rw [add_reg hu hv]
  have hX : Holds F u.neg u.exp u.frac (u.val F) := holds_mag (by omega) hu.2
  have hY : Holds F v.neg v.exp v.frac (v.val F) := holds_mag (by omega) hv.2
  have hiff : SumOK F (u.val F) (v.val F) ↔ |u.exp - v.exp| < (pw F : ℤ) ∧
      ¬ (32 ≤ F ∧ |cutSum F (u.val F) (v.val F)| = sumUnit F (u.val F) (v.val F)) := by
    unfold SumOK
    rw [hX.log, hY.log]
    simp [hX.ne, hY.ne]
  rw [hiff]
  generalize u.val F = x at *
  generalize v.val F = y at *
  rw [reg_eq hu, reg_eq hv]
  constructor
  · rintro ⟨hd', hn⟩
    obtain ⟨h1, h2, h3⟩ := addRegular_exact hF hE hX hY hd' ⟨hd, hr⟩
    by_cases h0 : cutSum F x y = 0
    · exact ⟨_, h1 h0, Or.inl ⟨h0, rfl⟩⟩
    · obtain ⟨s, e, f, heq, hf, hc, -⟩ := h3 h0 hn
      exact ⟨_, heq, Or.inr ⟨⟨rfl, hf⟩, hc.symm⟩⟩
  · intro hn
    by_cases hd' : |u.exp - v.exp| < (pw F : ℤ)
    · have hh : 32 ≤ F ∧ |cutSum F x y| = sumUnit F x y := by
        by_contra hc; exact hn ⟨hd', hc⟩
      exact (addRegular_exact hF hE hX hY hd' ⟨hd, hr⟩).2.1 hh.1 hh.2
    · exact addRegular_ub (by omega) ⟨hd, hr⟩

example : ∃ r, Unp.add 16 32 ⟨.regular, true, 3, 40001⟩ ⟨.regular, false, 2, 7⟩ = .ok r :=
  ((C68_add (F := 16) (E := 32) (u := ⟨.regular, true, 3, 40001⟩) (v := ⟨.regular, false, 2, 7⟩) (by norm_num) (by norm_num)
    (by decide) (by decide) (by unfold InS; norm_num) (fun x h1 h2 => by
      simp only at h1 h2; unfold InS; omega)).1 (by decide +kernel)).imp fun _ h => h.1

/-- a multiple of the unit is not changed by cutting -/
theorem cutTo_unit {n k i : ℤ} (h : i ≤ k) : cutTo (2 ^ i) ((n : ℚ) * 2 ^ k) = n * 2 ^ k := by
  obtain ⟨d, rfl⟩ : ∃ d : ℕ, k = i + d := ⟨(k - i).toNat, by omega⟩
  have hi : (0 : ℚ) < 2 ^ i := by positivity
  have e1 : (n : ℚ) * 2 ^ (i + d : ℤ) = ((n * 2 ^ d : ℤ) : ℚ) * 2 ^ i := by
    rw [zpow_add₀ (by norm_num), zpow_natCast]; push_cast; ring
  rw [e1]
  generalize n * 2 ^ d = m
  unfold cutTo
  have e2 : |(m : ℚ) * 2 ^ i| / 2 ^ i = ((m.natAbs : ℕ) : ℚ) := by
    rw [abs_mul, abs_of_pos hi, mul_div_assoc, div_self hi.ne', mul_one, Nat.cast_natAbs, Int.cast_abs]
  rw [e2, Nat.floor_natCast, ← mul_assoc]
  congr 1
  have hneg : (m : ℚ) * 2 ^ i < 0 ↔ m < 0 := by
    rw [mul_neg_iff]
    constructor
    · rintro (⟨-, h⟩ | ⟨h, -⟩)
      · linarith
      · exact_mod_cast h
    · intro h; right; exact ⟨by exact_mod_cast h, hi⟩
  simp only [hneg]
  rw [Nat.cast_natAbs]
  split_ifs with h
  · rw [abs_of_neg h]; push_cast; ring
  · rw [abs_of_nonneg (not_lt.mp h), one_mul]

theorem log_lt_of {n : ℤ} {k : ℤ} {m : ℕ} (h0 : n ≠ 0) (h : |n| < 2 ^ m) : k ≤ Int.log 2 |(n : ℚ) * 2 ^ k| ∧
    Int.log 2 |(n : ℚ) * 2 ^ k| < k + m := by
  have hk : (0 : ℚ) < 2 ^ k := by positivity
  have hn : (1 : ℚ) ≤ |(n : ℚ)| := by
    rw [← Int.cast_abs]; exact_mod_cast Int.one_le_abs h0
  have hlt : |(n : ℚ)| < 2 ^ m := by rw [← Int.cast_abs]; exact_mod_cast h
  rw [abs_mul, abs_of_pos hk]
  have hpos : 0 < |(n : ℚ)| * 2 ^ k := by positivity
  constructor
  · refine (Int.zpow_le_iff_le_log (b := 2) (by norm_num) hpos).mp ?_
    push_cast
    nlinarith
  · refine (Int.lt_zpow_iff_log_lt (b := 2) (by norm_num) hpos).mp ?_
    push_cast
    rw [add_comm, zpow_add₀ (by norm_num), zpow_natCast]
    exact mul_lt_mul_of_pos_right hlt hk

/-- **C68**: sums of multiples of a power of two with less than `F-1` bits, such as integers, are exact
(tests/testunpacked.cpp:121-150). -/
theorem C68_add_exact (hF : F = 8 ∨ F = 16 ∨ F = 32 ∨ F = 64) (hE : 1 ≤ E) {u v : Unp} (hu : u.IsReg F) (hv : v.IsReg F)
    (hd : InS E (u.exp - v.exp)) (hr : ∀ x : ℤ, max u.exp v.exp - F ≤ x → x ≤ max u.exp v.exp + 1 → InS E x)
    {n m k : ℤ} (hn : |n| < 2 ^ (F - 2)) (hm : |m| < 2 ^ (F - 2)) (hx : u.val F = n * 2 ^ k) (hy : v.val F = m * 2 ^ k) :
    ∃ r, Unp.add F E u v = .ok r ∧ ((n + m = 0 ∧ r = Unp.ofTy .zero) ∨ (r.IsReg F ∧ r.val F = u.val F + v.val F)) := by
  have hnz : ∀ w : Unp, w.val F ≠ 0 := fun w => by
    rw [val_eq]; exact mul_ne_zero (sq_ne _) (mag_pos _ _ _).ne'
  have hn0 : n ≠ 0 := by rintro rfl; exact hnz u (by rw [hx]; simp)
  have hm0 : m ≠ 0 := by rintro rfl; exact hnz v (by rw [hy]; simp)
  obtain ⟨l1, l2⟩ := log_lt_of (k := k) hn0 hn
  obtain ⟨m1, m2⟩ := log_lt_of (k := k) hm0 hm
  rw [← hx] at l1 l2
  rw [← hy] at m1 m2
  have hui : max (Int.log 2 |u.val F|) (Int.log 2 |v.val F|) + 2 - (F : ℤ) ≤ k - 1 := by omega
  have hcs : cutSum F (u.val F) (v.val F) = ((n + m : ℤ) : ℚ) * 2 ^ k := by
    unfold cutSum sumUnit
    rw [hx, hy] at hui ⊢
    rw [cutTo_unit (by omega), cutTo_unit (by omega)]
    push_cast; ring
  have hok : SumOK F (u.val F) (v.val F) := by
    right; right
    refine ⟨by unfold pw; rw [abs_lt]; push_cast; omega, fun ⟨_, h⟩ => ?_⟩
    rw [hcs] at h
    unfold sumUnit at h
    have hlt : (2 : ℚ) ^ (max (Int.log 2 |u.val F|) (Int.log 2 |v.val F|) + 2 - (F : ℤ)) < 2 ^ k :=
      zpow_lt_zpow_right₀ (by norm_num) (by omega)
    rw [← h] at hlt
    by_cases h0 : n + m = 0
    · rw [h0] at h
      simp only [Int.cast_zero, zero_mul, abs_zero] at h
      have : (0 : ℚ) < 2 ^ (max (Int.log 2 |u.val F|) (Int.log 2 |v.val F|) + 2 - (F : ℤ)) := by positivity
      linarith
    · have hk : (0 : ℚ) < 2 ^ k := by positivity
      have h1 : (1 : ℚ) ≤ |((n + m : ℤ) : ℚ)| := by
        rw [← Int.cast_abs]; exact_mod_cast Int.one_le_abs h0
      rw [abs_mul, abs_of_pos hk] at hlt
      nlinarith
  obtain ⟨r, heq, hres⟩ := (C68_add hF hE hu hv hd hr).1 hok
  refine ⟨r, heq, ?_⟩
  rw [hcs] at hres
  rcases hres with ⟨h0, h1⟩ | ⟨h0, h1⟩
  · left
    refine ⟨?_, h1⟩
    rcases mul_eq_zero.mp h0 with h | h
    · exact_mod_cast h
    · exact absurd h (by positivity)
  · right
    refine ⟨h0, ?_⟩
    rw [h1, hx, hy]; push_cast; ring

example : ∃ r, Unp.add 32 32 ⟨.regular, false, 1, 2 ^ 31⟩ ⟨.regular, true, 2, 2 ^ 30⟩ = .ok r :=
  (C68_add_exact (F := 32) (E := 32) (u := ⟨.regular, false, 1, 2 ^ 31⟩) (v := ⟨.regular, true, 2, 2 ^ 30⟩) (n := 3) (m := -5) (k := 0)
    (by norm_num) (by norm_num) (by decide) (by decide) (by unfold InS; norm_num) (fun x h1 h2 => by
      simp only at h1 h2; unfold InS; omega) (by norm_num) (by norm_num) (by norm_num [Unp.val, tripleVal])
    (by norm_num [Unp.val, tripleVal])).imp fun _ h => h.1

example : Unp.add 32 32 ⟨.regular, false, 1, 2 ^ 31⟩ ⟨.regular, true, 2, 2 ^ 30⟩ = .ok ⟨.regular, true, 1, 0⟩ := by decide +kernel

/-- **C68**: products of multiples of powers of two are exact if the product of the factors has less than `F` bits. -/
theorem C68_mul_exact (hF : 2 ≤ F) (hE : 1 ≤ E) {u v : Unp} (hu : u.IsReg F) (hv : v.IsReg F) (h1 : InS E (u.exp + v.exp))
    (h2 : InS E (u.exp + v.exp + 1)) {n m k l : ℤ} (hnm : |n * m| < 2 ^ (F - 1)) (hx : u.val F = n * 2 ^ k)
    (hy : v.val F = m * 2 ^ l) : ∃ r, Unp.mul F E u v = .ok r ∧ r.IsReg F ∧ r.val F = u.val F * v.val F := by
  have hnz : ∀ w : Unp, w.val F ≠ 0 := fun w => by
    rw [val_eq]; exact mul_ne_zero (sq_ne _) (mag_pos _ _ _).ne'
  have hn0 : n ≠ 0 := by rintro rfl; exact hnz u (by rw [hx]; simp)
  have hm0 : m ≠ 0 := by rintro rfl; exact hnz v (by rw [hy]; simp)
  have hn1 := Int.one_le_abs hn0
  have hm1 := Int.one_le_abs hm0
  rw [abs_mul] at hnm
  have hn : |n| < 2 ^ (F - 1) := by nlinarith
  have hm : |m| < 2 ^ (F - 1) := by nlinarith
  obtain ⟨r, heq, hreg, hval⟩ := C68_mul hF hE hu hv h1 h2
  refine ⟨r, heq, hreg, ?_⟩
  obtain ⟨-, l2⟩ := log_lt_of (k := k) hn0 hn
  obtain ⟨-, m2⟩ := log_lt_of (k := l) hm0 hm
  have cx : cutSig F (u.val F) = u.val F := by
    unfold cutSig; rw [hx] at *; rw [cutTo_unit (by omega)]
  have cy : cutSig F (v.val F) = v.val F := by
    unfold cutSig; rw [hy] at *; rw [cutTo_unit (by omega)]
  have hprod : u.val F * v.val F = ((n * m : ℤ) : ℚ) * 2 ^ (k + l) := by
    rw [hx, hy, zpow_add₀ (by norm_num)]; push_cast; ring
  have hex : u.exp + v.exp < k + l + (F - 1 : ℕ) := by
    have hk : (0 : ℚ) < 2 ^ (k + l) := by positivity
    have a1 : (2 : ℚ) ^ (u.exp + v.exp) ≤ |u.val F * v.val F| := by
      rw [zpow_add₀ (by norm_num), abs_mul, val_eq, val_eq, abs_sq _ (mag_pos _ _ _).le, abs_sq _ (mag_pos _ _ _).le]
      exact mul_le_mul (le_mag _ _ _) (le_mag _ _ _) (by positivity) (mag_pos _ _ _).le
    have a2 : |u.val F * v.val F| < 2 ^ (k + l + (F - 1 : ℕ)) := by
      rw [hprod, abs_mul, abs_of_pos hk, add_comm (k + l), zpow_add₀ (by norm_num) ((F - 1 : ℕ) : ℤ), zpow_natCast]
      refine mul_lt_mul_of_pos_right ?_ hk
      rw [← abs_mul] at hnm
      rw [← Int.cast_abs]
      exact_mod_cast hnm
    exact (zpow_lt_zpow_iff_right₀ (by norm_num : (1 : ℚ) < 2)).mp (lt_of_le_of_lt a1 a2)
  rw [hval, cx, cy, hprod, cutTo_unit (by omega)]

example : ∃ r, Unp.mul 32 32 ⟨.regular, false, 1, 2 ^ 31⟩ ⟨.regular, true, 2, 2 ^ 30⟩ = .ok r ∧ r.IsReg 32 ∧
    r.val 32 = (⟨.regular, false, 1, 2 ^ 31⟩ : Unp).val 32 * (⟨.regular, true, 2, 2 ^ 30⟩ : Unp).val 32 :=
  C68_mul_exact (n := 3) (m := -5) (k := 0) (l := 0) (by norm_num) (by norm_num) (by decide) (by decide) (by unfold InS; norm_num) (by unfold InS; norm_num) (by norm_num)
    (by norm_num [Unp.val, tripleVal]) (by norm_num [Unp.val, tripleVal])

/-- **C68**: `u - u` is zero. -/
theorem C68_sub_self (hF : F = 8 ∨ F = 16 ∨ F = 32 ∨ F = 64) (hE : 1 ≤ E) {u : Unp} (hu : u.IsReg F) (h1 : InS E (u.exp + 1)) :
    Unp.sub F E u u = .ok (Unp.ofTy .zero) := by
  have e0 : arithS E 0 = .ok 0 := arithS_ok' (by
    have : (0 : ℤ) < 2 ^ (E - 1) := by positivity
    unfold InS; omega)
  have hsh : ∀ A, Unp.condShr F true A 0 = .ok A := fun A => by
    have := condShr_true (F := F) (x := A) (n := 0) (d := 0) rfl (by unfold pw; omega)
    simpa using this
  unfold Unp.sub
  have hn : (Unp.neg' u).IsReg F := ⟨rfl, hu.2⟩
  rw [add_reg hu hn]
  unfold Unp.addRegular Unp.neg'
  simp only [sub_self, e0, bind, Except.bind, lt_self_iff_false, if_false, decide_false, not_false_eq_true, decide_true,
    condShr_false, hsh, arithS_ok' h1, gt_iff_lt, Bool.eq_not_self]
  unfold Unp.normalized wrapU
  simp

example : Unp.sub 16 32 ⟨.regular, true, 3, 40001⟩ ⟨.regular, true, 3, 40001⟩ = .ok (Unp.ofTy .zero) :=
  C68_sub_self (by norm_num) (by norm_num) (by decide) (by unfold InS; norm_num)

/-! ## relative errors -/

theorem cutTo_err {u x : ℚ} (hu : 0 < u) : |cutTo u x| ≤ |x| ∧ |x| - |cutTo u x| < u := by
  have habs : |cutTo u x| = ⌊|x| / u⌋₊ * u := by
    unfold cutTo
    rw [abs_mul, abs_of_nonneg (by positivity : (0 : ℚ) ≤ ⌊|x| / u⌋₊ * u)]
    split_ifs <;> simp
  rw [habs]
  have h0 : 0 ≤ |x| / u := by positivity
  have h1 := Nat.floor_le h0
  have h2 := Nat.lt_floor_add_one (|x| / u)
  rw [le_div_iff₀ hu] at h1
  rw [div_lt_iff₀ hu] at h2
  exact ⟨h1, by linarith⟩

theorem cutSig_err {m : ℕ} {x : ℚ} (hx : x ≠ 0) : |cutSig m x| ≤ |x| ∧ |x| - |cutSig m x| < 2 ^ (1 - m : ℤ) * |x| := by
  obtain ⟨h1, h2⟩ := cutTo_err (u := 2 ^ (Int.log 2 |x| + 1 - m : ℤ)) (x := x) (by positivity)
  refine ⟨h1, lt_of_lt_of_le h2 ?_⟩
  rw [show Int.log 2 |x| + 1 - (m : ℤ) = (1 - m) + Int.log 2 |x| by ring, zpow_add₀ (by norm_num)]
  refine mul_le_mul_of_nonneg_left ?_ (by positivity)
  have := Int.zpow_log_le_self (b := 2) (by norm_num) (abs_pos.mpr hx)
  exact_mod_cast this

theorem val_ne (u : Unp) : u.val F ≠ 0 := by
  rw [val_eq]; exact mul_ne_zero (sq_ne _) (mag_pos _ _ _).ne'

/-- **C68**: the product is never too great in magnitude, and its relative error is below `2^(3-F)`. -/
theorem C68_mul_error (hF : 2 ≤ F) (hE : 1 ≤ E) {u v : Unp} (hu : u.IsReg F) (hv : v.IsReg F) (h1 : InS E (u.exp + v.exp))
    (h2 : InS E (u.exp + v.exp + 1)) : ∃ r, Unp.mul F E u v = .ok r ∧ r.IsReg F ∧ 0 < r.val F * (u.val F * v.val F) ∧
      |r.val F| ≤ |u.val F * v.val F| ∧ |u.val F * v.val F| - |r.val F| < 2 ^ (3 - F : ℤ) * |u.val F * v.val F| := by
  obtain ⟨e, f, heq, hf, -, hm, -⟩ := mulRegular_eq (na := u.neg) (nb := v.neg) hF hE hu.2 hv.2 h1 h2 rfl
  obtain ⟨r, hr, hreg, hval⟩ := C68_mul hF hE hu hv h1 h2
  refine ⟨r, hr, hreg, ?_, ?_⟩
  · have hs : r.neg = xor u.neg v.neg := by
      rw [mul_reg hu hv, reg_eq hu, reg_eq hv, heq] at hr
      cases hr; rfl
    rw [val_eq, val_eq, val_eq, hs, sq_xor]
    have := mag_pos F r.exp r.frac
    have := mag_pos F u.exp u.frac
    have := mag_pos F v.exp v.frac
    have e1 : sq u.neg * sq u.neg = 1 := by cases u.neg <;> simp [sq]
    have e2 : sq v.neg * sq v.neg = 1 := by cases v.neg <;> simp [sq]
    calc (0 : ℚ) < mag F r.exp r.frac * (mag F u.exp u.frac * mag F v.exp v.frac) := by positivity
      _ = (sq u.neg * sq u.neg) * (sq v.neg * sq v.neg) * (mag F r.exp r.frac * (mag F u.exp u.frac * mag F v.exp v.frac)) := by
        rw [e1, e2]; ring
      _ = _ := by ring
  · obtain ⟨x1, x2⟩ := cutSig_err (m := F) (val_ne u (F := F))
    obtain ⟨y1, y2⟩ := cutSig_err (m := F) (val_ne v (F := F))
    obtain ⟨p1, p2⟩ := cutTo_err (u := 2 ^ (u.exp + v.exp + 2 - F : ℤ)) (x := cutSig F (u.val F) * cutSig F (v.val F)) (by positivity)
    rw [← hval] at p1 p2
    have hu' : (2 : ℚ) ^ (u.exp + v.exp + 2 - F : ℤ) ≤ 2 * 2 ^ (1 - F : ℤ) * (|u.val F| * |v.val F|) := by
      have a1 : (2 : ℚ) ^ u.exp ≤ |u.val F| := by
        rw [val_eq, abs_sq _ (mag_pos _ _ _).le]; exact le_mag _ _ _
      have a2 : (2 : ℚ) ^ v.exp ≤ |v.val F| := by
        rw [val_eq, abs_sq _ (mag_pos _ _ _).le]; exact le_mag _ _ _
      have : (2 : ℚ) ^ (u.exp + v.exp + 2 - F : ℤ) = 2 * 2 ^ (1 - F : ℤ) * (2 ^ u.exp * 2 ^ v.exp) := by
        rw [show u.exp + v.exp + 2 - (F : ℤ) = 1 + (1 - F) + (u.exp + v.exp) by ring, zpow_add₀ (by norm_num),
          zpow_add₀ (by norm_num) 1, zpow_add₀ (by norm_num) u.exp]
        simp
      rw [this]
      refine mul_le_mul_of_nonneg_left ?_ (by positivity)
      exact mul_le_mul a1 a2 (by positivity) (abs_nonneg _)
    have h8 : (2 : ℚ) ^ (3 - F : ℤ) = 4 * 2 ^ (1 - F : ℤ) := by
      rw [show (3 : ℤ) - F = 2 + (1 - F) by ring, zpow_add₀ (by norm_num)]; norm_num
    rw [abs_mul] at p1 p2
    rw [abs_mul, h8]
    have hd : (0 : ℚ) < 2 ^ (1 - F : ℤ) := by positivity
    have hX0 : 0 ≤ |cutSig F (u.val F)| := abs_nonneg _
    have hY0 : 0 ≤ |cutSig F (v.val F)| := abs_nonneg _
    generalize |cutSig F (u.val F)| = X at *
    generalize |cutSig F (v.val F)| = Y at *
    have hxp : 0 < |u.val F| := abs_pos.mpr (val_ne u)
    have hyp : 0 < |v.val F| := abs_pos.mpr (val_ne v)
    generalize |u.val F| = x at *
    generalize |v.val F| = y at *
    generalize (2 : ℚ) ^ (1 - F : ℤ) = d at *
    have hXY : X * Y ≤ x * y := mul_le_mul x1 y1 hY0 hxp.le
    refine ⟨p1.trans hXY, ?_⟩
    have : x * y - X * Y < 2 * d * (x * y) := by
      have e1 : x * y - X * Y ≤ (x - X) * y + x * (y - Y) := by nlinarith
      have e2 : (x - X) * y < d * x * y := mul_lt_mul_of_pos_right x2 hyp
      have e3 : x * (y - Y) < x * (d * y) := mul_lt_mul_of_pos_left y2 hxp
      nlinarith
    linarith

example : ∃ r, Unp.mul 16 32 ⟨.regular, true, 3, 40001⟩ ⟨.regular, false, -2, 7⟩ = .ok r :=
  (C68_mul_error (by norm_num) (by norm_num) (by decide) (by decide) (by unfold InS; norm_num) (by unfold InS; norm_num)).imp fun _ h => h.1

/-- **C68**: the quotient by a number whose last two fraction bits are clear (such as a converted float) is never too great
in magnitude, and its relative error is below `2^(2-F)`. -/
theorem C68_div_error (hF : 2 ≤ F) (hE : 1 ≤ E) {u v : Unp} (hu : u.IsReg F) (hv : v.IsReg F) (hv4 : 4 ∣ v.frac)
    (h1 : InS E (u.exp - v.exp)) (h2 : InS E (u.exp - v.exp - 1)) : ∃ r, Unp.div F E u v = .ok r ∧ r.IsReg F ∧
      |r.val F| ≤ |u.val F / v.val F| ∧ |u.val F / v.val F| - |r.val F| < 2 ^ (2 - F : ℤ) * |u.val F / v.val F| := by
  obtain ⟨r, hr, hreg, k1, k2, -⟩ := C68_div hF hE hu hv h1 h2
  refine ⟨r, hr, hreg, ?_⟩
  have hP2 : 2 ^ (F - 1) = 2 * 2 ^ (F - 2) := two_pow_pred_nat (w := F - 1) (by omega)
  have cy : cutSig F (v.val F) = v.val F := by
    rw [cutSig_one (by omega) hv, val_eq, mag_half (by omega) (Dvd.dvd.trans (by norm_num) hv4)]
  have cz : cutSig (F - 1) (v.val F) = v.val F := by
    rw [cutSig_two hF hv, val_eq, mag_quarter (by omega) hv4]
  rw [cy] at k1
  rw [cz] at k2
  have hval : r.val F = cutSig (F + 1) (cutSig F (u.val F) / v.val F) := by
    rcases le_or_gt (signif (v.val F)) (signif (cutSig F (u.val F))) with h | h
    · exact k1 h
    · exact k2 h
  obtain ⟨x1, x2⟩ := cutSig_err (m := F) (val_ne u (F := F))
  have hX := cutSig_one_ne (by omega : 1 ≤ F) hu
  obtain ⟨p1, p2⟩ := cutSig_err (m := F + 1) (x := cutSig F (u.val F) / v.val F) (div_ne_zero hX (val_ne v))
  rw [← hval, abs_div] at p1 p2
  rw [abs_div]
  have hd : (0 : ℚ) < 2 ^ (1 - F : ℤ) := by positivity
  have h8 : (2 : ℚ) ^ (2 - F : ℤ) = 2 * 2 ^ (1 - F : ℤ) := by
    rw [show (2 : ℤ) - F = 1 + (1 - F) by ring, zpow_add₀ (by norm_num)]; norm_num
  have h9 : (2 : ℚ) ^ (1 - ((F + 1 : ℕ) : ℤ)) ≤ 2 ^ (1 - F : ℤ) := zpow_le_zpow_right₀ (by norm_num) (by push_cast; omega)
  have hyp : 0 < |v.val F| := abs_pos.mpr (val_ne v)
  have a1 : |cutSig F (u.val F)| / |v.val F| ≤ |u.val F| / |v.val F| := div_le_div_of_nonneg_right x1 hyp.le
  have a2 : |u.val F| / |v.val F| - |cutSig F (u.val F)| / |v.val F| < 2 ^ (1 - F : ℤ) * (|u.val F| / |v.val F|) := by
    rw [← sub_div, ← mul_div_assoc]
    exact div_lt_div_of_pos_right x2 hyp
  have hq : 0 ≤ |cutSig F (u.val F)| / |v.val F| := by positivity
  rw [h8]
  generalize |cutSig F (u.val F)| / |v.val F| = X at *
  generalize |u.val F| / |v.val F| = x at *
  generalize (2 : ℚ) ^ (1 - ((F + 1 : ℕ) : ℤ)) = d' at *
  generalize (2 : ℚ) ^ (1 - F : ℤ) = d at *
  refine ⟨p1.trans a1, ?_⟩
  have : d' * X ≤ d * x := mul_le_mul h9 a1 hq hd.le
  linarith

example : ∃ r, Unp.div 16 32 ⟨.regular, true, 3, 40001⟩ ⟨.regular, false, -2, 8⟩ = .ok r :=
  (C68_div_error (by norm_num) (by norm_num) (by decide) (by decide) (by norm_num) (by unfold InS; norm_num) (by unfold InS; norm_num)).imp fun _ h => h.1

/-- **C68**: a number times its reciprocal (tests/testunpacked.cpp:62) is within `2^(4-F)` of one, unless its fraction is
two or three units; then it is about one half. -/
theorem C68_mul_inv (hF : 4 ≤ F) (hE : 2 ≤ E) {u : Unp} (hu : u.IsReg F) (h1 : InS E (-u.exp)) (h2 : InS E (-u.exp - 1)) :
    ∃ t r, Unp.inv F E u = .ok t ∧ Unp.mul F E u t = .ok r ∧ r.IsReg F ∧
      ((u.frac < 2 ∨ 4 ≤ u.frac) → |r.val F - 1| < 2 ^ (4 - F : ℤ)) ∧
      (2 ≤ u.frac → u.frac < 4 → r.val F ≤ 3 / 4) := by
  have hP := two_pow_pred_nat (w := F) (by omega)
  have hP2 : 2 ^ (F - 1) = 2 * 2 ^ (F - 2) := two_pow_pred_nat (w := F - 1) (by omega)
  have hP4 : 2 ^ 2 ≤ 2 ^ (F - 2) := Nat.pow_le_pow_right (by norm_num) (by omega)
  have hu2 := hu.2
  have hE2 : (2 : ℤ) ^ 1 ≤ 2 ^ (E - 1) := pow_le_pow_right₀ (by norm_num) (by omega)
  obtain ⟨a1, a2, a3⟩ := inv_small (by omega : 2 ≤ F) (by omega : 1 ≤ E) hu h1 h2
  have hd0 : (0 : ℚ) < 2 ^ (-F : ℤ) := by positivity
  have hd4 : (2 : ℚ) ^ (-F : ℤ) ≤ 1 / 16 := by
    calc (2 : ℚ) ^ (-F : ℤ) ≤ 2 ^ (-4 : ℤ) := zpow_le_zpow_right₀ (by norm_num) (by omega)
      _ = 1 / 16 := by norm_num
  have e3 : (2 : ℚ) ^ (3 - F : ℤ) = 8 * 2 ^ (-F : ℤ) := by
    rw [show (3 : ℤ) - F = 3 + -F by ring, zpow_add₀ (by norm_num)]; norm_num
  have e4 : (2 : ℚ) ^ (4 - F : ℤ) = 16 * 2 ^ (-F : ℤ) := by
    rw [show (4 : ℤ) - F = 4 + -F by ring, zpow_add₀ (by norm_num)]; norm_num
  have hmag : ∀ (e : ℤ) (f : ℕ), mag F e f = ((2 ^ F + f : ℕ) : ℚ) * 2 ^ (e - F : ℤ) := by
    intro e f
    have := mag_sub (F := F) (e := e) (x := 2 ^ F + f) (by omega)
    rwa [show 2 ^ F + f - 2 ^ F = f by omega] at this
  have hs : sq u.neg * sq u.neg = 1 := by cases u.neg <;> simp [sq]
  -- the product with a number of the same sign
  have main : ∀ (e : ℤ) (f : ℕ), f < 2 ^ F → (e = -u.exp ∨ e = -u.exp - 1) → ∃ r, Unp.mul F E u ⟨.regular, u.neg, e, f⟩ = .ok r ∧
      r.IsReg F ∧ r.val F ≤ mag F u.exp u.frac * mag F e f ∧
      mag F u.exp u.frac * mag F e f * (1 - 2 ^ (3 - F : ℤ)) < r.val F := by
    intro e f hf he
    have ht : (⟨.regular, u.neg, e, f⟩ : Unp).IsReg F := ⟨rfl, hf⟩
    obtain ⟨r, hr, hreg, hpos, b1, b2⟩ := C68_mul_error (by omega : 2 ≤ F) (by omega : 1 ≤ E) hu ht
      (by simp only; unfold InS; omega) (by simp only; unfold InS; omega)
    have hprod : u.val F * (⟨.regular, u.neg, e, f⟩ : Unp).val F = mag F u.exp u.frac * mag F e f := by
      rw [val_eq, val_eq, mul_mul_mul_comm, hs, one_mul]
    rw [hprod] at hpos b1 b2
    have hp : 0 < mag F u.exp u.frac * mag F e f := mul_pos (mag_pos _ _ _) (mag_pos _ _ _)
    have hrp : 0 < r.val F := pos_of_mul_pos_left hpos hp.le
    rw [abs_of_pos hp, abs_of_pos hrp] at b1 b2
    exact ⟨r, hr, hreg, b1, by linarith⟩
  have hz : ∀ a b : ℤ, a + b = 0 → (2 : ℚ) ^ (a - F : ℤ) * 2 ^ (b - F : ℤ) = 2 ^ (-F : ℤ) * 2 ^ (-F : ℤ) := by
    intro a b h
    rw [← zpow_add₀ (by norm_num), ← zpow_add₀ (by norm_num)]; congr 1; omega
  have hFd : ((2 ^ F : ℕ) : ℚ) * 2 ^ (-F : ℤ) = 1 := by
    push_cast; rw [← zpow_natCast, ← zpow_add₀ (by norm_num)]; simp
  rcases lt_or_ge u.frac 2 with hf | hf
  · obtain ⟨r, hr, hreg, b1, b2⟩ := main (-u.exp) 0 (by positivity) (Or.inl rfl)
    refine ⟨_, r, a1 hf, hr, hreg, fun _ => ?_, fun h => by omega⟩
    have hm : mag F u.exp u.frac * mag F (-u.exp) 0 = 1 + u.frac * 2 ^ (-F : ℤ) := by
      rw [hmag, hmag, mul_mul_mul_comm, hz _ _ (by ring), add_zero, mul_mul_mul_comm, hFd, mul_one, Nat.cast_add, add_mul, hFd]
    rw [hm, e3] at b2
    rw [hm] at b1
    have c1 : (u.frac : ℚ) < 2 := by exact_mod_cast hf
    have c0 : (0 : ℚ) ≤ u.frac := by positivity
    rw [abs_lt, e4]
    generalize (2 : ℚ) ^ (-F : ℤ) = d at *
    constructor <;> nlinarith
  rcases lt_or_ge u.frac 4 with hf4 | hf4
  · obtain ⟨r, hr, hreg, b1, b2⟩ := main (-u.exp - 1) 0 (by positivity) (Or.inr rfl)
    refine ⟨_, r, a2 hf hf4, hr, hreg, fun h => by omega, fun _ _ => ?_⟩
    refine b1.trans ?_
    have c1 : (u.frac : ℚ) ≤ 4 := by exact_mod_cast hf4.le
    have c2 : (u.frac : ℚ) / 2 ^ F ≤ 1 / 4 := by
      rw [div_le_div_iff₀ (by positivity) (by norm_num)]
      have : (2 : ℚ) ^ 4 ≤ 2 ^ F := pow_le_pow_right₀ (by norm_num) hF
      linarith
    have c3 : (2 : ℚ) ^ u.exp * 2 ^ (-u.exp - 1) = 1 / 2 := by
      rw [← zpow_add₀ (by norm_num), show u.exp + (-u.exp - 1) = -1 by ring]; norm_num
    unfold mag
    rw [mul_mul_mul_comm, c3, Nat.cast_zero, zero_div, add_zero, mul_one]
    linarith
  · obtain ⟨heq, l, rr⟩ := a3 hf4
    generalize hC : 2 ^ (F - 2) + u.frac / 4 = C at *
    generalize hn : 2 ^ (2 * F - 1) / C = n at *
    have hN : 2 ^ (2 * F - 1) * 2 = 2 ^ F * 2 ^ F := by rw [← pow_succ, ← pow_add]; congr 1; omega
    obtain ⟨r, hr, hreg, b1, b2⟩ := main (-u.exp - 1) (n - 2 ^ F) (by rw [pow_succ] at rr; omega) (Or.inr rfl)
    refine ⟨_, r, heq, hr, hreg, fun _ => ?_, fun _ h => by omega⟩
    have hm : 2 * (mag F u.exp u.frac * mag F (-u.exp - 1) (n - 2 ^ F)) =
        ((2 ^ F + u.frac : ℕ) : ℚ) * n * (2 ^ (-F : ℤ) * 2 ^ (-F : ℤ)) := by
      rw [hmag, hmag, show 2 ^ F + (n - 2 ^ F) = n by omega, mul_mul_mul_comm, ← hz u.exp (-u.exp) (by ring),
        show (-u.exp - 1 - (F : ℤ)) = (-u.exp - F) - 1 by ring, zpow_sub₀ (by norm_num) _ 1]
      field_simp
    -- in units of the last place
    have hCpos : 0 < C := by omega
    have n1 : n * C ≤ 2 ^ (2 * F - 1) := by rw [← hn]; exact Nat.div_mul_le_self _ _
    have n2 : 2 ^ (2 * F - 1) < (n + 1) * C := by
      rw [← hn]; exact Nat.lt_mul_of_div_lt (Nat.lt_succ_self _) hCpos
    have x1 : 4 * C ≤ 2 ^ F + u.frac := by omega
    have x2 : 2 ^ F + u.frac ≤ 4 * C + 3 := by omega
    have hC2 : 4 * C ≤ 2 * 2 ^ F := by omega
    have hn2 : n < 2 * 2 ^ F := by rw [pow_succ] at rr; omega
    have p1 : (2 ^ F + u.frac) * n ≤ 2 * (2 ^ F * 2 ^ F) + 6 * 2 ^ F := by nlinarith
    have p2 : 2 * (2 ^ F * 2 ^ F) ≤ (2 ^ F + u.frac) * n + 2 * 2 ^ F := by nlinarith
    have q1 : ((2 ^ F + u.frac : ℕ) : ℚ) * n ≤ 2 * (((2 ^ F : ℕ) : ℚ) * (2 ^ F : ℕ)) + 6 * (2 ^ F : ℕ) := by exact_mod_cast p1
    have q2 : 2 * (((2 ^ F : ℕ) : ℚ) * (2 ^ F : ℕ)) ≤ ((2 ^ F + u.frac : ℕ) : ℚ) * n + 2 * (2 ^ F : ℕ) := by exact_mod_cast p2
    generalize mag F u.exp u.frac * mag F (-u.exp - 1) (n - 2 ^ F) = y at *
    generalize ((2 ^ F : ℕ) : ℚ) = P at *
    generalize ((2 ^ F + u.frac : ℕ) : ℚ) * n = Z at *
    rw [e3] at b2
    rw [abs_lt, e4]
    generalize (2 : ℚ) ^ (-F : ℤ) = d at *
    have hdd : 0 < d * d := by positivity
    have y1 : y ≤ 1 + 3 * d := by
      have : Z * (d * d) ≤ (2 * (P * P) + 6 * P) * (d * d) := mul_le_mul_of_nonneg_right q1 hdd.le
      have e : (2 * (P * P) + 6 * P) * (d * d) = 2 * (P * d) * (P * d) + 6 * (P * d) * d := by ring
      rw [e, hFd] at this
      linarith
    have y2 : 1 ≤ y + d := by
      have : 2 * (P * P) * (d * d) ≤ (Z + 2 * P) * (d * d) := mul_le_mul_of_nonneg_right q2 hdd.le
      have e : 2 * (P * P) * (d * d) = 2 * (P * d) * (P * d) := by ring
      have e' : (Z + 2 * P) * (d * d) = Z * (d * d) + 2 * (P * d) * d := by ring
      rw [e, e', hFd] at this
      linarith
    constructor <;> nlinarith

example : ∃ t r, Unp.inv 16 32 ⟨.regular, true, 3, 40001⟩ = .ok t ∧ Unp.mul 16 32 ⟨.regular, true, 3, 40001⟩ t = .ok r ∧
    |r.val 16 - 1| < 2 ^ (4 - (16 : ℕ) : ℤ) := by
  obtain ⟨t, r, h1, h2, -, h3, -⟩ := C68_mul_inv (F := 16) (E := 32) (u := ⟨.regular, true, 3, 40001⟩) (by norm_num) (by norm_num)
    (by decide) (by unfold InS; norm_num) (by unfold InS; norm_num)
  exact ⟨t, r, h1, h2, h3 (Or.inr (by norm_num))⟩

end Verif
