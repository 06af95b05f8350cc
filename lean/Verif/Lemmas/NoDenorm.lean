import Verif.Spec.TowardZero
import Verif.Lemmas.AnyFloat

/-! # Float formats declared without subnormals -/

namespace Verif
open Fmt

variable {F E eb fb eb1 fb1 eb2 fb2 : ℕ} {dn dn1 dn2 : Bool}

/-- the fraction with its leading one, cut for the least exponent -/
theorem extractDenorm_eq (hfb : 1 ≤ fb) (hfF : fb ≤ F) {D f : ℕ} (hD : fb < D) (hf : f < 2 ^ F) :
    Unp.extractDenorm F fb D f = .ok ((2 ^ F + f) / 2 ^ (F - fb + 1)) := by
  have hF : 1 ≤ F := by omega
  have h2 : 2 ^ F = 2 * 2 ^ (F - 1) := by rw [← pow_succ']; congr 1; omega
  have hor : Unp.leftmost F ||| f >>> 1 = (2 ^ F + f) / 2 := by
    have := Nat.two_pow_add_eq_or_of_lt (i := F - 1) (b := f / 2) (by omega) 1
    rw [mul_one] at this
    unfold Unp.leftmost
    rw [Nat.shiftRight_eq_div_pow, pow_one, ← this]
    omega
  have hlt : (2 ^ F + f) / 2 / 2 ^ (F - fb) < 2 ^ D := by
    rw [Nat.div_div_eq_div_mul, Nat.div_lt_iff_lt_mul (by positivity)]
    calc 2 ^ F + f < 2 ^ (F + 1) := by rw [pow_succ]; omega
      _ = 2 ^ fb * (2 * 2 ^ (F - fb)) := by rw [← pow_succ', ← pow_add]; congr 1; omega
      _ ≤ 2 ^ D * (2 * 2 ^ (F - fb)) := Nat.mul_le_mul_right _ (Nat.pow_le_pow_right (by norm_num) hD.le)
  have he : (2 ^ F + f) / 2 / 2 ^ (F - fb) = (2 ^ F + f) / 2 ^ (F - fb + 1) := by
    rw [Nat.div_div_eq_div_mul, pow_succ']
  unfold Unp.extractDenorm
  rw [hor, ← he]
  rcases Nat.lt_or_ge fb F with h | h
  · rw [if_pos h, shrU_ok (k := F - fb) (by omega) (by have := le_pw F; omega)]
    simp only [bind, Except.bind, pure, Except.pure]
    rw [Nat.mod_eq_of_lt hlt]
  · obtain rfl : fb = F := by omega
    rw [Nat.sub_self, pow_zero, Nat.div_one] at hlt ⊢
    rw [if_neg (by omega), Nat.mod_eq_of_lt hlt]
    obtain ⟨y, hy, hy2⟩ := shlU_ok_mod (w := D) (x := (2 ^ fb + f) / 2) (n := (fb : ℤ) - fb) (k := 0) (by omega)
      (by have := le_pw D; omega) (fun h32 => by have := pow_le_32 h32; omega)
    rw [hy]
    simp only [bind, Except.bind, pure, Except.pure]
    rw [hy2, pow_zero, mul_one, Nat.mod_eq_of_lt hlt]

/-- `pack_xfloati` below the normal range for formats without subnormals -/
theorem packFloat_below (heb : 2 ≤ eb) (hfb : 1 ≤ fb) (hfF : fb ≤ F) {s : Bool} {e : ℤ} {f k : ℕ} (hf : f < 2 ^ F)
    (hk : e + (2 ^ (eb - 1) - 1) = -(k : ℤ)) (hin : InS (max E (Unp.leastBits eb)) (e + (2 ^ (eb - 1) - 1))) :
    Unp.packFloat F E (.any eb fb false) ⟨.regular, s, e, f⟩ =
      if k < pw (eb + fb + 1) then .ok (fJoin eb fb s 0
        (if s = true ∧ (2 ^ F + f) / 2 ^ (F - fb + 1 + k) = 0 ∧ 32 ≤ eb + fb + 1 then 1 else (2 ^ F + f) / 2 ^ (F - fb + 1 + k)))
      else .error .shiftAmount := by
  rw [packFloat_any]
  simp only [bind, Except.bind, pure, Except.pure]
  generalize hEX : max E (Unp.leastBits eb) = EX at hin ⊢
  have hE1 : 1 ≤ EX := by
    rw [← hEX]
    have : 1 ≤ Unp.leastBits eb := by unfold Unp.leastBits; split_ifs <;> norm_num
    omega
  rw [arithS_ok' hin]
  simp only []
  rw [wrapS_of_inS hE1 hin, hk]
  have hh := pow_half (eb := eb) (by omega)
  have hB2 : (2 : ℤ) ≤ 2 ^ (eb - 1) := by exact_mod_cast two_le_pow heb
  rw [if_neg (by omega), if_neg (by simp), if_pos (by omega), extractDenorm_eq hfb hfF (by omega) hf]
  simp only []
  by_cases hkp : k < pw (eb + fb + 1)
  swap
  · rw [if_neg hkp]
    unfold shrU
    rw [if_pos (by omega)]
  rw [if_pos hkp, shrU_ok (k := k) (by omega) hkp]
  simp only []
  rw [Nat.div_div_eq_div_mul, ← pow_add]
  have hm : (2 ^ F + f) / 2 ^ (F - fb + 1 + k) < 2 ^ fb := by
    rw [Nat.div_lt_iff_lt_mul (by positivity), ← pow_add]
    calc 2 ^ F + f < 2 ^ (F + 1) := by rw [pow_succ]; omega
      _ ≤ _ := Nat.pow_le_pow_right (by norm_num) (by omega)
  generalize (2 ^ F + f) / 2 ^ (F - fb + 1 + k) = m at *
  have hfe : (2 : ℕ) ^ fb ≤ 2 ^ (eb + fb) := Nat.pow_le_pow_right (by norm_num) (by omega)
  have h4 : (4 : ℕ) ≤ 2 ^ (eb + fb) := by
    calc 4 = 2 ^ 2 := by norm_num
      _ ≤ _ := Nat.pow_le_pow_right (by norm_num) (by omega)
  have hps : (2 : ℕ) ^ (eb + fb + 1) = 2 * 2 ^ (eb + fb) := by rw [pow_succ']
  rw [Nat.mod_eq_of_lt (by omega : m < 2 ^ (eb + fb + 1)), Nat.or_zero]
  have hor : m ||| (if s then 2 ^ (eb + fb) else 0) = fJoin eb fb s 0 m := by
    unfold fJoin
    cases s
    · simp
    · simp only [if_true]
      have := Nat.two_pow_add_eq_or_of_lt (lt_of_lt_of_le hm hfe) 1
      rw [mul_one] at this
      rw [Nat.or_comm, ← this]; ring
  rw [hor]
  have hj0 : fJoin eb fb s 0 m = (if s then 2 ^ (eb + fb) else 0) + m := by unfold fJoin; rw [zero_mul, add_zero]
  have hsh : fJoin eb fb s 0 m * 2 % 2 ^ (eb + fb + 1) = 2 * m := by
    have e1 : fJoin eb fb s 0 m * 2 = 2 * m + 2 ^ (eb + fb + 1) * (if s then 1 else 0) := by
      rw [hj0, hps]
      cases s
      · simp; ring
      · simp; ring
    rw [e1, Nat.add_mul_mod_self_left]
    apply Nat.mod_eq_of_lt
    omega
  rw [hsh]
  by_cases hc : s = true ∧ m = 0 ∧ 32 ≤ eb + fb + 1
  · obtain ⟨rfl, rfl, h32⟩ := hc
    have hno : ¬ (eb + fb + 1 < 32) := by omega
    have hv : fJoin eb fb true 0 0 ≠ 0 := by rw [hj0]; simp
    rw [if_neg hno, if_pos ⟨hv, rfl⟩, if_pos ⟨rfl, rfl, h32⟩, hj0]
    unfold fJoin
    simp only [if_true]
    rw [Nat.mod_eq_of_lt (by omega), Nat.zero_mul]
  · rw [if_neg hc, if_neg]
    rintro ⟨h1, h2⟩
    split_ifs at h2 with h3
    · omega
    · have hm0 : m = 0 := by omega
      subst hm0
      cases s
      · rw [hj0] at h1; simp at h1
      · exact hc ⟨rfl, rfl, by omega⟩

/-- from the normal range on the flag does not matter -/
theorem packFloat_flag (heb : 2 ≤ eb) {s : Bool} {e : ℤ} {f : ℕ} (he : 1 - 2 ^ (eb - 1) < e)
    (hin : InS (max E (Unp.leastBits eb)) (e + (2 ^ (eb - 1) - 1))) :
    Unp.packFloat F E (.any eb fb false) ⟨.regular, s, e, f⟩ = Unp.packFloat F E (.any eb fb true) ⟨.regular, s, e, f⟩ := by
  have hE1 : 1 ≤ max E (Unp.leastBits eb) := by
    have : 1 ≤ Unp.leastBits eb := by unfold Unp.leastBits; split_ifs <;> norm_num
    omega
  rw [packFloat_any, packFloat_any]
  simp only [bind, Except.bind, pure, Except.pure]
  rw [arithS_ok' hin]
  simp only []
  rw [wrapS_of_inS hE1 hin]
  have c : ¬ (e + (2 ^ (eb - 1) - 1) < 1) := by omega
  have c1 : decide (e + (2 ^ (eb - 1) - 1) < 1) = false := by simp; omega
  rw [c1]
  simp only [Bool.false_and, Bool.false_eq_true, if_false]
  rfl

/-- the flag matters only for reading subnormals -/
theorem unpackFloat_flag (heb : 2 ≤ eb) (hfb : 1 ≤ fb) (hF : 1 ≤ F) (hE : eb < E) {b : ℕ} (h : fExp eb fb b ≠ 0) :
    Unp.unpackFloat F E (.any eb fb false) b = Unp.unpackFloat F E (.any eb fb true) b := by
  obtain ⟨e1, e2, e3⟩ := unpackFloat_fields (F := F) (by omega : 1 ≤ eb) hfb hF b
  have hlt := fExp_lt eb fb b
  rw [unpackFloat_any, unpackFloat_any]
  simp only [e1, e2, e3, bind, Except.bind, pure, Except.pure]
  rw [raw_small hE hlt, arithS_ok' (exp_arith (by omega) hE hlt)]
  simp only []
  have : ¬ ((fExp eb fb b : ℤ) = 0) := by exact_mod_cast h
  rw [if_neg this, if_neg this]

/-- a pattern with exponent field zero -/
theorem ieee_sub (heb : 1 ≤ eb) {s : Bool} {m : ℕ} (hm : m < 2 ^ fb) :
    ieee eb fb (fJoin eb fb s 0 m) = .num ((if s then -1 else 1 : ℚ) * (m * minSub eb fb)) := by
  have h2 : (2 : ℕ) ≤ 2 ^ eb := by
    calc 2 = 2 ^ 1 := by norm_num
      _ ≤ 2 ^ eb := Nat.pow_le_pow_right (by norm_num) heb
  rw [ieee_eq, fJoin_sign (by positivity) hm, fJoin_exp (by positivity) hm, fJoin_man hm, if_neg (by omega), if_pos rfl]
  rfl

theorem minSub_pos : 0 < minSub eb fb := by unfold minSub; positivity

/-- every float is a multiple of the least one -/
theorem ieee_multiple {g : ℕ} {z : ℚ} (hg : ieee eb fb g = .num z) : ∃ k : ℕ, |z| = k * minSub eb fb := by
  obtain ⟨-, ⟨-, hz⟩ | ⟨h0, hz⟩⟩ := ieee_num hg
  · exact ⟨_, (sub_abs hz).1⟩
  · obtain ⟨j, hj⟩ : ∃ j : ℕ, fExp eb fb g = j + 1 := ⟨fExp eb fb g - 1, by omega⟩
    refine ⟨(2 ^ fb + fMan fb g) * 2 ^ j, ?_⟩
    rw [hz, abs_sign_mul _ (by positivity), hj]
    unfold minSub
    push_cast
    rw [mul_assoc, ← zpow_natCast 2 j, ← zpow_add₀ (by norm_num)]
    congr 2
    ring

/-- cutting with subnormals agrees with cutting without from the least normal number on -/
theorem IsCut.towardZero {x : ℚ} {b : ℕ} (h : IsCut eb fb x b) (hn : minNorm eb ≤ |x|) : IsTowardZero eb fb x b := by
  obtain ⟨y, hy, -, h2⟩ := h
  obtain ⟨a1, a2, a3⟩ := h2 hn
  exact ⟨y, hy, a1.le, a2, a3⟩

theorem minNorm_eq : minNorm eb = 2 ^ fb * minSub eb fb := by
  unfold minNorm minSub
  rw [← zpow_natCast, ← zpow_add₀ (by norm_num)]
  congr 1
  ring

/-- packing a triple that is a number cut to `F` fraction bits, into a format declared without subnormals -/
theorem pack_noDenorm (heb : 2 ≤ eb) (heb16 : eb ≤ 16) (hfb : 1 ≤ fb) (hfF : fb ≤ F) {s : Bool} {e : ℤ} {f : ℕ} {X : ℚ}
    (hf : f < 2 ^ F) (he : |e| < 2 ^ 30) (hs : 0 < (if s then -1 else 1 : ℚ) * X) (h1 : mag F e f ≤ |X|)
    (h2 : |X| < mag F e f + 2 ^ (e - F)) :
    (1 - 2 ^ (eb - 1) - pw (eb + fb + 1) < e ∧ ∃ b, Unp.packFloat F 32 (.any eb fb false) ⟨.regular, s, e, f⟩ = .ok b ∧
      b < 2 ^ (eb + fb + 1) ∧ (¬ (X < 0 ∧ |X| < minSub eb fb ∧ 32 ≤ eb + fb + 1) → IsTowardZero eb fb X b) ∧
      (X < 0 → |X| < minSub eb fb → 32 ≤ eb + fb + 1 → ieee eb fb b = .num (-minSub eb fb))) ∨
    (e ≤ 1 - 2 ^ (eb - 1) - pw (eb + fb + 1) ∧ 
      Unp.packFloat F 32 (.any eb fb false) ⟨.regular, s, e, f⟩ = .error .shiftAmount) := by
  have hB := pow_16 heb16
  have hB2 : (2 : ℤ) ≤ 2 ^ (eb - 1) := by exact_mod_cast two_le_pow heb
  have two : (1 : ℚ) < 2 := by norm_num
  have hin : InS (max 32 (Unp.leastBits eb)) (e + (2 ^ (eb - 1) - 1)) := by
    rw [leastBits_16 heb16]
    apply inS_32
    rw [abs_lt] at he ⊢
    norm_num at he hB ⊢
    omega
  have hp0 := minSub_pos (eb := eb) (fb := fb)
  have h2fb : (2 : ℚ) ≤ 2 ^ fb := by
    calc (2 : ℚ) = 2 ^ 1 := by norm_num
      _ ≤ 2 ^ fb := pow_le_pow_right₀ (by norm_num) hfb
  rcases lt_or_ge (1 - 2 ^ (eb - 1)) e with hc | hc
  · -- the normal range
    left
    refine ⟨by have := Int.natCast_nonneg (pw (eb + fb + 1)); omega, ?_⟩
    obtain ⟨b, hb, hlt, hcut, -⟩ := pack_cut heb heb16 hfb (by omega) hf he hs h1 h2 (Or.inl hfF)
    have hn : minNorm eb ≤ |X| := by
      refine le_trans ?_ (h1)
      unfold minNorm mag
      refine le_trans (zpow_le_zpow_right₀ (by norm_num) (by omega : (2 : ℤ) - 2 ^ (eb - 1) ≤ e)) ?_
      have : (0 : ℚ) < 2 ^ e := by positivity
      have : (0 : ℚ) ≤ f / 2 ^ F := by positivity
      nlinarith
    refine ⟨b, by rw [packFloat_flag heb hc hin]; exact hb, hlt, fun _ => hcut.towardZero hn, fun _ h3 => ?_⟩
    rw [minNorm_eq (fb := fb)] at hn
    nlinarith
  · obtain ⟨k, hk⟩ := Int.eq_ofNat_of_zero_le (show 0 ≤ 1 - 2 ^ (eb - 1) - e by omega)
    have hk' : e + (2 ^ (eb - 1) - 1) = -(k : ℤ) := by omega
    rw [packFloat_below heb hfb hfF hf hk' hin]
    rcases Nat.lt_or_ge k (pw (eb + fb + 1)) with hkp | hkp
    swap
    · exact Or.inr ⟨by omega, if_neg (by omega)⟩
    left
    rw [if_pos hkp]
    refine ⟨by omega, _, rfl, ?_⟩
    have hm : (2 ^ F + f) / 2 ^ (F - fb + 1 + k) < 2 ^ fb := by
      rw [Nat.div_lt_iff_lt_mul (by positivity), ← pow_add]
      calc 2 ^ F + f < 2 ^ (F + 1) := by rw [pow_succ]; omega
        _ ≤ _ := Nat.pow_le_pow_right (by norm_num) (by omega)
    have d1 := Nat.div_mul_le_self (2 ^ F + f) (2 ^ (F - fb + 1 + k))
    have d2 := Nat.lt_div_mul_add (a := 2 ^ F + f) (b := 2 ^ (F - fb + 1 + k)) (by positivity)
    generalize (2 ^ F + f) / 2 ^ (F - fb + 1 + k) = m at *
    -- the number in units of the least subnormal
    have hu : minSub eb fb = 2 ^ (F - fb + 1 + k) * 2 ^ (e - F) := by
      unfold minSub
      rw [← zpow_natCast, ← zpow_add₀ (by norm_num)]
      congr 1
      push_cast [Nat.cast_sub hfF]
      omega
    have hmag : mag F e f = (2 ^ F + f : ℕ) * 2 ^ (e - F) := by
      unfold mag
      rw [zpow_sub₀ (by norm_num), zpow_natCast]
      push_cast; field_simp
    have l1 : (m : ℚ) * minSub eb fb ≤ |X| := by
      refine le_trans ?_ h1
      rw [hmag, hu, ← mul_assoc]
      apply mul_le_mul_of_nonneg_right _ (by positivity)
      exact_mod_cast d1
    have l2 : |X| < (m + 1) * minSub eb fb := by
      refine lt_of_lt_of_le h2 ?_
      rw [hmag, hu, ← mul_assoc, ← add_one_mul]
      apply mul_le_mul_of_nonneg_right _ (by positivity)
      have : 2 ^ F + f + 1 ≤ (m + 1) * 2 ^ (F - fb + 1 + k) := by rw [add_one_mul]; omega
      exact_mod_cast this
    have hsX : X = (if s then -1 else 1 : ℚ) * |X| := by
      cases s
      · simp at hs ⊢; rw [abs_of_pos hs]
      · simp at hs ⊢; rw [abs_of_neg hs]; ring
    have hXs : X < 0 ↔ s = true := by
      cases s
      · simp at hs ⊢; exact hs.le
      · simp at hs ⊢; exact hs
    have hm0 : |X| < minSub eb fb ↔ m = 0 := by
      constructor
      · intro h
        by_contra hne
        have : (1 : ℚ) ≤ m := by exact_mod_cast Nat.one_le_iff_ne_zero.mpr hne
        nlinarith
      · rintro rfl
        simpa using l2
    by_cases hc2 : s = true ∧ m = 0 ∧ 32 ≤ eb + fb + 1
    · rw [if_pos hc2]
      have h1lt : 1 < 2 ^ fb := by
        calc 1 < 2 ^ 1 := by norm_num
          _ ≤ 2 ^ fb := Nat.pow_le_pow_right (by norm_num) hfb
      refine ⟨fJoin_lt (by positivity) h1lt, fun h => absurd ⟨hXs.mpr hc2.1, hm0.mpr hc2.2.1, hc2.2.2⟩ h, fun _ _ _ => ?_⟩
      rw [ieee_sub (by omega) h1lt, hc2.1]
      simp
    · rw [if_neg hc2]
      refine ⟨fJoin_lt (by positivity) hm, fun _ => ⟨_, ieee_sub (by omega) hm, ?_, ?_, ?_⟩, fun a1 a2 a3 =>
        absurd ⟨hXs.mp a1, hm0.mp a2, a3⟩ hc2⟩
      · rw [hsX]
        have : 0 ≤ |X| * (m * minSub eb fb) := by positivity
        cases s <;> simp <;> linarith
      · rw [abs_sign_mul _ (by positivity)]; exact l1
      · intro g z hg hz
        rw [abs_sign_mul _ (by positivity)]
        obtain ⟨n, hn⟩ := ieee_multiple hg
        rw [hn] at hz ⊢
        have : n < m + 1 := by
          have h5 := lt_of_le_of_lt hz l2
          have h6 := lt_of_mul_lt_mul_right h5 hp0.le
          exact_mod_cast h6
        apply mul_le_mul_of_nonneg_right _ hp0.le
        exact_mod_cast Nat.lt_succ_iff.mp this

end Verif
