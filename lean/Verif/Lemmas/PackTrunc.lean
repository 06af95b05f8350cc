import Verif.Lemmas.Pack
import Verif.Spec.Safe

/-! # `pack_posit` truncates -/

namespace Verif
open Fmt

variable {c : Cfg}

theorem lt_two_pow_sub {n : ℕ} (hn : 3 ≤ n) : n - 2 ≤ 2 ^ (n - 3) := by
  induction n, hn using Nat.le_induction with
  | base => norm_num
  | succ n hn ih =>
    rw [show n + 1 - 3 = (n - 3) + 1 by omega, pow_succ]
    have := Nat.one_le_two_pow (n := n - 3)
    omega

/-- the scale of the format fits the exponent type with room to spare -/
theorem scale_bound (h : c.WF) : 2 ^ c.es * (c.N - 2) ≤ 2 ^ (c.E - 4) := by
  have hes := h.hes
  have hN := h.hN
  calc 2 ^ c.es * (c.N - 2) ≤ 2 ^ c.es * 2 ^ (c.N - 3) := Nat.mul_le_mul_left _ (lt_two_pow_sub h.N_ge)
    _ = 2 ^ (c.es + (c.N - 3)) := by rw [pow_add]
    _ ≤ 2 ^ (c.E - 4) := Nat.pow_le_pow_right (by norm_num) (by unfold Cfg.E; split_ifs <;> omega)

theorem E_ge (h : c.WF) : 8 ≤ c.E := by
  have := h.H_pos; unfold Cfg.E; split_ifs <;> omega

theorem maxScale_bound (h : c.WF) : (c.maxScale : ℤ) * 8 ≤ 2 ^ (c.E - 1) := by
  have h1 := scale_bound h
  have h2 := E_ge h
  have : (2 : ℤ) ^ (c.E - 1) = 2 ^ (c.E - 4) * 8 := by
    rw [show c.E - 1 = (c.E - 4) + 3 by omega, pow_add]; norm_num
  rw [this]
  have : (c.maxScale : ℤ) ≤ 2 ^ (c.E - 4) := by unfold Cfg.maxScale; exact_mod_cast h1
  linarith

theorem maxScale_pos (h : c.WF) : 1 ≤ c.maxScale := by
  have := h.N_ge
  unfold Cfg.maxScale
  exact Nat.mul_pos (by positivity) (by omega)

theorem inS_E (h : c.WF) {x : ℤ} (hx : |x| ≤ 3 * c.maxScale) : InS c.E x := by
  have h1 := maxScale_bound h
  have h2 := maxScale_pos h
  rw [abs_le] at hx
  unfold InS; constructor <;> omega

/-- two more than the scale range still fits (results of exponent arithmetic) -/
theorem inS_E' (h : c.WF) {x : ℤ} (hx : |x| ≤ 3 * c.maxScale + 2) : InS c.E x := by
  have h1 := maxScale_bound h
  have h2 := maxScale_pos h
  have h3 : (8 : ℤ) * 16 ≤ 2 ^ (c.E - 1) := by
    have := E_ge h
    calc (8 : ℤ) * 16 = 2 ^ 7 := by norm_num
      _ ≤ 2 ^ (c.E - 1) := pow_le_pow_right₀ (by norm_num) (by omega)
  rw [abs_le] at hx
  unfold InS; constructor <;> omega

theorem minexponent_eq (h : c.WF) : c.minexponent = -(c.maxScale : ℤ) := by
  have hN := h.N_ge
  have e : -(c.regScale : ℤ) * ((c.N : ℤ) - 2) = -(c.maxScale : ℤ) := by
    unfold Cfg.regScale Cfg.maxScale; push_cast [Nat.cast_sub (show 2 ≤ c.N by omega)]; ring
  unfold Cfg.minexponent
  rw [e]
  have := E_ge h
  exact wrapS_of_inS (by omega) (inS_E h (by rw [abs_neg, abs_of_nonneg] <;> omega))

theorem maxexponent_eq (h : c.WF) :
    c.maxexponent = if c.spec = .withNanInf then (c.maxScale : ℤ) - 2 ^ c.es else (c.maxScale : ℤ) := by
  have hN := h.N_ge
  have hp : (1 : ℤ) ≤ 2 ^ c.es := one_le_pow₀ (by norm_num)
  have hle : (2 : ℤ) ^ c.es ≤ c.maxScale := by
    have : 2 ^ c.es * 1 ≤ c.maxScale := Nat.mul_le_mul_left _ (by omega)
    rw [mul_one] at this
    exact_mod_cast this
  have e : (if c.spec = .withNanInf then (c.regScale : Int) * ((c.N : Int) - 3) else c.regScale * ((c.N : Int) - 2)) =
      if c.spec = .withNanInf then (c.maxScale : ℤ) - 2 ^ c.es else (c.maxScale : ℤ) := by
    unfold Cfg.regScale Cfg.maxScale
    split_ifs <;> (push_cast [Nat.cast_sub (show 2 ≤ c.N by omega)]; ring)
  unfold Cfg.maxexponent
  rw [e]
  have := E_ge h
  apply wrapS_of_inS (by omega) (inS_E h _)
  split_ifs <;> rw [abs_of_nonneg] <;> omega

theorem castMsb_eq {a b x : ℕ} (ha : 8 ≤ a) (hb : b = 8 ∨ b = 16 ∨ b = 32 ∨ b = 64) (hx : x < 2 ^ a) :
    Posit.castMsb a b x = .ok (x * 2 ^ b / 2 ^ a) := by
  have hpa := le_pw a
  have hpb := le_pw b
  unfold Posit.castMsb
  split_ifs with hab
  · rw [shrU_ok (k := a - b) (by omega) (by omega)]
    simp only [bind, Except.bind, pure, Except.pure]
    have e : (2:ℕ) ^ a = 2 ^ (a - b) * 2 ^ b := by rw [← pow_add]; congr 1; omega
    rw [e, Nat.mul_div_mul_right _ _ (by positivity), Nat.mod_eq_of_lt]
    rw [Nat.div_lt_iff_lt_mul (by positivity), mul_comm, ← e]; exact hx
  · have e : (2:ℕ) ^ b = 2 ^ a * 2 ^ (b - a) := by rw [← pow_add]; congr 1; omega
    have hxb : x < 2 ^ b := lt_of_lt_of_le hx (Nat.pow_le_pow_right (by norm_num) (by omega))
    have hlt : x * 2 ^ (b - a) < 2 ^ b := by rw [e]; exact Nat.mul_lt_mul_of_pos_right hx (by positivity)
    rw [Nat.mod_eq_of_lt hxb]
    obtain ⟨y, hy1, hy2⟩ := shlU_ok_mod (w := b) (x := x) (n := (b : Int) - a) (k := b - a) (by omega) (by omega)
      (fun hw => lt_trans hlt (Nat.pow_lt_pow_right (by norm_num) hw))
    rw [hy1]
    simp only [bind, Except.bind, pure, Except.pure]
    rw [hy2, Nat.mod_eq_of_lt hlt, e, mul_left_comm, Nat.mul_div_cancel_left _ (by positivity)]

theorem splitRegExp_eq (h : c.WF) {e : ℤ} (h1 : -(c.maxScale : ℤ) ≤ e) (h2 : e ≤ c.maxScale) :
    Posit.splitRegExp c e = (e / 2 ^ c.es, (e % 2 ^ c.es).toNat) := by
  have hp : (0 : ℤ) < 2 ^ c.es := by positivity
  have hN3 := h.N_ge
  have hN := h.hN
  have hes := h.hes
  unfold Posit.splitRegExp Cfg.espMask
  have hms : (c.maxScale : ℤ) = 2 ^ c.es * ((c.N : ℤ) - 2) := by
    unfold Cfg.maxScale; push_cast [Nat.cast_sub (show 2 ≤ c.N by omega)]; ring
  have hb1 : -((c.N : ℤ) - 2) ≤ e / 2 ^ c.es := by
    rw [Int.le_ediv_iff_mul_le hp]; rw [hms] at h1; linarith
  have hb2 : e / 2 ^ c.es < (c.N : ℤ) - 1 := by
    rw [Int.ediv_lt_iff_lt_mul hp]; rw [hms] at h2; nlinarith
  have hNP : (c.N : ℤ) < 2 ^ (c.N - 1) := by
    have := lt_two_pow_sub (n := c.N) hN3
    have e4 : 2 ^ (c.N - 1) = 4 * 2 ^ (c.N - 3) := by
      rw [show c.N - 1 = (c.N - 3) + 2 by omega, pow_add]; omega
    zify at *
    push_cast [Nat.cast_sub (show 2 ≤ c.N by omega)] at this
    omega
  have hP := h.pow_le
  congr 1
  · exact wrapS_of_inS (by have := h.H_pos; omega) (by unfold InS; omega)
  · rw [Nat.and_two_pow_sub_one_eq_mod]
    have hle : c.es ≤ pw c.E := by
      have := le_pw32 c.E
      have := h.hes30
      omega
    have e1 : wrapU (pw c.E) e % 2 ^ c.es = (e % 2 ^ c.es).toNat := by
      unfold wrapU
      zify
      rw [Int.toNat_of_nonneg (Int.emod_nonneg _ (by positivity)), Int.toNat_of_nonneg (Int.emod_nonneg _ (by positivity))]
      exact Int.emod_emod_of_dvd _ (pow_dvd_pow _ hle)
    rw [e1, Nat.mod_eq_of_lt]
    have := Int.emod_lt_of_pos e hp
    have := Int.emod_nonneg e hp.ne'
    have : (2 : ℤ) ^ c.es ≤ 2 ^ c.H := pow_le_pow_right₀ (by norm_num) (by omega)
    zify
    rw [Int.toNat_of_nonneg (by assumption)]
    omega

theorem maxScale_eq (h : c.WF) : (c.maxScale : ℤ) = 2 ^ c.es * ((c.N : ℤ) - 2) := by
  have := h.N_ge
  unfold Cfg.maxScale; push_cast [Nat.cast_sub (show 2 ≤ c.N by omega)]; ring

theorem two_pow_es_le (h : c.WF) : (2 : ℤ) ^ c.es ≤ c.maxScale := by
  have := h.N_ge
  have : 2 ^ c.es * 1 ≤ c.maxScale := Nat.mul_le_mul_left _ (by omega)
  rw [mul_one] at this
  exact_mod_cast this

theorem topExp_le (h : c.WF) : c.topExp ≤ c.maxScale := by
  have : (1 : ℤ) ≤ 2 ^ c.es := one_le_pow₀ (by norm_num)
  unfold Cfg.topExp; split_ifs <;> omega

theorem topExp_nonneg (h : c.WF) : 0 ≤ c.topExp := by
  have := two_pow_es_le h
  unfold Cfg.topExp; split_ifs <;> omega

/-- the regime of an exponent in range -/
theorem reg_range (h : c.WF) {e : ℤ} (h1 : -(c.maxScale : ℤ) ≤ e) (h2 : e ≤ c.topExp) :
    -((c.N : ℤ) - 2) ≤ e / 2 ^ c.es ∧ e / 2 ^ c.es < (c.N : ℤ) - 1 := by
  have hp : (0 : ℤ) < 2 ^ c.es := by positivity
  have hms := maxScale_eq h
  have htop := topExp_le h
  constructor
  · rw [Int.le_ediv_iff_mul_le hp]; rw [hms] at h1; linarith
  · rw [Int.ediv_lt_iff_lt_mul hp]
    have : e ≤ c.maxScale := by omega
    rw [hms] at this; nlinarith

theorem Cfg.PackSafe.shifts (h : c.WF) {e : ℤ} (hs : c.PackSafe e) (h1 : -(c.maxScale : ℤ) ≤ e) (h2 : e ≤ c.topExp) :
    kOf (e / 2 ^ c.es) + 1 ≤ c.N ∧ kOf (e / 2 ^ c.es) + 2 < pw c.H ∧
      min c.N (kOf (e / 2 ^ c.es) + 2 + c.es) < pw c.H := by
  have hp : (0 : ℤ) < 2 ^ c.es := by positivity
  have hN3 := h.N_ge
  obtain ⟨hb1, hb2⟩ := reg_range h h1 h2
  have hk : kOf (e / 2 ^ c.es) + 1 ≤ c.N := by unfold kOf; split_ifs <;> omega
  have hs1 : -(c.packBound : ℤ) ≤ e := by unfold Cfg.PackSafe at hs; omega
  have hs2 : e < c.packBound := by unfold Cfg.PackSafe at hs; omega
  obtain ⟨Q, hQ⟩ : ∃ Q, Q = pw c.H - 3 - (if c.N < pw c.H then 0 else c.es) := ⟨_, rfl⟩
  have hB : (c.packBound : ℤ) = 2 ^ c.es * Q := by unfold Cfg.packBound; rw [← hQ]; push_cast; rfl
  rw [hB] at hs1 hs2
  have hq1 : -(Q : ℤ) ≤ e / 2 ^ c.es := by
    rw [Int.le_ediv_iff_mul_le hp]; linarith
  have hq2 : e / 2 ^ c.es < Q := by
    rw [Int.ediv_lt_iff_lt_mul hp]; linarith
  have : kOf (e / 2 ^ c.es) ≤ Q := by unfold kOf; split_ifs <;> omega
  have : 1 ≤ kOf (e / 2 ^ c.es) := by unfold kOf; split_ifs <;> omega
  refine ⟨hk, ?_, ?_⟩ <;> split_ifs at hQ <;> omega

theorem packSafe_of_narrow (h : c.WF) (hN : c.N + 1 < pw c.H) (e : ℤ) : c.PackSafe e := by
  have hp : (0 : ℤ) < 2 ^ c.es := by positivity
  have hN3 := h.N_ge
  have h1 : (c.maxScale : ℤ) < c.packBound := by
    rw [maxScale_eq h]
    unfold Cfg.packBound
    rw [if_pos (by omega)]
    push_cast [Nat.cast_sub (show 3 ≤ pw c.H by omega)]
    apply mul_lt_mul_of_pos_left _ hp
    omega
  have h2 := topExp_le h
  exact ⟨Or.inr (by omega), Or.inr (by omega)⟩

theorem safeMag_of_narrow (h : c.WF) (hN : c.N + 1 < pw c.H) (y : ℚ) : c.SafeMag y := by
  have h1 := packSafe_of_narrow h hN (c.packBound : ℤ)
  have h2 := packSafe_of_narrow h hN (-(c.packBound : ℤ) - 1)
  unfold Cfg.PackSafe at h1 h2
  exact ⟨Or.inr (by omega), Or.inr (by omega)⟩

/-- a magnitude is safe as soon as its binary exponent is -/
theorem packSafe_of_safeMag {y : ℚ} (hs : c.SafeMag y) {e : ℤ} (h1 : (2 : ℚ) ^ e ≤ |y|) (h2 : |y| < 2 ^ (e + 1)) :
    c.PackSafe e := by
  refine ⟨hs.1.imp_left fun h => ?_, hs.2.imp_left fun h => ?_⟩
  · have := (zpow_lt_zpow_iff_right₀ (by norm_num : (1 : ℚ) < 2)).mp (lt_of_le_of_lt h h2)
    omega
  · exact (zpow_lt_zpow_iff_right₀ (by norm_num : (1 : ℚ) < 2)).mp (lt_of_le_of_lt h1 h)

theorem safeMag_of_packSafe {y : ℚ} {e : ℤ} (h1 : (2 : ℚ) ^ e ≤ |y|) (h2 : |y| < 2 ^ (e + 1)) (hs : c.PackSafe e) :
    c.SafeMag y := by
  refine ⟨hs.1.imp_left fun h => ?_, hs.2.imp_left fun h => ?_⟩
  · exact le_trans (zpow_le_zpow_right₀ (by norm_num) h) h1
  · exact lt_of_lt_of_le h2 (zpow_le_zpow_right₀ (by norm_num) (by omega))

theorem dec_one (h : c.WF) : Dec (c.N - 1) 1 (-((c.N : ℤ) - 2)) 0 0 := by
  have := h.N_ge
  exact ⟨by norm_num, Or.inl ⟨by omega, by omega, by norm_num⟩⟩

theorem posVal_one (h : c.WF) : posVal c.N c.es 1 = 2 ^ (-(c.maxScale : ℤ)) := by
  have := h.N_ge
  rw [(dec_one h).posVal (es := c.es), ← L_intCast]
  congr 1
  unfold Cfg.maxScale
  push_cast [Nat.cast_sub (show 2 ≤ c.N by omega)]
  ring

theorem posVal_maxBody (h : c.WF) : posVal c.N c.es c.fmt.maxBody = 2 ^ c.topExp := by
  have hN := h.N_ge
  have hms : (c.maxScale : ℤ) = 2 ^ c.es * ((c.N : ℤ) - 2) := by
    unfold Cfg.maxScale; push_cast [Nat.cast_sub (show 2 ≤ c.N by omega)]; ring
  have h2 : 4 ≤ 2 ^ (c.N - 1) := by have := h.pow_ge; exact_mod_cast this
  unfold Cfg.topExp Format.maxBody
  simp only [Cfg.fmt]
  by_cases hs : c.spec = .withNanInf
  · simp only [hs, decide_true, if_true]
    have hd : Dec (c.N - 1) (2 ^ (c.N - 1) - 2) ((c.N : ℤ) - 3) 0 0 :=
      ⟨by norm_num, Or.inr (Or.inl ⟨by omega, by omega, by omega⟩)⟩
    rw [hd.posVal (es := c.es), ← L_intCast, hms]
    congr 1
    push_cast
    ring
  · simp only [hs, decide_false, if_false, Bool.false_eq_true]
    have hd : Dec (c.N - 1) (2 ^ (c.N - 1) - 1) ((c.N : ℤ) - 2) 0 0 :=
      ⟨by norm_num, Or.inr (Or.inr ⟨by omega, by omega, rfl, rfl, rfl⟩)⟩
    rw [hd.posVal (es := c.es), ← L_intCast, hms]
    congr 1
    push_cast
    ring

theorem one_le_maxBody (h : c.WF) : 1 ≤ c.fmt.maxBody := by
  have h2 : 4 ≤ 2 ^ (c.N - 1) := by have := h.pow_ge; exact_mod_cast this
  unfold Format.maxBody
  simp only [fmt_N]
  split_ifs <;> omega

/-- floor characterisation of a body with `m` bits after the regime -/
theorem packBody_le_iff (h : c.WF) {reg : ℤ} {X Fb : ℕ} (hX : X < 2 ^ (c.es + Fb)) (hk : kOf reg + 2 ≤ c.N) (q : ℕ) :
    q ≤ (if reg < 0 then 2 ^ (c.N - 2 - kOf reg) else 2 ^ (c.N - 1) - 2 ^ (c.N - 2 - kOf reg + 1)) +
      X * 2 ^ (c.N - 2 - kOf reg) / 2 ^ (c.es + Fb) ↔
    (q : ℚ) ≤ 2 ^ (c.N - 1) * G (reg + (X : ℚ) / 2 ^ (c.es + Fb)) := by
  have hN3 := h.N_ge
  obtain ⟨m, hm⟩ : ∃ m, kOf reg + 2 + m = c.N := ⟨c.N - (kOf reg + 2), by omega⟩
  have hmm : c.N - 2 - kOf reg = m := by omega
  rw [hmm]
  have hx0 : (0 : ℚ) ≤ (X : ℚ) / 2 ^ (c.es + Fb) := by positivity
  have hx1 : (X : ℚ) / 2 ^ (c.es + Fb) < 1 := by
    rw [div_lt_one (by positivity)]; exact_mod_cast hX
  -- generic: q ≤ R + ⌊A/B⌋ ↔ q ≤ R + A/B
  have gen : ∀ R : ℕ, q ≤ R + X * 2 ^ m / 2 ^ (c.es + Fb) ↔
      (q : ℚ) ≤ R + (X : ℚ) * 2 ^ m / 2 ^ (c.es + Fb) := by
    intro R
    have hB : (0 : ℚ) < 2 ^ (c.es + Fb) := by positivity
    have e1 : q ≤ R + X * 2 ^ m / 2 ^ (c.es + Fb) ↔ q - R ≤ X * 2 ^ m / 2 ^ (c.es + Fb) := by
      generalize X * 2 ^ m / 2 ^ (c.es + Fb) = D; omega
    rw [e1, Nat.le_div_iff_mul_le (by positivity)]
    rcases le_total q R with hqR | hqR
    · rw [Nat.sub_eq_zero_of_le hqR, zero_mul]
      have : (q : ℚ) ≤ R := by exact_mod_cast hqR
      have : (0 : ℚ) ≤ (X : ℚ) * 2 ^ m / 2 ^ (c.es + Fb) := by positivity
      constructor
      · intro; linarith
      · intro; omega
    · rw [← sub_le_iff_le_add', le_div_iff₀ hB, ← Nat.cast_sub hqR]
      exact_mod_cast Iff.rfl
  rw [apply_ite (· + X * 2 ^ m / 2 ^ (c.es + Fb)), apply_ite (q ≤ ·)]
  have hc : ((2 ^ (c.N - 1) - 2 ^ (m + 1) : ℕ) : ℚ) = 2 ^ (c.N - 1) - 2 ^ (m + 1) := by
    rw [Nat.cast_sub (Nat.pow_le_pow_right (by norm_num) (by omega))]; push_cast; rfl
  split_ifs with hr
  · rw [gen]
    have hke : reg = -(kOf reg : ℤ) := by unfold kOf; rw [if_pos hr]; omega
    have hk1 : 1 ≤ kOf reg := by omega
    have := G_neg (kOf reg) hk1 hx0 hx1
    have hke' : (reg : ℚ) = -(kOf reg : ℚ) := by exact_mod_cast hke
    rw [hke', this]
    have e : (2 : ℚ) ^ (c.N - 1) * ((1 + (X : ℚ) / 2 ^ (c.es + Fb)) / 2 ^ (kOf reg + 1)) =
        ((2 ^ m : ℕ) : ℚ) + (X : ℚ) * 2 ^ m / 2 ^ (c.es + Fb) := by
      rw [show c.N - 1 = m + (kOf reg + 1) by omega, pow_add _ m]
      push_cast
      field_simp
    rw [e]
  · rw [gen]
    obtain ⟨r, hrr⟩ : ∃ r : ℕ, reg = r := ⟨reg.toNat, by omega⟩
    have hke : kOf reg = r + 1 := by unfold kOf; rw [if_neg hr]; omega
    have := G_nonneg r hx0 hx1
    have hke' : (reg : ℚ) = (r : ℚ) := by exact_mod_cast hrr
    rw [hke', this, hc]
    have e : (2 : ℚ) ^ (c.N - 1) * (1 - (2 - (X : ℚ) / 2 ^ (c.es + Fb)) / 2 ^ (r + 2)) =
        2 ^ (c.N - 1) - 2 ^ (m + 1) + (X : ℚ) * 2 ^ m / 2 ^ (c.es + Fb) := by
      rw [show c.N - 1 = m + (r + 2) by omega, pow_add _ m (r + 2), pow_succ _ m]
      field_simp
      ring
    rw [e]

theorem packBody_X (h : c.WF) {reg : ℤ} {x f : ℕ} (hk : kOf reg + 2 ≤ c.N) :
    packBody c reg (x * 2 ^ c.H + f * 2 ^ c.H / 2 ^ c.F) =
      (if reg < 0 then 2 ^ (c.N - 2 - kOf reg) else 2 ^ (c.N - 1) - 2 ^ (c.N - 2 - kOf reg + 1)) +
      (x * 2 ^ c.F + f) * 2 ^ (c.N - 2 - kOf reg) / 2 ^ (c.es + c.F) := by
  have hN := h.hN
  have hN3 := h.N_ge
  have hk1 : 1 ≤ kOf reg := by unfold kOf; split_ifs <;> omega
  unfold packBody
  rw [if_pos hk]
  congr 1
  obtain ⟨m, hm⟩ : ∃ m, kOf reg + 2 + m = c.N := ⟨c.N - (kOf reg + 2), by omega⟩
  have hmm : c.N - 2 - kOf reg = m := by omega
  rw [hmm]
  have e1 : x * 2 ^ c.H + f * 2 ^ c.H / 2 ^ c.F = (x * 2 ^ c.F + f) * 2 ^ c.H / 2 ^ c.F := by
    rw [show (x * 2 ^ c.F + f) * 2 ^ c.H = 2 ^ c.F * (x * 2 ^ c.H) + f * 2 ^ c.H by ring,
      Nat.mul_add_div (by positivity)]
  rw [e1, show c.es + c.H = (c.es + (c.H - m)) + m by omega, pow_add _ _ m,
    Nat.mul_div_mul_right _ _ (by positivity), Nat.div_div_eq_div_mul, ← pow_add]
  rw [show c.F + (c.es + (c.H - m)) = (c.es + c.F) + (c.H - m) by omega, pow_add _ _ (c.H - m),
    show (x * 2 ^ c.F + f) * 2 ^ c.H = (x * 2 ^ c.F + f) * 2 ^ m * 2 ^ (c.H - m) by
      rw [mul_assoc, ← pow_add]; congr 2; omega,
    Nat.mul_div_mul_right _ _ (by positivity)]

/-- packing of an exponent in the range of the format -/
theorem packBody_trunc (h : c.WF) {e : ℤ} {f : ℕ} (hf : f < 2 ^ c.F) (h1 : -(c.maxScale : ℤ) ≤ e) (h2 : e ≤ c.topExp) :
    c.fmt.TruncB (2 ^ e * (1 + (f : ℚ) / 2 ^ c.F))
      (packBody c (e / 2 ^ c.es) ((e % 2 ^ c.es).toNat * 2 ^ c.H + f * 2 ^ c.H / 2 ^ c.F)) := by
  have hp : (0 : ℤ) < 2 ^ c.es := by positivity
  have hN3 := h.N_ge
  have hms : (c.maxScale : ℤ) = 2 ^ c.es * ((c.N : ℤ) - 2) := by
    unfold Cfg.maxScale; push_cast [Nat.cast_sub (show 2 ≤ c.N by omega)]; ring
  have hM4 : 4 ≤ 2 ^ (c.N - 1) := by have := h.pow_ge; exact_mod_cast this
  have htop : c.topExp ≤ c.maxScale := by unfold Cfg.topExp; split_ifs <;> omega
  set reg := e / 2 ^ c.es with hreg
  set x := (e % 2 ^ c.es).toNat with hx
  have hxe : (x : ℤ) = e % 2 ^ c.es := Int.toNat_of_nonneg (Int.emod_nonneg _ hp.ne')
  have hxl : x < 2 ^ c.es := by
    zify; rw [hxe]; exact Int.emod_lt_of_pos _ hp
  have hdm : e = 2 ^ c.es * reg + x := by rw [hxe]; exact (Int.mul_ediv_add_emod e (2 ^ c.es)).symm
  have hb1 : -((c.N : ℤ) - 2) ≤ reg := by
    rw [hreg, Int.le_ediv_iff_mul_le hp]; rw [hms] at h1; linarith
  have hb2 : reg < (c.N : ℤ) - 1 := by
    rw [hreg, Int.ediv_lt_iff_lt_mul hp]
    have : e ≤ c.maxScale := by omega
    rw [hms] at this; nlinarith
  have hX : x * 2 ^ c.F + f < 2 ^ (c.es + c.F) := by
    rw [pow_add]
    have : (x + 1) * 2 ^ c.F ≤ 2 ^ c.es * 2 ^ c.F := Nat.mul_le_mul_right _ hxl
    rw [Nat.add_mul] at this
    omega
  have hy : (2 : ℚ) ^ e * (1 + (f : ℚ) / 2 ^ c.F) =
      L (2 ^ c.es * (reg + ((x * 2 ^ c.F + f : ℕ) : ℚ) / 2 ^ (c.es + c.F))) := by
    have hf0 : (0 : ℚ) ≤ (f : ℚ) / 2 ^ c.F := by positivity
    have hf1 : (f : ℚ) / 2 ^ c.F < 1 := by
      rw [div_lt_one (by positivity)]; exact_mod_cast hf
    rw [← L_int_add e hf0 hf1]
    congr 1
    have : (e : ℚ) = 2 ^ c.es * reg + x := by exact_mod_cast hdm
    rw [this, pow_add]
    push_cast
    field_simp
    ring
  have hbody := packBody_lt h (reg := reg) (W := x * 2 ^ c.H + f * 2 ^ c.H / 2 ^ c.F) (by
    have : f * 2 ^ c.H / 2 ^ c.F < 2 ^ c.H := by
      rw [Nat.div_lt_iff_lt_mul (by positivity), mul_comm]
      exact Nat.mul_lt_mul_of_pos_left hf (by positivity)
    rw [pow_add]
    have h3 : (x + 1) * 2 ^ c.H ≤ 2 ^ c.es * 2 ^ c.H := Nat.mul_le_mul_right _ hxl
    rw [Nat.add_mul] at h3
    omega)
  by_cases hk : kOf reg + 2 ≤ c.N
  · have hiff := packBody_le_iff h hX hk
    have hpX := packBody_X h (reg := reg) (x := x) (f := f) hk
    rw [← hpX] at hiff
    set p := packBody c reg (x * 2 ^ c.H + f * 2 ^ c.H / 2 ^ c.F) with hpdef
    have hkey : ∀ q, 1 ≤ q → q < 2 ^ (c.N - 1) → (q ≤ p ↔ posVal c.N c.es q ≤ 2 ^ e * (1 + (f : ℚ) / 2 ^ c.F)) := by
      intro q hq1 hq2
      rw [hiff q, hy, posVal_le_L_iff hq1 hq2]
    have hdiv : (x * 2 ^ c.F + f) * 2 ^ (c.N - 2 - kOf reg) / 2 ^ (c.es + c.F) < 2 ^ (c.N - 2 - kOf reg) := by
      rw [Nat.div_lt_iff_lt_mul (by positivity), mul_comm]
      exact Nat.mul_lt_mul_of_pos_left hX (by positivity)
    have hp1 : 1 ≤ p := by
      rw [hpX]
      refine le_trans ?_ (Nat.le_add_right _ _)
      have := Nat.one_le_two_pow (n := c.N - 2 - kOf reg)
      have hk1 : 1 ≤ kOf reg := by unfold kOf; split_ifs <;> omega
      have h5 : 2 ^ (c.N - 2 - kOf reg + 1) ≤ 2 ^ (c.N - 2) := Nat.pow_le_pow_right (by norm_num) (by omega)
      have h6 : 2 ^ (c.N - 1) = 2 * 2 ^ (c.N - 2) := two_pow_pred_nat (w := c.N - 1) (by omega)
      split_ifs <;> omega
    have hpm : p ≤ c.fmt.maxBody := by
      unfold Format.maxBody
      simp only [Cfg.fmt]
      by_cases hs : c.spec = .withNanInf
      · simp only [hs, decide_true, if_true]
        rw [hpX]
        unfold Cfg.topExp at h2
        rw [if_pos hs] at h2
        split_ifs with hr
        · -- below one
          have hk1 : 1 ≤ kOf reg := by unfold kOf; split_ifs; omega
          have h5 : 2 ^ (c.N - 2 - kOf reg + 1) ≤ 2 ^ (c.N - 2) := Nat.pow_le_pow_right (by norm_num) (by omega)
          have h6 : 2 ^ (c.N - 1) = 2 * 2 ^ (c.N - 2) := two_pow_pred_nat (w := c.N - 1) (by omega)
          rw [pow_succ] at h5
          omega
        · have hkr : (kOf reg : ℤ) = reg + 1 := by unfold kOf; rw [if_neg hr]; omega
          rcases Nat.eq_zero_or_pos (c.N - 2 - kOf reg) with hm0 | hm0
          · rw [hm0] at hdiv ⊢
            simp at hdiv ⊢
            have := Nat.div_eq_of_lt hX
            omega
          · have h5 : 2 ^ (c.N - 2 - kOf reg + 1) ≤ 2 ^ (c.N - 1) := Nat.pow_le_pow_right (by norm_num) (by omega)
            have h7 : 2 ^ 1 ≤ 2 ^ (c.N - 2 - kOf reg) := Nat.pow_le_pow_right (by norm_num) hm0
            rw [pow_succ] at h5 ⊢
            omega
      · simp only [hs, decide_false, if_false, Bool.false_eq_true]
        omega
    have hml := Format.maxBody_lt c.fmt
    refine ⟨hp1, hpm, fun q hq1 hq2 hq => (hkey q hq1 (lt_of_le_of_lt hq2 hml)).mpr hq, Or.inl ?_⟩
    exact (hkey p hp1 hbody).mp le_rfl
  · -- regime N-2: the greatest body
    have hreg2 : reg = (c.N : ℤ) - 2 := by unfold kOf at hk; split_ifs at hk <;> omega
    have hpe : packBody c reg (x * 2 ^ c.H + f * 2 ^ c.H / 2 ^ c.F) = 2 ^ (c.N - 1) - 1 := by
      unfold packBody; rw [if_neg hk, if_neg (by omega)]
    have hs : c.spec ≠ .withNanInf := by
      intro hs
      unfold Cfg.topExp at h2
      rw [if_pos hs, hms, hdm, hreg2] at h2
      have : (0 : ℤ) ≤ x := by omega
      linarith
    have hmb : c.fmt.maxBody = 2 ^ (c.N - 1) - 1 := by
      unfold Format.maxBody; simp [Cfg.fmt, hs]
    rw [hpe, ← hmb]
    refine ⟨one_le_maxBody h, le_rfl, fun q _ hq _ => hq, Or.inl ?_⟩
    have := posVal_maxBody h
    simp only [fmt_N, fmt_es]
    rw [this]
    unfold Cfg.topExp
    rw [if_neg hs]
    have he : e = c.maxScale := by
      have : e ≤ c.maxScale := by omega
      have : (0 : ℤ) ≤ x := by omega
      rw [hms] at *
      rw [hreg2] at hdm
      omega
    rw [← he]
    have : (0 : ℚ) ≤ (f : ℚ) / 2 ^ c.F := by positivity
    have h2e : (0 : ℚ) < 2 ^ e := by positivity
    nlinarith

theorem clamp_eq (e lo hi : ℤ) (h : lo ≤ hi) : Posit.clamp e lo hi = max lo (min e hi) := by
  unfold Posit.clamp
  split_ifs <;> omega

/-- `pack_posit` on a regular number: no UB and truncation, whenever the shifts are in range -/
theorem pack_regular (h : c.WF) (neg : Bool) {e : ℤ} {f : ℕ} (hf : f < 2 ^ c.F) (hs : c.PackSafe e) :
    ∃ p : ℕ, Posit.pack c ⟨.regular, neg, e, f⟩ = .ok (if neg then -(p : ℤ) else p) ∧
      c.fmt.TruncB (2 ^ e * (1 + (f : ℚ) / 2 ^ c.F)) p := by
  have hN3 := h.N_ge
  have hp1 : (1 : ℤ) ≤ 2 ^ c.es := one_le_pow₀ (by norm_num)
  have hle : (2 : ℤ) ^ c.es ≤ c.maxScale := by
    have : 2 ^ c.es * 1 ≤ c.maxScale := Nat.mul_le_mul_left _ (by omega)
    rw [mul_one] at this
    exact_mod_cast this
  have htop : c.topExp ≤ c.maxScale := by unfold Cfg.topExp; split_ifs <;> omega
  have htop0 : 0 ≤ c.topExp := by unfold Cfg.topExp; split_ifs <;> omega
  set e' := max (-(c.maxScale : ℤ)) (min e c.topExp) with he'
  have hlo : -(c.maxScale : ℤ) ≤ e' := by omega
  have hhi : e' ≤ c.topExp := by omega
  have hms1 := maxScale_pos h
  have hs' : c.PackSafe e' := by
    unfold Cfg.PackSafe at *
    omega
  obtain ⟨k1, k2, k3⟩ := hs'.shifts h hlo hhi
  set p := packBody c (e' / 2 ^ c.es) ((e' % 2 ^ c.es).toNat * 2 ^ c.H + f * 2 ^ c.H / 2 ^ c.F) with hp
  have htr := packBody_trunc h hf hlo hhi
  rw [← hp] at htr
  refine ⟨p, ?_, ?_⟩
  · unfold Posit.pack Posit.full2low
    have hcl : Posit.clamp e c.minexponent c.maxexponent = e' := by
      rw [minexponent_eq h, maxexponent_eq h, clamp_eq _ _ _ (by change _ ≤ c.topExp; omega)]; rfl
    simp only [if_true, hcl]
    rw [splitRegExp_eq h hlo (by omega), castMsb_eq h.F_pos h.hH hf]
    simp only [bind, Except.bind, pure, Except.pure, Posit.packLow]
    have hpos : (0 : ℤ) < 2 ^ c.es := by positivity
    rw [packLowRegular_eq h _ _ (by omega) k2 k3]
    · zify
      rw [Int.toNat_of_nonneg (Int.emod_nonneg _ hpos.ne')]
      exact Int.emod_lt_of_pos _ hpos
    · rw [Nat.div_lt_iff_lt_mul (by positivity), mul_comm]
      exact Nat.mul_lt_mul_of_pos_left hf (by positivity)
  · have hf0 : (0 : ℚ) ≤ (f : ℚ) / 2 ^ c.F := by positivity
    have hf1 : (f : ℚ) / 2 ^ c.F < 1 := by
      rw [div_lt_one (by positivity)]; exact_mod_cast hf
    rcases lt_or_ge e (-(c.maxScale : ℤ)) with hlow | hlow
    · -- below the least posit
      have hee : e' = -(c.maxScale : ℤ) := by omega
      have hms : (c.maxScale : ℤ) = 2 ^ c.es * ((c.N : ℤ) - 2) := by
        unfold Cfg.maxScale; push_cast [Nat.cast_sub (show 2 ≤ c.N by omega)]; ring
      have hpos : (0 : ℤ) < 2 ^ c.es := by positivity
      have hreg : e' / 2 ^ c.es = -((c.N : ℤ) - 2) := by
        rw [hee, hms, ← mul_neg, Int.mul_ediv_cancel_left _ hpos.ne']
      have hmod : e' % 2 ^ c.es = 0 := by
        rw [hee, hms, ← mul_neg, Int.mul_emod_right]
      have hk : kOf (-((c.N : ℤ) - 2)) = c.N - 2 := by unfold kOf; rw [if_pos (by omega)]; omega
      have hpe : p = 1 := by
        rw [hp, hreg, hmod]
        rw [packBody_X h (by omega), hk, if_pos (by omega)]
        simp
        rw [pow_add]
        exact lt_of_lt_of_le hf (Nat.le_mul_of_pos_left _ (by positivity))
      refine ⟨htr.one_le, htr.le_max, ?_, Or.inr hpe⟩
      intro q hq1 hq2 hq
      exfalso
      have hml := Format.maxBody_lt c.fmt
      have h1 : posVal c.N c.es 1 ≤ posVal c.N c.es q :=
        (posVal_le_iff le_rfl (lt_of_le_of_lt (one_le_maxBody h) hml) hq1 (lt_of_le_of_lt hq2 hml)).mpr hq1
      rw [posVal_one h] at h1
      have h2 : (2 : ℚ) ^ (e + 1) ≤ 2 ^ (-(c.maxScale : ℤ)) := zpow_le_zpow_right₀ (by norm_num) (by omega)
      rw [zpow_add₀ (by norm_num), zpow_one] at h2
      have h3 : (0 : ℚ) < 2 ^ e := by positivity
      simp only [fmt_N, fmt_es] at hq
      nlinarith
    · rcases le_or_gt e c.topExp with hup | hup
      · have hee : e' = e := by omega
        rwa [hee] at htr
      · have hee : e' = c.topExp := by omega
        rw [hee] at htr
        have h3 : (0 : ℚ) < 2 ^ c.topExp := by positivity
        have hpm : p = c.fmt.maxBody := by
          refine le_antisymm htr.le_max (htr.greatest _ (one_le_maxBody h) le_rfl ?_)
          simp only [fmt_N, fmt_es]
          rw [posVal_maxBody h]
          nlinarith
        rw [hpm]
        refine ⟨one_le_maxBody h, le_rfl, fun q _ hq _ => hq, Or.inl ?_⟩
        simp only [fmt_N, fmt_es]
        rw [posVal_maxBody h]
        have h2 : (2 : ℚ) ^ c.topExp ≤ 2 ^ e := zpow_le_zpow_right₀ (by norm_num) (by omega)
        nlinarith

/-- outside the safe exponents packing does execute an out-of-range shift -/
theorem pack_regular_ub (h : c.WF) (neg : Bool) {e : ℤ} {f : ℕ} (hf : f < 2 ^ c.F) (hs : ¬ c.PackSafe e) :
    Posit.pack c ⟨.regular, neg, e, f⟩ = .error .shiftAmount := by
  have hN3 := h.N_ge
  have hN := h.hN
  have hpH := le_pw c.H
  have hle := two_pow_es_le h
  have htop := topExp_le h
  have htop0 := topExp_nonneg h
  have hms1 := maxScale_pos h
  set e' := max (-(c.maxScale : ℤ)) (min e c.topExp) with he'
  have hlo : -(c.maxScale : ℤ) ≤ e' := by omega
  have hhi : e' ≤ c.topExp := by omega
  have hp : (0 : ℤ) < 2 ^ c.es := by positivity
  obtain ⟨hb1, hb2⟩ := reg_range h hlo hhi
  obtain ⟨Q, hQ⟩ : ∃ Q, Q = pw c.H - 3 - (if c.N < pw c.H then 0 else c.es) := ⟨_, rfl⟩
  have hB : (c.packBound : ℤ) = 2 ^ c.es * Q := by unfold Cfg.packBound; rw [← hQ]; push_cast; rfl
  have hout : e' < -(c.packBound : ℤ) ∨ (c.packBound : ℤ) ≤ e' := by
    unfold Cfg.PackSafe at hs; omega
  have hkQ : Q < kOf (e' / 2 ^ c.es) := by
    rcases hout with ho | ho
    · have : e' / 2 ^ c.es < -(Q : ℤ) := by
        rw [Int.ediv_lt_iff_lt_mul hp]; rw [hB] at ho; linarith
      unfold kOf; split_ifs <;> omega
    · have : (Q : ℤ) ≤ e' / 2 ^ c.es := by
        rw [Int.le_ediv_iff_mul_le hp]; rw [hB] at ho; linarith
      unfold kOf; split_ifs <;> omega
  have hH32 : 32 ≤ c.H := by
    by_contra hlt
    have := h.hH
    have : c.N + 1 < pw c.H := by unfold pw; omega
    exact hs (packSafe_of_narrow h this e)
  have hcl : Posit.clamp e c.minexponent c.maxexponent = e' := by
    rw [minexponent_eq h, maxexponent_eq h, clamp_eq _ _ _ (by change _ ≤ c.topExp; omega)]; rfl
  unfold Posit.pack Posit.full2low
  simp only [if_true, hcl]
  rw [splitRegExp_eq h hlo (by omega), castMsb_eq h.F_pos h.hH hf]
  simp only [bind, Except.bind, pure, Except.pure, Posit.packLow]
  set reg := e' / 2 ^ c.es with hreg
  have hexp : (e' % 2 ^ c.es).toNat < 2 ^ c.es := by
    zify
    rw [Int.toNat_of_nonneg (Int.emod_nonneg _ hp.ne')]
    exact Int.emod_lt_of_pos _ hp
  unfold Posit.packLowRegular
  have hrs : (if -reg + 1 > reg + 2 then -reg + 1 else reg + 2) = (kOf reg : ℤ) + 1 := by
    unfold kOf; split_ifs <;> omega
  simp only [hrs]
  have hrb : ∀ E, Posit.regBits c reg = .error E → E = .shiftAmount := by
    intro E
    unfold Posit.regBits shrU shlU
    simp only [bind, Except.bind, pure, Except.pure]
    split_ifs <;> simp <;> first | omega | (intro hh; exact hh.symm)
  rcases hr : Posit.regBits c reg with E | R
  · rw [hrb E hr]; rfl
  · simp only [bind, Except.bind]
    rw [msbExp_eq h hexp]
    simp only []
    by_cases hk2 : kOf reg + 2 < pw c.H
    · -- then the fraction shift is too large
      have hw : ¬ c.N < pw c.H := by
        intro hlt; rw [if_pos hlt] at hQ; omega
      rw [if_neg hw] at hQ
      have hpe : c.N = pw c.H := by omega
      have : shrU c.H (f * 2 ^ c.H / 2 ^ c.F) ((kOf reg : ℤ) + 1 +
          (if (c.N : ℤ) - ((kOf reg : ℤ) + 1) - 1 < c.es then (c.N : ℤ) - ((kOf reg : ℤ) + 1) - 1 else c.es) + 1) =
          .error .shiftAmount := by
        unfold shrU
        rw [if_pos]
        right
        split_ifs <;> omega
      rw [this]
    · have hb : ∀ z, shrU c.H z ((kOf reg : ℤ) + 1 + 1) = .error .shiftAmount := by
        intro z; unfold shrU; rw [if_pos (by omega)]
      rw [hb]
      generalize hz : shrU c.H (f * 2 ^ c.H / 2 ^ c.F) _ = z
      rcases z with E | z
      · have : E = .shiftAmount := by
          unfold shrU at hz
          split_ifs at hz <;> first | (injection hz with hz; exact hz.symm) | cases hz
        rw [this]
      · rfl

end Verif
