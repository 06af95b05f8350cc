import Mathlib.Data.Int.Log
import Verif.Lemmas.PackTrunc

/-! # `unpack_posit` gives the value of the pattern -/

namespace Verif
open Fmt

variable {c : Cfg}

theorem Fmt.Dec.m_le {M p : ℕ} {r : ℤ} {m rest : ℕ} (h : Dec M p r m rest) (hM : 2 ≤ M) : m + 2 ≤ M := by
  rcases h.cases with h | h | h <;> omega

theorem Fmt.Dec.r_range {M p : ℕ} {r : ℤ} {m rest : ℕ} (h : Dec M p r m rest) :
    -((M : ℤ) - 1) ≤ r ∧ r ≤ (M : ℤ) - 1 := by
  rcases h.cases with h | h | h <;> omega

theorem joinRegExp_eq (h : c.WF) {r : ℤ} {x : ℕ} (h1 : -((c.N : ℤ) - 2) ≤ r) (h2 : r ≤ (c.N : ℤ) - 2)
    (hx : x < 2 ^ c.es) : Posit.joinRegExp c r x = .ok (2 ^ c.es * r + x) := by
  have hp : (0 : ℤ) < 2 ^ c.es := by positivity
  have hms := maxScale_eq h
  have hE := E_ge h
  have hpE := le_pw c.E
  have hes : c.es ≤ pw c.E := by have := le_pw32 c.E; have := h.hes30; omega
  have hlo : -(c.maxScale : ℤ) ≤ 2 ^ c.es * r := by rw [hms]; nlinarith
  have hhi : 2 ^ c.es * r ≤ c.maxScale := by rw [hms]; nlinarith
  have hle := two_pow_es_le h
  have hxe : (x : ℤ) < 2 ^ c.es := by exact_mod_cast hx
  unfold Posit.joinRegExp
  rw [mul_comm r, arithS_ok' (inS_E h (abs_le.mpr (by omega)))]
  simp only [bind, Except.bind, pure, Except.pure]
  congr 1
  set y := wrapU (pw c.E) (2 ^ c.es * r) with hy
  obtain ⟨t, ht⟩ : ∃ t, y = t * 2 ^ c.es := by
    have : ((2 : ℤ) ^ c.es) ∣ (y : ℤ) := by
      rw [hy]; unfold wrapU
      rw [Int.toNat_of_nonneg (Int.emod_nonneg _ (by positivity))]
      rw [Int.emod_def]
      exact Dvd.dvd.sub (Dvd.intro _ rfl) (Dvd.dvd.mul_right (pow_dvd_pow _ hes) _)
    have h3 : 2 ^ c.es ∣ y := by exact_mod_cast this
    obtain ⟨t, ht⟩ := h3
    exact ⟨t, by rw [ht]; ring⟩
  have hor : y ||| x = y + x := by
    rw [ht, mul_comm t, Nat.or_comm, or_eq_add t hx]
  rw [hor]
  have hyk : ∃ k : ℤ, (y : ℤ) = 2 ^ c.es * r + 2 ^ c.E * k := by
    rw [hy]; unfold wrapU
    rw [Int.toNat_of_nonneg (Int.emod_nonneg _ (by positivity)), Int.emod_def]
    refine ⟨-(2 ^ (pw c.E - c.E) * (2 ^ c.es * r / 2 ^ pw c.E)), ?_⟩
    have : (2 : ℤ) ^ pw c.E = 2 ^ c.E * 2 ^ (pw c.E - c.E) := by rw [← pow_add]; congr 1; omega
    generalize (2 ^ c.es * r / 2 ^ pw c.E : ℤ) = Q
    rw [this]; ring
  obtain ⟨k, hk⟩ := hyk
  apply wrapS_eq (by omega) k
  · push_cast; rw [hk]; ring
  · exact inS_E h (abs_le.mpr (by omega))

/-- everything the arithmetic needs to know about a decoded real posit -/
structure Unpacks (c : Cfg) (v : ℤ) (e : ℤ) (f : ℕ) : Prop where
  eq : Posit.unpack c v = .ok ⟨.regular, v < 0, e, f⟩
  f_lt : f < 2 ^ c.F
  e_lo : -(c.maxScale : ℤ) ≤ e
  e_hi : e ≤ c.topExp
  lower : (2 : ℚ) ^ e ≤ |c.fmt.val v|
  upper : |c.fmt.val v| < (2 : ℚ) ^ (e + 1)
  dvd : c.fb ≤ c.F → 2 ^ (c.F - c.fb) ∣ f
  val : c.fb ≤ c.F → |c.fmt.val v| = 2 ^ e * (1 + (f : ℚ) / 2 ^ c.F)
  trunc : 2 ^ e * (1 + (f : ℚ) / 2 ^ c.F) ≤ |c.fmt.val v|
  close : |c.fmt.val v| < 2 ^ e * (1 + ((f : ℚ) + 1) / 2 ^ c.F)

theorem lowW_fields (h : c.WF) {p : ℕ} {r : ℤ} {m rest : ℕ} (hd : Dec (c.N - 1) p r m rest) :
    lowW c m rest / 2 ^ c.H < 2 ^ c.es ∧ 2 ^ (c.H - c.fb) ∣ lowW c m rest % 2 ^ c.H ∧
    posVal c.N c.es p = 2 ^ (2 ^ c.es * r + (lowW c m rest / 2 ^ c.H : ℕ)) *
      (1 + ((lowW c m rest % 2 ^ c.H : ℕ) : ℚ) / 2 ^ c.H) := by
  have hN := h.hN
  have hN3 := h.N_ge
  have hes := h.hes
  have hm := hd.m_le (by omega)
  have hr := hd.hrest
  refine ⟨?_, ?_, ?_⟩
  · rw [Nat.div_lt_iff_lt_mul (by positivity)]
    unfold lowW
    calc rest * 2 ^ (c.H - m) * 2 ^ c.es < 2 ^ m * 2 ^ (c.H - m) * 2 ^ c.es := by
          apply Nat.mul_lt_mul_of_pos_right _ (by positivity)
          exact Nat.mul_lt_mul_of_pos_right hr (by positivity)
      _ = 2 ^ c.es * 2 ^ c.H := by
          rw [← pow_add, ← pow_add, ← pow_add]; congr 1; omega
  · apply (Nat.dvd_mod_iff (pow_dvd_pow 2 (by omega))).mpr
    unfold lowW Cfg.fb
    rw [mul_assoc, ← pow_add]
    exact Dvd.dvd.mul_left (pow_dvd_pow 2 (by omega)) _
  · rw [hd.posVal (es := c.es)]
    have hx1 : ((lowW c m rest % 2 ^ c.H : ℕ) : ℚ) / 2 ^ c.H < 1 := by
      rw [div_lt_one (by positivity)]; exact_mod_cast Nat.mod_lt _ (by positivity)
    rw [← L_int_add _ (by positivity) hx1]
    congr 1
    have hW : (lowW c m rest : ℚ) = 2 ^ c.H * (lowW c m rest / 2 ^ c.H : ℕ) + (lowW c m rest % 2 ^ c.H : ℕ) := by
      exact_mod_cast (Nat.div_add_mod _ _).symm
    have hW2 : (lowW c m rest : ℚ) / 2 ^ c.H = 2 ^ c.es * ((rest : ℚ) / 2 ^ m) := by
      unfold lowW
      have : (2 : ℚ) ^ c.H = 2 ^ (c.H - m) * 2 ^ m := by rw [← pow_add]; congr 1; omega
      rw [this]; push_cast; field_simp
    rw [mul_add, ← hW2, hW]
    generalize lowW c m rest / 2 ^ c.H = A
    generalize lowW c m rest % 2 ^ c.H = B
    push_cast
    field_simp
    ring

theorem unpack_real (h : c.WF) {v : ℤ} (hv : c.fmt.IsReal v) (h0 : v ≠ 0) : ∃ e f, Unpacks c v e f := by
  have hN := h.hN
  have hN3 := h.N_ge
  have hes := h.hes
  obtain ⟨r, m, rest, hd⟩ := exists_dec (M := c.N - 1) (p := v.natAbs) (by omega) (real_inRange hv)
  obtain ⟨hinf, hnan⟩ := real_not_special h hv
  have hlow := unpackLow_body h (real_inRange hv) h0 hinf hnan hd
  obtain ⟨hx, hdvd, hval⟩ := lowW_fields h hd
  obtain ⟨hr1, hr2⟩ := hd.r_range
  set x := lowW c m rest / 2 ^ c.H
  set w := lowW c m rest % 2 ^ c.H with hw
  have hwlt : w < 2 ^ c.H := Nat.mod_lt _ (by positivity)
  have habs : |c.fmt.val v| = 2 ^ (2 ^ c.es * r + (x : ℤ)) * (1 + (w : ℚ) / 2 ^ c.H) := by
    rw [Format.abs_val hv.inRange h0]; exact hval
  set e := 2 ^ c.es * r + (x : ℤ) with he
  have hw0 : (0 : ℚ) ≤ (w : ℚ) / 2 ^ c.H := by positivity
  have hw1 : (w : ℚ) / 2 ^ c.H < 1 := by
    rw [div_lt_one (by positivity)]; exact_mod_cast hwlt
  have h2e : (0 : ℚ) < 2 ^ e := by positivity
  have hlower : (2 : ℚ) ^ e ≤ |c.fmt.val v| := by rw [habs]; nlinarith
  have hupper : |c.fmt.val v| < (2 : ℚ) ^ (e + 1) := by
    rw [habs, zpow_add_one₀ (by norm_num) e]; nlinarith
  have hfle : ((w * 2 ^ c.F / 2 ^ c.H : ℕ) : ℚ) / 2 ^ c.F ≤ (w : ℚ) / 2 ^ c.H := by
    rw [div_le_div_iff₀ (by positivity) (by positivity)]
    exact_mod_cast Nat.div_mul_le_self _ _
  have hpm := (posVal_le_iff (N := c.N) (es := c.es) (p := 1) (q := v.natAbs) le_rfl
    (by have := real_inRange hv; omega) (by omega) (real_inRange hv)).mpr (by omega)
  have hpM := (posVal_le_iff (N := c.N) (es := c.es) (p := v.natAbs) (q := c.fmt.maxBody) (by omega) (real_inRange hv)
    (one_le_maxBody h) (Format.maxBody_lt c.fmt)).mpr hv.natAbs_le
  have habs' : |c.fmt.val v| = posVal c.N c.es v.natAbs := Format.abs_val hv.inRange h0
  rw [← habs'] at hpm hpM
  rw [posVal_one h] at hpm
  rw [posVal_maxBody h] at hpM
  refine ⟨e, w * 2 ^ c.F / 2 ^ c.H, ?_, ?_, ?_, ?_, hlower, hupper, ?_, ?_, ?_, ?_⟩
  · unfold Posit.unpack
    rw [hlow]
    simp only [bind, Except.bind]
    unfold Posit.low2full
    rw [if_pos rfl, castMsb_eq h.H_pos h.hF hwlt]
    simp only [bind, Except.bind, pure, Except.pure]
    rw [joinRegExp_eq h (by omega) (by omega) hx]
  · rw [Nat.div_lt_iff_lt_mul (by positivity), mul_comm]
    exact Nat.mul_lt_mul_of_pos_left hwlt (by positivity)
  · have : (2 : ℚ) ^ (-(c.maxScale : ℤ)) < 2 ^ (e + 1) := lt_of_le_of_lt hpm hupper
    rw [zpow_lt_zpow_iff_right₀ (by norm_num)] at this
    omega
  · have : (2 : ℚ) ^ e ≤ 2 ^ c.topExp := hlower.trans hpM
    rwa [zpow_le_zpow_iff_right₀ (by norm_num)] at this
  · intro hfb
    obtain ⟨t, ht⟩ := hdvd
    rw [ht]
    have hH : c.fb ≤ c.H := by unfold Cfg.fb; omega
    have e1 : 2 ^ (c.H - c.fb) * t * 2 ^ c.F = 2 ^ (c.F - c.fb) * t * 2 ^ c.H := by
      have : 2 ^ (c.H - c.fb) * 2 ^ c.F = 2 ^ (c.F - c.fb) * 2 ^ c.H := by
        rw [← pow_add, ← pow_add]; congr 1; omega
      calc _ = (2 ^ (c.H - c.fb) * 2 ^ c.F) * t := by ring
        _ = _ := by rw [this]; ring
    rw [e1, Nat.mul_div_cancel _ (by positivity)]
    exact Dvd.intro _ rfl
  · intro hfb
    rw [habs]
    congr 2
    obtain ⟨t, ht⟩ := hdvd
    have hH : c.fb ≤ c.H := by unfold Cfg.fb; omega
    have hdv : 2 ^ c.H ∣ w * 2 ^ c.F := by
      rw [ht]
      have : 2 ^ (c.H - c.fb) * t * 2 ^ c.F = 2 ^ c.H * (2 ^ (c.F - c.fb) * t) := by
        have : 2 ^ (c.H - c.fb) * 2 ^ c.F = 2 ^ (c.F - c.fb) * 2 ^ c.H := by
          rw [← pow_add, ← pow_add]; congr 1; omega
        calc _ = (2 ^ (c.H - c.fb) * 2 ^ c.F) * t := by ring
          _ = _ := by rw [this]; ring
      rw [this]; exact Dvd.intro _ rfl
    rw [div_eq_div_iff (by positivity) (by positivity)]
    exact_mod_cast (Nat.div_mul_cancel hdv).symm
  · rw [habs]
    have : (0 : ℚ) ≤ ((w * 2 ^ c.F / 2 ^ c.H : ℕ) : ℚ) / 2 ^ c.F := by positivity
    nlinarith
  · rw [habs]
    have hlt : (w : ℚ) / 2 ^ c.H < (((w * 2 ^ c.F / 2 ^ c.H : ℕ) : ℚ) + 1) / 2 ^ c.F := by
      rw [div_lt_div_iff₀ (by positivity) (by positivity)]
      exact_mod_cast Nat.lt_mul_of_div_lt (Nat.lt_succ_self _) (by positivity)
    exact mul_lt_mul_of_pos_left (by linarith) h2e

/-- the exponent of the decoded number is the binary logarithm of its magnitude -/
theorem Unpacks.log {v e : ℤ} {f : ℕ} (hu : Unpacks c v e f) : Int.log 2 |c.fmt.val v| = e := by
  have h2 : (0 : ℚ) < 2 ^ e := by positivity
  have hpos : 0 < |c.fmt.val v| := lt_of_lt_of_le h2 hu.lower
  apply le_antisymm
  · have := (Int.lt_zpow_iff_log_lt (b := 2) (by norm_num) hpos (x := e + 1)).mp (by exact_mod_cast hu.upper)
    omega
  · exact (Int.zpow_le_iff_le_log (b := 2) (by norm_num) hpos).mp (by exact_mod_cast hu.lower)

theorem unpack_zero (h : c.WF) : Posit.unpack c 0 = .ok ⟨.zero, false, 0, 0⟩ := by
  have hz : c.fmt.IsReal 0 := by unfold Format.IsReal; omega
  obtain ⟨h1, h2⟩ := real_not_special h hz
  unfold Posit.unpack Posit.unpackLow
  rw [h1, h2]
  rfl

end Verif
