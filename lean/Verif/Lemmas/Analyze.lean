import Verif.Model.Limits
import Verif.Lemmas.Unpack

/-! # Closed form of `analyze()` -/

namespace Verif
open Fmt

variable {c : Cfg}

/-- the bits of a decomposed body: run length and size of what follows the regime -/
theorem Fmt.Dec.run {M p : ℕ} {r : ℤ} {m rest : ℕ} (h : Dec M p r m rest) :
    regimeOf ((bitsMSB M p).headD false) (runLength ((bitsMSB M p).headD false) (bitsMSB M p)) = r ∧
    min (runLength ((bitsMSB M p).headD false) (bitsMSB M p) + 1) M = M - m := by
  obtain ⟨hrest, h | h | h⟩ := h
  · obtain ⟨hr, hM, hp⟩ := h
    obtain ⟨k, rfl⟩ : ∃ k : ℕ, r = -(k : ℤ) := ⟨(-r).toNat, by omega⟩
    have hk : 1 ≤ k := by omega
    have hM' : M = k + (1 + m) := by omega
    have hpl : p < 2 ^ (1 + m) := by rw [pow_add]; omega
    have hbits : bitsMSB M p = List.replicate k false ++ (!false) :: bitsMSB m rest := by
      rw [hM', bitsMSB_add, Nat.div_eq_of_lt hpl, bitsMSB_zero, bitsMSB_add]
      have h1 : p / 2 ^ m = 1 := by
        rw [hp, Nat.add_div_left _ (by positivity), Nat.div_eq_of_lt hrest]
      rw [h1, ← bitsMSB_mod m p, hp, Nat.add_mod_left, Nat.mod_eq_of_lt hrest]
      simp [bitsMSB]
    have hh : (List.replicate k false ++ (!false) :: bitsMSB m rest).headD false = false := by
      obtain ⟨k', rfl⟩ := Nat.exists_eq_add_of_le' hk
      simp [List.replicate_succ]
    rw [hbits, hh, runLength_replicate_append]
    exact ⟨by simp [regimeOf], by omega⟩
  · obtain ⟨hr, hM, hp⟩ := h
    obtain ⟨k, rfl⟩ : ∃ k : ℕ, r = (k : ℤ) := ⟨r.toNat, by omega⟩
    have hM' : M = (k + 1) + (1 + m) := by omega
    have e1 : 2 ^ M = 2 ^ (k + 1) * (2 * 2 ^ m) := by rw [hM', pow_add 2 (k + 1), pow_add 2 1, pow_one]
    have hk1 : 1 ≤ 2 ^ (k + 1) := Nat.one_le_two_pow
    have hp' : p = rest + 2 ^ m * ((2 ^ (k + 1) - 1) * 2) := by
      rw [e1, pow_succ _ m] at hp
      obtain ⟨z, hz⟩ := Nat.exists_eq_add_of_le hk1
      rw [hz] at hp ⊢
      simp only [Nat.add_sub_cancel_left]
      nlinarith
    have hdm : p / 2 ^ m = (2 ^ (k + 1) - 1) * 2 := by
      rw [hp', Nat.add_mul_div_left _ _ (by positivity), Nat.div_eq_of_lt hrest, zero_add]
    have hbits : bitsMSB M p = List.replicate (k + 1) true ++ (!true) :: bitsMSB m rest := by
      rw [hM', bitsMSB_add, bitsMSB_add 1 m, pow_add, pow_one, mul_comm, ← Nat.div_div_eq_div_mul, hdm,
        Nat.mul_div_cancel _ (by norm_num), bitsMSB_ones, ← bitsMSB_mod m p, hp', Nat.add_mul_mod_self_left,
        Nat.mod_eq_of_lt hrest]
      simp [bitsMSB]
    have hh : (List.replicate (k + 1) true ++ (!true) :: bitsMSB m rest).headD false = true := by
      simp [List.replicate_succ]
    rw [hbits, hh, runLength_replicate_append]
    exact ⟨by simp [regimeOf], by omega⟩
  · obtain ⟨rfl, hM, rfl, rfl, rfl⟩ := h
    obtain ⟨k, rfl⟩ := Nat.exists_eq_add_of_le' hM
    have hh : (List.replicate (k + 1) true).headD false = true := by simp [List.replicate_succ]
    rw [bitsMSB_ones, hh, runLength_replicate]
    exact ⟨by simp [regimeOf], by omega⟩

/-- `bitset_leftmost_getT` is defined when there are exponent bits or the holder is narrower than `int` -/
theorem bitsetGet_left {w n x : ℕ} (hn : n ≤ w) (hx : x < 2 ^ w) (h0 : 1 ≤ n ∨ w < 32) :
    Posit.bitsetGet w x (w - n) n = .ok (x * 2 ^ n / 2 ^ w) := by
  by_cases hn0 : n = 0
  · subst hn0
    have hw : w < pw w := by unfold pw; omega
    unfold Posit.bitsetGet Posit.bitmask
    rw [shrU_ok (n := ((w - 0 : ℕ) : ℤ)) (k := w) (by omega) hw, shrU_ok (k := w) (by omega) hw]
    simp only [bind, Except.bind, pure, Except.pure]
    simp [Nat.div_eq_of_lt hx]
  · have := leftmostGet_eq hn hx
    unfold Posit.leftmostGet at this
    rwa [if_neg hn0] at this

theorem analyzeFrac_eq (h : c.WF) {x : ℕ} (hx : x < 2 ^ c.H) (hF : c.F < c.H + pw c.H)
    (hfit : c.H < 32 → c.F ≤ 32) : Posit.analyzeFrac c x = .ok (x * 2 ^ c.F / 2 ^ c.H) := by
  have hpw := le_pw c.H
  have hF8 := h.F_pos
  unfold Posit.analyzeFrac
  split_ifs with hge
  · obtain ⟨k, hk⟩ := Nat.exists_eq_add_of_le hge
    have hkk : (c.F : ℤ) - c.H = k := by omega
    have e : x * 2 ^ c.F / 2 ^ c.H = x * 2 ^ k := by
      rw [hk, pow_add, mul_comm (2 ^ c.H), ← mul_assoc, Nat.mul_div_cancel _ (by positivity)]
    have hlt : x * 2 ^ k < 2 ^ c.F := by
      rw [hk, pow_add]; exact Nat.mul_lt_mul_of_pos_right hx (by positivity)
    unfold shlU
    rw [hkk, if_neg (by omega), Int.toNat_natCast, Nat.shiftLeft_eq, e]
    by_cases h32 : c.H < 32
    · have hle : 2 ^ c.F ≤ 2 ^ 32 := Nat.pow_le_pow_right (by norm_num) (hfit h32)
      rw [if_pos h32, if_pos (by omega)]
      simp only [bind, Except.bind, pure, Except.pure]
      rw [Nat.mod_eq_of_lt hlt]
    · rw [if_neg h32]
      simp only [bind, Except.bind, pure, Except.pure]
      have hk0 : k = 0 := by
        have := h.hF; have := h.hH
        unfold pw at hF
        omega
      subst hk0
      rw [pow_zero, mul_one, Nat.mod_eq_of_lt hx, Nat.mod_eq_of_lt (by simpa using hlt)]
  · push Not at hge
    obtain ⟨k, hk⟩ := Nat.exists_eq_add_of_le hge.le
    have e : x * 2 ^ c.F / 2 ^ c.H = x / 2 ^ k := by
      rw [hk, pow_add, mul_comm (2 ^ c.F), Nat.mul_div_mul_right _ _ (by positivity)]
    rw [shrU_ok (k := k) (by omega) (by omega), e]
    simp only [bind, Except.bind, pure, Except.pure]
    rw [Nat.mod_eq_of_lt]
    rw [Nat.div_lt_iff_lt_mul (by positivity), ← pow_add, ← hk]; exact hx

/-- `analyze()` of a real posit -/
theorem analyze_real (h : c.WF) (hes0 : 1 ≤ c.es ∨ c.H < 32) (hF : c.F < c.H + pw c.H) (hfit : c.H < 32 → c.F ≤ 32)
    {v : ℤ} (hv : c.fmt.IsReal v) (h0 : v ≠ 0) {r : ℤ} {m rest : ℕ} (hd : Dec (c.N - 1) v.natAbs r m rest) :
    ∃ e f x, Posit.unpack c v = .ok ⟨.regular, v < 0, e, f⟩ ∧ e = 2 ^ c.es * r + (x : ℕ) ∧ x < 2 ^ c.es ∧
      Posit.analyze c v = .ok (Posit.Info.mk false false (v < 0) r ((c.N - 1 - m : ℕ) : ℤ) ((min c.es m : ℕ) : ℤ)
        ((m - c.es : ℕ) : ℤ) x (wrapS 32 e) f) := by
  have hN := h.hN
  have hN3 := h.N_ge
  have hes := h.hes
  have hm := hd.m_lt
  have hH8 := h.H_pos
  obtain ⟨hinf, hnan⟩ := real_not_special h hv
  have hvn := real_inRange hv
  have hlow := unpackLow_body h hvn h0 hinf hnan hd
  obtain ⟨hx, -, -⟩ := lowW_fields h hd
  obtain ⟨hr1, hr2⟩ := hd.r_range
  have hwlt : lowW c m rest % 2 ^ c.H < 2 ^ c.H := Nat.mod_lt _ (by positivity)
  have hjoin := joinRegExp_eq h (r := r) (by omega) (by omega) hx
  have hup : Posit.unpack c v = .ok ⟨.regular, v < 0, 2 ^ c.es * r + (lowW c m rest / 2 ^ c.H : ℕ),
      (lowW c m rest % 2 ^ c.H) * 2 ^ c.F / 2 ^ c.H⟩ := by
    unfold Posit.unpack
    rw [hlow]
    simp only [bind, Except.bind]
    unfold Posit.low2full
    rw [if_pos rfl, castMsb_eq h.H_pos h.hF hwlt]
    simp only [bind, Except.bind, pure, Except.pure]
    rw [hjoin]
  refine ⟨_, _, lowW c m rest / 2 ^ c.H, hup, rfl, hx, ?_⟩
  -- the decoding steps
  have hst : decide (wrapU c.H v &&& c.signBit ≠ 0) = decide (v < 0) := by
    rw [decide_eq_decide]; exact signBit_test h hvn
  have hP : (2 : Int) ^ (c.N - 1) ≤ 2 ^ (c.H - 1) := h.pow_le
  have hvI : (v.natAbs : Int) < 2 ^ (c.N - 1) := by exact_mod_cast hvn
  have hpa : Posit.pcabs c.H v = .ok (v.natAbs : Int) := by
    unfold Posit.pcabs Posit.condNeg
    split_ifs with hneg
    · simp only [decide_eq_true_eq] at hneg
      rw [arithS_ok' (by unfold InS; omega)]
      simp only [bind, Except.bind, pure, Except.pure]
      rw [wrapS_of_inS (by omega) (by unfold InS; omega)]
      congr 1; omega
    · simp only [decide_eq_true_eq] at hneg
      simp only [pure, Except.pure]
      congr 1; omega
  have hp2H : (2:ℕ) ^ c.H = 2 ^ (c.N - 1) * 2 ^ (c.H - (c.N - 1)) := by rw [← pow_add]; congr 1; omega
  have hlt2 : v.natAbs * 2 ^ (c.H - (c.N - 1)) < 2 ^ c.H := by
    rw [hp2H]; exact Nat.mul_lt_mul_of_pos_right hvn (by positivity)
  have hpwH := le_pw c.H
  have hsh : ∃ y, shlS c.H (v.natAbs : Int) ((c.extraBits : Int) + 1) = .ok y ∧
      wrapU c.H y = v.natAbs * 2 ^ (c.H - (c.N - 1)) := by
    have hext : (c.extraBits : Int) + 1 = (c.H - (c.N - 1) : ℕ) := by unfold Cfg.extraBits; omega
    unfold shlS
    rw [hext, Int.toNat_natCast, if_neg (by omega)]
    have hle : (2:ℕ) ^ c.H ≤ 2 ^ pw c.H := Nat.pow_le_pow_right (by norm_num) hpwH
    have hnn : ¬ ((v.natAbs : Int) < 0 ∨ (2 : Int) ^ pw c.H ≤ (v.natAbs : Int) * 2 ^ (c.H - (c.N - 1))) := by
      push Not
      refine ⟨by omega, ?_⟩
      exact_mod_cast lt_of_lt_of_le hlt2 hle
    rw [if_neg hnn]
    refine ⟨_, rfl, ?_⟩
    have hpos : 1 ≤ pw c.H := by have := le_pw32 c.H; omega
    rw [wrapU_wrapS hpwH]
    have := wrapU_natCast (w := c.H) hlt2
    push_cast at this
    simpa using this
  obtain ⟨y, hy1, hy2⟩ := hsh
  have hdec := decodeRs_eq h hd hvn
  obtain ⟨p2, hp2, hp2m⟩ := shlU_ok_mod (w := c.H) (x := v.natAbs * 2 ^ (c.H - (c.N - 1)))
    (n := ((c.N - 1 - m : ℕ) : ℤ)) (k := c.N - 1 - m) rfl (by omega) (fun hw => fit32 h hw hlt2 (by omega))
  have hmod : v.natAbs * 2 ^ (c.H - (c.N - 1)) * 2 ^ (c.N - 1 - m) % 2 ^ c.H = rest * 2 ^ (c.H - m) := by
    rw [mul_assoc, ← pow_add, show c.H - (c.N - 1) + (c.N - 1 - m) = c.H - m by omega,
      show (2:ℕ) ^ c.H = 2 ^ m * 2 ^ (c.H - m) by rw [← pow_add]; congr 1; omega, Nat.mul_mod_mul_right, hd.rs]
  rw [hmod] at hp2m
  have hW : rest * 2 ^ (c.H - m) < 2 ^ c.H := by
    rw [show (2:ℕ) ^ c.H = 2 ^ m * 2 ^ (c.H - m) by rw [← pow_add]; congr 1; omega]
    exact Nat.mul_lt_mul_of_pos_right hd.hrest (by positivity)
  have hget := bitsetGet_left (n := c.es) (by omega) hW hes0
  obtain ⟨p3, hp3, hp3m⟩ := shlU_ok_mod (w := c.H) (x := rest * 2 ^ (c.H - m))
    (n := (c.es : ℤ)) (k := c.es) rfl (by omega) (fun hw => fit32 h hw hW (by omega))
  have hfr := analyzeFrac_eq h hwlt hF hfit
  have hesz : (if (c.N : Int) - ((c.N - 1 - m : ℕ) : ℤ) - 1 < c.es then (c.N : Int) - ((c.N - 1 - m : ℕ) : ℤ) - 1 else c.es) =
      ((min c.es m : ℕ) : ℤ) := by
    split_ifs with hh
    · omega
    · omega
  have hfsz : (c.N : ℤ) - ((c.N - 1 - m : ℕ) : ℤ) - ((min c.es m : ℕ) : ℤ) - 1 = ((m - c.es : ℕ) : ℤ) := by omega
  unfold Posit.analyze
  rw [hinf, hnan]
  simp only [Bool.false_eq_true, if_false, h0]
  rw [hst]
  unfold lowW at *
  simp only [hpa, bind, Except.bind, hy1, hy2, hdec, hp2, hp2m, hget, hp3, hp3m, pure, Except.pure, hfr, hjoin, hesz, hfsz]

end Verif
