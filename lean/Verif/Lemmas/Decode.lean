import Verif.Model.Format
import Verif.Lemmas.Cpp
import Verif.Lemmas.Val

/-! # Closed form of `unpack_low` -/

namespace Verif
open Fmt

variable {c : Cfg}

@[simp] theorem fmt_N (c : Cfg) : c.fmt.N = c.N := rfl
@[simp] theorem fmt_es (c : Cfg) : c.fmt.es = c.es := rfl

theorem Fmt.Dec.m_lt {M p : ℕ} {r : ℤ} {m rest : ℕ} (h : Dec M p r m rest) : m < M := by
  rcases h.cases with h | h | h <;> omega

theorem Fmt.Dec.rs {M p : ℕ} {r : ℤ} {m rest : ℕ} (h : Dec M p r m rest) : p % 2 ^ m = rest := by
  have hm := h.m_lt
  have hr := h.hrest
  rcases h.cases with h | h | h
  · rw [h.2.2, Nat.add_mod_left, Nat.mod_eq_of_lt hr]
  · obtain ⟨d, hd⟩ := Nat.exists_eq_add_of_lt hm
    have h1 := h.2.2
    have : (p + 2 ^ (m + 1)) % 2 ^ m = p % 2 ^ m := by
      rw [pow_succ]; simp
    rw [← this, h1, hd, show m + d + 1 = m + (d + 1) by omega, pow_add, Nat.mul_add_mod, Nat.mod_eq_of_lt hr]
  · rw [h.2.2.1, h.2.2.2.1, pow_zero, Nat.mod_one]

theorem holderMsb_test (S M p : ℕ) (hM : 1 ≤ M) (hlt : p < 2 ^ M) :
    (p * 2 ^ S &&& 2 ^ (M + S - 1) ≠ 0) ↔ 2 ^ (M - 1) ≤ p := by
  rw [ne_eq, and_two_pow_eq_zero_iff, show M + S - 1 = (M - 1) + S by omega, pow_add,
    Nat.mul_div_mul_right _ _ (by positivity)]
  have h2 := two_pow_pred_nat hM
  have : p / 2 ^ (M - 1) < 2 := by
    rw [Nat.div_lt_iff_lt_mul (by positivity)]; omega
  rw [Nat.mod_eq_of_lt this, Nat.div_eq_zero_iff_lt (by positivity)]
  omega

theorem decodeRs_eq (h : c.WF) {p : ℕ} {r : ℤ} {m rest : ℕ} (hd : Dec (c.N - 1) p r m rest)
    (hlt : p < 2 ^ (c.N - 1)) :
    Posit.decodeRs c (p * 2 ^ (c.H - (c.N - 1))) = .ok (r, ((c.N - 1 - m : ℕ) : ℤ)) := by
  have hN := h.hN
  have hN3 := h.N_ge
  have hm := hd.m_lt
  obtain ⟨M, hM⟩ : ∃ M, c.N = M + 1 := ⟨c.N - 1, by omega⟩
  have hM1 : c.N - 1 = M := by omega
  rw [hM1] at hd hlt hm ⊢
  obtain ⟨S, hS⟩ : ∃ S, c.H = M + (S + 1) := ⟨c.H - M - 1, by omega⟩
  have hS' : c.H - M = S + 1 := by omega
  rw [hS']
  have htest := holderMsb_test (S + 1) M p (by omega) hlt
  unfold Posit.decodeRs
  simp only [Cfg.holderMsb, Cfg.maxRegimeBits, hM1, hS]
  have hpowM : 2 ^ M = 2 * 2 ^ (M - 1) := two_pow_pred_nat (by omega)
  rcases hd.cases with hc | hc | hc
  · obtain ⟨hr, hMm, hp⟩ := hc
    have hm2 : m + 1 ≤ M - 1 := by omega
    have hpl : p < 2 ^ (m + 1) := by rw [pow_succ]; have := hd.hrest; omega
    have hx : ¬ (2 ^ (M - 1) ≤ p) := by
      have : 2 ^ (m + 1) ≤ 2 ^ (M - 1) := Nat.pow_le_pow_right (by norm_num) hm2
      omega
    have hx' := mt htest.mp hx
    have hne : p * 2 ^ (S + 1) ≠ 0 := by
      have : 0 < 2 ^ m := by positivity
      have : 0 < p := by omega
      positivity
    have hlog : Nat.log2 (p * 2 ^ (S + 1)) = m + (S + 1) := by
      apply log2_eq
      · rw [pow_add]; exact Nat.mul_le_mul_right _ (by omega)
      · rw [show m + (S + 1) + 1 = (m + 1) + (S + 1) by omega, pow_add 2 (m + 1)]
        exact Nat.mul_lt_mul_of_pos_right hpl (Nat.two_pow_pos _)
    simp only [hx', decide_false, Bool.false_eq_true, if_false, hne, Posit.runIndex, Unp.findLeft, clz, hlog, bind, Except.bind, pure,
      Except.pure]
    have e1 : ((c.H - 1 - (m + (S + 1)) : ℕ) : ℤ) = -r := by omega
    rw [e1, if_neg (by omega)]
    congr 2 <;> omega
  · obtain ⟨hr, hMm, hp⟩ := hc
    have hm2 : m + 2 ≤ M := by omega
    have hrest := hd.hrest
    have hpw1 : 2 ^ (m + 1) ≤ 2 ^ (M - 1) := Nat.pow_le_pow_right (by norm_num) (by omega)
    have hx : 2 ^ (M - 1) ≤ p := by omega
    have hx' := htest.mpr hx
    set A := 2 ^ M - p with hA
    have hA1 : 2 ^ m + 1 ≤ A := by rw [pow_succ] at hp; omega
    have hA2 : A ≤ 2 ^ (m + 1) := by omega
    have hT : 0 < 2 ^ (S + 1) := by positivity
    have hinv : 2 ^ (M + (S + 1)) - 1 - p * 2 ^ (S + 1) = A * 2 ^ (S + 1) - 1 := by
      rw [hA, Nat.sub_mul, pow_add]; omega
    have hge : 2 ^ (m + (S + 1)) ≤ A * 2 ^ (S + 1) - 1 := by
      have : (2 ^ m + 1) * 2 ^ (S + 1) ≤ A * 2 ^ (S + 1) := Nat.mul_le_mul_right _ hA1
      rw [add_mul, ← pow_add] at this
      omega
    have hltt : A * 2 ^ (S + 1) - 1 < 2 ^ (m + (S + 1) + 1) := by
      have : A * 2 ^ (S + 1) ≤ 2 ^ (m + 1) * 2 ^ (S + 1) := Nat.mul_le_mul_right _ hA2
      rw [← pow_add] at this
      rw [show m + (S + 1) + 1 = m + 1 + (S + 1) by omega]
      have : 0 < 2 ^ (m + 1 + (S + 1)) := by positivity
      omega
    have hne : A * 2 ^ (S + 1) - 1 ≠ 0 := by
      have : 0 < 2 ^ (m + (S + 1)) := by positivity
      omega
    have hlog := log2_eq hge hltt
    simp only [hx', decide_true, if_true, hinv, hne, if_false, Posit.runIndex, Unp.findLeft, clz, hlog, bind, Except.bind, pure,
      Except.pure, not_false_eq_true, ne_eq]
    have e1 : ((c.H - 1 - (m + (S + 1)) : ℕ) : ℤ) = r + 1 := by omega
    rw [e1, if_neg (by omega)]
    congr 2 <;> omega
  · obtain ⟨hr, hMm, hm0, hrest, hp⟩ := hc
    have hx : 2 ^ (M - 1) ≤ p := by have := Nat.one_le_two_pow (n := M - 1); omega
    have hx' := htest.mpr hx
    have hT : 0 < 2 ^ (S + 1) := by positivity
    have hinv : 2 ^ (M + (S + 1)) - 1 - p * 2 ^ (S + 1) = 2 ^ (S + 1) - 1 := by
      rw [hp, Nat.sub_mul, pow_add]
      have : 1 * 2 ^ (S + 1) ≤ 2 ^ M * 2 ^ (S + 1) := Nat.mul_le_mul_right _ Nat.one_le_two_pow
      omega
    have h2S := pow_succ 2 S
    have h1S := Nat.one_le_two_pow (n := S)
    have hne : 2 ^ (S + 1) - 1 ≠ 0 := by omega
    have hlog : Nat.log2 (2 ^ (S + 1) - 1) = S := log2_eq (by omega) (by omega)
    simp only [hx', decide_true, if_true, hinv, hne, if_false, Posit.runIndex, Unp.findLeft, clz, hlog, bind, Except.bind, pure,
      Except.pure, not_false_eq_true, ne_eq]
    have e1 : ((c.H - 1 - S : ℕ) : ℤ) = M := by omega
    rw [e1, if_pos (by omega)]
    congr 2 <;> omega

theorem signBit_test (h : c.WF) {v : Int} (hv : v.natAbs < 2 ^ (c.N - 1)) :
    (wrapU c.H v &&& c.signBit ≠ 0) ↔ v < 0 := by
  have hN := h.hN
  have hN3 := h.N_ge
  unfold Cfg.signBit
  rw [ne_eq, and_two_pow_eq_zero_iff]
  have hP : (2 : Int) ^ (c.N - 1) ≤ 2 ^ (c.H - 1) := h.pow_le
  have hH2 : (2 : Int) ^ c.H = 2 * 2 ^ (c.H - 1) := two_pow_pred (by omega)
  have hvI : (v.natAbs : Int) < 2 ^ (c.N - 1) := by exact_mod_cast hv
  rcases lt_or_ge v 0 with h0 | h0
  · rw [wrapU_of_neg h0 (by omega)]
    obtain ⟨d, hd⟩ := Nat.exists_eq_add_of_le hN
    have e : (v + 2 ^ c.H).toNat / 2 ^ (c.N - 1) = 2 * 2 ^ d - 1 := by
      have hH3 : c.H = (c.N - 1) + (d + 1) := by omega
      have e2 : (v + 2 ^ c.H).toNat = 2 ^ (c.N - 1) * (2 * 2 ^ d - 1) + (2 ^ (c.N - 1) - v.natAbs) := by
        have a1 : (2 : Int) ^ c.H = 2 ^ (c.N - 1) * (2 * 2 ^ d) := by rw [hH3, pow_add, pow_succ]; ring
        have a2 : 1 ≤ 2 * 2 ^ d := by have := Nat.one_le_two_pow (n := d); omega
        zify [a2, hv.le]
        rw [Int.toNat_of_nonneg (by omega), a1, abs_of_neg h0]
        ring
      rw [e2, Nat.mul_add_div (by positivity), Nat.div_eq_of_lt (by omega), add_zero]
    rw [e]
    have := Nat.one_le_two_pow (n := d)
    constructor
    · intro; exact h0
    · intro; omega
  · rw [wrapU_of_nonneg h0 (by omega)]
    rw [Nat.div_eq_of_lt (by omega)]
    simp; exact h0

theorem mask_eq (c : Cfg) (h : 1 ≤ c.N) : c.mask = 2 ^ c.N - 1 := by
  unfold Cfg.mask Cfg.signBit
  have h2 := two_pow_pred_nat h
  have h1 := Nat.one_le_two_pow (n := c.N - 1)
  have := Nat.two_pow_add_eq_or_of_lt (i := c.N - 1) (b := 2 ^ (c.N - 1) - 1) (by omega) 1
  rw [mul_one] at this
  rw [Nat.or_comm, ← this]; omega

theorem bitmask_eq {w n : ℕ} (hn : 1 ≤ n) (hnw : n ≤ w) : Posit.bitmask w n = .ok (2 ^ n - 1) := by
  unfold Posit.bitmask
  have hp := le_pw w
  rw [shrU_ok (k := w - n) (by omega) (by omega)]
  simp only [bind, Except.bind, pure, Except.pure]
  rw [if_pos (by omega)]
  congr 1
  have e : (2 ^ w - 1) / 2 ^ (w - n) = 2 ^ n - 1 := by
    have : 2 ^ w = 2 ^ (w - n) * 2 ^ n := by rw [← pow_add]; congr 1; omega
    have h1 := Nat.one_le_two_pow (n := w - n)
    have h2 := Nat.one_le_two_pow (n := n)
    have e2 : 2 ^ w - 1 = 2 ^ (w - n) * (2 ^ n - 1) + (2 ^ (w - n) - 1) := by
      rw [this, Nat.mul_sub]
      have : 2 ^ (w - n) * 1 ≤ 2 ^ (w - n) * 2 ^ n := Nat.mul_le_mul_left _ h2
      omega
    rw [e2, Nat.mul_add_div (by positivity), Nat.div_eq_of_lt (by omega), add_zero]
  rw [e, Nat.and_comm, Nat.and_two_pow_sub_one_eq_mod]
  apply Nat.mod_eq_of_lt
  have := Nat.pow_le_pow_right (n := 2) (by norm_num) hnw
  have := Nat.one_le_two_pow (n := n)
  omega

theorem leftmostGet_eq {w n x : ℕ} (hn : n ≤ w) (hx : x < 2 ^ w) :
    Posit.leftmostGet w n x = .ok (x * 2 ^ n / 2 ^ w) := by
  unfold Posit.leftmostGet
  have hp := le_pw w
  split_ifs with h0
  · subst h0; rw [pow_zero, mul_one, Nat.div_eq_of_lt hx]
  · unfold Posit.bitsetGet
    rw [shrU_ok (k := w - n) rfl (by omega), bitmask_eq (by omega) hn]
    simp only [bind, Except.bind, pure, Except.pure]
    have hw : 2 ^ w = 2 ^ (w - n) * 2 ^ n := by rw [← pow_add]; congr 1; omega
    rw [Nat.and_two_pow_sub_one_eq_mod, Nat.mod_eq_of_lt, hw, Nat.mul_div_mul_right _ _ (by positivity)]
    rw [Nat.div_lt_iff_lt_mul (by positivity), mul_comm, ← hw]; exact hx

/-- the exponent and fraction bits after the regime, in the scale `2^(es+H)` -/
def lowW (c : Cfg) (m rest : ℕ) : ℕ := rest * 2 ^ (c.H - m) * 2 ^ c.es

theorem real_not_special (h : c.WF) {v : Int} (hv : c.fmt.IsReal v) :
    Posit.isInfinity c v = false ∧ Posit.isNaN c v = false := by
  have hb := hv
  have hg := h.pow_ge
  unfold Format.IsReal Format.maxBody at hb
  simp only [Cfg.fmt] at hb
  have e1 : ((2 ^ (c.N - 1) - 1 : ℕ) : Int) = 2 ^ (c.N - 1) - 1 := by
    rw [Nat.cast_sub Nat.one_le_two_pow]; push_cast; rfl
  have e2 : ((2 ^ (c.N - 1) - 2 : ℕ) : Int) = 2 ^ (c.N - 1) - 2 := by
    rw [Nat.cast_sub (by zify; omega)]; push_cast; rfl
  unfold Posit.isInfinity Posit.isNaN
  rw [h.pinf_eq, h.ninf_eq, h.nan_eq]
  rcases hs : c.spec with _ | _ | _ <;> simp [hs, e1, e2] at hb ⊢ <;> omega

theorem real_inRange {v : Int} (hv : c.fmt.IsReal v) : v.natAbs < 2 ^ (c.N - 1) := hv.inRange

theorem fit32 (h : c.WF) (hw : c.H < 32) {x k : ℕ} (hx : x < 2 ^ c.H) (hk : k < c.H) : x * 2 ^ k < 2 ^ 32 := by
  have hH : c.H ≤ 16 := by have := h.hH; omega
  calc x * 2 ^ k < 2 ^ c.H * 2 ^ k := Nat.mul_lt_mul_of_pos_right hx (by positivity)
    _ = 2 ^ (c.H + k) := by rw [pow_add]
    _ ≤ 2 ^ 32 := Nat.pow_le_pow_right (by norm_num) (by omega)

/-- `unpack_low` on a nonzero pattern of magnitude below `2^(N-1)` that is not special -/
theorem unpackLow_body (h : c.WF) {v : Int} (hv : v.natAbs < 2 ^ (c.N - 1)) (h0 : v ≠ 0)
    (hinf : Posit.isInfinity c v = false) (hnan : Posit.isNaN c v = false)
    {r : ℤ} {m rest : ℕ} (hd : Dec (c.N - 1) v.natAbs r m rest) :
    Posit.unpackLow c v = .ok (Low.mk .regular (v < 0) r (lowW c m rest / 2 ^ c.H) (lowW c m rest % 2 ^ c.H)) := by
  have hN := h.hN
  have hN3 := h.N_ge
  have hes := h.hes
  have hm := hd.m_lt
  have hH8 := h.H_pos
  unfold Posit.unpackLow
  rw [hinf, hnan]
  simp only [Bool.false_eq_true, if_false, h0]
  have hst : decide (wrapU c.H v &&& c.signBit ≠ 0) = decide (v < 0) := by
    rw [decide_eq_decide]; exact signBit_test h hv
  rw [hst]
  have hP : (2 : Int) ^ (c.N - 1) ≤ 2 ^ (c.H - 1) := h.pow_le
  have hvI : (v.natAbs : Int) < 2 ^ (c.N - 1) := by exact_mod_cast hv
  have hpa : Posit.condNeg c.H (decide (v < 0)) v = .ok (v.natAbs : Int) := by
    unfold Posit.condNeg
    split_ifs with hneg
    · simp only [decide_eq_true_eq] at hneg
      rw [arithS_ok' (by unfold InS; omega)]
      simp only [bind, Except.bind, pure, Except.pure]
      rw [wrapS_of_inS (by omega) (by unfold InS; omega)]
      congr 1; omega
    · simp only [decide_eq_true_eq] at hneg
      simp only [pure, Except.pure]
      congr 1; omega
  have hp2H : (2:ℕ) ^ c.H = 2 ^ (c.N - 1) * 2 ^ (c.H - (c.N - 1)) := by rw [← pow_add]; congr 1; omega
  have hlt2 : v.natAbs * 2 ^ (c.H - (c.N - 1)) < 2 ^ c.H := by
    rw [hp2H]; exact Nat.mul_lt_mul_of_pos_right hv (by positivity)
  have hpwH := le_pw c.H
  have hsh : ∃ y, shlS c.H (v.natAbs : Int) ((c.extraBits : Int) + 1) = .ok y ∧
      wrapU c.H y = v.natAbs * 2 ^ (c.H - (c.N - 1)) := by
    have hext : (c.extraBits : Int) + 1 = (c.H - (c.N - 1) : ℕ) := by unfold Cfg.extraBits; omega
    unfold shlS
    rw [hext, Int.toNat_natCast, if_neg (by omega)]
    have hle : (2:ℕ) ^ c.H ≤ 2 ^ pw c.H := Nat.pow_le_pow_right (by norm_num) hpwH
    have hnn : ¬ ((v.natAbs : Int) < 0 ∨ (2 : Int) ^ pw c.H ≤ (v.natAbs : Int) * 2 ^ (c.H - (c.N - 1))) := by
      push Not
      refine ⟨by omega, ?_⟩
      exact_mod_cast lt_of_lt_of_le hlt2 hle
    rw [if_neg hnn]
    refine ⟨_, rfl, ?_⟩
    have hpos : 1 ≤ pw c.H := by have := le_pw32 c.H; omega
    rw [wrapU_wrapS hpwH]
    have := wrapU_natCast (w := c.H) hlt2
    push_cast at this
    simpa using this
  obtain ⟨y, hy1, hy2⟩ := hsh
  have hdec := decodeRs_eq h hd hv
  obtain ⟨p2, hp2, hp2m⟩ := shlU_ok_mod (w := c.H) (x := v.natAbs * 2 ^ (c.H - (c.N - 1)))
    (n := ((c.N - 1 - m : ℕ) : ℤ)) (k := c.N - 1 - m) rfl (by omega) (fun hw => fit32 h hw hlt2 (by omega))
  have hmod : v.natAbs * 2 ^ (c.H - (c.N - 1)) * 2 ^ (c.N - 1 - m) % 2 ^ c.H = rest * 2 ^ (c.H - m) := by
    rw [mul_assoc, ← pow_add, show c.H - (c.N - 1) + (c.N - 1 - m) = c.H - m by omega,
      show (2:ℕ) ^ c.H = 2 ^ m * 2 ^ (c.H - m) by rw [← pow_add]; congr 1; omega, Nat.mul_mod_mul_right, hd.rs]
  rw [hmod] at hp2m
  have hW : rest * 2 ^ (c.H - m) < 2 ^ c.H := by
    rw [show (2:ℕ) ^ c.H = 2 ^ m * 2 ^ (c.H - m) by rw [← pow_add]; congr 1; omega]
    exact Nat.mul_lt_mul_of_pos_right hd.hrest (by positivity)
  have hget := leftmostGet_eq (n := c.es) (by omega) hW
  obtain ⟨p3, hp3, hp3m⟩ := shlU_ok_mod (w := c.H) (x := rest * 2 ^ (c.H - m))
    (n := (c.es : ℤ)) (k := c.es) rfl (by omega) (fun hw => fit32 h hw hW (by omega))
  have hreg : wrapS c.H r = r := by
    apply wrapS_of_inS (by omega)
    have h1 : (c.N : ℤ) < 2 ^ (c.N - 1) := by
      have : ∀ n : ℕ, 3 ≤ n → n < 2 ^ (n - 1) := by
        intro n hn
        induction n, hn using Nat.le_induction with
        | base => norm_num
        | succ n hn ih =>
          rw [two_pow_pred_nat (by omega), Nat.add_sub_cancel]; omega
      exact_mod_cast this c.N hN3
    rcases hd.cases with hc | hc | hc <;> (unfold InS; omega)
  simp only [hpa, bind, Except.bind, hy1, hy2, hdec, hp2, hp2m, hget, hp3, hp3m, pure, Except.pure, hreg, lowW]

end Verif
