import Verif.Lemmas.Decode

/-! # Closed form of `pack_low` -/

namespace Verif
open Fmt

variable {c : Cfg}

/-- regime run length of a regime -/
def kOf (reg : Int) : ℕ := if reg < 0 then (-reg).toNat else (reg + 1).toNat

/-- the body computed by `pack_low` for regime `reg` and exponent/fraction bits `W < 2^(es+H)` -/
def packBody (c : Cfg) (reg : Int) (W : ℕ) : ℕ :=
  if kOf reg + 2 ≤ c.N then
    (if reg < 0 then 2 ^ (c.N - 2 - kOf reg) else 2 ^ (c.N - 1) - 2 ^ (c.N - 2 - kOf reg + 1)) +
      W * 2 ^ (c.N - 2 - kOf reg) / 2 ^ (c.es + c.H)
  else if reg < 0 then 0 else 2 ^ (c.N - 1) - 1

theorem or_div (a b n : ℕ) : (a ||| b) / 2 ^ n = a / 2 ^ n ||| b / 2 ^ n := by
  simp only [← Nat.shiftRight_eq_div_pow, Nat.shiftRight_or_distrib]

theorem or_eq_add {a n : ℕ} (b : ℕ) (h : a < 2 ^ n) : a ||| 2 ^ n * b = 2 ^ n * b + a := by
  rw [Nat.or_comm]; exact (Nat.two_pow_add_eq_or_of_lt h b).symm

theorem pow_sub_pow_mod {N H k : ℕ} (hN : N ≤ H) (hk : k ≤ N) :
    (2 ^ N - 1) * 2 ^ (H - k) % 2 ^ H = 2 ^ H - 2 ^ (H - k) := by
  have e1 : 2 ^ H = 2 ^ k * 2 ^ (H - k) := by rw [← pow_add]; congr 1; omega
  have e2 : 2 ^ N = 2 ^ k * 2 ^ (N - k) := by rw [← pow_add]; congr 1; omega
  have h1 := Nat.one_le_two_pow (n := k)
  have h2 := Nat.one_le_two_pow (n := N - k)
  rw [e1, Nat.mul_mod_mul_right]
  have : (2 ^ N - 1) % 2 ^ k = 2 ^ k - 1 := by
    obtain ⟨z, hz⟩ := Nat.exists_eq_add_of_le h2
    have : 2 ^ N - 1 = 2 ^ k * z + (2 ^ k - 1) := by
      rw [e2, hz, Nat.mul_add]; omega
    rw [this, Nat.mul_add_mod, Nat.mod_eq_of_lt (by omega)]
  rw [this, Nat.sub_mul, one_mul]

theorem regBits_eq (h : c.WF) {reg : Int} (hk : kOf reg ≤ c.N) (hs : kOf reg < pw c.H) :
    Posit.regBits c reg = .ok (if reg < 0 then 2 ^ (c.H - 1) / 2 ^ kOf reg else 2 ^ c.H - 2 ^ (c.H - kOf reg)) := by
  have hN := h.hN
  have hN3 := h.N_ge
  have hpw := le_pw c.H
  unfold Posit.regBits
  split_ifs with hr
  · have hke : -reg = (kOf reg : ℕ) := by unfold kOf; rw [if_pos hr]; omega
    rw [shrU_ok hke hs]
    simp only [bind, Except.bind, pure, Except.pure, Cfg.holderMsb]
    rw [Nat.mod_eq_of_lt]
    calc 2 ^ (c.H - 1) / 2 ^ kOf reg ≤ 2 ^ (c.H - 1) := Nat.div_le_self _ _
      _ < 2 ^ c.H := Nat.pow_lt_pow_right (by norm_num) (by omega)
  · have hke : (c.H : Int) - (reg + 1) = (c.H - kOf reg : ℕ) := by
      unfold kOf at *; rw [if_neg hr] at *; omega
    have hk1 : 1 ≤ kOf reg := by unfold kOf; rw [if_neg hr]; omega
    obtain ⟨y, hy1, hy2⟩ := shlU_ok_mod (w := c.H) (x := c.mask) hke (by omega) (fun hw => fit32 h hw (by
        rw [mask_eq c (by omega)]
        have := Nat.pow_le_pow_right (n := 2) (by norm_num) hN
        have := Nat.one_le_two_pow (n := c.N)
        omega) (by omega))
    rw [hy1]
    simp only [bind, Except.bind, pure, Except.pure]
    rw [hy2, mask_eq c (by omega), pow_sub_pow_mod hN hk]

theorem msbExp_eq (h : c.WF) {exp : ℕ} (hexp : exp < 2 ^ c.es) :
    Posit.msbExp c exp = .ok (exp * 2 ^ (c.H - c.es)) := by
  have hN := h.hN
  have hes := h.hes
  have hpw := le_pw c.H
  unfold Posit.msbExp
  split_ifs with h0
  · rw [h0, pow_zero] at hexp
    have : exp = 0 := by omega
    rw [this, zero_mul]
  · have hlt : exp * 2 ^ (c.H - c.es) < 2 ^ c.H := by
      rw [show (2:ℕ) ^ c.H = 2 ^ c.es * 2 ^ (c.H - c.es) by rw [← pow_add]; congr 1; omega]
      exact Nat.mul_lt_mul_of_pos_right hexp (by positivity)
    obtain ⟨y, hy1, hy2⟩ := shlU_ok_mod (w := c.H) (x := exp) (n := (c.H : Int) - c.es) (k := c.H - c.es)
      (by omega) (by omega) (fun hw => lt_trans hlt (Nat.pow_lt_pow_right (by norm_num) hw))
    rw [hy1]
    simp only [bind, Except.bind, pure, Except.pure]
    rw [hy2, Nat.mod_eq_of_lt hlt]

theorem packBody_lt (h : c.WF) {reg : Int} {W : ℕ} (hW : W < 2 ^ (c.es + c.H)) :
    packBody c reg W < 2 ^ (c.N - 1) := by
  have hN3 := h.N_ge
  have h1 := Nat.one_le_two_pow (n := c.N - 1)
  unfold packBody
  split_ifs with hk hr hr
  · have hlt : W * 2 ^ (c.N - 2 - kOf reg) / 2 ^ (c.es + c.H) < 2 ^ (c.N - 2 - kOf reg) := by
      rw [Nat.div_lt_iff_lt_mul (by positivity), mul_comm]
      exact Nat.mul_lt_mul_of_pos_left hW (by positivity)
    have hk1 : 1 ≤ kOf reg := by unfold kOf; rw [if_pos hr]; omega
    have : 2 ^ (c.N - 2 - kOf reg + 1) ≤ 2 ^ (c.N - 1) := Nat.pow_le_pow_right (by norm_num) (by omega)
    rw [pow_succ] at this
    omega
  · have hlt : W * 2 ^ (c.N - 2 - kOf reg) / 2 ^ (c.es + c.H) < 2 ^ (c.N - 2 - kOf reg) := by
      rw [Nat.div_lt_iff_lt_mul (by positivity), mul_comm]
      exact Nat.mul_lt_mul_of_pos_left hW (by positivity)
    have : 2 ^ (c.N - 2 - kOf reg + 1) ≤ 2 ^ (c.N - 1) := Nat.pow_le_pow_right (by norm_num) (by omega)
    rw [pow_succ] at *
    omega
  · omega
  · omega

theorem condNeg_ok (h : c.WF) (neg : Bool) {p : ℕ} (hp : p < 2 ^ (c.N - 1)) :
    Posit.condNeg c.H neg (p : Int) = .ok (if neg then -(p : Int) else p) := by
  have hP := h.pow_le
  have hpI : (p : Int) < 2 ^ (c.N - 1) := by exact_mod_cast hp
  have hH := h.H_pos
  unfold Posit.condNeg
  cases neg
  · simp [pure, Except.pure]
  · simp only [if_true]
    rw [arithS_ok' (by unfold InS; omega)]
    simp only [bind, Except.bind, pure, Except.pure]
    rw [wrapS_of_inS (by omega) (by unfold InS; omega)]

/-- the three OR-ed fields, with a nonnegative number `m` of bits after the regime -/
theorem fields_or {H N es k m exp frac : ℕ} (hm : k + 2 + m = N) (hN : N ≤ H) (hes : es ≤ H) (hexp : exp < 2 ^ es)
    (hfrac : frac < 2 ^ H) (R : ℕ) :
    frac / 2 ^ (min N (k + 2 + es)) / 2 ^ (H - N) ||| exp * 2 ^ (H - es) / 2 ^ (k + 2) / 2 ^ (H - N) ||| 2 ^ m * R
      = 2 ^ m * R + (exp * 2 ^ H + frac) * 2 ^ m / 2 ^ (es + H) := by
  rw [Nat.div_div_eq_div_mul, Nat.div_div_eq_div_mul, ← pow_add, ← pow_add]
  have hb : k + 2 + (H - N) = H - m := by omega
  rw [hb]
  rcases le_or_gt es m with hle | hlt
  · have ha : min N (k + 2 + es) + (H - N) = H - (m - es) := by omega
    rw [ha]
    have e1 : exp * 2 ^ (H - es) / 2 ^ (H - m) = 2 ^ (m - es) * exp := by
      rw [show H - es = (m - es) + (H - m) by omega, pow_add, ← mul_assoc, Nat.mul_div_cancel _ (by positivity), mul_comm]
    have e2 : (exp * 2 ^ H + frac) * 2 ^ m / 2 ^ (es + H) = 2 ^ (m - es) * exp + frac / 2 ^ (H - (m - es)) := by
      rw [show es + H = (H - (m - es)) + m by omega, pow_add _ _ m, Nat.mul_div_mul_right _ _ (by positivity)]
      rw [show exp * 2 ^ H = 2 ^ (H - (m - es)) * (2 ^ (m - es) * exp) by
        rw [← mul_assoc, ← pow_add, mul_comm]; congr 2; omega]
      rw [Nat.mul_add_div (by positivity)]
    have e3 : frac / 2 ^ (H - (m - es)) < 2 ^ (m - es) := by
      rw [Nat.div_lt_iff_lt_mul (by positivity), ← pow_add]
      rwa [show m - es + (H - (m - es)) = H by omega]
    have e4 : 2 ^ (m - es) * exp + frac / 2 ^ (H - (m - es)) < 2 ^ m := by
      have : 2 ^ m = 2 ^ (m - es) * 2 ^ es := by rw [← pow_add]; congr 1; omega
      rw [this]
      have : 2 ^ (m - es) * (exp + 1) ≤ 2 ^ (m - es) * 2 ^ es := Nat.mul_le_mul_left _ hexp
      rw [Nat.mul_add] at this
      omega
    rw [e1, e2, or_eq_add _ e3, or_eq_add _ e4]
  · have ha : min N (k + 2 + es) + (H - N) = H := by omega
    rw [ha, Nat.div_eq_of_lt hfrac, Nat.zero_or]
    have e1 : exp * 2 ^ (H - es) / 2 ^ (H - m) = exp / 2 ^ (es - m) := by
      rw [show H - m = (es - m) + (H - es) by omega, pow_add, Nat.mul_div_mul_right _ _ (by positivity)]
    have e2 : (exp * 2 ^ H + frac) * 2 ^ m / 2 ^ (es + H) = exp / 2 ^ (es - m) := by
      rw [show es + H = (es - m + H) + m by omega, pow_add _ _ m, Nat.mul_div_mul_right _ _ (by positivity), pow_add,
        mul_comm (2 ^ (es - m)) (2 ^ H), ← Nat.div_div_eq_div_mul, mul_comm exp, Nat.mul_add_div (by positivity),
        Nat.div_eq_of_lt hfrac, add_zero]
    have e4 : exp / 2 ^ (es - m) < 2 ^ m := by
      rw [Nat.div_lt_iff_lt_mul (by positivity), ← pow_add]
      rwa [show m + (es - m) = es by omega]
    rw [e1, e2, or_eq_add _ e4]

theorem packLowRegular_eq (h : c.WF) {neg : Bool} {reg : Int} {exp frac : ℕ} (hexp : exp < 2 ^ c.es)
    (hfrac : frac < 2 ^ c.H) (hk : kOf reg ≤ c.N) (hs1 : kOf reg + 2 < pw c.H)
    (hs2 : min c.N (kOf reg + 2 + c.es) < pw c.H) :
    Posit.packLowRegular c (Low.mk .regular neg reg exp frac) =
      .ok (if neg then -(packBody c reg (exp * 2 ^ c.H + frac) : Int) else packBody c reg (exp * 2 ^ c.H + frac)) := by
  have hN := h.hN
  have hN3 := h.N_ge
  have hes := h.hes
  have hpw := le_pw c.H
  have hpw32 := le_pw32 c.H
  have hW : exp * 2 ^ c.H + frac < 2 ^ (c.es + c.H) := by
    rw [pow_add]
    have : (exp + 1) * 2 ^ c.H ≤ 2 ^ c.es * 2 ^ c.H := Nat.mul_le_mul_right _ hexp
    rw [Nat.add_mul] at this
    omega
  have hbody := packBody_lt h (reg := reg) hW
  have hrs : (if -reg + 1 > reg + 2 then -reg + 1 else reg + 2 : Int) = (kOf reg : Int) + 1 := by
    unfold kOf; split_ifs <;> omega
  have hk1 : 1 ≤ kOf reg := by unfold kOf; split_ifs <;> omega
  unfold Posit.packLowRegular
  simp only [hrs]
  have hes' : (if (c.N : Int) - ((kOf reg : Int) + 1) - 1 < c.es then (c.N : Int) - ((kOf reg : Int) + 1) - 1 else c.es)
      = ((min c.N (kOf reg + 2 + c.es) : ℕ) : Int) - (kOf reg + 2) := by
    split_ifs <;> omega
  rw [hes', regBits_eq h hk (by omega), msbExp_eq h hexp,
    shrU_ok (k := min c.N (kOf reg + 2 + c.es)) (by omega) hs2]
  simp only [bind, Except.bind]
  rw [shrU_ok (k := kOf reg + 2) (by push_cast; omega) hs1]
  simp only
  rw [shrU_ok (n := 1) (k := 1) rfl (by omega)]
  simp only
  rw [shrU_ok (k := c.H - c.N) (by omega) (by omega)]
  simp only
  suffices hkey : (frac / 2 ^ min c.N (kOf reg + 2 + c.es) ||| exp * 2 ^ (c.H - c.es) / 2 ^ (kOf reg + 2) |||
      (if reg < 0 then 2 ^ (c.H - 1) / 2 ^ kOf reg else 2 ^ c.H - 2 ^ (c.H - kOf reg)) / 2 ^ 1) / 2 ^ (c.H - c.N) =
      packBody c reg (exp * 2 ^ c.H + frac) by
    rw [hkey, wrapS_of_inS (by have := h.H_pos; omega), condNeg_ok h neg hbody]
    have hP := h.pow_le
    have : ((packBody c reg (exp * 2 ^ c.H + frac) : ℕ) : Int) < 2 ^ (c.N - 1) := by exact_mod_cast hbody
    unfold InS; omega
  rw [or_div, or_div]
  have hreg : (if reg < 0 then 2 ^ (c.H - 1) / 2 ^ kOf reg else 2 ^ c.H - 2 ^ (c.H - kOf reg)) / 2 ^ 1 / 2 ^ (c.H - c.N)
      = if reg < 0 then 2 ^ (c.N - 1) / 2 ^ (kOf reg + 1) else
        (if kOf reg + 1 ≤ c.N then 2 ^ (c.N - 1) - 2 ^ (c.N - 1 - kOf reg) else 2 ^ (c.N - 1) - 1) := by
    split_ifs with hr hk2
    · rw [Nat.div_div_eq_div_mul, Nat.div_div_eq_div_mul, ← pow_add, ← pow_add,
        show c.H - 1 = (c.N - 1) + (c.H - c.N) by omega, pow_add, ← add_assoc, pow_add _ _ (c.H - c.N),
        Nat.mul_div_mul_right _ _ (by positivity)]
    · rw [Nat.div_div_eq_div_mul, ← pow_add]
      have e1 : 2 ^ c.H = 2 ^ (c.N - 1) * 2 ^ (1 + (c.H - c.N)) := by rw [← pow_add]; congr 1; omega
      have e2 : 2 ^ (c.H - kOf reg) = 2 ^ (c.N - 1 - kOf reg) * 2 ^ (1 + (c.H - c.N)) := by
        rw [← pow_add]; congr 1; omega
      rw [e1, e2, ← Nat.sub_mul, Nat.mul_div_cancel _ (by positivity)]
    · have hkN : kOf reg = c.N := by omega
      rw [hkN, Nat.div_div_eq_div_mul, ← pow_add]
      have e1 : 2 ^ c.H = 2 ^ (1 + (c.H - c.N)) * 2 ^ (c.N - 1) := by rw [← pow_add]; congr 1; omega
      have e2 : 2 ^ (1 + (c.H - c.N)) = 2 * 2 ^ (c.H - c.N) := by rw [pow_add, pow_one]
      obtain ⟨z, hz⟩ := Nat.exists_eq_add_of_le (Nat.one_le_two_pow (n := c.N - 1))
      have hp := Nat.one_le_two_pow (n := c.H - c.N)
      have e3 : 2 ^ c.H - 2 ^ (c.H - c.N) = 2 ^ (1 + (c.H - c.N)) * z + 2 ^ (c.H - c.N) := by
        rw [e1, hz, Nat.mul_add, e2]; omega
      rw [e3, Nat.mul_add_div (by positivity), Nat.div_eq_of_lt (by omega), hz]; omega
  rw [hreg]
  unfold packBody
  by_cases hk2 : kOf reg + 2 ≤ c.N
  · rw [if_pos hk2]
    obtain ⟨m, hm⟩ : ∃ m, kOf reg + 2 + m = c.N := ⟨c.N - (kOf reg + 2), by omega⟩
    have hmm : c.N - 2 - kOf reg = m := by omega
    rw [hmm]
    split_ifs with hr hk3
    · have : 2 ^ (c.N - 1) / 2 ^ (kOf reg + 1) = 2 ^ m * 1 := by
        rw [show c.N - 1 = m + (kOf reg + 1) by omega, pow_add, Nat.mul_div_cancel _ (by positivity), mul_one]
      rw [this, fields_or hm hN (by omega) hexp hfrac, mul_one]
    · have : 2 ^ (c.N - 1) - 2 ^ (c.N - 1 - kOf reg) = 2 ^ m * (2 ^ (kOf reg + 1) - 2) := by
        rw [Nat.mul_sub, ← pow_add, ← pow_succ]; congr 2 <;> omega
      rw [show c.N - 1 - kOf reg = m + 1 by omega] at *
      rw [this, fields_or hm hN (by omega) hexp hfrac]
    · omega
  · rw [if_neg hk2]
    have ha : frac / 2 ^ min c.N (kOf reg + 2 + c.es) / 2 ^ (c.H - c.N) = 0 := by
      rw [Nat.div_div_eq_div_mul, ← pow_add, show min c.N (kOf reg + 2 + c.es) + (c.H - c.N) = c.H by omega,
        Nat.div_eq_of_lt hfrac]
    have hb : exp * 2 ^ (c.H - c.es) / 2 ^ (kOf reg + 2) / 2 ^ (c.H - c.N) = 0 := by
      rw [Nat.div_div_eq_div_mul, ← pow_add]
      apply Nat.div_eq_of_lt
      calc exp * 2 ^ (c.H - c.es) < 2 ^ c.es * 2 ^ (c.H - c.es) := Nat.mul_lt_mul_of_pos_right hexp (by positivity)
        _ = 2 ^ c.H := by rw [← pow_add]; congr 1; omega
        _ ≤ _ := Nat.pow_le_pow_right (by norm_num) (by omega)
    rw [ha, hb, Nat.zero_or, Nat.zero_or]
    split_ifs with hr hk3
    · exact Nat.div_eq_of_lt (Nat.pow_lt_pow_right (by norm_num) (by omega))
    · rw [show c.N - 1 - kOf reg = 0 by omega, pow_zero]
    · rfl

end Verif
