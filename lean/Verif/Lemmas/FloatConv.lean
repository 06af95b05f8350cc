import Verif.Model.FloatConv
import Verif.Lemmas.Grid
import Verif.Lemmas.Den
import Verif.Lemmas.Low

/-! # Fraction alignment of the conversions from and to fixed point and IEEE floats -/

namespace Verif

open Fmt

variable {F L n : ℕ}

/-- `F`-bit fraction field of a number with mantissa `n ∈ [2^L, 2^(L+1))` -/
def fracOf (F L n : ℕ) : ℕ := if L ≤ F then (n - 2 ^ L) * 2 ^ (F - L) else (n - 2 ^ L) / 2 ^ (L - F)

theorem fracOf_lt (h2 : n < 2 ^ (L + 1)) : fracOf F L n < 2 ^ F := by
  unfold fracOf
  rw [pow_succ] at h2
  split_ifs with h
  · calc (n - 2 ^ L) * 2 ^ (F - L) < 2 ^ L * 2 ^ (F - L) := Nat.mul_lt_mul_of_pos_right (by omega) (by positivity)
      _ = 2 ^ F := by rw [← pow_add]; congr 1; omega
  · rw [Nat.div_lt_iff_lt_mul (by positivity), ← pow_add, show F + (L - F) = L by omega]
    omega

theorem fracOf_add (h1 : 2 ^ L ≤ n) :
    2 ^ F + fracOf F L n = if L ≤ F then n * 2 ^ (F - L) else n / 2 ^ (L - F) := by
  unfold fracOf
  split_ifs with h
  · have : 2 ^ F = 2 ^ L * 2 ^ (F - L) := by rw [← pow_add]; congr 1; omega
    rw [this, ← add_mul]
    congr 1; omega
  · have : 2 ^ L = 2 ^ (L - F) * 2 ^ F := by rw [← pow_add]; congr 1; omega
    have e : n = 2 ^ (L - F) * 2 ^ F + (n - 2 ^ L) := by omega
    conv_rhs => rw [e, Nat.mul_add_div (by positivity)]

theorem fracOf_unit (h1 : 2 ^ L ≤ n) (X : ℤ) :
    mag F (X + L) (fracOf F L n) = ((2 ^ F + fracOf F L n : ℕ) : ℚ) * 2 ^ (X + L - F) ∧
    ((2 ^ F + fracOf F L n : ℕ) : ℚ) * 2 ^ (X + L - F) ≤ n * 2 ^ X ∧
    (n : ℚ) * 2 ^ X < ((2 ^ F + fracOf F L n : ℕ) + 1 : ℚ) * 2 ^ (X + L - F) := by
  refine ⟨?_, ?_⟩
  · have := mag_sub (F := F) (e := X + L) (x := 2 ^ F + fracOf F L n) (by omega)
    rwa [Nat.add_sub_cancel_left] at this
  rw [fracOf_add h1]
  have hX : (0 : ℚ) < 2 ^ X := by positivity
  split_ifs with h
  · have e : X = (X + L - F) + ((F - L : ℕ) : ℤ) := by omega
    have e2 : (n : ℚ) * 2 ^ X = ((n * 2 ^ (F - L) : ℕ) : ℚ) * 2 ^ (X + L - F) := by
      conv_lhs => rw [e, zpow_add₀ (by norm_num), zpow_natCast]
      push_cast; ring
    rw [e2]
    refine ⟨le_rfl, ?_⟩
    have : (0 : ℚ) < 2 ^ (X + L - F) := by positivity
    nlinarith
  · have e : X + L - F = X + ((L - F : ℕ) : ℤ) := by omega
    rw [e, zpow_add₀ (by norm_num), zpow_natCast]
    have a1 : n / 2 ^ (L - F) * 2 ^ (L - F) ≤ n := Nat.div_mul_le_self _ _
    have a2 : n < (n / 2 ^ (L - F) + 1) * 2 ^ (L - F) := by
      rw [mul_comm]; exact Nat.lt_mul_div_succ n (by positivity)
    have b1 : ((n / 2 ^ (L - F) : ℕ) : ℚ) * 2 ^ (L - F) ≤ n := by exact_mod_cast a1
    have b2 : (n : ℚ) < ((n / 2 ^ (L - F) : ℕ) + 1) * 2 ^ (L - F) := by exact_mod_cast a2
    constructor
    · calc ((n / 2 ^ (L - F) : ℕ) : ℚ) * (2 ^ X * 2 ^ (L - F)) = (((n / 2 ^ (L - F) : ℕ) : ℚ) * 2 ^ (L - F)) * 2 ^ X := by ring
        _ ≤ n * 2 ^ X := mul_le_mul_of_nonneg_right b1 hX.le
    · calc (n : ℚ) * 2 ^ X < (((n / 2 ^ (L - F) : ℕ) + 1) * 2 ^ (L - F)) * 2 ^ X := mul_lt_mul_of_pos_right b2 hX
        _ = _ := by ring

theorem fracOf_exact (h1 : 2 ^ L ≤ n) (h : L ≤ F) (X : ℤ) : mag F (X + L) (fracOf F L n) = n * 2 ^ X := by
  rw [(fracOf_unit h1 X).1, fracOf_add h1, if_pos h]
  have e : X = (X + L - F) + ((F - L : ℕ) : ℤ) := by omega
  conv_rhs => rw [e, zpow_add₀ (by norm_num), zpow_natCast]
  push_cast; ring

/-- packing the unpacked form of `±n·2^X` truncates it, unless the fraction type is too narrow for both -/
theorem pack_nat {c : Cfg} (h : c.WF) (neg : Bool) (h1 : 2 ^ L ≤ n) (h2 : n < 2 ^ (L + 1)) (X : ℤ)
    (hF : c.fb ≤ c.F ∨ L ≤ c.F) (hs : c.SafeMag ((n : ℚ) * 2 ^ X)) :
    ∃ r : ℤ, Posit.pack c ⟨.regular, neg, X + L, fracOf c.F L n⟩ = .ok r ∧
      c.fmt.IsTrunc ((if neg then -1 else 1 : ℚ) * (n * 2 ^ X)) r := by
  have hn : 0 < n := lt_of_lt_of_le (by positivity) h1
  have hpos : (0 : ℚ) < n * 2 ^ X := by
    have : (0 : ℚ) < n := by exact_mod_cast hn
    positivity
  have key : ∃ p : ℕ, Posit.pack c ⟨.regular, neg, X + L, fracOf c.F L n⟩ = .ok (if neg then -(p : ℤ) else p) ∧
      c.fmt.TruncB ((n : ℚ) * 2 ^ X) p := by
    obtain ⟨a, b, d⟩ := fracOf_unit (F := c.F) h1 X
    by_cases hfb : c.fb ≤ c.F
    · refine pack_of_unit h neg (fracOf_lt h2) (u := 2 ^ c.F + fracOf c.F L n) (Y := X + L - c.F) ?_ a b d hs
      exact le_trans (Nat.pow_le_pow_right (by norm_num) hfb) (Nat.le_add_right _ _)
    · have hL : L ≤ c.F := by tauto
      have hm := fracOf_exact (F := c.F) h1 hL X
      have hlt := fracOf_lt (F := c.F) h2
      have hps : c.PackSafe (X + L) := by
        refine packSafe_of_safeMag hs ?_ ?_ <;> rw [abs_of_pos hpos, ← hm]
        · exact le_mag _ _ _
        · exact mag_lt hlt
      obtain ⟨p, hp, ht⟩ := pack_regular h neg hlt hps
      refine ⟨p, hp, ?_⟩
      have : (2 : ℚ) ^ (X + L) * (1 + (fracOf c.F L n : ℚ) / 2 ^ c.F) = n * 2 ^ X := hm
      rwa [this] at ht
  obtain ⟨p, hp, ht⟩ := key
  exact ⟨_, hp, Format.IsTrunc.of_sign neg hpos ht⟩

theorem pow_le_32 {w : ℕ} (h : w < 32) : 2 ^ w ≤ 2 ^ 32 := Nat.pow_le_pow_right (by norm_num) (by omega)

theorem mod_mul_pow_lt {x a b : ℕ} (h : a ≤ b) : x % 2 ^ a * 2 ^ (b - a) < 2 ^ b := by
  calc x % 2 ^ a * 2 ^ (b - a) < 2 ^ a * 2 ^ (b - a) :=
        Nat.mul_lt_mul_of_pos_right (Nat.mod_lt _ (by positivity)) (by positivity)
    _ = 2 ^ b := by rw [← pow_add]; congr 1; omega

theorem bitsetGet_eq {w x o s : ℕ} (hs : 1 ≤ s) (hos : o + s ≤ w) :
    Posit.bitsetGet w x o s = .ok (x / 2 ^ o % 2 ^ s) := by
  have hpw := le_pw w
  unfold Posit.bitsetGet
  rw [shrU_ok (k := o) rfl (by omega), bitmask_eq hs (by omega)]
  simp only [bind, Except.bind, pure, Except.pure]
  rw [Nat.and_two_pow_sub_one_eq_mod]

theorem castRightToLeft_eq {aw a b x : ℕ} (ha : 1 ≤ a) (haw : a ≤ aw) (hb : 1 ≤ b) :
    Bits.castRightToLeft aw a b x =
      .ok (if b < a then x % 2 ^ a / 2 ^ (a - b) else x % 2 ^ a * 2 ^ (b - a)) := by
  unfold Bits.castRightToLeft
  rw [bitsetGet_eq ha (by omega)]
  have hpa := le_pw aw
  have hpb := le_pw b
  simp only [bind, Except.bind, pure, Except.pure, pow_zero, Nat.div_one]
  have hlt := Nat.mod_lt x (show 0 < 2 ^ a by positivity)
  split_ifs with h
  · rw [shrU_ok (k := a - b) (by omega) (by omega)]
    simp only []
    congr 1
    apply Nat.mod_eq_of_lt
    rw [Nat.div_lt_iff_lt_mul (by positivity), ← pow_add, show b + (a - b) = a by omega]
    exact hlt
  · have hle : 2 ^ a ≤ 2 ^ b := Nat.pow_le_pow_right (by norm_num) (by omega)
    rw [Nat.mod_eq_of_lt (lt_of_lt_of_le hlt hle)]
    have hm := mod_mul_pow_lt (x := x) (show a ≤ b by omega)
    obtain ⟨y, hy, hy2⟩ := shlU_ok_mod (w := b) (x := x % 2 ^ a) (n := (b : ℤ) - a) (k := b - a) (by omega) (by omega)
      (fun h32 => lt_of_lt_of_le hm (pow_le_32 h32))
    rw [hy]
    simp only []
    rw [hy2, Nat.mod_eq_of_lt hm]

theorem extractPack_eq {a b w f : ℕ} (hb : 1 ≤ b) (hbw : b ≤ w) (ha : 1 ≤ a) (hf : f < 2 ^ a) :
    Unp.extractPack a b w f = .ok (if b < a then f / 2 ^ (a - b) else f * 2 ^ (b - a)) := by
  unfold Unp.extractPack
  have hpw := le_pw w
  have hw : 2 ^ b ≤ 2 ^ w := Nat.pow_le_pow_right (by norm_num) hbw
  split_ifs with h
  · rw [bitsetGet_eq hb (by omega)]
    simp only [bind, Except.bind, pure, Except.pure]
    congr 1
    have : f / 2 ^ (a - b) < 2 ^ b := by
      rw [Nat.div_lt_iff_lt_mul (by positivity), ← pow_add, show b + (a - b) = a by omega]
      exact hf
    rw [Nat.mod_eq_of_lt this, Nat.mod_eq_of_lt (lt_of_lt_of_le this hw)]
  · have hle : 2 ^ a ≤ 2 ^ w := Nat.pow_le_pow_right (by norm_num) (by omega)
    rw [Nat.mod_eq_of_lt (lt_of_lt_of_le hf hle)]
    have hm := mod_mul_pow_lt (x := f) (show a ≤ b by omega)
    rw [Nat.mod_eq_of_lt hf] at hm
    obtain ⟨y, hy, hy2⟩ := shlU_ok_mod (w := w) (x := f) (n := (b : ℤ) - a) (k := b - a) (by omega) (by omega)
      (fun h32 => lt_of_lt_of_le hm (le_trans hw (pow_le_32 h32)))
    rw [hy]
    simp only [bind, Except.bind, pure, Except.pure]
    rw [hy2, Nat.mod_eq_of_lt (lt_of_lt_of_le hm hw)]

end Verif
