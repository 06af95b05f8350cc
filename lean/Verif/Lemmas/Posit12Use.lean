import Verif.Lemmas.Posit12
import Verif.Lemmas.Posit8Use

/-! # From checked posit12 tables to statements on patterns -/

namespace Verif.Posit12
open Fmt

theorem maxBody_eq : cfg.fmt.maxBody = 2047 := by decide

theorem real_iff {v : ℤ} : cfg.fmt.IsReal v ↔ -2047 ≤ v ∧ v ≤ 2047 := by
  unfold Format.IsReal; rw [maxBody_eq]; norm_num

theorem canon_iff {v : ℤ} : cfg.fmt.IsCanonical v ↔ -2048 ≤ v ∧ v ≤ 2047 := by
  unfold Format.IsCanonical
  rw [show cfg.fmt.N = 12 from rfl]
  norm_num
  intro _
  omega

/-- the index of a pattern -/
structure Idx (v : ℤ) (a : ℕ) : Prop where
  lt : a < 4096
  sign : 2048 ≤ a ↔ v < 0
  mag : mg 2048 a = v.natAbs
  zero : a = 0 ↔ v = 0
  nan : a = 2048 ↔ v = -2048

theorem idx {v : ℤ} (hv : cfg.fmt.IsCanonical v) : Idx v (uu v) := by
  rw [canon_iff] at hv
  unfold uu
  refine ⟨by omega, by omega, ?_, by omega, by omega⟩
  rw [mg_eq]; split_ifs <;> omega

theorem val12 {v : ℤ} (hv : cfg.fmt.IsReal v) (h0 : v ≠ 0) :
    cfg.fmt.val v = (if v < 0 then -1 else 1) * ((W v.natAbs : ℚ) / 2 ^ 40) ∧ 0 < W v.natAbs :=
  val_byte maxBody_eq W_spec hv h0

theorem chk12_spec {neg : Bool} {n d t : ℕ} (ht : t < 2 ^ 16) (hd : 0 < d) (hn : 0 < n)
    (h : chk W 2047 32768 neg n d t = true) :
    cfg.fmt.IsTrunc ((if neg then -1 else 1) * ((n : ℚ) / (d * 2 ^ 40))) (wrapS 16 t) :=
  chk_spec (w := 16) maxBody_eq W_spec (by norm_num) ht hd hn h

theorem at1_chk {w : ℕ} {p : ℕ → ℕ → ℕ → Bool} {t : List ℕ} (h : checkRows w 64 p t 64 = true) {a : ℤ}
    (ha : cfg.fmt.IsCanonical a) : p (uu a / 64) (uu a % 64) (tabGet w 64 t (uu a)) = true :=
  tab_spec h (i := uu a) (by have := (idx ha).lt; omega)

theorem idx_split (a : ℕ) : Nat.add (Nat.mul 64 (a / 64)) (a % 64) = a := Nat.div_add_mod a 64

theorem inv_real {a : ℤ} (ha : cfg.fmt.IsReal a) (ha0 : a ≠ 0) : cfg.fmt.IsTrunc (1 / cfg.fmt.val a) (inv a) := by
  have hc := at1_chk inv_ok ha.canonical
  obtain ⟨va, pa⟩ := val12 ha ha0
  have A := idx ha.canonical
  have hra := real_iff.mp ha
  unfold invChk at hc
  simp only [idx_split, Bool.cond_eq_ite, beq_iff, decide_eq_true_eq, A.nan, A.zero, A.mag] at hc
  rw [if_neg (by omega), if_neg ha0] at hc
  have := chk12_spec (Posit8.tabGet_lt 16 _ _ _) pa (n := 2 ^ 80) (by positivity) hc
  rw [va]
  refine Posit8.trunc_congr this ?_
  have : (W a.natAbs : ℚ) ≠ 0 := by positivity
  simp only [Nat.ble_eq, A.sign]
  split_ifs
  · field_simp; norm_num
  · field_simp; norm_num

theorem square_real {a : ℤ} (ha : cfg.fmt.IsReal a) (ha0 : a ≠ 0) :
    cfg.fmt.IsTrunc (cfg.fmt.val a * cfg.fmt.val a) (square a) := by
  have hc := at1_chk square_ok ha.canonical
  obtain ⟨va, pa⟩ := val12 ha ha0
  have A := idx ha.canonical
  have hra := real_iff.mp ha
  unfold squareChk at hc
  simp only [idx_split, Bool.cond_eq_ite, beq_iff, decide_eq_true_eq, A.nan, A.zero, A.mag] at hc
  rw [if_neg (by omega), if_neg ha0] at hc
  simp only [Nat.mul_eq, show Nat.pow 2 40 = 2 ^ 40 from rfl] at hc
  have := chk12_spec (Posit8.tabGet_lt 16 _ _ _) (d := 2 ^ 40) (by positivity) (Nat.mul_pos pa pa) hc
  rw [va, Posit8.sign_mul]
  refine Posit8.trunc_congr this ?_
  rw [if_neg (by simp)]
  push_cast
  ring

theorem float_real {a : ℤ} (ha : cfg.fmt.IsReal a) (ha0 : a ≠ 0) : ieee 8 23 (toFloat a) = .num (cfg.fmt.val a) := by
  have hc := at1_chk float_ok ha.canonical
  have A := idx ha.canonical
  have hra := real_iff.mp ha
  unfold floatChk at hc
  rw [idx_split] at hc
  have := f2Chk_spec (by rw [ne_eq, A.zero]; exact ha0) (by rw [ne_eq, A.nan]; omega) (Posit8.tabGet_lt 32 _ _ _) (by norm_num) hc
  rw [A.mag] at this
  simp only [A.sign] at this
  rw [(val12 ha ha0).1]
  exact this

end Verif.Posit12

namespace Verif.Posit8
open Fmt

theorem float_real {a : ℤ} (ha : cfg.fmt.IsReal a) (ha0 : a ≠ 0) : ieee 8 23 (toFloat a) = .num (cfg.fmt.val a) := by
  have h1 := (byte ha.canonical).lt
  have hc := tab_spec float_ok (i := uu a) (by omega)
  rw [show uu a % 256 = uu a by omega] at hc
  have A := byte ha.canonical
  have hra := real_iff.mp ha
  unfold floatChk at hc
  have := f2Chk_spec (by rw [ne_eq, A.zero]; exact ha0) (by rw [ne_eq, A.nan]; omega) (tabGet_lt 32 _ _ _) (by norm_num) hc
  rw [A.mag] at this
  simp only [A.sign] at this
  rw [(val8 ha ha0).1]
  exact this

/-- the positive numbers of the format not above `2^x`, by 64th powers of numbers in units of 1/64 -/
theorem exp2_real {a : ℤ} (ha : cfg.fmt.IsReal a) : ∃ t : ℕ, exp2 a = t ∧ 1 ≤ t ∧ t ≤ 127 ∧
    ∀ k, 2 ≤ k → k ≤ 127 → ((W k) ^ 64 * 2 ^ (if a < 0 then W a.natAbs else 0) ≤
      2 ^ (384 + if 0 < a then W a.natAbs else 0) ↔ k ≤ t) := by
  have hc := at1_chk exp2_ok ha.canonical
  have A := byte ha.canonical
  have hra := real_iff.mp ha
  have ht := tabGet_lt 8 256 opexp2Tab (uu a)
  unfold exp2 at1
  generalize tabGet 8 256 opexp2Tab (uu a) = t at *
  unfold exp2Chk at hc
  simp only [Bool.cond_eq_ite, beq_iff, decide_eq_true_eq, A.nan, A.zero, A.mag, Nat.ble_eq, A.sign] at hc
  rw [if_neg (by omega)] at hc
  have key : ∀ n d, truncChk (fun k => Nat.pow (W k) 64) 127 n d t = true →
      1 ≤ t ∧ t ≤ 127 ∧ ∀ k, 2 ≤ k → k ≤ 127 → ((W k) ^ 64 * d ≤ n ↔ k ≤ t) := by
    intro n d h
    obtain ⟨h1, h2, h3, h4⟩ := truncChk_iff.mp h
    refine ⟨h1, h2, fun k hk1 hk2 => ⟨fun hk => ?_, fun hk => ?_⟩⟩
    · by_contra hc
      rcases h4 with h4 | h4
      · omega
      · replace h4 : n < (W (t + 1)) ^ 64 * d := h4
        have : (W (t + 1)) ^ 64 * d ≤ (W k) ^ 64 * d :=
          Nat.mul_le_mul_right _ (Nat.pow_le_pow_left (W_le (by omega) hk2 (by omega)) 64)
        omega
    · rcases h3 with h3 | h3
      · replace h3 : (W t) ^ 64 * d ≤ n := h3
        exact le_trans (Nat.mul_le_mul_right _ (Nat.pow_le_pow_left (W_le (by omega) h2 hk) 64)) h3
      · omega
  have hback : t ≤ 127 → wrapS 8 (t : ℤ) = t := fun h =>
    wrapS_eq (by norm_num) 0 (by ring) ⟨by norm_num, by norm_num; omega⟩
  by_cases hn : a < 0
  · rw [if_pos hn] at hc
    obtain ⟨k1, k2, k3⟩ := key _ _ hc
    refine ⟨t, hback k2, k1, k2, ?_⟩
    rw [if_pos hn, if_neg (by omega)]
    exact k3
  · rw [if_neg hn] at hc
    obtain ⟨k1, k2, k3⟩ := key _ _ hc
    refine ⟨t, hback k2, k1, k2, ?_⟩
    rw [if_neg hn, pow_zero]
    have hua : uu a = a.natAbs := by
      have := A.mag
      rw [mg_eq, if_neg (by rw [A.sign]; exact hn)] at this
      exact this
    rw [hua] at k3
    by_cases h0 : a = 0
    · rw [if_neg (by omega)]
      rw [if_pos h0] at k3
      exact k3
    · rw [if_pos (by omega)]
      rw [if_neg h0] at k3
      exact k3

end Verif.Posit8
