import Verif.Lemmas.Unpack

/-! # No posit separates an integer multiple of a small enough unit from the numbers just above it -/

namespace Verif
open Fmt

variable {c : Cfg}

/-- every positive posit is an integer with `fb+1` bits times a power of two -/
theorem posVal_grid (h : c.WF) {q : ℕ} (h1 : 1 ≤ q) (h2 : q < 2 ^ (c.N - 1)) :
    ∃ (n : ℕ) (X : ℤ), 2 ^ c.fb ≤ n ∧ n < 2 ^ (c.fb + 1) ∧ posVal c.N c.es q = n * 2 ^ X := by
  obtain ⟨r, m, rest, hd⟩ := exists_dec h1 h2
  obtain ⟨-, ⟨t, ht⟩, hval⟩ := lowW_fields h hd
  have hN := h.hN
  have hH : c.fb ≤ c.H := by unfold Cfg.fb; omega
  have hw : lowW c m rest % 2 ^ c.H < 2 ^ c.H := Nat.mod_lt _ (by positivity)
  rw [ht] at hval hw
  have hp : 2 ^ c.H = 2 ^ (c.H - c.fb) * 2 ^ c.fb := by rw [← pow_add]; congr 1; omega
  have htl : t < 2 ^ c.fb := by
    rw [hp] at hw; exact Nat.lt_of_mul_lt_mul_left hw
  refine ⟨2 ^ c.fb + t, 2 ^ c.es * r + (lowW c m rest / 2 ^ c.H : ℕ) - c.fb, by omega, by rw [pow_succ]; omega, ?_⟩
  rw [hval]
  generalize lowW c m rest / 2 ^ c.H = A
  have hq : (2 : ℚ) ^ c.H = 2 ^ (c.H - c.fb) * 2 ^ c.fb := by exact_mod_cast hp
  rw [zpow_sub₀ (by norm_num), hq, zpow_natCast]
  push_cast
  field_simp

/-- no positive posit lies strictly between consecutive multiples `u·2^Y`, `(u+1)·2^Y` when `u ≥ 2^fb` -/
theorem no_posit_between (h : c.WF) {q : ℕ} (h1 : 1 ≤ q) (h2 : q < 2 ^ (c.N - 1)) {u : ℕ} {Y : ℤ} (hu : 2 ^ c.fb ≤ u)
    (ha : (u : ℚ) * 2 ^ Y < posVal c.N c.es q) : (u + 1 : ℚ) * 2 ^ Y ≤ posVal c.N c.es q := by
  obtain ⟨n, X, hn1, hn2, hv⟩ := posVal_grid h h1 h2
  rw [hv] at ha ⊢
  have hY : (0 : ℚ) < 2 ^ Y := by positivity
  rcases le_or_gt Y X with hXY | hXY
  · obtain ⟨d, hd⟩ : ∃ d : ℕ, X = Y + d := ⟨(X - Y).toNat, by omega⟩
    rw [hd, zpow_add₀ (by norm_num), zpow_natCast] at ha ⊢
    have h3 : (u : ℚ) < n * 2 ^ d := by
      have : (u : ℚ) * 2 ^ Y < (n * 2 ^ d) * 2 ^ Y := by linarith
      exact lt_of_mul_lt_mul_right this hY.le
    have h4 : u + 1 ≤ n * 2 ^ d := by exact_mod_cast h3
    have h5 : (u + 1 : ℚ) ≤ n * 2 ^ d := by exact_mod_cast h4
    calc (u + 1 : ℚ) * 2 ^ Y ≤ (n * 2 ^ d) * 2 ^ Y := mul_le_mul_of_nonneg_right h5 hY.le
      _ = _ := by ring
  · exfalso
    have h3 : (n : ℚ) * 2 ^ X ≤ u * 2 ^ Y := by
      have e1 : (2 : ℚ) ^ X ≤ 2 ^ (Y - 1) := zpow_le_zpow_right₀ (by norm_num) (by omega)
      have e2 : (2 : ℚ) ^ (Y - 1) * 2 = 2 ^ Y := by rw [← zpow_add_one₀ (by norm_num)]; congr 1; omega
      have e3 : (n : ℚ) ≤ 2 * u := by
        have : n ≤ 2 * u := by rw [pow_succ] at hn2; omega
        exact_mod_cast this
      have e4 : (0 : ℚ) < 2 ^ (Y - 1) := by positivity
      calc (n : ℚ) * 2 ^ X ≤ n * 2 ^ (Y - 1) := by
            exact mul_le_mul_of_nonneg_left e1 (by positivity)
        _ ≤ (2 * u) * 2 ^ (Y - 1) := mul_le_mul_of_nonneg_right e3 e4.le
        _ = u * 2 ^ Y := by rw [← e2]; ring
    linarith

theorem TruncB.of_unit (h : c.WF) {p u : ℕ} {Y : ℤ} {y : ℚ} (hu : 2 ^ c.fb ≤ u) (hy1 : (u : ℚ) * 2 ^ Y ≤ y)
    (hy2 : y < (u + 1 : ℚ) * 2 ^ Y) (ht : c.fmt.TruncB ((u : ℚ) * 2 ^ Y) p) : c.fmt.TruncB y p := by
  apply ht.congr
  intro q hq1 hq2
  have hml := Format.maxBody_lt c.fmt
  constructor
  · intro hq; linarith
  · intro hq
    by_contra hc
    have := no_posit_between h hq1 (lt_of_le_of_lt hq2 hml) hu (not_le.mp hc)
    simp only [fmt_N, fmt_es] at hq
    linarith

/-- binade of a multiple of a unit and of the numbers just above it -/
theorem unit_binade {F : ℕ} {e : ℤ} {f : ℕ} (hf : f < 2 ^ F) {u : ℕ} (hu : 1 ≤ u) {Y : ℤ} {y : ℚ}
    (hval : (2 : ℚ) ^ e * (1 + (f : ℚ) / 2 ^ F) = u * 2 ^ Y) (hy1 : (u : ℚ) * 2 ^ Y ≤ y)
    (hy2 : y < (u + 1 : ℚ) * 2 ^ Y) : (2 : ℚ) ^ e ≤ y ∧ y < 2 ^ (e + 1) := by
  have h2e : (0 : ℚ) < 2 ^ e := by positivity
  have hY : (0 : ℚ) < 2 ^ Y := by positivity
  have hf0 : (0 : ℚ) ≤ (f : ℚ) / 2 ^ F := by positivity
  have hf1 : (f : ℚ) / 2 ^ F < 1 := by
    rw [div_lt_one (by positivity)]; exact_mod_cast hf
  have hlt : (u : ℚ) * 2 ^ Y < 2 ^ (e + 1) := by
    rw [← hval, zpow_add_one₀ (by norm_num)]; nlinarith
  refine ⟨by rw [← hval] at hy1; nlinarith, ?_⟩
  have hu' : (1 : ℚ) ≤ u := by exact_mod_cast hu
  have hYe : (2 : ℚ) ^ Y < 2 ^ (e + 1) := by nlinarith
  have hYe' := (zpow_lt_zpow_iff_right₀ (by norm_num : (1 : ℚ) < 2)).mp hYe
  obtain ⟨d, hd⟩ : ∃ d : ℕ, e + 1 = Y + d := ⟨(e + 1 - Y).toNat, by omega⟩
  rw [hd, zpow_add₀ (by norm_num), zpow_natCast] at hlt ⊢
  have h3 : (u : ℚ) < 2 ^ d := by
    have : (u : ℚ) * 2 ^ Y < 2 ^ d * 2 ^ Y := by linarith
    exact lt_of_mul_lt_mul_right this hY.le
  have h4 : u + 1 ≤ 2 ^ d := by exact_mod_cast h3
  have h5 : (u + 1 : ℚ) ≤ 2 ^ d := by exact_mod_cast h4
  calc y < (u + 1 : ℚ) * 2 ^ Y := hy2
    _ ≤ 2 ^ d * 2 ^ Y := mul_le_mul_of_nonneg_right h5 hY.le
    _ = _ := by ring

/-- packing a number that agrees with `y` up to its unit `2^Y` truncates `y` -/
theorem pack_of_unit (h : c.WF) (neg : Bool) {e : ℤ} {f : ℕ} (hf : f < 2 ^ c.F) {u : ℕ} {Y : ℤ} {y : ℚ}
    (hu : 2 ^ c.fb ≤ u) (hval : (2 : ℚ) ^ e * (1 + (f : ℚ) / 2 ^ c.F) = u * 2 ^ Y) (hy1 : (u : ℚ) * 2 ^ Y ≤ y)
    (hy2 : y < (u + 1 : ℚ) * 2 ^ Y) (hs : c.SafeMag y) :
    ∃ p : ℕ, Posit.pack c ⟨.regular, neg, e, f⟩ = .ok (if neg then -(p : ℤ) else p) ∧ c.fmt.TruncB y p := by
  have hu1 : 1 ≤ u := le_trans Nat.one_le_two_pow hu
  obtain ⟨b1, b2⟩ := unit_binade hf hu1 hval hy1 hy2
  have hy0 : 0 < y := lt_of_lt_of_le (by positivity) b1
  have hps : c.PackSafe e := packSafe_of_safeMag hs (by rwa [abs_of_pos hy0]) (by rwa [abs_of_pos hy0])
  obtain ⟨p, hp, ht⟩ := pack_regular h neg hf hps
  rw [hval] at ht
  exact ⟨p, hp, TruncB.of_unit h hu hy1 hy2 ht⟩

end Verif
