import Verif.Lemmas.Unit

/-! # Truncation read off the position of a number, used for `pseudosigmoid` and `pseudosoftplus` -/

namespace Verif
open Fmt

variable {c : Cfg}

/-- the body of a number with regime coordinate `s` is the integer part of its position -/
theorem truncB_of_G {f : Format} {s : ℚ} {p : ℕ} (h1 : 1 ≤ p) (h2 : p ≤ f.maxBody)
    (hl : (p : ℚ) ≤ 2 ^ (f.N - 1) * G s) (hu : 2 ^ (f.N - 1) * G s < p + 1 ∨ p = f.maxBody) :
    f.TruncB (L (2 ^ f.es * s)) p := by
  have hm := Format.maxBody_lt f
  refine ⟨h1, h2, fun q hq1 hq2 hq => ?_, Or.inl ?_⟩
  · rcases hu with hu | hu
    · rw [posVal_le_L_iff hq1 (by omega)] at hq
      have : (q : ℚ) < p + 1 := lt_of_le_of_lt hq hu
      have : q < p + 1 := by exact_mod_cast this
      omega
    · omega
  · rw [posVal_le_L_iff h1 (by omega)]; exact hl

/-- without exponent bits the body of a number up to one is the integer part of `2^(N-2)·y` -/
theorem truncB_unit0 (h : c.WF) (he : c.es = 0) {y : ℚ} (hy : y ≤ 1) {p : ℕ} (h1 : 1 ≤ p)
    (hl : (p : ℚ) ≤ 2 ^ (c.N - 2) * y) (hu : 2 ^ (c.N - 2) * y < p + 1) : c.fmt.TruncB y p := by
  have hN3 := h.N_ge
  have hm := Format.maxBody_lt c.fmt
  obtain ⟨e1, e2, -⟩ := pow_split h
  have hp3 := Nat.one_le_two_pow (n := c.N - 3)
  have hmb := (maxBody_ge h).1
  have hQ : (0 : ℚ) < 2 ^ (c.N - 2) := by positivity
  have hple : p ≤ 2 ^ (c.N - 2) := by
    have : (p : ℚ) ≤ 2 ^ (c.N - 2) := by nlinarith
    exact_mod_cast this
  have hval : ∀ q, 1 ≤ q → q ≤ 2 ^ (c.N - 2) → posVal c.N c.es q = (q : ℚ) / 2 ^ (c.N - 2) := by
    intro q hq1 hq2; rw [he]; exact posVal_unit0 hN3 hq1 hq2
  refine ⟨h1, by omega, fun q hq1 hq2 hq => ?_, Or.inl ?_⟩
  · change posVal c.N c.es q ≤ y at hq
    rcases le_or_gt q (2 ^ (c.N - 2)) with hc | hc
    · rw [hval q hq1 hc, div_le_iff₀ hQ] at hq
      have : (q : ℚ) < p + 1 := by linarith
      have : q < p + 1 := by exact_mod_cast this
      omega
    · exfalso
      have h3 : posVal c.N c.es (2 ^ (c.N - 2)) < posVal c.N c.es q := by
        rw [posVal_lt_iff Nat.one_le_two_pow (by omega) hq1 (by
          have : c.fmt.N = c.N := rfl
          rw [this] at hm; omega)]
        exact hc
      rw [posVal_one' h] at h3
      linarith
  · change posVal c.N c.es p ≤ y
    rw [hval p h1 hple, div_le_iff₀ hQ]; linarith

theorem G_succ {s : ℚ} (hs : 0 ≤ s) : G (s + 1) = (1 + G s) / 2 := by
  unfold G
  rw [if_neg (by linarith), if_neg (by linarith)]
  have : L (-(s + 1)) = L (-s) / 2 := by
    have := L_add_int (-s) (-1)
    rw [show -s + ((-1 : ℤ) : ℚ) = -(s + 1) by push_cast; ring] at this
    rw [this, zpow_neg_one]; ring
  rw [this]; ring

end Verif
