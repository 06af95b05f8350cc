import Verif.Lemmas.FloatConv
import Verif.Spec.Fixed

/-! # Conversions from and to fixed point -/

namespace Verif

open Fmt

variable {F E N q : ℕ}

theorem intLog (i : ℤ) (h0 : i ≠ 0) : 2 ^ i.natAbs.log2 ≤ i.natAbs ∧ i.natAbs < 2 ^ (i.natAbs.log2 + 1) :=
  ⟨Nat.log2_self_le (by omega), Nat.lt_log2_self⟩

theorem pcabs_wrapU {i : ℤ} (hN : 2 ≤ N) (hi : InS N i) (hm : N < 32 ∨ -2 ^ (N - 1) < i) :
    ∃ a, Posit.pcabs N i = .ok a ∧ wrapU N a = i.natAbs := by
  have e2 := two_pow_pred (w := N) (by omega)
  have hp : (0 : ℤ) < 2 ^ (N - 1) := by positivity
  unfold InS at hi
  have hle : (2 : ℤ) ^ (N - 1) ≤ 2 ^ (pw N - 1) := pow_le_pow_right₀ (by norm_num) (by have := le_pw N; omega)
  unfold Posit.pcabs Posit.condNeg
  by_cases hn : i < 0
  · rw [if_pos (by simpa using hn)]
    have har : arithS N (-i) = .ok (-i) := by
      apply arithS_ok
      rcases hm with h32 | hlt
      · have hlt2 : (2 : ℤ) ^ (N - 1) < 2 ^ (pw N - 1) := pow_lt_pow_right₀ (by norm_num) (by unfold pw; omega)
        constructor <;> omega
      · constructor <;> omega
    refine ⟨wrapS N (-i), ?_, ?_⟩
    · rw [har]; rfl
    · rw [wrapU_wrapS le_rfl, wrapU_of_nonneg (by omega) (by omega)]
      omega
  · rw [if_neg (by simpa using hn)]
    refine ⟨i, rfl, ?_⟩
    rw [wrapU_of_nonneg (by omega) (by omega)]
    omega

/-- what `unpack_xfixed` builds from a nonzero integer -/
theorem unpackFixed_eq (hN : N = 8 ∨ N = 16 ∨ N = 32 ∨ N = 64) (hF : 1 ≤ F) (hE : 1 ≤ E) {i : ℤ} (h0 : i ≠ 0)
    (hi : InS N i) (hm : N < 32 ∨ -2 ^ (N - 1) < i) (hx : InS E (-(q : ℤ) + i.natAbs.log2)) :
    Unp.unpackFixed F E N q i =
      .ok ⟨.regular, i < 0, -(q : ℤ) + i.natAbs.log2, fracOf F i.natAbs.log2 i.natAbs⟩ := by
  obtain ⟨a, ha, haw⟩ := pcabs_wrapU (by omega) hi hm
  obtain ⟨hL1, hL2⟩ := intLog i h0
  have hlt : i.natAbs < 2 ^ N := by
    have e2 := two_pow_pred (w := N) (by omega)
    have hp : (0 : ℤ) < 2 ^ (N - 1) := by positivity
    unfold InS at hi
    zify
    rw [abs_lt]
    omega
  have hL : i.natAbs.log2 < N := (Nat.pow_lt_pow_iff_right (by norm_num : 1 < 2)).mp (lt_of_le_of_lt hL1 hlt)
  unfold Unp.unpackFixed
  rw [if_pos h0, ha]
  simp only [bind, Except.bind, pure, Except.pure]
  rw [haw]
  generalize hn : i.natAbs = n at *
  generalize n.log2 = L at *
  have hclz : Unp.findLeft N n = .ok (N - 1 - n.log2) := by
    unfold Unp.findLeft clz; rw [if_neg (by omega)]
  have hlog : n.log2 = L := log2_eq hL1 hL2
  rw [hclz, hlog]
  simp only []
  have ep : (N : ℤ) - ((N - 1 - L : ℕ) : ℤ) - 1 = L := by omega
  rw [ep]
  have hux : (if (L : ℤ) = 0 then (Except.ok 0 : M ℕ) else
      (do let y ← shlU N n ((N : ℤ) - L); return y % 2 ^ N : M ℕ)) = .ok ((n - 2 ^ L) * 2 ^ (N - L)) := by
    split_ifs with hz
    · have : L = 0 := by omega
      subst this
      have : n = 1 := by simp at hL1 hL2; omega
      simp [this]
    · have hpw := le_pw N
      have hfit : N < 32 → n * 2 ^ (N - L) < 2 ^ 32 := by
        intro h32
        calc n * 2 ^ (N - L) < 2 ^ (L + 1) * 2 ^ (N - L) := Nat.mul_lt_mul_of_pos_right hL2 (by positivity)
          _ = 2 ^ (N + 1) := by rw [← pow_add]; congr 1; omega
          _ ≤ 2 ^ 32 := Nat.pow_le_pow_right (by norm_num) (by omega)
      obtain ⟨y, hy, hy2⟩ := shlU_ok_mod (w := N) (x := n) (n := (N : ℤ) - L) (k := N - L) (by omega) (by omega) hfit
      rw [hy]
      simp only [bind, Except.bind, pure, Except.pure]
      rw [hy2]
      congr 1
      have e : n * 2 ^ (N - L) = (n - 2 ^ L) * 2 ^ (N - L) + 2 ^ N := by
        have : 2 ^ N = 2 ^ L * 2 ^ (N - L) := by rw [← pow_add]; congr 1; omega
        rw [this, ← add_mul]; congr 1; omega
      rw [e, Nat.add_mod_right]
      apply Nat.mod_eq_of_lt
      rw [pow_succ] at hL2
      calc (n - 2 ^ L) * 2 ^ (N - L) < 2 ^ L * 2 ^ (N - L) := Nat.mul_lt_mul_of_pos_right (by omega) (by positivity)
        _ = 2 ^ N := by rw [← pow_add]; congr 1; omega
  simp only [bind, Except.bind, pure, Except.pure] at hux
  rw [hux]
  simp only []
  have hg : (n - 2 ^ L) * 2 ^ (N - L) < 2 ^ N := by
    rw [pow_succ] at hL2
    calc (n - 2 ^ L) * 2 ^ (N - L) < 2 ^ L * 2 ^ (N - L) := Nat.mul_lt_mul_of_pos_right (by omega) (by positivity)
      _ = 2 ^ N := by rw [← pow_add]; congr 1; omega
  rw [castRightToLeft_eq (by omega) le_rfl hF, Nat.mod_eq_of_lt hg]
  simp only []
  have e1 : wrapS E ((L : ℤ) - q) = -(q : ℤ) + L := by
    rw [show (L : ℤ) - q = -(q : ℤ) + L by ring]; exact wrapS_of_inS hE hx
  rw [e1]
  congr 2
  unfold fracOf
  split_ifs with h1 h2 h2
  · rw [show N - L = (F - L) + (N - F) by omega, pow_add, ← mul_assoc, Nat.mul_div_cancel _ (by positivity)]
  · rw [show N - F = (N - L) + (L - F) by omega, pow_add, ← Nat.div_div_eq_div_mul, Nat.mul_div_cancel _ (by positivity)]
  · rw [mul_assoc, ← pow_add]; congr 2; omega
  · omega

/-! ## to fixed point -/

theorem frac_shift {f k : ℕ} (hk : k ≤ N) :
    (if N < F then f / 2 ^ (F - N) else f * 2 ^ (N - F)) / 2 ^ (N - k) = f * 2 ^ k / 2 ^ F := by
  split_ifs with h
  · rw [Nat.div_div_eq_div_mul, ← pow_add, show F - N + (N - k) = F - k by omega]
    have : 2 ^ F = 2 ^ (F - k) * 2 ^ k := by rw [← pow_add]; congr 1; omega
    rw [this, Nat.mul_div_mul_right _ _ (by positivity)]
  · have e1 : f * 2 ^ (N - F) / 2 ^ (N - k) = (f * 2 ^ (N - F) * 2 ^ F) / (2 ^ (N - k) * 2 ^ F) :=
      (Nat.mul_div_mul_right _ _ (by positivity)).symm
    have e2 : f * 2 ^ (N - F) * 2 ^ F = f * 2 ^ k * 2 ^ (N - k) := by
      rw [mul_assoc, mul_assoc, ← pow_add, ← pow_add]; congr 2; omega
    rw [e1, e2, mul_comm (2 ^ (N - k)), Nat.mul_div_mul_right _ _ (by positivity)]

theorem frac_shift_lt {f k : ℕ} (hf : f < 2 ^ F) : f * 2 ^ k / 2 ^ F < 2 ^ k := by
  rw [Nat.div_lt_iff_lt_mul (by positivity), mul_comm]
  exact Nat.mul_lt_mul_of_pos_left hf (by positivity)

/-- `pack_xfixed` in the range where nothing overflows -/
theorem packFixed_mid (hN : N = 8 ∨ N = 16 ∨ N = 32 ∨ N = 64) (hF : 1 ≤ F) {s : Bool} {e : ℤ} {f k : ℕ}
    (hf : f < 2 ^ F) (hk : e + q = k) (hk0 : 1 ≤ k ∨ N < 32) (hk2 : k + 2 ≤ N) :
    Unp.packFixed F N q ⟨.regular, s, e, f⟩ =
      .ok (if s then -((2 ^ k + f * 2 ^ k / 2 ^ F : ℕ) : ℤ) else ((2 ^ k + f * 2 ^ k / 2 ^ F : ℕ) : ℤ)) := by
  have hpw := le_pw N
  have hpw32 := le_pw32 N
  have hb := frac_shift_lt (F := F) (f := f) (k := k) hf
  unfold Unp.packFixed
  simp only [bind, Except.bind, pure, Except.pure]
  rw [if_neg (by omega), if_neg (by omega), extractPack_eq (by omega) le_rfl hF hf]
  simp only []
  have hle : (2 : ℕ) ^ k ≤ 2 ^ (N - 2) := Nat.pow_le_pow_right (by norm_num) (by omega)
  have h4 : (2 : ℕ) ^ N = 4 * 2 ^ (N - 2) := by
    rw [show N = (N - 2) + 2 by omega, pow_add]; norm_num; ring_nf
  have h4' : (2 : ℕ) ^ (N - 1) = 2 * 2 ^ (N - 2) := by
    rw [show N - 1 = (N - 2) + 1 by omega, pow_succ]; norm_num; ring_nf
  have hNp : (2 : ℕ) ^ N ≤ 2 ^ pw N := Nat.pow_le_pow_right (by norm_num) hpw
  have h4p : (2 : ℕ) ^ pw N = 2 * 2 ^ (pw N - 1) := two_pow_pred_nat (by omega)
  have ha : shlS N 1 (e + q) = .ok ((2 ^ k : ℕ) : ℤ) := by
    unfold shlS
    have hkk : (e + q).toNat = k := by omega
    have c1 : ¬ ((e + q < 0) ∨ (pw N : ℤ) ≤ e + q) := by omega
    have c2 : ¬ ((1 : ℤ) < 0 ∨ (2 : ℤ) ^ pw N ≤ 1 * 2 ^ (e + q).toNat) := by
      rw [hkk]
      push Not
      refine ⟨by norm_num, ?_⟩
      rw [one_mul]
      exact pow_lt_pow_right₀ (by norm_num) (by omega)
    rw [if_neg c1, if_neg c2, hkk, one_mul]
    congr 1
    rw [wrapS_of_inS (by omega)]
    · norm_cast
    · constructor
      · have : (0 : ℤ) < 2 ^ k := by positivity
        have : (0 : ℤ) < 2 ^ (pw N - 1) := by positivity
        omega
      · exact pow_lt_pow_right₀ (by norm_num) (by omega)
  rw [ha]
  simp only []
  rw [shrU_ok (k := N - k) (by omega) (by omega), frac_shift (by omega)]
  simp only []
  generalize f * 2 ^ k / 2 ^ F = b at *
  have hbS : wrapS N (b : ℤ) = b := wrapS_of_inS (by omega) ⟨by
    have : (0 : ℤ) < 2 ^ (N - 1) := by positivity
    omega, by
    have : b < 2 ^ (N - 1) := by omega
    exact_mod_cast this⟩
  rw [hbS, wrapU_natCast (by omega), wrapU_natCast (by omega)]
  have hor : (2 ^ k ||| b : ℕ) = 2 ^ k + b := by
    have := Nat.two_pow_add_eq_or_of_lt hb 1
    rw [mul_one] at this
    exact this.symm
  rw [hor]
  have hPS : InS N ((2 ^ k + b : ℕ) : ℤ) := ⟨by
    have : (0 : ℤ) < 2 ^ (N - 1) := by positivity
    omega, by
    have : 2 ^ k + b < 2 ^ (N - 1) := by omega
    exact_mod_cast this⟩
  rw [wrapS_of_inS (by omega) hPS]
  unfold Posit.condNeg
  cases s
  · rfl
  · have hnS : InS N (-((2 ^ k + b : ℕ) : ℤ)) := by
      obtain ⟨p1, p2⟩ := hPS
      constructor <;> omega
    simp only [if_true, bind, Except.bind, pure, Except.pure]
    rw [arithS_ok' hnS]
    simp only []
    rw [wrapS_of_inS (by omega) hnS]

/-- the mantissa of `mag F e f · 2^q` rounded down -/
theorem floor_mag {e : ℤ} {f k : ℕ} (hf : f < 2 ^ F) (hk : e + q = k) :
    ⌊mag F e f * 2 ^ q⌋ = ((2 ^ k + f * 2 ^ k / 2 ^ F : ℕ) : ℤ) := by
  have h1 : mag F e f * 2 ^ q = (((2 ^ F + f) * 2 ^ k : ℕ) : ℚ) / ((2 ^ F : ℕ) : ℚ) := by
    unfold mag
    have : (2 : ℚ) ^ e * 2 ^ q = 2 ^ k := by
      rw [← zpow_natCast, ← zpow_natCast, ← zpow_add₀ (by norm_num), hk]
    push_cast
    field_simp
    rw [this]
  rw [h1]
  have h2 : (2 ^ F + f) * 2 ^ k / 2 ^ F = 2 ^ k + f * 2 ^ k / 2 ^ F := by
    rw [add_mul, Nat.mul_add_div (by positivity)]
  rw [← h2]
  generalize (2 ^ F + f) * 2 ^ k = m
  rw [Int.floor_eq_iff]
  have hp : (0 : ℚ) < ((2 ^ F : ℕ) : ℚ) := by positivity
  constructor
  · rw [le_div_iff₀ hp]
    exact_mod_cast Nat.div_mul_le_self _ _
  · rw [div_lt_iff₀ hp]
    have h3 : m < (m / 2 ^ F + 1) * 2 ^ F := by
      rw [mul_comm]; exact Nat.lt_mul_div_succ m (by positivity)
    exact_mod_cast h3

theorem truncZ_sign (s : Bool) {x : ℚ} (hx : 0 ≤ x) :
    truncZ ((if s then -1 else 1 : ℚ) * x) = if s then -⌊x⌋ else ⌊x⌋ := by
  unfold truncZ
  cases s
  · simp [hx]
  · simp only [if_true]
    rcases hx.eq_or_lt with h | h
    · simp [← h]
    · rw [if_neg (by linarith), neg_one_mul, Int.ceil_neg]

end Verif
