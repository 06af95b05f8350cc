import Verif.Lemmas.Float
import Verif.Lemmas.CutSum

/-! Reading a float into an `Unpacked` with an 8-bit exponent when the exponent field has at least 8 bits. -/

namespace Verif
open Fmt

variable {eb fb F : ℕ}

theorem wrap8_eq {x w k : ℤ} (h : x = w + 256 * k) (h1 : -128 ≤ w) (h2 : w < 128) : wrapS 8 x = w :=
  wrapS_eq (by norm_num) k (by rw [h]; norm_num) ⟨by norm_num; exact h1, by norm_num; exact h2⟩

/-- shifting the leading one out of an `F`-bit fraction -/
theorem shl_norm {m L : ℕ} (hL1 : 2 ^ L ≤ m) (hL2 : m < 2 ^ (L + 1)) (hLF : L < F) (hsh : F - L < pw F) :
    ∃ y, shlU F m (((F - 1 - L : ℕ) : ℤ) + 1) = .ok y ∧ y % 2 ^ F = fracOf F L m := by
  obtain ⟨y, hy, hy2⟩ := shlU_ok_mod (w := F) (x := m) (n := ((F - 1 - L : ℕ) : ℤ) + 1) (k := F - L) (by omega) hsh
    (fun h32 => by
      calc m * 2 ^ (F - L) < 2 ^ (L + 1) * 2 ^ (F - L) := Nat.mul_lt_mul_of_pos_right hL2 (by positivity)
        _ = 2 ^ (F + 1) := by rw [← pow_add]; congr 1; omega
        _ ≤ 2 ^ 32 := Nat.pow_le_pow_right (by norm_num) (by omega))
  refine ⟨y, hy, ?_⟩
  have e : m * 2 ^ (F - L) = (m - 2 ^ L) * 2 ^ (F - L) + 2 ^ F := by
    have : 2 ^ F = 2 ^ L * 2 ^ (F - L) := by rw [← pow_add]; congr 1; omega
    rw [this, ← add_mul]; congr 1; omega
  have hg : (m - 2 ^ L) * 2 ^ (F - L) < 2 ^ F := by
    rw [pow_succ] at hL2
    calc (m - 2 ^ L) * 2 ^ (F - L) < 2 ^ L * 2 ^ (F - L) := Nat.mul_lt_mul_of_pos_right (by omega) (by positivity)
      _ = 2 ^ F := by rw [← pow_add]; congr 1; omega
  rw [hy2, e, Nat.add_mod_right, Nat.mod_eq_of_lt hg]
  unfold fracOf; rw [if_pos (by omega)]

/-- the exponent is taken modulo 256; a field that is 0 modulo 256 counts as the field of a subnormal; no field counts as the one
of infinities and NaN -/
theorem unpackFloat_narrow (heb : 8 ≤ eb) (heb30 : eb ≤ 30) (hfb : 1 ≤ fb) (hF : 1 ≤ F) {b : ℕ} {w k : ℤ}
    (hw : (fExp eb fb b : ℤ) - (2 ^ (eb - 1) - 1) = w + 256 * k) (hw1 : -128 ≤ w) (hw2 : w < 128) :
    (fExp eb fb b % 256 ≠ 0 → Unp.unpackFloat F 8 (.any eb fb true) b =
      .ok ⟨.regular, fSign eb fb b, w, fracOf F fb (2 ^ fb + fMan fb b)⟩) ∧
    (fExp eb fb b % 256 = 0 → fracOf F fb (2 ^ fb + fMan fb b) = 0 → Unp.unpackFloat F 8 (.any eb fb true) b =
      .ok ⟨.zero, false, w, 0⟩) ∧
    (fExp eb fb b % 256 = 0 → ∀ {m L : ℕ}, m = fracOf F fb (2 ^ fb + fMan fb b) → 2 ^ L ≤ m → m < 2 ^ (L + 1) →
      (F - L < pw F → ∀ {w' j : ℤ}, w + 1 - F + L = w' + 256 * j → -128 ≤ w' → w' < 128 → F ≤ 64 →
        Unp.unpackFloat F 8 (.any eb fb true) b = .ok ⟨.regular, fSign eb fb b, w', fracOf F L m⟩) ∧
      (pw F ≤ F - L → F ≤ 64 → Unp.unpackFloat F 8 (.any eb fb true) b = .error .shiftAmount)) := by
  obtain ⟨e1, e2, e3⟩ := unpackFloat_fields (F := F) (by omega : 1 ≤ eb) hfb hF b
  have hnl : 2 ^ fb + fMan fb b < 2 ^ (fb + 1) := by
    have := fMan_lt fb b
    rw [pow_succ]; omega
  have h255 : (256 : ℤ) ≤ 2 ^ eb := by
    calc (256 : ℤ) = 2 ^ 8 := by norm_num
      _ ≤ _ := pow_le_pow_right₀ (by norm_num) heb
  obtain ⟨B, hB, hB2⟩ : ∃ B : ℤ, 2 ^ (eb - 1) = B ∧ 128 ≤ B ∧ B ≤ 536870912 :=
    ⟨_, rfl, by
      calc (128 : ℤ) = 2 ^ 7 := by norm_num
        _ ≤ _ := pow_le_pow_right₀ (by norm_num) (by omega),
      le_trans (pow_le_pow_right₀ (by norm_num) (by omega : eb - 1 ≤ 29)) (by norm_num)⟩
  obtain ⟨D, hD⟩ : ∃ D : ℤ, (2 : ℤ) ^ eb = D := ⟨_, rfl⟩
  rw [hD] at h255
  rw [hB] at hw
  -- the raw exponent
  obtain ⟨r, hr, hr2⟩ : ∃ r : ℤ, wrapS 8 (fExp eb fb b : ℤ) = r ∧ -128 ≤ r ∧ r < 128 ∧ ∃ j, (fExp eb fb b : ℤ) = r + 256 * j := by
    obtain ⟨x, hx⟩ : ∃ x : ℤ, x = (fExp eb fb b : ℤ) := ⟨_, rfl⟩
    rw [← hx]
    by_cases hc : x % 256 < 128
    · exact ⟨x % 256, wrap8_eq (k := x / 256) (by omega) (by omega) hc, by omega, hc, x / 256, by omega⟩
    · exact ⟨x % 256 - 256, wrap8_eq (k := x / 256 + 1) (by omega) (by omega) (by omega), by omega, by omega, x / 256 + 1, by omega⟩
  obtain ⟨hr2, hr3, j, hj⟩ := hr2
  have hr0 : r = 0 ↔ fExp eb fb b % 256 = 0 := by omega
  have hp8 : pw 8 = 32 := rfl
  have har : arithS 8 (r - (B - 1)) = .ok (r - (B - 1)) := arithS_ok (by
    rw [hp8]; unfold InS; norm_num; omega)
  have hwr : wrapS 8 (r - (B - 1)) = w := wrap8_eq (k := k - j) (by omega) hw1 hw2
  have hred : ∀ {P : M Unp}, (if r = D - 1 then (.ok
      ⟨if fracOf F fb (2 ^ fb + fMan fb b) = 0 then .infinity else .nan, fSign eb fb b, w, fracOf F fb (2 ^ fb + fMan fb b)⟩ : M Unp)
      else P) = P := fun {P} => if_neg (by omega)
  refine ⟨fun hx => ?_, fun hx hz => ?_, fun hx m L hm hL1 hL2 => ?_⟩
  · rw [unpackFloat_any]
    simp only [e1, e2, e3, bind, Except.bind, pure, Except.pure, hB, hD, hr, har, hwr]
    rw [hred, if_neg (fun hc => hx (hr0.mp hc))]
  · rw [unpackFloat_any]
    simp only [e1, e2, e3, bind, Except.bind, pure, Except.pure, hB, hD, hr, har, hwr]
    rw [hred, if_pos (hr0.mpr hx), hz]
    rfl
  · have hmlt : m < 2 ^ F := by rw [hm]; exact fracOf_lt hnl
    have hLF : L < F := (Nat.pow_lt_pow_iff_right (by norm_num : 1 < 2)).mp (lt_of_le_of_lt hL1 hmlt)
    have hm0 : 0 < m := lt_of_lt_of_le (by positivity) hL1
    have hk : Unp.findLeft F m = .ok (F - 1 - L) := by
      unfold Unp.findLeft clz; rw [if_neg (by omega), log2_eq hL1 hL2]
    have hdn : (!true || decide (m = 0)) = false := by simp; omega
    constructor
    · intro hsh w' j' hw' hw1' hw2' h64
      rw [unpackFloat_any]
      simp only [e1, e2, e3, bind, Except.bind, pure, Except.pure, hB, hD, hr, har, hwr]
      rw [hred, if_pos (hr0.mpr hx), ← hm, hdn]
      simp only [Bool.false_eq_true, if_false]
      rw [hk]
      simp only []
      have hck : ((F - 1 - L : ℕ) : ℤ) = F - 1 - L := by omega
      rw [arithS_ok (w := 8) (x := w - ((F - 1 - L : ℕ) : ℤ)) (by rw [hp8]; unfold InS; norm_num; omega)]
      simp only []
      obtain ⟨y, hy, hy2⟩ := shl_norm hL1 hL2 hLF hsh
      rw [hy]
      simp only []
      rw [wrap8_eq (w := w') (k := j') (by omega) hw1' hw2', hy2]
    · intro hsh h64
      rw [unpackFloat_any]
      simp only [e1, e2, e3, bind, Except.bind, pure, Except.pure, hB, hD, hr, har, hwr]
      rw [hred, if_pos (hr0.mpr hx), ← hm, hdn]
      simp only [Bool.false_eq_true, if_false]
      rw [hk]
      simp only []
      rw [arithS_ok (w := 8) (x := w - ((F - 1 - L : ℕ) : ℤ)) (by rw [hp8]; unfold InS; norm_num; omega)]
      simp only []
      have : shlU F m (((F - 1 - L : ℕ) : ℤ) + 1) = .error .shiftAmount := by
        unfold shlU
        rw [if_pos (by omega)]
      rw [this]

end Verif
