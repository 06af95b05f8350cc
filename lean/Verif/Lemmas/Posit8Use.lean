import Verif.Lemmas.Posit8Mul
import Verif.Lemmas.Posit8Div
import Verif.Lemmas.Posit8Add
import Verif.Lemmas.Ops

/-! # From checked tables to statements on patterns -/

namespace Verif.Posit8
open Fmt

theorem maxBody_eq : cfg.fmt.maxBody = 127 := by decide

theorem real_iff {v : ℤ} : cfg.fmt.IsReal v ↔ -127 ≤ v ∧ v ≤ 127 := by
  unfold Format.IsReal; rw [maxBody_eq]; norm_num

theorem canon_iff {v : ℤ} : cfg.fmt.IsCanonical v ↔ -128 ≤ v ∧ v ≤ 127 := by
  unfold Format.IsCanonical
  rw [show cfg.fmt.N = 8 from rfl]
  norm_num
  intro _
  omega

/-- the byte of a pattern -/
structure Byte (v : ℤ) (a : ℕ) : Prop where
  lt : a < 256
  sign : 128 ≤ a ↔ v < 0
  mag : mg 128 a = v.natAbs
  zero : a = 0 ↔ v = 0
  nan : a = 128 ↔ v = -128
  back : wrapS 8 a = v

theorem byte {v : ℤ} (hv : cfg.fmt.IsCanonical v) : Byte v (uu v) := by
  rw [canon_iff] at hv
  unfold uu
  have h1 : (((v % 256).toNat : ℕ) : ℤ) = v % 256 := Int.toNat_of_nonneg (by omega)
  refine ⟨by omega, by omega, ?_, by omega, by omega, ?_⟩
  · rw [mg_eq]; split_ifs <;> omega
  · rw [h1]
    refine wrapS_eq (by norm_num) (if v < 0 then 1 else 0) ?_ (by unfold InS; norm_num; omega)
    split_ifs <;> norm_num <;> omega

theorem tabGet_lt (w cols : ℕ) (rows : List ℕ) (i : ℕ) : tabGet w cols rows i < 2 ^ w := Nat.mod_lt _ (by positivity)

theorem chk8_spec {neg : Bool} {n d t : ℕ} (ht : t < 256) (hd : 0 < d) (hn : 0 < n) (h : chk8 neg n d t = true) :
    cfg.fmt.IsTrunc ((if neg then -1 else 1) * ((n : ℚ) / (d * 2 ^ 6))) (wrapS 8 t) :=
  chk_spec (w := 8) maxBody_eq W_spec (by norm_num) ht hd hn h

theorem val8 {v : ℤ} (hv : cfg.fmt.IsReal v) (h0 : v ≠ 0) :
    cfg.fmt.val v = (if v < 0 then -1 else 1) * ((W v.natAbs : ℚ) / 2 ^ 6) ∧ 0 < W v.natAbs := val_byte maxBody_eq W_spec hv h0

theorem W_le {j k : ℕ} (hj : 1 ≤ j) (hk : k ≤ 127) (h : j ≤ k) : W j ≤ W k := by
  have := (posVal_le_iff (N := cfg.fmt.N) (es := cfg.fmt.es) hj (by show j < 128; omega) (by omega) (by show k < 128; omega)).mpr h
  have h1 := W_spec j hj (by omega)
  have h2 := W_spec k (by omega) hk
  have : (W j : ℚ) ≤ W k := by rw [← h1, ← h2]; linarith
  exact_mod_cast this

theorem W_lt {j k : ℕ} (hj : 1 ≤ j) (hk : k ≤ 127) (h : j < k) : W j < W k := by
  have := (posVal_lt_iff (N := cfg.fmt.N) (es := cfg.fmt.es) hj (by show j < 128; omega) (by omega) (by show k < 128; omega)).mpr h
  have h1 := W_spec j hj (by omega)
  have h2 := W_spec k (by omega) hk
  have : (W j : ℚ) < W k := by rw [← h1, ← h2]; linarith
  exact_mod_cast this

theorem at2_chk {p : ℕ → ℕ → ℕ → Bool} {t : List ℕ} (h : checkRows 8 256 p t 256 = true) {a b : ℤ}
    (ha : cfg.fmt.IsCanonical a) (hb : cfg.fmt.IsCanonical b) :
    p (uu a) (uu b) (tabGet 8 256 t (uu a * 256 + uu b)) = true := by
  have h1 := (byte ha).lt
  have h2 := (byte hb).lt
  have := tab_spec h (i := uu a * 256 + uu b) (by omega)
  rwa [show (uu a * 256 + uu b) / 256 = uu a by omega, show (uu a * 256 + uu b) % 256 = uu b by omega] at this

theorem at1_chk {p : ℕ → ℕ → ℕ → Bool} {t : List ℕ} (h : checkRows 8 256 p t 1 = true) {a : ℤ}
    (ha : cfg.fmt.IsCanonical a) : p 0 (uu a) (tabGet 8 256 t (uu a)) = true := by
  have h1 := (byte ha).lt
  have := tab_spec h (i := uu a) (by omega)
  rwa [show uu a / 256 = 0 by omega, show uu a % 256 = uu a by omega] at this

theorem trunc_congr {f : Format} {y y' : ℚ} {v : ℤ} (h : f.IsTrunc y' v) (e : y = y') : f.IsTrunc y v := e ▸ h

theorem sign_mul (a b : ℤ) (x y : ℚ) :
    (if a < 0 then -1 else 1 : ℚ) * x * ((if b < 0 then -1 else 1 : ℚ) * y) =
      (if ¬ (a < 0 ↔ b < 0) then -1 else 1 : ℚ) * (x * y) := by
  by_cases h1 : a < 0 <;> by_cases h2 : b < 0 <;> simp [h1, h2]

theorem sign_div (a b : ℤ) (x y : ℚ) :
    (if a < 0 then -1 else 1 : ℚ) * x / ((if b < 0 then -1 else 1 : ℚ) * y) =
      (if ¬ (a < 0 ↔ b < 0) then -1 else 1 : ℚ) * (x / y) := by
  by_cases h1 : a < 0 <;> by_cases h2 : b < 0 <;> simp [h1, h2, neg_div, div_neg]

theorem mul_real {a b : ℤ} (ha : cfg.fmt.IsReal a) (ha0 : a ≠ 0) (hb : cfg.fmt.IsReal b) (hb0 : b ≠ 0) :
    cfg.fmt.IsTrunc (cfg.fmt.val a * cfg.fmt.val b) (mul a b) := by
  have hc := at2_chk mul_ok ha.canonical hb.canonical
  obtain ⟨va, pa⟩ := val8 ha ha0
  obtain ⟨vb, pb⟩ := val8 hb hb0
  have A := byte ha.canonical
  have B := byte hb.canonical
  have hra := real_iff.mp ha
  have hrb := real_iff.mp hb
  unfold mulChk at hc
  simp only [Bool.cond_eq_ite, beq_iff, decide_eq_true_eq, A.nan, B.nan, A.zero, B.zero, A.mag, B.mag] at hc
  rw [if_neg (by omega), if_neg (by omega), if_neg ha0, if_neg hb0, sx_eq] at hc
  have := chk8_spec (tabGet_lt 8 _ _ _) (by norm_num) (Nat.mul_pos pa pb) hc
  rw [va, vb, sign_mul]
  refine trunc_congr this ?_
  simp only [decide_eq_true_eq, A.sign, B.sign]
  push_cast; ring

theorem div_real {a b : ℤ} (ha : cfg.fmt.IsReal a) (ha0 : a ≠ 0) (hb : cfg.fmt.IsReal b) (hb0 : b ≠ 0) :
    cfg.fmt.IsTrunc (cfg.fmt.val a / cfg.fmt.val b) (div a b) := by
  have hc := at2_chk div_ok ha.canonical hb.canonical
  obtain ⟨va, pa⟩ := val8 ha ha0
  obtain ⟨vb, pb⟩ := val8 hb hb0
  have A := byte ha.canonical
  have B := byte hb.canonical
  have hra := real_iff.mp ha
  have hrb := real_iff.mp hb
  unfold divChk at hc
  simp only [Bool.cond_eq_ite, beq_iff, decide_eq_true_eq, A.nan, B.nan, A.zero, B.zero, A.mag, B.mag] at hc
  rw [if_neg (by omega), if_neg (by omega), if_neg hb0, if_neg ha0, sx_eq] at hc
  have := chk8_spec (tabGet_lt 8 _ _ _) pb (Nat.mul_pos pa (by norm_num)) hc
  rw [va, vb, sign_div]
  refine trunc_congr this ?_
  simp only [decide_eq_true_eq, A.sign, B.sign]
  push_cast
  have : (W b.natAbs : ℚ) ≠ 0 := by positivity
  field_simp
  norm_num

theorem add_real {a b : ℤ} (ha : cfg.fmt.IsReal a) (ha0 : a ≠ 0) (hb : cfg.fmt.IsReal b) (hb0 : b ≠ 0) :
    (a = -b ∧ add a b = 0) ∨ (a ≠ -b ∧ cfg.fmt.IsTrunc (cfg.fmt.val a + cfg.fmt.val b) (add a b)) := by
  have hc := at2_chk add_ok ha.canonical hb.canonical
  obtain ⟨va, pa⟩ := val8 ha ha0
  obtain ⟨vb, pb⟩ := val8 hb hb0
  have A := byte ha.canonical
  have B := byte hb.canonical
  have hra := real_iff.mp ha
  have hrb := real_iff.mp hb
  have ht := tabGet_lt 8 256 opaddTab (uu a * 256 + uu b)
  have hna : a.natAbs ≤ 127 := by omega
  have hnb : b.natAbs ≤ 127 := by omega
  have ha1 : 1 ≤ a.natAbs := by omega
  have hb1 : 1 ≤ b.natAbs := by omega
  unfold addChk at hc
  simp only [Bool.cond_eq_ite, beq_iff, decide_eq_true_eq, A.nan, B.nan, A.zero, B.zero, A.mag, B.mag, sx_eq, A.sign, B.sign,
    Nat.ble_eq] at hc
  rw [if_neg (by omega), if_neg (by omega), if_neg ha0, if_neg hb0] at hc
  by_cases hs : a < 0 ↔ b < 0
  · rw [if_neg (not_not.mpr hs)] at hc
    have := chk8_spec ht (by norm_num) (Nat.add_pos_left pa _) hc
    refine Or.inr ⟨by omega, ?_⟩
    rw [va, vb]
    refine trunc_congr this ?_
    push_cast
    simp only [Nat.ble_eq, A.sign, hs]
    split_ifs <;> ring
  · rw [if_pos hs] at hc
    by_cases he : a.natAbs = b.natAbs
    · rw [if_pos he] at hc
      refine Or.inl ⟨by omega, ?_⟩
      unfold add at2
      rw [of_decide_eq_true hc]; rfl
    · rw [if_neg he] at hc
      refine Or.inr ⟨by omega, ?_⟩
      by_cases hl : a.natAbs ≤ b.natAbs
      · rw [if_pos hl] at hc
        have hlt := W_lt ha1 hnb (by omega)
        have := chk8_spec ht (by norm_num) (Nat.sub_pos_of_lt hlt) hc
        rw [va, vb]
        refine trunc_congr this ?_
        rw [Nat.cast_sub hlt.le]; push_cast
        simp only [Nat.ble_eq, B.sign]
        by_cases h1 : a < 0 <;> by_cases h2 : b < 0
        · exact absurd (iff_of_true h1 h2) hs
        · simp only [h1, h2, if_true, if_false]; ring
        · simp only [h1, h2, if_true, if_false]; ring
        · exact absurd (iff_of_false h1 h2) hs
      · rw [if_neg hl] at hc
        have hlt := W_lt hb1 hna (by omega)
        have := chk8_spec ht (by norm_num) (Nat.sub_pos_of_lt hlt) hc
        rw [va, vb]
        refine trunc_congr this ?_
        rw [Nat.cast_sub hlt.le]; push_cast
        simp only [Nat.ble_eq, A.sign]
        by_cases h1 : a < 0 <;> by_cases h2 : b < 0
        · exact absurd (iff_of_true h1 h2) hs
        · simp only [h1, h2, if_true, if_false]; ring
        · simp only [h1, h2, if_true, if_false]; ring
        · exact absurd (iff_of_false h1 h2) hs

theorem inv_real {a : ℤ} (ha : cfg.fmt.IsReal a) (ha0 : a ≠ 0) : cfg.fmt.IsTrunc (1 / cfg.fmt.val a) (inv a) := by
  have hc := at1_chk inv_ok ha.canonical
  obtain ⟨va, pa⟩ := val8 ha ha0
  have A := byte ha.canonical
  have hra := real_iff.mp ha
  unfold invChk at hc
  simp only [Bool.cond_eq_ite, beq_iff, decide_eq_true_eq, A.nan, A.zero, A.mag] at hc
  rw [if_neg (by omega), if_neg ha0] at hc
  have := chk8_spec (tabGet_lt 8 _ _ _) pa (by norm_num) hc
  rw [va]
  refine trunc_congr this ?_
  have : (W a.natAbs : ℚ) ≠ 0 := by positivity
  simp only [Nat.ble_eq, A.sign]
  split_ifs
  · field_simp; norm_num
  · field_simp; norm_num

theorem half_real {a : ℤ} (ha : cfg.fmt.IsReal a) (ha0 : a ≠ 0) : cfg.fmt.IsTrunc (cfg.fmt.val a / 2) (half a) := by
  have hc := at1_chk half_ok ha.canonical
  obtain ⟨va, pa⟩ := val8 ha ha0
  have A := byte ha.canonical
  have hra := real_iff.mp ha
  unfold halfChk at hc
  simp only [Bool.cond_eq_ite, beq_iff, decide_eq_true_eq, A.nan, A.zero, A.mag] at hc
  rw [if_neg (by omega), if_neg ha0] at hc
  have := chk8_spec (tabGet_lt 8 _ _ _) (by norm_num) pa hc
  rw [va]
  refine trunc_congr this ?_
  simp only [Nat.ble_eq, A.sign]
  push_cast; ring

theorem square_real {a : ℤ} (ha : cfg.fmt.IsReal a) (ha0 : a ≠ 0) :
    cfg.fmt.IsTrunc (cfg.fmt.val a * cfg.fmt.val a) (square a) := by
  have hc := at1_chk square_ok ha.canonical
  obtain ⟨va, pa⟩ := val8 ha ha0
  have A := byte ha.canonical
  have hra := real_iff.mp ha
  unfold squareChk at hc
  simp only [Bool.cond_eq_ite, beq_iff, decide_eq_true_eq, A.nan, A.zero, A.mag] at hc
  rw [if_neg (by omega), if_neg ha0] at hc
  have := chk8_spec (tabGet_lt 8 _ _ _) (by norm_num) (Nat.mul_pos pa pa) hc
  rw [va, sign_mul]
  refine trunc_congr this ?_
  simp
  ring

end Verif.Posit8
