import Verif.Spec.Format
import Verif.Lemmas.LG
import Mathlib.Data.Nat.Bitwise

/-! # From the bit-list specification to the closed form `L (2^es·s)` -/

namespace Verif.Fmt

theorem bitsMSB_length (n x : Nat) : (bitsMSB n x).length = n := by
  induction n with
  | zero => rfl
  | succ n ih => simp [bitsMSB, ih]

theorem bitsMSB_add (a b x : Nat) : bitsMSB (a + b) x = bitsMSB a (x / 2 ^ b) ++ bitsMSB b x := by
  induction a with
  | zero => simp [bitsMSB]
  | succ a ih =>
    rw [show a + 1 + b = (a + b) + 1 by omega, bitsMSB, ih, bitsMSB, List.cons_append, Nat.testBit_div_two_pow]

theorem bitsMSB_mod (n x : Nat) : bitsMSB n (x % 2 ^ n) = bitsMSB n x := by
  suffices h : ∀ m ≤ n, bitsMSB m (x % 2 ^ n) = bitsMSB m x from h n le_rfl
  intro m hm
  induction m with
  | zero => rfl
  | succ m ih =>
    rw [bitsMSB, bitsMSB, ih (by omega), Nat.testBit_mod_two_pow]
    simp [show m < n by omega]

theorem bitsMSB_zero (n : Nat) : bitsMSB n 0 = List.replicate n false := by
  induction n with
  | zero => rfl
  | succ n ih => simp [bitsMSB, ih, List.replicate_succ]

theorem bitsMSB_ones (n : Nat) : bitsMSB n (2 ^ n - 1) = List.replicate n true := by
  suffices h : ∀ m ≤ n, bitsMSB m (2 ^ n - 1) = List.replicate m true from h n le_rfl
  intro m hm
  induction m with
  | zero => rfl
  | succ m ih =>
    rw [bitsMSB, ih (by omega), List.replicate_succ, Nat.testBit_two_pow_sub_one]
    simp [show m < n by omega]

theorem foldl_acc (l : List Bool) (a : Nat) :
    l.foldl (fun a b => 2 * a + b.toNat) a = a * 2 ^ l.length + ofBits l := by
  induction l generalizing a with
  | nil => simp [ofBits]
  | cons b l ih =>
    simp only [List.foldl_cons, List.length_cons, ofBits] at *
    rw [ih, ih (2 * 0 + b.toNat)]
    ring

theorem ofBits_cons (b : Bool) (l : List Bool) : ofBits (b :: l) = b.toNat * 2 ^ l.length + ofBits l := by
  rw [ofBits, List.foldl_cons, foldl_acc]
  simp

theorem ofBits_bitsMSB (n x : Nat) : ofBits (bitsMSB n x) = x % 2 ^ n := by
  induction n with
  | zero => simp [bitsMSB, ofBits, Nat.mod_one]
  | succ n ih =>
    rw [bitsMSB, ofBits_cons, ih, bitsMSB_length, Nat.testBit_eq_decide_div_mod_eq, pow_succ, Nat.mod_mul]
    rcases Nat.mod_two_eq_zero_or_one (x / 2 ^ n) with h | h <;> simp [h]
    all_goals ring

theorem runLength_replicate_append (b : Bool) (k : Nat) (t : List Bool) :
    runLength b (List.replicate k b ++ (!b) :: t) = k := by
  induction k with
  | zero => simp [runLength]
  | succ k ih => simp [List.replicate_succ, runLength, ih]

theorem runLength_replicate (b : Bool) (k : Nat) : runLength b (List.replicate k b) = k := by
  induction k with
  | zero => simp [runLength]
  | succ k ih => simp [List.replicate_succ, runLength, ih]

/-- exponent and fraction part, read from `m` remaining bits -/
theorem tail_val (es m rest : Nat) (h : rest < 2 ^ m) (R : ℤ) :
    (let ebits := (bitsMSB m rest).take es
     let fbits := (bitsMSB m rest).drop es
     (2 : ℚ) ^ (2 ^ es * R + (ofBits ebits * 2 ^ (es - ebits.length) : ℕ)) *
       (1 + (ofBits fbits : ℚ) / 2 ^ fbits.length)) = L (2 ^ es * (R + (rest : ℚ) / 2 ^ m)) := by
  rcases le_or_gt es m with hm | hm
  · obtain ⟨j, rfl⟩ := Nat.exists_eq_add_of_le hm
    have hl : (bitsMSB es (rest / 2 ^ j)).length = es := bitsMSB_length _ _
    have e1 : (bitsMSB (es + j) rest).take es = bitsMSB es (rest / 2 ^ j) := by
      rw [bitsMSB_add]; simp [hl]
    have e2 : (bitsMSB (es + j) rest).drop es = bitsMSB j rest := by
      rw [bitsMSB_add]; simp [hl]
    simp only [e1, e2, bitsMSB_length, ofBits_bitsMSB, Nat.sub_self, pow_zero, mul_one]
    have hlt : rest / 2 ^ j < 2 ^ es := by
      rw [Nat.div_lt_iff_lt_mul (by positivity), ← pow_add]; exact h
    rw [Nat.mod_eq_of_lt hlt]
    have hj : (0 : ℚ) < 2 ^ j := by positivity
    have hdm : (rest : ℚ) = 2 ^ j * (rest / 2 ^ j : ℕ) + (rest % 2 ^ j : ℕ) := by
      exact_mod_cast (Nat.div_add_mod rest (2 ^ j)).symm
    have hlt2 : ((rest % 2 ^ j : ℕ) : ℚ) < 2 ^ j := by
      exact_mod_cast Nat.mod_lt rest (by positivity)
    have key := L_int_add (2 ^ es * R + (rest / 2 ^ j : ℕ)) (x := ((rest % 2 ^ j : ℕ) : ℚ) / 2 ^ j)
      (by positivity) (by rw [div_lt_one hj]; exact hlt2)
    rw [← key]
    congr 1
    clear key e1 e2 hl h
    generalize rest / 2 ^ j = a at *
    generalize rest % 2 ^ j = b at *
    push_cast
    rw [hdm, pow_add]
    field_simp
    ring
  · have hl : (bitsMSB m rest).length = m := bitsMSB_length _ _
    have e1 : (bitsMSB m rest).take es = bitsMSB m rest := by
      rw [List.take_of_length_le]; omega
    have e2 : (bitsMSB m rest).drop es = [] := by
      rw [List.drop_eq_nil_iff]; omega
    simp only [e1, e2, hl, ofBits_bitsMSB, Nat.mod_eq_of_lt h]
    have key := L_intCast (2 ^ es * R + (rest * 2 ^ (es - m) : ℕ))
    simp only [ofBits, List.foldl_nil, List.length_nil, pow_zero, Nat.cast_zero, div_one, add_zero, mul_one]
    rw [← key]
    congr 1
    obtain ⟨d, rfl⟩ := Nat.exists_eq_add_of_lt hm
    push_cast
    rw [show m + d + 1 - m = d + 1 by omega, show m + d + 1 = m + (d + 1) by omega, pow_add]
    field_simp

/-- Decomposition of a positive body `p` of `M` bits: regime `r` and the `m` bits `rest` after its terminator. -/
structure Dec (M p : ℕ) (r : ℤ) (m rest : ℕ) : Prop where
  hrest : rest < 2 ^ m
  cases : (r < 0 ∧ (M : ℤ) = m + 1 - r ∧ p = 2 ^ m + rest) ∨
    (0 ≤ r ∧ (M : ℤ) = m + 2 + r ∧ p + 2 ^ (m + 1) = 2 ^ M + rest) ∨
    (r = (M : ℤ) - 1 ∧ 1 ≤ M ∧ m = 0 ∧ rest = 0 ∧ p = 2 ^ M - 1)

theorem exists_dec {M p : ℕ} (hp : 1 ≤ p) (hlt : p < 2 ^ M) : ∃ r m rest, Dec M p r m rest := by
  have hM : 1 ≤ M := by
    rcases Nat.eq_zero_or_pos M with h | h
    · subst h; simp at hlt; omega
    · exact h
  rcases lt_or_ge p (2 ^ (M - 1)) with h | h
  · have hlog : 2 ^ Nat.log2 p ≤ p := Nat.log2_self_le (by omega)
    have hlog2 : p < 2 ^ (Nat.log2 p + 1) := Nat.lt_log2_self
    have hm : Nat.log2 p < M - 1 := (Nat.pow_lt_pow_iff_right (by norm_num : 1 < 2)).mp (lt_of_le_of_lt hlog h)
    refine ⟨-((M : ℤ) - 1 - Nat.log2 p), Nat.log2 p, p - 2 ^ Nat.log2 p, ?_, Or.inl ⟨by omega, by omega, by omega⟩⟩
    rw [pow_succ] at hlog2; omega
  · rcases Nat.eq_zero_or_pos (2 ^ M - 1 - p) with h0 | h0
    · exact ⟨(M : ℤ) - 1, 0, 0, by norm_num, Or.inr (Or.inr ⟨rfl, hM, rfl, rfl, by omega⟩)⟩
    · set q := 2 ^ M - 1 - p with hq
      have hlog : 2 ^ Nat.log2 q ≤ q := Nat.log2_self_le (by omega)
      have hlog2 : q < 2 ^ (Nat.log2 q + 1) := Nat.lt_log2_self
      have h2 : 2 ^ M = 2 * 2 ^ (M - 1) := by
        rw [← pow_succ']; congr 1; omega
      have hm : Nat.log2 q < M - 1 :=
        (Nat.pow_lt_pow_iff_right (by norm_num : 1 < 2)).mp (lt_of_le_of_lt hlog (by omega))
      rw [pow_succ] at hlog2
      refine ⟨(M : ℤ) - 2 - Nat.log2 q, Nat.log2 q, p + 2 * 2 ^ Nat.log2 q - 2 ^ M, ?_, Or.inr (Or.inl ⟨by omega, by omega, ?_⟩)⟩
      · omega
      · rw [pow_succ]; omega

theorem bodyVal_run (es k m rest : ℕ) (b : Bool) (hk : 1 ≤ k) (h : rest < 2 ^ m) :
    bodyVal es (List.replicate k b ++ (!b) :: bitsMSB m rest) =
      L (2 ^ es * (regimeOf b k + (rest : ℚ) / 2 ^ m)) := by
  have hh : (List.replicate k b ++ (!b) :: bitsMSB m rest).headD false = b := by
    obtain ⟨k', rfl⟩ := Nat.exists_eq_add_of_le' hk
    simp [List.replicate_succ]
  have hd : (List.replicate k b ++ (!b) :: bitsMSB m rest).drop (k + 1) = bitsMSB m rest := by
    rw [List.drop_append]; simp
  unfold bodyVal
  simp only [hh, runLength_replicate_append, hd]
  have := tail_val es m rest h (regimeOf b k)
  simpa using this

theorem bodyVal_allTrue (es k : ℕ) (hk : 1 ≤ k) :
    bodyVal es (List.replicate k true) = L (2 ^ es * ((k : ℤ) - 1 : ℤ)) := by
  have hh : (List.replicate k true).headD false = true := by
    obtain ⟨k', rfl⟩ := Nat.exists_eq_add_of_le' hk
    simp [List.replicate_succ]
  unfold bodyVal
  simp only [hh, runLength_replicate]
  have := tail_val es 0 0 (by norm_num) (regimeOf true k)
  simp [bitsMSB] at this ⊢
  rw [this]
  simp [regimeOf]

theorem Dec.posVal {N es p : ℕ} {r : ℤ} {m rest : ℕ} (h : Dec (N - 1) p r m rest) :
    posVal N es p = L (2 ^ es * (r + (rest : ℚ) / 2 ^ m)) := by
  obtain ⟨hrest, h | h | h⟩ := h
  · obtain ⟨hr, hM, hp⟩ := h
    obtain ⟨k, rfl⟩ : ∃ k : ℕ, r = -(k : ℤ) := ⟨(-r).toNat, by omega⟩
    have hk : 1 ≤ k := by omega
    have hM' : N - 1 = k + (1 + m) := by omega
    have hpl : p < 2 ^ (1 + m) := by rw [pow_add]; omega
    have hbits : bitsMSB (N - 1) p = List.replicate k false ++ (!false) :: bitsMSB m rest := by
      rw [hM', bitsMSB_add, Nat.div_eq_of_lt hpl, bitsMSB_zero, bitsMSB_add]
      have h1 : p / 2 ^ m = 1 := by
        rw [hp, Nat.add_div_left _ (by positivity), Nat.div_eq_of_lt hrest]
      rw [h1, ← bitsMSB_mod m p, hp, Nat.add_mod_left, Nat.mod_eq_of_lt hrest]
      simp [bitsMSB]
    rw [Fmt.posVal, hbits, bodyVal_run es k m rest false hk hrest]
    simp [regimeOf]
  · obtain ⟨hr, hM, hp⟩ := h
    obtain ⟨k, rfl⟩ : ∃ k : ℕ, r = (k : ℤ) := ⟨r.toNat, by omega⟩
    have hM' : N - 1 = (k + 1) + (1 + m) := by omega
    have e1 : 2 ^ (N - 1) = 2 ^ (k + 1) * (2 * 2 ^ m) := by rw [hM', pow_add 2 (k + 1), pow_add 2 1, pow_one]
    have hk1 : 1 ≤ 2 ^ (k + 1) := Nat.one_le_two_pow
    have hp' : p = rest + 2 ^ m * ((2 ^ (k + 1) - 1) * 2) := by
      rw [e1, pow_succ _ m] at hp
      obtain ⟨z, hz⟩ := Nat.exists_eq_add_of_le hk1
      rw [hz] at hp ⊢
      simp only [Nat.add_sub_cancel_left]
      nlinarith
    have hdm : p / 2 ^ m = (2 ^ (k + 1) - 1) * 2 := by
      rw [hp', Nat.add_mul_div_left _ _ (by positivity), Nat.div_eq_of_lt hrest, zero_add]
    have hbits : bitsMSB (N - 1) p = List.replicate (k + 1) true ++ (!true) :: bitsMSB m rest := by
      rw [hM', bitsMSB_add, bitsMSB_add 1 m, pow_add, pow_one, mul_comm, ← Nat.div_div_eq_div_mul, hdm,
        Nat.mul_div_cancel _ (by norm_num), bitsMSB_ones, ← bitsMSB_mod m p, hp', Nat.add_mul_mod_self_left,
        Nat.mod_eq_of_lt hrest]
      simp [bitsMSB]
    rw [Fmt.posVal, hbits, bodyVal_run es (k + 1) m rest true (by omega) hrest]
    simp [regimeOf]
  · obtain ⟨rfl, hM, rfl, rfl, rfl⟩ := h
    rw [Fmt.posVal, bitsMSB_ones, bodyVal_allTrue _ _ hM]
    simp

theorem Dec.pos {M p : ℕ} {r : ℤ} {m rest : ℕ} (h : Dec M p r m rest) :
    (p : ℚ) / 2 ^ M = G (r + (rest : ℚ) / 2 ^ m) := by
  obtain ⟨hrest, h⟩ := h
  have hx0 : (0 : ℚ) ≤ (rest : ℚ) / 2 ^ m := by positivity
  have hx1 : (rest : ℚ) / 2 ^ m < 1 := by
    rw [div_lt_one (by positivity)]; exact_mod_cast hrest
  rcases h with h | h | h
  · obtain ⟨hr, hM, hp⟩ := h
    obtain ⟨k, rfl⟩ : ∃ k : ℕ, r = -(k : ℤ) := ⟨(-r).toNat, by omega⟩
    have hM' : M = m + (k + 1) := by omega
    have := G_neg k (by omega) hx0 hx1
    push_cast at this ⊢
    rw [this, hp, hM', pow_add]
    push_cast
    field_simp
  · obtain ⟨hr, hM, hp⟩ := h
    obtain ⟨k, rfl⟩ : ∃ k : ℕ, r = (k : ℤ) := ⟨r.toNat, by omega⟩
    have hM' : M = m + (k + 2) := by omega
    have := G_nonneg k hx0 hx1
    push_cast at this ⊢
    have hpq : (p : ℚ) = 2 ^ M + rest - 2 ^ (m + 1) := by
      have : (p : ℚ) + 2 ^ (m + 1) = 2 ^ M + rest := by exact_mod_cast hp
      linarith
    rw [this, hpq, hM', pow_add 2 m (k + 2), pow_succ 2 m]
    field_simp
    ring
  · obtain ⟨rfl, hM, rfl, rfl, rfl⟩ := h
    have := G_nonneg (M - 1) (x := 0) le_rfl one_pos
    have hc : ((M - 1 : ℕ) : ℚ) = (M : ℚ) - 1 := by
      rw [Nat.cast_sub hM]; norm_num
    rw [hc] at this
    push_cast
    rw [zero_div, this, Nat.cast_sub Nat.one_le_two_pow, show M - 1 + 2 = M + 1 by omega, pow_succ]
    push_cast
    field_simp
    ring

/-- regime coordinate of a body -/
theorem exists_coord {N es p : ℕ} (hp : 1 ≤ p) (hlt : p < 2 ^ (N - 1)) :
    ∃ s : ℚ, (p : ℚ) / 2 ^ (N - 1) = G s ∧ posVal N es p = L (2 ^ es * s) := by
  obtain ⟨r, m, rest, h⟩ := exists_dec hp hlt
  exact ⟨_, h.pos, h.posVal⟩

theorem posVal_pos {N es p : ℕ} (hp : 1 ≤ p) (hlt : p < 2 ^ (N - 1)) : 0 < posVal N es p := by
  obtain ⟨s, -, h⟩ := exists_coord (es := es) hp hlt
  rw [h]; exact L_pos _

theorem posVal_le_L_iff {N es p : ℕ} (hp : 1 ≤ p) (hlt : p < 2 ^ (N - 1)) (s : ℚ) :
    posVal N es p ≤ L (2 ^ es * s) ↔ (p : ℚ) ≤ 2 ^ (N - 1) * G s := by
  obtain ⟨s', h1, h2⟩ := exists_coord (es := es) hp hlt
  rw [h2, L_le_iff, mul_le_mul_iff_right₀ (by positivity), ← G_le_iff, ← h1, div_le_iff₀ (by positivity), mul_comm]

theorem posVal_le_iff {N es p q : ℕ} (hp : 1 ≤ p) (hpl : p < 2 ^ (N - 1)) (hq : 1 ≤ q) (hql : q < 2 ^ (N - 1)) :
    posVal N es p ≤ posVal N es q ↔ p ≤ q := by
  obtain ⟨s', h1, h2⟩ := exists_coord (es := es) hq hql
  rw [h2, posVal_le_L_iff hp hpl, ← h1, mul_div_cancel₀ _ (by positivity)]
  exact Nat.cast_le

theorem posVal_lt_iff {N es p q : ℕ} (hp : 1 ≤ p) (hpl : p < 2 ^ (N - 1)) (hq : 1 ≤ q) (hql : q < 2 ^ (N - 1)) :
    posVal N es p < posVal N es q ↔ p < q := by
  rw [← not_le, posVal_le_iff hq hql hp hpl, not_le]

end Verif.Fmt
