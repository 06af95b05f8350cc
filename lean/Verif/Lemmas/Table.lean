import Verif.Model.Tabulated
import Verif.Lemmas.Val
import Verif.Lemmas.Cpp

/-!
# Checking a whole lookup table in the kernel

A table is checked entry by entry by a Boolean function; the lemmas turn the one successful check into a statement for every
index.
-/

namespace Verif

/-- entries `0 … n-1` of the literal `row` satisfy `p` -/
def checkRow (w : Nat) (p : Nat → Nat → Bool) (row n : Nat) : Bool :=
  Nat.rec true (fun n ih => bif p n (Nat.mod (Nat.shiftRight row (Nat.mul w n)) (Nat.pow 2 w)) then ih else false) n

/-- all `cols` entries of the first `n` literals satisfy `p` -/
def checkRows (w cols : Nat) (p : Nat → Nat → Nat → Bool) (rows : List Nat) (n : Nat) : Bool :=
  Nat.rec true (fun i ih => bif checkRow w (p i) (rows.getD i 0) cols then ih else false) n

theorem checkRow_spec {w : Nat} {p : Nat → Nat → Bool} {row n : Nat} (h : checkRow w p row n = true) {j : Nat} (hj : j < n) :
    p j ((row >>> (w * j)) % 2 ^ w) = true := by
  induction n with
  | zero => omega
  | succ n ih =>
    replace h : (bif p n ((row >>> (w * n)) % 2 ^ w) then checkRow w p row n else false) = true := h
    replace h : p n ((row >>> (w * n)) % 2 ^ w) = true ∧ checkRow w p row n = true := by
      cases hp : p n ((row >>> (w * n)) % 2 ^ w) <;> rw [hp] at h
      · cases h
      · exact ⟨rfl, h⟩
    rcases Nat.lt_succ_iff_lt_or_eq.mp hj with h1 | rfl
    · exact ih h.2 h1
    · exact h.1

theorem checkRows_spec {w cols : Nat} {p : Nat → Nat → Nat → Bool} {rows : List Nat} {n : Nat}
    (h : checkRows w cols p rows n = true) {i : Nat} (hi : i < n) {j : Nat} (hj : j < cols) :
    p i j ((rows.getD i 0 >>> (w * j)) % 2 ^ w) = true := by
  induction n with
  | zero => omega
  | succ n ih =>
    replace h : (bif checkRow w (p n) (rows.getD n 0) cols then checkRows w cols p rows n else false) = true := h
    replace h : checkRow w (p n) (rows.getD n 0) cols = true ∧ checkRows w cols p rows n = true := by
      cases hp : checkRow w (p n) (rows.getD n 0) cols <;> rw [hp] at h
      · cases h
      · exact ⟨rfl, h⟩
    rcases Nat.lt_succ_iff_lt_or_eq.mp hi with h1 | rfl
    · exact ih h.2 h1
    · exact checkRow_spec h.1 hj

theorem tab_spec {w cols n : Nat} {p : Nat → Nat → Nat → Bool} {rows : List Nat}
    (h : checkRows w cols p rows n = true) {i : Nat} (hi : i < n * cols) :
    p (i / cols) (i % cols) (tabGet w cols rows i) = true := by
  have hc : 0 < cols := by
    rcases Nat.eq_zero_or_pos cols with h0 | h0
    · subst h0; omega
    · exact h0
  exact checkRows_spec h (i := i / cols) (Nat.div_lt_of_lt_mul (by rw [Nat.mul_comm]; exact hi)) (Nat.mod_lt i hc)

/-! ### Truncation, checked with integers -/

/-- `k` is the number `n/d` (in units of the least positive number) truncated, where `W` lists the numbers of the format in
these units and `m` is the greatest pattern -/
def truncChk (W : Nat → Nat) (m n d k : Nat) : Bool :=
  bif Nat.ble 1 k then bif Nat.ble k m then
    bif (bif Nat.ble (Nat.mul (W k) d) n then true else Nat.beq k 1) then
      bif Nat.beq k m then true else Nat.ble (Nat.succ n) (Nat.mul (W (Nat.succ k)) d)
    else false else false else false

theorem truncChk_iff {W : Nat → Nat} {m n d k : Nat} :
    truncChk W m n d k = true ↔ 1 ≤ k ∧ k ≤ m ∧ (W k * d ≤ n ∨ k = 1) ∧ (k = m ∨ n < W (k + 1) * d) := by
  unfold truncChk
  simp only [Bool.cond_eq_ite, Nat.mul_eq, Nat.succ_eq_add_one]
  constructor
  · intro h
    split_ifs at h with h1 h2 h3 h4 h4 h5 <;> simp_all [Nat.lt_iff_add_one_le]
  · rintro ⟨h1, h2, h3, h4⟩
    rw [if_pos (Nat.ble_eq.mpr h1), if_pos (Nat.ble_eq.mpr h2)]
    split_ifs with h5 h6 h7 h7 <;> simp_all [Nat.lt_iff_add_one_le]
    omega

namespace Fmt.Format
open Fmt

theorem truncB_of_chk {f : Format} {W : Nat → Nat} {S m n d k : Nat} (hm : f.maxBody = m)
    (hW : ∀ k, 1 ≤ k → k ≤ m → posVal f.N f.es k * 2 ^ S = W k) (hd : 0 < d) (h : truncChk W m n d k = true) :
    f.TruncB ((n : ℚ) / (d * 2 ^ S)) k := by
  obtain ⟨h1, h2, h3, h4⟩ := truncChk_iff.mp h
  have hdq : (0 : ℚ) < d := by exact_mod_cast hd
  have hS : (0 : ℚ) < 2 ^ S := by positivity
  have hl := maxBody_lt f
  have conv : ∀ q, 1 ≤ q → q ≤ m → (posVal f.N f.es q ≤ (n : ℚ) / (d * 2 ^ S) ↔ W q * d ≤ n) := by
    intro q hq1 hq2
    rw [le_div_iff₀ (by positivity), show posVal f.N f.es q * (d * 2 ^ S) = posVal f.N f.es q * 2 ^ S * d by ring, hW q hq1 hq2]
    exact_mod_cast Iff.rfl
  refine ⟨h1, by omega, ?_, ?_⟩
  · intro q hq1 hq2 hq
    by_contra hc
    rcases h4 with h4 | h4
    · omega
    · have : posVal f.N f.es (k + 1) ≤ posVal f.N f.es q :=
        (posVal_le_iff (by omega) (by omega) hq1 (by omega)).mpr (by omega)
      have := (conv (k + 1) (by omega) (by omega)).mp (this.trans hq)
      omega
  · rcases h3 with h3 | h3
    · exact Or.inl ((conv k h1 h2).mpr h3)
    · exact Or.inr h3

end Fmt.Format

open Fmt

/-- magnitude of the two's complement pattern `a` with sign bit `M` -/
def mg (M a : Nat) : Nat := bif Nat.ble M a then Nat.sub (Nat.mul 2 M) a else a

/-- the pattern `t` with sign bit `M` is the number `±n/d` truncated -/
def chk (W : Nat → Nat) (m M : Nat) (neg : Bool) (n d t : Nat) : Bool :=
  bif (bif neg then Nat.ble M t else Nat.ble (Nat.succ t) M) then truncChk W m n d (mg M t) else false

/-- the signs of the patterns differ -/
def sx (M a b : Nat) : Bool := bif Nat.ble M a then Nat.ble (Nat.succ b) M else Nat.ble M b

theorem mg_eq (M a : Nat) : mg M a = if M ≤ a then 2 * M - a else a := by
  unfold mg
  rw [Bool.cond_eq_ite]
  simp only [Nat.ble_eq, Nat.mul_eq, Nat.sub_eq]

theorem sx_eq (M a b : Nat) : sx M a b = decide (¬ (M ≤ a ↔ M ≤ b)) := by
  unfold sx
  rw [Bool.cond_eq_ite, Bool.eq_iff_iff, decide_eq_true_eq]
  by_cases h1 : M ≤ a
  · rw [if_pos (Nat.ble_eq.mpr h1), Nat.ble_eq, Nat.succ_eq_add_one]; omega
  · rw [if_neg (by rw [Nat.ble_eq]; exact h1), Nat.ble_eq]; omega

theorem wrapS_byte {w t : Nat} (hw : 1 ≤ w) (ht : t < 2 ^ w) :
    wrapS w t = if 2 ^ (w - 1) ≤ t then -(mg (2 ^ (w - 1)) t : ℤ) else mg (2 ^ (w - 1)) t := by
  have h2 : (2 : ℕ) ^ w = 2 * 2 ^ (w - 1) := by
    rw [← pow_succ']; congr 1; omega
  rw [mg_eq]
  have h2z : (2 : ℤ) ^ w = 2 * 2 ^ (w - 1) := by exact_mod_cast h2
  generalize hM : (2 : ℕ) ^ (w - 1) = M at *
  have hMz : (2 : ℤ) ^ (w - 1) = M := by exact_mod_cast hM
  by_cases hc : M ≤ t
  · rw [if_pos hc, if_pos hc]
    refine wrapS_eq hw 1 ?_ ?_
    · rw [h2z, hMz]; omega
    · unfold InS; rw [hMz]; omega
  · rw [if_neg hc, if_neg hc]
    refine wrapS_eq hw 0 (by ring) ?_
    unfold InS; rw [hMz]; omega

theorem chk_spec {f : Format} {W : Nat → Nat} {S m w n d t : Nat} (hm : f.maxBody = m)
    (hW : ∀ k, 1 ≤ k → k ≤ m → posVal f.N f.es k * 2 ^ S = W k) (hw : 1 ≤ w) (ht : t < 2 ^ w) (hd : 0 < d) (hn : 0 < n)
    {neg : Bool} (h : chk W m (2 ^ (w - 1)) neg n d t = true) :
    f.IsTrunc ((if neg then -1 else 1) * ((n : ℚ) / (d * 2 ^ S))) (wrapS w t) := by
  unfold chk at h
  rw [Bool.cond_eq_ite, Bool.cond_eq_ite] at h
  have hs : (if neg = true then Nat.ble (2 ^ (w - 1)) t else Nat.ble (Nat.succ t) (2 ^ (w - 1))) = true := by
    by_contra hc
    rw [if_neg hc] at h
    cases h
  rw [if_pos hs] at h
  have hneg : neg = decide (2 ^ (w - 1) ≤ t) := by
    cases neg
    · simp at hs ⊢; omega
    · simp at hs ⊢; omega
  have := Format.IsTrunc.of_sign neg (y := (n : ℚ) / (d * 2 ^ S)) (by positivity) (Format.truncB_of_chk hm hW hd h)
  rw [wrapS_byte hw ht]
  rw [hneg] at this ⊢
  simpa using this

/-- the number of a pattern by the list of numbers -/
theorem val_byte {f : Format} {W : Nat → Nat} {S m : Nat} (hm : f.maxBody = m)
    (hW : ∀ k, 1 ≤ k → k ≤ m → posVal f.N f.es k * 2 ^ S = W k) {v : ℤ} (hv : f.IsReal v) (h0 : v ≠ 0) :
    f.val v = (if v < 0 then -1 else 1) * ((W v.natAbs : ℚ) / 2 ^ S) ∧ 0 < W v.natAbs := by
  have hS : (0 : ℚ) < 2 ^ S := by positivity
  have h1 : 1 ≤ v.natAbs := by omega
  have h2 : v.natAbs ≤ m := by rw [← hm]; exact hv.natAbs_le
  have h3 := hW _ h1 h2
  have hp : 0 < posVal f.N f.es v.natAbs := posVal_pos h1 (hv.natAbs_lt)
  constructor
  · rw [← h3, mul_div_cancel_right₀ _ hS.ne']
    split_ifs with hs
    · rw [Format.val_neg' hs]; ring
    · rw [Format.val_pos' (by omega)]; ring
  · have : (0 : ℚ) < W v.natAbs := by rw [← h3]; positivity
    exact_mod_cast this

end Verif
