import Verif.Model.ListPosits
import Verif.Props.TestIdentities
import Verif.Props.ExtUnary

/-!
# C98: the listing tool
-/

namespace Verif
open Fmt ListPosits

variable {c : Cfg}

/-! ## Helper lemmas -/

theorem ldiff_ones (k m : ℕ) : Nat.ldiff (2 ^ k - 1) m = 2 ^ k - 1 - m % 2 ^ k := by
  apply Nat.eq_of_testBit_eq
  intro i
  have hlt : m % 2 ^ k < 2 ^ k := Nat.mod_lt _ (by positivity)
  rw [Nat.testBit_ldiff, Nat.testBit_two_pow_sub_one, show 2 ^ k - 1 - m % 2 ^ k = 2 ^ k - (m % 2 ^ k + 1) by omega,
    Nat.testBit_two_pow_sub_succ hlt, Nat.testBit_mod_two_pow]
  by_cases hi : i < k <;> simp [hi]

theorem shlS_one {w k : ℕ} (hk : k + 1 < pw w) : shlS w 1 (k : ℤ) = .ok (2 ^ k) := by
  have e1 : ¬ ((k : ℤ) < 0 ∨ ((pw w : ℕ) : ℤ) ≤ k) := by omega
  have e2 : (2 : ℤ) ^ k < 2 ^ (pw w - 1) := pow_lt_pow_right₀ (by norm_num) (by omega)
  have e3 := two_pow_pred (w := pw w) (by omega)
  have e4 : (0 : ℤ) < 2 ^ k := by positivity
  unfold shlS
  rw [if_neg e1, Int.toNat_natCast, one_mul, if_neg (by omega), wrapS_of_inS (by omega) (by unfold InS; omega)]

theorem shlS_one_top {w k : ℕ} (hk : k + 1 = pw w) : shlS w 1 (k : ℤ) = .ok (-2 ^ k) := by
  have e1 : ¬ ((k : ℤ) < 0 ∨ ((pw w : ℕ) : ℤ) ≤ k) := by omega
  have e3 := two_pow_pred (w := pw w) (by omega)
  have e5 : k = pw w - 1 := by omega
  have e4 : (0 : ℤ) < 2 ^ (pw w - 1) := by positivity
  unfold shlS
  rw [if_neg e1, Int.toNat_natCast, one_mul, e5, if_neg (by omega),
    wrapS_eq (by omega) 1 (y := -2 ^ (pw w - 1)) (by rw [e3]; ring) (by unfold InS; omega)]

/-- the sign extension macro on `k + 1` bit words -/
theorem signex_eq {k : ℕ} (hk : k ≤ 30) {v : ℕ} (hv : v < 2 ^ (k + 1)) :
    signex v k = .ok (if v < 2 ^ k then v else v - 2 ^ (k + 1)) := by
  have hp30 : (2 : ℤ) ^ k ≤ 2 ^ 30 := pow_le_pow_right₀ (by norm_num) hk
  have hp0 : (0 : ℤ) < 2 ^ k := by positivity
  have h1 : shlS 32 1 (k : ℤ) = .ok (2 ^ k) := by
    exact shlS_one (w := 32) (by rw [show pw 32 = 32 by decide]; omega)
  have h2 : arithS 32 ((2 : ℤ) ^ k - 1) = .ok (2 ^ k - 1) := arithS_ok' (by unfold InS; norm_num; omega)
  unfold signex
  rw [h1]
  simp only [bind, Except.bind]
  rw [h2]
  simp only [pure, Except.pure]
  congr 1
  have hland : Int.land (v : ℤ) (2 ^ k) = ((v &&& 2 ^ k : ℕ) : ℤ) := by
    have : ((2 : ℤ) ^ k) = ((2 ^ k : ℕ) : ℤ) := by push_cast; rfl
    rw [this]; rfl
  rw [hland]
  rw [pow_succ] at hv
  by_cases hlt : v < 2 ^ k
  · have : v &&& 2 ^ k = 0 := by
      rw [Nat.and_two_pow, Nat.testBit_lt_two_pow hlt]; simp
    rw [this, if_pos hlt, if_neg (by simp)]
    show ((v ||| 0 : ℕ) : ℤ) = v
    simp
  · have hdm : v / 2 ^ k = 1 := by
      rw [Nat.div_eq_iff (by positivity)]; omega
    have hmod : v % 2 ^ k = v - 2 ^ k := by
      have := Nat.div_add_mod v (2 ^ k)
      rw [hdm] at this; omega
    have : v &&& 2 ^ k = 2 ^ k := by
      rw [Nat.and_two_pow]
      have : v.testBit k = true := by
        rw [Nat.testBit_eq_decide_div_mod_eq, hdm]; rfl
      rw [this]; simp
    rw [this, if_neg hlt, if_pos (by positivity)]
    have e : ((2 : ℤ) ^ k - 1) = ((2 ^ k - 1 : ℕ) : ℤ) := by
      have : 1 ≤ 2 ^ k := Nat.one_le_two_pow
      push_cast [this]; rfl
    rw [e]
    show Int.negSucc (Nat.ldiff (2 ^ k - 1) v) = _
    rw [ldiff_ones, hmod, Int.negSucc_eq, pow_succ]
    have : ((2 ^ k - 1 - (v - 2 ^ k) : ℕ) : ℤ) = 2 ^ k - 1 - (v - 2 ^ k) := by
      have h1 : v - 2 ^ k ≤ 2 ^ k - 1 := by omega
      have h2 : 1 ≤ 2 ^ k := Nat.one_le_two_pow
      push_cast [h1, h2, not_lt.mp hlt]; rfl
    rw [this]; ring

/-- `i, i+1, …`, `n` of them -/
def upFrom : ℤ → ℕ → List ℤ
  | _, 0 => []
  | i, n + 1 => i :: upFrom (i + 1) n

theorem mem_upFrom {i v : ℤ} {n : ℕ} : v ∈ upFrom i n ↔ i ≤ v ∧ v < i + n := by
  induction n generalizing i with
  | zero => simp [upFrom]
  | succ n ih =>
    rw [upFrom, List.mem_cons, ih]
    push_cast
    omega

theorem pairwise_upFrom (i : ℤ) (n : ℕ) : (upFrom i n).Pairwise (· < ·) := by
  induction n generalizing i with
  | zero => simp [upFrom]
  | succ n ih =>
    rw [upFrom, List.pairwise_cons]
    refine ⟨fun v hv => ?_, ih _⟩
    rw [mem_upFrom] at hv
    omega

theorem length_upFrom (i : ℤ) (n : ℕ) : (upFrom i n).length = n := by
  induction n generalizing i with
  | zero => rfl
  | succ n ih => rw [upFrom, List.length_cons, ih]

theorem mapM_cons_except {α β : Type} (f : α → M β) (a : α) (l : List α) :
    (a :: l).mapM f = match f a with
      | .error e => .error e
      | .ok r => match l.mapM f with
        | .error e => .error e
        | .ok t => .ok (r :: t) := by
  rw [List.mapM_cons]
  cases f a with
  | error e => rfl
  | ok r =>
    simp only [bind, Except.bind]
    cases l.mapM f <;> rfl

theorem signedLoop_ok (o : Opts) {fuel n : ℕ} {i : ℤ} (hn : i + n = c.maxpos) (hf : n < fuel)
    (hinc : ∀ j, i ≤ j → j < c.maxpos → incr c.H j = .ok (j + 1)) {t : ℤ} (hlast : incr c.H c.maxpos = .ok t) :
    signedLoop c o fuel i = some ((upFrom i (n + 1)).mapM (row c o)) := by
  induction n generalizing i fuel with
  | zero =>
    obtain ⟨f, rfl⟩ : ∃ f, fuel = f + 1 := ⟨fuel - 1, by omega⟩
    have hi : i = c.maxpos := by omega
    rw [signedLoop, hi, hlast]
    simp only [upFrom, mapM_cons_except]
    cases row c o c.maxpos with
    | error e => rfl
    | ok r => simp; rfl
  | succ n ih =>
    obtain ⟨f, rfl⟩ : ∃ f, fuel = f + 1 := ⟨fuel - 1, by omega⟩
    rw [signedLoop, hinc i le_rfl (by omega), upFrom, mapM_cons_except]
    cases row c o i with
    | error e => rfl
    | ok r =>
      simp only []
      rw [if_pos (by omega), ih (by push_cast at hn; omega) (by omega) fun j hj => hinc j (by omega)]
      cases (upFrom (i + 1) (n + 1)).mapM (row c o) <;> rfl

theorem signedLoop_error (o : Opts) {fuel n : ℕ} {i : ℤ} (hn : i + n = c.maxpos) (hf : n < fuel)
    (hinc : ∀ j, i ≤ j → j < c.maxpos → incr c.H j = .ok (j + 1)) {e : UB} (hlast : incr c.H c.maxpos = .error e) :
    signedLoop c o fuel i = some (match (upFrom i (n + 1)).mapM (row c o) with
      | .error e' => .error e'
      | .ok _ => .error e) := by
  induction n generalizing i fuel with
  | zero =>
    obtain ⟨f, rfl⟩ : ∃ f, fuel = f + 1 := ⟨fuel - 1, by omega⟩
    have hi : i = c.maxpos := by omega
    rw [signedLoop, hi, hlast]
    simp only [upFrom, mapM_cons_except]
    cases row c o c.maxpos with
    | error e => rfl
    | ok r => rfl
  | succ n ih =>
    obtain ⟨f, rfl⟩ : ∃ f, fuel = f + 1 := ⟨fuel - 1, by omega⟩
    rw [signedLoop, hinc i le_rfl (by omega), upFrom, mapM_cons_except]
    cases row c o i with
    | error e => rfl
    | ok r =>
      simp only []
      rw [if_pos (by omega), ih (by push_cast at hn; omega) (by omega) fun j hj => hinc j (by omega)]
      cases (upFrom (i + 1) (n + 1)).mapM (row c o) <;> rfl

theorem incr_ok {w : ℕ} (hw : 1 ≤ w) {i : ℤ} (h : InS w (i + 1)) : incr w i = .ok (i + 1) := by
  unfold incr
  rw [arithS_ok' h]
  simp only [bind, Except.bind, pure, Except.pure]
  rw [wrapS_of_inS hw h]

theorem unsignedLoop_ok (o : Opts) {m : ℤ} (hm : shlS 32 1 c.N = .ok m) {fuel n : ℕ} {j : ℤ} (hn : j + n = m) (hf : n < fuel)
    (hinc : ∀ i, j ≤ i → i < m → incr (2 * c.H) i = .ok (i + 1)) {g : ℤ → ℤ}
    (hg : ∀ i, j ≤ i → i < m → signex i ((c.N : ℤ) - 1) = .ok (g i) ∧ wrapS c.H (g i) = g i) :
    unsignedLoop c o fuel j = some (((upFrom j n).map g).mapM (row c o)) := by
  induction n generalizing j fuel with
  | zero =>
    obtain ⟨f, rfl⟩ : ∃ f, fuel = f + 1 := ⟨fuel - 1, by omega⟩
    rw [unsignedLoop, hm]
    simp only []
    rw [if_neg (by omega)]
    rfl
  | succ n ih =>
    obtain ⟨f, rfl⟩ : ∃ f, fuel = f + 1 := ⟨fuel - 1, by omega⟩
    obtain ⟨g1, g2⟩ := hg j le_rfl (by omega)
    rw [unsignedLoop, hm]
    simp only []
    rw [if_pos (by omega), g1, upFrom, List.map_cons, mapM_cons_except]
    simp only [bind, Except.bind]
    rw [g2]
    cases row c o (g j) with
    | error e => rfl
    | ok r =>
      simp only []
      rw [hinc j le_rfl (by omega)]
      simp only []
      rw [ih (by push_cast at hn; omega) (by omega) (fun i hi => hinc i (by omega)) fun i hi => hg i (by omega)]
      cases ((upFrom (j + 1) n).map g).mapM (row c o) <;> rfl

theorem reals_list (h : c.WF) : (∀ v, v ∈ upFrom c.minneg (2 * c.fmt.maxBody + 1) ↔ c.fmt.IsReal v) ∧
    (upFrom c.minneg (2 * c.fmt.maxBody + 1)).Pairwise (fun a b => c.fmt.val a < c.fmt.val b) := by
  have hmem : ∀ v, v ∈ upFrom c.minneg (2 * c.fmt.maxBody + 1) ↔ c.fmt.IsReal v := by
    intro v
    rw [mem_upFrom, minneg_eq h]
    unfold Format.IsReal
    push_cast
    omega
  refine ⟨hmem, (pairwise_upFrom _ _).imp_of_mem fun {a b} ha hb hab => ?_⟩
  exact (Format.val_lt_iff ((hmem a).mp ha).inRange ((hmem b).mp hb).inRange).mpr hab

theorem incr_below (h : c.WF) {j : ℤ} (h1 : c.minneg ≤ j) (h2 : j < c.maxpos) : incr c.H j = .ok (j + 1) := by
  rw [minneg_eq h] at h1
  rw [maxpos_eq h] at h2
  have := maxBody_lt' c
  have := h.pow_le
  have e : (c.fmt.maxBody : ℤ) < 2 ^ (c.N - 1) := by exact_mod_cast maxBody_lt' c
  exact incr_ok (by have := h.H_pos; omega) (by unfold InS; omega)

theorem bind_inv {α β : Type} {x : M α} {f : α → M β} {r : β} (hx : (x >>= f) = .ok r) : ∃ y, x = .ok y ∧ f y = .ok r := by
  cases x with
  | error e => cases hx
  | ok y => exact ⟨y, rfl, hx⟩

theorem cell_inv {on : Bool} {m : M ℤ} {l : List ℤ} (h : cell on m = .ok l) : if on then ∃ y, l = [y] ∧ m = .ok y else l = [] := by
  unfold cell at h
  split_ifs at h ⊢
  · cases m with
    | error e => cases h
    | ok y => exact ⟨y, (Except.ok.inj h).symm, rfl⟩
  · exact (Except.ok.inj h).symm

/-! ## The property -/

/-- **C98**, signed order: the rows are the real posits, in increasing order of their values, each one once. The infinities and
NaN are left out. Excluded are formats that fill an `int` and have no positive infinity. -/
theorem C98_signed (h : c.WF) (hH : c.H ≤ 32) (hov : ¬ (c.N = 32 ∧ c.spec ≠ .withNanInf)) (o : Opts) :
    ∃ l : List ℤ, (∀ v, v ∈ l ↔ c.fmt.IsReal v) ∧ l.Pairwise (fun a b => c.fmt.val a < c.fmt.val b) ∧
      ∀ fuel, 2 ^ c.N ≤ fuel → signedRows c o fuel = some (l.mapM (row c o)) := by
  obtain ⟨h1, h2⟩ := reals_list h
  refine ⟨_, h1, h2, fun fuel hf => ?_⟩
  have hlt : (c.fmt.maxBody : ℤ) < 2 ^ (c.N - 1) := by exact_mod_cast maxBody_lt' c
  have hlt' : c.fmt.maxBody < 2 ^ (c.N - 1) := by exact_mod_cast maxBody_lt' c
  have hN := two_pow_pred_nat (w := c.N) (by have := h.N_ge; omega)
  have hpw : pw c.H = 32 := by unfold pw; omega
  have hlast : ∃ t, incr c.H c.maxpos = .ok t := by
    unfold incr
    have : InS (pw c.H) (c.maxpos + 1) := by
      rw [maxpos_eq h, hpw]
      unfold InS
      have h0 : (0 : ℤ) < 2 ^ (32 - 1) := by positivity
      refine ⟨by omega, ?_⟩
      by_cases hN32 : c.N = 32
      · have hs : c.spec = .withNanInf := by
          by_contra hc
          exact hov ⟨hN32, hc⟩
        have hmb : c.fmt.maxBody = if c.fmt.twoInf then 2 ^ (c.fmt.N - 1) - 2 else 2 ^ (c.fmt.N - 1) - 1 := rfl
        rw [fmt_N, if_pos (by simpa [Cfg.fmt] using hs), hN32] at hmb
        rw [hmb]
        norm_num
      · have : (2 : ℤ) ^ (c.N - 1) < 2 ^ (32 - 1) := pow_lt_pow_right₀ (by norm_num) (by have := h.hN; have := h.N_ge; omega)
        omega
    rw [arithS_ok this]
    exact ⟨_, rfl⟩
  obtain ⟨t, ht⟩ := hlast
  refine signedLoop_ok o (n := 2 * c.fmt.maxBody) ?_ ?_ (fun j => incr_below h) ht
  · rw [minneg_eq h, maxpos_eq h]; push_cast; ring
  · omega

/-- the posits of eight bits -/
example : P8.WF ∧ P8.H ≤ 32 ∧ ¬ (P8.N = 32 ∧ P8.spec ≠ .withNanInf) ∧ P8.minneg = -127 ∧ P8.maxpos = 127 ∧
    row P8 ⟨true, true, true⟩ 72 = .ok [72, 51, 100, 40] := by decide +kernel

/-- **C98**, signed order, the other formats: after the last row the loop counter overflows. -/
theorem C98_signed_ub (h : c.WF) (hH : c.H ≤ 32) (hov : c.N = 32 ∧ c.spec ≠ .withNanInf) (o : Opts) :
    ∃ l : List ℤ, (∀ v, v ∈ l ↔ c.fmt.IsReal v) ∧ l.Pairwise (fun a b => c.fmt.val a < c.fmt.val b) ∧
      ∀ fuel, 2 ^ c.N ≤ fuel →
        (∀ t, l.mapM (row c o) = .ok t → signedRows c o fuel = some (.error .overflow)) ∧
        (∀ e, l.mapM (row c o) = .error e → signedRows c o fuel = some (.error e)) := by
  obtain ⟨h1, h2⟩ := reals_list h
  refine ⟨_, h1, h2, fun fuel hf => ?_⟩
  have hlt' : c.fmt.maxBody < 2 ^ (c.N - 1) := by exact_mod_cast maxBody_lt' c
  have hN := two_pow_pred_nat (w := c.N) (by have := h.N_ge; omega)
  have hpw : pw c.H = 32 := by unfold pw; omega
  have hlast : incr c.H c.maxpos = .error .overflow := by
    unfold incr arithS
    have hmb : c.fmt.maxBody = if c.fmt.twoInf then 2 ^ (c.fmt.N - 1) - 2 else 2 ^ (c.fmt.N - 1) - 1 := rfl
    rw [fmt_N, if_neg (by simpa [Cfg.fmt] using hov.2), hov.1] at hmb
    rw [if_neg, bind, Except.instMonad]
    · rfl
    · rw [maxpos_eq h, hpw, hmb]
      norm_num
  have key := signedLoop_error o (fuel := fuel) (n := 2 * c.fmt.maxBody)
    (by rw [minneg_eq h, maxpos_eq h]; push_cast; ring) (by omega) (fun j => incr_below h) hlast
  refine ⟨fun t ht => ?_, fun e he => ?_⟩
  · unfold signedRows
    rw [key, ht]
  · unfold signedRows
    rw [key, he]

example : P32.WF ∧ P32.H ≤ 32 ∧ P32.N = 32 ∧ P32.spec ≠ .withNanInf := by decide

/-- **C98**, unsigned order: the rows are all patterns, by the number their `N` bits stand for as an unsigned integer. -/
theorem C98_unsigned (h : c.WF) (hH : c.H ≤ 32) (hN : c.N ≤ 30) (o : Opts) (binary : Bool) :
    ∃ l : List ℤ, (∀ v, v ∈ l ↔ c.fmt.IsCanonical v) ∧ l.Pairwise (fun a b => a % 2 ^ c.N < b % 2 ^ c.N) ∧
      ∀ fuel, 2 ^ c.N < fuel → unsignedRows c o binary fuel = some (l.mapM (row c o)) := by
  have hN3 := h.N_ge
  have hm : shlS 32 1 c.N = .ok (2 ^ c.N) := shlS_one (w := 32) (by rw [show pw 32 = 32 by decide]; omega)
  have h2N := two_pow_pred (w := c.N) (by omega)
  have hpl := h.pow_le
  have hpos : (0 : ℤ) < 2 ^ (c.N - 1) := by positivity
  let g : ℤ → ℤ := fun i => if i < 2 ^ (c.N - 1) then i else i - 2 ^ c.N
  have hg : ∀ i, 0 ≤ i → i < 2 ^ c.N → signex i ((c.N : ℤ) - 1) = .ok (g i) ∧ wrapS c.H (g i) = g i := by
    intro i h0 h1
    obtain ⟨v, rfl⟩ := Int.eq_ofNat_of_zero_le h0
    have e := signex_eq (k := c.N - 1) (by omega) (v := v) (by
      rw [show c.N - 1 + 1 = c.N by omega]; exact_mod_cast h1)
    rw [show c.N - 1 + 1 = c.N by omega] at e
    rw [show (c.N : ℤ) - 1 = ((c.N - 1 : ℕ) : ℤ) by omega]
    refine ⟨?_, wrapS_of_inS (by have := h.H_pos; omega) ?_⟩
    · rw [e]
      simp only [g]
      congr 1
      have : (v < 2 ^ (c.N - 1)) ↔ ((v : ℤ) < 2 ^ (c.N - 1)) := by
        constructor <;> intro hh <;> exact_mod_cast hh
      simp only [this]
    · simp only [g]
      unfold InS
      split_ifs <;> omega
  have hgmod : ∀ i, 0 ≤ i → i < 2 ^ c.N → g i % 2 ^ c.N = i := by
    intro i h0 h1
    simp only [g]
    split_ifs
    · exact Int.emod_eq_of_lt h0 h1
    · rw [Int.sub_emod_right]
      exact Int.emod_eq_of_lt h0 h1
  refine ⟨(upFrom 0 (2 ^ c.N)).map g, fun v => ?_, ?_, fun fuel hf => ?_⟩
  · rw [List.mem_map]
    unfold Format.IsCanonical
    rw [fmt_N]
    constructor
    · rintro ⟨i, hi, rfl⟩
      rw [mem_upFrom] at hi
      push_cast at hi
      simp only [g]
      split_ifs <;> omega
    · rintro ⟨h0, h1⟩
      by_cases hv : 0 ≤ v
      · refine ⟨v, ?_, ?_⟩
        · rw [mem_upFrom]; push_cast; omega
        · simp only [g]; rw [if_pos h1]
      · refine ⟨v + 2 ^ c.N, ?_, ?_⟩
        · rw [mem_upFrom]; push_cast; omega
        · simp only [g]; rw [if_neg (by omega)]; ring
  · rw [List.pairwise_map]
    refine (pairwise_upFrom _ _).imp_of_mem fun {a b} ha hb hab => ?_
    rw [mem_upFrom] at ha hb
    push_cast at ha hb
    rw [hgmod a ha.1 (by omega), hgmod b hb.1 (by omega)]
    exact hab
  · have hmsg : ∃ t, (if binary then .ok 0 else do let m ← shlS 32 1 c.N; arithS 32 (m - 1) : M ℤ) = .ok t := by
      cases binary with
      | true => exact ⟨_, rfl⟩
      | false =>
        rw [hm]
        simp only [bind, Except.bind, Bool.false_eq_true, if_false]
        refine ⟨_, arithS_ok' ?_⟩
        have : (2 : ℤ) ^ c.N ≤ 2 ^ (32 - 1) := pow_le_pow_right₀ (by norm_num) (by omega)
        unfold InS
        omega
    obtain ⟨t, ht⟩ := hmsg
    unfold unsignedRows
    rw [ht]
    refine unsignedLoop_ok o hm (by push_cast; ring) hf (fun i h0 h1 => incr_ok (by have := h.H_pos; omega) ?_) hg
    have : (2 : ℤ) ^ c.N < 2 ^ (2 * c.H - 1) :=
      pow_lt_pow_right₀ (by norm_num) (by have := h.hN; have := h.H_pos; omega)
    unfold InS
    omega

/-- the posits of twelve bits in a 16-bit holder: 2048 is the pattern of the infinity -/
example : P12.WF ∧ P12.H ≤ 32 ∧ P12.N ≤ 30 ∧ [0, 1, 2047, 2048, 2049, 4095].map (signex · 11) =
    [.ok 0, .ok 1, .ok 2047, .ok (-2048), .ok (-2047), .ok (-1)] := by decide +kernel

/-- **C98**, unsigned order, the wide formats: with 31 bits nothing is listed, or the message before overflows; with 32 bits the
shift is undefined. -/
theorem C98_unsigned_wide (h : c.WF) (hH : c.H ≤ 32) (o : Opts) {fuel : ℕ} (hf : 0 < fuel) :
    (c.N = 31 → unsignedRows c o true fuel = some (.ok []) ∧ unsignedRows c o false fuel = some (.error .overflow)) ∧
    (c.N = 32 → ∀ b, unsignedRows c o b fuel = some (.error .shiftAmount)) := by
  obtain ⟨f, rfl⟩ : ∃ f, fuel = f + 1 := ⟨fuel - 1, by omega⟩
  refine ⟨fun hN => ?_, fun hN b => ?_⟩
  · have hm : shlS 32 1 c.N = .ok (-2 ^ 31) := by
      rw [hN]
      exact shlS_one_top (w := 32) (by decide)
    constructor
    · unfold unsignedRows
      simp only [if_true]
      rw [unsignedLoop, hm]
      norm_num
    · unfold unsignedRows
      rw [hm]
      have : arithS 32 (-2 ^ 31 - 1) = .error .overflow := by decide +kernel
      simp only [bind, Except.bind, Bool.false_eq_true, if_false]
      rw [this]
  · have hm : shlS 32 1 c.N = .error .shiftAmount := by
      rw [hN]; decide +kernel
    unfold unsignedRows
    cases b with
    | true => simp only [if_true]; rw [unsignedLoop, hm]
    | false => simp only [Bool.false_eq_true, if_false]; rw [hm]; rfl

example : Cfg.WF { P32 with N := 31 } ∧ Cfg.H { P32 with N := 31 } ≤ 32 ∧ P32.WF ∧ P32.N = 32 := by decide

/-- **C98**, the further columns of a row: twice and half the posit, rounded toward zero, as the extended numbers have it, and the
inverse as `inv()` has it (C90). Excluded is only the three-bit format with two infinities, which does not contain 2. -/
theorem C98_row (h : c.WF) (hF : c.fb + 2 ≤ c.F) (hn : c.spec = .withNanInf → 4 ≤ c.N) {v : ℤ} (hv : c.fmt.IsCanonical v)
    {o : Opts} {r : List ℤ} (hr : row c o v = .ok r) :
    ∃ a b d : List ℤ, r = v :: (a ++ b ++ d) ∧
      (if o.inverse then ∃ y, a = [y] ∧ Posit.inv c v = .ok y else a = []) ∧
      (if o.twice then ∃ y, b = [y] ∧ EV.Outcome c (EV.orFirst EV.mul (c.ext v) (.num 2)) (.ok y) else b = []) ∧
      (if o.half then ∃ y, d = [y] ∧ EV.Outcome c (EV.orFirst EV.divBig (c.ext v) (.num 2)) (.ok y) else d = []) := by
  obtain ⟨t1, t2⟩ := C19_two_partial h hn
  have hof : Posit.ofInt c 2 = .ok c.two := (C93_two h hF hn).2.2.2.2.1
  have htc : c.fmt.IsCanonical c.two := by
    have := maxBody_lt' c
    rw [isReal_bounds] at t1
    unfold Format.IsCanonical
    rw [fmt_N]; omega
  have hx : c.ext c.two = .num 2 := by rw [ext_real t1, t2]
  have hm := C88_mul h hF hv htc
  have hd := C88_div h hF hv htc
  rw [hx] at hm hd
  unfold row at hr
  obtain ⟨a, ha, hr⟩ := bind_inv hr
  obtain ⟨b, hb, hr⟩ := bind_inv hr
  obtain ⟨d, hd', hr⟩ := bind_inv hr
  rw [hof] at hb hd'
  refine ⟨a, b, d, (Except.ok.inj hr).symm, cell_inv ha, ?_, ?_⟩
  · have := cell_inv hb
    split_ifs at this ⊢
    · obtain ⟨y, h1, h2⟩ := this
      exact ⟨y, h1, by rw [← h2]; exact hm⟩
    · exact this
  · have := cell_inv hd'
    split_ifs at this ⊢
    · obtain ⟨y, h1, h2⟩ := this
      exact ⟨y, h1, by rw [← h2]; exact hd⟩
    · exact this

example : P60.WF ∧ P60.fb + 2 ≤ P60.F ∧ (P60.spec = .withNanInf → 4 ≤ P60.N) ∧ P60.fmt.IsCanonical P60.ninf ∧
    row P60 ⟨true, true, true⟩ P60.ninf = .ok [P60.ninf, P60.ninf, P60.ninf, P60.ninf] := by decide +kernel

theorem EV.Outcome.defined (h : c.WF) (hN : c.N + 1 < pw c.H) {X : EV} {r : M ℤ} (hr : EV.Outcome c X r) : ∃ v, r = .ok v := by
  cases X with
  | num x =>
    obtain ⟨v, h1, -⟩ := (show Verif.Outcome c x r from hr).1 (Or.inr (safeMag_of_narrow h hN x))
    exact ⟨v, h1⟩
  | inf s => exact ⟨_, hr⟩
  | nan => exact ⟨_, hr⟩

/-- **C98**: with a bit to spare every row is defined, so the listing is complete. -/
theorem C98_defined (h : c.WF) (hF : c.fb + 2 ≤ c.F) (hn : c.spec = .withNanInf → 4 ≤ c.N) (hN : c.N + 1 < pw c.H) (o : Opts)
    {l : List ℤ} (hl : ∀ v ∈ l, c.fmt.IsCanonical v) : ∃ t, l.mapM (row c o) = .ok t := by
  have hrow : ∀ v, c.fmt.IsCanonical v → ∃ r, row c o v = .ok r := by
    intro v hv
    have hof : Posit.ofInt c 2 = .ok c.two := (C93_two h hF hn).2.2.2.2.1
    obtain ⟨t1, t2⟩ := C19_two_partial h hn
    have htc : c.fmt.IsCanonical c.two := by
      have := maxBody_lt' c
      rw [isReal_bounds] at t1
      unfold Format.IsCanonical
      rw [fmt_N]; omega
    have hcell : ∀ b (m : M ℤ), (∃ y, m = .ok y) → ∃ y, cell b m = .ok y := by
      rintro b m ⟨y, rfl⟩
      unfold cell
      split_ifs <;> exact ⟨_, rfl⟩
    have hinv : ∃ y, Posit.inv c v = .ok y := by
      obtain ⟨k1, k2, -, k4⟩ := C90_inv h hF hv
      by_cases c1 : v = 0 ∨ ¬ c.fmt.IsReal v
      · exact ⟨_, k1 c1⟩
      · push Not at c1
        by_cases c2 : c.spec = .withNanInf ∧ v.natAbs = 1
        · exact ⟨_, k2 c2.1 c2.2 hN⟩
        · exact (k4 c1.2 c1.1 c2).defined h hN
    obtain ⟨a, ha⟩ := hcell o.inverse _ hinv
    obtain ⟨b, hb⟩ := hcell o.twice (do let t ← Posit.ofInt c 2; Posit.mul c v t) (by
      rw [hof]; exact (C88_mul h hF hv htc).defined h hN)
    obtain ⟨d, hd⟩ := hcell o.half (do let t ← Posit.ofInt c 2; Posit.div c v t) (by
      rw [hof]; exact (C88_div h hF hv htc).defined h hN)
    unfold row
    rw [ha, hb, hd]
    exact ⟨_, rfl⟩
  induction l with
  | nil => exact ⟨_, rfl⟩
  | cons v l ih =>
    obtain ⟨r, hr⟩ := hrow v (hl v (by simp))
    obtain ⟨t, ht⟩ := ih fun w hw => hl w (by simp [hw])
    rw [mapM_cons_except, hr, ht]
    exact ⟨_, rfl⟩

example : P12.WF ∧ P12.fb + 2 ≤ P12.F ∧ (P12.spec = .withNanInf → 4 ≤ P12.N) ∧ P12.N + 1 < pw P12.H ∧
    [-2048, -2047, 3].mapM (row P12 ⟨false, true, false⟩) = .ok [[-2048, -2048], [-2047, -2047], [3, 4]] := by decide +kernel

/-- **C98**, the overview: what is reported as infinities and NaN. -/
theorem C98_overview (h : c.WF) :
    (c.spec = .withNanInf → (overview c).map c.ext = [.inf false, .inf true, .nan]) ∧
    (c.spec = .withInf → (overview c).map c.ext = [.inf true]) ∧
    (c.spec = .withNan → (overview c).map c.ext = [.nan, .nan, .nan]) := by
  have hge := h.pow_ge
  have hp := h.pinf_eq
  have hq := h.ninf_eq
  have hn : c.nan = c.topPat := h.nan_eq
  refine ⟨fun hs => ?_, fun hs => ?_, fun hs => ?_⟩
  · rw [if_pos hs] at hp hq
    have hmb : c.fmt.maxBody = if c.fmt.twoInf then 2 ^ (c.fmt.N - 1) - 2 else 2 ^ (c.fmt.N - 1) - 1 := rfl
    rw [fmt_N, if_pos (by simpa [Cfg.fmt] using hs)] at hmb
    have hge' : 4 ≤ 2 ^ (c.N - 1) := by exact_mod_cast hge
    have hmb' : (c.fmt.maxBody : ℤ) = 2 ^ (c.N - 1) - 2 := by
      rw [hmb]; push_cast [show 2 ≤ 2 ^ (c.N - 1) by omega]; rfl
    have hw : c.withnan = true := by simp [Cfg.withnan, hs]
    unfold overview
    rw [if_pos hw, List.map_cons, List.map_cons, List.map_cons, List.map_nil, hn, ext_top (by rw [hs]; simp)]
    have e1 : c.ext c.pinf = .inf false := by
      unfold Cfg.ext
      rw [if_neg (by rw [isReal_bounds]; omega), if_neg (by unfold Cfg.topPat; omega)]
      congr 1
      rw [decide_eq_false_iff_not]; omega
    have e2 : c.ext c.ninf = .inf true := by
      unfold Cfg.ext
      rw [if_neg (by rw [isReal_bounds]; omega), if_neg (by unfold Cfg.topPat; omega)]
      congr 1
      rw [decide_eq_true_iff]; omega
    rw [e1, e2]
  · rw [if_neg (by rw [hs]; simp)] at hp hq
    have hw : ¬ c.withnan = true := by simp [Cfg.withnan, hs]
    unfold overview
    rw [if_neg hw, List.map_cons, List.map_nil]
    have hlt := maxBody_lt' c
    unfold Cfg.ext
    rw [if_neg (by rw [isReal_bounds]; omega), if_neg (by rw [hs]; simp)]
    congr 2
    rw [decide_eq_true_iff]; omega
  · rw [if_neg (by rw [hs]; simp)] at hp hq
    have hw : c.withnan = true := by simp [Cfg.withnan, hs]
    have t : c.ext c.topPat = .nan := ext_top (by rw [hs]; simp)
    have hp' : c.pinf = c.topPat := hp
    have hq' : c.ninf = c.topPat := hq
    unfold overview
    rw [if_pos hw, List.map_cons, List.map_cons, List.map_cons, List.map_nil, hn, hp', hq', t]

example : P60.WF ∧ P60.spec = .withNanInf ∧ P16.WF ∧ P16.spec = .withInf ∧ P32.WF ∧ P32.spec = .withNan := by decide

end Verif
