import Verif.Lemmas.Unpack
import Verif.Lemmas.Consts
import Verif.Model.Instances

/-!
# Stepping: C17 (`next`, `prev`)
-/

namespace Verif
open Fmt

variable {c : Cfg}

theorem maxpos_eq (h : c.WF) : c.maxpos = c.fmt.maxBody := by
  have hg : 4 ≤ 2 ^ (c.N - 1) := by have := h.pow_ge; exact_mod_cast this
  unfold Cfg.maxpos Format.maxBody Cfg.fmt
  rw [h.topRight_eq]
  by_cases hs : c.spec = .withNanInf <;> simp [hs] <;> push_cast [Nat.cast_sub (show 1 ≤ 2 ^ (c.N - 1) by omega), Nat.cast_sub (show 2 ≤ 2 ^ (c.N - 1) by omega)] <;> ring

theorem minneg_eq (h : c.WF) : c.minneg = -(c.fmt.maxBody : ℤ) := by
  rw [← maxpos_eq h]
  unfold Cfg.maxpos Cfg.minneg
  rw [h.topRight_eq, h.topLeft_eq]
  split_ifs <;> ring

theorem inS_real (h : c.WF) {v : ℤ} (h1 : -(2 ^ (c.N - 1)) ≤ v) (h2 : v < 2 ^ (c.N - 1)) : InS c.H v := by
  have := h.pow_le
  unfold InS; omega

theorem maxBody_lt' (c : Cfg) : (c.fmt.maxBody : ℤ) < 2 ^ (c.N - 1) := by
  have := Format.maxBody_lt c.fmt
  simp only [fmt_N] at this
  exact_mod_cast this

theorem next_inside (h : c.WF) {v : ℤ} (h1 : -(c.fmt.maxBody : ℤ) < v) (h2 : v < c.fmt.maxBody) :
    Posit.next c v = .ok (v + 1) := by
  have hm := maxBody_lt' c
  have hin : InS c.H (v + 1) := inS_real h (by omega) (by omega)
  unfold Posit.next
  rw [maxpos_eq h, minneg_eq h, if_neg (by omega), arithS_ok' hin]
  simp only [bind, Except.bind, pure, Except.pure]
  rw [wrapS_of_inS (by have := h.H_pos; omega) hin]

theorem prev_inside (h : c.WF) {v : ℤ} (h1 : -(c.fmt.maxBody : ℤ) < v) (h2 : v ≤ c.fmt.maxBody) :
    Posit.prev c v = .ok (v - 1) := by
  have hm := maxBody_lt' c
  have hin : InS c.H (v - 1) := inS_real h (by omega) (by omega)
  unfold Posit.prev
  rw [maxpos_eq h, minneg_eq h, if_neg (by omega), arithS_ok' hin]
  simp only [bind, Except.bind, pure, Except.pure]
  rw [wrapS_of_inS (by have := h.H_pos; omega) hin]

theorem isReal_bounds {v : ℤ} : c.fmt.IsReal v ↔ -(c.fmt.maxBody : ℤ) ≤ v ∧ v ≤ c.fmt.maxBody := Iff.rfl

/-- `w` is the least real posit above `v` -/
def Fmt.Format.IsSucc (f : Format) (v w : ℤ) : Prop :=
  f.IsReal w ∧ f.val v < f.val w ∧ ∀ u, f.IsReal u → f.val v < f.val u → f.val w ≤ f.val u

/-- `f`, `n` times, stopping at undefined behaviour -/
def iterM (f : ℤ → M ℤ) : ℕ → ℤ → M ℤ
  | 0, v => .ok v
  | n + 1, v => do let w ← f v; iterM f n w

/-- **C17**, `next`: strictly between the least and the greatest real posit, `next()` is the least real posit above, and
`prev()` goes back. Missing: the two ends, where the claim fails, see `C17_next_ends`. -/
theorem C17_next_partial (h : c.WF) {v : ℤ} (hv : c.fmt.IsReal v)
    (hlo : ∃ u, c.fmt.IsReal u ∧ c.fmt.val u < c.fmt.val v) (hhi : ∃ u, c.fmt.IsReal u ∧ c.fmt.val v < c.fmt.val u) :
    ∃ w, Posit.next c v = .ok w ∧ c.fmt.IsSucc v w ∧ Posit.prev c w = .ok v := by
  obtain ⟨u, hu, hu'⟩ := hlo
  obtain ⟨t, ht, ht'⟩ := hhi
  rw [Format.val_lt_iff hu.inRange hv.inRange] at hu'
  rw [Format.val_lt_iff hv.inRange ht.inRange] at ht'
  rw [isReal_bounds] at hu ht
  have hw : c.fmt.IsReal (v + 1) := by rw [isReal_bounds]; omega
  refine ⟨v + 1, next_inside h (by omega) (by omega), ⟨hw, ?_, fun s hs hlt => ?_⟩, ?_⟩
  · rw [Format.val_lt_iff hv.inRange hw.inRange]; omega
  · rw [Format.val_lt_iff hv.inRange hs.inRange] at hlt
    rw [Format.val_le_iff hw.inRange hs.inRange]; omega
  · rw [prev_inside h (by omega) (by omega)]; congr 1; ring

example : P12.WF ∧ P12.fmt.IsReal (-2046) ∧ P12.fmt.val (-2047) < P12.fmt.val (-2046) ∧
    P12.fmt.val (-2046) < P12.fmt.val 3 ∧ Posit.next P12 (-2046) = .ok (-2045) := by decide +kernel

/-- **C17**, `prev`: for every real posit but the least, `prev()` is the greatest real posit below. -/
theorem C17_prev (h : c.WF) {v : ℤ} (hv : c.fmt.IsReal v) (hlo : ∃ u, c.fmt.IsReal u ∧ c.fmt.val u < c.fmt.val v) :
    ∃ w, Posit.prev c v = .ok w ∧ c.fmt.IsReal w ∧ c.fmt.val w < c.fmt.val v ∧
      ∀ u, c.fmt.IsReal u → c.fmt.val u < c.fmt.val v → c.fmt.val u ≤ c.fmt.val w := by
  obtain ⟨u, hu, hu'⟩ := hlo
  rw [Format.val_lt_iff hu.inRange hv.inRange] at hu'
  rw [isReal_bounds] at hu
  have hv' := isReal_bounds.mp hv
  have hw : c.fmt.IsReal (v - 1) := by rw [isReal_bounds]; omega
  refine ⟨v - 1, prev_inside h (by omega) hv'.2, hw, ?_, fun s hs hlt => ?_⟩
  · rw [Format.val_lt_iff hw.inRange hv.inRange]; omega
  · rw [Format.val_lt_iff hs.inRange hv.inRange] at hlt
    rw [Format.val_le_iff hs.inRange hw.inRange]; omega

example : P32.WF ∧ P32.fmt.IsReal (2 ^ 31 - 1) ∧ P32.fmt.val 7 < P32.fmt.val (2 ^ 31 - 1) ∧
    Posit.prev P32 (2 ^ 31 - 1) = .ok (2 ^ 31 - 2) := by decide +kernel

/-- **C17**, the walk down: from the greatest real posit `prev` visits every real posit, in decreasing order. -/
theorem C17_walk_down (h : c.WF) {a b : ℤ} (ha : c.fmt.IsReal a) (hb : c.fmt.IsReal b)
    (hab : c.fmt.val b ≤ c.fmt.val a) : iterM (Posit.prev c) (a - b).toNat a = .ok b := by
  rw [Format.val_le_iff hb.inRange ha.inRange] at hab
  rw [isReal_bounds] at ha hb
  obtain ⟨n, hn⟩ : ∃ n : ℕ, a = b + n := ⟨(a - b).toNat, by omega⟩
  rw [show (a - b).toNat = n by omega]
  clear hab
  induction n generalizing a with
  | zero => simp only [iterM]; congr 1; omega
  | succ n ih =>
    rw [iterM, prev_inside h (by omega) (by omega)]
    simp only [bind, Except.bind]
    exact ih (by omega) (by omega)

example : P8i.WF ∧ P8i.fmt.IsReal 126 ∧ P8i.fmt.IsReal (-126) ∧ P8i.fmt.val (-126) ≤ P8i.fmt.val 126 ∧
    iterM (Posit.prev P8i) 252 126 = .ok (-126) := by decide +kernel

/-- **C17**, the walk up: from any real posit but the least, `next` visits all real posits above. Missing: starting at
the least one, see `C17_next_ends`. -/
theorem C17_walk_up_partial (h : c.WF) {a b : ℤ} (ha : c.fmt.IsReal a) (hb : c.fmt.IsReal b)
    (hlo : ∃ u, c.fmt.IsReal u ∧ c.fmt.val u < c.fmt.val a) (hab : c.fmt.val a ≤ c.fmt.val b) :
    iterM (Posit.next c) (b - a).toNat a = .ok b := by
  obtain ⟨u, hu, hu'⟩ := hlo
  rw [Format.val_lt_iff hu.inRange ha.inRange] at hu'
  rw [Format.val_le_iff ha.inRange hb.inRange] at hab
  rw [isReal_bounds] at ha hb hu
  obtain ⟨n, hn⟩ : ∃ n : ℕ, b = a + n := ⟨(b - a).toNat, by omega⟩
  rw [show (b - a).toNat = n by omega]
  clear hab
  induction n generalizing a with
  | zero => simp only [iterM]; congr 1; omega
  | succ n ih =>
    rw [iterM, next_inside h (by omega) (by omega)]
    simp only [bind, Except.bind]
    exact ih (by omega) (by omega) (by omega)

example : P6.WF ∧ P6.fmt.IsReal (-30) ∧ P6.fmt.IsReal 31 ∧ P6.fmt.val (-31) < P6.fmt.val (-30) ∧
    iterM (Posit.next P6) 61 (-30) = .ok 31 := by decide +kernel

/-- **C17** fails at the ends: the least real posit is its own `next` (so a walk upward from it never moves); `prev`
stops there too, and `next` of the greatest one leaves the real numbers: infinity if the format has two, otherwise the
NaN/infinity pattern (8/16-bit holder filled by the posit), signed overflow (32/64-bit holder filled by the posit), or a
pattern that is not sign-extended (`N < H`). -/
theorem C17_next_ends (h : c.WF) :
    Posit.next c (-(c.fmt.maxBody : ℤ)) = .ok (-(c.fmt.maxBody : ℤ)) ∧
    (∀ n, iterM (Posit.next c) n (-(c.fmt.maxBody : ℤ)) = .ok (-(c.fmt.maxBody : ℤ))) ∧
    Posit.prev c (-(c.fmt.maxBody : ℤ)) = .ok (-(c.fmt.maxBody : ℤ)) ∧
    (c.spec = .withNanInf → Posit.next c c.fmt.maxBody = .ok c.pinf) ∧
    (c.spec ≠ .withNanInf → c.N = c.H → c.H < 32 → Posit.next c c.fmt.maxBody = .ok c.nan) ∧
    (c.spec ≠ .withNanInf → c.N = c.H → 32 ≤ c.H → Posit.next c c.fmt.maxBody = .error .overflow) ∧
    (c.spec ≠ .withNanInf → c.N < c.H → Posit.next c c.fmt.maxBody = .ok (2 ^ (c.N - 1)) ∧
      ¬ c.fmt.IsCanonical (2 ^ (c.N - 1))) := by
  have hm := maxBody_lt' c
  have hH := h.H_pos
  have hg := h.pow_ge
  have hmx : c.fmt.maxBody = (if c.spec = .withNanInf then 2 ^ (c.N - 1) - 2 else 2 ^ (c.N - 1) - 1 : ℤ) := by
    rw [← maxpos_eq h]; unfold Cfg.maxpos; rw [h.topRight_eq]; split_ifs <;> ring
  have hstuck : Posit.next c (-(c.fmt.maxBody : ℤ)) = .ok (-(c.fmt.maxBody : ℤ)) := by
    unfold Posit.next; rw [minneg_eq h, if_pos (by omega)]
  have hnext : Posit.next c c.fmt.maxBody = (do let y ← arithS c.H ((c.fmt.maxBody : ℤ) + 1); return wrapS c.H y) := by
    unfold Posit.next
    rw [maxpos_eq h, minneg_eq h, if_neg]
    rw [hmx]; split_ifs <;> omega
  refine ⟨hstuck, fun n => ?_, ?_, fun hs => ?_, fun hs he hlt => ?_, fun hs he hle => ?_, fun hs hlt => ?_⟩
  · induction n with
    | zero => rfl
    | succ n ih => rw [iterM, hstuck]; exact ih
  · unfold Posit.prev; rw [minneg_eq h, if_pos (by omega)]
  · rw [hnext, hmx, if_pos hs, h.pinf_eq, if_pos hs,
      arithS_ok' (inS_real h (by omega) (by omega))]
    simp only [bind, Except.bind, pure, Except.pure]
    rw [wrapS_of_inS (by omega) (inS_real h (by omega) (by omega))]
    congr 1; ring
  · have : (2 : ℤ) ^ (c.H - 1) < 2 ^ (pw c.H - 1) := pow_lt_pow_right₀ (by norm_num) (by unfold pw; omega)
    rw [hnext, hmx, if_neg hs, sub_add_cancel, h.nan_eq, he]
    rw [he] at hg
    rw [arithS_ok (by unfold InS; omega)]
    simp only [bind, Except.bind, pure, Except.pure]
    congr 1
    exact wrapS_eq (by omega) 1 (by rw [two_pow_pred (w := c.H) (by omega)]; ring) (by unfold InS; omega)
  · rw [hnext, hmx, if_neg hs, sub_add_cancel, he]
    unfold arithS
    rw [if_neg (by rw [show pw c.H = c.H by unfold pw; omega]; omega)]
    rfl
  · have h1 : (2 : ℤ) ^ (c.N - 1) < 2 ^ (c.H - 1) := pow_lt_pow_right₀ (by norm_num) (by omega)
    rw [hnext, hmx, if_neg hs, sub_add_cancel, arithS_ok' (by unfold InS; omega)]
    simp only [bind, Except.bind, pure, Except.pure]
    rw [wrapS_of_inS (by omega) (by unfold InS; omega)]
    exact ⟨rfl, by unfold Format.IsCanonical; simp⟩

example : P8.WF ∧ P8.fmt.maxBody = 127 ∧ Posit.next P8 (-127) = .ok (-127) ∧ Posit.next P8 127 = .ok (-128) ∧
    Posit.next P8i 126 = .ok 127 ∧ Posit.next P32 (2 ^ 31 - 1) = .error .overflow ∧ Posit.next P6 31 = .ok 32 ∧ ¬ P6.fmt.IsCanonical 32 := by
  decide +kernel

/-- **C17** is false as stated: the least 8-bit posit is its own `next`, though 254 posits are above it. -/
theorem C17_not_always : P8.WF ∧ P8.fmt.IsReal (-127) ∧ Posit.next P8 (-127) = .ok (-127) ∧
    P8.fmt.IsReal (-126) ∧ P8.fmt.val (-127) < P8.fmt.val (-126) ∧
    Posit.next P8 127 = .ok (-128) ∧ Posit.prev P8 (-128) ≠ .ok 127 := by decide +kernel

end Verif
