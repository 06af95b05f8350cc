import Verif.Props.SumFaithful
import Verif.Props.TestEps

/-!
# C141: operands too small to change a sum
-/

namespace Verif
open Fmt

variable {c : Cfg}

/-- **C141**, sums: a positive number below the distance to the next posit is lost. -/
theorem C141_add (h : c.WF) (hF : c.fb + 2 ≤ c.F) {x y v : ℤ} (hx : c.fmt.IsReal x) (hx1 : c.fmt.IsReal (x + 1)) (hx0 : 0 < x)
    (hy : c.fmt.IsReal y) (hy0 : 0 < y) (hlt : c.fmt.val y < c.fmt.val (x + 1) - c.fmt.val x) :
    (Posit.add c x y = .ok v → v = x) ∧ (Posit.add c y x = .ok v → v = x) := by
  have px := (Format.val_pos_iff hx.inRange).mpr hx0
  have py := (Format.val_pos_iff hy.inRange).mpr hy0
  have ht : c.fmt.IsTrunc (c.fmt.val x + c.fmt.val y) x := trunc_between hx0 hx hx1 (by linarith) (by linarith)
  refine ⟨fun hv => ((C137_same_sign h hF hx hy).1 (mul_pos px py) hv).unique ht, fun hv => ?_⟩
  have := (C137_same_sign h hF hy hx).1 (mul_pos py px) hv
  rw [add_comm] at this
  exact this.unique ht

example : (⟨16, 16, 1, 32, .withNan⟩ : Cfg).WF ∧ Posit.add ⟨16, 16, 1, 32, .withNan⟩ 20000 3 = .ok 20000 ∧
    (⟨16, 16, 1, 32, .withNan⟩ : Cfg).fmt.val 3 < (⟨16, 16, 1, 32, .withNan⟩ : Cfg).fmt.val 20001 - (⟨16, 16, 1, 32, .withNan⟩ : Cfg).fmt.val 20000 := by
  decide +kernel

/-- **C141**, fused products and sums: a positive product below the distance to the next posit is lost. -/
theorem C141_fma (h : c.WF) (hF : 2 * c.fb + 4 ≤ c.F) {a b x v : ℤ} (ha : c.fmt.IsReal a) (hb : c.fmt.IsReal b) (hx : c.fmt.IsReal x)
    (hx1 : c.fmt.IsReal (x + 1)) (hx0 : 0 < x) (hp : 0 < c.fmt.val a * c.fmt.val b)
    (hlt : c.fmt.val a * c.fmt.val b < c.fmt.val (x + 1) - c.fmt.val x) (hv : Posit.fma c a b x = .ok v) : v = x := by
  have px := (Format.val_pos_iff hx.inRange).mpr hx0
  exact ((C137_fma h hF ha hb hx hv).2.2.2 (mul_pos hp px)).unique (trunc_between hx0 hx hx1 (by linarith) (by linarith))

/- two negative factors -/
example : P8h.WF ∧ 2 * P8h.fb + 4 ≤ P8h.F ∧ Posit.fma P8h (-20) (-10) 100 = .ok 100 ∧ 0 < P8h.fmt.val (-20) * P8h.fmt.val (-10) ∧
    P8h.fmt.val (-20) * P8h.fmt.val (-10) < P8h.fmt.val 101 - P8h.fmt.val 100 := by decide +kernel

/-- **C141**, sums with the greatest posit: every positive number is lost. -/
theorem C141_max (h : c.WF) (hF : c.fb + 2 ≤ c.F) {x y v : ℤ} (hx : c.fmt.IsReal x) (hx1 : ¬ c.fmt.IsReal (x + 1)) (hx0 : 0 < x)
    (hy : c.fmt.IsReal y) (hy0 : 0 < y) : (Posit.add c x y = .ok v → v = x) ∧ (Posit.add c y x = .ok v → v = x) := by
  have px := (Format.val_pos_iff hx.inRange).mpr hx0
  have py := (Format.val_pos_iff hy.inRange).mpr hy0
  have key : ∀ w, c.fmt.IsTrunc (c.fmt.val x + c.fmt.val y) w → w = x := by
    rintro w ⟨hw, hs, hm, -⟩
    have hw0 : 0 < w := by rcases hs with ⟨h1, -⟩ | ⟨-, h1⟩ <;> [exact h1; linarith]
    have pw := (Format.val_pos_iff hw.inRange).mpr hw0
    have := hm x hx hx0.ne' (by rw [abs_of_pos px, abs_of_pos (by linarith)]; linarith)
    rw [abs_of_pos px, abs_of_pos pw] at this
    have := (Format.val_le_iff hx.inRange hw.inRange).mp this
    rw [isReal_bounds] at hx hx1 hw
    omega
  refine ⟨fun hv => key _ ((C137_same_sign h hF hx hy).1 (mul_pos px py) hv), fun hv => key _ ?_⟩
  have := (C137_same_sign h hF hy hx).1 (mul_pos py px) hv
  rwa [add_comm] at this

example : P8.WF ∧ P8.fb + 2 ≤ P8.F ∧ P8.fmt.IsReal 127 ∧ ¬ P8.fmt.IsReal 128 ∧ Posit.add P8 127 127 = .ok 127 := by decide +kernel

/-- **C141**, differences: a positive number up to the distance to the posit below gives that posit if it reaches the last place of
the aligned operands, and is lost if it does not. -/
theorem C141_sub (h : c.WF) (hF : c.fb + 2 ≤ c.F) {x y v : ℤ} (hx : c.fmt.IsReal x) (hx1 : 1 < x)
    (hy : c.fmt.IsReal y) (hy0 : 0 < y) (hle : c.fmt.val y ≤ c.fmt.val x - c.fmt.val (x - 1)) (hv : Posit.sub c x y = .ok v) :
    v = if c.fmt.val y < 2 ^ (Int.log 2 (c.fmt.val x) + 2 - c.F : ℤ) then x else x - 1 := by
  have hp : c.fmt.IsReal (x - 1) := by rw [isReal_bounds] at hx ⊢; omega
  have px := (Format.val_pos_iff hx.inRange).mpr (show 0 < x by omega)
  have py := (Format.val_pos_iff hy.inRange).mpr hy0
  have pp := (Format.val_pos_iff hp.inRange).mpr (show 0 < x - 1 by omega)
  have hlt := (Format.val_lt_iff hp.inRange hx.inRange).mpr (show x - 1 < x by omega)
  have hv' := ok_of_iff (C63_sub h hx hy) hv
  unfold alignedSum at hv'
  rw [if_neg px.ne', if_neg (neg_ne_zero.mpr py.ne')] at hv'
  generalize hY : c.fmt.val y = Y at *
  have hlog : Int.log 2 |-Y| ≤ Int.log 2 |c.fmt.val x| := by
    rw [abs_neg, abs_of_pos py, abs_of_pos px]; exact Int.log_mono_right py (by linarith)
  have hu : sumUnit c.F (c.fmt.val x) (-Y) = 2 ^ (Int.log 2 (c.fmt.val x) + 2 - c.F : ℤ) := by
    unfold sumUnit; rw [max_eq_left hlog, abs_of_pos px]
  obtain ⟨n, hn⟩ := real_grid h hx px.ne'
  obtain ⟨n', hn'⟩ := multiple_of_le hn (show Int.log 2 (c.fmt.val x) + 2 - (c.F : ℤ) ≤ Int.log 2 |c.fmt.val x| - c.fb by
    rw [abs_of_pos px]; omega)
  have hup : (0 : ℚ) < 2 ^ (Int.log 2 (c.fmt.val x) + 2 - c.F : ℤ) := by positivity
  have hs : cutSum c.F (c.fmt.val x) (-Y) = c.fmt.val x - cutTo (2 ^ (Int.log 2 (c.fmt.val x) + 2 - c.F : ℤ)) Y := by
    unfold cutSum; rw [hu, cutTo_multiple hup hn', cutTo_neg]; ring
  rw [hs] at hv'
  have hcl := cutTo_le hup py.le
  have hnn := cutTo_nonneg hup py.le
  rcases hv' with ⟨h0, -⟩ | ht
  · linarith
  split_ifs with hsm
  · have hz : cutTo (2 ^ (Int.log 2 (c.fmt.val x) + 2 - c.F : ℤ)) Y = 0 := by
      rw [cutTo_nonneg_eq py.le, Nat.floor_eq_zero.mpr (by rw [div_lt_one hup]; exact hsm)]; simp
    rw [hz, sub_zero] at ht
    exact ht.unique (Format.isTrunc_val hx (by omega))
  · rw [not_lt] at hsm
    have hge : 2 ^ (Int.log 2 (c.fmt.val x) + 2 - c.F : ℤ) ≤ cutTo (2 ^ (Int.log 2 (c.fmt.val x) + 2 - c.F : ℤ)) Y := by
      rw [cutTo_nonneg_eq py.le]
      have : 1 ≤ ⌊Y / 2 ^ (Int.log 2 (c.fmt.val x) + 2 - c.F : ℤ)⌋₊ := Nat.le_floor (by rw [Nat.cast_one, le_div_iff₀ hup, one_mul]; exact hsm)
      have : (1 : ℚ) ≤ ⌊Y / 2 ^ (Int.log 2 (c.fmt.val x) + 2 - c.F : ℤ)⌋₊ := by exact_mod_cast this
      nlinarith
    exact ht.unique (trunc_between (by omega) hp (by rw [sub_add_cancel]; exact hx) (by linarith) (by rw [sub_add_cancel]; linarith))

/- a number that reaches the last place, and one that does not -/
example : (⟨16, 16, 1, 16, .withNan⟩ : Cfg).WF ∧ Posit.sub ⟨16, 16, 1, 16, .withNan⟩ 16384 190 = .ok 16383 ∧
    Posit.sub ⟨16, 16, 1, 16, .withNan⟩ 16384 20 = .ok 16384 ∧
    (⟨16, 16, 1, 16, .withNan⟩ : Cfg).fmt.val 190 ≤ (⟨16, 16, 1, 16, .withNan⟩ : Cfg).fmt.val 16384 - (⟨16, 16, 1, 16, .withNan⟩ : Cfg).fmt.val 16383 := by
  decide +kernel

/-- adding `y` to a sum `n` times with `operator+=` (include/posit.h:396-401) -/
def addTimes (c : Cfg) (y : ℤ) : ℕ → ℤ → M ℤ
  | 0, s => .ok s
  | n + 1, s => do let t ← Posit.add c s y; addTimes c y n t

/-- **C141**, sums of many terms: once the sum has reached a posit whose distance to the next one exceeds the terms, it does not
grow any more, however many terms are added. -/
theorem C141_many (h : c.WF) (hF : c.fb + 2 ≤ c.F) {x y v : ℤ} (hx : c.fmt.IsReal x) (hx1 : c.fmt.IsReal (x + 1)) (hx0 : 0 < x)
    (hy : c.fmt.IsReal y) (hy0 : 0 < y) (hlt : c.fmt.val y < c.fmt.val (x + 1) - c.fmt.val x) (hv : Posit.add c x y = .ok v) (n : ℕ) :
    addTimes c y n x = .ok x := by
  rw [(C141_add h hF hx hx1 hx0 hy hy0 hlt).1 hv] at hv
  induction n with
  | zero => rfl
  | succ n ih => exact (bind_ok _ hv).trans ih

example : (⟨8, 8, 0, 16, .withNan⟩ : Cfg).WF ∧ Posit.add ⟨8, 8, 0, 16, .withNan⟩ 112 16 = .ok 112 ∧
    (⟨8, 8, 0, 16, .withNan⟩ : Cfg).fmt.val 112 = 4 ∧ (⟨8, 8, 0, 16, .withNan⟩ : Cfg).fmt.val 16 = 1 / 4 ∧
    (⟨8, 8, 0, 16, .withNan⟩ : Cfg).fmt.val 113 = 9 / 2 := by decide +kernel

end Verif
