import Verif.Model.TabExp2
import Verif.Lemmas.TabExp2Close
import Verif.Props.TabGen
import Verif.Props.Posit10
import Verif.Props.Binary8Gen
import Verif.Lemmas.NarrowPack

/-! # What the generators make of the C function `exp2` -/

namespace Verif
open Fmt NearGen

variable {e : ℕ → ℕ}

theorem IsPow2.unique {f : Format} {x : ℚ} {t u : ℤ} (h : IsPow2 f x t) (h' : IsPow2 f x u) : t = u := by
  obtain ⟨r, p, b, m⟩ := h
  obtain ⟨r', p', b', m'⟩ := h'
  have h1 : t ≤ u := by
    rcases b with b | b
    · omega
    · exact m' t r b
  have h2 : u ≤ t := by
    rcases b' with b | b
    · omega
    · exact m u r' b
  omega

/-- truncating a number with the same numbers of the format below it -/
theorem IsPow2.of_trunc {f : Format} {x z : ℚ} {t : ℤ} (h : f.IsTrunc z t) (hz : 0 < z)
    (hs : ∀ w, f.IsReal w → ((f.val w : ℝ) ≤ (2 : ℝ) ^ (x : ℝ) ↔ f.val w ≤ z)) : IsPow2 f x t := by
  have hb := h.truncB
  have ht : 0 < t := by
    rcases h.sign with h | h
    · exact h.1
    · linarith [h.2]
  rw [abs_of_pos hz] at hb
  have hv : ∀ w : ℤ, 0 < w → f.val w = posVal f.N f.es w.natAbs := fun w hw => Format.val_pos' hw
  refine ⟨h.real, ht, ?_, fun w hw hle => ?_⟩
  · rcases hb.below with hb | hb
    · right
      rw [hs t h.real, hv t ht]; exact hb
    · left; omega
  · rcases le_or_gt w 0 with h0 | h0
    · omega
    · rw [hs w hw, hv w h0] at hle
      have := hb.greatest w.natAbs (by omega) hw.natAbs_le hle
      omega

/-- the numbers of a format are numbers of posit12 -/
def In12 (f : Format) : Prop := ∀ w, f.IsReal w → ∃ v, Posit12.cfg.fmt.IsReal v ∧ Posit12.cfg.fmt.val v = f.val w

theorem in12_posit12 : In12 Posit12.cfg.fmt := fun w hw => ⟨w, hw, rfl⟩

theorem in12_posit10 {w : ℤ} (hw : Posit10.cfg.fmt.IsReal w) :
    Posit12.cfg.fmt.IsReal (4 * w) ∧ Posit12.cfg.fmt.val (4 * w) = Posit10.cfg.fmt.val w := by
  have h : ∀ u : Fin 1023, Posit12.cfg.fmt.val (4 * ((u : ℤ) - 511)) = Posit10.cfg.fmt.val ((u : ℤ) - 511) := by decide +kernel
  have hr : w.natAbs < 512 := hw.inRange
  refine ⟨Posit12.real_iff.mpr (by omega), ?_⟩
  have := h ⟨(w + 511).toNat, by omega⟩
  rwa [show (((w + 511).toNat : ℕ) : ℤ) - 511 = w by omega] at this

/-- a posit8 number in posit12, by conversion to `float` and back -/
def to12 (w : ℤ) : ℤ := match Posit.ofFloat Posit12.cfg .single (Posit8.toFloat w) with
  | .ok v => v
  | .error _ => 0

theorem in12_posit8 {w : ℤ} (hw : Posit8.cfg.fmt.IsReal w) :
    Posit12.cfg.fmt.IsReal (to12 w) ∧ Posit12.cfg.fmt.val (to12 w) = Posit8.cfg.fmt.val w := by
  have h : ∀ u : Fin 255, Posit12.cfg.fmt.IsReal (to12 ((u : ℤ) - 127)) ∧
      Posit12.cfg.fmt.val (to12 ((u : ℤ) - 127)) = Posit8.cfg.fmt.val ((u : ℤ) - 127) := by decide +kernel
  have hr : w.natAbs < 128 := hw.inRange
  have := h ⟨(w + 127).toNat, by omega⟩
  simpa only [show (((w + 127).toNat : ℕ) : ℤ) - 127 = w by omega] using this

/-- a binary8 number in posit12 -/
def bto12 (b : ℕ) : ℤ := match Posit.ofFloat Posit12.cfg (.any 5 2) b with
  | .ok v => v
  | .error _ => 0

theorem in12_binary8 {b : ℕ} {x : ℚ} (hx : ieee 5 2 b = .num x) :
    Posit12.cfg.fmt.IsReal (bto12 (b % 256)) ∧ Posit12.cfg.fmt.val (bto12 (b % 256)) = x := by
  have h : ∀ u : Fin 256, ieee 5 2 u = .nan ∨ ieee 5 2 u = .inf true ∨ ieee 5 2 u = .inf false ∨
      Posit12.cfg.fmt.IsReal (bto12 u) ∧ ieee 5 2 u = .num (Posit12.cfg.fmt.val (bto12 u)) := by decide +kernel
  rw [← ieee_mod] at hx
  rcases h ⟨b % 256, Nat.mod_lt _ (by norm_num)⟩ with h | h | h | ⟨h1, h2⟩
  · exact absurd (h.symm.trans hx) (by nofun)
  · exact absurd (h.symm.trans hx) (by nofun)
  · exact absurd (h.symm.trans hx) (by nofun)
  · exact ⟨h1, XNum.num.inj (h2.symm.trans hx)⟩

variable {c : Cfg}

/-- what a generator stores for an argument in the normal range -/
theorem gen_pow2 (ff : FloatFor c .single) (hi : In12 c.fmt) (he : IsExp2 e) {f : ℕ} {x : ℚ} (hf : ieee 8 23 f = .num x)
    (hx : ∃ s, Posit12.cfg.fmt.IsReal s ∧ Posit12.cfg.fmt.val s = x) (h1 : -126 ≤ x) (h2 : x < 128)
    (h3 : x < 0 → x ≤ -1 / 2 ^ 21 ∨ IsExp2Close e ∧ x ≤ -3 / 2 ^ 26) :
    ∃ t, Posit.ofFloat c .single (e f) = .ok t ∧ IsPow2 c.fmt x t := by
  obtain ⟨s, hs, rfl⟩ := hx
  obtain ⟨z, hz, hzl, hsame⟩ := close12 he hs hf h1 h2 h3
  have hz0 : 0 < z := lt_of_lt_of_le (by positivity) hzl
  obtain ⟨v, hv, -, -, ht⟩ := ff.ofFloat (IsRounded.of_num hz) (by
    rw [abs_of_pos hz0]; exact hzl)
  refine ⟨v, hv, IsPow2.of_trunc (ht ⟨_, hz⟩) hz0 fun w hw => ?_⟩
  obtain ⟨u, hu, hw'⟩ := hi w hw
  rw [← hw']
  exact hsame u hu

/-- below the normal range only integers occur -/
theorem int12 {s : ℤ} (hs : Posit12.cfg.fmt.IsReal s) (h : Posit12.cfg.fmt.val s ≤ -126) : ∃ n : ℤ, Posit12.cfg.fmt.val s = n := by
  have hW : ∀ k : Fin 2048, 2 ^ 46 ≤ Posit12.W k → Posit12.W k % 2 ^ 40 = 0 := by decide +kernel
  have h0 : s ≠ 0 := by rintro rfl; rw [Format.val_zero] at h; norm_num at h
  have hr := Posit12.real_iff.mp hs
  obtain ⟨hv, hp⟩ := Posit12.val12 hs h0
  have hneg : s < 0 := by
    by_contra hc
    rw [if_neg hc, one_mul] at hv
    have : 0 ≤ (Posit12.W s.natAbs : ℚ) / 2 ^ 40 := by positivity
    linarith
  rw [if_pos hneg] at hv
  have hk := hW ⟨s.natAbs, by omega⟩
  simp only at hk
  have h46 : 2 ^ 46 ≤ Posit12.W s.natAbs := by
    by_contra hc
    have : (Posit12.W s.natAbs : ℚ) / 2 ^ 40 < 64 := by
      rw [div_lt_iff₀ (by positivity)]
      have : Posit12.W s.natAbs < 64 * 2 ^ 40 := by omega
      exact_mod_cast this
    linarith
  obtain ⟨n, hn⟩ := Nat.dvd_of_mod_eq_zero (hk h46)
  refine ⟨-n, ?_⟩
  have : ((2 ^ 40 * n : ℕ) : ℚ) / 2 ^ 40 = n := by
    rw [Nat.cast_mul]; push_cast; exact mul_div_cancel_left₀ _ (by positivity)
  rw [hv, hn, this]
  push_cast
  ring

/-- the least positive number, for powers of two below all of them -/
theorem IsPow2.minpos (ff : FloatFor c .single) {x : ℚ} (hx : x ≤ -127) : IsPow2 c.fmt x 1 := by
  have h1 : c.fmt.IsReal 1 := by
    have := one_le_maxBody ff.wf
    rw [Format.isReal_iff]; simpa using this
  refine ⟨h1, by norm_num, Or.inl rfl, fun w hw hle => ?_⟩
  by_contra hc
  have hb := (val_abs_bounds ff.wf hw (by omega)).1
  have hp : 0 < c.fmt.val w := (Format.val_pos_iff hw.inRange).mpr (by omega)
  rw [abs_of_pos hp] at hb
  have hr := ff.range
  have : (2 : ℚ) ^ (-126 : ℤ) ≤ 2 ^ (-(c.maxScale : ℤ)) := zpow_le_zpow_right₀ (by norm_num) (by
    have : (2 : ℕ) ^ (FTrait.single.eb - 1) = 128 := by decide
    omega)
  have h3 : (((2 : ℚ) ^ (-126 : ℤ) : ℚ) : ℝ) ≤ (c.fmt.val w : ℝ) := by exact_mod_cast this.trans hb
  have h4 := two_pow_mono hx
  rw [show ((-127 : ℚ)) = ((-127 : ℤ) : ℚ) by norm_num, two_pow_int] at h4
  have h5 := h3.trans (hle.trans h4)
  have : (2 : ℚ) ^ (-126 : ℤ) ≤ 2 ^ (-127 : ℤ) := by exact_mod_cast h5
  norm_num at this

/-- what a generator stores below the normal range -/
theorem gen_low (ff : FloatFor c .single) (hF : c.F = 16) (hd : ∀ n : Fin 16, Posit.ofFloat c .single (2 ^ (n + 7 : ℕ)) = .ok 1)
    (he : IsExp2 e) {f : ℕ} {x : ℚ} (hf : ieee 8 23 f = .num x)
    (hx : ∃ s, Posit12.cfg.fmt.IsReal s ∧ Posit12.cfg.fmt.val s = x) (h : x < -126) :
    (-143 < x → Posit.ofFloat c .single (e f) = .ok 1) ∧ (x ≤ -143 → Posit.ofFloat c .single (e f) = .ok 0) := by
  constructor
  · intro h1
    obtain ⟨s, hs, rfl⟩ := hx
    obtain ⟨n, hn⟩ := int12 hs h.le
    rw [hn] at hf h h1
    have h' : n < -126 := by exact_mod_cast h
    have h1' : -143 < n := by exact_mod_cast h1
    obtain ⟨m, hm⟩ := Int.eq_ofNat_of_zero_le (show 0 ≤ n + 149 by omega)
    have hb := he.bits (f := f) (n := m) (by omega) (by rw [hf]; congr 2; omega)
    rw [hb]
    have := hd ⟨m - 7, by omega⟩
    simpa only [show m - 7 + 7 = m by omega] using this
  · intro h1
    obtain ⟨h2, h3⟩ := he.sub hf h1
    have ht : FTrait.single = .any 8 23 true := by decide +kernel
    rw [ht]
    exact C22_subnormal_lost ff.wf (by norm_num) (by norm_num) (by have := ff.hE; omega) h2 (by omega) (by rw [hF]; exact h3)

end Verif
