import Verif.Lemmas.Narrow
import Verif.Props.FloatPack
import Verif.Props.Constants
import Verif.Spec.ExtConvert

/-! Packing what the float constructors read with an 8-bit exponent type. -/

namespace Verif
open Fmt

variable {c : Cfg}

/-- what an 8-bit exponent type means for the format -/
theorem narrow_facts (h : c.WF) (hE : c.E = 8) : c.N + 1 < pw c.H ∧ c.maxScale ≤ 12 ∧ c.fb ≤ 4 ∧ c.es ≤ 2 := by
  have hN := h.hN
  have hes := h.hes
  have hH := h.hH
  unfold Cfg.E at hE
  have h8 : c.H = 8 ∧ c.N + c.es < 8 := by split_ifs at hE <;> omega
  have hpw := le_pw32 c.H
  have he2 : c.es ≤ 2 := by omega
  refine ⟨by omega, ?_, by unfold Cfg.fb; omega, he2⟩
  unfold Cfg.maxScale
  obtain he | he | he : c.es = 0 ∨ c.es = 1 ∨ c.es = 2 := by omega
  all_goals rw [he]; norm_num; omega

/-- a number below the least posit is truncated to the least posit -/
theorem trunc_tiny (h : c.WF) {y : ℚ} {v : ℤ} (ht : c.fmt.IsTrunc y v) (hy : |y| < 2 ^ (-(c.maxScale : ℤ))) :
    v = if y < 0 then -1 else 1 := by
  have hr1 : c.fmt.IsReal 1 := by have := one_le_maxBody h; rw [isReal_bounds]; omega
  have hv0 : v ≠ 0 := by rcases ht.sign with hs | hs <;> omega
  obtain ⟨e, f, hu⟩ := unpack_real h ht.real hv0
  have hle : (2 : ℚ) ^ (-(c.maxScale : ℤ)) ≤ |c.fmt.val v| := le_trans (zpow_le_zpow_right₀ (by norm_num) hu.e_lo) hu.lower
  have hl := ht.below.resolve_left (fun hc => absurd (lt_of_le_of_lt (le_trans hle hc) hy) (lt_irrefl _)) 1 hr1 (by norm_num)
  have hna : v.natAbs = 1 := by
    rw [Format.abs_val ht.real.inRange hv0, Format.abs_val hr1.inRange (by norm_num)] at hl
    have hlt : v.natAbs < 2 ^ (c.N - 1) := ht.real.inRange
    have h1lt : (1 : ℤ).natAbs < 2 ^ (c.N - 1) := hr1.inRange
    have := (posVal_le_iff (es := c.fmt.es) (by omega) hlt (by norm_num) h1lt).mp hl
    have h1 : (1 : ℤ).natAbs = 1 := rfl
    omega
  rcases ht.sign with ⟨a, b⟩ | ⟨a, b⟩
  · rw [if_neg (not_lt.mpr b.le)]; omega
  · rw [if_pos b]; omega

/-- a number above the greatest posit is truncated to the greatest posit -/
theorem trunc_huge (h : c.WF) {y : ℚ} {v : ℤ} (ht : c.fmt.IsTrunc y v) (hy : (2 : ℚ) ^ ((c.maxScale : ℤ) + 1) ≤ |y|) :
    v = if y < 0 then c.minneg else c.maxpos := by
  obtain ⟨⟨m1, m2⟩, ⟨n1, n2⟩, -⟩ := C19_limits h
  have hv0 : v ≠ 0 := by rcases ht.sign with hs | hs <;> omega
  have key : ∀ w, c.fmt.IsReal w → |c.fmt.val w| ≤ |y| := by
    intro w hw
    by_cases hw0 : w = 0
    · rw [hw0, Format.val_zero, abs_zero]; positivity
    obtain ⟨e, f, hu⟩ := unpack_real h hw hw0
    refine le_trans (le_trans hu.upper.le (zpow_le_zpow_right₀ (by norm_num) ?_)) hy
    have := hu.e_abs h
    rw [abs_le] at this
    omega
  rcases ht.sign with ⟨a, b⟩ | ⟨a, b⟩
  · rw [if_neg (not_lt.mpr b.le)]
    have hpos := (Format.val_pos_iff ht.real.inRange).mpr a
    have hle := m2 v ht.real
    have hmp : 0 < c.fmt.val c.maxpos := lt_of_lt_of_le hpos hle
    have hm0 : c.maxpos ≠ 0 := by intro hz; rw [hz, Format.val_zero] at hmp; exact lt_irrefl _ hmp
    have hge := ht.greatest _ m1 hm0 (key _ m1)
    rw [abs_of_pos hmp, abs_of_pos hpos] at hge
    exact (Format.val_inj ht.real.inRange m1.inRange).mp (le_antisymm hle hge)
  · rw [if_pos b]
    have hneg := (Format.val_neg_iff ht.real.inRange).mpr a
    have hle := n2 v ht.real
    have hmp : c.fmt.val c.minneg < 0 := lt_of_le_of_lt hle hneg
    have hm0 : c.minneg ≠ 0 := by intro hz; rw [hz, Format.val_zero] at hmp; exact lt_irrefl _ hmp
    have hge := ht.greatest _ n1 hm0 (key _ n1)
    rw [abs_of_neg hmp, abs_of_neg hneg] at hge
    exact (Format.val_inj ht.real.inRange n1.inRange).mp (le_antisymm (by linarith) hle)

/-- packing what was read with a field that does not count as subnormal -/
theorem narrow_regular (h : c.WF) (hE : c.E = 8) {eb fb : ℕ} (heb : 8 ≤ eb) (heb30 : eb ≤ 30) (hfb : 1 ≤ fb) {b : ℕ} {w k : ℤ}
    (hw : (fExp eb fb b : ℤ) - (2 ^ (eb - 1) - 1) = w + 256 * k) (hw1 : -128 ≤ w) (hw2 : w < 128) (hx : fExp eb fb b % 256 ≠ 0) :
    ∃ v, Posit.ofFloat c (.any eb fb true) b = .ok v ∧
      c.fmt.IsTrunc ((if fSign eb fb b then -1 else 1 : ℚ) * ((2 ^ fb + fMan fb b : ℕ) * 2 ^ (w - fb))) v := by
  obtain ⟨hN, -, hfb4, -⟩ := narrow_facts h hE
  have hF8 : 8 ≤ c.F := by have := h.hF; omega
  have hu := (unpackFloat_narrow (F := c.F) heb heb30 hfb (by omega) hw hw1 hw2).1 hx
  have hn2 : 2 ^ fb + fMan fb b < 2 ^ (fb + 1) := by
    have := fMan_lt fb b
    rw [pow_succ]; omega
  obtain ⟨r, hr, ht⟩ := pack_nat h (fSign eb fb b) (Nat.le_add_right _ _) hn2 (w - fb) (Or.inl (by omega)) (safeMag_of_narrow h hN _)
  refine ⟨r, ?_, ht⟩
  unfold Posit.ofFloat
  rw [hE, hu]
  rw [show w - fb + fb = w by ring] at hr
  exact hr

/-- packing what was read with a field that counts as subnormal -/
theorem narrow_sub (h : c.WF) (hE : c.E = 8) {eb fb : ℕ} (heb : 8 ≤ eb) (heb30 : eb ≤ 30) (hfb : 1 ≤ fb) {b : ℕ} {w k : ℤ}
    (hw : (fExp eb fb b : ℤ) - (2 ^ (eb - 1) - 1) = w + 256 * k) (hw1 : -128 ≤ w) (hw2 : w < 128) (hx : fExp eb fb b % 256 = 0)
    {m : ℕ} (hm : m = fracOf c.F fb (2 ^ fb + fMan fb b)) :
    (m = 0 → Posit.ofFloat c (.any eb fb true) b = .ok 0) ∧
    (m = 1 → 32 ≤ c.F → Posit.ofFloat c (.any eb fb true) b = .error .shiftAmount) ∧
    (m ≠ 0 → ¬ (m = 1 ∧ 32 ≤ c.F) → ∀ j : ℤ, -128 ≤ w + 1 - c.F + m.log2 - 256 * j → w + 1 - c.F + m.log2 - 256 * j < 128 →
      ∃ v, Posit.ofFloat c (.any eb fb true) b = .ok v ∧
        c.fmt.IsTrunc ((if fSign eb fb b then -1 else 1 : ℚ) * (m * 2 ^ (w + 1 - c.F - 256 * j))) v) := by
  obtain ⟨hN, -, hfb4, -⟩ := narrow_facts h hE
  have hF := h.hF
  have hF8 : 8 ≤ c.F := by omega
  have hF64 : c.F ≤ 64 := by omega
  obtain ⟨-, u2, u3⟩ := unpackFloat_narrow (F := c.F) heb heb30 hfb (by omega) hw hw1 hw2
  refine ⟨fun h0 => ?_, fun h1 h32 => ?_, fun h0 h1 j hj1 hj2 => ?_⟩
  · unfold Posit.ofFloat
    rw [hE, u2 hx (by rw [← hm, h0])]
    exact (C03_pack_special h false w 0).1
  · unfold Posit.ofFloat
    rw [hE, (u3 hx hm (L := 0) (by omega) (by omega)).2 (by unfold pw; omega) hF64]
    rfl
  · have hL1 := Nat.log2_self_le h0
    have hL2 := Nat.lt_log2_self (n := m)
    have hmlt : m < 2 ^ c.F := by
      rw [hm]; apply fracOf_lt
      have := fMan_lt fb b
      rw [pow_succ]; omega
    have hLF : m.log2 < c.F := (Nat.pow_lt_pow_iff_right (by norm_num : 1 < 2)).mp (lt_of_le_of_lt hL1 hmlt)
    have hsh : c.F - m.log2 < pw c.F := by
      by_contra hc
      have hp := le_pw c.F
      have hp32 := le_pw32 c.F
      have hL0 : m.log2 = 0 := by omega
      rw [hL0] at hL2
      exact h1 ⟨by omega, by omega⟩
    have hu := (u3 hx hm hL1 hL2).1 hsh (w' := w + 1 - c.F + m.log2 - 256 * j) (j := j) (by ring) hj1 hj2 hF64
    obtain ⟨r, hr, ht⟩ := pack_nat h (fSign eb fb b) hL1 hL2 (w + 1 - c.F - 256 * j) (Or.inr hLF.le) (safeMag_of_narrow h hN _)
    refine ⟨r, ?_, ht⟩
    unfold Posit.ofFloat
    rw [hE, hu]
    rw [show w + 1 - c.F - 256 * j + m.log2 = w + 1 - c.F + m.log2 - 256 * j by ring] at hr
    exact hr

/-- the digits of the fraction field that are kept -/
theorem cut_digits {eb fb F b : ℕ} {x : ℚ} {X : ℤ} (hx : x = (if fSign eb fb b then -1 else 1 : ℚ) * (fMan fb b * 2 ^ X)) :
    cutTo (2 ^ (X + fb - F)) x =
      (if fSign eb fb b then -1 else 1 : ℚ) * ((fracOf F fb (2 ^ fb + fMan fb b) : ℕ) * 2 ^ (X + fb - F)) := by
  have habs : |x| = fMan fb b * 2 ^ X := by rw [hx, abs_sign_mul _ (by positivity)]
  have hfl : ⌊|x| / 2 ^ (X + fb - F)⌋₊ = fracOf F fb (2 ^ fb + fMan fb b) := by
    have hq : |x| / 2 ^ (X + fb - F) = fMan fb b * 2 ^ ((F : ℤ) - fb) := by
      rw [habs, mul_div_assoc, ← zpow_sub₀ (by norm_num)]
      congr 2; ring
    rw [hq]
    unfold fracOf
    rw [Nat.add_sub_cancel_left]
    split_ifs with hc
    · rw [show (F : ℤ) - fb = ((F - fb : ℕ) : ℤ) by omega, zpow_natCast]
      exact_mod_cast Nat.floor_natCast _
    · rw [show (F : ℤ) - fb = -((fb - F : ℕ) : ℤ) by omega, zpow_neg, zpow_natCast, ← div_eq_mul_inv]
      have := Nat.floor_div_eq_div (K := ℚ) (fMan fb b) (2 ^ (fb - F))
      push_cast at this
      exact this
  by_cases hm : fMan fb b = 0
  · have : x = 0 := by rw [hx, hm]; simp
    rw [← hfl, this]
    simp [cutTo]
  have hmp : (0 : ℚ) < fMan fb b * 2 ^ X := by
    have : (0 : ℚ) < fMan fb b := by exact_mod_cast Nat.pos_of_ne_zero hm
    positivity
  have hs : x < 0 ↔ fSign eb fb b = true := by
    rw [hx]
    cases fSign eb fb b
    · simp only [Bool.false_eq_true, if_false, iff_false, one_mul]; linarith
    · simp only [if_true, iff_true]; linarith
  unfold cutTo
  rw [hfl]
  simp only [hs]

/-- the exponent of a normal number -/
theorem norm_exp {fb M : ℕ} (hM : M < 2 ^ fb) (X : ℤ) :
    (2 : ℚ) ^ (X + fb) ≤ (2 ^ fb + M : ℕ) * 2 ^ X ∧ ((2 ^ fb + M : ℕ) : ℚ) * 2 ^ X < 2 ^ (X + fb + 1) := by
  have h0 : (0 : ℚ) < 2 ^ X := by positivity
  have e1 : (2 : ℚ) ^ (X + fb) = 2 ^ fb * 2 ^ X := by rw [zpow_add₀ (by norm_num), zpow_natCast, mul_comm]
  have e2 : (2 : ℚ) ^ (X + fb + 1) = 2 ^ (fb + 1) * 2 ^ X := by
    rw [show X + fb + 1 = X + (fb + 1 : ℕ) by push_cast; ring, zpow_add₀ (by norm_num), zpow_natCast, mul_comm]
  rw [e1, e2]
  constructor
  · exact mul_le_mul_of_nonneg_right (by exact_mod_cast Nat.le_add_right _ _) h0.le
  · refine mul_lt_mul_of_pos_right ?_ h0
    have : 2 ^ fb + M < 2 ^ (fb + 1) := by rw [pow_succ]; omega
    exact_mod_cast this

/-- the outcome of a field that counts as the one of a subnormal, for `double` -/
theorem double_sub (h : c.WF) (hE : c.E = 8) {b : ℕ} (hx : fExp 11 52 b % 256 = 0) {z : ℚ}
    (hz : z = (if fSign 11 52 b then -1 else 1 : ℚ) * (fMan 52 b * 2 ^ (-50 : ℤ))) :
    (cutTo (2 ^ ((2 : ℤ) - c.F)) z = 0 → Posit.ofFloat c (.any 11 52 true) b = .ok 0) ∧
    (|cutTo (2 ^ ((2 : ℤ) - c.F)) z| = 2 ^ ((2 : ℤ) - c.F) → 32 ≤ c.F →
      Posit.ofFloat c (.any 11 52 true) b = .error .shiftAmount) ∧
    (cutTo (2 ^ ((2 : ℤ) - c.F)) z ≠ 0 → ¬ (|cutTo (2 ^ ((2 : ℤ) - c.F)) z| = 2 ^ ((2 : ℤ) - c.F) ∧ 32 ≤ c.F) →
      ∃ v, Posit.ofFloat c (.any 11 52 true) b = .ok v ∧ c.fmt.IsTrunc (cutTo (2 ^ ((2 : ℤ) - c.F)) z) v) := by
  have hd := cut_digits (F := c.F) hz
  rw [show (-50 : ℤ) + (52 : ℕ) - c.F = 2 - c.F by push_cast; ring] at hd
  obtain ⟨q, hq⟩ : ∃ q : ℕ, fExp 11 52 b = 256 * q := ⟨fExp 11 52 b / 256, by omega⟩
  obtain ⟨m, hm⟩ : ∃ m, m = fracOf c.F 52 (2 ^ 52 + fMan 52 b) := ⟨_, rfl⟩
  obtain ⟨n1, n2, n3⟩ := narrow_sub h hE (eb := 11) (fb := 52) (by norm_num) (by norm_num) (by norm_num) (b := b) (w := 1)
    (k := q - 4) (by rw [hq]; push_cast; ring) (by norm_num) (by norm_num) hx hm
  rw [← hm] at hd
  have hu : (0 : ℚ) < 2 ^ ((2 : ℤ) - c.F) := by positivity
  have habs : |cutTo (2 ^ ((2 : ℤ) - c.F)) z| = m * 2 ^ ((2 : ℤ) - c.F) := by
    rw [hd, abs_sign_mul _ (by positivity)]
  have h0 : cutTo (2 ^ ((2 : ℤ) - c.F)) z = 0 ↔ m = 0 := by
    rw [← abs_eq_zero, habs, mul_eq_zero]
    constructor
    · rintro (a | a)
      · exact_mod_cast a
      · exact absurd a hu.ne'
    · intro a; left; exact_mod_cast a
  have h1 : |cutTo (2 ^ ((2 : ℤ) - c.F)) z| = 2 ^ ((2 : ℤ) - c.F) ↔ m = 1 := by
    rw [habs, mul_eq_right₀ hu.ne']
    exact_mod_cast Iff.rfl
  rw [h0, h1, Ne, h0]
  refine ⟨n1, n2, fun a1 a2 => ?_⟩
  have hF := h.hF
  have hmlt : m < 2 ^ c.F := by
    rw [hm]; apply fracOf_lt
    have := fMan_lt 52 b
    rw [pow_succ]; omega
  have hLF : m.log2 < c.F := (Nat.pow_lt_pow_iff_right (by norm_num : 1 < 2)).mp (lt_of_le_of_lt (Nat.log2_self_le a1) hmlt)
  obtain ⟨v, v1, v2⟩ := n3 a1 a2 0 (by omega) (by omega)
  refine ⟨v, v1, ?_⟩
  rw [hd]
  rw [show (1 : ℤ) + 1 - c.F - 256 * 0 = 2 - c.F by ring] at v2
  exact v2

end Verif
