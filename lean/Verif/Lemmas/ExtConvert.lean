import Verif.Spec.ExtConvert
import Verif.Lemmas.Extended
import Verif.Lemmas.AnyFloat
import Verif.Lemmas.FloatConv
import Verif.Lemmas.PackTrunc
import Verif.Props.Float
import Verif.Props.Fixed

/-! # Lemmas for C89: conversions of extended numbers -/

namespace Verif
open Fmt

variable {c : Cfg} {F E eb fb : ℕ} {dn : Bool}

theorem outcome_zero : Outcome c 0 (.ok 0) :=
  ⟨fun _ => ⟨0, rfl, Or.inl ⟨rfl, rfl⟩⟩, fun hn => absurd (Or.inl rfl) hn⟩

/-- packing an integer times a power of two -/
theorem outcome_nat (h : c.WF) (neg : Bool) {L n : ℕ} (h1 : 2 ^ L ≤ n) (h2 : n < 2 ^ (L + 1)) (X : ℤ)
    (hF : c.fb ≤ c.F ∨ L ≤ c.F) :
    Outcome c ((if neg then -1 else 1 : ℚ) * (n * 2 ^ X)) (Posit.pack c ⟨.regular, neg, X + L, fracOf c.F L n⟩) := by
  have hn : (0 : ℚ) < n := by
    have : 0 < n := lt_of_lt_of_le (by positivity) h1
    exact_mod_cast this
  have hp : (0 : ℚ) < 2 ^ X := by positivity
  have hpos : (0 : ℚ) < n * 2 ^ X := by positivity
  have habs : |(if neg then -1 else 1 : ℚ) * (n * 2 ^ X)| = n * 2 ^ X := abs_sign_mul _ hpos.le
  have hne : (if neg then -1 else 1 : ℚ) * (n * 2 ^ X) ≠ 0 := by
    intro hc
    rw [hc, abs_zero] at habs
    linarith
  have hsm : c.SafeMag ((if neg then -1 else 1 : ℚ) * (n * 2 ^ X)) ↔ c.SafeMag ((n : ℚ) * 2 ^ X) := by
    rw [← SafeMag_abs, habs]
  constructor
  · intro hs
    obtain ⟨r, hr, ht⟩ := pack_nat h neg h1 h2 X hF (hsm.mp (hs.resolve_left hne))
    exact ⟨r, hr, Or.inr ht⟩
  · intro hs
    rw [not_or] at hs
    refine pack_regular_ub h neg (fracOf_lt h2) fun hps => hs.2 ?_
    refine safeMag_of_packSafe (e := X + L) ?_ ?_ hps
    · rw [habs, zpow_add₀ (by norm_num), zpow_natCast, mul_comm]
      exact mul_le_mul_of_nonneg_right (by exact_mod_cast h1) hp.le
    · rw [habs, show X + L + 1 = X + ((L + 1 : ℕ) : ℤ) by push_cast; ring, zpow_add₀ (by norm_num), zpow_natCast, mul_comm]
      exact mul_lt_mul_of_pos_left (by exact_mod_cast h2) hp

/-- reading a subnormal float of which one digit is kept, into a fraction of 32 or 64 bits -/
theorem unpackFloat_sub_ub (heb : 2 ≤ eb) (hfb : 1 ≤ fb) (hE : eb < E) (hE2 : 2 ^ (eb - 1) + fb ≤ 2 ^ (E - 1))
    {b : ℕ} (hx : fExp eb fb b = 0) (hF : F ≤ fb) (h32 : 32 ≤ F) (hz : fracOf F fb (2 ^ fb + fMan fb b) = 1) :
    Unp.unpackFloat F E (.any eb fb true) b = .error .shiftAmount := by
  obtain ⟨e1, e2, e3⟩ := unpackFloat_fields (F := F) (by omega : 1 ≤ eb) hfb (by omega) b
  have hlt := fExp_lt eb fb b
  rw [unpackFloat_any]
  simp only [e1, e2, e3, bind, Except.bind, pure, Except.pure]
  rw [raw_small hE hlt, arithS_ok' (exp_arith (by omega) hE hlt), hx, hz]
  simp only []
  have h3 : (1 : ℤ) < 2 ^ eb := one_lt_pow₀ (by norm_num) (by omega)
  rw [if_neg (by push_cast; omega), if_pos (by norm_num), if_neg (by simp)]
  have hk : Unp.findLeft F 1 = .ok (F - 1) := by
    unfold Unp.findLeft clz; rw [if_neg (by omega)]; rfl
  rw [hk]
  simp only []
  have hxx : wrapS E (((0 : ℕ) : ℤ) - (2 ^ (eb - 1) - 1)) = 1 - 2 ^ (eb - 1) := by
    rw [wrapS_of_inS (by omega) (exp_arith (by omega) hE (by positivity))]; push_cast; ring
  rw [hxx]
  have hE2z : (2 : ℤ) ^ (eb - 1) + fb ≤ 2 ^ (E - 1) := by exact_mod_cast hE2
  have hpos : (0 : ℤ) < 2 ^ (eb - 1) := by positivity
  have hin : InS E (1 - 2 ^ (eb - 1) - ((F - 1 : ℕ) : ℤ)) := by constructor <;> omega
  rw [arithS_ok' hin]
  simp only []
  unfold shlU
  have hpw : pw F = F := by unfold pw; omega
  rw [if_pos (by rw [hpw]; omega)]

/-- the digits of a subnormal float that are kept -/
theorem sub_digits {b : ℕ} {x : ℚ}
    (hx : x = (if fSign eb fb b then -1 else 1 : ℚ) * (fMan fb b * 2 ^ ((2 : ℤ) - 2 ^ (eb - 1) - fb))) :
    cutTo (subUnit eb F) x =
      (if fSign eb fb b then -1 else 1 : ℚ) * ((fracOf F fb (2 ^ fb + fMan fb b) : ℕ) * subUnit eb F) := by
  have hu : 0 < subUnit eb F := by unfold subUnit; positivity
  have habs := (sub_abs hx).1
  have hfl : ⌊|x| / subUnit eb F⌋₊ = fracOf F fb (2 ^ fb + fMan fb b) := by
    have hq : |x| / subUnit eb F = fMan fb b * 2 ^ ((F : ℤ) - fb) := by
      rw [habs, subUnit, mul_div_assoc, ← zpow_sub₀ (by norm_num)]
      congr 2; ring
    rw [hq]
    unfold fracOf
    rw [Nat.add_sub_cancel_left]
    split_ifs with hc
    · rw [show (F : ℤ) - fb = ((F - fb : ℕ) : ℤ) by omega, zpow_natCast]
      exact_mod_cast Nat.floor_natCast _
    · rw [show (F : ℤ) - fb = -((fb - F : ℕ) : ℤ) by omega, zpow_neg, zpow_natCast, ← div_eq_mul_inv]
      have := Nat.floor_div_eq_div (K := ℚ) (fMan fb b) (2 ^ (fb - F))
      push_cast at this
      exact this
  by_cases hm : fMan fb b = 0
  · have : x = 0 := by rw [hx, hm]; simp
    rw [← hfl, this]
    simp [cutTo]
  have hmp : (0 : ℚ) < fMan fb b * 2 ^ ((2 : ℤ) - 2 ^ (eb - 1) - fb) := by
    have : (0 : ℚ) < fMan fb b := by exact_mod_cast Nat.pos_of_ne_zero hm
    positivity
  have hs : x < 0 ↔ fSign eb fb b = true := by
    rw [hx]
    cases fSign eb fb b
    · simp only [Bool.false_eq_true, if_false, iff_false, one_mul]; linarith
    · simp only [if_true, iff_true]; linarith
  unfold cutTo
  rw [hfl]
  simp only [hs]

end Verif
