import Verif.Lemmas.Den
import Verif.Lemmas.CutSum
import Mathlib.Algebra.Order.Floor.Semifield

/-! # The exact outcome of `Unpacked::operator+` -/

namespace Verif
open Fmt

variable {c : Cfg} {F E : ℕ}

/-- the sign as a factor -/
def sg (s : Bool) : ℤ := if s then -1 else 1

theorem addRegular_norm (hF : F = 8 ∨ F = 16 ∨ F = 32 ∨ F = 64) (hE : 1 ≤ E) {sa sb : Bool} {ea eb : ℤ} {fa fb da db : ℕ}
    (hfa : fa < 2 ^ F) (hfb : fb < 2 ^ F) (hd : |ea - eb| < pw F) (hr : AddRange E F ea eb)
    (hda : max ea eb = ea + da) (hdb : max ea eb = eb + db) :
    ∃ s : Bool, Unp.addRegular F E ⟨.regular, sa, ea, fa⟩ ⟨.regular, sb, eb, fb⟩ =
      Unp.normalized F E ⟨.regular, s, max ea eb + 1,
        (sg sa * ((2 ^ (F - 2) + fa / 4) / 2 ^ da : ℕ) + sg sb * ((2 ^ (F - 2) + fb / 4) / 2 ^ db : ℕ)).natAbs⟩ ∧
      (sg sa * ((2 ^ (F - 2) + fa / 4) / 2 ^ da : ℕ) + sg sb * ((2 ^ (F - 2) + fb / 4) / 2 ^ db : ℕ) ≠ 0 →
        s = decide (sg sa * ((2 ^ (F - 2) + fa / 4) / 2 ^ da : ℕ) + sg sb * ((2 ^ (F - 2) + fb / 4) / 2 ^ db : ℕ) < 0)) ∧
      (sg sa * ((2 ^ (F - 2) + fa / 4) / 2 ^ da : ℕ) + sg sb * ((2 ^ (F - 2) + fb / 4) / 2 ^ db : ℕ)).natAbs < 2 ^ F := by
  have hF2 : 2 ≤ F := by omega
  have h4 := pow_F4 hF2
  have hA := mant2_bounds hF2 hfa
  have hB := mant2_bounds hF2 hfb
  obtain ⟨hr1, hr2⟩ := hr
  have hx := hr2 (max ea eb + 1) (by omega) le_rfl
  have hA2 : (2 ^ (F - 2) + fa / 4) / 2 ^ da ≤ 2 ^ (F - 2) + fa / 4 := Nat.div_le_self _ _
  have hB2 : (2 ^ (F - 2) + fb / 4) / 2 ^ db ≤ 2 ^ (F - 2) + fb / 4 := Nat.div_le_self _ _
  have hshr : ∀ A B : ℕ, A = (2 ^ (F - 2) + fa / 4) / 2 ^ da → B = (2 ^ (F - 2) + fb / 4) / 2 ^ db →
      Unp.addRegular F E ⟨.regular, sa, ea, fa⟩ ⟨.regular, sb, eb, fb⟩ =
        Unp.normalized F E ⟨.regular, if (if sa = sb then (0 : ℤ) else if A > B then 1 else -1) ≥ 0 then sa else sb,
          max ea eb + 1,
          if (if sa = sb then (0 : ℤ) else if A > B then 1 else -1) = 0 then (A + B) % 2 ^ F
          else if (if sa = sb then (0 : ℤ) else if A > B then 1 else -1) > 0 then wrapU F ((A : ℤ) - B)
          else wrapU F ((B : ℤ) - A)⟩ := by
    rintro A B rfl rfl
    unfold Unp.addRegular
    simp only [mant2 hF2 hfa, mant2 hF2 hfb]
    rw [arithS_ok' hr1]
    simp only [bind, Except.bind, pure, Except.pure]
    rcases lt_or_ge (ea - eb) 0 with hneg | hnn
    · have hmax : max ea eb = eb := by omega
      have hdb0 : db = 0 := by omega
      subst hdb0
      rw [hmax] at hx ⊢
      have hdp : da < pw F := by rw [abs_lt] at hd; omega
      simp only [hneg, if_true, decide_true, not_true, decide_false, condShr_false]
      rw [arithS_ok' hx, condShr_true (d := da) (by omega) hdp]
      simp only [pow_zero, Nat.div_one]
      rw [wrapS_of_inS hE hx]
    · have hmax : max ea eb = ea := by omega
      have hda0 : da = 0 := by omega
      subst hda0
      rw [hmax] at hx ⊢
      have hdp : db < pw F := by rw [abs_lt] at hd; omega
      simp only [not_lt.mpr hnn, if_false, decide_true, not_false_eq_true, decide_false, condShr_false]
      rw [arithS_ok' hx, condShr_true (d := db) (by omega) hdp]
      simp only [pow_zero, Nat.div_one]
      rw [wrapS_of_inS hE hx]
  rw [hshr _ _ rfl rfl]
  generalize (2 ^ (F - 2) + fa / 4) / 2 ^ da = A at *
  generalize (2 ^ (F - 2) + fb / 4) / 2 ^ db = B at *
  have hAF : A + B < 2 ^ F := by omega
  have st : sg true = -1 := rfl
  have sf : sg false = 1 := rfl
  by_cases hs : sa = sb
  · subst hs
    refine ⟨sa, ?_, ?_, ?_⟩
    · simp only [if_true, ge_iff_le, le_refl]
      rw [Nat.mod_eq_of_lt hAF]
      refine congrArg _ (congrArg (Unp.mk _ _ _) ?_)
      cases sa <;> simp only [st, sf] <;> omega
    · intro h0
      cases sa <;> simp only [st, sf] at h0 ⊢ <;> symm
      · exact decide_eq_false (by omega)
      · exact decide_eq_true (by omega)
    · cases sa <;> simp only [st, sf] <;> omega
  · by_cases hlt : A > B
    · refine ⟨sa, ?_, ?_, ?_⟩
      · simp only [hs, hlt, if_true, if_false]
        norm_num only
        simp only [if_true, if_false, ge_iff_le]
        rw [wrapU_sub (by omega) (by omega)]
        refine congrArg _ (congrArg (Unp.mk _ _ _) ?_)
        cases sa <;> cases sb <;> first | exact absurd rfl hs | (simp only [st, sf]; omega)
      · intro h0
        symm
        cases sa <;> cases sb <;> first | exact absurd rfl hs | (simp only [st, sf]; first | exact decide_eq_false (by omega) | exact decide_eq_true (by omega))
      · cases sa <;> cases sb <;> first | exact absurd rfl hs | (simp only [st, sf]; omega)
    · refine ⟨sb, ?_, ?_, ?_⟩
      · simp only [hs, hlt, if_false]
        norm_num only
        simp only [if_true, if_false, ge_iff_le]
        rw [wrapU_sub (by omega) (by omega)]
        refine congrArg _ (congrArg (Unp.mk _ _ _) ?_)
        cases sa <;> cases sb <;> first | exact absurd rfl hs | (simp only [st, sf]; omega)
      · intro h0
        symm
        cases sa <;> cases sb <;> first | exact absurd rfl hs | (simp only [st, sf] at h0 ⊢; first | exact decide_eq_false (by omega) | exact decide_eq_true (by omega))
      · cases sa <;> cases sb <;> first | exact absurd rfl hs | (simp only [st, sf]; omega)

/-- the leading bits of a number between two fraction fields -/
theorem floor_frac (hF : 2 ≤ F) {e : ℤ} {f : ℕ} {X : ℚ} (h1 : 2 ^ e * (1 + (f : ℚ) / 2 ^ F) ≤ X)
    (h2 : X < 2 ^ e * (1 + ((f : ℚ) + 1) / 2 ^ F)) : ⌊X / 2 ^ (e + 2 - F : ℤ)⌋₊ = 2 ^ (F - 2) + f / 4 := by
  have hu : (2 : ℚ) ^ (e + 2 - F : ℤ) = 2 ^ (e - F : ℤ) * ((4 : ℕ) : ℚ) := by
    rw [show e + 2 - (F : ℤ) = (e - F) + 2 by ring, zpow_add₀ (by norm_num) _ 2]; norm_num
  have hp : (0 : ℚ) < 2 ^ (e - F : ℤ) := by positivity
  have hpF : (0 : ℚ) < 2 ^ F := by positivity
  have hef : (2 : ℚ) ^ e = 2 ^ (e - F : ℤ) * 2 ^ F := by
    rw [← zpow_natCast, ← zpow_add₀ (by norm_num)]; congr 1; omega
  rw [hu, ← div_div, Nat.floor_div_natCast]
  have hfl : ⌊X / 2 ^ (e - F : ℤ)⌋₊ = 2 ^ F + f := by
    rw [Nat.floor_eq_iff (by
      have : (0 : ℚ) ≤ 2 ^ e * (1 + (f : ℚ) / 2 ^ F) := by positivity
      exact div_nonneg (by linarith) hp.le)]
    rw [le_div_iff₀ hp, div_lt_iff₀ hp]
    rw [hef] at h1 h2
    constructor
    · refine le_trans (le_of_eq ?_) h1
      push_cast; field_simp
    · refine lt_of_lt_of_eq h2 ?_
      push_cast; field_simp; ring
  rw [hfl]
  have := pow_F4 hF
  omega

theorem cutTo_eq {x u : ℚ} {s : Bool} (hs : x < 0 ↔ s = true) : cutTo u x = (sg s * ⌊|x| / u⌋₊ : ℤ) * u := by
  unfold cutTo sg
  by_cases h : x < 0
  · rw [if_pos h, if_pos (hs.mp h)]; push_cast; ring
  · rw [if_neg h, if_neg (fun hh => h (hs.mpr hh))]; push_cast; ring

/-- an unpacked number whose fraction field holds the leading bits of `x`, except perhaps the last two -/
structure Holds (F : ℕ) (s : Bool) (e : ℤ) (f : ℕ) (x : ℚ) : Prop where
  lt : f < 2 ^ F
  lo : (2 : ℚ) ^ e ≤ |x|
  hi : |x| < (2 : ℚ) ^ (e + 1)
  fl : ⌊|x| / 2 ^ (e + 2 - F : ℤ)⌋₊ = 2 ^ (F - 2) + f / 4
  sign : x < 0 ↔ s = true

theorem holds_of (hF : 2 ≤ F) {s : Bool} {e : ℤ} {f : ℕ} {x : ℚ} (hf : f < 2 ^ F) (lo : 2 ^ e * (1 + (f : ℚ) / 2 ^ F) ≤ |x|)
    (hi : |x| < 2 ^ e * (1 + ((f : ℚ) + 1) / 2 ^ F)) (hs : x < 0 ↔ s = true) : Holds F s e f x := by
  have h2 : (0 : ℚ) < 2 ^ e := by positivity
  have hf0 : (0 : ℚ) ≤ (f : ℚ) / 2 ^ F := by positivity
  refine ⟨hf, by nlinarith, ?_, floor_frac hF lo hi, hs⟩
  have : ((f : ℚ) + 1) / 2 ^ F ≤ 1 := by
    rw [div_le_one (by positivity)]
    exact_mod_cast hf
  rw [zpow_add_one₀ (by norm_num)]
  nlinarith

theorem Holds.log {s : Bool} {e : ℤ} {f : ℕ} {x : ℚ} (h : Holds F s e f x) : Int.log 2 |x| = e := by
  have h2 : (0 : ℚ) < 2 ^ e := by positivity
  have h1 := h.lo
  apply le_antisymm
  · have := (Int.lt_zpow_iff_log_lt (b := 2) (by norm_num) (by linarith : 0 < |x|) (x := e + 1)).mp (by exact_mod_cast h.hi)
    omega
  · exact (Int.zpow_le_iff_le_log (b := 2) (by norm_num) (by linarith)).mp (by exact_mod_cast h1)

theorem Holds.ne {s : Bool} {e : ℤ} {f : ℕ} {x : ℚ} (h : Holds F s e f x) : x ≠ 0 := by
  rintro rfl
  have h1 := h.lo
  rw [abs_zero] at h1
  have : (0 : ℚ) < 2 ^ e := by positivity
  linarith

/-- what is left of an operand after aligning it -/
theorem Holds.shift {s : Bool} {e : ℤ} {f d : ℕ} {x : ℚ} (h : Holds F s e f x) {e' : ℤ} (he : e' = e + d) :
    ⌊|x| / 2 ^ (e' + 2 - F : ℤ)⌋₊ = (2 ^ (F - 2) + f / 4) / 2 ^ d := by
  have hu : (2 : ℚ) ^ (e' + 2 - F : ℤ) = 2 ^ (e + 2 - F : ℤ) * ((2 ^ d : ℕ) : ℚ) := by
    push_cast
    rw [← zpow_natCast, ← zpow_add₀ (by norm_num)]; congr 1; omega
  rw [hu, ← div_div, Nat.floor_div_natCast, h.fl]

theorem holds_mag (hF : 2 ≤ F) {s : Bool} {e : ℤ} {f : ℕ} (hf : f < 2 ^ F) : Holds F s e f ((if s then -1 else 1) * mag F e f) := by
  have hp := mag_pos F e f
  have habs : |(if s then -1 else 1 : ℚ) * mag F e f| = mag F e f := abs_sign_mul s hp.le
  refine holds_of hF hf ?_ ?_ ?_
  · rw [habs]; exact le_rfl
  · rw [habs]
    unfold mag
    have : (0 : ℚ) < 1 / 2 ^ F := by positivity
    rw [add_div]
    exact mul_lt_mul_of_pos_left (by linarith) (by positivity)
  · cases s
    · simp; exact hp.le
    · simp [hp]

theorem Unpacks.holds (h : c.WF) {v e : ℤ} {f : ℕ} (hu : Unpacks c v e f) (hv : c.fmt.IsReal v) :
    Holds c.F (v < 0) e f (c.fmt.val v) :=
  holds_of (by have := h.hF; omega) hu.f_lt hu.trunc hu.close (by rw [Format.val_neg_iff hv.inRange]; simp)

/-- the product of two decoded posits holds the leading bits of the exact product -/
theorem mul_holds (h : c.WF) (hF : c.fb + 1 ≤ c.F) {a b ea eb : ℤ} {fa fb : ℕ} (hra : c.fmt.IsReal a) (ha0 : a ≠ 0)
    (hrb : c.fmt.IsReal b) (hb0 : b ≠ 0) (ha : Unpacks c a ea fa) (hb : Unpacks c b eb fb) :
    ∃ e f, Unp.mul c.F c.E ⟨.regular, a < 0, ea, fa⟩ ⟨.regular, b < 0, eb, fb⟩ =
        .ok ⟨.regular, xor (a < 0) (b < 0), e, f⟩ ∧
      Holds c.F (xor (a < 0) (b < 0)) e f (c.fmt.val a * c.fmt.val b) ∧ |e| ≤ 2 * c.maxScale + 1 := by
  have hE := E_ge h
  have hF8 := h.F_pos
  have h1 := ha.e_abs h
  have h2 := hb.e_abs h
  rw [abs_le] at h1 h2
  obtain ⟨e, f, heq, hf, hu, hm, he⟩ := mulRegular_eq (na := a < 0) (nb := b < 0) (E := c.E) (by omega) (by omega) ha.f_lt hb.f_lt
    (inS_wide h (x := ea + eb) (by rw [abs_le]; omega)) (inS_wide h (x := ea + eb + 1) (by rw [abs_le]; omega)) rfl
  obtain ⟨hb1, hb2⟩ := mul_bounds (F := c.F) (ea := ea) (eb := eb) (by omega) (ha.dvd_pow hF) (hb.dvd_pow hF) rfl
  rw [← ha.abs_val (by omega), ← hb.abs_val (by omega), ← abs_mul] at hb1 hb2
  have hsg := mul_real_sign hra ha0 hrb hb0
  refine ⟨e, f, heq, ?_, by rw [abs_le]; omega⟩
  generalize (2 ^ (c.F - 1) + fa / 2) * (2 ^ (c.F - 1) + fb / 2) / 2 ^ c.F = u at *
  generalize c.fmt.val a * c.fmt.val b = p at *
  obtain ⟨k, hk, hk1⟩ : ∃ k : ℕ, e + 2 - c.F = ea + eb + 2 - c.F + k ∧ k ≤ 1 := by
    rcases he with he | he
    · exact ⟨0, by omega, by omega⟩
    · exact ⟨1, by omega, by omega⟩
  have hp : (0 : ℚ) < 2 ^ (ea + eb + 2 - c.F : ℤ) := by positivity
  have hpe : (0 : ℚ) < 2 ^ e := by positivity
  have hfl : ⌊|p| / 2 ^ (ea + eb + 2 - c.F : ℤ)⌋₊ = u := by
    rw [Nat.floor_eq_iff (div_nonneg (abs_nonneg _) hp.le), le_div_iff₀ hp, div_lt_iff₀ hp]
    exact ⟨hb1, hb2⟩
  have hmag : 4 * u = (2 ^ c.F + f) * 2 ^ k := by
    unfold mag at hm
    have e1 : (2 : ℚ) ^ e * 4 = 2 ^ (ea + eb + 2 - c.F : ℤ) * 2 ^ k * 2 ^ c.F := by
      rw [← zpow_natCast, ← zpow_natCast, ← zpow_add₀ (by norm_num), ← zpow_add₀ (by norm_num), ← hk,
        show e + 2 - (c.F : ℤ) + c.F = e + 2 by ring, zpow_add₀ (by norm_num) _ 2]
      norm_num
    have e2 : (4 * u : ℚ) = (2 ^ c.F + f) * 2 ^ k := by
      have hq : (0 : ℚ) < 2 ^ c.F := by positivity
      apply mul_right_cancel₀ hp.ne'
      calc (4 * u : ℚ) * 2 ^ (ea + eb + 2 - c.F : ℤ) = 4 * (2 ^ e * (1 + (f : ℚ) / 2 ^ c.F)) := by rw [hm]; ring
        _ = (2 ^ e * 4) * (1 + (f : ℚ) / 2 ^ c.F) := by ring
        _ = _ := by rw [e1]; field_simp
    exact_mod_cast e2
  have h4 := pow_F4 (F := c.F) (by omega)
  have hfl2 : ⌊|p| / 2 ^ (e + 2 - c.F : ℤ)⌋₊ = 2 ^ (c.F - 2) + f / 4 := by
    rw [hk, zpow_add₀ (by norm_num), zpow_natCast, ← div_div]
    have := Nat.floor_div_natCast (|p| / 2 ^ (ea + eb + 2 - c.F : ℤ)) (2 ^ k)
    push_cast at this
    rw [this, hfl]
    rcases (by omega : k = 0 ∨ k = 1) with rfl | rfl <;> omega
  have hlo : (2 : ℚ) ^ e ≤ |p| := by
    refine le_trans ?_ hb1
    rw [← hm]; exact le_mag _ _ _
  refine ⟨hf, hlo, ?_, hfl2, ?_⟩
  · have hpp : (0 : ℚ) < 2 ^ (e + 2 - c.F : ℤ) := by positivity
    have := Nat.lt_floor_add_one (|p| / 2 ^ (e + 2 - c.F : ℤ))
    rw [hfl2, div_lt_iff₀ hpp] at this
    refine lt_of_lt_of_le this ?_
    have e3 : (2 : ℚ) ^ (e + 1) = 2 ^ (c.F - 1) * 2 ^ (e + 2 - c.F : ℤ) := by
      rw [← zpow_natCast, ← zpow_add₀ (by norm_num)]; congr 1; omega
    rw [e3]
    refine mul_le_mul_of_nonneg_right ?_ hpp.le
    have : 2 ^ (c.F - 2) + f / 4 + 1 ≤ 2 ^ (c.F - 1) := by
      have := two_pow_pred_nat (w := c.F - 1) (by omega)
      rw [show c.F - 1 - 1 = c.F - 2 by omega] at this
      omega
    exact_mod_cast this
  · have hpos : 0 < |p| := lt_of_lt_of_le hpe hlo
    rw [← hsg]
    cases xor (decide (a < 0)) (decide (b < 0))
    · simp
    · simp only [if_true, iff_true]; linarith

theorem normalized_shift (hF : 32 ≤ F) {s : Bool} {e : ℤ} (hin : ∀ k : ℕ, k < F → InS E (e - k)) :
    Unp.normalized F E ⟨.regular, s, e, 1⟩ = .error .shiftAmount := by
  have hk : clz F 1 = F - 1 := by
    have : Nat.log2 1 = 0 := by decide
    unfold clz; rw [this]; omega
  unfold Unp.normalized Unp.findLeft
  simp only [one_ne_zero, if_false, hk, bind, Except.bind]
  rw [arithS_ok' (hin (F - 1) (by omega))]
  simp only []
  unfold shlU
  rw [if_pos (Or.inr (by unfold pw; omega))]

/-- the outcome of the regular case of `operator+`, completely -/
theorem addRegular_exact (hF : F = 8 ∨ F = 16 ∨ F = 32 ∨ F = 64) (hE : 1 ≤ E) {sa sb : Bool} {ea eb : ℤ} {fa fb : ℕ} {x y : ℚ}
    (hx : Holds F sa ea fa x) (hy : Holds F sb eb fb y) (hd : |ea - eb| < pw F) (hr : AddRange E F ea eb) :
    (cutSum F x y = 0 → Unp.addRegular F E ⟨.regular, sa, ea, fa⟩ ⟨.regular, sb, eb, fb⟩ = .ok ⟨.zero, false, 0, 0⟩) ∧
    (32 ≤ F → |cutSum F x y| = sumUnit F x y →
      Unp.addRegular F E ⟨.regular, sa, ea, fa⟩ ⟨.regular, sb, eb, fb⟩ = .error .shiftAmount) ∧
    (cutSum F x y ≠ 0 → ¬ (32 ≤ F ∧ |cutSum F x y| = sumUnit F x y) → ∃ s e f,
      Unp.addRegular F E ⟨.regular, sa, ea, fa⟩ ⟨.regular, sb, eb, fb⟩ = .ok ⟨.regular, s, e, f⟩ ∧ f < 2 ^ F ∧
        cutSum F x y = (if s then -1 else 1) * mag F e f ∧ max ea eb + 1 - F < e ∧ e ≤ max ea eb + 1) := by
  have hF2 : 2 ≤ F := by omega
  obtain ⟨da, hda⟩ : ∃ d : ℕ, max ea eb = ea + d := ⟨(max ea eb - ea).toNat, by omega⟩
  obtain ⟨db, hdb⟩ : ∃ d : ℕ, max ea eb = eb + d := ⟨(max ea eb - eb).toNat, by omega⟩
  obtain ⟨s, heq, hs, hlt⟩ := addRegular_norm (sa := sa) (sb := sb) hF hE hx.lt hy.lt hd hr hda hdb
  have hu : sumUnit F x y = 2 ^ (max ea eb + 2 - F : ℤ) := by unfold sumUnit; rw [hx.log, hy.log]
  have hup : (0 : ℚ) < 2 ^ (max ea eb + 2 - F : ℤ) := by positivity
  have hc : cutSum F x y = ((sg sa * ((2 ^ (F - 2) + fa / 4) / 2 ^ da : ℕ) +
      sg sb * ((2 ^ (F - 2) + fb / 4) / 2 ^ db : ℕ) : ℤ) : ℚ) * 2 ^ (max ea eb + 2 - F : ℤ) := by
    unfold cutSum
    rw [hu, cutTo_eq hx.sign, cutTo_eq hy.sign, hx.shift hda, hy.shift hdb]
    push_cast; ring
  rw [hu, hc, heq]
  generalize sg sa * ((2 ^ (F - 2) + fa / 4) / 2 ^ da : ℕ) + sg sb * ((2 ^ (F - 2) + fb / 4) / 2 ^ db : ℕ) = S at *
  have hin : ∀ k : ℕ, k < F → InS E (max ea eb + 1 - k) := fun k hk => hr.2 _ (by omega) (by omega)
  refine ⟨fun h0 => ?_, fun h32 h1 => ?_, fun h0 h1 => ?_⟩
  · have : S = 0 := by
      rcases mul_eq_zero.mp h0 with h0 | h0
      · exact_mod_cast h0
      · exact absurd h0 hup.ne'
    subst this
    rfl
  · rw [abs_mul, abs_of_pos hup, mul_eq_right₀ hup.ne', ← Int.cast_abs] at h1
    have h1' : |S| = 1 := by exact_mod_cast h1
    have : S.natAbs = 1 := by rw [Int.abs_eq_natAbs] at h1'; omega
    rw [this]
    exact normalized_shift h32 hin
  · have hS0 : S ≠ 0 := by rintro rfl; simp at h0
    rw [abs_mul, abs_of_pos hup, mul_eq_right₀ hup.ne', ← Int.cast_abs] at h1
    have h1' : F < 32 ∨ 2 ≤ S.natAbs := by
      by_contra hcon
      push Not at hcon
      refine h1 ⟨hcon.1, ?_⟩
      have : |S| = 1 := by rw [Int.abs_eq_natAbs]; omega
      exact_mod_cast this
    obtain ⟨e, f, hn, hf, hm, he1, he2⟩ := normalized_eq (ty := .regular) (neg := s) hF hE (by omega : 1 ≤ S.natAbs) hlt h1'
      (e := max ea eb + 1) hin
    refine ⟨s, e, f, hn, hf, ?_, he1, he2⟩
    rw [hm, hs hS0, show max ea eb + 1 + 1 - (F : ℤ) = max ea eb + 2 - F by ring, ← mul_assoc]
    congr 1
    rcases lt_or_ge S 0 with hneg | hpos
    · have : ((S.natAbs : ℕ) : ℚ) = -S := by
        rw [Nat.cast_natAbs, abs_of_neg hneg]; push_cast; rfl
      simp [hneg, this]
    · have : ((S.natAbs : ℕ) : ℚ) = S := by
        rw [Nat.cast_natAbs, abs_of_nonneg hpos]
      simp [not_lt.mpr hpos, this]

/-- packing a regular number, completely -/
theorem pack_exact (h : c.WF) {s : Bool} {e : ℤ} {f : ℕ} (hf : f < 2 ^ c.F) {y : ℚ} (hy : y = (if s then -1 else 1) * mag c.F e f) :
    (c.SafeMag y → ∃ v, Posit.pack c ⟨.regular, s, e, f⟩ = .ok v ∧ c.fmt.IsTrunc y v) ∧
    (¬ c.SafeMag y → Posit.pack c ⟨.regular, s, e, f⟩ = .error .shiftAmount) := by
  have hp := mag_pos c.F e f
  have habs : |y| = mag c.F e f := by rw [hy]; exact abs_sign_mul s hp.le
  have h1 : (2 : ℚ) ^ e ≤ |y| := by rw [habs]; exact le_mag _ _ _
  have h2 : |y| < 2 ^ (e + 1) := by rw [habs]; exact mag_lt hf
  constructor
  · intro hs
    obtain ⟨p, hpk, ht⟩ := pack_regular h s hf (packSafe_of_safeMag hs h1 h2)
    exact ⟨_, hpk, by rw [hy]; exact Format.IsTrunc.of_sign s hp ht⟩
  · intro hs
    exact pack_regular_ub h s hf (fun hh => hs (safeMag_of_packSafe h1 h2 hh))

/-- an unpacked number that agrees with `x`, not above it in magnitude, except perhaps for the last two bits -/
inductive App (F : ℕ) : Unp → ℚ → Prop
  | zero : App F ⟨.zero, false, 0, 0⟩ 0
  | reg {s : Bool} {e : ℤ} {f : ℕ} {x : ℚ} (h : Holds F s e f x) (hm : mag F e f ≤ |x|) : App F ⟨.regular, s, e, f⟩ x

theorem App.of_eq (hF : 2 ≤ F) {s : Bool} {e : ℤ} {f : ℕ} {x : ℚ} (hf : f < 2 ^ F) (hx : x = (if s then -1 else 1) * mag F e f) :
    App F ⟨.regular, s, e, f⟩ x := by
  subst hx
  exact .reg (holds_mag hF hf) (abs_sign_mul s (mag_pos F e f).le).ge

theorem app_unpack (h : c.WF) {v : ℤ} (hv : c.fmt.IsReal v) :
    ∃ u, Posit.unpack c v = .ok u ∧ App c.F u (c.fmt.val v) ∧ |u.exp| ≤ c.maxScale := by
  by_cases h0 : v = 0
  · subst h0
    refine ⟨_, unpack_zero h, ?_, by simp⟩
    rw [Format.val_zero]; exact .zero
  · obtain ⟨e, f, hu⟩ := unpack_real h hv h0
    exact ⟨_, hu.eq, .reg (hu.holds h hv) hu.trunc, hu.e_abs h⟩

theorem App.neg (hF : 2 ≤ F) {u : Unp} {x : ℚ} (hu : App F u x) :
    App F (Unp.neg' u) (if x = 0 then -1 else -x) ∧ (Unp.neg' u).exp = u.exp := by
  cases hu with
  | zero =>
    rw [if_pos rfl]
    exact ⟨App.of_eq (s := true) (e := 0) hF (by positivity) (by simp [mag]), rfl⟩
  | @reg s e f _ hX hm =>
    rw [if_neg hX.ne]
    refine ⟨.reg ⟨hX.lt, by rw [abs_neg]; exact hX.lo, by rw [abs_neg]; exact hX.hi, by rw [abs_neg]; exact hX.fl, ?_⟩
      (by rw [abs_neg]; exact hm), rfl⟩
    have h1 := hX.sign
    have h2 := hX.ne
    rw [neg_lt_zero]
    cases s
    · simp only [Bool.false_eq_true, iff_false, not_lt, Bool.not_false, iff_true] at h1 ⊢
      exact lt_of_le_of_ne h1 (Ne.symm h2)
    · simp only [iff_true, Bool.not_true, Bool.false_eq_true, iff_false, not_lt] at h1 ⊢
      exact h1.le

theorem app_mul (h : c.WF) (hF : c.fb + 1 ≤ c.F) {a b : ℤ} (ha : c.fmt.IsReal a) (hb : c.fmt.IsReal b) :
    ∃ ua ub u, Posit.unpack c a = .ok ua ∧ Posit.unpack c b = .ok ub ∧ Unp.mul c.F c.E ua ub = .ok u ∧
      App c.F u (c.fmt.val a * c.fmt.val b) ∧ |u.exp| ≤ 2 * c.maxScale + 1 := by
  by_cases ha0 : a = 0
  · subst ha0
    rw [Format.val_zero, zero_mul]
    by_cases hb0 : b = 0
    · subst hb0
      exact ⟨_, _, _, unpack_zero h, unpack_zero h, rfl, .zero, by simp [Unp.ofTy]; omega⟩
    · obtain ⟨e, f, hu⟩ := unpack_real h hb hb0
      exact ⟨_, _, _, unpack_zero h, hu.eq, rfl, .zero, by simp [Unp.ofTy]; omega⟩
  · obtain ⟨ea, fa, hua⟩ := unpack_real h ha ha0
    by_cases hb0 : b = 0
    · subst hb0
      rw [Format.val_zero, mul_zero]
      exact ⟨_, _, _, hua.eq, unpack_zero h, rfl, .zero, by simp [Unp.ofTy]; omega⟩
    · obtain ⟨eb, fb, hub⟩ := unpack_real h hb hb0
      obtain ⟨e, f, u, Y, heq, hf, hu, hm, hy1, hy2, he⟩ := mul_unp h hF hua hub
      obtain ⟨e', f', heq', hh, he'⟩ := mul_holds h hF ha ha0 hb hb0 hua hub
      rw [heq] at heq'
      simp only [Except.ok.injEq, Unp.mk.injEq, true_and] at heq'
      obtain ⟨rfl, rfl⟩ := heq'
      exact ⟨_, _, _, hua.eq, hub.eq, heq, .reg hh (hm ▸ hy1), he'⟩

/-- `Unpacked::operator+` on zeros and regular numbers, completely -/
theorem app_add (hF : F = 8 ∨ F = 16 ∨ F = 32 ∨ F = 64) (hE : 1 ≤ E) {u w : Unp} {x y : ℚ} (hu : App F u x) (hw : App F w y)
    (hr : AddRange E F u.exp w.exp) :
    (SumOK F x y → ∃ r, Unp.add F E u w = .ok r ∧ App F r (alignedSum F x y) ∧
      (r = u ∨ r = w ∨ r.exp = 0 ∨ max u.exp w.exp + 1 - F < r.exp)) ∧
    (¬ SumOK F x y → Unp.add F E u w = .error .shiftAmount) := by
  cases hu with
  | zero =>
    refine ⟨fun _ => ⟨w, ?_, ?_, Or.inr (Or.inl rfl)⟩, fun hn => absurd (Or.inl rfl) hn⟩
    · cases hw <;> rfl
    · unfold alignedSum; rw [if_pos rfl]; exact hw
  | @reg sa ea fa _ hX hmx =>
    cases hw with
    | zero =>
      refine ⟨fun _ => ⟨_, rfl, ?_, Or.inl rfl⟩, fun hn => absurd (Or.inr (Or.inl rfl)) hn⟩
      unfold alignedSum; rw [if_neg hX.ne, if_pos rfl]; exact .reg hX hmx
    | @reg sb eb fb _ hY hmy =>
      have hal : alignedSum F x y = cutSum F x y := by unfold alignedSum; rw [if_neg hX.ne, if_neg hY.ne]
      rw [hal, add_unp]
      have hiff : SumOK F x y ↔ |ea - eb| < (pw F : ℤ) ∧ ¬ (32 ≤ F ∧ |cutSum F x y| = sumUnit F x y) := by
        unfold SumOK
        rw [hX.log, hY.log]
        simp [hX.ne, hY.ne]
      rw [hiff]
      constructor
      · rintro ⟨hd, hn⟩
        obtain ⟨h1, h2, h3⟩ := addRegular_exact hF hE hX hY hd hr
        by_cases h0 : cutSum F x y = 0
        · exact ⟨_, h1 h0, by rw [h0]; exact .zero, Or.inr (Or.inr (Or.inl rfl))⟩
        · obtain ⟨s, e, f, heq, hf, hc, he, -⟩ := h3 h0 hn
          exact ⟨_, heq, App.of_eq (by omega) hf hc, Or.inr (Or.inr (Or.inr he))⟩
      · intro hn
        by_cases hd : |ea - eb| < (pw F : ℤ)
        · have hh : 32 ≤ F ∧ |cutSum F x y| = sumUnit F x y := by
            by_contra hc; exact hn ⟨hd, hc⟩
          exact (addRegular_exact hF hE hX hY hd hr).2.1 hh.1 hh.2
        · exact addRegular_ub (by omega) hr

/-- packing a zero or regular number, completely -/
theorem app_pack (h : c.WF) (hF : c.fb + 2 ≤ c.F) {u : Unp} {x : ℚ} (hu : App c.F u x) :
    (x = 0 ∨ c.SafeMag x → ∃ v, Posit.pack c u = .ok v ∧ c.fmt.IsCut0 x v) ∧
    (¬ (x = 0 ∨ c.SafeMag x) → Posit.pack c u = .error .shiftAmount) := by
  cases hu with
  | zero => exact ⟨fun _ => ⟨0, rfl, Or.inl ⟨rfl, rfl⟩⟩, fun hn => absurd (Or.inl rfl) hn⟩
  | @reg s e f _ hX hm =>
    have hx0 := hX.ne
    refine ⟨fun hs => ?_, fun hn => pack_regular_ub h s hX.lt (fun hh => hn (Or.inr (safeMag_of_packSafe hX.lo hX.hi hh)))⟩
    obtain ⟨p, hp, ht⟩ := pack_regular h s hX.lt (packSafe_of_safeMag (hs.resolve_left hx0) hX.lo hX.hi)
    refine ⟨_, hp, Or.inr ?_⟩
    have hpp : (0 : ℚ) < 2 ^ (e + 2 - c.F : ℤ) := by positivity
    have h1 := Nat.lt_floor_add_one (|x| / 2 ^ (e + 2 - c.F : ℤ))
    rw [hX.fl, div_lt_iff₀ hpp] at h1
    have ht' : c.fmt.TruncB |x| p := by
      refine ht.congr fun q hq1 hq2 => ⟨fun hq => hq.trans hm, fun hq => ?_⟩
      by_contra hc
      have hml := Format.maxBody_lt c.fmt
      have hgap := no_posit_between h hq1 (lt_of_le_of_lt hq2 hml) (u := 2 ^ (c.F - 2) + f / 4) (Y := e + 2 - c.F)
        (le_trans (Nat.pow_le_pow_right (by norm_num) (by omega)) (Nat.le_add_right _ _)) ?_
      · simp only [fmt_N, fmt_es] at hq
        linarith
      · have h4 := pow_F4 (F := c.F) (by omega)
        refine lt_of_le_of_lt ?_ (not_le.mp hc)
        have e1 : (2 : ℚ) ^ e * (1 + (f : ℚ) / 2 ^ c.F) = ((2 ^ c.F + f : ℕ) : ℚ) / 4 * 2 ^ (e + 2 - c.F : ℤ) := by
          rw [show e + 2 - (c.F : ℤ) = e - c.F + 2 by ring, zpow_add₀ (by norm_num) _ 2, zpow_sub₀ (by norm_num), zpow_natCast]
          push_cast; field_simp
        rw [e1]
        refine mul_le_mul_of_nonneg_right ?_ hpp.le
        rw [le_div_iff₀ (by norm_num)]
        have : (2 ^ (c.F - 2) + f / 4) * 4 ≤ 2 ^ c.F + f := by omega
        exact_mod_cast this
    have hsg : (if s then -1 else 1 : ℚ) * |x| = x := by
      cases hs' : s
      · rw [abs_of_nonneg (not_lt.mp (fun hh => by have := hX.sign.mp hh; rw [hs'] at this; cases this))]; simp
      · rw [abs_of_neg (hX.sign.mpr hs')]; simp
    have := Format.IsTrunc.of_sign s (abs_pos.mpr hx0) ht'
    rwa [hsg] at this

/-- the packed sum of two unpacked numbers, completely -/
theorem app_add_pack (h : c.WF) (hF : c.fb + 2 ≤ c.F) {u w : Unp} {x y : ℚ} (hu : App c.F u x) (hw : App c.F w y)
    (hr : AddRange c.E c.F u.exp w.exp) :
    (SumOK c.F x y ∧ (alignedSum c.F x y = 0 ∨ c.SafeMag (alignedSum c.F x y)) →
      ∃ v, (do let r ← Unp.add c.F c.E u w; Posit.pack c r) = .ok v ∧ c.fmt.IsCut0 (alignedSum c.F x y) v) ∧
    (¬ (SumOK c.F x y ∧ (alignedSum c.F x y = 0 ∨ c.SafeMag (alignedSum c.F x y))) →
      (do let r ← Unp.add c.F c.E u w; Posit.pack c r) = .error .shiftAmount) := by
  have hE := E_ge h
  obtain ⟨h1, h2⟩ := app_add h.hF (by omega : 1 ≤ c.E) hu hw hr
  constructor
  · rintro ⟨ho, hs⟩
    obtain ⟨r, hr, hd, -⟩ := h1 ho
    rw [hr]
    exact (app_pack h hF hd).1 hs
  · intro hn
    by_cases ho : SumOK c.F x y
    · obtain ⟨r, hr, hd, -⟩ := h1 ho
      rw [hr]
      exact (app_pack h hF hd).2 (fun hs => hn ⟨ho, hs⟩)
    · rw [h2 ho]; rfl

/-- the exponents met when two products of posits are added -/
theorem addRange_products (h : c.WF) {ea eb : ℤ} (ha : |ea| ≤ 2 * c.maxScale + 1) (hb : |eb| ≤ 2 * c.maxScale + 1) :
    AddRange c.E c.F ea eb := by
  have hF := F_le h
  have hM := maxScale_bound h
  have hp := maxScale_pos h
  have hE : (8 : ℤ) * 16 ≤ 2 ^ (c.E - 1) := by
    have := E_ge h
    calc (8 : ℤ) * 16 = 2 ^ 7 := by norm_num
      _ ≤ 2 ^ (c.E - 1) := pow_le_pow_right₀ (by norm_num) (by omega)
  rw [abs_le] at ha hb
  refine ⟨?_, fun x h1 h2 => inS_wide h (by rw [abs_le]; omega)⟩
  unfold InS; omega

/-! ## dot -/

theorem abs_cutTo_le {u x : ℚ} (hu : 0 < u) : |cutTo u x| ≤ |x| := by
  unfold cutTo
  have h1 := Nat.floor_le (div_nonneg (abs_nonneg x) hu.le)
  rw [le_div_iff₀ hu] at h1
  have h2 : (0 : ℚ) ≤ ⌊|x| / u⌋₊ * u := by positivity
  rw [abs_mul, abs_of_nonneg h2]
  split_ifs <;> simpa using h1

theorem abs_alignedSum_le (F : ℕ) (x y : ℚ) : |alignedSum F x y| ≤ |x| + |y| := by
  unfold alignedSum
  have hu : (0 : ℚ) < sumUnit F x y := by unfold sumUnit; positivity
  split_ifs with h1 h2
  · have := abs_nonneg x; linarith
  · have := abs_nonneg y; linarith
  · unfold cutSum
    exact (abs_add_le _ _).trans (add_le_add (abs_cutTo_le hu) (abs_cutTo_le hu))

theorem abs_product_le (h : c.WF) {a b : ℤ} (ha : c.fmt.IsReal a) (hb : c.fmt.IsReal b) :
    |c.fmt.val a * c.fmt.val b| ≤ 2 ^ (2 * (c.maxScale : ℤ) + 2) := by
  have key : ∀ {v : ℤ}, c.fmt.IsReal v → |c.fmt.val v| ≤ 2 ^ ((c.maxScale : ℤ) + 1) := by
    intro v hv
    by_cases h0 : v = 0
    · subst h0; rw [Format.val_zero, abs_zero]; positivity
    · obtain ⟨e, f, hu⟩ := unpack_real h hv h0
      have := hu.e_abs h
      rw [abs_le] at this
      exact hu.upper.le.trans (zpow_le_zpow_right₀ (by norm_num) (by omega))
  rw [abs_mul, show 2 * (c.maxScale : ℤ) + 2 = (c.maxScale + 1) + (c.maxScale + 1) by ring, zpow_add₀ (by norm_num)]
  exact mul_le_mul (key ha) (key hb) (abs_nonneg _) (by positivity)

/-- the accumulator of `dot` after some terms, completely -/
theorem app_dotLoop (h : c.WF) (hF : c.fb + 1 ≤ c.F) : ∀ (l : List (ℤ × ℤ)) (acc : Unp) (s : ℚ) (n : ℕ),
    (∀ p ∈ l, c.fmt.IsReal p.1 ∧ c.fmt.IsReal p.2) → App c.F acc s → -(2 * c.maxScale + c.F : ℤ) < acc.exp →
    |s| ≤ n * 2 ^ (2 * (c.maxScale : ℤ) + 2) → n + l.length < 2 ^ 60 →
    (FoldOK c.F s (l.map fun p => c.fmt.val p.1 * c.fmt.val p.2) →
      ∃ r, Posit.dotLoop c acc l = .ok r ∧ App c.F r ((l.map fun p => c.fmt.val p.1 * c.fmt.val p.2).foldl (alignedSum c.F) s)) ∧
    (¬ FoldOK c.F s (l.map fun p => c.fmt.val p.1 * c.fmt.val p.2) → Posit.dotLoop c acc l = .error .shiftAmount)
  | [], acc, s, n, _, hd, _, _, _ => ⟨fun _ => ⟨acc, rfl, hd⟩, fun hn => absurd trivial hn⟩
  | (a, b) :: l, acc, s, n, hreal, hd, he, hs, hn => by
    obtain ⟨ha, hb⟩ := hreal (a, b) (by simp)
    obtain ⟨ua, ub, m, h1, h2, h3, h4, h5⟩ := app_mul h hF ha hb
    have hF64 := F_le h
    have hF8 := h.F_pos
    have hM := maxScale_bound h
    have hE := E_ge h
    have hE1 : (128 : ℤ) ≤ 2 ^ (c.E - 1) := by
      calc (128 : ℤ) = 2 ^ 7 := by norm_num
        _ ≤ 2 ^ (c.E - 1) := pow_le_pow_right₀ (by norm_num) (by omega)
    rw [List.length_cons] at hn
    have hhi : acc.exp ≤ 2 * c.maxScale + 62 := by
      cases hd with
      | zero => simp only []; omega
      | @reg s' e f _ hX _ =>
        have e1 : (2 : ℚ) ^ e < 2 ^ (2 * (c.maxScale : ℤ) + 62) := by
          have e2 : (n : ℚ) < 2 ^ 60 := by exact_mod_cast (by omega : n < 2 ^ 60)
          have e3 : (0 : ℚ) < 2 ^ (2 * (c.maxScale : ℤ) + 2) := by positivity
          refine lt_of_le_of_lt (hX.lo.trans hs) ?_
          rw [show 2 * (c.maxScale : ℤ) + 62 = (60 : ℕ) + (2 * c.maxScale + 2) by push_cast; ring, zpow_add₀ (a := (2 : ℚ)) (by norm_num) ((60 : ℕ) : ℤ), zpow_natCast]
          exact mul_lt_mul_of_pos_right e2 e3
        have := (zpow_lt_zpow_iff_right₀ (by norm_num : (1 : ℚ) < 2)).mp e1
        simp only []; omega
    have h5' := abs_le.mp h5
    have hr : AddRange c.E c.F acc.exp m.exp := by
      refine ⟨?_, fun x k1 k2 => ?_⟩ <;> unfold InS <;> omega
    obtain ⟨g1, g2⟩ := app_add h.hF (by omega : 1 ≤ c.E) hd h4 hr
    have hstep : ∀ r, Unp.add c.F c.E acc m = r → Posit.dotLoop c acc ((a, b) :: l) = r.bind fun t => Posit.dotLoop c t l := by
      intro r hr
      rw [Posit.dotLoop, h1, h2]
      simp only [bind, Except.bind]
      rw [h3]
      simp only []
      rw [hr]
    by_cases ho : SumOK c.F s (c.fmt.val a * c.fmt.val b)
    · obtain ⟨r, hr, hdr, her⟩ := g1 ho
      rw [hstep _ hr]
      have her' : -(2 * c.maxScale + c.F : ℤ) < r.exp := by
        rcases her with rfl | rfl | her | her
        · exact he
        · omega
        · omega
        · omega
      have hs' : |alignedSum c.F s (c.fmt.val a * c.fmt.val b)| ≤ ((n + 1 : ℕ) : ℚ) * 2 ^ (2 * (c.maxScale : ℤ) + 2) := by
        have := abs_alignedSum_le c.F s (c.fmt.val a * c.fmt.val b)
        have := abs_product_le h ha hb
        push_cast
        linarith
      have := app_dotLoop h hF l r _ (n + 1) (fun p hp => hreal p (by simp [hp])) hdr her' hs' (by omega)
      refine ⟨fun hok => this.1 hok.2, fun hno => this.2 (fun hok => hno ⟨ho, hok⟩)⟩
    · rw [hstep _ (g2 ho)]
      exact ⟨fun hok => absurd hok.1 ho, fun _ => rfl⟩

/-- `operator+` of posits on two nonzero reals, completely -/
theorem add_real_exact (h : c.WF) {a b : ℤ} (ha : c.fmt.IsReal a) (ha0 : a ≠ 0) (hb : c.fmt.IsReal b) (hb0 : b ≠ 0)
    (hd : |c.fmt.scale a - c.fmt.scale b| < pw c.F) :
    (cutSum c.F (c.fmt.val a) (c.fmt.val b) = 0 → Posit.add c a b = .ok 0) ∧
    (32 ≤ c.F → |cutSum c.F (c.fmt.val a) (c.fmt.val b)| = sumUnit c.F (c.fmt.val a) (c.fmt.val b) →
      Posit.add c a b = .error .shiftAmount) ∧
    (cutSum c.F (c.fmt.val a) (c.fmt.val b) ≠ 0 →
      ¬ (32 ≤ c.F ∧ |cutSum c.F (c.fmt.val a) (c.fmt.val b)| = sumUnit c.F (c.fmt.val a) (c.fmt.val b)) →
      (c.SafeMag (cutSum c.F (c.fmt.val a) (c.fmt.val b)) →
        ∃ v, Posit.add c a b = .ok v ∧ c.fmt.IsTrunc (cutSum c.F (c.fmt.val a) (c.fmt.val b)) v) ∧
      (¬ c.SafeMag (cutSum c.F (c.fmt.val a) (c.fmt.val b)) → Posit.add c a b = .error .shiftAmount)) := by
  obtain ⟨ea, fa, hua⟩ := unpack_real h ha ha0
  obtain ⟨eb, fb, hub⟩ := unpack_real h hb hb0
  unfold Format.scale at hd
  rw [hua.log, hub.log] at hd
  have hE := E_ge h
  rw [add_unfold ha0 hb0 hua hub]
  obtain ⟨h1, h2, h3⟩ := addRegular_exact h.hF (by omega) (hua.holds h ha) (hub.holds h hb) hd (unpacks_addRange h hua hub)
  refine ⟨fun h0 => ?_, fun h32 hh => ?_, fun h0 hh => ?_⟩
  · rw [h1 h0]; rfl
  · rw [h2 h32 hh]; rfl
  · obtain ⟨s, e, f, heq, hf, hc, -, -⟩ := h3 h0 hh
    rw [heq]
    exact pack_exact h hf hc

theorem isTrunc_self {v : ℤ} (hv : c.fmt.IsReal v) (h0 : v ≠ 0) : c.fmt.IsTrunc (c.fmt.val v) v := by
  refine ⟨hv, ?_, fun w _ _ hw => hw, Or.inl le_rfl⟩
  rcases lt_or_gt_of_ne h0 with hn | hp
  · exact Or.inr ⟨hn, (Format.val_neg_iff hv.inRange).mpr hn⟩
  · refine Or.inl ⟨hp, ?_⟩
    have := (Format.val_neg_iff (v := -v) hv.neg.inRange).mpr (by omega)
    rw [Format.val_neg] at this
    linarith

theorem isCut0_self {v : ℤ} (hv : c.fmt.IsReal v) : c.fmt.IsCut0 (c.fmt.val v) v := by
  by_cases h0 : v = 0
  · subst h0; exact Or.inl ⟨Format.val_zero, rfl⟩
  · exact Or.inr (isTrunc_self hv h0)

/-- a number whose fraction field ends in two zeros is a multiple of the adder's last place -/
theorem Den.exact (hF : 2 ≤ F) {k : ℕ} (hk : 2 ≤ k) {u : Unp} {x : ℚ} (hu : Den F k u x) (hx : x ≠ 0) :
    cutTo (2 ^ (Int.log 2 |x| + 2 - F : ℤ)) x = x := by
  rcases hu.cases with ⟨-, h0⟩ | ⟨s, e, f, -, hf, hd, hx, hax, -⟩
  · exact absurd h0 hx
  · have h4 : 4 ∣ f := Dvd.dvd.trans (pow_dvd_pow 2 hk) hd
    have hX : Holds F s e f x := by rw [hx]; exact holds_mag hF hf
    rw [hX.log, cutTo_eq hX.sign, hX.fl]
    rw [hx, mag_quarter hF h4]
    generalize 2 ^ (F - 2) + f / 4 = m
    unfold sg
    cases s <;> simp

theorem alignedSum_mono (hF : 2 ≤ F) {x x' y : ℚ} (hy : y ≠ 0 → cutTo (2 ^ (Int.log 2 |y| + 2 - F : ℤ)) y = y) (h : x ≤ x') :
    alignedSum F x y ≤ alignedSum F x' y := by
  unfold alignedSum
  by_cases hy0 : y = 0
  · subst hy0
    by_cases h1 : x = 0 <;> by_cases h2 : x' = 0 <;> simp [h1, h2] <;> first | (subst h1; exact h) | (subst h2; exact h) | exact h
  · by_cases h1 : x = 0
    · by_cases h2 : x' = 0
      · simp [h1, h2]
      · rw [if_pos h1, if_neg h2, if_neg hy0]
        refine cutSum_pos hF (lt_of_le_of_ne (by rw [← h1]; exact h) (Ne.symm h2)) hy0 (hy hy0)
    · by_cases h2 : x' = 0
      · rw [if_neg h1, if_neg hy0, if_pos h2]
        have := cutSum_pos hF (x := -x) (y := -y) (by have := lt_of_le_of_ne (h2 ▸ h) h1; linarith) (neg_ne_zero.mpr hy0)
          (by rw [abs_neg, cutTo_neg, hy hy0])
        rw [cutSum_neg] at this
        linarith
      · rw [if_neg h1, if_neg h2, if_neg hy0, if_neg hy0]
        exact cutSum_mono hF h1 h2 h

theorem alignedSum_comm (F : ℕ) (x y : ℚ) : alignedSum F x y = alignedSum F y x := by
  unfold alignedSum
  by_cases h1 : x = 0 <;> by_cases h2 : y = 0 <;> simp [h1, h2, cutSum_comm F x y]

end Verif
