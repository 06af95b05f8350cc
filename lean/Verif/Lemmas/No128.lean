import Verif.Lemmas.NarrowFrac
import Verif.Model.No128
import Verif.Props.U128
import Verif.Spec.No128

/-! # Products and quotients that lose their fraction -/

namespace Verif
open Fmt

variable {c : Cfg} {E : ℕ}

theorem lead_mul {s : Bool} {x : ℚ} (hx : 0 < x) {e : ℤ} (h1 : 2 ^ e ≤ x) (h2 : x < 2 ^ (e + 1)) : lead (sq s * x) = sq s * 2 ^ e := by
  have hl : Int.log 2 x = e := by
    refine le_antisymm ?_ ?_
    · have := (Int.lt_zpow_iff_log_lt (b := 2) (x := e + 1) (by norm_num) hx).mp (by exact_mod_cast h2)
      omega
    · exact (Int.zpow_le_iff_le_log (b := 2) (x := e) (by norm_num) hx).mp (by exact_mod_cast h1)
  unfold lead
  rw [if_neg (mul_ne_zero (sq_ne s) hx.ne'), abs_sq s hx.le, hl]
  simp only [sq_neg_iff s hx]
  rfl

theorem val_sign {v : ℤ} (hv : c.fmt.IsReal v) : c.fmt.val v = sq (decide (v < 0)) * |c.fmt.val v| := by
  by_cases hn : v < 0
  · rw [abs_of_neg ((Format.val_neg_iff hv.inRange).mpr hn)]; simp [sq, hn]
  · have : 0 ≤ c.fmt.val v := not_lt.mp fun hh => hn ((Format.val_neg_iff hv.inRange).mp hh)
    rw [abs_of_nonneg this]; simp [sq, hn]

theorem lead_zero : lead 0 = 0 := by simp [lead]

theorem abs_lead {x : ℚ} (hx : x ≠ 0) : |lead x| = 2 ^ (Int.log 2 |x|) := by
  unfold lead
  rw [if_neg hx, abs_mul, abs_of_pos (show (0 : ℚ) < 2 ^ (Int.log 2 |x|) by positivity)]
  split_ifs <;> simp

theorem abs_lead_le (x : ℚ) : |lead x| ≤ |x| := by
  by_cases hx : x = 0
  · rw [hx, lead_zero]
  rw [abs_lead hx]
  have := Int.zpow_log_le_self (b := 2) (by norm_num) (abs_pos.mpr hx)
  exact_mod_cast this

theorem lt_abs_lead {x : ℚ} (hx : x ≠ 0) : |x| < 2 * |lead x| := by
  rw [abs_lead hx]
  have := Int.lt_zpow_succ_log_self (b := 2) (by norm_num) |x|
  rw [zpow_add_one₀ (by norm_num)] at this
  push_cast at this
  linarith

theorem lead_pow (s : Bool) (e : ℤ) : lead (sq s * 2 ^ e) = sq s * 2 ^ e :=
  lead_mul (by positivity) le_rfl (zpow_lt_zpow_right₀ (by norm_num) (by omega))

theorem shl_one_zero : U128.shl ⟨0, 0⟩ 1 = .ok ⟨0, 0⟩ := by decide +kernel

theorem shr_word (l : ℕ) : U128.shr ⟨0, l⟩ 64 = .ok ⟨0, 0⟩ := by
  unfold U128.shr
  rw [if_pos (by norm_num)]
  rfl

/-- the product of two regular numbers is a power of two -/
theorem no_mulRegular {a b : Unp} (hE : 1 ≤ E) (h1 : InS E (a.exp + b.exp)) :
    No128.mulRegular E a b = .ok ⟨.regular, xor a.neg b.neg, a.exp + b.exp, 0⟩ := by
  unfold No128.mulRegular Generic.extramul
  simp only [shr_word]
  simp only [bind, Except.bind, U128.toU64, Nat.zero_and, decide_true, No128.adjust, if_true]
  rw [shl_one_zero]
  simp only []
  rw [arithS_ok' h1]
  simp only [add_zero]
  rw [arithS_ok' h1]
  simp only []
  rw [shl_one_zero]
  simp only [pure, Except.pure, Unp.mk3, Nat.zero_mod]
  rw [wrapS_of_inS hE h1]

theorem no_fracDiv {a b : ℕ} (hb : b ≠ 0) : No128.fracDiv a b = .ok ⟨0, 0⟩ := by
  unfold No128.fracDiv U128.shl
  rw [if_pos (by norm_num)]
  have : shlU 64 a (64 - 64) = .ok (a % 2 ^ 64) := by
    have := shlU64 (x := a) (n := 0) (by norm_num)
    simpa using this
  rw [this]
  simp [bind, Except.bind, Generic.extradiv, hb, U128.toU64, pure, Except.pure]

theorem no_divRegular {a b : Unp} (hE : 1 ≤ E) (ha : a.frac < 2 ^ 64) (hb : b.frac < 2 ^ 64) (h2a : 2 ∣ a.frac) (h2b : 2 ∣ b.frac)
    (h1 : InS E (a.exp - b.exp)) (h2 : InS E (a.exp - b.exp - 1)) :
    No128.divRegular E a b = .ok ⟨.regular, xor a.neg b.neg, a.exp - b.exp + (if a.frac < b.frac then -1 else 0), 0⟩ := by
  unfold No128.divRegular
  rw [mant1 (by norm_num) ha, mant1 (by norm_num) hb]
  simp only [bind, Except.bind]
  rw [arithS_ok' h1]
  simp only []
  have hc : (2 ^ (64 - 1) + a.frac / 2 < 2 ^ (64 - 1) + b.frac / 2) ↔ a.frac < b.frac := by omega
  have h3 : InS E (a.exp - b.exp + (if a.frac < b.frac then -1 else 0)) := by
    split_ifs
    · exact h2
    · simpa using h1
  simp only [hc]
  rw [arithS_ok' h3]
  simp only []
  rw [no_fracDiv (by split_ifs <;> [(rw [Nat.shiftRight_eq_div_pow]; omega); omega])]
  simp only [pure, Except.pure, Unp.mk3, U128.toU64, Nat.zero_mod]
  rw [wrapS_of_inS hE h3]

theorem fb_le (h : c.WF) : c.fb + 2 ≤ 64 := by
  have := h.hN
  have := h.hH
  have := h.h64
  unfold Cfg.fb
  omega

/-- products of decoded posits -/
theorem no_mul (h : c.WF) {a b : ℤ} (ha : c.fmt.IsReal a) (hb : c.fmt.IsReal b) :
    ∃ ua ub u, Posit.unpack c a = .ok ua ∧ Posit.unpack c b = .ok ub ∧ No128.umul c.E ua ub = .ok u ∧
      IsNum c.F u (lead (c.fmt.val a) * lead (c.fmt.val b)) ∧ |u.exp| ≤ 2 * c.maxScale + 1 ∧
      (a ≠ 0 → b ≠ 0 → u.IsReg c.F) := by
  by_cases ha0 : a = 0
  · obtain ⟨ub, b1, -, b3, b4, b5⟩ := isNum_unpack h hb
    subst ha0
    rw [Format.val_zero, lead_zero, zero_mul]
    refine ⟨_, _, ⟨.zero, false, 0, 0⟩, unpack_zero h, b1, ?_, .zero, by simp; omega, fun hh => absurd rfl hh⟩
    by_cases hb0 : b = 0
    · rw [b4 hb0]; rfl
    · rw [reg_eq (b5 hb0).1]; rfl
  by_cases hb0 : b = 0
  · obtain ⟨ua, a1, -, a3, a4, a5⟩ := isNum_unpack h ha
    subst hb0
    rw [Format.val_zero, lead_zero, mul_zero]
    refine ⟨_, _, ⟨.zero, false, 0, 0⟩, a1, unpack_zero h, ?_, .zero, by simp; omega, fun _ hh => absurd rfl hh⟩
    rw [reg_eq (a5 ha0).1]; rfl
  obtain ⟨e, f, hu⟩ := unpack_real h ha ha0
  obtain ⟨e', f', hu'⟩ := unpack_real h hb hb0
  have hx := abs_le.mp (hu.e_abs h)
  have hy := abs_le.mp (hu'.e_abs h)
  have hE := E_ge h
  have i1 : InS c.E (e + e') := inS_wide h (by rw [abs_le]; omega)
  have hreg : (⟨.regular, xor (decide (a < 0)) (decide (b < 0)), e + e', 0⟩ : Unp).IsReg c.F := ⟨rfl, by positivity⟩
  refine ⟨_, _, ⟨.regular, xor (decide (a < 0)) (decide (b < 0)), e + e', 0⟩, hu.eq, hu'.eq, ?_, ?_, ?_, fun _ _ => hreg⟩
  · unfold No128.umul
    simp only [reduceCtorEq, or_self, if_false]
    exact no_mulRegular (by omega) i1
  · have := IsNum.reg hreg
    rw [val_eq] at this
    simp only [mag_zero, sq_xor] at this
    have l1 : lead (c.fmt.val a) = sq (decide (a < 0)) * 2 ^ e := by
      rw [val_sign ha]
      exact lead_mul (lt_of_lt_of_le (by positivity) hu.lower) hu.lower hu.upper
    have l2 : lead (c.fmt.val b) = sq (decide (b < 0)) * 2 ^ e' := by
      rw [val_sign hb]
      exact lead_mul (lt_of_lt_of_le (by positivity) hu'.lower) hu'.lower hu'.upper
    rw [l1, l2]
    rw [zpow_add₀ (by norm_num)] at this
    convert this using 1
    ring
  · rw [abs_le]; simp only []; omega

/-- quotients of decoded posits -/
theorem no_div (h : c.WF) {s t : Bool} {e e' : ℤ} {f f' : ℕ} {x y : ℚ} (he : |e| ≤ c.maxScale) (he' : |e'| ≤ c.maxScale)
    (hf : f < 2 ^ 64) (hf' : f' < 2 ^ 64) (h2 : 2 ∣ f) (h2' : 2 ∣ f') (hx : x = sq s * mag 64 e f) (hy : y = sq t * mag 64 e' f') :
    ∃ u, No128.divRegular c.E ⟨.regular, s, e, f⟩ ⟨.regular, t, e', f'⟩ = .ok u ∧ u.IsReg c.F ∧ u.val c.F = lead (x / y) := by
  have hE := E_ge h
  have hx' := abs_le.mp he
  have hy' := abs_le.mp he'
  have i1 : InS c.E (e - e') := inS_wide h (by rw [abs_le]; omega)
  have i2 : InS c.E (e - e' - 1) := inS_wide h (by rw [abs_le]; omega)
  refine ⟨_, no_divRegular (by omega) hf hf' h2 h2' i1 i2, ⟨rfl, by positivity⟩, ?_⟩
  rw [val_eq]
  simp only [mag_zero, sq_xor]
  have hq : x / y = sq (xor s t) * (mag 64 e f / mag 64 e' f') := by
    rw [hx, hy, sq_xor, mul_div_mul_comm]
    congr 1
    cases s <;> cases t <;> simp [sq]
  have hp := mag_pos 64 e f
  have hp' := mag_pos 64 e' f'
  have hm : mag 64 e f / mag 64 e' f' = 2 ^ (e - e') * ((2 ^ 64 + f) / (2 ^ 64 + f')) := by
    unfold mag
    rw [zpow_sub₀ (by norm_num)]
    field_simp
  have hf1 : (f : ℚ) < 2 ^ 64 := by exact_mod_cast hf
  have hf2 : (f' : ℚ) < 2 ^ 64 := by exact_mod_cast hf'
  have f0 : (0 : ℚ) ≤ f := by positivity
  have f0' : (0 : ℚ) ≤ f' := by positivity
  have hpos : (0 : ℚ) < 2 ^ (e - e') := by positivity
  rw [hq, lead_mul (e := e - e' + (if f < f' then -1 else 0)) (div_pos hp hp'), sq_xor]
  · rw [hm]
    split_ifs with hlt
    · have : (f : ℚ) < f' := by exact_mod_cast hlt
      rw [← sub_eq_add_neg, zpow_sub_one₀ (by norm_num)]
      refine mul_le_mul_of_nonneg_left ?_ hpos.le
      rw [le_div_iff₀ (by positivity)]
      linarith
    · have : (f' : ℚ) ≤ f := by exact_mod_cast not_lt.mp hlt
      rw [add_zero]
      refine le_mul_of_one_le_right hpos.le ?_
      rw [le_div_iff₀ (by positivity)]
      linarith
  · rw [hm]
    split_ifs with hlt
    · have : (f : ℚ) < f' := by exact_mod_cast hlt
      rw [show e - e' + -1 + 1 = e - e' by ring]
      refine mul_lt_of_lt_one_right hpos ?_
      rw [div_lt_one (by positivity)]
      linarith
    · rw [add_zero, zpow_add_one₀ (by norm_num)]
      refine mul_lt_mul_of_pos_left ?_ hpos
      rw [div_lt_iff₀ (by positivity)]
      linarith

theorem uinv_eq {s : Bool} {e : ℤ} {f : ℕ} (hf : f < 2 ^ 64) (h2 : 2 ∣ f) (h0 : f ≠ 0) :
    No128.uinv E ⟨.regular, s, e, f⟩ = No128.divRegular E ⟨.regular, false, 0, 0⟩ ⟨.regular, s, e, f⟩ := by
  unfold No128.uinv No128.divRegular No128.invExp
  have hm : Unp.leftmost 64 ||| (0 : ℕ) >>> 1 = Unp.leftmost 64 := by decide +kernel
  have hl : Unp.leftmost 64 < Unp.leftmost 64 ||| f >>> 1 := by
    rw [mant1 (by norm_num) hf]
    unfold Unp.leftmost
    omega
  simp only [hm, hl, h0, if_false, if_true, decide_true, zero_sub, Bool.false_xor, bind, Except.bind, ← sub_eq_add_neg]
  cases arithS E (-e) <;> rfl

theorem isNum_unpack_exact (h : c.WF) (hF : c.F = 64) {v : ℤ} (hv : c.fmt.IsReal v) :
    ∃ u, Posit.unpack c v = .ok u ∧ IsNum c.F u (c.fmt.val v) ∧ |u.exp| ≤ c.maxScale := by
  by_cases h0 : v = 0
  · subst h0
    refine ⟨_, unpack_zero h, ?_, by simp⟩
    rw [Format.val_zero]; exact .zero
  · obtain ⟨e, f, hu⟩ := unpack_real h hv h0
    have hreg : (⟨.regular, v < 0, e, f⟩ : Unp).IsReg c.F := ⟨rfl, hu.f_lt⟩
    refine ⟨_, hu.eq, ?_, hu.e_abs h⟩
    have := IsNum.reg hreg
    rw [val_eq] at this
    rw [val_sign hv, hu.val (by have := fb_le h; omega)]
    exact this

theorem abs_leads_le (h : c.WF) {a b : ℤ} (ha : c.fmt.IsReal a) (hb : c.fmt.IsReal b) :
    |lead (c.fmt.val a) * lead (c.fmt.val b)| ≤ 2 ^ (2 * (c.maxScale : ℤ) + 2) := by
  refine le_trans ?_ (abs_product_le h ha hb)
  rw [abs_mul, abs_mul]
  exact mul_le_mul (abs_lead_le _) (abs_lead_le _) (abs_nonneg _) (abs_nonneg _)

/-- the accumulator of `dot` after some terms -/
theorem no_dotLoop (h : c.WF) : ∀ (l : List (ℤ × ℤ)) (acc : Unp) (s : ℚ) (n : ℕ),
    (∀ p ∈ l, c.fmt.IsReal p.1 ∧ c.fmt.IsReal p.2) → IsNum c.F acc s → -(2 * c.maxScale + c.F : ℤ) < acc.exp →
    |s| ≤ n * 2 ^ (2 * (c.maxScale : ℤ) + 2) → n + l.length < 2 ^ 60 →
    (FoldOK c.F s (l.map fun p => lead (c.fmt.val p.1) * lead (c.fmt.val p.2)) →
      ∃ r, No128.dotLoop c acc l = .ok r ∧
        IsNum c.F r ((l.map fun p => lead (c.fmt.val p.1) * lead (c.fmt.val p.2)).foldl (alignedSum c.F) s)) ∧
    (¬ FoldOK c.F s (l.map fun p => lead (c.fmt.val p.1) * lead (c.fmt.val p.2)) → No128.dotLoop c acc l = .error .shiftAmount)
  | [], acc, s, n, _, hd, _, _, _ => ⟨fun _ => ⟨acc, rfl, hd⟩, fun hn => absurd trivial hn⟩
  | (a, b) :: l, acc, s, n, hreal, hd, he, hs, hn => by
    obtain ⟨ha, hb⟩ := hreal (a, b) (by simp)
    obtain ⟨ua, ub, m, h1, h2, h3, h4, h5, -⟩ := no_mul h ha hb
    have hF64 := F_le h
    have hF8 := h.F_pos
    have hM := maxScale_bound h
    have hE := E_ge h
    have hE1 : (128 : ℤ) ≤ 2 ^ (c.E - 1) := by
      calc (128 : ℤ) = 2 ^ 7 := by norm_num
        _ ≤ 2 ^ (c.E - 1) := pow_le_pow_right₀ (by norm_num) (by omega)
    rw [List.length_cons] at hn
    have hhi : acc.exp ≤ 2 * c.maxScale + 62 := by
      cases hd.app (by omega) with
      | zero => simp only []; omega
      | @reg s' e f _ hX _ =>
        have e1 : (2 : ℚ) ^ e < 2 ^ (2 * (c.maxScale : ℤ) + 62) := by
          have e2 : (n : ℚ) < 2 ^ 60 := by exact_mod_cast (by omega : n < 2 ^ 60)
          have e3 : (0 : ℚ) < 2 ^ (2 * (c.maxScale : ℤ) + 2) := by positivity
          refine lt_of_le_of_lt (hX.lo.trans hs) ?_
          rw [show 2 * (c.maxScale : ℤ) + 62 = (60 : ℕ) + (2 * c.maxScale + 2) by push_cast; ring, zpow_add₀ (a := (2 : ℚ)) (by norm_num) ((60 : ℕ) : ℤ), zpow_natCast]
          exact mul_lt_mul_of_pos_right e2 e3
        have := (zpow_lt_zpow_iff_right₀ (by norm_num : (1 : ℚ) < 2)).mp e1
        simp only []; omega
    have h5' := abs_le.mp h5
    have hr : AddRange c.E c.F acc.exp m.exp := by
      refine ⟨?_, fun x k1 k2 => ?_⟩ <;> unfold InS <;> omega
    obtain ⟨g1, g2⟩ := isNum_add h.hF (by omega : 1 ≤ c.E) hd h4 hr
    have hstep : ∀ r, Unp.add c.F c.E acc m = r → No128.dotLoop c acc ((a, b) :: l) = r.bind fun t => No128.dotLoop c t l := by
      intro r hr
      rw [No128.dotLoop, h1, h2]
      simp only [bind, Except.bind]
      rw [h3]
      simp only []
      rw [hr]
    by_cases ho : SumOK c.F s (lead (c.fmt.val a) * lead (c.fmt.val b))
    · obtain ⟨r, hr, hdr, her⟩ := g1 ho
      rw [hstep _ hr]
      have her' : -(2 * c.maxScale + c.F : ℤ) < r.exp := by
        rcases her with rfl | rfl | her | her
        · exact he
        · omega
        · omega
        · omega
      have hs' : |alignedSum c.F s (lead (c.fmt.val a) * lead (c.fmt.val b))| ≤ ((n + 1 : ℕ) : ℚ) * 2 ^ (2 * (c.maxScale : ℤ) + 2) := by
        have := abs_alignedSum_le c.F s (lead (c.fmt.val a) * lead (c.fmt.val b))
        have := abs_leads_le h ha hb
        push_cast
        linarith
      have := no_dotLoop h l r _ (n + 1) (fun p hp => hreal p (by simp [hp])) hdr her' hs' (by omega)
      refine ⟨fun hok => this.1 hok.2, fun hno => this.2 (fun hok => hno ⟨ho, hok⟩)⟩
    · rw [hstep _ (g2 ho)]
      exact ⟨fun hok => absurd hok.1 ho, fun _ => rfl⟩

end Verif
