import Verif.Model.Float2Posit
import Verif.Lemmas.ExtConvert
import Verif.Lemmas.ExtUnary

/-! # Lemmas for C92: `float2posit` -/

namespace Verif
open Fmt

variable {c : Cfg} {F E eb fb : ℕ} {dn : Bool}

theorem wrapS_inS {w : ℕ} (hw : 1 ≤ w) (x : ℤ) : InS w (wrapS w x) := by
  have h3 := two_pow_pred hw
  unfold wrapS InS
  have hpos : 0 < 2 ^ w := by positivity
  have h1 := Int.le_bmod (x := x) hpos
  have h2 := Int.bmod_lt (x := x) hpos
  push_cast at h1 h2
  omega

theorem wrapS_wrapS {w : ℕ} (hw : 1 ≤ w) (x : ℤ) : wrapS w (wrapS w x) = wrapS w x :=
  wrapS_of_inS hw (wrapS_inS hw x)

/-- what `float2posit` does with an unpacked float -/
def f2pOf (c : Cfg) (u : Unp) : M Int :=
  match u.ty with
  | .infinity => .ok (if u.neg then c.ninf else c.pinf)
  | .nan => .ok c.nan
  | .zero => .ok 0
  | .regular => Posit.f2pPack c u.neg u.exp u.frac

theorem f2pPack_wrap (hE : 1 ≤ c.E) (neg : Bool) (e : ℤ) (f : ℕ) :
    Posit.f2pPack c neg (wrapS c.E e) f = Posit.f2pPack c neg e f := by
  unfold Posit.f2pPack
  rw [wrapS_wrapS hE]

/-- the decoding of `float2posit` is the one of `unpack_float`, subnormals included -/
theorem f2p_eq (heb : 1 ≤ eb) (hE : eb ≤ c.E) (b : ℕ) :
    Posit.float2posit c (.any eb fb dn) b = (do let u ← Unp.unpackFloat c.F c.E (.any eb fb true) b; f2pOf c u) := by
  rw [unpackFloat_any]
  unfold Posit.float2posit
  simp only [show (FTrait.any eb fb dn).dataBits = eb + fb + 1 from rfl, show (FTrait.any eb fb dn).fb = fb from rfl,
    show (FTrait.any eb fb dn).eb = eb from rfl, show (FTrait.any eb fb dn).bias = 2 ^ (eb - 1) - 1 from rfl, bind,
    Except.bind, pure, Except.pure]
  cases Posit.bitsetGet (eb + fb + 1) b fb eb with
  | error => rfl
  | ok re =>
    simp only []
    cases ha : arithS c.E (wrapS c.E re - (2 ^ (eb - 1) - 1)) with
    | error => rfl
    | ok e =>
      simp only []
      cases Bits.castRightToLeft (eb + fb + 1) fb c.F b with
      | error => rfl
      | ok f =>
        simp only []
        by_cases h1 : wrapS c.E (re : ℤ) = 2 ^ eb - 1
        · rw [if_pos h1, if_pos h1]
          by_cases h2 : f = 0
          · rw [if_pos h2, if_pos h2]; rfl
          · rw [if_neg h2, if_neg h2]; rfl
        rw [if_neg h1, if_neg h1]
        by_cases h0 : wrapS c.E (re : ℤ) = 0
        · rw [if_pos h0, if_pos h0]
          by_cases h2 : f = 0
          · rw [if_pos h2, if_pos (by simp [h2])]; rfl
          rw [if_neg h2, if_neg (by simp [h2])]
          have hee : wrapS c.E e = e := by
            have : e = wrapS c.E re - (2 ^ (eb - 1) - 1) := by
              unfold arithS at ha
              split at ha <;> cases ha
              rfl
            rw [this, h0]
            apply wrapS_of_inS (by omega)
            have h5 : (2 : ℤ) ^ (eb - 1) ≤ 2 ^ (c.E - 1) := pow_le_pow_right₀ (by norm_num) (by omega)
            have h6 : (0 : ℤ) < 2 ^ (eb - 1) := by positivity
            unfold InS; omega
          rw [hee]
          cases Unp.findLeft c.F f with
          | error => rfl
          | ok k =>
            simp only []
            cases arithS c.E (e - k) with
            | error => rfl
            | ok e2 =>
              simp only []
              cases shlU c.F f (k + 1) with
              | error => rfl
              | ok f2 => exact (f2pPack_wrap (by omega) _ _ _).symm
        · rw [if_neg h0, if_neg h0]
          exact (f2pPack_wrap (by omega) _ _ _).symm

/-- `split_reg_exp` of an exponent whose regime fits the holder -/
theorem splitRegExp_eq' (h : c.WF) {e : ℤ} (hr : InS c.H (e / 2 ^ c.es)) :
    Posit.splitRegExp c e = (e / 2 ^ c.es, (e % 2 ^ c.es).toNat) := by
  have hp : (0 : ℤ) < 2 ^ c.es := by positivity
  have hN := h.hN
  have hes := h.hes
  unfold Posit.splitRegExp Cfg.espMask
  congr 1
  · exact wrapS_of_inS (by have := h.H_pos; omega) hr
  · rw [Nat.and_two_pow_sub_one_eq_mod]
    have hle : c.es ≤ pw c.E := by
      have := le_pw32 c.E
      have := h.hes30
      omega
    have e1 : wrapU (pw c.E) e % 2 ^ c.es = (e % 2 ^ c.es).toNat := by
      unfold wrapU
      zify
      rw [Int.toNat_of_nonneg (Int.emod_nonneg _ (by positivity)), Int.toNat_of_nonneg (Int.emod_nonneg _ (by positivity))]
      exact Int.emod_emod_of_dvd _ (pow_dvd_pow _ hle)
    rw [e1, Nat.mod_eq_of_lt]
    have := Int.emod_lt_of_pos e hp
    have := Int.emod_nonneg e hp.ne'
    have : (2 : ℤ) ^ c.es ≤ 2 ^ c.H := pow_le_pow_right₀ (by norm_num) (by omega)
    zify
    rw [Int.toNat_of_nonneg (by assumption)]
    omega

theorem emod_es_lt (e : ℤ) : (e % 2 ^ c.es).toNat < 2 ^ c.es := by
  have hp : (0 : ℤ) < 2 ^ c.es := by positivity
  have := Int.emod_lt_of_pos e hp
  have := Int.emod_nonneg e hp.ne'
  zify
  rw [Int.toNat_of_nonneg (by assumption)]
  omega

/-- `f2pPack` down to the packing formula -/
theorem f2pPack_eq (h : c.WF) (neg : Bool) {e : ℤ} {f : ℕ} (hf : f < 2 ^ c.F) (he : InS c.E e)
    (hr : InS c.H (e / 2 ^ c.es)) :
    Posit.f2pPack c neg e f =
      Posit.packLowRegular c ⟨.regular, neg, e / 2 ^ c.es, (e % 2 ^ c.es).toNat, f * 2 ^ c.H / 2 ^ c.F⟩ := by
  unfold Posit.f2pPack
  rw [wrapS_of_inS (by have := E_ge h; omega) he, splitRegExp_eq' h hr, castMsb_eq h.F_pos h.hH hf]
  rfl

theorem cast_lt {f F H : ℕ} (hf : f < 2 ^ F) : f * 2 ^ H / 2 ^ F < 2 ^ H := by
  rw [Nat.div_lt_iff_lt_mul (by positivity), mul_comm]
  exact Nat.mul_lt_mul_of_pos_left hf (by positivity)

/-- exponents in range: the constructor's packing -/
theorem f2pPack_mid (h : c.WF) (neg : Bool) {e : ℤ} {f : ℕ} (h1 : -(c.maxScale : ℤ) ≤ e) (h2 : e ≤ c.topExp) :
    Posit.f2pPack c neg e f = Posit.pack c ⟨.regular, neg, e, f⟩ := by
  have htop := topExp_le h
  have hms := maxScale_pos h
  unfold Posit.f2pPack Posit.pack Posit.full2low Posit.packLow
  rw [wrapS_of_inS (by have := E_ge h; omega) (inS_E h (by rw [abs_le]; omega))]
  have hcl : Posit.clamp e c.minexponent c.maxexponent = e := by
    have hmx : c.maxexponent = c.topExp := maxexponent_eq h
    unfold Posit.clamp
    rw [minexponent_eq h, hmx, if_neg (by omega), if_neg (by omega)]
  simp only [if_true, hcl, bind, Except.bind]
  cases Posit.castMsb c.F c.H f with
  | error => rfl
  | ok z => rfl

/-- the packing formula for regimes that leave no room for a bit that is not one, and for longer ones -/
theorem packLowRegular_high (h : c.WF) {neg : Bool} {r exp frac : ℕ} (hexp : exp < 2 ^ c.es) (hfrac : frac < 2 ^ c.H)
    (hr : c.N ≤ r) :
    Posit.packLowRegular c ⟨.regular, neg, r, exp, frac⟩ =
      if r < c.H ∧ r + 3 < pw c.H then .ok (if neg then -((2 ^ (2 * c.N - 2 - r) - 1 : ℕ) : ℤ) else (2 ^ (2 * c.N - 2 - r) - 1 : ℕ))
      else .error .shiftAmount := by
  have hN := h.hN
  have hN3 := h.N_ge
  have hes := h.hes
  have hpw := le_pw c.H
  have hpw32 := le_pw32 c.H
  have hrs : (if -(r : ℤ) + 1 > r + 2 then -(r : ℤ) + 1 else r + 2) = ((r + 2 : ℕ) : ℤ) := by
    split_ifs <;> omega
  have hes' : (if (c.N : Int) - ((r + 2 : ℕ) : ℤ) - 1 < c.es then (c.N : Int) - ((r + 2 : ℕ) : ℤ) - 1 else c.es)
      = (c.N : ℤ) - (r + 3) := by
    split_ifs <;> omega
  unfold Posit.packLowRegular
  simp only [hrs, hes']
  by_cases hrH : r < c.H
  · have hrb : Posit.regBits c r = .ok ((2 ^ c.N - 1) * 2 ^ (c.H - (r + 1))) := by
      unfold Posit.regBits
      rw [if_neg (by omega)]
      have hlt : (2 ^ c.N - 1) * 2 ^ (c.H - (r + 1)) < 2 ^ c.H := by
        calc (2 ^ c.N - 1) * 2 ^ (c.H - (r + 1)) < 2 ^ c.N * 2 ^ (c.H - (r + 1)) :=
              Nat.mul_lt_mul_of_pos_right (by have := Nat.one_le_two_pow (n := c.N); omega) (by positivity)
          _ = 2 ^ (c.N + (c.H - (r + 1))) := (pow_add _ _ _).symm
          _ ≤ _ := Nat.pow_le_pow_right (by norm_num) (by omega)
      obtain ⟨y, hy1, hy2⟩ := shlU_ok_mod (w := c.H) (x := c.mask) (n := (c.H : ℤ) - (r + 1)) (k := c.H - (r + 1)) (by omega)
        (by omega) (fun hw => by
          rw [mask_eq c (by omega)]
          exact lt_of_lt_of_le hlt (Nat.pow_le_pow_right (by norm_num) hw.le))
      rw [hy1]
      simp only [bind, Except.bind, pure, Except.pure]
      rw [hy2, mask_eq c (by omega), Nat.mod_eq_of_lt hlt]
    rw [hrb, msbExp_eq h hexp]
    simp only [bind, Except.bind]
    rw [shrU_ok (k := c.N) (by push_cast; omega) (by omega)]
    simp only
    by_cases hs : r + 3 < pw c.H
    · rw [if_pos ⟨hrH, hs⟩, shrU_ok (k := r + 3) (by push_cast; omega) hs]
      simp only
      rw [shrU_ok (n := 1) (k := 1) rfl (by omega)]
      simp only
      rw [shrU_ok (k := c.H - c.N) (by omega) (by omega)]
      simp only
      have ha : frac / 2 ^ c.N / 2 ^ (c.H - c.N) = 0 := by
        rw [Nat.div_div_eq_div_mul, ← pow_add, show c.N + (c.H - c.N) = c.H by omega, Nat.div_eq_of_lt hfrac]
      have hb : exp * 2 ^ (c.H - c.es) / 2 ^ (r + 3) / 2 ^ (c.H - c.N) = 0 := by
        rw [Nat.div_div_eq_div_mul, ← pow_add]
        apply Nat.div_eq_of_lt
        calc exp * 2 ^ (c.H - c.es) < 2 ^ c.es * 2 ^ (c.H - c.es) := Nat.mul_lt_mul_of_pos_right hexp (by positivity)
          _ = 2 ^ c.H := by rw [← pow_add]; congr 1; omega
          _ ≤ _ := Nat.pow_le_pow_right (by norm_num) (by omega)
      have hd : (2 ^ c.N - 1) * 2 ^ (c.H - (r + 1)) / 2 ^ 1 / 2 ^ (c.H - c.N) = 2 ^ (2 * c.N - 2 - r) - 1 := by
        rw [Nat.div_div_eq_div_mul, ← pow_add,
          show 1 + (c.H - c.N) = (r + 2 - c.N) + (c.H - (r + 1)) by omega, pow_add, Nat.mul_div_mul_right _ _ (by positivity)]
        by_cases hc : r + 2 ≤ 2 * c.N
        · have e1 : 2 ^ c.N = 2 ^ (r + 2 - c.N) * 2 ^ (2 * c.N - 2 - r) := by rw [← pow_add]; congr 1; omega
          obtain ⟨z, hz⟩ := Nat.exists_eq_add_of_le (Nat.one_le_two_pow (n := 2 * c.N - 2 - r))
          have hp := Nat.one_le_two_pow (n := r + 2 - c.N)
          have e3 : 2 ^ c.N - 1 = 2 ^ (r + 2 - c.N) * z + (2 ^ (r + 2 - c.N) - 1) := by
            rw [e1, hz, Nat.mul_add]; omega
          rw [e3, Nat.mul_add_div (by positivity), Nat.div_eq_of_lt (by omega), hz]; omega
        · rw [show 2 * c.N - 2 - r = 0 by omega, pow_zero]
          apply Nat.div_eq_of_lt
          have : 2 ^ c.N ≤ 2 ^ (r + 2 - c.N) := Nat.pow_le_pow_right (by norm_num) (by omega)
          have := Nat.one_le_two_pow (n := c.N)
          omega
      have hlt : 2 ^ (2 * c.N - 2 - r) - 1 < 2 ^ (c.N - 1) := by
        have : 2 ^ (2 * c.N - 2 - r) ≤ 2 ^ (c.N - 1) := Nat.pow_le_pow_right (by norm_num) (by omega)
        have := Nat.one_le_two_pow (n := 2 * c.N - 2 - r)
        omega
      rw [or_div, or_div, ha, hb, hd, Nat.zero_or, Nat.zero_or,
        wrapS_of_inS (by have := h.H_pos; omega), condNeg_ok h neg hlt]
      have hP := h.pow_le
      have : ((2 ^ (2 * c.N - 2 - r) - 1 : ℕ) : ℤ) < 2 ^ (c.N - 1) := by exact_mod_cast hlt
      unfold InS; omega
    · rw [if_neg (by omega)]
      unfold shrU
      rw [if_pos (by push_cast; omega)]
  · rw [if_neg (by omega)]
    have hrb : Posit.regBits c r = .error .shiftAmount := by
      unfold Posit.regBits shlU
      rw [if_neg (by omega), if_pos (by omega)]
      rfl
    rw [hrb]; rfl

/-- the packing formula for regimes below the least one -/
theorem packLowRegular_low (h : c.WF) {neg : Bool} {r exp frac : ℕ} (hexp : exp < 2 ^ c.es) (hfrac : frac < 2 ^ c.H)
    (hr : c.N ≤ r + 1) :
    Posit.packLowRegular c ⟨.regular, neg, -(r : ℤ), exp, frac⟩ =
      if r + 2 < pw c.H then .ok 0 else .error .shiftAmount := by
  have hN := h.hN
  have hN3 := h.N_ge
  have hes := h.hes
  have hpw := le_pw c.H
  have hpw32 := le_pw32 c.H
  have hrs : (if -(-(r : ℤ)) + 1 > -(r : ℤ) + 2 then -(-(r : ℤ)) + 1 else -(r : ℤ) + 2) = ((r + 1 : ℕ) : ℤ) := by
    split_ifs <;> omega
  have hes' : (if (c.N : Int) - ((r + 1 : ℕ) : ℤ) - 1 < c.es then (c.N : Int) - ((r + 1 : ℕ) : ℤ) - 1 else c.es)
      = (c.N : ℤ) - (r + 2) := by
    split_ifs <;> omega
  unfold Posit.packLowRegular
  simp only [hrs, hes']
  by_cases hrp : r < pw c.H
  · have hrb : Posit.regBits c (-(r : ℤ)) = .ok (2 ^ (c.H - 1) / 2 ^ r) := by
      unfold Posit.regBits
      rw [if_pos (by omega), shrU_ok (k := r) (by omega) hrp]
      simp only [bind, Except.bind, pure, Except.pure, Cfg.holderMsb]
      rw [Nat.mod_eq_of_lt]
      calc 2 ^ (c.H - 1) / 2 ^ r ≤ 2 ^ (c.H - 1) := Nat.div_le_self _ _
        _ < 2 ^ c.H := Nat.pow_lt_pow_right (by norm_num) (by omega)
    rw [hrb, msbExp_eq h hexp]
    simp only [bind, Except.bind]
    by_cases hs : r + 2 < pw c.H
    · rw [if_pos hs, shrU_ok (k := c.N) (by push_cast; omega) (by omega)]
      simp only
      rw [shrU_ok (k := r + 2) (by push_cast; omega) hs]
      simp only
      rw [shrU_ok (n := 1) (k := 1) rfl (by omega)]
      simp only
      rw [shrU_ok (k := c.H - c.N) (by omega) (by omega)]
      simp only
      have ha : frac / 2 ^ c.N / 2 ^ (c.H - c.N) = 0 := by
        rw [Nat.div_div_eq_div_mul, ← pow_add, show c.N + (c.H - c.N) = c.H by omega, Nat.div_eq_of_lt hfrac]
      have hb : exp * 2 ^ (c.H - c.es) / 2 ^ (r + 2) / 2 ^ (c.H - c.N) = 0 := by
        rw [Nat.div_div_eq_div_mul, ← pow_add]
        apply Nat.div_eq_of_lt
        calc exp * 2 ^ (c.H - c.es) < 2 ^ c.es * 2 ^ (c.H - c.es) := Nat.mul_lt_mul_of_pos_right hexp (by positivity)
          _ = 2 ^ c.H := by rw [← pow_add]; congr 1; omega
          _ ≤ _ := Nat.pow_le_pow_right (by norm_num) (by omega)
      have hd : 2 ^ (c.H - 1) / 2 ^ r / 2 ^ 1 / 2 ^ (c.H - c.N) = 0 := by
        rw [Nat.div_div_eq_div_mul, Nat.div_div_eq_div_mul, ← pow_add, ← pow_add]
        exact Nat.div_eq_of_lt (Nat.pow_lt_pow_right (by norm_num) (by omega))
      rw [or_div, or_div, ha, hb, hd, Nat.zero_or, Nat.zero_or,
        wrapS_of_inS (by have := h.H_pos; omega), condNeg_ok h neg (by positivity)]
      · simp
      · have : (0 : ℤ) < 2 ^ (c.H - 1) := by positivity
        unfold InS; push_cast; omega
    · rw [if_neg hs]
      have hb : shrU c.H (exp * 2 ^ (c.H - c.es)) (((r + 1 : ℕ) : ℤ) + 1) = .error .shiftAmount := by
        unfold shrU
        rw [if_pos (by push_cast; omega)]
      by_cases hNp : c.N < pw c.H
      · rw [shrU_ok (k := c.N) (by push_cast; omega) hNp, hb]
      · unfold shrU
        rw [if_pos (by push_cast; omega)]
  · rw [if_neg (by omega)]
    have hrb : Posit.regBits c (-(r : ℤ)) = .error .shiftAmount := by
      unfold Posit.regBits shrU
      rw [if_pos (by omega), if_pos (by omega)]
      rfl
    rw [hrb]; rfl

/-- the unpacked form of a finite float -/
theorem unpackFloat_num (heb : 2 ≤ eb) (heb30 : eb ≤ 30) (hfb : 1 ≤ fb) (hF1 : 1 ≤ F) (hE : eb < E)
    (hE2 : 2 ^ (eb - 1) + fb ≤ 2 ^ (E - 1)) {b : ℕ} {x : ℚ} (hy : ieee eb fb b = .num x) :
    (readSub eb F x = 0 → ∃ e f, Unp.unpackFloat F E (.any eb fb true) b = .ok ⟨.zero, false, e, f⟩) ∧
    (readSub eb F x ≠ 0 → ¬ (|x| < minNorm eb ∧ 32 ≤ F ∧ |readSub eb F x| = subUnit eb F) →
      ∃ e f, Unp.unpackFloat F E (.any eb fb true) b = .ok ⟨.regular, decide (readSub eb F x < 0), e, f⟩ ∧ f < 2 ^ F ∧
        (2 : ℚ) ^ e ≤ |readSub eb F x| ∧ |readSub eb F x| < 2 ^ (e + 1) ∧ InS E e) := by
  have hE2z : (2 : ℤ) ^ (eb - 1) + fb ≤ 2 ^ (E - 1) := by exact_mod_cast hE2
  have hpE : (2 : ℤ) ^ eb ≤ 2 ^ (E - 1) := pow_le_pow_right₀ (by norm_num) (by omega)
  have hh := pow_half (show 1 ≤ eb by omega)
  have hlt := fExp_lt eb fb b
  have hltz : (fExp eb fb b : ℤ) < 2 ^ eb := by exact_mod_cast hlt
  have hpos1 : (0 : ℤ) < 2 ^ (eb - 1) := by positivity
  have hsign : ∀ {q : ℚ}, 0 < q → decide ((if fSign eb fb b then -1 else 1 : ℚ) * q < 0) = fSign eb fb b := by
    intro q hq
    cases fSign eb fb b
    · simp only [Bool.false_eq_true, if_false, one_mul, decide_eq_false_iff_not]; linarith
    · simp only [if_true, decide_eq_true_eq]; linarith
  obtain ⟨h1, ⟨h2, h3⟩ | ⟨h2, h3⟩⟩ := ieee_num hy
  · have hxlt : |x| < minNorm eb := (sub_abs h3).2
    have hread : readSub eb F x =
        (if fSign eb fb b then -1 else 1 : ℚ) * ((fracOf F fb (2 ^ fb + fMan fb b) : ℕ) * subUnit eb F) := by
      unfold readSub
      rw [if_pos hxlt, sub_digits h3]
    have hu0 : 0 < subUnit eb F := by unfold subUnit; positivity
    have habs : |readSub eb F x| = (fracOf F fb (2 ^ fb + fMan fb b) : ℕ) * subUnit eb F := by
      rw [hread]; exact abs_sign_mul _ (by positivity)
    have hmlt : fracOf F fb (2 ^ fb + fMan fb b) < 2 ^ F := by
      apply fracOf_lt
      have := fMan_lt fb b
      rw [pow_succ]; omega
    have hbig : fb < F → 2 ^ (F - fb) ≤ fracOf F fb (2 ^ fb + fMan fb b) ∨ fracOf F fb (2 ^ fb + fMan fb b) = 0 := by
      intro hlt
      unfold fracOf
      rw [if_pos hlt.le, Nat.add_sub_cancel_left]
      rcases Nat.eq_zero_or_pos (fMan fb b) with hz | hz
      · right; rw [hz]; simp
      · exact Or.inl (Nat.le_mul_of_pos_left _ hz)
    obtain ⟨m, hm⟩ : ∃ m, m = fracOf F fb (2 ^ fb + fMan fb b) := ⟨_, rfl⟩
    rw [← hm] at hbig hmlt hread habs
    constructor
    · intro h0
      rw [h0, abs_zero] at habs
      have hz : (m : ℚ) = 0 := by
        rcases mul_eq_zero.mp habs.symm with hz | hz
        · exact hz
        · exact absurd hz hu0.ne'
      have hz : m = 0 := by exact_mod_cast hz
      exact unpackFloat_zero heb hfb hF1 hE h2 (Or.inr (hm ▸ hz))
    · intro hne hn
      have hz : m ≠ 0 := by
        intro hz; apply hne; rw [hread, hz]; simp
      have hn : F < 32 ∨ m ≠ 1 := by
        by_contra hc
        push Not at hc
        exact hn ⟨hxlt, hc.1, by rw [habs, hc.2]; simp⟩
      have hmp : (0 : ℚ) < m := by exact_mod_cast Nat.pos_of_ne_zero hz
      have hL1 := Nat.log2_self_le hz
      have hL2 := Nat.lt_log2_self (n := m)
      have hLF : m.log2 < F := (Nat.pow_lt_pow_iff_right (by norm_num : 1 < 2)).mp (lt_of_le_of_lt hL1 hmlt)
      have hLge : F ≤ fb + m.log2 := by
        by_contra hc
        have h5 := (hbig (by omega)).resolve_right hz
        have : 2 ^ (m.log2 + 1) ≤ 2 ^ (F - fb) := Nat.pow_le_pow_right (by norm_num) (by omega)
        omega
      have hsh : F - m.log2 < pw F := by
        have hpw : F < 32 ∧ pw F = 32 ∨ 32 ≤ F ∧ pw F = F := by unfold pw; omega
        rcases hpw with ⟨ha, hb⟩ | ⟨ha, hb⟩
        · omega
        · have : m.log2 ≠ 0 := by
            intro h0
            rw [h0] at hL2
            omega
          omega
      have hun : subUnit eb F = 2 ^ ((1 : ℤ) - (2 ^ (eb - 1) - 1) - F) := by
        unfold subUnit; congr 1; ring
      refine ⟨(1 : ℤ) - (2 ^ (eb - 1) - 1) - F + m.log2, fracOf F m.log2 m, ?_, ?_, ?_, ?_, ?_⟩
      · rw [unpackFloat_sub heb hfb hF1 hE hE2 h2 hm hL1 hL2 hsh hLge, hread, hsign (by positivity)]
      · exact fracOf_lt hL2
      · rw [habs, hun, zpow_add₀ (by norm_num), zpow_natCast, mul_comm]
        exact mul_le_mul_of_nonneg_right (by exact_mod_cast hL1) (by positivity)
      · rw [habs, hun, add_assoc, zpow_add₀ (by norm_num), mul_comm]
        refine mul_lt_mul_of_pos_left ?_ (by positivity)
        have : (m : ℚ) < 2 ^ (m.log2 + 1) := by exact_mod_cast hL2
        exact_mod_cast this
      · have : (m.log2 : ℤ) < F := by exact_mod_cast hLF
        have : (F : ℤ) ≤ fb + m.log2 := by exact_mod_cast hLge
        unfold InS; omega
  · have hn1 : 2 ^ fb ≤ 2 ^ fb + fMan fb b := by omega
    have hn2 : 2 ^ fb + fMan fb b < 2 ^ (fb + 1) := by
      have := fMan_lt fb b
      rw [pow_succ]; omega
    have hmp : (0 : ℚ) < 2 ^ fb + fMan fb b := by positivity
    have habs : |x| = (2 ^ fb + fMan fb b) * 2 ^ ((fExp eb fb b : ℤ) - (2 ^ (eb - 1) - 1) - fb) := by
      rw [h3]; exact abs_sign_mul _ (by positivity)
    have h1z : (1 : ℤ) ≤ fExp eb fb b := by omega
    have hlo : (2 : ℚ) ^ ((fExp eb fb b : ℤ) - (2 ^ (eb - 1) - 1) - fb + fb) ≤ |x| := by
      rw [habs, zpow_add₀ (by norm_num) _ (fb : ℤ), zpow_natCast, mul_comm]
      exact mul_le_mul_of_nonneg_right (by exact_mod_cast hn1) (by positivity)
    have hge : ¬ |x| < minNorm eb := by
      rw [not_lt]
      refine le_trans ?_ hlo
      unfold minNorm
      exact zpow_le_zpow_right₀ (by norm_num) (by omega)
    have hread : readSub eb F x = x := by unfold readSub; rw [if_neg hge]
    have hx0 : x ≠ 0 := by
      intro h0; rw [h0, abs_zero] at habs
      have : (0 : ℚ) < (2 ^ fb + fMan fb b) * 2 ^ ((fExp eb fb b : ℤ) - (2 ^ (eb - 1) - 1) - fb) := by positivity
      linarith
    rw [hread]
    refine ⟨fun h0 => absurd h0 hx0, fun _ _ => ⟨((fExp eb fb b : ℤ) - (2 ^ (eb - 1) - 1) - fb) + fb,
      fracOf F fb (2 ^ fb + fMan fb b), ?_, ?_, hlo, ?_, ?_⟩⟩
    · rw [unpackFloat_normal heb hfb hF1 hE.le heb30 h2 h1, h3, hsign (by positivity)]
    · exact fracOf_lt hn2
    · rw [habs, add_assoc, zpow_add₀ (by norm_num) _ ((fb : ℤ) + 1), mul_comm]
      refine mul_lt_mul_of_pos_left ?_ (by positivity)
      have : ((2 ^ fb + fMan fb b : ℕ) : ℚ) < 2 ^ (fb + 1) := by exact_mod_cast hn2
      push_cast at this
      exact_mod_cast this
    · unfold InS; omega

/-- a subnormal of which one digit is kept is undefined already when it is unpacked -/
theorem unpackFloat_num_ub (heb : 2 ≤ eb) (hfb : 1 ≤ fb) (hE : eb < E)
    (hE2 : 2 ^ (eb - 1) + fb ≤ 2 ^ (E - 1)) {b : ℕ} {x : ℚ} (hy : ieee eb fb b = .num x) (hlt : |x| < minNorm eb)
    (h32 : 32 ≤ F) (hone : |readSub eb F x| = subUnit eb F) :
    Unp.unpackFloat F E (.any eb fb true) b = .error .shiftAmount := by
  obtain ⟨h1, ⟨h2, h3⟩ | ⟨h2, h3⟩⟩ := ieee_num hy
  · have hread : readSub eb F x =
        (if fSign eb fb b then -1 else 1 : ℚ) * ((fracOf F fb (2 ^ fb + fMan fb b) : ℕ) * subUnit eb F) := by
      unfold readSub
      rw [if_pos hlt, sub_digits h3]
    have hu0 : 0 < subUnit eb F := by unfold subUnit; positivity
    have habs : |readSub eb F x| = (fracOf F fb (2 ^ fb + fMan fb b) : ℕ) * subUnit eb F := by
      rw [hread]; exact abs_sign_mul _ (by positivity)
    have hz : fracOf F fb (2 ^ fb + fMan fb b) = 1 := by
      rw [habs] at hone
      have : ((fracOf F fb (2 ^ fb + fMan fb b) : ℕ) : ℚ) = 1 := by
        field_simp at hone; exact hone
      exact_mod_cast this
    have hFb : F ≤ fb := by
      by_contra hc
      have h5 : 2 ^ 1 ≤ 2 ^ (F - fb) := Nat.pow_le_pow_right (by norm_num) (by omega)
      unfold fracOf at hz
      rw [if_pos (by omega), Nat.add_sub_cancel_left] at hz
      have := Nat.eq_one_of_mul_eq_one_left hz
      omega
    exact unpackFloat_sub_ub heb hfb hE hE2 h2 hFb h32 hz
  · exfalso
    have habs : |x| = (2 ^ fb + fMan fb b) * 2 ^ ((fExp eb fb b : ℤ) - (2 ^ (eb - 1) - 1) - fb) := by
      rw [h3]; exact abs_sign_mul _ (by positivity)
    refine absurd hlt (not_lt.mpr ?_)
    rw [habs]
    unfold minNorm
    calc (2 : ℚ) ^ ((2 : ℤ) - 2 ^ (eb - 1)) ≤ 2 ^ (fb : ℤ) * 2 ^ ((fExp eb fb b : ℤ) - (2 ^ (eb - 1) - 1) - fb) := by
          rw [← zpow_add₀ (by norm_num)]
          exact zpow_le_zpow_right₀ (by norm_num) (by omega)
      _ ≤ _ := by
          apply mul_le_mul_of_nonneg_right _ (by positivity)
          rw [zpow_natCast]
          linarith [show (0 : ℚ) ≤ fMan fb b by positivity]

/-- exponents of the last regime before the infinities -/
theorem f2pPack_mid' (h : c.WF) (neg : Bool) {e : ℤ} {f : ℕ} (hf : f < 2 ^ c.F) (h1 : -(c.maxScale : ℤ) ≤ e)
    (h2 : e < c.maxScale) : Posit.f2pPack c neg e f = Posit.pack c ⟨.regular, neg, e, f⟩ := by
  by_cases hc : e ≤ c.topExp
  · exact f2pPack_mid h neg h1 hc
  have hms := maxScale_eq h
  have hle := two_pow_es_le h
  have hp : (0 : ℤ) < 2 ^ c.es := by positivity
  have hN3 := h.N_ge
  have hpw := le_pw c.H
  have hpw32 := le_pw32 c.H
  have hN := h.hN
  have hts : c.spec = .withNanInf ∧ c.topExp = (c.maxScale : ℤ) - 2 ^ c.es := by
    unfold Cfg.topExp at hc ⊢
    split_ifs at hc ⊢ with hs
    · exact ⟨hs, rfl⟩
    · omega
  have hr : e / 2 ^ c.es = (c.N : ℤ) - 3 := by
    rw [Int.ediv_eq_iff_of_pos hp]
    rw [hts.2, hms] at hc
    rw [hms] at h2
    constructor <;> nlinarith
  have hNP : (c.N : ℤ) < 2 ^ (c.N - 1) := by
    have := lt_two_pow_sub (n := c.N) hN3
    have e4 : 2 ^ (c.N - 1) = 4 * 2 ^ (c.N - 3) := by
      rw [show c.N - 1 = (c.N - 3) + 2 by omega, pow_add]; omega
    zify at *
    push_cast [Nat.cast_sub (show 2 ≤ c.N by omega)] at this
    omega
  have hP := h.pow_le
  have htop : c.topExp / 2 ^ c.es = (c.N : ℤ) - 3 := by
    rw [hts.2, hms, show (2 : ℤ) ^ c.es * ((c.N : ℤ) - 2) - 2 ^ c.es = ((c.N : ℤ) - 3) * 2 ^ c.es by ring,
      Int.mul_ediv_cancel _ hp.ne']
  have hk : kOf ((c.N : ℤ) - 3) = c.N - 2 := by unfold kOf; rw [if_neg (by omega)]; omega
  have hpk : Posit.pack c ⟨.regular, neg, e, f⟩ = Posit.f2pPack c neg c.topExp f := by
    rw [f2pPack_mid h neg (by omega) le_rfl]
    have hcl : Posit.clamp e c.minexponent c.maxexponent = c.topExp := by
      have hmx : c.maxexponent = c.topExp := maxexponent_eq h
      unfold Posit.clamp
      rw [minexponent_eq h, hmx, if_neg (by omega), if_pos (by omega)]
    have hcl2 : Posit.clamp c.topExp c.minexponent c.maxexponent = c.topExp := by
      have hmx : c.maxexponent = c.topExp := maxexponent_eq h
      unfold Posit.clamp
      rw [minexponent_eq h, hmx, if_neg (by omega), if_neg (by omega)]
    unfold Posit.pack Posit.full2low
    simp only [if_true, hcl, hcl2]
  have hins : ∀ {e' : ℤ}, e' / 2 ^ c.es = (c.N : ℤ) - 3 → InS c.H (e' / 2 ^ c.es) := by
    intro e' he; rw [he]; unfold InS; omega
  rw [hpk, f2pPack_eq h neg hf (inS_E h (by rw [abs_le]; omega)) (hins hr),
    f2pPack_eq h neg hf (inS_E h (by rw [abs_le]; omega)) (hins htop), hr, htop]
  by_cases hs : kOf ((c.N : ℤ) - 3) + 2 < pw c.H
  · rw [packLowRegular_eq h (emod_es_lt e) (cast_lt hf) (by omega) hs (by omega),
      packLowRegular_eq h (emod_es_lt _) (cast_lt hf) (by omega) hs (by omega)]
    have hb : ∀ {x y : ℕ}, x < 2 ^ c.es → y < 2 ^ c.H →
        packBody c ((c.N : ℤ) - 3) (x * 2 ^ c.H + y) = 2 ^ (c.N - 1) - 2 := by
      intro x y hx hy
      unfold packBody
      rw [hk, if_pos (by omega), if_neg (by omega), Nat.sub_self, pow_zero, mul_one, zero_add, pow_one, Nat.div_eq_of_lt,
        add_zero]
      rw [pow_add]
      have : (x + 1) * 2 ^ c.H ≤ 2 ^ c.es * 2 ^ c.H := Nat.mul_le_mul_right _ hx
      rw [Nat.add_mul] at this
      omega
    rw [hb (emod_es_lt e) (cast_lt hf), hb (emod_es_lt _) (cast_lt hf)]
  · rw [packLowRegular_long h (emod_es_lt e) (by omega) (by omega),
      packLowRegular_long h (emod_es_lt _) (by omega) (by omega)]

/-- exponents from the regime after the greatest posit on -/
theorem f2pPack_high (h : c.WF) (neg : Bool) {e : ℤ} {f r : ℕ} (hf : f < 2 ^ c.F) (he : InS c.E e)
    (hr : e / 2 ^ c.es = r) (hN2 : c.N ≤ r + 2) (hrH : (r : ℤ) < 2 ^ (c.H - 1)) :
    Posit.f2pPack c neg e f =
      if r < c.H ∧ r + 3 < pw c.H then
        .ok (if neg then -((2 ^ min (c.N - 1) (2 * c.N - 2 - r) - 1 : ℕ) : ℤ) else (2 ^ min (c.N - 1) (2 * c.N - 2 - r) - 1 : ℕ))
      else .error .shiftAmount := by
  have hN3 := h.N_ge
  have hN := h.hN
  rw [f2pPack_eq h neg hf he (by rw [hr]; unfold InS; have : (0 : ℤ) < 2 ^ (c.H - 1) := (by positivity); omega), hr]
  by_cases hc : c.N ≤ r
  · rw [packLowRegular_high h (emod_es_lt e) (cast_lt hf) hc, min_eq_right (by omega)]
  · rw [min_eq_left (by omega)]
    have hk : kOf (r : ℤ) = r + 1 := by unfold kOf; rw [if_neg (by omega)]; omega
    by_cases hs : r + 3 < pw c.H
    · rw [if_pos ⟨by omega, hs⟩, packLowRegular_ones h (emod_es_lt e) (cast_lt hf) (by omega) (by omega) (by omega) (by omega)]
      have := Nat.one_le_two_pow (n := c.N - 1)
      push_cast [Nat.cast_sub this]
      rfl
    · rw [if_neg (by omega), packLowRegular_long h (emod_es_lt e) (by omega) (by omega)]

/-- exponents below the least posit -/
theorem f2pPack_low (h : c.WF) (neg : Bool) {e : ℤ} {f r : ℕ} (hf : f < 2 ^ c.F) (he : InS c.E e)
    (hr : e / 2 ^ c.es = -(r : ℤ)) (hN2 : c.N ≤ r + 1) (hrH : (r : ℤ) ≤ 2 ^ (c.H - 1)) :
    Posit.f2pPack c neg e f = if r + 2 < pw c.H then .ok 0 else .error .shiftAmount := by
  rw [f2pPack_eq h neg hf he (by rw [hr]; unfold InS; have : (0 : ℤ) < 2 ^ (c.H - 1) := (by positivity); omega), hr,
    packLowRegular_low h (emod_es_lt e) (cast_lt hf) hN2]

end Verif
