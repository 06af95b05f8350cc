import Verif.Lemmas.Sigmoid
import Verif.Props.Activation

/-!
# C91: what `pseudosigmoid()` and `pseudosoftplus()` compute on every pattern, and how far the former is from the logistic
function
-/

namespace Verif
open Fmt

variable {c : Cfg}

theorem xorSignShr_neg_high (h : c.WF) {v : ℤ} (h0 : v < 0) (hv : -(2 ^ (c.N - 1)) ≤ v) {w : ℕ} (hw : c.N ≤ w) :
    (wrapU w v ^^^ c.signBit : ℕ) = (2 : ℤ) ^ w + v - 2 ^ (c.N - 1) := by
  have hN3 := h.N_ge
  have h2w := two_pow_pred (w := w) (by omega)
  have hle : (2 : ℤ) ^ (c.N - 1) ≤ 2 ^ (w - 1) := pow_le_pow_right₀ (by norm_num) (by omega)
  obtain ⟨k, rfl⟩ : ∃ k : ℕ, v = -(k : ℤ) := ⟨(-v).toNat, by omega⟩
  have hk : k ≤ 2 ^ (c.N - 1) := by
    have : (k : ℤ) ≤ 2 ^ (c.N - 1) := by omega
    exact_mod_cast this
  unfold Cfg.signBit
  rw [wrapU_of_neg h0 (by omega)]
  have e1 : (-(k : ℤ) + 2 ^ w).toNat = 2 ^ w - k := by
    have : ((2 ^ w : ℕ) : ℤ) = 2 ^ w := by push_cast; rfl
    omega
  rw [e1, xor_two_pow_high (by omega) (by omega) hk]
  have h3 : ((2 ^ w : ℕ) : ℤ) = 2 ^ w := by push_cast; rfl
  have h4 : ((2 ^ (c.N - 1) : ℕ) : ℤ) = 2 ^ (c.N - 1) := by push_cast; rfl
  omega

theorem xorSignShr_neg_narrow (h : c.WF) (hH : c.H < 32) {v : ℤ} (h0 : v < 0) (hv : -(2 ^ (c.N - 1)) ≤ v) {n : ℕ} (hn : 1 ≤ n) :
    Posit.xorSignShr c v n = (v - 2 ^ (c.N - 1)) / 2 ^ n := by
  have hN := h.hN
  have hHp := h.H_pos
  have hP := h.pow_le
  have h2H := two_pow_pred (w := c.H) (by omega)
  have hpp : (0 : ℤ) < 2 ^ (c.N - 1) := by positivity
  have hdiv : (v - 2 ^ (c.N - 1)) / 2 ^ n < 0 := Int.ediv_neg_of_neg_of_pos (by linarith) (by positivity)
  have h2n : (2 : ℤ) ^ 1 ≤ 2 ^ n := pow_le_pow_right₀ (by norm_num) hn
  have hdiv2 : -(2 : ℤ) ^ (c.H - 1) ≤ (v - 2 ^ (c.N - 1)) / 2 ^ n := by
    rw [Int.le_ediv_iff_mul_le (by positivity)]; nlinarith
  have hb : (2 : ℤ) ^ (c.N - 1) ≤ 2 ^ 15 := pow_le_pow_right₀ (by norm_num) (by have := h.hH; omega)
  unfold Posit.xorSignShr
  rw [if_pos hH, xorSignShr_neg_high h h0 hv (by omega),
    wrapS_eq (w := 32) (y := v - 2 ^ (c.N - 1)) (by norm_num) 1 (by ring) (by unfold InS; omega)]
  exact wrapS_of_inS (by omega) ⟨hdiv2, lt_trans hdiv (by positivity)⟩

theorem xorSignShr_neg_padded (h : c.WF) (hH : 32 ≤ c.H) {v : ℤ} (h0 : v < 0) (hv : -(2 ^ (c.N - 1)) ≤ v) {n : ℕ} (hn : 1 ≤ n) :
    Posit.xorSignShr c v n = (2 ^ c.H + v - 2 ^ (c.N - 1)) / 2 ^ n := by
  have hN := h.hN
  have hHp := h.H_pos
  have hP := h.pow_le
  have h2H := two_pow_pred (w := c.H) (by omega)
  have h2n : (2 : ℤ) ^ 1 ≤ 2 ^ n := pow_le_pow_right₀ (by norm_num) hn
  have hp : (0 : ℤ) < 2 ^ (c.N - 1) := by positivity
  unfold Posit.xorSignShr
  rw [if_neg (by omega), Nat.shiftRight_eq_div_pow]
  have hcast : (((wrapU c.H v ^^^ c.signBit) / 2 ^ n : ℕ) : ℤ) = (2 ^ c.H + v - 2 ^ (c.N - 1)) / 2 ^ n := by
    rw [← xorSignShr_neg_high h h0 hv (by omega)]; push_cast; rfl
  rw [hcast]
  refine wrapS_of_inS (by omega) ⟨?_, ?_⟩
  · have : 0 ≤ (2 ^ c.H + v - 2 ^ (c.N - 1)) / 2 ^ n := Int.ediv_nonneg (by omega) (by positivity)
    have : (0 : ℤ) < 2 ^ (c.H - 1) := by positivity
    omega
  · rw [Int.ediv_lt_iff_lt_mul (by positivity)]
    nlinarith

/-- **C91**, the pattern: `pseudosigmoid()` and `pseudosoftplus()` move a pattern of the format up by `2^(N-1)`, so that all
become nonnegative, and drop the last two bits or the last bit — for nonnegative patterns and for formats that fill a 32
or 64-bit holder. Negative patterns in a narrower holder are moved down instead, and in a wider holder that they do not
fill they are read as unsigned numbers of the width of the holder. -/
theorem C91_pattern (h : c.WF) {v : ℤ} (hv : c.fmt.IsCanonical v) :
    (0 ≤ v ∨ (c.N = c.H ∧ 32 ≤ c.H) → Posit.pseudosigmoid c v = (v + 2 ^ (c.N - 1)) / 4 ∧
      Posit.pseudosoftplus c v = (v + 2 ^ (c.N - 1)) / 2) ∧
    (v < 0 → c.H < 32 → Posit.pseudosigmoid c v = (v - 2 ^ (c.N - 1)) / 4 ∧
      Posit.pseudosoftplus c v = (v - 2 ^ (c.N - 1)) / 2) ∧
    (v < 0 → c.N < c.H → 32 ≤ c.H → Posit.pseudosigmoid c v = (2 ^ c.H + v - 2 ^ (c.N - 1)) / 4 ∧
      Posit.pseudosoftplus c v = (2 ^ c.H + v - 2 ^ (c.N - 1)) / 2) := by
  obtain ⟨hl, hu⟩ : -(2 : ℤ) ^ (c.N - 1) ≤ v ∧ v < 2 ^ (c.N - 1) := hv
  unfold Posit.pseudosigmoid Posit.pseudosoftplus
  refine ⟨fun hs => ?_, fun h0 hH => ⟨xorSignShr_neg_narrow h hH h0 hl (by norm_num), ?_⟩,
    fun h0 _ hH => ⟨xorSignShr_neg_padded h hH h0 hl (by norm_num), ?_⟩⟩
  · rcases lt_or_ge v 0 with h0 | h0
    · have := hs.resolve_left (by omega)
      exact ⟨xorSignShr_neg h this.2 this.1 h0 hl, by rw [xorSignShr_neg h this.2 this.1 h0 hl]; norm_num⟩
    · exact ⟨xorSignShr_nonneg h h0 hu (by norm_num), by rw [xorSignShr_nonneg h h0 hu le_rfl]; norm_num⟩
  · rw [xorSignShr_neg_narrow h hH h0 hl le_rfl]; norm_num
  · rw [xorSignShr_neg_padded h hH h0 hl le_rfl]; norm_num

example : P8.WF ∧ P8.fmt.IsCanonical (-5) ∧ Posit.pseudosigmoid P8 (-5) = -34 ∧ Posit.pseudosigmoid P8 5 = 33 ∧
    P60.WF ∧ P60.N < P60.H ∧ P60.fmt.IsCanonical (-5) ∧ Posit.pseudosigmoid P60 (-5) = 2 ^ 62 - 2 ^ 57 - 2 ∧
    Posit.pseudosigmoid P32z P32z.topPat = 0 := by decide +kernel

/-- the position of a number without exponent bits, in units of the whole range -/
theorem pos_of_val (he : c.es = 0) {q : ℕ} (h1 : 1 ≤ q) (hq : q < 2 ^ (c.N - 1)) :
    sigmoidPos (c.fmt.val q) = (1 + (q : ℚ) / 2 ^ (c.N - 1)) / 2 := by
  obtain ⟨s, h2, h3⟩ := exists_coord (N := c.N) (es := c.es) h1 hq
  have : c.fmt.val (q : ℤ) = L s := by
    rw [Format.val_natCast h1]
    change posVal c.N c.es q = L s
    rw [h3, he]; simp
  rw [this, sigmoidPos_L, h2]

theorem sigmoidPL_val (h : c.WF) (he : c.es = 0) {v : ℤ} (hv : c.fmt.IsReal v) :
    sigmoidPL (c.fmt.val v) = ((v + 2 ^ (c.N - 1) : ℤ) : ℚ) / 2 ^ c.N := by
  have hm := maxBody_lt' c
  have hN := h.N_ge
  have hb := isReal_bounds.mp hv
  have e2 : (2 : ℚ) ^ c.N = 2 * 2 ^ (c.N - 1) := by rw [← pow_succ']; congr 1; omega
  have hp : (0 : ℚ) < 2 ^ (c.N - 1) := by positivity
  unfold sigmoidPL
  split_ifs with hneg
  · have h0 := (Format.val_neg_iff hv.inRange).mp hneg
    obtain ⟨k, rfl⟩ : ∃ k : ℕ, v = -(k : ℤ) := ⟨(-v).toNat, by omega⟩
    have hk : k < 2 ^ (c.N - 1) := by
      have : (k : ℤ) < 2 ^ (c.N - 1) := by omega
      exact_mod_cast this
    rw [Format.val_neg, neg_neg, pos_of_val he (by omega) hk, e2]
    push_cast
    field_simp
    ring
  · have h0 := nonneg_of_val hv (not_lt.mp hneg)
    obtain ⟨k, rfl⟩ : ∃ k : ℕ, v = (k : ℤ) := ⟨v.toNat, by omega⟩
    have hk : k < 2 ^ (c.N - 1) := by
      have : (k : ℤ) < 2 ^ (c.N - 1) := by omega
      exact_mod_cast this
    rcases Nat.eq_zero_or_pos k with rfl | hk0
    · have hz : c.fmt.val ((0 : ℕ) : ℤ) = 0 := Format.val_zero
      rw [hz, e2]
      unfold sigmoidPos
      rw [if_pos (by norm_num)]
      push_cast
      field_simp
      norm_num
    · rw [pos_of_val he (by omega) hk, e2]
      push_cast
      field_simp
      ring

/-- a quotient rounded down, as a multiple of `1/2^(N-2)` -/
theorem unit_floor (h : c.WF) (he : c.es = 0) {a : ℤ} {d : ℕ} (hd : 1 ≤ d) (h1 : |a| ≤ d * 2 ^ (c.N - 2)) :
    c.fmt.IsReal (a / d) ∧ c.fmt.val (a / d) ≤ (a : ℚ) / d / 2 ^ (c.N - 2) ∧
    (a : ℚ) / d / 2 ^ (c.N - 2) < c.fmt.val (a / d) + 1 / 2 ^ (c.N - 2) := by
  have hd' : (0 : ℤ) < d := by exact_mod_cast hd
  have h1r := (one_real h).1
  rw [abs_le] at h1
  have l1 : -(2 : ℤ) ^ (c.N - 2) ≤ a / d := by rw [Int.le_ediv_iff_mul_le hd']; linarith
  have l2 : a / d ≤ 2 ^ (c.N - 2) := by
    apply Int.ediv_le_of_le_mul hd'; linarith
  have hr : c.fmt.IsReal (a / d) := by
    rw [isReal_bounds, one_eq h] at h1r
    rw [isReal_bounds]; omega
  have hval : c.fmt.val (a / d) = ((a / d : ℤ) : ℚ) / 2 ^ (c.N - 2) := by
    rcases le_or_gt 0 (a / d) with h0 | h0
    · exact val_unit0 h he h0 (by rw [one_eq h]; exact l2)
    · have := val_unit0 h he (v := -(a / d)) (by omega) (by rw [one_eq h]; omega)
      rw [Format.val_neg] at this
      push_cast at this
      rw [neg_div] at this
      linarith
  have hp : (0 : ℚ) < 2 ^ (c.N - 2) := by positivity
  have hdq : (0 : ℚ) < d := by exact_mod_cast hd
  have f1 : ((a / d : ℤ) : ℚ) ≤ (a : ℚ) / d := by
    rw [le_div_iff₀ hdq]
    have := Int.ediv_mul_le a hd'.ne'
    exact_mod_cast this
  have f2 : (a : ℚ) / d < ((a / d : ℤ) : ℚ) + 1 := by
    rw [div_lt_iff₀ hdq]
    have := Int.lt_ediv_add_one_mul_self a hd'
    exact_mod_cast this
  refine ⟨hr, ?_, ?_⟩
  · rw [hval]; exact div_le_div_of_nonneg_right f1 hp.le
  · rw [hval, ← add_div]; exact div_lt_div_of_pos_right f2 hp

/-- **C91**, the value: without exponent bits `pseudosigmoid(x)` is the piecewise linear curve through `(0,1/2)` and
`(±2^k, …)` rounded down to a multiple of `1/2^(N-2)` — for nonnegative posits, and for all posits that fill a 32 or 64-bit
holder. For negative posits in an 8 or 16-bit holder it is the curve at `|x|`, negated and rounded down. -/
theorem C91_value (h : c.WF) (he : c.es = 0) {v : ℤ} (hv : c.fmt.IsReal v) :
    (0 ≤ v ∨ (c.N = c.H ∧ 32 ≤ c.H) → c.fmt.IsReal (Posit.pseudosigmoid c v) ∧
      c.fmt.val (Posit.pseudosigmoid c v) ≤ sigmoidPL (c.fmt.val v) ∧
      sigmoidPL (c.fmt.val v) < c.fmt.val (Posit.pseudosigmoid c v) + 1 / 2 ^ (c.N - 2)) ∧
    (v < 0 → c.H < 32 → c.fmt.IsReal (Posit.pseudosigmoid c v) ∧
      c.fmt.val (Posit.pseudosigmoid c v) ≤ -sigmoidPL (-c.fmt.val v) ∧
      -sigmoidPL (-c.fmt.val v) < c.fmt.val (Posit.pseudosigmoid c v) + 1 / 2 ^ (c.N - 2)) := by
  obtain ⟨p1, p2, -⟩ := C91_pattern h hv.canonical
  have hm := maxBody_lt' c
  have hN := h.N_ge
  have hb := isReal_bounds.mp hv
  have e1 : (2 : ℤ) ^ (c.N - 1) = 2 * 2 ^ (c.N - 2) := by rw [← pow_succ']; congr 1; omega
  have e2 : (2 : ℚ) ^ c.N = 4 * 2 ^ (c.N - 2) := by
    rw [show (4 : ℚ) = 2 ^ 2 by norm_num, ← pow_add]; congr 1; omega
  have key : ∀ a : ℤ, (a : ℚ) / 2 ^ c.N = (a : ℚ) / (4 : ℕ) / 2 ^ (c.N - 2) := by
    intro a; rw [e2, div_div]; push_cast; rfl
  constructor
  · intro hs
    rw [(p1 hs).1, sigmoidPL_val h he hv, key]
    exact unit_floor h he (d := 4) (by norm_num) (by rw [abs_le]; push_cast; omega)
  · intro h0 hH
    have e3 : -sigmoidPL (-c.fmt.val v) = ((v - 2 ^ (c.N - 1) : ℤ) : ℚ) / 2 ^ c.N := by
      rw [← Format.val_neg, sigmoidPL_val h he hv.neg, ← neg_div]; push_cast; congr 1; ring
    rw [(p2 h0 hH).1, e3, key]
    exact unit_floor h he (d := 4) (by norm_num) (by rw [abs_le]; push_cast; omega)

example : P8.WF ∧ P8.es = 0 ∧ P8.fmt.IsReal 112 ∧ P8.fmt.val 112 = 4 ∧ P8.fmt.val (Posit.pseudosigmoid P8 112) = 15 / 16 ∧
    P8.fmt.IsReal (-112) ∧ P8.fmt.val (Posit.pseudosigmoid P8 (-112)) = -15 / 16 := by decide +kernel

/-- **C91**, the curve itself: its points at zero and at the powers of two, and its symmetry -/
theorem C91_curve : sigmoidPL 0 = 1 / 2 ∧ (∀ k : ℕ, sigmoidPL (2 ^ k) = 1 - 1 / 2 ^ (k + 2)) ∧
    (∀ x, x ≠ 0 → sigmoidPL (-x) = 1 - sigmoidPL x) := by
  refine ⟨by unfold sigmoidPL sigmoidPos; norm_num, fun k => ?_, fun x hx => ?_⟩
  · have hp : (0 : ℚ) < 2 ^ k := by positivity
    have hL := L_intCast (k : ℤ)
    rw [zpow_natCast] at hL
    unfold sigmoidPL
    rw [if_neg (by linarith), ← hL, sigmoidPos_L]
    have hG := G_nonneg k (x := 0) le_rfl one_pos
    rw [add_zero] at hG
    push_cast
    rw [hG]
    have : (2 : ℚ) ^ (k + 2) = 4 * 2 ^ k := by rw [pow_add]; ring
    rw [this]
    field_simp
    ring
  · unfold sigmoidPL
    rcases lt_or_gt_of_ne hx with h0 | h0
    · rw [if_neg (by linarith), if_pos h0]; ring
    · rw [if_pos (by linarith), if_neg (by linarith), neg_neg]

example : sigmoidPL 4 = 15 / 16 ∧ sigmoidPL (-4) = 1 / 16 := by
  have h := C91_curve.2.1 2
  have h' := C91_curve.2.2 4 (by norm_num)
  norm_num at h
  rw [h] at h'
  exact ⟨h, by rw [h']; norm_num⟩

/-- **C91**: without exponent bits `pseudosigmoid(x)` is within `1/20 + 1/2^(N-2)` of the logistic function — for nonnegative
posits, and for all posits that fill a 32 or 64-bit holder. -/
theorem C91_logistic (h : c.WF) (he : c.es = 0) {v : ℤ} (hv : c.fmt.IsReal v) (hs : 0 ≤ v ∨ (c.N = c.H ∧ 32 ≤ c.H)) :
    |((c.fmt.val (Posit.pseudosigmoid c v) : ℚ) : ℝ) - logistic (c.fmt.val v : ℚ)| ≤ 1 / 20 + 1 / 2 ^ (c.N - 2) := by
  obtain ⟨-, h1, h2⟩ := (C91_value h he hv).1 hs
  have h1' : ((c.fmt.val (Posit.pseudosigmoid c v) : ℚ) : ℝ) ≤ ((sigmoidPL (c.fmt.val v) : ℚ) : ℝ) := by exact_mod_cast h1
  have h2' : ((sigmoidPL (c.fmt.val v) : ℚ) : ℝ) < ((c.fmt.val (Posit.pseudosigmoid c v) : ℚ) : ℝ) + 1 / 2 ^ (c.N - 2) := by
    have : ((sigmoidPL (c.fmt.val v) : ℚ) : ℝ) < ((c.fmt.val (Posit.pseudosigmoid c v) + 1 / 2 ^ (c.N - 2) : ℚ) : ℝ) := by
      exact_mod_cast h2
    push_cast at this; exact this
  have h3 := sigmoidPL_near (c.fmt.val v)
  rw [abs_le] at h3 ⊢
  constructor <;> linarith [h3.1, h3.2]

example : P32z.WF ∧ P32z.es = 0 ∧ P32z.fmt.IsReal (-3 * 2 ^ 29) ∧ P32z.N = P32z.H ∧ 32 ≤ P32z.H ∧
    P32z.fmt.val (-3 * 2 ^ 29) = -2 ∧ P32z.fmt.val (Posit.pseudosigmoid P32z (-3 * 2 ^ 29)) = 1 / 8 := by decide +kernel

/-- **C91**: negative posits in an 8 or 16-bit holder are at least `1/2` away from the logistic function. -/
theorem C91_logistic_wrong (h : c.WF) (he : c.es = 0) {v : ℤ} (hv : c.fmt.IsReal v) (h0 : v < 0) (hH : c.H < 32) :
    ((c.fmt.val (Posit.pseudosigmoid c v) : ℚ) : ℝ) + 1 / 2 < logistic (c.fmt.val v : ℚ) := by
  obtain ⟨-, h1, -⟩ := (C91_value h he hv).2 h0 hH
  have hn : sigmoidPL (-c.fmt.val v) = ((-v + 2 ^ (c.N - 1) : ℤ) : ℚ) / 2 ^ c.N := by
    rw [← Format.val_neg]; exact sigmoidPL_val h he hv.neg
  have hge : (1 : ℚ) / 2 ≤ sigmoidPL (-c.fmt.val v) := by
    have hN := h.N_ge
    have e2 : (2 : ℚ) ^ c.N = 2 * 2 ^ (c.N - 1) := by rw [← pow_succ']; congr 1; omega
    rw [hn, e2, div_le_div_iff₀ (by norm_num) (by positivity)]
    have : (0 : ℚ) ≤ ((-v : ℤ) : ℚ) := by exact_mod_cast (by omega : (0 : ℤ) ≤ -v)
    push_cast at this ⊢
    linarith
  have h2 : c.fmt.val (Posit.pseudosigmoid c v) ≤ -(1 / 2) := by linarith
  have h3 : ((c.fmt.val (Posit.pseudosigmoid c v) : ℚ) : ℝ) ≤ -(1 / 2) := by
    have : ((c.fmt.val (Posit.pseudosigmoid c v) : ℚ) : ℝ) ≤ ((-(1 / 2) : ℚ) : ℝ) := by exact_mod_cast h2
    push_cast at this; linarith
  have : 0 < logistic (c.fmt.val v : ℚ) := by
    unfold logistic
    have := Real.exp_pos (-((c.fmt.val v : ℚ) : ℝ))
    positivity
  linarith

example : P8.WF ∧ P8.es = 0 ∧ P8.fmt.IsReal (-64) ∧ P8.H < 32 ∧ P8.fmt.val (Posit.pseudosigmoid P8 (-64)) = -3 / 4 := by
  decide +kernel

/-- **C91**: `pseudosigmoid(0)` is `1/2^(2^es)`, which is `1/2` without exponent bits and at least `1/4` too small with them. -/
theorem C91_exponent_wrong (h : c.WF) :
    c.fmt.val (Posit.pseudosigmoid c 0) = 1 / 2 ^ 2 ^ c.es ∧
    (1 ≤ c.es → ((c.fmt.val (Posit.pseudosigmoid c 0) : ℚ) : ℝ) + 1 / 4 ≤ logistic 0) := by
  have hN := h.N_ge
  have hz : c.fmt.IsReal 0 := by rw [isReal_bounds]; omega
  have e1 : (2 : ℤ) ^ (c.N - 1) = 4 * 2 ^ (c.N - 3) := by
    rw [show (4 : ℤ) = 2 ^ 2 by norm_num, ← pow_add]; congr 1; omega
  have hval : c.fmt.val (Posit.pseudosigmoid c 0) = 1 / 2 ^ 2 ^ c.es := by
    rw [((C91_pattern h hz.canonical).1 (Or.inl le_rfl)).1]
    have : (0 + (2 : ℤ) ^ (c.N - 1)) / 4 = ((2 ^ (c.N - 3) : ℕ) : ℤ) := by push_cast; omega
    have hp := Nat.one_le_two_pow (n := c.N - 3)
    rw [this, Format.val_natCast hp]
    change posVal c.N c.es _ = _
    rw [posVal_mid hN le_rfl (by omega)]
    have h1 : (2 : ℚ) ^ c.es * (((2 ^ (c.N - 3) : ℕ) : ℚ) / 2 ^ (c.N - 3) - 2) = ((-(2 ^ c.es : ℕ) : ℤ) : ℚ) := by
      push_cast
      rw [div_self (by positivity)]; ring
    rw [h1, L_intCast, zpow_neg, zpow_natCast, inv_eq_one_div]
  refine ⟨hval, fun he => ?_⟩
  rw [hval]
  have h2 : (2 : ℝ) ^ 2 ≤ 2 ^ 2 ^ c.es :=
    pow_le_pow_right₀ (by norm_num) (le_trans (by norm_num) (Nat.pow_le_pow_right (by norm_num) he : 2 ^ 1 ≤ 2 ^ c.es))
  have h3 : (1 : ℝ) / 2 ^ 2 ^ c.es ≤ 1 / 2 ^ 2 := one_div_le_one_div_of_le (by norm_num) h2
  have h4 : logistic 0 = 1 / 2 := by unfold logistic; norm_num
  rw [h4]
  push_cast
  norm_num at h3 ⊢
  linarith

example : P12.WF ∧ 1 ≤ P12.es ∧ P12.fmt.val (Posit.pseudosigmoid P12 0) = 1 / 4 := by decide +kernel

/-- **C91**, `pseudosoftplus()` of a negative posit that fills a 32 or 64-bit holder, without exponent bits: twice the curve
of `pseudosigmoid`, rounded down to a multiple of `1/2^(N-2)`. -/
theorem C91_softplus_negative (h : c.WF) (he : c.es = 0) {v : ℤ} (hv : c.fmt.IsReal v) (h0 : v < 0) (hs : c.N = c.H ∧ 32 ≤ c.H) :
    c.fmt.IsReal (Posit.pseudosoftplus c v) ∧
    c.fmt.val (Posit.pseudosoftplus c v) ≤ 2 * sigmoidPL (c.fmt.val v) ∧
    2 * sigmoidPL (c.fmt.val v) < c.fmt.val (Posit.pseudosoftplus c v) + 1 / 2 ^ (c.N - 2) := by
  obtain ⟨p1, -, -⟩ := C91_pattern h hv.canonical
  have hm := maxBody_lt' c
  have hN := h.N_ge
  have hb := isReal_bounds.mp hv
  have e1 : (2 : ℤ) ^ (c.N - 1) = 2 * 2 ^ (c.N - 2) := by rw [← pow_succ']; congr 1; omega
  have e2 : (2 : ℚ) ^ c.N = 4 * 2 ^ (c.N - 2) := by
    rw [show (4 : ℚ) = 2 ^ 2 by norm_num, ← pow_add]; congr 1; omega
  have key : ∀ a : ℤ, 2 * ((a : ℚ) / 2 ^ c.N) = (a : ℚ) / (2 : ℕ) / 2 ^ (c.N - 2) := by
    intro a; rw [e2]; push_cast; field_simp; norm_num; ring
  rw [(p1 (Or.inr hs)).2, sigmoidPL_val h he hv, key]
  exact unit_floor h he (d := 2) (by norm_num) (by rw [abs_le]; push_cast; omega)

example : P32z.WF ∧ P32z.es = 0 ∧ P32z.fmt.IsReal (-3 * 2 ^ 29) ∧ P32z.N = P32z.H ∧ 32 ≤ P32z.H ∧
    P32z.fmt.val (-3 * 2 ^ 29) = -2 ∧ P32z.fmt.val (Posit.pseudosoftplus P32z (-3 * 2 ^ 29)) = 1 / 4 := by decide +kernel

end Verif
