import Verif.Props.Extended

/-!
# C96: `urOneMinus()` and `urDeltaPs()` for every posit

`urOneMinus()` subtracts the pattern from that of one (include/posit.h:488). Without exponent bits that is `1 - x` on the unit
range (C25); here is what it is everywhere else.
-/

namespace Verif
open Fmt

variable {c : Cfg}

theorem L_neg_add {s : ℚ} (hs : 0 < s) : 2 < L s + L (-s) := by
  have h1 : 1 < L s := by rw [← L_zero]; exact L_strictMono hs
  have hp := L_pos (-s)
  have h2 : 1 ≤ L s * L (-s) := by
    have hf0 := Int.fract_nonneg s
    have hf1 := Int.fract_lt_one s
    by_cases hx : Int.fract s = 0
    · have e : s = ((⌊s⌋ : ℤ) : ℚ) := by have := Int.floor_add_fract s; linarith
      rw [e, ← Int.cast_neg, L_intCast, L_intCast, ← zpow_add₀ (by norm_num)]
      simp
    · have e1 : L s = 2 ^ ⌊s⌋ * (1 + Int.fract s) := rfl
      have e2 : L (-s) = 2 ^ (-⌊s⌋ - 1) * (1 + (1 - Int.fract s)) := by
        have hpos : 0 < Int.fract s := lt_of_le_of_ne hf0 (Ne.symm hx)
        rw [← L_int_add _ (by linarith) (by linarith)]
        congr 1
        have := Int.floor_add_fract s
        push_cast
        linarith
      rw [e1, e2, zpow_sub₀ (by norm_num), zpow_neg]
      have hz : (2 : ℚ) ^ ⌊s⌋ ≠ 0 := by positivity
      field_simp
      nlinarith
  nlinarith [sq_nonneg (L s - 1), sq_nonneg (L (-s) - 1)]

/-- below one a posit lies on or under the chord of its pattern -/
theorem posVal_chord {N es p : ℕ} (hN : 3 ≤ N) (hp : 1 ≤ p) (hlt : p < 2 ^ (N - 2)) :
    posVal N es p ≤ (p : ℚ) / 2 ^ (N - 2) ∧ (1 ≤ es → posVal N es p < (p : ℚ) / 2 ^ (N - 2)) := by
  have e1 : 2 ^ (N - 1) = 2 * 2 ^ (N - 2) := by rw [← pow_succ']; congr 1; omega
  have e1q : (2 : ℚ) ^ (N - 1) = 2 * 2 ^ (N - 2) := by exact_mod_cast e1
  have hM : (0 : ℚ) < 2 ^ (N - 2) := by positivity
  obtain ⟨s, h1, h2⟩ := exists_coord (N := N) (es := es) hp (by omega)
  have hpq : (p : ℚ) < 2 ^ (N - 2) := by exact_mod_cast hlt
  have hs : s < 0 := by
    rw [← G_lt_iff, ← h1, G_unit (by norm_num) (by norm_num), e1q, div_lt_iff₀ (by positivity)]
    linarith
  have hv : (p : ℚ) / 2 ^ (N - 2) = L s := by
    unfold G at h1
    rw [if_pos hs, e1q] at h1
    field_simp at h1 ⊢
    linarith
  rw [hv, h2]
  have hE : (1 : ℚ) ≤ 2 ^ es := one_le_pow₀ (by norm_num)
  refine ⟨L_le_iff.mpr (by nlinarith), fun he => L_strictMono ?_⟩
  have : (1 : ℚ) < 2 ^ es := one_lt_pow₀ (by norm_num) (by omega)
  nlinarith

/-- above one it lies over it -/
theorem posVal_chord_above {N es p : ℕ} (hN : 3 ≤ N) (hp : 2 ^ (N - 2) < p) (hlt : p < 2 ^ (N - 1)) :
    (p : ℚ) / 2 ^ (N - 2) < posVal N es p := by
  have e1 : 2 ^ (N - 1) = 2 * 2 ^ (N - 2) := by rw [← pow_succ']; congr 1; omega
  have e1q : (2 : ℚ) ^ (N - 1) = 2 * 2 ^ (N - 2) := by exact_mod_cast e1
  have hM : (0 : ℚ) < 2 ^ (N - 2) := by positivity
  obtain ⟨s, h1, h2⟩ := exists_coord (N := N) (es := es) (p := p) (by omega) hlt
  have hpq : (2 : ℚ) ^ (N - 2) < p := by exact_mod_cast hp
  have hs : 0 < s := by
    rw [← G_lt_iff, ← h1, G_unit (by norm_num) (by norm_num), e1q, lt_div_iff₀ (by positivity)]
    linarith
  have hv : (p : ℚ) / 2 ^ (N - 2) = 2 - L (-s) := by
    unfold G at h1
    rw [if_neg (not_lt.mpr hs.le), e1q] at h1
    field_simp at h1 ⊢
    linarith
  rw [hv, h2]
  have hE : (1 : ℚ) ≤ 2 ^ es := one_le_pow₀ (by norm_num)
  have : L s ≤ L (2 ^ es * s) := L_le_iff.mpr (by nlinarith)
  have := L_neg_add hs
  linarith

/-- **C96**, the unit range: `urOneMinus()` is a decreasing map of the unit range onto itself, its own inverse, and exchanges 0
and 1, in every format. -/
theorem C96_involution (h : c.WF) {v : ℤ} (hv : c.fmt.IsReal v) (h0 : 0 ≤ c.fmt.val v) (h1 : c.fmt.val v ≤ 1) :
    c.fmt.IsReal (Posit.urOneMinus c v) ∧ 0 ≤ c.fmt.val (Posit.urOneMinus c v) ∧ c.fmt.val (Posit.urOneMinus c v) ≤ 1 ∧
    Posit.urOneMinus c (Posit.urOneMinus c v) = v ∧ Posit.urOneMinus c 0 = c.one ∧ Posit.urOneMinus c c.one = 0 ∧
    ∀ w, c.fmt.IsReal w → c.fmt.val w ≤ 1 → c.fmt.val v < c.fmt.val w →
      c.fmt.val (Posit.urOneMinus c w) < c.fmt.val (Posit.urOneMinus c v) := by
  have hu := ((C25_isUnitRange h).1 hv).mpr ⟨h0, h1⟩
  unfold Posit.isUnitRange at hu
  simp at hu
  have ho : 0 ≤ c.one := by rw [one_eq h]; positivity
  have h1r := (one_real h).1
  have hr : ∀ {x}, 0 ≤ x → x ≤ c.one → c.fmt.IsReal x := fun {x} a b => by
    rw [isReal_bounds] at h1r ⊢; omega
  have hun : ∀ {x}, 0 ≤ x → x ≤ c.one → 0 ≤ c.fmt.val x ∧ c.fmt.val x ≤ 1 := fun {x} a b =>
    ((C25_isUnitRange h).1 (hr a b)).mp (by unfold Posit.isUnitRange; simp; exact ⟨a, b⟩)
  rw [urOneMinus_eq h hu.1 hu.2]
  obtain ⟨a1, a2⟩ := hun (x := c.one - v) (by omega) (by omega)
  refine ⟨hr (by omega) (by omega), a1, a2, ?_, ?_, ?_, ?_⟩
  · rw [urOneMinus_eq h (by omega) (by omega)]; ring
  · rw [urOneMinus_eq h le_rfl ho]; ring
  · rw [urOneMinus_eq h ho le_rfl]; ring
  · intro w hw hw1 hlt
    have hvw : v < w := (Format.val_lt_iff hv.inRange hw.inRange).mp hlt
    have huw := ((C25_isUnitRange h).1 hw).mpr ⟨by linarith, hw1⟩
    unfold Posit.isUnitRange at huw
    simp at huw
    rw [urOneMinus_eq h huw.1 huw.2]
    exact (Format.val_lt_iff (hr (by omega) (by omega)).inRange (hr (by omega) (by omega)).inRange).mpr (by omega)

example : P16.WF ∧ P16.fmt.IsReal 12000 ∧ P16.fmt.val 12000 = 119 / 512 ∧ Posit.urOneMinus P16 12000 = 4384 ∧
    Posit.urOneMinus P16 4384 = 12000 := by decide +kernel

/-- the pattern `urOneMinus()` computes -/
theorem urOneMinus_pat (h : c.WF) {v : ℤ} (hv : c.fmt.IsReal v) :
    Posit.urOneMinus c v = if c.N = c.H ∧ v ≤ -c.one then c.one - v - 2 ^ c.N else c.one - v := by
  have hi := invertBit_lt h
  have hm := maxBody_lt' c
  have hN3 := h.N_ge
  have hpos : (0 : ℤ) < 2 ^ (c.N - 2) := by positivity
  have e4 : (2 : ℤ) ^ c.N = 4 * 2 ^ (c.N - 2) := by
    rw [show c.N = (c.N - 2) + 2 by omega, pow_add]; norm_num; ring
  rw [isReal_bounds] at hv
  rw [one_eq h]
  unfold Posit.urOneMinus Cfg.invertBit
  rw [← natCast_pow2]
  by_cases hc : c.N = c.H ∧ v ≤ -2 ^ (c.N - 2)
  · rw [if_pos hc, ← hc.1]
    have e : (2 : ℤ) ^ (c.N - 2) - v = ((2 : ℤ) ^ (c.N - 2) - v - 2 ^ c.N) + 2 ^ c.N := by ring
    have : wrapS c.N ((2 : ℤ) ^ (c.N - 2) - v) = wrapS c.N ((2 : ℤ) ^ (c.N - 2) - v - 2 ^ c.N) := by
      conv_lhs => rw [e]
      unfold wrapS
      rw [natCast_pow2 c.N]
      exact Int.add_bmod_right _ _
    rw [this]
    exact wrapS_of_inS (by omega) (by unfold InS; omega)
  · rw [if_neg hc]
    refine wrapS_of_inS (by have := h.H_pos; omega) ?_
    by_cases hNH : c.N = c.H
    · have : -2 ^ (c.N - 2) < v := by by_contra hh; exact hc ⟨hNH, by omega⟩
      exact inS_real h (by omega) (by omega)
    · have : (2 : ℤ) ^ c.N ≤ 2 ^ (c.H - 1) := pow_le_pow_right₀ (by norm_num) (by have := h.hN; omega)
      unfold InS; omega

/-- the value of a positive posit against the chord through 0 and 1 -/
theorem val_chord (h : c.WF) {v : ℤ} (hv : c.fmt.IsReal v) (h0 : 0 < v) :
    (v < c.one → c.fmt.val v ≤ (v : ℚ) / 2 ^ (c.N - 2) ∧ (1 ≤ c.es → c.fmt.val v < (v : ℚ) / 2 ^ (c.N - 2))) ∧
    (c.one < v → (v : ℚ) / 2 ^ (c.N - 2) < c.fmt.val v) := by
  have hm := maxBody_lt' c
  have hN3 := h.N_ge
  have hb := isReal_bounds.mp hv
  obtain ⟨p, rfl⟩ := Int.eq_ofNat_of_zero_le h0.le
  rw [one_eq h, natCast_pow2]
  rw [natCast_pow2] at hm
  have hp : 1 ≤ p := by omega
  rw [Format.val_natCast hp, fmt_N, fmt_es]
  constructor
  · intro hlt
    have := posVal_chord (es := c.es) hN3 hp (by omega)
    simpa using this
  · intro hlt
    have := posVal_chord_above (es := c.es) hN3 (p := p) (by omega) (by omega)
    simpa using this

/-- **C96**, the unit range with exponent bits: strictly inside it `urOneMinus()` is always less than `1 - x`. -/
theorem C96_below (h : c.WF) (he : 1 ≤ c.es) {v : ℤ} (hv : c.fmt.IsReal v) (h0 : 0 < c.fmt.val v) (h1 : c.fmt.val v < 1) :
    0 < c.fmt.val (Posit.urOneMinus c v) ∧ c.fmt.val (Posit.urOneMinus c v) < 1 - c.fmt.val v := by
  obtain ⟨r1, -⟩ := one_real h
  have v1 : c.fmt.val c.one = 1 := val_one h
  have p0 := (Format.val_pos_iff hv.inRange).mp h0
  have p1 : v < c.one := by rw [← v1, Format.val_lt_iff hv.inRange r1.inRange] at h1; exact h1
  rw [urOneMinus_eq h p0.le p1.le]
  have hr : c.fmt.IsReal (c.one - v) := by rw [isReal_bounds] at hv r1 ⊢; omega
  have a := ((val_chord h hv p0).1 p1).2 he
  have b := ((val_chord h hr (by omega)).1 (by omega)).2 he
  refine ⟨(Format.val_pos_iff hr.inRange).mpr (by omega), ?_⟩
  have e : ((c.one - v : ℤ) : ℚ) / 2 ^ (c.N - 2) = 1 - (v : ℚ) / 2 ^ (c.N - 2) := by
    rw [one_eq h]; push_cast; field_simp
  rw [e] at b
  linarith

example : P12.WF ∧ 1 ≤ P12.es ∧ P12.fmt.val 768 = 1 / 2 ∧ P12.fmt.val (Posit.urOneMinus P12 768) = 1 / 16 := by decide +kernel

/-- **C96**, above one: a number strictly between -1 and 0, and greater than `1 - x`. -/
theorem C96_above (h : c.WF) {v : ℤ} (hv : c.fmt.IsReal v) (h1 : 1 < c.fmt.val v) :
    c.fmt.IsReal (Posit.urOneMinus c v) ∧ -1 < c.fmt.val (Posit.urOneMinus c v) ∧ c.fmt.val (Posit.urOneMinus c v) < 0 ∧
    1 - c.fmt.val v < c.fmt.val (Posit.urOneMinus c v) := by
  obtain ⟨r1, -⟩ := one_real h
  have v1 : c.fmt.val c.one = 1 := val_one h
  have hi := invertBit_lt h
  have hm := maxBody_lt' c
  have hpos : (0 : ℤ) < 2 ^ (c.N - 2) := by positivity
  have p1 : c.one < v := by rw [← v1, Format.val_lt_iff r1.inRange hv.inRange] at h1; exact h1
  have ho := one_eq h
  have hvb := isReal_bounds.mp hv
  have h1b := isReal_bounds.mp r1
  rw [urOneMinus_pat h hv, if_neg (by omega)]
  have hr : c.fmt.IsReal (v - c.one) := by rw [isReal_bounds]; omega
  have hr' : c.fmt.IsReal (c.one - v) := by rw [isReal_bounds]; omega
  have a := (val_chord h hv (by omega)).2 p1
  have b := ((val_chord h hr (by omega)).1 (by omega)).1
  have en : c.fmt.val (c.one - v) = -c.fmt.val (v - c.one) := by rw [← Format.val_neg]; congr 1; ring
  have e : ((v - c.one : ℤ) : ℚ) / 2 ^ (c.N - 2) = (v : ℚ) / 2 ^ (c.N - 2) - 1 := by
    rw [one_eq h]; push_cast; field_simp
  rw [e] at b
  have hlt : c.fmt.val (v - c.one) < 1 := by
    rw [← v1, Format.val_lt_iff hr.inRange r1.inRange]; omega
  exact ⟨hr', by rw [en]; linarith, (Format.val_neg_iff hr'.inRange).mpr (by omega), by rw [en]; linarith⟩

example : P16.WF ∧ P16.fmt.IsReal 20480 ∧ P16.fmt.val 20480 = 4 ∧ P16.fmt.val (Posit.urOneMinus P16 20480) = -1 / 256 := by
  decide +kernel

/-- **C96**, between -1 and 0: greater than `1 - x`, or infinity (for the last posit before -1 in a format with two
infinities). -/
theorem C96_negative (h : c.WF) {v : ℤ} (hv : c.fmt.IsReal v) (h0 : c.fmt.val v < 0) (h1 : -1 < c.fmt.val v) :
    (c.fmt.IsReal (Posit.urOneMinus c v) ∧ 1 - c.fmt.val v < c.fmt.val (Posit.urOneMinus c v)) ∨
    (c.spec = .withNanInf ∧ v = c.mone + 1 ∧ Posit.urOneMinus c v = c.infPat false) := by
  obtain ⟨r1, -⟩ := one_real h
  have v1 : c.fmt.val c.one = 1 := val_one h
  have hi := invertBit_lt h
  have hm := maxBody_ge h
  have hpos : (0 : ℤ) < 2 ^ (c.N - 2) := by positivity
  have p0 : v < 0 := (Format.val_neg_iff hv.inRange).mp h0
  have hn : c.fmt.IsReal (-v) := by rw [isReal_bounds] at hv ⊢; omega
  have vn : c.fmt.val (-v) = -c.fmt.val v := Format.val_neg _ _
  have p1 : -v < c.one := by
    rw [← Format.val_lt_iff hn.inRange r1.inRange, v1, vn]; linarith
  have ho := one_eq h
  have hmo : c.mone = -2 ^ (c.N - 2) := mone_eq h
  rw [urOneMinus_pat h hv, if_neg (by omega)]
  by_cases hr : c.fmt.IsReal (c.one - v)
  · left
    refine ⟨hr, ?_⟩
    have a := (val_chord h hr (by omega)).2 (by omega)
    have b := ((val_chord h hn (by omega)).1 p1).1
    have e : ((c.one - v : ℤ) : ℚ) / 2 ^ (c.N - 2) = 1 + ((-v : ℤ) : ℚ) / 2 ^ (c.N - 2) := by
      rw [one_eq h]; push_cast; field_simp; ring
    rw [e] at a
    rw [vn] at b
    linarith
  · right
    rw [isReal_bounds] at hr
    have hmb : c.fmt.maxBody = if c.fmt.twoInf then 2 ^ (c.fmt.N - 1) - 2 else 2 ^ (c.fmt.N - 1) - 1 := rfl
    rw [fmt_N] at hmb
    have hi2 := hi.2
    rw [natCast_pow2 (c.N - 1)] at hi2
    have hs : c.spec = .withNanInf := by
      by_contra hs
      rw [if_neg (by simpa [Cfg.fmt] using hs)] at hmb
      omega
    rw [if_pos (by simpa [Cfg.fmt] using hs)] at hmb
    refine ⟨hs, by omega, ?_⟩
    unfold Cfg.infPat
    rw [if_pos hs, if_neg (by simp)]
    omega

example : P8i.WF ∧ P8i.fmt.IsReal (-63) ∧ P8i.fmt.val (-63) = -15 / 16 ∧ Posit.urOneMinus P8i (-63) = P8i.infPat false ∧
    Posit.urOneMinus P8i (-62) = 126 ∧ P8i.fmt.val (-62) = -7 / 8 ∧ P8i.fmt.val 126 = 2 ^ 20 := by decide +kernel

/-- **C96**, at and below -1: the pattern wraps to one below that of -1 if the format fills the holder, and is not a
(sign-extended) pattern of the format otherwise. -/
theorem C96_low (h : c.WF) {v : ℤ} (hv : c.fmt.IsReal v) (h1 : c.fmt.val v ≤ -1) :
    (c.N = c.H → Posit.urOneMinus c v < c.mone ∧ c.fmt.IsCanonical (Posit.urOneMinus c v) ∧
      (c.fmt.IsReal (Posit.urOneMinus c v) → c.fmt.val (Posit.urOneMinus c v) < -1)) ∧
    (c.N < c.H → ¬ c.fmt.IsCanonical (Posit.urOneMinus c v)) := by
  obtain ⟨r1, -⟩ := one_real h
  have v1 : c.fmt.val c.one = 1 := val_one h
  have hi := invertBit_lt h
  have hm := maxBody_lt' c
  have hN3 := h.N_ge
  have hpos : (0 : ℤ) < 2 ^ (c.N - 2) := by positivity
  have e4 : (2 : ℤ) ^ c.N = 4 * 2 ^ (c.N - 2) := by
    rw [show c.N = (c.N - 2) + 2 by omega, pow_add]; norm_num; ring
  have hmo : c.mone = -c.one := by rw [mone_eq h, one_eq h]
  have rm : c.fmt.IsReal (-c.one) := by rw [isReal_bounds] at r1 ⊢; omega
  have vm : c.fmt.val (-c.one) = -1 := by rw [Format.val_neg, v1]
  have p1 : v ≤ -c.one := by
    rw [← Format.val_le_iff hv.inRange rm.inRange, vm]; exact h1
  have ho := one_eq h
  have hvb := isReal_bounds.mp hv
  rw [urOneMinus_pat h hv]
  constructor
  · intro hN
    rw [if_pos ⟨hN, p1⟩]
    refine ⟨by omega, ?_, fun hr => ?_⟩
    · unfold Format.IsCanonical; rw [fmt_N]; omega
    · rw [← vm, Format.val_lt_iff hr.inRange rm.inRange]; omega
  · intro hN
    rw [if_neg (by omega)]
    unfold Format.IsCanonical; rw [fmt_N]; omega

example : P16.WF ∧ P16.N = P16.H ∧ P16.fmt.val (-18432) = -2 ∧ P16.fmt.val (Posit.urOneMinus P16 (-18432)) = -4096 := by
  decide +kernel
example : P12.WF ∧ P12.N < P12.H ∧ P12.fmt.val (-1024) = -1 ∧ Posit.urOneMinus P12 (-1024) = 2048 := by decide +kernel

/-- **C96**: `urOneMinus()` is the number `1 - x` exactly at 0, at 1 and, if there are no exponent bits, in between. -/
theorem C96_iff (h : c.WF) {v : ℤ} (hv : c.fmt.IsReal v) :
    (c.fmt.IsReal (Posit.urOneMinus c v) ∧ c.fmt.val (Posit.urOneMinus c v) = 1 - c.fmt.val v) ↔
    c.fmt.val v = 0 ∨ c.fmt.val v = 1 ∨ (c.es = 0 ∧ 0 ≤ c.fmt.val v ∧ c.fmt.val v ≤ 1) := by
  obtain ⟨r1, -⟩ := one_real h
  have v1 : c.fmt.val c.one = 1 := val_one h
  constructor
  · rintro ⟨hr, he⟩
    rcases lt_or_ge (c.fmt.val v) 0 with hn | hn
    · exfalso
      rcases lt_or_ge (-1) (c.fmt.val v) with hl | hl
      · rcases C96_negative h hv hn hl with ⟨-, a⟩ | ⟨a, b, d⟩
        · linarith
        · rw [d] at hr
          rw [isReal_bounds] at hr
          have hm := maxBody_ge h
          have hmb : c.fmt.maxBody = if c.fmt.twoInf then 2 ^ (c.fmt.N - 1) - 2 else 2 ^ (c.fmt.N - 1) - 1 := rfl
          rw [fmt_N, if_pos (by simpa [Cfg.fmt] using a)] at hmb
          unfold Cfg.infPat at hr
          rw [if_pos a, if_neg (by simp), natCast_pow2] at hr
          have := Nat.one_le_two_pow (n := c.N - 2)
          have hi2 := (invertBit_lt h).2
          rw [natCast_pow2, natCast_pow2 (c.N - 2)] at hi2
          omega
      · obtain ⟨a, b⟩ := C96_low h hv hl
        rcases lt_or_eq_of_le h.hN with hN | hN
        · refine b hN ?_
          have := maxBody_lt' c
          rw [isReal_bounds] at hr
          unfold Format.IsCanonical
          rw [fmt_N]; omega
        · have := (a hN).2.2 hr
          linarith
    · rcases lt_or_ge 1 (c.fmt.val v) with hg | hg
      · have := (C96_above h hv hg).2.2.2
        linarith
      · rcases Nat.eq_zero_or_pos c.es with hes | hes
        · exact .inr (.inr ⟨hes, hn, hg⟩)
        · rcases eq_or_lt_of_le hn with h0 | h0
          · exact .inl h0.symm
          · rcases eq_or_lt_of_le hg with h1 | h1
            · exact .inr (.inl h1)
            · have := (C96_below h hes hv h0 h1).2
              linarith
  · rintro (h0 | h1 | ⟨he, h0, h1⟩)
    · have e := (C96_involution h hv h0.ge (by linarith)).2.2.2.2.1
      have : v = 0 := (Format.val_eq_zero_iff hv.inRange).mp h0
      subst this
      rw [e, h0, v1]
      exact ⟨r1, by norm_num⟩
    · obtain ⟨a, -, -, -, -, e, -⟩ := C96_involution h hv (by linarith) h1.le
      have : v = c.one := (Format.val_inj hv.inRange r1.inRange).mp (h1.trans v1.symm)
      rw [this] at a ⊢
      rw [e] at a ⊢
      exact ⟨a, by rw [v1]; simp⟩
    · exact C25_urOneMinus_partial h he hv h0 h1

example : P16.WF ∧ P16.es = 2 ∧ P16.fmt.IsReal 16383 ∧
    P16.fmt.val (Posit.urOneMinus P16 16383) ≠ 1 - P16.fmt.val 16383 := by decide +kernel

/-- **C96**, `urDeltaPs()` in the unit range: the product of `x` and the number `urOneMinus()` computes, rounded toward zero,
or the undefined shift of the product; zero at the ends. With exponent bits, inside, that product is less than `x(1-x)`. -/
theorem C96_urDeltaPs (h : c.WF) (hF : c.fb + 2 ≤ c.F) {v : ℤ} (hv : c.fmt.IsReal v) (h0 : 0 ≤ c.fmt.val v)
    (h1 : c.fmt.val v ≤ 1) :
    Outcome c (c.fmt.val v * c.fmt.val (Posit.urOneMinus c v)) (Posit.urDeltaPs c v) ∧
    (c.fmt.val v = 0 ∨ c.fmt.val v = 1 → Posit.urDeltaPs c v = .ok 0) ∧
    (1 ≤ c.es → 0 < c.fmt.val v → c.fmt.val v < 1 → 0 < c.fmt.val v * c.fmt.val (Posit.urOneMinus c v) ∧
      c.fmt.val v * c.fmt.val (Posit.urOneMinus c v) < c.fmt.val v * (1 - c.fmt.val v)) := by
  have hr := (C96_involution h hv h0 h1).1
  have hcan : ∀ {x}, c.fmt.IsReal x → c.fmt.IsCanonical x := fun {x} hx => by
    have := maxBody_lt' c
    rw [isReal_bounds] at hx
    unfold Format.IsCanonical
    rw [fmt_N]; omega
  have ho : Outcome c (c.fmt.val v * c.fmt.val (Posit.urOneMinus c v)) (Posit.urDeltaPs c v) := by
    have := C88_mul h hF (hcan hv) (hcan hr)
    rw [ext_real hv, ext_real hr] at this
    exact this
  refine ⟨ho, fun hz => ?_, fun he a b => ?_⟩
  · have hp : c.fmt.val v * c.fmt.val (Posit.urOneMinus c v) = c.fmt.val 0 := by
      have := ((C96_iff h hv).mpr (hz.imp_right .inl)).2
      rw [this, Format.val_zero]
      rcases hz with hz | hz <;> rw [hz] <;> norm_num
    rw [hp] at ho
    exact ho.exact (by unfold Format.IsReal; omega) (.inl Format.val_zero)
  · obtain ⟨a1, a2⟩ := C96_below h he hv a b
    exact ⟨by positivity, by nlinarith⟩

example : P16.WF ∧ P16.fb + 2 ≤ P16.F ∧ P16.fmt.val 15360 = 3 / 4 ∧ Posit.urDeltaPs P16 15360 = .ok 960 ∧
    P16.fmt.val 960 = 3 / 262144 := by decide +kernel

end Verif
