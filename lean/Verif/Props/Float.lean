import Verif.Lemmas.Float
import Verif.Props.Special
import Verif.Props.Convert
import Verif.Spec.Special
import Verif.Model.Instances

/-! # Conversion from and to IEEE floats (C22, C23, C33, C41, C51) -/

namespace Verif
open Fmt

variable {c : Cfg} {F E eb fb : ℕ} {dn : Bool}

/-! ## C51: the trait constants -/

/-- the hand-written traits are instances of the generic one — `half`, `single` and `double` are binary16/32/64 -/
theorem C51_traits : FTrait.half = .any 5 10 ∧ FTrait.single = .any 8 23 ∧ FTrait.double = .any 11 52 := by
  decide +kernel

theorem ieee_join {s : Bool} {x m : ℕ} (hm : m < 2 ^ fb) (h1 : 1 ≤ x) (h2 : x + 2 ≤ 2 ^ eb) :
    ieee eb fb (fJoin eb fb s x m) =
      .num ((if s then -1 else 1 : ℚ) * ((2 ^ fb + m) * 2 ^ ((x : ℤ) - (2 ^ (eb - 1) - 1) - fb))) := by
  rw [ieee_eq, fJoin_sign (by omega) hm, fJoin_exp (by omega) hm, fJoin_man hm, if_neg (by omega), if_neg (by omega)]

theorem two_le_pow (heb : 2 ≤ eb) : 2 ≤ 2 ^ (eb - 1) := by
  calc 2 = 2 ^ 1 := by norm_num
    _ ≤ _ := Nat.pow_le_pow_right (by norm_num) (by omega)

theorem cast_bias (heb : 2 ≤ eb) : ((2 ^ (eb - 1) - 1 : ℕ) : ℤ) = 2 ^ (eb - 1) - 1 := by
  have := two_le_pow heb
  push_cast [show 1 ≤ 2 ^ (eb - 1) by omega]; ring

theorem any_max (heb : 2 ≤ eb) (s : Bool) :
    (if s then (FTrait.any eb fb dn).lowest else (FTrait.any eb fb dn).max) = fJoin eb fb s (2 ^ eb - 2) (2 ^ fb - 1) := by
  have hm : 2 ^ fb - 1 < 2 ^ fb := by have := Nat.one_le_two_pow (n := fb); omega
  have h2 := two_pow_pred_nat (w := eb) (by omega)
  have hx : 2 ^ eb - 2 < 2 ^ eb := by have := two_le_pow heb; omega
  have e0 : (2 ^ (eb - 1) - 1) <<< (fb + 1) = 2 ^ fb * (2 ^ eb - 2) := by
    rw [Nat.shiftLeft_eq, h2, pow_succ]
    rw [show 2 * 2 ^ (eb - 1) - 2 = 2 * (2 ^ (eb - 1) - 1) by omega]; ring
  have e1 : (2 ^ (eb - 1) - 1) <<< (fb + 1) ||| (2 ^ fb - 1) = 2 ^ fb * (2 ^ eb - 2) + (2 ^ fb - 1) := by
    rw [e0]; exact (Nat.two_pow_add_eq_or_of_lt hm _).symm
  have hlow := fJoin_low hx hm
  cases s
  · show (2 ^ (eb - 1) - 1) <<< (fb + 1) ||| (2 ^ fb - 1) = _
    rw [e1]; unfold fJoin; simp; ring
  · show ((2 ^ (eb - 1) - 1) <<< (fb + 1) ||| (2 ^ fb - 1)) ||| 2 ^ (eb + fb) = _
    rw [e1]; unfold fJoin
    rw [mul_comm] at hlow
    have := Nat.two_pow_add_eq_or_of_lt hlow 1
    rw [mul_one] at this
    rw [Nat.or_comm, ← this]; simp; ring

theorem any_inf (heb : 2 ≤ eb) (s : Bool) :
    (if s then (FTrait.any eb fb dn).ninf else (FTrait.any eb fb dn).pinf) = fJoin eb fb s (2 ^ eb - 1) 0 := by
  have hx : 2 ^ eb - 1 < 2 ^ eb := by have := Nat.one_le_two_pow (n := eb); omega
  have hlow := fJoin_low (fb := fb) hx (m := 0) (by positivity)
  cases s
  · show (2 ^ eb - 1) <<< fb = _
    rw [Nat.shiftLeft_eq]; unfold fJoin; simp
  · show (2 ^ eb - 1) <<< fb ||| 2 ^ (eb + fb) = _
    rw [Nat.shiftLeft_eq]; unfold fJoin
    have := Nat.two_pow_add_eq_or_of_lt hlow 1
    rw [mul_one] at this
    rw [Nat.or_comm]
    simp only [add_zero] at this ⊢
    rw [← this]; simp

theorem any_nan (hfb : 1 ≤ fb) : (FTrait.any eb fb dn).nan = fJoin eb fb false (2 ^ eb - 1) (2 ^ (fb - 1)) := by
  show (2 ^ (eb + 1) - 1) <<< (fb - 1) = _
  rw [Nat.shiftLeft_eq]; unfold fJoin
  have h1 := two_pow_pred_nat (w := fb) hfb
  have h2 := Nat.one_le_two_pow (n := eb)
  rw [h1, pow_succ, show 2 ^ eb * 2 - 1 = 2 * (2 ^ eb - 1) + 1 by omega]
  simp; ring

/-- **C51**: the constants of `any_floattrait` (hence of `half_trait`, `single_trait`, `double_trait`) mean what they say:
one, two, the greatest and least finite numbers, the least normal number, the infinities and a NaN. -/
theorem C51_constants (heb : 2 ≤ eb) (hfb : 1 ≤ fb) :
    let t := FTrait.any eb fb dn
    ieee eb fb t.one = .num 1 ∧ ieee eb fb t.two = .num 2 ∧
    ieee eb fb t.min = .num (2 ^ ((2 : ℤ) - 2 ^ (eb - 1))) ∧
    ieee eb fb t.max = .num ((2 - 1 / 2 ^ fb) * 2 ^ ((2 : ℤ) ^ (eb - 1) - 1)) ∧
    ieee eb fb t.lowest = .num (-((2 - 1 / 2 ^ fb) * 2 ^ ((2 : ℤ) ^ (eb - 1) - 1))) ∧
    ieee eb fb t.pinf = .inf false ∧ ieee eb fb t.ninf = .inf true ∧ ieee eb fb t.nan = .nan := by
  intro t
  have h2 := two_pow_pred_nat (w := eb) (by omega)
  have h3 := two_le_pow heb
  have hb := cast_bias heb
  have hp1 := Nat.one_le_two_pow (n := fb)
  have hpq : (0 : ℚ) < 2 ^ fb := by positivity
  have hmaxv : ∀ s : Bool, ieee eb fb (fJoin eb fb s (2 ^ eb - 2) (2 ^ fb - 1)) =
      .num ((if s then -1 else 1 : ℚ) * ((2 - 1 / 2 ^ fb) * 2 ^ ((2 : ℤ) ^ (eb - 1) - 1))) := by
    intro s
    rw [ieee_join (by omega) (by omega) (by omega)]
    congr 2
    have e1 : ((2 ^ eb - 2 : ℕ) : ℤ) - (2 ^ (eb - 1) - 1) - fb = ((2 : ℤ) ^ (eb - 1) - 1) - fb := by
      rw [h2, show 2 * 2 ^ (eb - 1) - 2 = 2 * (2 ^ (eb - 1) - 1) by omega, Nat.cast_mul, hb]; push_cast; ring
    rw [e1, zpow_sub₀ (by norm_num), zpow_natCast, Nat.cast_sub hp1]
    push_cast
    field_simp
    ring
  have hinfv : ∀ s : Bool, ieee eb fb (fJoin eb fb s (2 ^ eb - 1) 0) = .inf s := by
    intro s
    rw [ieee_eq, fJoin_sign (by omega) (by positivity), fJoin_exp (by omega) (by positivity), fJoin_man (by positivity),
      if_pos rfl, if_pos rfl]
  refine ⟨?_, ?_, ?_, ?_, ?_, ?_, ?_, ?_⟩
  · have : t.one = fJoin eb fb false (2 ^ (eb - 1) - 1) 0 := by
      show (2 ^ (eb - 1) - 1) <<< fb = _
      rw [Nat.shiftLeft_eq]; unfold fJoin; simp
    rw [this, ieee_join (by positivity) (by omega) (by omega), hb]
    simp
  · have : t.two = fJoin eb fb false (2 ^ (eb - 1)) 0 := by
      show 1 <<< (eb - 1 + fb) = _
      rw [Nat.shiftLeft_eq, pow_add]; unfold fJoin; simp
    rw [this, ieee_join (by positivity) (by omega) (by omega)]
    congr 1
    push_cast
    rw [show (2 : ℤ) ^ (eb - 1) - (2 ^ (eb - 1) - 1) - fb = 1 - fb by ring, zpow_sub₀ (by norm_num), zpow_natCast]
    simp
    field_simp
  · have : t.min = fJoin eb fb false 1 0 := by
      show 1 <<< fb = _
      rw [Nat.shiftLeft_eq]; unfold fJoin; simp
    rw [this, ieee_join (by positivity) (by omega) (by omega)]
    congr 1
    push_cast
    rw [show (1 : ℤ) - (2 ^ (eb - 1) - 1) - fb = (2 - 2 ^ (eb - 1)) - fb by ring, zpow_sub₀ (by norm_num), zpow_natCast]
    field_simp
    simp
  · have := any_max (fb := fb) (dn := dn) heb false
    simp only [Bool.false_eq_true, if_false] at this
    have e := hmaxv false
    rw [← this] at e
    simpa using e
  · have := any_max (fb := fb) (dn := dn) heb true
    simp only [if_true] at this
    have e := hmaxv true
    rw [← this] at e
    simpa using e
  · have := any_inf (fb := fb) (dn := dn) heb false
    simp only [Bool.false_eq_true, if_false] at this
    have e := hinfv false
    rwa [← this] at e
  · have := any_inf (fb := fb) (dn := dn) heb true
    simp only [if_true] at this
    have e := hinfv true
    rwa [← this] at e
  · show ieee eb fb (FTrait.any eb fb dn).nan = _
    have hh := two_pow_pred_nat (w := fb) hfb
    have hp := Nat.one_le_two_pow (n := fb - 1)
    rw [any_nan hfb, ieee_eq, fJoin_exp (by omega) (by omega), fJoin_man (by omega), if_pos rfl, if_neg (by omega)]

example : FTrait.single.max = 0x7f7fffff ∧ FTrait.bfloat16.one = 0x3f80 ∧ FTrait.micro.lowest = 0xfb := by decide +kernel

/-- **C51**: `microfloat_trait`, `half_traitalt` and `bfloat16_trait`; bfloat16 has the exponent range of `float`. -/
theorem C51_small : FTrait.micro.dataBits = 8 ∧ ieee 5 2 FTrait.micro.one = .num 1 ∧ ieee 5 2 FTrait.micro.max = .num 57344 ∧
    ieee 5 2 FTrait.micro.min = .num (2 ^ (-14 : ℤ)) ∧
    ∀ t ∈ [FTrait.halfAlt, FTrait.bfloat16], t.dataBits = 16 ∧ ieee 8 7 t.one = .num 1 ∧ ieee 8 7 t.two = .num 2 ∧
      ieee 8 7 t.max = .num (255 * 2 ^ (120 : ℤ)) ∧ ieee 8 7 t.min = .num (2 ^ (-126 : ℤ)) ∧
      ieee 8 7 t.pinf = .inf false ∧ ieee 8 7 t.ninf = .inf true ∧ ieee 8 7 t.nan = .nan := by
  refine ⟨by decide, ?_, ?_, ?_, ?_⟩
  · norm_num [ieee, show FTrait.micro.one = 0x3c by decide +kernel]
  · norm_num [ieee, show FTrait.micro.max = 0x7b by decide +kernel]
  · norm_num [ieee, show FTrait.micro.min = 4 by decide +kernel]
  · intro t ht
    simp only [List.mem_cons, List.not_mem_nil, or_false] at ht
    have e1 : t.dataBits = 16 ∧ t.one = 0x3f80 ∧ t.two = 0x4000 ∧ t.max = 0x7f7f ∧ t.min = 0x80 ∧ t.pinf = 0x7f80 ∧ t.ninf = 0xff80 ∧
        t.nan = 0x7fc0 := by
      rcases ht with rfl | rfl <;> decide +kernel
    obtain ⟨h0, h1, h2, h3, h4, h5, h6, h7⟩ := e1
    rw [h1, h2, h3, h4, h5, h6, h7]
    refine ⟨h0, ?_, ?_, ?_, ?_, ?_, ?_, ?_⟩ <;> norm_num [ieee]

/-! ## C22 -/

theorem ieee_num {b : ℕ} {y : ℚ} (hy : ieee eb fb b = .num y) :
    fExp eb fb b ≠ 2 ^ eb - 1 ∧
    ((fExp eb fb b = 0 ∧ y = (if fSign eb fb b then -1 else 1 : ℚ) * (fMan fb b * 2 ^ ((2 : ℤ) - 2 ^ (eb - 1) - fb))) ∨
     (fExp eb fb b ≠ 0 ∧ y = (if fSign eb fb b then -1 else 1 : ℚ) * ((2 ^ fb + fMan fb b) *
      2 ^ ((fExp eb fb b : ℤ) - (2 ^ (eb - 1) - 1) - fb)))) := by
  rw [ieee_eq] at hy
  by_cases h1 : fExp eb fb b = 2 ^ eb - 1
  · rw [if_pos h1] at hy
    split_ifs at hy
  rw [if_neg h1] at hy
  by_cases h3 : fExp eb fb b = 0
  · rw [if_pos h3] at hy
    exact ⟨h1, Or.inl ⟨h3, (XNum.num.inj hy).symm⟩⟩
  · rw [if_neg h3] at hy
    exact ⟨h1, Or.inr ⟨h3, (XNum.num.inj hy).symm⟩⟩

theorem sub_abs {b : ℕ} {y : ℚ} 
    (hy : y = (if fSign eb fb b then -1 else 1 : ℚ) * (fMan fb b * 2 ^ ((2 : ℤ) - 2 ^ (eb - 1) - fb))) :
    |y| = fMan fb b * 2 ^ ((2 : ℤ) - 2 ^ (eb - 1) - fb) ∧ |y| < 2 ^ ((2 : ℤ) - 2 ^ (eb - 1)) := by
  have h1 : |y| = fMan fb b * 2 ^ ((2 : ℤ) - 2 ^ (eb - 1) - fb) := by
    rw [hy, abs_sign_mul _ (by positivity)]
  refine ⟨h1, ?_⟩
  rw [h1, zpow_sub₀ (by norm_num) (2 - 2 ^ (eb - 1) : ℤ), zpow_natCast]
  have : (fMan fb b : ℚ) < 2 ^ fb := by exact_mod_cast fMan_lt fb b
  have hp : (0 : ℚ) < 2 ^ ((2 : ℤ) - 2 ^ (eb - 1)) := by positivity
  rw [mul_div_assoc', div_lt_iff₀ (by positivity), mul_comm]
  exact mul_lt_mul_of_pos_left this hp

/-- **C22**: a finite nonzero float is rounded toward zero. `eb`/`fb` are the sizes of the exponent and fraction fields.
Missing: exponent types too narrow for the float's exponents (`C22_double_two_wrong`, `C22_special_wrong`), magnitudes at
which `pack_posit` is undefined, subnormal floats when the fraction type is narrower than the float's fraction
(`C22_subnormal_lost`, `C22_subnormal_ub`). -/
theorem C22_ofFloat_partial (h : c.WF) (heb : 2 ≤ eb) (heb30 : eb ≤ 30) (hfb : 1 ≤ fb) (hE : eb < c.E)
    (hE2 : 2 ^ (eb - 1) + fb ≤ 2 ^ (c.E - 1)) {b : ℕ} {y : ℚ} (hy : ieee eb fb b = .num y) (h0 : y ≠ 0)
    (hF : fb < c.F ∨ (c.fb ≤ c.F ∧ 2 ^ ((2 : ℤ) - 2 ^ (eb - 1)) ≤ |y|)) (hs : c.SafeMag y) :
    ∃ v, Posit.ofFloat c (.any eb fb true) b = .ok v ∧ c.fmt.IsTrunc y v := by
  have hF1 : 1 ≤ c.F := by have := h.hF; omega
  obtain ⟨h1, ⟨h2, h3⟩ | ⟨h2, h3⟩⟩ := ieee_num hy
  · -- subnormal
    obtain ⟨ha, hlt⟩ := sub_abs h3
    have hFb : fb < c.F := by
      rcases hF with hF | ⟨_, hc⟩
      · exact hF
      · exact absurd hc (not_le.mpr hlt)
    have hman : fMan fb b ≠ 0 := by
      intro hz
      rw [hz] at h3
      exact h0 (by rw [h3]; simp)
    have hm : fracOf c.F fb (2 ^ fb + fMan fb b) = fMan fb b * 2 ^ (c.F - fb) := by
      unfold fracOf; rw [if_pos hFb.le, Nat.add_sub_cancel_left]
    set m := fMan fb b * 2 ^ (c.F - fb) with hmdef
    have hm1 : 2 ^ (c.F - fb) ≤ m := Nat.le_mul_of_pos_left _ (by omega)
    have hm0 : m ≠ 0 := by have := Nat.one_le_two_pow (n := c.F - fb); omega
    have hL1 := Nat.log2_self_le hm0
    have hL2 := Nat.lt_log2_self (n := m)
    have hLge : c.F - fb ≤ m.log2 := by
      by_contra hc
      have : 2 ^ (m.log2 + 1) ≤ 2 ^ (c.F - fb) := Nat.pow_le_pow_right (by norm_num) (by omega)
      omega
    have hu := unpackFloat_sub (F := c.F) (E := c.E) heb hfb hF1 hE hE2 h2 hm.symm hL1 hL2
      (by have := le_pw c.F; omega) (by omega)
    unfold Posit.ofFloat
    rw [hu]
    simp only [bind, Except.bind]
    have hval : (m : ℚ) * 2 ^ ((1 : ℤ) - (2 ^ (eb - 1) - 1) - c.F) = |y| := by
      rw [ha, hmdef]
      push_cast
      rw [mul_assoc]
      congr 1
      rw [← zpow_natCast, ← zpow_add₀ (by norm_num)]
      congr 1
      push_cast [hFb.le]; ring
    have hmlt : m < 2 ^ c.F := by
      rw [← hm]; apply fracOf_lt
      have := fMan_lt fb b
      rw [pow_succ]; omega
    have hLF : m.log2 ≤ c.F := le_of_lt ((Nat.pow_lt_pow_iff_right (by norm_num : 1 < 2)).mp (lt_of_le_of_lt hL1 hmlt))
    obtain ⟨r, hr, ht⟩ := pack_nat h (fSign eb fb b) hL1 hL2 ((1 : ℤ) - (2 ^ (eb - 1) - 1) - c.F) (Or.inr hLF)
      (by rw [hval]; exact SafeMag_abs.mpr hs)
    refine ⟨r, hr, ?_⟩
    rw [hval, ha] at ht
    rwa [h3]
  · -- normal
    have hu := unpackFloat_normal (F := c.F) (E := c.E) (dn := true) heb hfb hF1 hE.le heb30 h2 h1
    unfold Posit.ofFloat
    rw [hu]
    simp only [bind, Except.bind]
    have hn1 : 2 ^ fb ≤ 2 ^ fb + fMan fb b := by omega
    have hn2 : 2 ^ fb + fMan fb b < 2 ^ (fb + 1) := by
      have := fMan_lt fb b
      rw [pow_succ]; omega
    have ha : |y| = ((2 ^ fb + fMan fb b : ℕ) : ℚ) * 2 ^ ((fExp eb fb b : ℤ) - (2 ^ (eb - 1) - 1) - fb) := by
      rw [h3, abs_sign_mul _ (by positivity)]; push_cast; ring
    obtain ⟨r, hr, ht⟩ := pack_nat h (fSign eb fb b) hn1 hn2 ((fExp eb fb b : ℤ) - (2 ^ (eb - 1) - 1) - fb)
      (hF.elim (fun a => Or.inr a.le) (fun a => Or.inl a.1)) (by rw [← ha]; exact SafeMag_abs.mpr hs)
    refine ⟨r, hr, ?_⟩
    push_cast at ht
    rwa [h3]

/-- the half -3.140625 -/
example : P16.WF ∧ 5 < P16.E ∧ 2 ^ (5 - 1) + 10 ≤ 2 ^ (P16.E - 1) ∧ 10 < P16.F ∧ ieee 5 10 0xc248 = .num (-201 / 64) ∧
    P16.SafeMag (-201 / 64) ∧ Posit.ofFloat P16 (.any 5 10 true) 0xc248 = .ok (-19600) := by
  refine ⟨by decide, by decide, by decide, by decide, by norm_num [ieee], by decide +kernel, by decide +kernel⟩

/-- **C22** for `float`, `double` and half patterns and posits at least two bits narrower than the promoted holder, with an
exponent type of at least 16 bits. Missing: as above. -/
theorem C22_ieee_partial (h : c.WF) (hN : c.N + 1 < pw c.H) (hE : 16 ≤ c.E) (t : FTrait)
    (ht : t = .half ∨ t = .single ∨ t = .double) {b : ℕ} {y : ℚ} (hy : ieee t.eb t.fb b = .num y) (h0 : y ≠ 0)
    (hF : t.fb < c.F ∨ (c.fb ≤ c.F ∧ 2 ^ ((2 : ℤ) - 2 ^ (t.eb - 1)) ≤ |y|)) :
    ∃ v, Posit.ofFloat c t b = .ok v ∧ c.fmt.IsTrunc y v := by
  have hp : 2 ^ 15 ≤ 2 ^ (c.E - 1) := Nat.pow_le_pow_right (by norm_num) (by omega)
  rcases ht with rfl | rfl | rfl
  · rw [C51_traits.1]
    exact C22_ofFloat_partial (eb := 5) (fb := 10) h (by norm_num) (by norm_num) (by norm_num) (by omega)
      (by norm_num at hp ⊢; omega) hy h0 hF (safeMag_of_narrow h hN _)
  · rw [C51_traits.2.1]
    exact C22_ofFloat_partial (eb := 8) (fb := 23) h (by norm_num) (by norm_num) (by norm_num) (by omega)
      (by norm_num at hp ⊢; omega) hy h0 hF (safeMag_of_narrow h hN _)
  · rw [C51_traits.2.2]
    exact C22_ofFloat_partial (eb := 11) (fb := 52) h (by norm_num) (by norm_num) (by norm_num) (by omega)
      (by norm_num at hp ⊢; omega) hy h0 hF (safeMag_of_narrow h hN _)

/-- 3.14159274f = 0x40490fdb -/
example : P16.WF ∧ P16.N + 1 < pw P16.H ∧ 16 ≤ P16.E ∧ P16.fb ≤ P16.F ∧
    ieee 8 23 0x40490fdb = .num (13176795 / 4194304) ∧ Posit.ofFloat P16 .single 0x40490fdb = .ok 19600 ∧
    P16.fmt.val 19600 = 201 / 64 := by
  refine ⟨by decide, by decide, by decide, by decide, ?_, by decide +kernel, by decide +kernel⟩
  norm_num [ieee]

/-- **C22**, zeros: both signed zeros give zero. -/
theorem C22_zero (h : c.WF) (heb : 2 ≤ eb) (hfb : 1 ≤ fb) (hE : eb < c.E) {b : ℕ} (hx : fExp eb fb b = 0) (hm : fMan fb b = 0) :
    Posit.ofFloat c (.any eb fb dn) b = .ok 0 := by
  have hF1 : 1 ≤ c.F := by have := h.hF; omega
  obtain ⟨e, f, hu⟩ := unpackFloat_zero (F := c.F) (E := c.E) (dn := dn) heb hfb hF1 hE hx (Or.inr (by
    rw [hm]; unfold fracOf; simp))
  unfold Posit.ofFloat
  rw [hu]
  exact (C03_pack_special h false e f).1

/-- -0 -/
example : P16.WF ∧ 8 < P16.E ∧ fExp 8 23 0x80000000 = 0 ∧ fMan 23 0x80000000 = 0 ∧
    Posit.ofFloat P16 (.any 8 23 true) 0x80000000 = .ok 0 := by decide +kernel

/-- **C22**, infinities: give the format's infinity (its only special value if it has none). -/
theorem C22_inf (h : c.WF) (heb : 2 ≤ eb) (hfb : 1 ≤ fb) (hE : eb < c.E) {b : ℕ} {s : Bool} (hy : ieee eb fb b = .inf s) :
    Posit.ofFloat c (.any eb fb dn) b = .ok (c.infPat s) := by
  have hF1 : 1 ≤ c.F := by have := h.hF; omega
  rw [ieee_eq] at hy
  split_ifs at hy with h1 h2 h3
  obtain ⟨e, hu⟩ := unpackFloat_special (F := c.F) (E := c.E) (dn := dn) heb hfb hF1 hE h1
  have hz : fracOf c.F fb (2 ^ fb + fMan fb b) = 0 := by rw [h2]; unfold fracOf; simp
  rw [hz, if_pos rfl] at hu
  have hs : fSign eb fb b = s := XNum.inf.inj hy
  unfold Posit.ofFloat
  rw [hu, hs]
  exact (C03_pack_special h _ e 0).2.2

example : P8i.WF ∧ 8 < P8i.E ∧ ieee 8 23 0xff800000 = .inf true ∧ Posit.ofFloat P8i (.any 8 23 false) 0xff800000 = .ok (-127) ∧
    P8i.infPat true = -127 := by
  refine ⟨by decide, by decide, by norm_num [ieee], by decide +kernel, by decide +kernel⟩

/-- **C22**, NaN: gives NaN (the only special value if the format has no NaN). Missing: formats with both NaN and infinities
when the fraction type is narrower than the float's fraction (`C22_nan_wrong`). -/
theorem C22_nan_partial (h : c.WF) (heb : 2 ≤ eb) (hfb : 1 ≤ fb) (hE : eb < c.E) {b : ℕ} (hy : ieee eb fb b = .nan)
    (hF : c.spec ≠ .withNanInf ∨ fb ≤ c.F ∨ 2 ^ (fb - c.F) ≤ fMan fb b) :
    Posit.ofFloat c (.any eb fb dn) b = .ok c.topPat := by
  have hF1 : 1 ≤ c.F := by have := h.hF; omega
  rw [ieee_eq] at hy
  split_ifs at hy with h1 h2 h3
  obtain ⟨e, hu⟩ := unpackFloat_special (F := c.F) (E := c.E) (dn := dn) heb hfb hF1 hE h1
  unfold Posit.ofFloat
  rw [hu]
  by_cases hz : fracOf c.F fb (2 ^ fb + fMan fb b) = 0
  · rw [if_pos hz]
    have hsp : c.spec ≠ .withNanInf := by
      rcases hF with hF | hF | hF
      · exact hF
      · exfalso
        unfold fracOf at hz
        rw [if_pos hF, Nat.add_sub_cancel_left] at hz
        rcases Nat.mul_eq_zero.mp hz with h4 | h4
        · exact h2 h4
        · have := Nat.one_le_two_pow (n := c.F - fb); omega
      · exfalso
        unfold fracOf at hz
        split_ifs at hz with hc
        · rw [Nat.add_sub_cancel_left] at hz
          rcases Nat.mul_eq_zero.mp hz with h4 | h4
          · exact h2 h4
          · have := Nat.one_le_two_pow (n := c.F - fb); omega
        · rw [Nat.add_sub_cancel_left, Nat.div_eq_zero_iff] at hz
          have := Nat.one_le_two_pow (n := fb - c.F)
          omega
    simp only [bind, Except.bind]
    rw [(C03_pack_special h _ _ _).2.2, if_neg hsp]; rfl
  · rw [if_neg hz]
    exact (C03_pack_special h (fSign eb fb b) e (fracOf c.F fb (2 ^ fb + fMan fb b))).2.1

example : P8i.WF ∧ 8 < P8i.E ∧ ieee 8 23 0x7fc00000 = .nan ∧ ieee 8 23 0xff800000 = .inf true ∧
    Posit.ofFloat P8i .single 0x7fc00000 = .ok (-128) ∧ Posit.ofFloat P8i .single 0xff800000 = .ok (-127) := by
  refine ⟨by decide, by decide, by norm_num [ieee], by norm_num [ieee], by decide +kernel, by decide +kernel⟩

/-- **C22** does not hold for NaNs whose payload is lost in the fraction type: they become infinities, in every format that
distinguishes the two. -/
theorem C22_nan_wrong (h : c.WF) (heb : 2 ≤ eb) (hfb : 1 ≤ fb) (hE : eb < c.E) {b : ℕ} (hy : ieee eb fb b = .nan)
    (hF : c.F < fb) (hm : fMan fb b < 2 ^ (fb - c.F)) :
    Posit.ofFloat c (.any eb fb dn) b = .ok (c.infPat (fSign eb fb b)) := by
  have hF1 : 1 ≤ c.F := by have := h.hF; omega
  rw [ieee_eq] at hy
  split_ifs at hy with h1 h2 h3
  obtain ⟨e, hu⟩ := unpackFloat_special (F := c.F) (E := c.E) (dn := dn) heb hfb hF1 hE h1
  unfold Posit.ofFloat
  have hz : fracOf c.F fb (2 ^ fb + fMan fb b) = 0 := by
    unfold fracOf
    rw [if_neg (by omega), Nat.add_sub_cancel_left]
    exact Nat.div_eq_of_lt hm
  rw [hu, hz, if_pos rfl]
  exact (C03_pack_special h _ e 0).2.2

/-- the signalling NaN 0x7f800001 becomes +infinity -/
example : P8i.WF ∧ 8 < P8i.E ∧ P8i.F < 23 ∧ ieee 8 23 0x7f800001 = .nan ∧ P8i.infPat false ≠ P8i.topPat ∧
    Posit.ofFloat P8i .single 0x7f800001 = .ok 127 := by
  refine ⟨by decide, by decide, by decide, by norm_num [ieee], by decide, by decide +kernel⟩

/-- **C22** does not hold for subnormal floats when the fraction type drops all of their digits: they become zero. -/
theorem C22_subnormal_lost (h : c.WF) (heb : 2 ≤ eb) (hfb : 1 ≤ fb) (hE : eb < c.E) {b : ℕ} (hx : fExp eb fb b = 0)
    (hF : c.F < fb) (hm : fMan fb b < 2 ^ (fb - c.F)) : Posit.ofFloat c (.any eb fb dn) b = .ok 0 := by
  have hF1 : 1 ≤ c.F := by have := h.hF; omega
  have hz : fracOf c.F fb (2 ^ fb + fMan fb b) = 0 := by
    unfold fracOf
    rw [if_neg (by omega), Nat.add_sub_cancel_left]
    exact Nat.div_eq_of_lt hm
  obtain ⟨e, f, hu⟩ := unpackFloat_zero (F := c.F) (E := c.E) (dn := dn) heb hfb hF1 hE hx (Or.inr hz)
  unfold Posit.ofFloat
  rw [hu]
  exact (C03_pack_special h false e f).1

/-- the least positive float, a nonzero number, becomes zero instead of minpos -/
example : P16.WF ∧ P16.F < 23 ∧ ieee 8 23 1 = .num (1 / 2 ^ 149) ∧ Posit.ofFloat P16 .single 1 = .ok 0 := by
  refine ⟨by decide, by decide, ?_, by decide +kernel⟩
  norm_num [ieee]

/-- **C22** does not hold for subnormal floats of which the fraction type keeps exactly one digit: undefined behaviour for 32-
and 64-bit fraction types. -/
theorem C22_subnormal_ub (h : c.WF) (heb : 2 ≤ eb) (hfb : 1 ≤ fb) (hE : eb < c.E) (hE2 : 2 ^ (eb - 1) + fb ≤ 2 ^ (c.E - 1))
    {b : ℕ} (hx : fExp eb fb b = 0)
    (hF : c.F < fb) (h32 : 32 ≤ c.F) (hm1 : 2 ^ (fb - c.F) ≤ fMan fb b) (hm2 : fMan fb b < 2 * 2 ^ (fb - c.F)) :
    Posit.ofFloat c (.any eb fb true) b = .error .shiftAmount := by
  have hF1 : 1 ≤ c.F := by omega
  have hz : fracOf c.F fb (2 ^ fb + fMan fb b) = 1 := by
    unfold fracOf
    rw [if_neg (by omega), Nat.add_sub_cancel_left]
    have hp : 0 < 2 ^ (fb - c.F) := by positivity
    apply le_antisymm
    · have := (Nat.div_lt_iff_lt_mul hp (x := fMan fb b) (y := 2)).mpr (by omega); omega
    · exact (Nat.le_div_iff_mul_le hp).mpr (by omega)
  obtain ⟨e1, e2, e3⟩ := unpackFloat_fields (F := c.F) (by omega : 1 ≤ eb) hfb hF1 b
  have hlt := fExp_lt eb fb b
  have hu : Unp.unpackFloat c.F c.E (.any eb fb true) b = .error .shiftAmount := by
    rw [unpackFloat_any]
    simp only [e1, e2, e3, bind, Except.bind, pure, Except.pure]
    rw [raw_small hE hlt, arithS_ok' (exp_arith (by omega) hE hlt), hx, hz]
    simp only []
    have h3 : (1 : ℤ) < 2 ^ eb := one_lt_pow₀ (by norm_num) (by omega)
    rw [if_neg (by push_cast; omega), if_pos (by norm_num), if_neg (by simp)]
    have hk : Unp.findLeft c.F 1 = .ok (c.F - 1) := by
      unfold Unp.findLeft clz; rw [if_neg (by omega)]; rfl
    rw [hk]
    simp only []
    have hxx : wrapS c.E (((0 : ℕ) : ℤ) - (2 ^ (eb - 1) - 1)) = 1 - 2 ^ (eb - 1) := by
      rw [wrapS_of_inS (by omega) (exp_arith (by omega) hE (by positivity))]; push_cast; ring
    rw [hxx]
    have hE2z : (2 : ℤ) ^ (eb - 1) + fb ≤ 2 ^ (c.E - 1) := by exact_mod_cast hE2
    have hpos : (0 : ℤ) < 2 ^ (eb - 1) := by positivity
    have hin : InS c.E (1 - 2 ^ (eb - 1) - ((c.F - 1 : ℕ) : ℤ)) := by constructor <;> omega
    rw [arithS_ok' hin]
    simp only []
    unfold shlU
    have hpw : pw c.F = c.F := by unfold pw; omega
    rw [if_pos (by rw [hpw]; omega)]
  unfold Posit.ofFloat
  rw [hu]; rfl

/-- the double 2^-1042 -/
example : P32.WF ∧ P32.F < 52 ∧ 32 ≤ P32.F ∧ ieee 11 52 (2 ^ 32) = .num (1 / 2 ^ 1042) ∧
    Posit.ofFloat P32 .double (2 ^ 32) = .error .shiftAmount := by
  refine ⟨by decide, by decide, by decide, ?_, by decide +kernel⟩
  norm_num [ieee]
  rw [show (2 : ℚ) ^ 1074 = 4294967296 * 2 ^ 1042 by rw [show 1074 = 32 + 1042 by rfl, pow_add]; norm_num]
  field_simp

/-- **C22** does not hold for `double` when the exponent type has 8 bits: the constructor turns 2.0 into zero, in every such
format. -/
theorem C22_double_two_wrong (h : c.WF) (hE : c.E = 8) : ieee 11 52 0x4000000000000000 = .num 2 ∧
    Posit.ofFloat c .double 0x4000000000000000 = .ok 0 := by
  refine ⟨by norm_num [ieee], ?_⟩
  have key : ∀ F : ℕ, (F = 8 ∨ F = 16 ∨ F = 32 ∨ F = 64) → ∃ e f,
      Unp.unpackFloat F 8 .double 0x4000000000000000 = .ok ⟨.zero, false, e, f⟩ := by
    rintro F (rfl | rfl | rfl | rfl) <;> exact ⟨1, 0, by decide +kernel⟩
  obtain ⟨e, f, hu⟩ := key c.F h.hF
  unfold Posit.ofFloat
  rw [hE, hu]
  exact (C03_pack_special h false e f).1

example : (⟨8, 6, 1, 8, .withNan⟩ : Cfg).WF ∧ (⟨8, 6, 1, 8, .withNan⟩ : Cfg).E = 8 := by decide

/-- **C22** does not hold for infinities and NaN when the exponent type is exactly as wide as the exponent field (8-bit
exponent type and `float`): they become real numbers. -/
theorem C22_special_wrong (h : c.WF) (hN : c.N + 1 < pw c.H) (hE : c.E = 8) {b : ℕ} (hx : fExp 8 23 b = 255) :
    ∃ v, Posit.ofFloat c .single b = .ok v ∧ c.fmt.IsReal v := by
  have hF1 : 1 ≤ c.F := by have := h.hF; omega
  obtain ⟨e1, e2, e3⟩ := unpackFloat_fields (F := c.F) (eb := 8) (fb := 23) (by omega) (by omega) hF1 b
  have hu : Unp.unpackFloat c.F 8 (.any 8 23 true) b =
      .ok ⟨.regular, fSign 8 23 b, -128, fracOf c.F 23 (2 ^ 23 + fMan 23 b)⟩ := by
    rw [unpackFloat_any]
    simp only [e1, e2, e3, bind, Except.bind, pure, Except.pure, hx]
    have : wrapS 8 ((255 : ℕ) : ℤ) = -1 := by decide
    rw [this]
    have : arithS 8 (-1 - (2 ^ (8 - 1) - 1)) = .ok (-128) := by decide +kernel
    rw [this]
    simp only []
    rw [if_neg (by norm_num), if_neg (by norm_num)]
    rfl
  unfold Posit.ofFloat
  rw [hE, C51_traits.2.1, hu]
  obtain ⟨v, hv, ht⟩ := C03_pack_truncates h hN (fSign 8 23 b) (-128) (f := fracOf c.F 23 (2 ^ 23 + fMan 23 b)) (by
    apply fracOf_lt
    have := fMan_lt 23 b
    rw [pow_succ]; omega)
  exact ⟨v, hv, ht.real⟩

example : (⟨8, 6, 1, 8, .withNan⟩ : Cfg).WF ∧ (⟨8, 6, 1, 8, .withNan⟩ : Cfg).E = 8 ∧ ieee 8 23 0x7f800000 = .inf false ∧
    Posit.ofFloat ⟨8, 6, 1, 8, .withNan⟩ .single 0x7f800000 = .ok 1 := by
  refine ⟨by decide, by decide, by norm_num [ieee], by decide +kernel⟩

/-! ## C41, floats -/

/-- **C41**, floats: conversion of finite numbers is monotone. Missing: as in `C22_ofFloat_partial`. -/
theorem C41_float_partial (h : c.WF) (hN : c.N + 1 < pw c.H) (heb : 2 ≤ eb) (heb30 : eb ≤ 30) (hfb : 1 ≤ fb) (hE : eb < c.E)
    (hE2 : 2 ^ (eb - 1) + fb ≤ 2 ^ (c.E - 1)) (hF : fb < c.F) {a b : ℕ} {x y : ℚ} (hx : ieee eb fb a = .num x)
    (hy : ieee eb fb b = .num y) (hxy : x ≤ y) :
    ∃ v w, Posit.ofFloat c (.any eb fb true) a = .ok v ∧ Posit.ofFloat c (.any eb fb true) b = .ok w ∧ v ≤ w := by
  have key : ∀ {b : ℕ} {y : ℚ}, ieee eb fb b = .num y → ∃ v, Posit.ofFloat c (.any eb fb true) b = .ok v ∧
      ((y = 0 ∧ v = 0) ∨ c.fmt.IsTrunc y v) := by
    intro b y hy
    by_cases h0 : y = 0
    · refine ⟨0, ?_, Or.inl ⟨h0, rfl⟩⟩
      obtain ⟨h1, ⟨h2, h3⟩ | ⟨h2, h3⟩⟩ := ieee_num hy
      · obtain ⟨h4, _⟩ := sub_abs h3
        rw [h0, abs_zero] at h4
        have : (fMan fb b : ℚ) = 0 := by
          rcases mul_eq_zero.mp h4.symm with h5 | h5
          · exact h5
          · exact absurd h5 (by positivity)
        exact C22_zero h heb hfb hE h2 (by exact_mod_cast this)
      · exfalso
        have h4 : |y| = (2 ^ fb + fMan fb b) * 2 ^ ((fExp eb fb b : ℤ) - (2 ^ (eb - 1) - 1) - fb) := by
          rw [h3, abs_sign_mul _ (by positivity)]
        rw [h0, abs_zero] at h4
        have : (0 : ℚ) < (2 ^ fb + fMan fb b) * 2 ^ ((fExp eb fb b : ℤ) - (2 ^ (eb - 1) - 1) - fb) := by positivity
        linarith
    · obtain ⟨v, hv, ht⟩ := C22_ofFloat_partial h heb heb30 hfb hE hE2 hy h0 (Or.inl hF) (safeMag_of_narrow h hN _)
      exact ⟨v, hv, Or.inr ht⟩
  obtain ⟨v, hv, h1⟩ := key hx
  obtain ⟨w, hw, h2⟩ := key hy
  exact ⟨v, w, hv, hw, trunc0_mono h1 h2 hxy⟩

/-- the halves `-3.140625` and `2^-24`, a subnormal number -/
example : P16.WF ∧ P16.N + 1 < pw P16.H ∧ 5 < P16.E ∧ 2 ^ (5 - 1) + 10 ≤ 2 ^ (P16.E - 1) ∧ 10 < P16.F ∧
    ieee 5 10 0xc248 = .num (-201 / 64) ∧ ieee 5 10 1 = .num (1 / 2 ^ 24) ∧ Posit.ofFloat P16 (.any 5 10 true) 0xc248 = .ok (-19600) ∧
    Posit.ofFloat P16 (.any 5 10 true) 1 = .ok 256 := by
  refine ⟨by decide, by decide, by decide, by decide, by decide, by norm_num [ieee], by norm_num [ieee], by decide +kernel, by decide +kernel⟩

end Verif
