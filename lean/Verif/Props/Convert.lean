import Verif.Lemmas.Fused
import Verif.Props.Special
import Verif.Model.Instances
import Verif.Spec.Unpacked

/-! # Conversion between posit formats (C48), monotone packing (C41) -/

namespace Verif
open Fmt

variable {c c' : Cfg}

/-! ## C48

`Posit2(p.unpack())` for two instantiations with the same `Unpacked` type: same `FT` and exponent type. -/

/-- appending zero bits to a posit does not change its value -/
theorem posVal_widen {N es p : ℕ} (d : ℕ) (hN : 1 ≤ N) (h1 : 1 ≤ p) (h2 : p < 2 ^ (N - 1)) :
    posVal (N + d) es (p * 2 ^ d) = posVal N es p := by
  have hd : 1 ≤ 2 ^ d := Nat.one_le_two_pow
  obtain ⟨s, hs, hv⟩ := exists_coord (es := es) h1 h2
  obtain ⟨t, ht, hv'⟩ := exists_coord (N := N + d) (es := es) (p := p * 2 ^ d) (Nat.one_le_iff_ne_zero.mpr (by positivity))
    (by
      rw [show N + d - 1 = (N - 1) + d by omega, pow_add]
      exact Nat.mul_lt_mul_of_pos_right h2 (by positivity))
  have hst : s = t := by
    apply G_inj
    rw [← hs, ← ht, show N + d - 1 = (N - 1) + d by omega, pow_add]
    push_cast
    field_simp
  rw [hv, hv', hst]

theorem val_widen {d : ℕ} (hN : c'.N = c.N + d) (hes : c'.es = c.es) (hN1 : 1 ≤ c.N) {v : ℤ} (hv : c.fmt.IsReal v) :
    c'.fmt.val (v * 2 ^ d) = c.fmt.val v := by
  have hp : (0 : ℤ) < 2 ^ d := by positivity
  have hr := real_inRange hv
  rcases lt_trichotomy v 0 with h0 | h0 | h0
  · have h1 : v * 2 ^ d < 0 := mul_neg_of_neg_of_pos h0 hp
    unfold Format.val
    rw [if_neg (by omega), if_neg (by omega), if_neg (by omega), if_neg (by omega)]
    simp only [fmt_N, fmt_es]
    have e1 : (-(v * 2 ^ d)).toNat = (-v).toNat * 2 ^ d := by
      rw [← neg_mul]
      have : (-v) = ((-v).toNat : ℤ) := (Int.toNat_of_nonneg (by omega)).symm
      rw [this]
      norm_cast
    rw [e1, hN, hes, posVal_widen d hN1 (by omega) (by omega)]
  · subst h0; simp [Format.val_zero]
  · have h1 : 0 < v * 2 ^ d := mul_pos h0 hp
    unfold Format.val
    rw [if_neg (by omega), if_pos h1, if_neg (by omega), if_pos h0]
    simp only [fmt_N, fmt_es]
    have e1 : (v * 2 ^ d).toNat = v.toNat * 2 ^ d := by
      have : v = (v.toNat : ℤ) := (Int.toNat_of_nonneg (by omega)).symm
      rw [this]
      norm_cast
    rw [e1, hN, hes, posVal_widen d hN1 (by omega) (by omega)]

theorem maxBody_widen {d : ℕ} (hN : c'.N = c.N + d) (hN3 : 3 ≤ c.N) (hinf : 0 < d ∨ (c'.fmt.twoInf → c.fmt.twoInf)) :
    c.fmt.maxBody * 2 ^ d ≤ c'.fmt.maxBody := by
  unfold Format.maxBody
  simp only [fmt_N]
  have hp : 2 ^ (c'.N - 1) = 2 ^ (c.N - 1) * 2 ^ d := by rw [hN, ← pow_add]; congr 1; omega
  have hg : 4 ≤ 2 ^ (c.N - 1) := by
    calc 4 = 2 ^ 2 := by norm_num
      _ ≤ _ := Nat.pow_le_pow_right (by norm_num) (by omega)
  rw [hp]
  rcases Nat.eq_zero_or_pos d with h0 | h0
  · subst h0
    simp only [pow_zero, mul_one]
    rcases hinf with h | h
    · omega
    · split_ifs with h1 h2 h2
      · exact le_rfl
      · omega
      · exact absurd (h h2) h1
      · exact le_rfl
  · have h2 : 2 ≤ 2 ^ d := by
      calc 2 = 2 ^ 1 := by norm_num
        _ ≤ _ := Nat.pow_le_pow_right (by norm_num) h0
    have key : (2 ^ (c.N - 1) - 1) * 2 ^ d = 2 ^ (c.N - 1) * 2 ^ d - 2 ^ d := by rw [Nat.sub_mul, one_mul]
    have h3 : (2 ^ (c.N - 1) - 2) * 2 ^ d ≤ (2 ^ (c.N - 1) - 1) * 2 ^ d := Nat.mul_le_mul_right _ (by omega)
    generalize 2 ^ (c.N - 1) * 2 ^ d = X at *
    split_ifs <;> omega

/-- **C48**, any two formats: a conversion rounds toward zero (and saturates) on the safe range. -/
theorem C48_convert (h : c.WF) (h' : c'.WF) (hF : c.F = c'.F) (hfb : c.fb ≤ c.F) {v : ℤ} (hv : c.fmt.IsReal v) (h0 : v ≠ 0)
    (hs : c'.SafeMag (c.fmt.val v)) :
    ∃ w, (do let u ← Posit.unpack c v; Posit.pack c' u) = .ok w ∧ c'.fmt.IsTrunc (c.fmt.val v) w := by
  obtain ⟨u, hu, hd, -⟩ := den_unpack h (k := 0) (by omega) hv
  rw [hF] at hd
  have hv0 : c.fmt.val v ≠ 0 := fun hh => h0 ((Format.val_eq_zero_iff hv.inRange).mp hh)
  obtain ⟨w, hw, -, -, ht⟩ := den_pack h' hd (Or.inr hs)
  refine ⟨w, ?_, ht hv0⟩
  rw [hu]; exact hw

example : (⟨16, 15, 1, 16, .withNan⟩ : Cfg).WF ∧ P16.WF ∧ P16.F = (⟨16, 15, 1, 16, .withNan⟩ : Cfg).F ∧
    P16.E = (⟨16, 15, 1, 16, .withNan⟩ : Cfg).E ∧ P16.fb ≤ P16.F ∧ P16.fmt.IsReal 20001 ∧
    (⟨16, 15, 1, 16, .withNan⟩ : Cfg).SafeMag (P16.fmt.val 20001) ∧
    (do let u ← Posit.unpack P16 20001; Posit.pack ⟨16, 15, 1, 16, .withNan⟩ u) = .ok 11809 := by decide +kernel

/-- **C48**: widening with the same `es` keeps the value; the result is the pattern with `N'-N` zero bits appended.
`hinf`: a posit of the same width must not lose its greatest value to an infinity pattern. The values outside `SafeMag`
(only for `N' + 1 ≥ max 32 H'`) are missing. -/
theorem C48_widen_partial (h : c.WF) (h' : c'.WF) (hF : c.F = c'.F) (hfb : c.fb ≤ c.F) (hes : c'.es = c.es) (hN : c.N ≤ c'.N)
    (hinf : c.N < c'.N ∨ (c'.fmt.twoInf → c.fmt.twoInf)) {v : ℤ} (hv : c.fmt.IsReal v)
    (hs : v = 0 ∨ c'.SafeMag (c.fmt.val v)) :
    (do let u ← Posit.unpack c v; Posit.pack c' u) = .ok (v * 2 ^ (c'.N - c.N)) ∧
      c'.fmt.IsReal (v * 2 ^ (c'.N - c.N)) ∧ c'.fmt.val (v * 2 ^ (c'.N - c.N)) = c.fmt.val v := by
  have hN3 := h.N_ge
  obtain ⟨d, hd⟩ : ∃ d, c'.N = c.N + d := ⟨c'.N - c.N, by omega⟩
  rw [show c'.N - c.N = d by omega]
  have hval := val_widen hd hes (by omega) hv
  have hreal : c'.fmt.IsReal (v * 2 ^ d) := by
    rw [Format.isReal_iff]
    have := maxBody_widen hd hN3 (hinf.imp (by omega) id)
    rw [Int.natAbs_mul, Int.natAbs_pow]
    exact le_trans (Nat.mul_le_mul_right _ hv.natAbs_le) this
  refine ⟨?_, hreal, hval⟩
  by_cases h0 : v = 0
  · subst h0
    rw [unpack_zero h, zero_mul]; rfl
  · obtain ⟨w, hw, ht⟩ := C48_convert h h' hF hfb hv h0 (hs.resolve_left h0)
    rw [hw, ht.faithful.exact hreal hval]

example : P6.WF ∧ P8.WF ∧ P6.F = P8.F ∧ P6.fb ≤ P6.F ∧ P8.es = P6.es ∧ P6.N < P8.N ∧ P6.fmt.IsReal 27 ∧ P8.SafeMag (P6.fmt.val 27) ∧
    (do let u ← Posit.unpack P6 27; Posit.pack P8 u) = .ok (27 * 2 ^ (8 - 6)) ∧ P8.fmt.val 108 = P6.fmt.val 27 := by decide +kernel

/-- **C48** for every real, when the target is at least two bits narrower than its promoted holder. -/
theorem C48_widen (h : c.WF) (h' : c'.WF) (hF : c.F = c'.F) (hfb : c.fb ≤ c.F) (hes : c'.es = c.es) (hN : c.N ≤ c'.N)
    (hinf : c.N < c'.N ∨ (c'.fmt.twoInf → c.fmt.twoInf)) (hN' : c'.N + 1 < pw c'.H) {v : ℤ} (hv : c.fmt.IsReal v) :
    ∃ w, (do let u ← Posit.unpack c v; Posit.pack c' u) = .ok w ∧ c'.fmt.IsReal w ∧ c'.fmt.val w = c.fmt.val v :=
  ⟨_, C48_widen_partial h h' hF hfb hes hN hinf hv (Or.inr (safeMag_of_narrow h' hN' _))⟩

example : P6.WF ∧ P8.WF ∧ P6.F = P8.F ∧ P6.fb ≤ P6.F ∧ P8.es = P6.es ∧ P6.N < P8.N ∧ P8.N + 1 < pw P8.H ∧
    P6.fmt.IsReal (-23) ∧ (do let u ← Posit.unpack P6 (-23); Posit.pack P8 u) = .ok (-92) ∧
    P8.fmt.val (-92) = P6.fmt.val (-23) := by decide +kernel

/-- **C48**: widening and narrowing back gives the original pattern. -/
theorem C48_roundtrip (h : c.WF) (h' : c'.WF) (hF : c.F = c'.F) (hfb : c.fb ≤ c.F) (hfb' : c'.fb ≤ c'.F) (hes : c'.es = c.es)
    (hN : c.N < c'.N) (hNH : c.N + 1 < pw c.H) (hN' : c'.N + 1 < pw c'.H) {v : ℤ} (hv : c.fmt.IsReal v) :
    ∃ w, (do let u ← Posit.unpack c v; Posit.pack c' u) = .ok w ∧
      (do let u ← Posit.unpack c' w; Posit.pack c u) = .ok v := by
  obtain ⟨w, hw, hwr, hwv⟩ := C48_widen h h' hF hfb hes hN.le (Or.inl hN) hN' hv
  refine ⟨w, hw, ?_⟩
  by_cases h0 : w = 0
  · subst h0
    rw [Format.val_zero] at hwv
    have hv0 : v = 0 := (Format.val_eq_zero_iff hv.inRange).mp hwv.symm
    subst hv0
    rw [unpack_zero h']; rfl
  · obtain ⟨x, hx, ht⟩ := C48_convert h' h hF.symm hfb' hwr h0 (safeMag_of_narrow h hNH _)
    rw [hx, ht.faithful.exact hv hwv.symm]

example : P6.WF ∧ P8.WF ∧ P6.F = P8.F ∧ P6.fb ≤ P6.F ∧ P8.fb ≤ P8.F ∧ P8.es = P6.es ∧ P6.N < P8.N ∧ P6.N + 1 < pw P6.H ∧
    P8.N + 1 < pw P8.H ∧ P6.fmt.IsReal (-23) ∧ (do let u ← Posit.unpack P6 (-23); Posit.pack P8 u) = .ok (-92) ∧
    (do let u ← Posit.unpack P8 (-92); Posit.pack P6 u) = .ok (-23) := by decide +kernel

/-- **C48**, counterexample to the unrestricted claim: converting the least `Posit<int32_t,28,3>` to
`Posit<int32_t,32,3>` is fine, but to the same width the least `Posit<int32_t,32,3>` cannot even be copied through
`unpack()`: packing it shifts out of range. -/
theorem C48_not_always : ∃ c : Cfg, c.WF ∧ c.fb ≤ c.F ∧ c.fmt.IsReal 1 ∧
    (do let u ← Posit.unpack c 1; Posit.pack c u) = .error .shiftAmount :=
  ⟨P32, by decide +kernel⟩

/-- **C48** needs `FT` to hold the fraction: with an 8-bit `FT`, copying the 16-bit posit `1 + 2^-13` through `unpack()`
gives 1. -/
theorem C48_narrow_fraction_wrong : ∃ c : Cfg, c.WF ∧ c.N + 1 < pw c.H ∧ c.fmt.IsReal 16385 ∧
    (do let u ← Posit.unpack c 16385; Posit.pack c u) = .ok 16384 ∧ c.fmt.val 16385 ≠ c.fmt.val 16384 :=
  ⟨⟨16, 16, 0, 8, .withNan⟩, by decide +kernel⟩

/-! ## C41 -/

/-- packing a finite object gives the truncation of the number it stands for -/
theorem pack_num (h : c.WF) (hN : c.N + 1 < pw c.H) {u : Unp} (hf : u.frac < 2 ^ c.F) {x : ℚ} (hu : u.denote c.F = .num x) :
    ∃ v, Posit.pack c u = .ok v ∧ ((x = 0 ∧ v = 0) ∨ c.fmt.IsTrunc x v) := by
  obtain ⟨t, s, e, f⟩ := u
  cases t <;> simp only [Unp.denote, XNum.num.injEq, reduceCtorEq] at hu
  · obtain ⟨v, hv, ht⟩ := C03_pack_truncates h hN s e hf
    exact ⟨v, hv, Or.inr (hu ▸ ht)⟩
  · exact ⟨0, (C03_pack_special h s e f).1, Or.inl ⟨hu.symm, rfl⟩⟩

/-- **C41**, unpacked numbers: if the numbers two objects stand for are in order, so are the posits they pack to (posit
order is the order of the signed patterns). -/
theorem C41_pack_partial (h : c.WF) (hN : c.N + 1 < pw c.H) {u w : Unp} (hu : u.frac < 2 ^ c.F) (hw : w.frac < 2 ^ c.F)
    {x y : ℚ} (hx : u.denote c.F = .num x) (hy : w.denote c.F = .num y) (hxy : x ≤ y) :
    ∃ v v', Posit.pack c u = .ok v ∧ Posit.pack c w = .ok v' ∧ v ≤ v' := by
  obtain ⟨v, h1, h2⟩ := pack_num h hN hu hx
  obtain ⟨v', h3, h4⟩ := pack_num h hN hw hy
  exact ⟨v, v', h1, h3, trunc0_mono h2 h4 hxy⟩

example : P8.WF ∧ P8.N + 1 < pw P8.H ∧ Posit.pack P8 ⟨.regular, true, 100, 7⟩ = .ok (-127) ∧
    Posit.pack P8 ⟨.regular, true, -3, 200⟩ = .ok (-14) ∧ Posit.pack P8 ⟨.zero, true, 0, 0⟩ = .ok 0 ∧
    tripleVal 8 true 100 7 ≤ tripleVal 8 true (-3) 200 := by
  refine ⟨by decide, by decide, by decide +kernel, by decide +kernel, by decide +kernel, ?_⟩
  norm_num [tripleVal]

end Verif
