import Verif.Lemmas.ViaFloat
import Verif.Lemmas.ExtUnary

/-!
# C129: from one posit format to another through a float type
-/

namespace Verif
open Fmt

variable {c c' : Cfg} {eb fb : ℕ}

/-- **C129**: what arrives in the other format is the number cut to the fraction type, then to the float format, then to the
fraction type of the other format. -/
theorem C129_via (h : c.WF) (h' : c'.WF) (heb : 2 ≤ eb) (heb30 : eb ≤ 30) (hfb : 1 ≤ fb)
    (hE : eb < max c.E (Unp.leastBits eb)) (hE2 : c.maxScale + 2 ^ (eb - 1) ≤ 2 ^ (max c.E (Unp.leastBits eb) - 1))
    (hE' : eb < c'.E) (hE2' : 2 ^ (eb - 1) + fb ≤ 2 ^ (c'.E - 1)) {v : ℤ} (hv : c.fmt.IsCanonical v) :
    EV.Outcome c' ((((c.ext v).cut (c.F + 1)).float eb fb).cut (c'.F + 1)) (Posit.via c c' (.any eb fb true) v) := by
  by_cases hn : c.ext v = .nan
  · obtain ⟨u, hu, hA, -⟩ := ext_unpack h hv
    rw [hn] at hA ⊢
    have hto : Posit.toFloat c (.any eb fb true) v = .ok (FTrait.any eb fb true).nan := by
      cases hA
      unfold Posit.toFloat; rw [hu]; rfl
    unfold Posit.via
    rw [hto]
    show Posit.ofFloat c' (.any eb fb true) (FTrait.any eb fb true).nan = .ok c'.topPat
    refine C22_nan_partial h' heb hfb hE' (C51_constants heb hfb).2.2.2.2.2.2.2 ?_
    by_cases hF : fb ≤ c'.F
    · exact Or.inr (Or.inl hF)
    · refine Or.inr (Or.inr ?_)
      rw [any_nan hfb, fJoin_man (Nat.pow_lt_pow_right (by norm_num) (by omega))]
      exact Nat.pow_le_pow_right (by norm_num) (by have := h'.F_pos; omega)
  · obtain ⟨b, hb, hm⟩ := C128_toFloat h heb heb30 hfb hE hE2 hv
    have hof := C128_ofFloat h' heb heb30 hfb hE' hE2' b
    unfold Posit.via
    rw [hb]
    show EV.Outcome c' _ (Posit.ofFloat c' (.any eb fb true) b)
    generalize c.ext v = X at *
    cases X with
    | nan => exact absurd rfl hn
    | inf s =>
      change ieee eb fb b = .inf s at hm
      rw [hm] at hof
      exact hof
    | num x =>
      change b < 2 ^ (eb + fb + 1) ∧ IsCut eb fb (cutSig (c.F + 1) x) b ∧ _ at hm
      have hy := hm.2.1.float heb hfb
      rw [hy] at hof
      show EV.Outcome c' ((EV.num (floatCut eb fb (cutSig (c.F + 1) x))).cut (c'.F + 1)) _
      generalize cutSig (c.F + 1) x = z at *
      have hsub : ¬ (|floatCut eb fb z| < minNorm eb ∧ 32 ≤ c'.F ∧ |readSub eb c'.F (floatCut eb fb z)| = subUnit eb c'.F) ∧
          readSub eb c'.F (floatCut eb fb z) = floatCut eb fb z := by
        rcases floatCut_normal heb hfb hm.2.1 with h0 | h0
        · rw [h0]
          refine ⟨fun hc => ?_, ?_⟩
          · have := hc.2.2
            rw [readSub_zero, abs_zero] at this
            exact absurd this (ne_of_lt subUnit_pos)
          · exact readSub_zero
        · exact ⟨fun hc => absurd hc.1 (not_lt.mpr h0), by unfold readSub; rw [if_neg (not_lt.mpr h0)]⟩
      have := hof.2 hsub.1
      rw [hsub.2] at this
      exact this

example : (⟨16, 16, 2, 8, .withNan⟩ : Cfg).WF ∧ P60.WF ∧ 11 < max (⟨16, 16, 2, 8, .withNan⟩ : Cfg).E (Unp.leastBits 11) ∧
    (⟨16, 16, 2, 8, .withNan⟩ : Cfg).maxScale + 2 ^ (11 - 1) ≤
      2 ^ (max (⟨16, 16, 2, 8, .withNan⟩ : Cfg).E (Unp.leastBits 11) - 1) ∧ 11 < P60.E ∧ 2 ^ (11 - 1) + 52 ≤ 2 ^ (P60.E - 1) ∧
    [20001, -20001, 1, -32768].map (Posit.via ⟨16, 16, 2, 8, .withNan⟩ P60 .double) =
      [.ok 351843720888320000, .ok (-351843720888320000), .ok 17592186044416, .ok (-576460752303423488)] := by
  decide +kernel

/-- **C129**: if the numbers cut to the fraction type lie in the normal range of the float type and their fractions fit into
its fraction, the float type has no influence. -/
theorem C129_float (h : c.WF) (heb : 2 ≤ eb) (hs : c.maxScale + 2 ≤ 2 ^ (eb - 1)) (hf : c.F ≤ fb ∨ c.fb ≤ min c.F fb) (v : ℤ) :
    ((c.ext v).cut (c.F + 1)).float eb fb = (c.ext v).cut (c.F + 1) := by
  by_cases hr : c.fmt.IsReal v
  · rw [ext_real hr]
    show EV.num (floatCut eb fb (cutSig (c.F + 1) (c.fmt.val v))) = EV.num (cutSig (c.F + 1) (c.fmt.val v))
    congr 1
    by_cases h0 : v = 0
    · rw [h0, Format.val_zero, cutSig_zero, floatCut_zero]
    · obtain ⟨b1, b2⟩ := cut_bounds h hr h0
      have hsz : (c.maxScale : ℤ) + 2 ≤ 2 ^ (eb - 1) := by exact_mod_cast hs
      refine floatCut_fits heb ?_ (Or.inr (le_trans ?_ b1)) (lt_of_lt_of_le b2 ?_)
      · rcases hf with hf | hf
        · exact (fits_cutSig c.F _).mono (by omega)
        · have hp := fits_posit h hr
          rw [cutSig_fits hp (by omega)]
          exact hp.mono (by omega)
      · unfold minNorm
        exact zpow_le_zpow_right₀ (by norm_num) (by omega)
      · exact zpow_le_zpow_right₀ (by norm_num) (by omega)
  · unfold Cfg.ext
    rw [if_neg hr]
    split_ifs <;> rfl

example : P32w.WF ∧ P32w.maxScale + 2 ≤ 2 ^ (11 - 1) ∧ P32w.fb ≤ min P32w.F 52 := by decide +kernel

/-- **C129**: with wide enough fraction types and a wide enough float type the number itself arrives. -/
theorem C129_exact (h : c.WF) (h' : c'.WF) (heb : 2 ≤ eb) (heb30 : eb ≤ 30) (hfb : 1 ≤ fb)
    (hE : eb < max c.E (Unp.leastBits eb)) (hE2 : c.maxScale + 2 ^ (eb - 1) ≤ 2 ^ (max c.E (Unp.leastBits eb) - 1))
    (hE' : eb < c'.E) (hE2' : 2 ^ (eb - 1) + fb ≤ 2 ^ (c'.E - 1)) (hs : c.maxScale + 2 ≤ 2 ^ (eb - 1))
    (hF : c.fb ≤ c.F) (hF2 : c.fb ≤ fb) (hF' : c.fb ≤ c'.F) {v : ℤ} (hv : c.fmt.IsCanonical v) :
    EV.Outcome c' (c.ext v) (Posit.via c c' (.any eb fb true) v) := by
  have := C129_via h h' heb heb30 hfb hE hE2 hE' hE2' hv
  rw [C129_float h heb hs (Or.inr (by omega)), C128_exact h hF] at this
  have hc : (c.ext v).cut (c'.F + 1) = c.ext v := by
    by_cases hr : c.fmt.IsReal v
    · rw [ext_real hr]
      show EV.num _ = _
      rw [cutSig_fits (fits_posit h hr) hF']
    · unfold Cfg.ext
      rw [if_neg hr]
      split_ifs <;> rfl
  rwa [hc] at this

example : P16.WF ∧ P32.WF ∧ 11 < max P16.E (Unp.leastBits 11) ∧
    P16.maxScale + 2 ^ (11 - 1) ≤ 2 ^ (max P16.E (Unp.leastBits 11) - 1) ∧ 11 < P32.E ∧ 2 ^ (11 - 1) + 52 ≤ 2 ^ (P32.E - 1) ∧
    P16.maxScale + 2 ≤ 2 ^ (11 - 1) ∧ P16.fb ≤ P16.F ∧ P16.fb ≤ 52 ∧ P16.fb ≤ P32.F ∧
    [20001, -20001, 1, -32768, 32767, 0].map (Posit.via P16 P32 .double) =
      [.ok 1192263680, .ok (-1192263680), .ok 8388608, .ok (-2147483648), .ok 2139095040, .ok 0] := by
  decide +kernel

/-- **C129**: between formats with the same fraction type the way through a wide enough float type gives what the constructor
from `Unpacked` gives. -/
theorem C129_same (h : c.WF) (h' : c'.WF) (heb : 2 ≤ eb) (heb30 : eb ≤ 30) (hfb : 1 ≤ fb)
    (hE : eb < max c.E (Unp.leastBits eb)) (hE2 : c.maxScale + 2 ^ (eb - 1) ≤ 2 ^ (max c.E (Unp.leastBits eb) - 1))
    (hE' : eb < c'.E) (hE2' : 2 ^ (eb - 1) + fb ≤ 2 ^ (c'.E - 1)) (hs : c.maxScale + 2 ≤ 2 ^ (eb - 1))
    (hf : c.F ≤ fb ∨ c.fb ≤ min c.F fb) (hFF : c.F = c'.F) {v : ℤ} (hv : c.fmt.IsCanonical v) :
    Posit.via c c' (.any eb fb true) v = (do let u ← Posit.unpack c v; Posit.pack c' u) := by
  have h1 := C129_via h h' heb heb30 hfb hE hE2 hE' hE2' hv
  rw [C129_float h heb hs hf, ← hFF] at h1
  have hc : ((c.ext v).cut (c.F + 1)).cut (c.F + 1) = (c.ext v).cut (c.F + 1) := by
    cases c.ext v with
    | num x => exact congrArg EV.num (cutSig_fits (fits_cutSig c.F x) le_rfl)
    | inf s => rfl
    | nan => rfl
  rw [hc] at h1
  exact h1.unique (C128_convert h h' hFF hv)

example : (⟨32, 16, 2, 32, .withNan⟩ : Cfg).WF ∧ (⟨32, 16, 2, 32, .withNan⟩ : Cfg).F = P32.F ∧
    [20001, -20001, 1, -32768].map (Posit.via ⟨32, 16, 2, 32, .withNan⟩ P32 .double) =
      [.ok 1192263680, .ok (-1192263680), .ok 8388608, .ok (-2147483648)] := by
  decide +kernel

/-- **C129**: a number that both formats have comes back. -/
theorem C129_roundtrip (h : c.WF) (h' : c'.WF) (heb : 2 ≤ eb) (heb30 : eb ≤ 30) (hfb : 1 ≤ fb)
    (hE : eb < c.E) (hE2 : max c.maxScale fb + 2 ^ (eb - 1) ≤ 2 ^ (c.E - 1))
    (hE' : eb < c'.E) (hE2' : max c'.maxScale fb + 2 ^ (eb - 1) ≤ 2 ^ (c'.E - 1))
    (hs : c.maxScale + 2 ≤ 2 ^ (eb - 1)) (hs' : c'.maxScale + 2 ≤ 2 ^ (eb - 1))
    (hF : max c.fb c'.fb ≤ min c.F c'.F) (hF2 : max c.fb c'.fb ≤ fb) {v v' : ℤ} (hv : c.fmt.IsReal v) (hv' : c'.fmt.IsReal v')
    (he : c.fmt.val v = c'.fmt.val v') (hm : c.fmt.val v = 0 ∨ c.SafeMag (c.fmt.val v) ∧ c'.SafeMag (c.fmt.val v)) :
    Posit.via c c' (.any eb fb true) v = .ok v' ∧ Posit.via c' c (.any eb fb true) v' = .ok v := by
  have key : ∀ {c c' : Cfg} (_ : c.WF) (_ : c'.WF) (_ : eb < c.E) (_ : max c.maxScale fb + 2 ^ (eb - 1) ≤ 2 ^ (c.E - 1))
      (_ : eb < c'.E) (_ : max c'.maxScale fb + 2 ^ (eb - 1) ≤ 2 ^ (c'.E - 1)) (_ : c.maxScale + 2 ≤ 2 ^ (eb - 1))
      (_ : max c.fb c'.fb ≤ min c.F c'.F) (_ : max c.fb c'.fb ≤ fb) {v v' : ℤ} (_ : c.fmt.IsReal v) (_ : c'.fmt.IsReal v')
      (_ : c.fmt.val v = c'.fmt.val v') (_ : c.fmt.val v = 0 ∨ c'.SafeMag (c.fmt.val v)),
      Posit.via c c' (.any eb fb true) v = .ok v' := by
    intro c c' h h' hE hE2 hE' hE2' hs hF hF2 v v' hv hv' he hm
    have hle : c.E ≤ max c.E (Unp.leastBits eb) := le_max_left _ _
    have hpow : 2 ^ (c.E - 1) ≤ 2 ^ (max c.E (Unp.leastBits eb) - 1) := Nat.pow_le_pow_right (by norm_num) (by omega)
    have := C129_exact h h' heb heb30 hfb (by omega) (by omega) hE' (by omega) hs (by omega) (by omega) (by omega) hv.canonical
    rw [ext_real hv] at this
    obtain ⟨w, e1, e2⟩ := this.1 hm
    rw [e1, isCut0_unique e2 (he ▸ isCut0_self hv')]
  exact ⟨key h h' hE hE2 hE' hE2' hs hF hF2 hv hv' he (hm.imp_right And.right),
    key h' h hE' hE2' hE hE2 hs' (by omega) (by omega) hv' hv he.symm (he ▸ hm.imp_right And.left)⟩

example : P8h.WF ∧ P16h.WF ∧ 8 < P8h.E ∧ max P8h.maxScale 23 + 2 ^ (8 - 1) ≤ 2 ^ (P8h.E - 1) ∧ 8 < P16h.E ∧
    max P16h.maxScale 23 + 2 ^ (8 - 1) ≤ 2 ^ (P16h.E - 1) ∧ P8h.maxScale + 2 ≤ 2 ^ (8 - 1) ∧ P16h.maxScale + 2 ≤ 2 ^ (8 - 1) ∧
    max P8h.fb P16h.fb ≤ min P8h.F P16h.F ∧ max P8h.fb P16h.fb ≤ 23 ∧ P8h.fmt.IsReal 96 ∧ P16h.fmt.IsReal 24576 ∧
    P8h.fmt.val 96 = P16h.fmt.val 24576 ∧ P8h.SafeMag (P8h.fmt.val 96) ∧ P16h.SafeMag (P8h.fmt.val 96) ∧
    Posit.via P8h P16h .single 96 = .ok 24576 ∧ Posit.via P16h P8h .single 24576 = .ok 96 := by
  decide +kernel

/-- **C129**: if the least number of a format is below the normal range of the float type, it and its negative become zero. -/
theorem C129_zero_wrong (h : c.WF) (h' : c'.WF) (heb : 2 ≤ eb) (heb30 : eb ≤ 30) (hfb : 1 ≤ fb)
    (hE : eb < max c.E (Unp.leastBits eb)) (hE2 : c.maxScale + 2 ^ (eb - 1) ≤ 2 ^ (max c.E (Unp.leastBits eb) - 1))
    (hE' : eb < c'.E) (hE2' : 2 ^ (eb - 1) + fb ≤ 2 ^ (c'.E - 1)) (hs : 2 ^ (eb - 1) < c.maxScale + 2) {v : ℤ}
    (hv : c.fmt.IsReal v) (h1 : v.natAbs = 1) :
    c.fmt.val v ≠ 0 ∧ Posit.via c c' (.any eb fb true) v = .ok 0 := by
  have ha := abs_val_one_pat h h1
  have hne : c.fmt.val v ≠ 0 := by
    intro hc
    rw [hc, abs_zero] at ha
    have : (0 : ℚ) < 2 ^ (-(c.maxScale : ℤ)) := by positivity
    exact absurd ha (ne_of_lt this)
  refine ⟨hne, ?_⟩
  have := C129_via h h' heb heb30 hfb hE hE2 hE' hE2' hv.canonical
  rw [ext_real hv] at this
  change Outcome c' (cutSig (c'.F + 1) (floatCut eb fb (cutSig (c.F + 1) (c.fmt.val v)))) _ at this
  have hz : floatCut eb fb (cutSig (c.F + 1) (c.fmt.val v)) = 0 := by
    unfold floatCut
    rw [if_pos]
    refine lt_of_le_of_lt (abs_cutSig_le _ _) ?_
    rw [ha]
    unfold minNorm
    have hsz : (2 : ℤ) ^ (eb - 1) < c.maxScale + 2 := by exact_mod_cast hs
    exact zpow_lt_zpow_right₀ (by norm_num) (by omega)
  rw [hz, cutSig_zero] at this
  obtain ⟨w, e1, e2⟩ := this.1 (Or.inl rfl)
  rw [e1, isCut0_unique e2 (Or.inl ⟨rfl, rfl⟩)]

example : P28.WF ∧ P32.WF ∧ 8 < max P28.E (Unp.leastBits 8) ∧
    P28.maxScale + 2 ^ (8 - 1) ≤ 2 ^ (max P28.E (Unp.leastBits 8) - 1) ∧ 8 < P32.E ∧ 2 ^ (8 - 1) + 23 ≤ 2 ^ (P32.E - 1) ∧
    2 ^ (8 - 1) < P28.maxScale + 2 ∧ [1, -1, 2].map (Posit.via P28 P32 .single) = [.ok 0, .ok 0, .ok 0] ∧
    Posit.via P28 P60 .single 2 = .ok 0 ∧ Posit.via P28 P60 .double 2 = .ok 1 := by
  decide +kernel

/-- **C129**: if the float type's fraction is shorter than the longest fraction, the number after one becomes one. -/
theorem C129_lost_wrong (h : c.WF) (h' : c'.WF) (heb : 2 ≤ eb) (heb30 : eb ≤ 30) (hfb : 1 ≤ fb)
    (hE : eb < max c.E (Unp.leastBits eb)) (hE2 : c.maxScale + 2 ^ (eb - 1) ≤ 2 ^ (max c.E (Unp.leastBits eb) - 1))
    (hE' : eb < c'.E) (hE2' : 2 ^ (eb - 1) + fb ≤ 2 ^ (c'.E - 1)) (hf : fb < c.fb) :
    c.fmt.IsReal (c.one + 1) ∧ c.fmt.val (c.one + 1) ≠ 1 ∧ Posit.via c c' (.any eb fb true) (c.one + 1) = .ok c'.one := by
  obtain ⟨r1, r2, r3⟩ := val_one_add h (k := 1) (one_lt_pow₀ (by norm_num) (by omega)) (by omega)
  simp only [Nat.cast_one, one_mul] at r1 r2 r3
  have hq : (0 : ℚ) < 2 ^ (-(c.fb : ℤ)) := by positivity
  refine ⟨r1, by rw [r3]; intro hc; linarith, ?_⟩
  have := C129_via h h' heb heb30 hfb hE hE2 hE' hE2' r1.canonical
  rw [ext_real r1] at this
  change Outcome c' (cutSig (c'.F + 1) (floatCut eb fb (cutSig (c.F + 1) (c.fmt.val (c.one + 1))))) _ at this
  have hone : floatCut eb fb 1 = 1 := by
    have hB : (2 : ℤ) ≤ 2 ^ (eb - 1) := by exact_mod_cast two_le_pow heb
    refine floatCut_exact heb (C51_constants (eb := eb) (fb := fb) (dn := true) heb hfb).1 (Or.inr ?_)
    rw [abs_one]; unfold minNorm
    exact zpow_le_one_of_nonpos₀ (by norm_num) (by omega)
  have hz : floatCut eb fb (cutSig (c.F + 1) (c.fmt.val (c.one + 1))) = 1 := by
    by_cases hF : c.F < c.fb
    · rw [r3, cutSig_after_one hF, hone]
    · have hB : (2 : ℤ) ≤ 2 ^ (eb - 1) := by exact_mod_cast two_le_pow heb
      have hq1 : (2 : ℚ) ^ (-(c.fb : ℤ)) ≤ 2 ^ (-1 : ℤ) := zpow_le_zpow_right₀ (by norm_num) (by omega)
      have hq2 : (2 : ℚ) ^ (-1 : ℤ) = 1 / 2 := by norm_num
      rw [cutSig_fits (fits_posit h r1) (by omega), r3]
      unfold floatCut
      rw [abs_of_pos (by linarith), if_neg, if_neg, cutSig_after_one hf]
      · rw [not_lt]
        have h2 : (2 : ℚ) ^ (1 : ℤ) ≤ maxFin eb fb := maxFin_ge (by omega)
        rw [zpow_one] at h2
        rw [hq2] at hq1
        linarith
      · rw [not_lt]
        refine le_trans (b := 1) ?_ (by linarith)
        unfold minNorm
        exact zpow_le_one_of_nonpos₀ (by norm_num) (by omega)
  rw [hz, cutSig_one' (by omega)] at this
  obtain ⟨w, e1, e2⟩ := this.1 (Or.inr (safeMag_near_one h' (by
    rw [abs_one]
    exact zpow_le_one_of_nonpos₀ (by norm_num) (by omega)) (by norm_num)))
  rcases e2 with ⟨h1, -⟩ | e2
  · norm_num at h1
  rw [e1, e2.faithful.exact (one_real h').1 (val_one h')]

example : P32w.WF ∧ P32z.WF ∧ 23 < P32w.fb ∧
    [1073741825, 1073741824].map (Posit.via P32w P32z .single) = [.ok 1073741824, .ok 1073741824] ∧
    [1073741825, 1073741824].map (Posit.via P32w P32z .double) = [.ok 1073741826, .ok 1073741824] := by
  decide +kernel

end Verif
