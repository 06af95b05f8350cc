import Verif.Model.AnyFloat
import Verif.Props.PositF

/-! # Conversions between float formats -/

namespace Verif
open Fmt

variable {F eb fb eb1 fb1 eb2 fb2 : ℕ} {dn : Bool}

theorem minNorm_pos : 0 < minNorm eb := by unfold minNorm; positivity

/-- floats from `2^e` on lie on the grid of the binade of `2^e` -/
theorem ieee_grid {e : ℤ} {g : ℕ} {z : ℚ} (hg : ieee eb fb g = .num z) (h1 : (2 : ℚ) ^ e ≤ |z|) (he : 2 - 2 ^ (eb - 1) ≤ e) :
    ∃ k : ℕ, |z| = k * 2 ^ (e - fb) := by
  have two : (1 : ℚ) < 2 := by norm_num
  obtain ⟨-, ⟨-, hz⟩ | ⟨-, hz⟩⟩ := ieee_num hg
  · have h2 := (sub_abs hz).2
    have := (zpow_lt_zpow_iff_right₀ two).mp (lt_of_le_of_lt h1 h2)
    omega
  · have ha : |z| = (2 ^ fb + fMan fb g) * 2 ^ ((fExp eb fb g : ℤ) - (2 ^ (eb - 1) - 1) - fb) := by
      rw [hz, abs_sign_mul _ (by positivity)]
    have hm : (fMan fb g : ℚ) < 2 ^ fb := by exact_mod_cast fMan_lt fb g
    have hlt : |z| < 2 ^ ((fExp eb fb g : ℤ) - (2 ^ (eb - 1) - 1) + 1) := by
      rw [ha, show (fExp eb fb g : ℤ) - (2 ^ (eb - 1) - 1) + 1 = (fExp eb fb g : ℤ) - (2 ^ (eb - 1) - 1) - fb + ((fb + 1 : ℕ) : ℤ) by
        push_cast; ring, zpow_add₀ (by norm_num) _ (((fb + 1 : ℕ) : ℤ)), zpow_natCast, mul_comm (2 ^ fb + (fMan fb g : ℚ))]
      apply mul_lt_mul_of_pos_left _ (by positivity)
      rw [pow_succ]; linarith
    have hle := (zpow_lt_zpow_iff_right₀ two).mp (lt_of_le_of_lt h1 hlt)
    obtain ⟨j, hj⟩ := Int.eq_ofNat_of_zero_le (show 0 ≤ (fExp eb fb g : ℤ) - (2 ^ (eb - 1) - 1) - e by omega)
    refine ⟨(2 ^ fb + fMan fb g) * 2 ^ j, ?_⟩
    rw [ha, show (fExp eb fb g : ℤ) - (2 ^ (eb - 1) - 1) - fb = j + (e - fb) by omega, zpow_add₀ (by norm_num), zpow_natCast]
    push_cast; ring

theorem IsCut.unique_num {x : ℚ} {b b' : ℕ} (h : IsCut eb fb x b) (h' : IsCut eb fb x b') : ieee eb fb b = ieee eb fb b' := by
  obtain ⟨y, hy, h1, h2⟩ := h
  obtain ⟨y', hy', h1', h2'⟩ := h'
  rw [hy, hy']
  congr 1
  rcases lt_or_ge |x| (minNorm eb) with hc | hc
  · rw [h1 hc, h1' hc]
  · obtain ⟨a1, a2, a3⟩ := h2 hc
    obtain ⟨b1, b2, b3⟩ := h2' hc
    have e : |y| = |y'| := le_antisymm (b3 _ _ hy a2) (a3 _ _ hy' b2)
    rcases abs_eq_abs.mp e with e | e
    · exact e
    · rw [e] at a1; nlinarith

/-- a number that the format has, and that is zero or normal, is kept -/
theorem IsCut.exact {x : ℚ} {b g : ℕ} (h : IsCut eb fb x b) (hg : ieee eb fb g = .num x) (hn : x = 0 ∨ minNorm eb ≤ |x|) :
    ieee eb fb b = .num x := by
  obtain ⟨y, hy, h1, h2⟩ := h
  rcases hn with rfl | hn
  · rw [hy, h1 (by rw [abs_zero]; exact minNorm_pos)]
  · obtain ⟨a1, a2, a3⟩ := h2 hn
    have e : |y| = |x| := le_antisymm a2 (a3 _ _ hg le_rfl)
    rcases abs_eq_abs.mp e with e | e
    · rw [hy, e]
    · rw [e] at a1; nlinarith [mul_self_nonneg x]

theorem inS_32 {x : ℤ} (h : |x| < 2 ^ 31) : InS 32 x := by
  rw [abs_lt] at h
  unfold InS
  norm_num at h ⊢
  omega

theorem pow_16 (h : eb ≤ 16) : (2 : ℤ) ^ (eb - 1) ≤ 2 ^ 15 := pow_le_pow_right₀ (by norm_num) (by omega)

theorem leastBits_16 (h : eb ≤ 16) : max 32 (Unp.leastBits eb) = 32 := by
  unfold Unp.leastBits; split_ifs <;> omega

/-- packing a triple that is a number cut to `F` fraction bits, when the exponent type holds the biased exponent -/
theorem pack_cut_wide {E : ℕ} (heb : 2 ≤ eb) (heb30 : eb ≤ 30) (hE : eb < max E (Unp.leastBits eb)) (hfb : 1 ≤ fb) (hF1 : 1 ≤ F) {s : Bool} {e : ℤ} {f : ℕ} {X : ℚ} (hf : f < 2 ^ F)
    (hin : InS (max E (Unp.leastBits eb)) (e + (2 ^ (eb - 1) - 1))) (hs : 0 < (if s then -1 else 1 : ℚ) * X) (h1 : mag F e f ≤ |X|) (h2 : |X| < mag F e f + 2 ^ (e - F))
    (hF : fb ≤ F ∨ mag F e f = |X|) :
    ∃ b, Unp.packFloat F E (.any eb fb true) ⟨.regular, s, e, f⟩ = .ok b ∧ b < 2 ^ (eb + fb + 1) ∧ IsCut eb fb X b ∧
      (|X| < minNorm eb → b = 0) := by
  have hB2 : (2 : ℤ) ≤ 2 ^ (eb - 1) := by exact_mod_cast two_le_pow heb
  have hBn : ((2 : ℤ) ^ (eb - 1)) = ((2 ^ (eb - 1) : ℕ) : ℤ) := by push_cast; rfl
  have two : (1 : ℚ) < 2 := by norm_num
  have hFp : (0 : ℚ) < 2 ^ F := by positivity
  have hmag : mag F e f = (2 ^ F + f : ℕ) * 2 ^ (e - F) := by
    unfold mag
    rw [zpow_sub₀ (by norm_num), zpow_natCast]
    push_cast; field_simp
  have hlow : (2 : ℚ) ^ e ≤ mag F e f := by
    rw [hmag, zpow_sub₀ (by norm_num), zpow_natCast]
    have : (0 : ℚ) < 2 ^ e := by positivity
    rw [mul_div_assoc', le_div_iff₀ hFp, mul_comm]
    push_cast
    have : (0 : ℚ) ≤ f := by positivity
    nlinarith
  have hup : |X| < 2 ^ (e + 1) := by
    refine lt_of_lt_of_le h2 ?_
    rw [hmag, zpow_add₀ (by norm_num) e 1, zpow_one, zpow_sub₀ (by norm_num), zpow_natCast, ← add_one_mul, mul_div_assoc',
      div_le_iff₀ hFp]
    have h3 : ((2 ^ F + f : ℕ) : ℚ) + 1 ≤ 2 * 2 ^ F := by
      have : 2 ^ F + f + 1 ≤ 2 * 2 ^ F := by omega
      exact_mod_cast this
    have : (0 : ℚ) < 2 ^ e := by positivity
    nlinarith
  have hX0 : 0 < |X| := lt_of_lt_of_le (by positivity) (hlow.trans h1)
  have hsX : X = (if s then -1 else 1 : ℚ) * |X| := by
    cases s
    · simp at hs ⊢; rw [abs_of_pos hs]
    · simp at hs ⊢; rw [abs_of_neg hs]; ring
  have hsign : ∀ m : ℚ, 0 < m → 0 < X * ((if s then -1 else 1 : ℚ) * m) ∧ |(if s then -1 else 1 : ℚ) * m| = m := by
    intro m hm
    refine ⟨?_, abs_sign_mul _ hm.le⟩
    rw [hsX]
    cases s <;> simp <;> positivity
  rcases le_or_gt e (1 - 2 ^ (eb - 1)) with hc | hc
  · -- below the normal range
    refine ⟨0, C23_underflow_zero heb hc hin, by positivity, ⟨0, ?_, fun _ => rfl, fun hn => ?_⟩, fun _ => rfl⟩
    · rcases ieee_zero (eb := eb) (fb := fb) with h | h
      · exact h
      · omega
    · exfalso
      unfold minNorm at hn
      have := (zpow_lt_zpow_iff_right₀ two).mp (lt_of_le_of_lt hn hup)
      omega
  have hnorm : minNorm eb ≤ |X| := by
    refine le_trans ?_ (hlow.trans h1)
    unfold minNorm
    exact zpow_le_zpow_right₀ (by norm_num) (by omega)
  rcases le_or_gt e (2 ^ (eb - 1) - 1) with hd | hd
  · -- the normal range
    have hh := pow_half (eb := eb) (by omega)
    obtain ⟨x, hx⟩ := Int.eq_ofNat_of_zero_le (show 0 ≤ e + (2 ^ (eb - 1) - 1) by omega)
    have h2n : x + 2 ≤ 2 ^ eb := by
      have : (x : ℤ) + 2 ≤ 2 ^ eb := by omega
      exact_mod_cast this
    have hp := packFloat_normal (E := E) (dn := true) (s := s) heb hfb hF1 (by omega) hf hx (by omega) h2n
      hE
    rcases lt_or_ge F fb with hlt | hF'
    · -- all bits are kept
      replace hF : mag F e f = |X| := hF.resolve_left (by omega)
      rw [if_neg (by omega)] at hp
      have hm : f * 2 ^ (fb - F) < 2 ^ fb := by
        calc f * 2 ^ (fb - F) < 2 ^ F * 2 ^ (fb - F) := Nat.mul_lt_mul_of_pos_right hf (by positivity)
          _ = 2 ^ fb := by rw [← pow_add]; congr 1; omega
      have hj := ieee_join (s := s) hm (by omega : 1 ≤ x) h2n
      rw [show (x : ℤ) - (2 ^ (eb - 1) - 1) = e by omega] at hj
      have hy : (2 ^ fb + ((f * 2 ^ (fb - F) : ℕ) : ℚ)) * 2 ^ (e - fb) = |X| := by
        rw [← hF, hmag, show e - F = e - fb + ((fb - F : ℕ) : ℤ) by omega, zpow_add₀ (by norm_num) (e - fb), zpow_natCast]
        have : (2 : ℚ) ^ fb = 2 ^ F * 2 ^ (fb - F) := by rw [← pow_add]; congr 1; omega
        push_cast; rw [this]; ring
      rw [hy] at hj
      obtain ⟨g1, g2⟩ := hsign _ hX0
      exact ⟨_, hp, fJoin_lt (by omega) hm, ⟨_, hj, fun hlt => absurd hnorm (not_le.mpr hlt), fun _ =>
        ⟨g1, g2.le, fun g z hg hz => hz.trans g2.ge⟩⟩, fun hlt => absurd hnorm (not_le.mpr hlt)⟩
    replace hF := hF'
    have hex : (if fb < F then f / 2 ^ (F - fb) else f * 2 ^ (fb - F)) = f / 2 ^ (F - fb) := by
      split_ifs with h
      · rfl
      · rw [show fb - F = 0 by omega, show F - fb = 0 by omega]; simp
    have hm : f / 2 ^ (F - fb) < 2 ^ fb := by
      rw [Nat.div_lt_iff_lt_mul (by positivity), ← pow_add, show fb + (F - fb) = F by omega]; exact hf
    rw [hex] at hp
    generalize hq : f / 2 ^ (F - fb) = q at *
    have hj := ieee_join (s := s) hm (by omega : 1 ≤ x) h2n
    rw [show (x : ℤ) - (2 ^ (eb - 1) - 1) = e by omega] at hj
    have hY : (0 : ℚ) < (2 ^ fb + q) * 2 ^ (e - fb) := by positivity
    refine ⟨_, hp, fJoin_lt (by omega) hm, ⟨_, hj, fun hlt => absurd hnorm (not_le.mpr hlt), fun _ => ?_⟩,
      fun hlt => absurd hnorm (not_le.mpr hlt)⟩
    obtain ⟨g1, g2⟩ := hsign _ hY
    refine ⟨g1, ?_, fun g z hg hz => ?_⟩
    all_goals rw [g2]
    · -- not above
      refine le_trans ?_ h1
      rw [hmag]
      have e1 : (2 : ℚ) ^ (e - fb) = 2 ^ (F - fb) * 2 ^ (e - F) := by
        rw [← zpow_natCast, ← zpow_add₀ (by norm_num)]; congr 1; omega
      rw [e1, ← mul_assoc]
      apply mul_le_mul_of_nonneg_right _ (by positivity)
      have e2 : (2 ^ fb + q) * 2 ^ (F - fb) ≤ 2 ^ F + f := by
        rw [add_mul, ← pow_add, show fb + (F - fb) = F by omega, ← hq]
        have := Nat.div_mul_le_self f (2 ^ (F - fb))
        omega
      exact_mod_cast e2
    · -- nothing between
      by_contra hcon
      rw [not_le] at hcon
      have hze : (2 : ℚ) ^ e ≤ |z| := by
        refine le_trans ?_ hcon.le
        rw [zpow_sub₀ (by norm_num), zpow_natCast, mul_div_assoc', le_div_iff₀ (by positivity), mul_comm]
        apply mul_le_mul_of_nonneg_right _ (by positivity)
        linarith [show (0 : ℚ) ≤ q by positivity]
      obtain ⟨k, hk⟩ := ieee_grid hg hze (by omega)
      have hu : (0 : ℚ) < 2 ^ (e - fb) := by positivity
      have hk1 : 2 ^ fb + q + 1 ≤ k := by
        rw [hk] at hcon
        have := lt_of_mul_lt_mul_right hcon hu.le
        exact_mod_cast this
      have e1 : (2 : ℚ) ^ (e - fb) = 2 ^ (F - fb) * 2 ^ (e - F) := by
        rw [← zpow_natCast, ← zpow_add₀ (by norm_num)]; congr 1; omega
      have e2 : 2 ^ F + f + 1 ≤ k * 2 ^ (F - fb) := by
        calc 2 ^ F + f + 1 ≤ (2 ^ fb + q + 1) * 2 ^ (F - fb) := by
              rw [add_mul, add_mul, ← pow_add, show fb + (F - fb) = F by omega, ← hq, one_mul]
              have := Nat.lt_div_mul_add (a := f) (b := 2 ^ (F - fb)) (by positivity)
              omega
          _ ≤ _ := Nat.mul_le_mul_right _ hk1
      have e3 : ((2 ^ F + f : ℕ) : ℚ) + 1 ≤ k * 2 ^ (F - fb) := by exact_mod_cast e2
      have : |X| < |z| := by
        refine lt_of_lt_of_le h2 ?_
        rw [hk, hmag, e1, ← mul_assoc, ← add_one_mul]
        exact mul_le_mul_of_nonneg_right e3 (by positivity)
      linarith
  · -- above
    obtain ⟨b, hb, hlt, hv⟩ := C23_saturates (E := E) (F := F) (fb := fb) (dn := true) (s := s) (f := f) heb hfb hd hin
    have hpos : 0 < maxFin eb fb := lt_of_lt_of_le (by positivity) (maxFin_ge (eb := eb) (fb := fb) (m := 0) (by positivity))
    obtain ⟨g1, g2⟩ := hsign _ hpos
    refine ⟨b, hb, hlt, ⟨_, hv, fun hlt => absurd hnorm (not_le.mpr hlt), fun _ => ⟨g1, ?_, fun g z hg _ => ?_⟩⟩,
      fun hlt => absurd hnorm (not_le.mpr hlt)⟩
    · refine le_trans g2.le ?_
      refine le_trans ?_ (hlow.trans h1)
      unfold maxFin
      calc ((2 : ℚ) - 1 / 2 ^ fb) * 2 ^ ((2 : ℤ) ^ (eb - 1) - 1) ≤ 2 * 2 ^ ((2 : ℤ) ^ (eb - 1) - 1) := by
            apply mul_le_mul_of_nonneg_right _ (by positivity)
            have : (0 : ℚ) < 1 / 2 ^ fb := by positivity
            linarith
        _ = 2 ^ ((2 : ℤ) ^ (eb - 1) - 1 + 1) := by rw [zpow_add_one₀ (by norm_num)]; ring
        _ ≤ 2 ^ e := zpow_le_zpow_right₀ (by norm_num) (by omega)
    · exact (ieee_le_maxFin heb hg).trans g2.ge

/-- packing a triple that is a number cut to `F` fraction bits -/
theorem pack_cut (heb : 2 ≤ eb) (heb16 : eb ≤ 16) (hfb : 1 ≤ fb) (hF1 : 1 ≤ F) {s : Bool} {e : ℤ} {f : ℕ} {X : ℚ} (hf : f < 2 ^ F)
    (he : |e| < 2 ^ 30) (hs : 0 < (if s then -1 else 1 : ℚ) * X) (h1 : mag F e f ≤ |X|) (h2 : |X| < mag F e f + 2 ^ (e - F))
    (hF : fb ≤ F ∨ mag F e f = |X|) :
    ∃ b, Unp.packFloat F 32 (.any eb fb true) ⟨.regular, s, e, f⟩ = .ok b ∧ b < 2 ^ (eb + fb + 1) ∧ IsCut eb fb X b ∧
      (|X| < minNorm eb → b = 0) := by
  have hB := pow_16 heb16
  have hB2 : (2 : ℤ) ≤ 2 ^ (eb - 1) := by exact_mod_cast two_le_pow heb
  refine pack_cut_wide heb (by omega) (by rw [leastBits_16 heb16]; omega) hfb hF1 hf ?_ hs h1 h2 hF
  rw [leastBits_16 heb16]
  apply inS_32
  rw [abs_lt] at he ⊢
  norm_num at he hB ⊢
  omega

/-- what unpacking a float gives: nothing is lost unless the fraction type is too narrow -/
theorem unpack_num (heb : 2 ≤ eb) (heb16 : eb ≤ 16) (hfb : 1 ≤ fb) (hfb30 : fb ≤ 2 ^ 20) (hF1 : 1 ≤ F) {b : ℕ} {x : ℚ}
    (hx : ieee eb fb b = .num x) (hc : x = 0 ∨ minNorm eb ≤ |x| ∨ fb < F) :
    (x = 0 ∧ ∃ e f, Unp.unpackFloat F 32 (.any eb fb true) b = .ok ⟨.zero, false, e, f⟩) ∨
    (x ≠ 0 ∧ ∃ s e f, Unp.unpackFloat F 32 (.any eb fb true) b = .ok ⟨.regular, s, e, f⟩ ∧ f < 2 ^ F ∧ |e| < 2 ^ 30 ∧
      0 < (if s then -1 else 1 : ℚ) * x ∧ mag F e f ≤ |x| ∧ |x| < mag F e f + 2 ^ (e - F) ∧ (fb ≤ F → mag F e f = |x|)) := by
  have hB := pow_16 heb16
  have hB2 : (2 : ℤ) ≤ 2 ^ (eb - 1) := by exact_mod_cast two_le_pow heb
  have hBn : ((2 : ℤ) ^ (eb - 1)) = ((2 ^ (eb - 1) : ℕ) : ℤ) := by push_cast; rfl
  have hmlt := fMan_lt fb b
  have key : ∀ {n L : ℕ} {A : ℤ}, 2 ^ L ≤ n → n < 2 ^ (L + 1) → x = (if fSign eb fb b then -1 else 1 : ℚ) * (n * 2 ^ A) →
      x ≠ 0 ∧ fracOf F L n < 2 ^ F ∧ 0 < (if fSign eb fb b then -1 else 1 : ℚ) * x ∧ mag F (A + L) (fracOf F L n) ≤ |x| ∧
      |x| < mag F (A + L) (fracOf F L n) + 2 ^ (A + L - F) ∧ (L ≤ F → mag F (A + L) (fracOf F L n) = |x|) := by
    intro n L A h1 h2 hxe
    have hn : 0 < n := lt_of_lt_of_le (by positivity) h1
    have hp : (0 : ℚ) < n * 2 ^ A := by positivity
    have ha : |x| = n * 2 ^ A := by rw [hxe, abs_sign_mul _ hp.le]
    obtain ⟨g1, g2, g3⟩ := fracOf_unit (F := F) h1 A
    refine ⟨?_, fracOf_lt h2, ?_, ?_, ?_, fun h => ?_⟩
    · rw [← abs_pos, ha]; exact hp
    · rw [hxe]; cases fSign eb fb b <;> simp <;> positivity
    · rw [ha, g1]; exact g2
    · rw [ha, g1, ← add_one_mul]; exact g3
    · rw [ha, fracOf_exact h1 h]
  obtain ⟨h2, ⟨h1, hv⟩ | ⟨h1, hv⟩⟩ := ieee_num hx
  · rcases Nat.eq_zero_or_pos (fMan fb b) with hm | hm
    · refine Or.inl ⟨by rw [hv, hm]; simp, ?_⟩
      exact unpackFloat_zero heb hfb hF1 (by omega) h1 (Or.inr (by rw [hm]; unfold fracOf; simp))
    · right
      have hx0 : x ≠ 0 := by
        rw [← abs_pos, (sub_abs hv).1]; positivity
      have hF : fb < F := by
        rcases hc with h | h | h
        · exact absurd h hx0
        · exact absurd (sub_abs hv).2 (not_lt.mpr h)
        · exact h
      have hmf : fracOf F fb (2 ^ fb + fMan fb b) = fMan fb b * 2 ^ (F - fb) := by
        unfold fracOf; rw [if_pos hF.le, Nat.add_sub_cancel_left]
      have hmlt' : fMan fb b * 2 ^ (F - fb) < 2 ^ F := by
        rw [← hmf]; apply fracOf_lt
        rw [pow_succ]; omega
      have hm1 : 2 ^ (F - fb) ≤ fMan fb b * 2 ^ (F - fb) := Nat.le_mul_of_pos_left _ hm
      have hv' : x = (if fSign eb fb b then -1 else 1 : ℚ) * ((fMan fb b * 2 ^ (F - fb) : ℕ) * 2 ^ ((2 : ℤ) - 2 ^ (eb - 1) - F)) := by
        rw [hv]; congr 1
        push_cast
        rw [mul_assoc, ← zpow_natCast, ← zpow_add₀ (by norm_num)]
        congr 2; omega
      generalize fMan fb b * 2 ^ (F - fb) = m at *
      have hm0 : m ≠ 0 := by have := Nat.one_le_two_pow (n := F - fb); omega
      have hL1 := Nat.log2_self_le hm0
      have hL2 := Nat.lt_log2_self (n := m)
      have hLge : F - fb ≤ m.log2 := by
        by_contra hc
        have : 2 ^ (m.log2 + 1) ≤ 2 ^ (F - fb) := Nat.pow_le_pow_right (by norm_num) (by omega)
        omega
      have hLF : m.log2 < F := (Nat.pow_lt_pow_iff_right (by norm_num : 1 < 2)).mp (lt_of_le_of_lt hL1 hmlt')
      have hu := unpackFloat_sub (F := F) (E := 32) heb hfb hF1 (by omega) (by norm_num at hB ⊢; zify; omega) h1 hmf.symm hL1 hL2
        (by have := le_pw F; omega) (by omega)
      rw [show (1 : ℤ) - (2 ^ (eb - 1) - 1) - F + m.log2 = 2 - 2 ^ (eb - 1) - F + m.log2 by ring] at hu
      obtain ⟨k1, k2, k3, k4, k5, k6⟩ := key hL1 hL2 hv'
      refine ⟨k1, _, _, _, hu, k2, ?_, k3, k4, k5, fun _ => k6 (by omega)⟩
      rw [abs_lt]; norm_num at hB hfb30 ⊢; omega
  · right
    have hlt := fExp_lt eb fb b
    have hh := pow_half (eb := eb) (by omega)
    have hltz : (fExp eb fb b : ℤ) < 2 ^ eb := by exact_mod_cast hlt
    obtain ⟨k1, k2, k3, k4, k5, k6⟩ := key (n := 2 ^ fb + fMan fb b) (L := fb) (by omega) (by rw [pow_succ]; omega)
      (by rw [hv]; push_cast; rfl)
    refine ⟨k1, _, _, _, unpackFloat_normal heb hfb hF1 (by omega) (by omega) h1 h2, k2, ?_, k3, k4, k5, k6⟩
    rw [abs_lt]; norm_num at hB hfb30 ⊢; omega

theorem minNorm_anti (h : eb2 ≤ eb1) : minNorm eb1 ≤ minNorm eb2 := by
  unfold minNorm
  apply zpow_le_zpow_right₀ (by norm_num)
  have : (2 : ℤ) ^ (eb2 - 1) ≤ 2 ^ (eb1 - 1) := pow_le_pow_right₀ (by norm_num) (by omega)
  omega

theorem isCut_zero (heb : 2 ≤ eb) {x : ℚ} (h : |x| < minNorm eb) : IsCut eb fb x 0 := by
  refine ⟨0, ?_, fun _ => rfl, fun hn => absurd h (not_lt.mpr hn)⟩
  rcases ieee_zero (eb := eb) (fb := fb) with h | h
  · exact h
  · omega

/-- converting a number through an unpacked form with a fraction type of `F` bits cuts it -/
theorem conv_num (heb1 : 2 ≤ eb1) (heb1' : eb1 ≤ 16) (hfb1 : 1 ≤ fb1) (hfb1' : fb1 ≤ 2 ^ 20) (heb2 : 2 ≤ eb2) (heb2' : eb2 ≤ 16)
    (hfb2 : 1 ≤ fb2) (hF1 : 1 ≤ F) (hF : fb2 ≤ F ∨ fb1 ≤ F) {b : ℕ} {x : ℚ} (hx : ieee eb1 fb1 b = .num x)
    (hc : x = 0 ∨ minNorm eb1 ≤ |x| ∨ fb1 < F ∨ (F < 32 ∧ eb2 ≤ eb1)) :
    ∃ r, convVia F (.any eb1 fb1 true) (.any eb2 fb2 true) b = .ok r ∧ r < 2 ^ (eb2 + fb2 + 1) ∧ IsCut eb2 fb2 x r ∧
      (|x| < minNorm eb2 → r = 0) := by
  unfold convVia
  by_cases hsp : x = 0 ∨ minNorm eb1 ≤ |x| ∨ fb1 < F
  · rcases unpack_num heb1 heb1' hfb1 hfb1' hF1 hx hsp with ⟨rfl, e, f, hu⟩ | ⟨-, s, e, f, hu, k2, k3, k4, k5, k6, k7⟩
    · rw [hu]
      exact ⟨0, rfl, by positivity, isCut_zero heb2 (by rw [abs_zero]; exact minNorm_pos), fun _ => rfl⟩
    · rw [hu]
      exact pack_cut heb2 heb2' hfb2 hF1 k2 k3 k4 k5 k6 (hF.imp_right k7)
  · have hc' : F < 32 ∧ eb2 ≤ eb1 := by
      rcases hc with h | h | h | h
      · exact absurd (Or.inl h) hsp
      · exact absurd (Or.inr (Or.inl h)) hsp
      · exact absurd (Or.inr (Or.inr h)) hsp
      · exact h
    push Not at hsp
    obtain ⟨hx0, hsub, hFfb⟩ := hsp
    have hcut := isCut_zero (fb := fb2) heb2 (lt_of_lt_of_le hsub (minNorm_anti hc'.2))
    refine ⟨0, ?_, by positivity, hcut, fun _ => rfl⟩
    have hB := pow_16 heb1'
    have hB1 : (2 : ℤ) ≤ 2 ^ (eb1 - 1) := by exact_mod_cast two_le_pow heb1
    have hB2 : (2 : ℤ) ≤ 2 ^ (eb2 - 1) := by exact_mod_cast two_le_pow heb2
    have hB12 : (2 : ℤ) ^ (eb2 - 1) ≤ 2 ^ (eb1 - 1) := pow_le_pow_right₀ (by norm_num) (by omega)
    obtain ⟨h2, ⟨h1, hv⟩ | ⟨h1, hv⟩⟩ := ieee_num hx
    swap
    · exfalso
      have : (2 : ℚ) ^ ((2 : ℤ) - 2 ^ (eb1 - 1)) ≤ |x| := by
        rw [hv, abs_sign_mul _ (by positivity)]
        have h1' : (1 : ℤ) ≤ fExp eb1 fb1 b := by omega
        calc (2 : ℚ) ^ ((2 : ℤ) - 2 ^ (eb1 - 1)) ≤ 2 ^ ((fExp eb1 fb1 b : ℤ) - (2 ^ (eb1 - 1) - 1)) :=
              zpow_le_zpow_right₀ (by norm_num) (by omega)
          _ = 2 ^ fb1 * 2 ^ ((fExp eb1 fb1 b : ℤ) - (2 ^ (eb1 - 1) - 1) - fb1) := by
              rw [← zpow_natCast, ← zpow_add₀ (by norm_num)]; congr 1; omega
          _ ≤ _ := by
              apply mul_le_mul_of_nonneg_right _ (by positivity)
              linarith [show (0 : ℚ) ≤ fMan fb1 b by positivity]
      exact absurd hsub (not_lt.mpr this)
    have hmlt := fMan_lt fb1 b
    have hmlt' : fracOf F fb1 (2 ^ fb1 + fMan fb1 b) < 2 ^ F := fracOf_lt (by rw [pow_succ]; omega)
    rcases Nat.eq_zero_or_pos (fracOf F fb1 (2 ^ fb1 + fMan fb1 b)) with hm | hm
    · obtain ⟨e, f, hu⟩ := unpackFloat_zero (F := F) (E := 32) (dn := true) heb1 hfb1 hF1 (by omega) h1 (Or.inr hm)
      rw [hu]; rfl
    · generalize hmdef : fracOf F fb1 (2 ^ fb1 + fMan fb1 b) = m at *
      have hL1 := Nat.log2_self_le hm.ne'
      have hL2 := Nat.lt_log2_self (n := m)
      have hLF : m.log2 < F := (Nat.pow_lt_pow_iff_right (by norm_num : 1 < 2)).mp (lt_of_le_of_lt hL1 hmlt')
      have hB1n : ((2 : ℤ) ^ (eb1 - 1)) = ((2 ^ (eb1 - 1) : ℕ) : ℤ) := by push_cast; rfl
      rw [unpackFloat_sub (F := F) (E := 32) heb1 hfb1 hF1 (by omega) (by norm_num at hB hfb1' ⊢; zify; omega) h1 hmdef.symm hL1 hL2
        (by have := le_pw F; have : pw F = 32 := by (unfold pw; omega)
            omega) (by omega)]
      refine C23_underflow_zero heb2 (by omega) ?_
      rw [leastBits_16 heb2']
      apply inS_32
      rw [abs_lt]; norm_num at hB ⊢; omega

/-- converting an infinity -/
theorem conv_inf (heb1 : 2 ≤ eb1) (heb1' : eb1 ≤ 16) (hfb1 : 1 ≤ fb1) (heb2 : 2 ≤ eb2) (hfb2 : 1 ≤ fb2) (hF1 : 1 ≤ F) {b : ℕ} {s : Bool}
    (hx : ieee eb1 fb1 b = .inf s) :
    ∃ r, convVia F (.any eb1 fb1 true) (.any eb2 fb2 true) b = .ok r ∧ r < 2 ^ (eb2 + fb2 + 1) ∧ ieee eb2 fb2 r = .inf s := by
  rw [ieee_eq] at hx
  split_ifs at hx with h1 h2
  simp only [XNum.inf.injEq] at hx
  obtain ⟨e, hu⟩ := unpackFloat_special (F := F) (E := 32) (dn := true) heb1 hfb1 hF1 (by omega) h1
  unfold convVia
  rw [hu, h2, if_pos (by unfold fracOf; simp), hx]
  have hlt : 2 ^ eb2 - 1 < 2 ^ eb2 := by have := Nat.one_le_two_pow (n := eb2); omega
  refine ⟨_, rfl, ?_, ?_⟩
  · show (if s then (FTrait.any eb2 fb2 true).ninf else (FTrait.any eb2 fb2 true).pinf) < _
    rw [any_inf heb2]
    exact fJoin_lt hlt (by positivity)
  · show ieee eb2 fb2 (if s then (FTrait.any eb2 fb2 true).ninf else (FTrait.any eb2 fb2 true).pinf) = _
    rw [any_inf heb2, ieee_eq, fJoin_sign hlt (by positivity), fJoin_exp hlt (by positivity), fJoin_man (by positivity)]
    simp

/-- converting a NaN, unless all its fraction bits that fit are zero -/
theorem conv_nan (heb1 : 2 ≤ eb1) (heb1' : eb1 ≤ 16) (hfb1 : 1 ≤ fb1) (heb2 : 2 ≤ eb2) (hfb2 : 1 ≤ fb2) (hF1 : 1 ≤ F) {b : ℕ}
    (hx : ieee eb1 fb1 b = .nan) (hq : fb1 ≤ F ∨ 2 ^ (fb1 - F) ≤ fMan fb1 b) :
    ∃ r, convVia F (.any eb1 fb1 true) (.any eb2 fb2 true) b = .ok r ∧ r < 2 ^ (eb2 + fb2 + 1) ∧ ieee eb2 fb2 r = .nan := by
  rw [ieee_eq] at hx
  split_ifs at hx with h1 h2
  obtain ⟨e, hu⟩ := unpackFloat_special (F := F) (E := 32) (dn := true) heb1 hfb1 hF1 (by omega) h1
  have hz : fracOf F fb1 (2 ^ fb1 + fMan fb1 b) ≠ 0 := by
    unfold fracOf
    split_ifs with h
    · rw [Nat.add_sub_cancel_left]; exact Nat.mul_ne_zero h2 (by positivity)
    · rw [Nat.add_sub_cancel_left]
      exact (Nat.div_pos (hq.resolve_left h) (by positivity)).ne'
  unfold convVia
  rw [hu, if_neg hz]
  have hlt : 2 ^ eb2 - 1 < 2 ^ eb2 := by have := Nat.one_le_two_pow (n := eb2); omega
  have hlm : 2 ^ (fb2 - 1) < 2 ^ fb2 := Nat.pow_lt_pow_right (by norm_num) (by omega)
  refine ⟨_, rfl, ?_, ?_⟩
  · show (FTrait.any eb2 fb2 true).nan < _
    rw [any_nan hfb2]; exact fJoin_lt hlt hlm
  · show ieee eb2 fb2 (FTrait.any eb2 fb2 true).nan = _
    rw [any_nan hfb2, ieee_eq, fJoin_exp hlt hlm, fJoin_man hlm]
    simp

/-! ## cutting -/

theorem IsCut.abs_le {x y : ℚ} {b : ℕ} (h : IsCut eb fb x b) (hy : ieee eb fb b = .num y) : |y| ≤ |x| := by
  obtain ⟨y', hy', h1, h2⟩ := h
  obtain rfl : y = y' := XNum.num.inj (hy.symm.trans hy')
  rcases lt_or_ge |x| (minNorm eb) with hc | hc
  · rw [h1 hc, abs_zero]; positivity
  · exact (h2 hc).2.1

theorem IsCut.sign {x y : ℚ} {b : ℕ} (h : IsCut eb fb x b) (hy : ieee eb fb b = .num y) : (0 ≤ x → 0 ≤ y) ∧ (x ≤ 0 → y ≤ 0) := by
  obtain ⟨y', hy', h1, h2⟩ := h
  obtain rfl : y = y' := XNum.num.inj (hy.symm.trans hy')
  rcases lt_or_ge |x| (minNorm eb) with hc | hc
  · rw [h1 hc]; simp
  · obtain ⟨h3, -⟩ := h2 hc
    constructor <;> intro h
    · by_contra hcon; nlinarith
    · by_contra hcon; nlinarith

/-- cutting is monotone -/
theorem IsCut.mono {x x' y y' : ℚ} {b b' : ℕ} (h : IsCut eb fb x b) (h' : IsCut eb fb x' b') (hy : ieee eb fb b = .num y)
    (hy' : ieee eb fb b' = .num y') (hle : x ≤ x') : y ≤ y' := by
  have key : ∀ {u u' v v' : ℚ} {c c' : ℕ}, IsCut eb fb u c → IsCut eb fb u' c' → ieee eb fb c = .num v → ieee eb fb c' = .num v' →
      |u| ≤ |u'| → |v| ≤ |v'| := by
    intro u u' v v' c c' hu hu' hv hv' hle
    have ha := hu.abs_le hv
    obtain ⟨w, hw, h1, h2⟩ := hu
    obtain rfl : v = w := XNum.num.inj (hv.symm.trans hw)
    obtain ⟨w', hw', h1', h2'⟩ := hu'
    obtain rfl : v' = w' := XNum.num.inj (hv'.symm.trans hw')
    rcases lt_or_ge |u| (minNorm eb) with hc | hc
    · rw [h1 hc, abs_zero]; positivity
    · exact (h2' (hc.trans hle)).2.2 _ _ hv (ha.trans hle)
  have s1 := h.sign hy
  have s2 := h'.sign hy'
  rcases le_total 0 x with h0 | h0
  · have := key h h' hy hy' (by rw [abs_of_nonneg h0, abs_of_nonneg (h0.trans hle)]; exact hle)
    rwa [abs_of_nonneg (s1.1 h0), abs_of_nonneg (s2.1 (h0.trans hle))] at this
  · rcases le_total 0 x' with h0' | h0'
    · exact (s1.2 h0).trans (s2.1 h0')
    · have := key h' h hy' hy (by rw [abs_of_nonpos h0, abs_of_nonpos h0']; linarith)
      rw [abs_of_nonpos (s1.2 h0), abs_of_nonpos (s2.2 h0')] at this
      linarith

theorem maxFin_pos : 0 < maxFin eb fb := lt_of_lt_of_le (by positivity) (maxFin_ge (eb := eb) (fb := fb) (m := 0) (by positivity))

theorem maxFin_lt : maxFin eb fb < 2 ^ ((2 : ℤ) ^ (eb - 1)) := by
  unfold maxFin
  have h1 : (0 : ℚ) < 1 / 2 ^ fb := by positivity
  calc ((2 : ℚ) - 1 / 2 ^ fb) * 2 ^ ((2 : ℤ) ^ (eb - 1) - 1) < 2 * 2 ^ ((2 : ℤ) ^ (eb - 1) - 1) :=
        mul_lt_mul_of_pos_right (by linarith) (by positivity)
    _ = 2 ^ ((2 : ℤ) ^ (eb - 1) - 1 + 1) := by rw [zpow_add_one₀ (by norm_num)]; ring
    _ = _ := by congr 1; ring

theorem minNorm_le_maxFin (heb : 2 ≤ eb) : minNorm eb ≤ maxFin eb fb := by
  unfold minNorm
  apply maxFin_ge
  have : (2 : ℤ) ≤ 2 ^ (eb - 1) := by exact_mod_cast two_le_pow heb
  omega

/-- numbers beyond the format saturate -/
theorem IsCut.saturates (heb : 2 ≤ eb) (hfb : 1 ≤ fb) {x y : ℚ} {b : ℕ} (h : IsCut eb fb x b) (hy : ieee eb fb b = .num y)
    (hx : maxFin eb fb ≤ |x|) : |y| = maxFin eb fb := by
  obtain ⟨y', hy', h1, h2⟩ := h
  obtain rfl : y = y' := XNum.num.inj (hy.symm.trans hy')
  obtain ⟨_, _, _, hmax, _⟩ := C51_constants (dn := true) heb hfb
  obtain ⟨-, -, h5⟩ := h2 ((minNorm_le_maxFin heb).trans hx)
  have := h5 _ _ hmax (by rw [abs_of_pos]; exacts [hx, maxFin_pos])
  change |maxFin eb fb| ≤ _ at this
  rw [abs_of_pos (maxFin_pos (eb := eb) (fb := fb))] at this
  exact le_antisymm (ieee_le_maxFin heb hy) this

/-- the relative error of cutting a number of the normal range -/
theorem IsCut.error (heb : 2 ≤ eb) {x y : ℚ} {b : ℕ} (h : IsCut eb fb x b) (hy : ieee eb fb b = .num y)
    (h1 : minNorm eb ≤ |x|) (h2 : |x| ≤ maxFin eb fb) : |x - y| < |x| / 2 ^ fb := by
  obtain ⟨y', hy', -, hc⟩ := h
  obtain rfl : y = y' := XNum.num.inj (hy.symm.trans hy')
  obtain ⟨c1, c2, c3⟩ := hc h1
  have hpos : 0 < |x| := lt_of_lt_of_le minNorm_pos h1
  have two : (1 : ℚ) < 2 := by norm_num
  set e := Int.log 2 |x| with he
  have e1 : (2 : ℚ) ^ e ≤ |x| := by exact_mod_cast Int.zpow_log_le_self (b := 2) (by norm_num) hpos
  have e2 : |x| < (2 : ℚ) ^ (e + 1) := by exact_mod_cast Int.lt_zpow_succ_log_self (b := 2) (by norm_num) |x|
  have hu : (0 : ℚ) < 2 ^ (e - fb) := by positivity
  have hp : (2 : ℚ) ^ fb * 2 ^ (e - fb) = 2 ^ e := by rw [← zpow_natCast, ← zpow_add₀ (by norm_num)]; congr 1; omega
  set k := ⌊|x| / 2 ^ (e - fb)⌋₊ with hk
  have k1 : (k : ℚ) * 2 ^ (e - fb) ≤ |x| := by
    rw [← le_div_iff₀ hu]; exact Nat.floor_le (by positivity)
  have k2 : |x| < ((k : ℚ) + 1) * 2 ^ (e - fb) := by
    rw [← div_lt_iff₀ hu]; exact Nat.lt_floor_add_one _
  have k3 : 2 ^ fb ≤ k := by
    apply Nat.le_floor
    rw [le_div_iff₀ hu]; push_cast; rw [hp]; exact e1
  have k4 : k < 2 ^ (fb + 1) := by
    have : (k : ℚ) * 2 ^ (e - fb) < 2 ^ (fb + 1) * 2 ^ (e - fb) := by
      refine lt_of_le_of_lt k1 (lt_of_lt_of_le e2 ?_)
      rw [zpow_add_one₀ (by norm_num), ← hp, pow_succ]
      exact le_of_eq (by ring)
    exact_mod_cast lt_of_mul_lt_mul_right this hu.le
  have he1 : 2 - 2 ^ (eb - 1) ≤ e := by
    unfold minNorm at h1
    have := (zpow_lt_zpow_iff_right₀ two).mp (lt_of_le_of_lt h1 e2)
    omega
  have hv1 : (2 : ℚ) ^ e ≤ (k : ℚ) * 2 ^ (e - fb) := by
    rw [← hp]; exact mul_le_mul_of_nonneg_right (by exact_mod_cast k3) hu.le
  have hv0 : (0 : ℚ) ≤ k * 2 ^ (e - fb) := by positivity
  obtain ⟨g, hg⟩ := float_of_fits (eb := eb) (fb := fb) heb (x := k * 2 ^ (e - fb)) ⟨k, e - fb, by rw [abs_of_nonneg (by positivity)]; exact_mod_cast k4, by push_cast; rfl⟩
    (by rw [abs_of_nonneg hv0]; exact le_trans (zpow_le_zpow_right₀ (by norm_num) he1) hv1)
    (by rw [abs_of_nonneg hv0]; exact lt_of_le_of_lt (k1.trans h2) maxFin_lt)
  have h5 := c3 _ _ hg (by rw [abs_of_nonneg hv0]; exact k1)
  rw [abs_of_nonneg hv0] at h5
  have h6 : |x - y| = |x| - |y| := by
    rcases lt_trichotomy x 0 with hx | hx | hx
    · have hy0 : y < 0 := by by_contra hcon; nlinarith
      rw [abs_of_neg hx, abs_of_neg hy0] at c2 ⊢
      rw [abs_of_nonpos (by linarith)]; ring
    · rw [hx] at hpos; simp at hpos
    · have hy0 : 0 < y := by by_contra hcon; nlinarith
      rw [abs_of_pos hx, abs_of_pos hy0] at c2 ⊢
      rw [abs_of_nonneg (by linarith)]
  rw [h6, lt_div_iff₀ (by positivity)]
  have h7 : |x| - |y| < 2 ^ (e - fb) := by linarith
  calc (|x| - |y|) * 2 ^ fb < 2 ^ (e - fb) * 2 ^ fb := mul_lt_mul_of_pos_right h7 (by positivity)
    _ = 2 ^ e := by rw [mul_comm]; exact hp
    _ ≤ |x| := e1

/-- a float is an integer of `fb + 1` bits times a power of two, and one with the top bit set if it is normal -/
theorem ieee_nat {g : ℕ} {x : ℚ} (hg : ieee eb fb g = .num x) :
    ∃ (n : ℕ) (A : ℤ), n < 2 ^ (fb + 1) ∧ |x| = n * 2 ^ A ∧ (minNorm eb ≤ |x| → 2 ^ fb ≤ n) := by
  have hm := fMan_lt fb g
  obtain ⟨-, ⟨-, hx⟩ | ⟨-, hx⟩⟩ := ieee_num hg
  · exact ⟨_, _, by rw [pow_succ]; omega, (sub_abs hx).1, fun h => absurd (sub_abs hx).2 (not_lt.mpr h)⟩
  · exact ⟨2 ^ fb + fMan fb g, _, by rw [pow_succ]; omega, by
      rw [hx, abs_sign_mul _ (by positivity)]; push_cast; rfl, fun _ => by omega⟩

/-- a float of a narrower format is one of the wider format, if it is normal there -/
theorem ieee_widen {eb' fb' g : ℕ} {x : ℚ} (heb : 2 ≤ eb) (he : eb ≤ eb') (hf : fb ≤ fb') (hg : ieee eb fb g = .num x)
    (hx : x = 0 ∨ minNorm eb' ≤ |x|) : ∃ g', ieee eb' fb' g' = .num x := by
  rcases hx with rfl | hx
  · rcases ieee_zero (eb := eb') (fb := fb') with h | h
    · exact ⟨0, h⟩
    · omega
  · obtain ⟨n, A, hn, hA, -⟩ := ieee_nat hg
    have hfit : Fits (fb' + 1) |x| := ⟨n, A, by
      rw [abs_of_nonneg (by positivity)]
      exact_mod_cast lt_of_lt_of_le hn (Nat.pow_le_pow_right (by norm_num) (by omega)), by rw [hA]; push_cast; rfl⟩
    have hlt : |x| < 2 ^ ((2 : ℤ) ^ (eb' - 1)) := by
      refine lt_of_le_of_lt (ieee_le_maxFin heb hg) (lt_of_lt_of_le maxFin_lt ?_)
      exact zpow_le_zpow_right₀ (by norm_num) (pow_le_pow_right₀ (by norm_num) (by omega))
    obtain ⟨g', hg'⟩ := float_of_fits (eb := eb') (fb := fb') (by omega) hfit (by rw [abs_abs]; exact hx) (by rw [abs_abs]; exact hlt)
    rcases abs_choice x with h | h
    · exact ⟨g', by rw [hg', h]⟩
    · obtain ⟨g2, hg2⟩ := ieee_neg hg'
      exact ⟨g2, by rw [hg2, h]; simp⟩

/-- cutting a rounded number cuts the number itself, if rounding does not step over a float of the narrower format -/
theorem IsCut.of_rounded (heb : 2 ≤ eb) (he : eb ≤ eb1) (hfb : 1 ≤ fb) (hf : fb ≤ fb1) {X z : ℚ} {w r : ℕ} (hr : IsRounded eb1 fb1 X w)
    (hw : ieee eb1 fb1 w = .num z) (hc : IsCut eb fb z r)
    (hgap : ∀ g v, ieee eb fb g = .num v → minNorm eb ≤ |v| → |X| < |v| → |z| < |v|) : IsCut eb fb X r := by
  obtain ⟨_, _, hmin, _⟩ := C51_constants (dn := true) heb hfb
  have hmn := minNorm_pos (eb := eb)
  have hmabs : |minNorm eb| = minNorm eb := abs_of_pos hmn
  obtain ⟨y, hy, h1, h2⟩ := hc
  rcases lt_or_ge |X| (minNorm eb) with hX | hX
  · refine ⟨y, hy, fun _ => h1 ?_, fun h => absurd hX (not_lt.mpr h)⟩
    have := hgap _ _ hmin (by change _ ≤ |minNorm eb|; rw [hmabs]) (by change _ < |minNorm eb|; rw [hmabs]; exact hX)
    change _ < |minNorm eb| at this
    rwa [hmabs] at this
  · obtain ⟨gm, hgm⟩ := ieee_widen (eb' := eb1) (fb' := fb1) heb he hf hmin
      (Or.inr (by change _ ≤ |minNorm eb|; rw [hmabs]; exact minNorm_anti he))
    have hz : minNorm eb ≤ |z| := (hr.abs_le hw hmn.le ⟨_, hgm⟩).2 hX
    obtain ⟨c1, c2, c3⟩ := h2 hz
    have hym : minNorm eb ≤ |y| := by
      have := c3 _ _ hmin (by change |minNorm eb| ≤ _; rw [hmabs]; exact hz)
      change |minNorm eb| ≤ _ at this
      rwa [hmabs] at this
    obtain ⟨z', hz', hrr⟩ := hr
    obtain rfl : z = z' := XNum.num.inj (hw.symm.trans hz')
    have h0 : ieee eb1 fb1 0 = .num 0 := by
      rcases ieee_zero (eb := eb1) (fb := fb1) with h | h
      · exact h
      · omega
    have hz0 := hrr _ _ h0
    refine ⟨y, hy, fun h => absurd h (not_lt.mpr hX), fun _ => ⟨?_, ?_, fun g v hg hv => ?_⟩⟩
    · have hX0 : X ≠ 0 := by rintro rfl; rw [abs_zero] at hX; linarith
      rcases lt_or_gt_of_ne hX0 with h | h
      · have := hz0.2 h.le
        nlinarith [show y < 0 by by_contra hcon; nlinarith]
      · have := hz0.1 h.le
        nlinarith [show 0 < y by by_contra hcon; nlinarith]
    · by_contra hcon
      rw [not_le] at hcon
      have := hgap _ _ hy hym hcon
      linarith
    · rcases lt_or_ge |v| (minNorm eb) with hvm | hvm
      · linarith
      · obtain ⟨g', hg'⟩ := ieee_widen (eb' := eb1) (fb' := fb1) heb he hf hg (Or.inr ((minNorm_anti he).trans hvm))
        have hav : ∃ g, ieee eb1 fb1 g = .num |v| := by
          rcases abs_choice v with h | h
          · exact ⟨g', by rw [hg', h]⟩
          · rw [h]; exact ieee_neg hg'
        have := ((show IsRounded eb1 fb1 X w from ⟨z, hw, hrr⟩).abs_le hw (abs_nonneg v) hav).2 hv
        exact c3 _ _ hg this

end Verif
