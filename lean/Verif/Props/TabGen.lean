import Verif.Model.TabGen
import Verif.Props.Posit10

/-! # The committed tables are those that the generators write (C62) -/

namespace Verif
open Fmt

variable {o : FloatOps}

theorem floatFor_posit8 : FloatFor Posit8.cfg .single :=
  ⟨Or.inl rfl, by decide, by decide, by decide, by decide, by decide, by decide⟩

theorem floatFor_posit12 : FloatFor Posit12.cfg .single :=
  ⟨Or.inl rfl, by decide, by decide, by decide, by decide, by decide, by decide⟩

/-- a float that is a posit is converted to that posit -/
theorem FloatFor.ofFloat_posit {c : Cfg} {t : FTrait} (h : FloatFor c t) {w : ℤ} (hw : c.fmt.IsReal w) {g : ℕ}
    (hg : ieee t.eb t.fb g = .num (c.fmt.val w)) : Posit.ofFloat c t g = .ok w := by
  by_cases h0 : w = 0
  · subst h0
    rw [Format.val_zero] at hg
    exact h.ofFloat_zero hg
  · obtain ⟨v, hv, -, -, ht⟩ := h.ofFloat (IsRounded.of_num hg)
      (le_trans (zpow_le_zpow_right₀ (by norm_num) (by
        have := h.range
        have hB' : ((2 : ℤ) ^ (t.eb - 1)) = ((2 ^ (t.eb - 1) : ℕ) : ℤ) := by push_cast; rfl
        omega)) (val_abs_bounds h.wf hw h0).1)
    rw [hv, (ht ⟨g, hg⟩).unique (Format.isTrunc_val hw h0)]

/-- **C62**, `op2float` of posit8 -/
theorem C62_posit8_float {s : ℤ} (h1 : -128 ≤ s) (h2 : s < 128) : Posit8.genFloat s = .ok (Posit8.toFloat s) := by
  have : ∀ u : Fin 256, Posit8.genFloat ((u : ℤ) - 128) = .ok (Posit8.toFloat ((u : ℤ) - 128)) := by decide +kernel
  have h := this ⟨(s + 128).toNat, by omega⟩
  have e : (((s + 128).toNat : ℕ) : ℤ) - 128 = s := by omega
  simp only [e] at h
  exact h

example : Posit8.genFloat (-105) = .ok 0xc0480000 ∧ Posit8.toFloat (-105) = 0xc0480000 := by decide +kernel

/-- **C62**, `opinv` of posit8 -/
theorem C62_posit8_inv {s : ℤ} (h1 : -128 ≤ s) (h2 : s < 128) : Posit8.genInv s = .ok (Posit8.inv s) := by
  have : ∀ u : Fin 256, Posit8.genInv ((u : ℤ) - 128) = .ok (Posit8.inv ((u : ℤ) - 128)) := by decide +kernel
  have h := this ⟨(s + 128).toNat, by omega⟩
  have e : (((s + 128).toNat : ℕ) : ℤ) - 128 = s := by omega
  simp only [e] at h
  exact h

example : Posit8.genInv (-104) = .ok (-21) ∧ Posit8.inv (-104) = -21 ∧ Posit8.genInv 0 = .ok 0 := by decide +kernel

theorem Posit8.gen_nan {x : ℕ} (h : ieee 8 23 x = .nan) : Posit.ofFloat Posit8.cfg .single x = .ok (-128) :=
  (floatFor_posit8.ofFloat_nan (Or.inl (by decide)) h).trans rfl

/-- **C62**, `opmul`, `opdiv`, `opadd` of posit8: whatever the rounding mode of the generator, its entries are the committed ones. -/
theorem C62_posit8_tables (ho : o.Correct 8 23) {a b : ℤ} (ha1 : -128 ≤ a) (ha2 : a < 128) (hb1 : -128 ≤ b) (hb2 : b < 128) :
    Posit8.genMul o a b = .ok (Posit8.mul a b) ∧ Posit8.genDiv o a b = .ok (Posit8.div a b) ∧
    Posit8.genAdd o a b = .ok (Posit8.add a b) := by
  have ca := Posit8.canon_iff.mpr ⟨ha1, by omega⟩
  have cb := Posit8.canon_iff.mpr ⟨hb1, by omega⟩
  have fa := C62_posit8_float ha1 ha2
  have fb := C62_posit8_float hb1 hb2
  obtain ⟨m1, m2, m3⟩ := C38_mul ca cb
  obtain ⟨d1, d2, d3⟩ := C38_div ca cb
  obtain ⟨s1, s2, s3⟩ := C38_add ca cb
  have em : Posit8.genMul o a b = PositF.mul P8 .single o a b := rfl
  have ed : Posit8.genDiv o a b = PositF.div P8 .single o a b := rfl
  have es : Posit8.genAdd o a b = Posit.ofFloat Posit8.cfg .single (o.add (Posit8.toFloat a) (Posit8.toFloat b)) := by
    unfold Posit8.genAdd
    rw [bind_ok _ fa, bind_ok _ fb]
  have hn : Posit.isNaN P8 (-128) = true := by decide
  have hnan : P8.nan = -128 := by decide
  have ff : FloatFor P8 .single := floatFor_posit8
  by_cases hna : a = -128 ∨ b = -128
  · obtain ⟨-, k2, k3⟩ := C54_nan_partial ff ho (Or.inl (by decide)) ca cb (hna.imp (fun e => by rw [e]; exact hn) fun e => by rw [e]; exact hn)
    rw [hnan] at k2 k3
    refine ⟨by rw [em, k2, m1 hna], by rw [ed, k3, d1 (hna.imp id Or.inl)], ?_⟩
    rw [es, s1 hna]
    refine Posit8.gen_nan (ho.nan (hna.imp (fun e => (C38_toFloat ca).1 e) fun e => (C38_toFloat cb).1 e)).1
  · push Not at hna
    obtain ⟨na, nb⟩ := hna
    have ra : P8.fmt.IsReal a := Posit8.real_iff.mpr (by omega)
    have rb : P8.fmt.IsReal b := Posit8.real_iff.mpr (by omega)
    refine ⟨?_, ?_, ?_⟩
    · rw [em]
      by_cases h0 : a = 0 ∨ b = 0
      · rw [C54_mul_zero_partial ff ho ra rb h0, m2 na nb h0]
      · push Not at h0
        obtain ⟨v, hv, -, -, ht⟩ := C54_mul_partial ff ho (by decide) ra h0.1 rb h0.2
        rw [hv, (ht (by decide)).unique (m3 na nb h0.1 h0.2)]
    · rw [ed]
      by_cases hb0 : b = 0
      · rw [d1 (Or.inr (Or.inr hb0)), hb0]
        by_cases ha0 : a = 0
        · rw [ha0]; exact ((C54_div_zero_partial (a := 1) ff ho (Or.inl (by decide)) (by decide) (by decide)).2.2).trans rfl
        · obtain ⟨s, hs⟩ := (C54_div_zero_partial ff ho (Or.inl (by decide)) ra ha0).1
          rw [hs]; cases s <;> rfl
      · by_cases ha0 : a = 0
        · rw [d2 nb hb0 ha0, ha0]
          exact (C54_div_zero_partial ff ho (Or.inl (by decide)) rb hb0).2.1
        · obtain ⟨v, hv, -, -, ht⟩ := C54_div_partial ff ho (by decide) ra ha0 rb hb0
          rw [hv, (ht (by decide) (by decide)).unique (d3 na nb ha0 hb0)]
    · have va := (C38_toFloat ca).2 na
      have vb := (C38_toFloat cb).2 nb
      by_cases hz : P8.fmt.val a + P8.fmt.val b = 0
      · have hab : a = -b := by
          have : P8.fmt.val a = P8.fmt.val (-b) := by rw [Format.val_neg]; linarith
          exact (Format.val_inj ra.inRange rb.neg.inRange).mp this
        have hr := ho.add va vb (by rw [hz, abs_zero]; exact le_trans (by norm_num) (maxFin_ge (eb := 8) (fb := 23) (m := 0) (by norm_num)))
        rw [hz] at hr
        have := hr.exact ⟨0, by norm_num [ieee]⟩
        rw [es, s2 na nb hab]
        exact ff.ofFloat_zero this
      · have hab : a ≠ -b := by rintro rfl; rw [Format.val_neg] at hz; exact hz (by ring)
        obtain ⟨v, hv, ht⟩ := C54_add_trunc_partial ff ho (by decide) (by decide) ra rb hz
        rw [← ht.unique (s3 na nb hab), es, ← hv]
        have ex : ∀ {w : ℤ}, P8.fmt.IsReal w → P8.fmt.val a + P8.fmt.val b = P8.fmt.val w →
            Posit.ofFloat Posit8.cfg .single (o.add (Posit8.toFloat a) (Posit8.toFloat b)) = .ok w := by
          intro w hw he
          obtain ⟨g, -, hg⟩ := ff.toFloat hw
          have hm := ho.add va vb (by rw [he]; exact ieee_le_maxFin (by decide) hg)
          rw [he] at hm
          exact ff.ofFloat_posit hw (hm.exact ⟨g, hg⟩)
        unfold PositF.add
        by_cases ha0 : a = 0
        · rw [if_pos ha0]
          exact ex rb (by rw [ha0, Format.val_zero, zero_add])
        · rw [if_neg ha0]
          by_cases hb0 : b = 0
          · rw [if_pos hb0]
            exact ex ra (by rw [hb0, Format.val_zero, add_zero])
          · rw [if_neg hb0]
            exact ((bind_ok _ fa).trans (bind_ok _ fb)).symm

example (ho : o.Correct 8 23) : Posit8.genMul o 100 (-33) = .ok (-73) := by
  rw [(C62_posit8_tables ho (by norm_num) (by norm_num) (by norm_num) (by norm_num)).1]; decide +kernel

/-- **C62**, `opsquare` and `ophalf` of posit8 -/
theorem C62_posit8_unary (ho : o.Correct 8 23) {s : ℤ} (h1 : -128 ≤ s) (h2 : s < 128) :
    Posit8.genSquare o s = .ok (Posit8.square s) ∧ Posit8.genHalf o s = .ok (Posit8.half s) := by
  have ff : FloatFor P8 .single := floatFor_posit8
  have cs := Posit8.canon_iff.mpr ⟨h1, by omega⟩
  have fs := C62_posit8_float h1 h2
  obtain ⟨q1, q2, q3⟩ := C38_half_square cs
  have hsq : Posit8.genSquare o s = Posit8.genMul o s s := by
    unfold Posit8.genSquare Posit8.genMul; rw [bind_ok _ fs, bind_ok _ fs, bind_ok _ fs]
  have hh : Posit8.genHalf o s = Posit.ofFloat Posit8.cfg .single (o.div (Posit8.toFloat s) FTrait.single.two) := by
    unfold Posit8.genHalf; rw [bind_ok _ fs]
  have htwo : ieee 8 23 FTrait.single.two = .num 2 := by norm_num [ieee, FTrait.single]
  obtain ⟨m1, m2, m3⟩ := C38_mul cs cs
  rw [hsq, hh, (C62_posit8_tables ho h1 h2 h1 h2).1]
  by_cases hn : s = -128
  · refine ⟨by rw [(q1 hn).2, m1 (Or.inl hn)], ?_⟩
    rw [(q1 hn).1]
    exact Posit8.gen_nan (ho.nan (Or.inl ((C38_toFloat cs).1 hn))).2.2
  · have vs := (C38_toFloat cs).2 hn
    have rs : P8.fmt.IsReal s := Posit8.real_iff.mpr (by omega)
    by_cases h0 : s = 0
    · refine ⟨by rw [(q2 h0).2, m2 hn hn (Or.inl h0)], ?_⟩
      rw [(q2 h0).1]
      rw [h0, Format.val_zero] at vs
      have hd := ho.div vs htwo (by norm_num) (by
        rw [zero_div, abs_zero]; exact le_trans (by norm_num) (maxFin_ge (eb := 8) (fb := 23) (m := 0) (by norm_num)))
      rw [zero_div] at hd
      rw [h0]
      exact ff.ofFloat_zero (hd.exact ⟨0, by norm_num [ieee]⟩)
    · obtain ⟨q4, q5⟩ := q3 hn h0
      refine ⟨by rw [q5.unique (m3 hn hn h0 h0)], ?_⟩
      obtain ⟨l1, l2⟩ := val_abs_bounds ff.wf rs h0
      rw [show (P8.maxScale : ℤ) = 6 by decide] at l1 l2
      have habs : |P8.fmt.val s / 2| = |P8.fmt.val s| / 2 := by rw [abs_div, abs_of_pos (by norm_num : (0 : ℚ) < 2)]
      have hlo : (2 : ℚ) ^ ((2 : ℤ) - 2 ^ (FTrait.single.eb - 1)) ≤ |P8.fmt.val s / 2| := by
        rw [habs, le_div_iff₀ (by norm_num)]
        refine le_trans ?_ l1
        norm_num [FTrait.single]
      have hhi : |P8.fmt.val s / 2| < 2 ^ ((2 : ℤ) ^ (FTrait.single.eb - 1)) := by
        rw [habs, div_lt_iff₀ (by norm_num)]
        refine lt_of_le_of_lt l2 ?_
        norm_num [FTrait.single]
      have hfit : Fits (FTrait.single.fb + 1) (P8.fmt.val s / 2) := by
        obtain ⟨n, X, hn, he⟩ := (fits_posit ff.wf rs).mono (show P8.fb + 1 ≤ FTrait.single.fb + 1 by decide)
        exact ⟨n, X - 1, hn, by rw [he, zpow_sub₀ (by norm_num)]; ring⟩
      obtain ⟨g, hg⟩ := float_of_fits (by decide) hfit hlo hhi
      obtain ⟨v, hv, -, -, ht⟩ := ff.ofFloat (ho.div vs htwo (by norm_num) (ieee_le_maxFin (by decide) hg)) hlo
      rw [← (ht ⟨g, hg⟩).unique q4]
      exact hv

example : ∃ o : FloatOps, o.Correct 8 23 ∧ Posit8.genMul o 100 (-33) = .ok (-73) ∧ Posit8.genDiv o 100 0 = .ok (-128) ∧
    Posit8.genSquare o (-80) = .ok 98 := by
  obtain ⟨o, ho⟩ := floatOps_exists (eb := 8) (fb := 23) (by norm_num) (by norm_num)
  refine ⟨o, ho, ?_, ?_, ?_⟩
  · rw [(C62_posit8_tables ho (by norm_num) (by norm_num) (by norm_num) (by norm_num)).1]; decide +kernel
  · rw [(C62_posit8_tables ho (by norm_num) (by norm_num) (by norm_num) (by norm_num)).2.1]; decide +kernel
  · rw [(C62_posit8_unary ho (by norm_num) (by norm_num)).1]; decide +kernel

theorem Posit12.of_all {p : ℤ → Prop} (h : ∀ i j : Fin 64, p (64 * (i : ℤ) + (j : ℤ) - 2048)) {s : ℤ} (h1 : -2048 ≤ s) (h2 : s < 2048) :
    p s := by
  have h3 := h ⟨(s + 2048).toNat / 64, by omega⟩ ⟨(s + 2048).toNat % 64, by omega⟩
  have e : 64 * (((s + 2048).toNat / 64 : ℕ) : ℤ) + (((s + 2048).toNat % 64 : ℕ) : ℤ) - 2048 = s := by omega
  simp only [e] at h3
  exact h3

theorem Posit12.genFloat_all : ∀ i j : Fin 64,
    Posit12.genFloat (64 * (i : ℤ) + (j : ℤ) - 2048) = .ok (Posit12.toFloat (64 * (i : ℤ) + (j : ℤ) - 2048)) := by decide +kernel

theorem Posit12.genInv_all : ∀ i j : Fin 64,
    Posit12.genInv (64 * (i : ℤ) + (j : ℤ) - 2048) = .ok (Posit12.inv (64 * (i : ℤ) + (j : ℤ) - 2048)) := by decide +kernel

/-- **C62**, `opinv`, `opsquare` and `op2float` of posit12 -/
theorem C62_posit12_tables (ho : o.Correct 8 23) {s : ℤ} (h1 : -2048 ≤ s) (h2 : s < 2048) :
    Posit12.genFloat s = .ok (Posit12.toFloat s) ∧ Posit12.genInv s = .ok (Posit12.inv s) ∧
    Posit12.genSquare o s = .ok (Posit12.square s) := by
  have hF : Posit12.genFloat s = .ok (Posit12.toFloat s) :=
    Posit12.of_all (p := fun s => Posit12.genFloat s = .ok (Posit12.toFloat s)) Posit12.genFloat_all h1 h2
  have ff := floatFor_posit12
  refine ⟨hF, Posit12.of_all (p := fun s => Posit12.genInv s = .ok (Posit12.inv s)) Posit12.genInv_all h1 h2, ?_⟩
  have hq : Posit12.genSquare o s = PositF.mul Posit12.cfg .single o s s := by
    unfold Posit12.genSquare PositF.mul
    exact (bind_ok _ hF).trans ((bind_ok _ hF).trans (bind_ok _ hF)).symm
  rw [hq]
  obtain ⟨-, n2, -, -, n5, -⟩ := C52_special_partial
  by_cases hn : s = -2048
  · rw [hn, n2]
    have hnan : Posit12.cfg.nan = -2048 := by decide
    have := (C54_nan_partial ff ho (Or.inl (by decide)) (a := -2048) (b := -2048) (by decide) (by decide) (Or.inl (by decide))).2.1
    rw [this, hnan]
  · have rs : Posit12.cfg.fmt.IsReal s := by
      unfold Format.IsReal
      rw [show Posit12.cfg.fmt.maxBody = 2047 by decide]
      omega
    by_cases h0 : s = 0
    · rw [C54_mul_zero_partial ff ho rs rs (Or.inl h0), h0, n5]
    · obtain ⟨v, hv, -, -, ht⟩ := C54_mul_partial ff ho (by decide) rs h0 rs h0
      rw [hv, (ht (by decide)).unique (C52_tables_partial rs h0).2.1]

example : ∃ o : FloatOps, o.Correct 8 23 ∧ Posit12.genInv (-1300) = .ok (-733) ∧ Posit12.genFloat (-1300) = .ok 0xc0940000 := by
  obtain ⟨o, ho⟩ := floatOps_exists (eb := 8) (fb := 23) (by norm_num) (by norm_num)
  refine ⟨o, ho, ?_, ?_⟩
  · rw [(C62_posit12_tables ho (by norm_num) (by norm_num)).2.1]; decide +kernel
  · rw [(C62_posit12_tables ho (by norm_num) (by norm_num)).1]; decide +kernel

end Verif
