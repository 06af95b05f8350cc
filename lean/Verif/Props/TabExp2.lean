import Verif.Lemmas.TabExp2Gen
import Verif.Props.Exp2
import Verif.Props.TabExp2Ex

/-!
# C110 — the tables of powers of two

src/posit8_gen.cpp:37, src/posit10_gen.cpp:38, src/posit12_gen.cpp:36, src/binary8_gen.cpp:38 and the committed tables of posit8
and posit12. `IsExp2` and `IsExp2Close` state what is assumed of the C function.
-/

namespace Verif
open Fmt NearGen

variable {e : ℕ → ℕ}

/-! ## posit8 -/

/-- **C110**, posit8: the committed table is the one the generator writes, for every `exp2` with a relative error of at most 2^-22. -/
theorem C110_posit8 (he : IsExp2 e) {s : ℤ} (h1 : -128 ≤ s) (h2 : s < 128) : Posit8.genExp2 e s = .ok (Posit8.exp2 s) := by
  have hF := C62_posit8_float h1 h2
  have ca : P8.fmt.IsCanonical s := Posit8.canon_iff.mpr ⟨h1, by omega⟩
  obtain ⟨n1, n2⟩ := C38_toFloat ca
  obtain ⟨x1, x2⟩ := C38_exp2 ca
  unfold Posit8.genExp2
  rw [bind_ok _ hF]
  by_cases hn : s = -128
  · rw [x1 hn]
    exact Posit8.gen_nan (he.nan (n1 hn))
  · have hr : Posit8.cfg.fmt.IsReal s := Posit8.real_iff.mpr (by omega)
    have hi : In12 Posit8.cfg.fmt := fun w hw => ⟨_, in12_posit8 hw⟩
    have hb : -64 ≤ Posit8.cfg.fmt.val s ∧ Posit8.cfg.fmt.val s ≤ 64 ∧ (Posit8.cfg.fmt.val s < 0 → Posit8.cfg.fmt.val s ≤ -1 / 64) := by
      have : ∀ u : Fin 255, -64 ≤ Posit8.cfg.fmt.val ((u : ℤ) - 127) ∧ Posit8.cfg.fmt.val ((u : ℤ) - 127) ≤ 64 ∧
          (Posit8.cfg.fmt.val ((u : ℤ) - 127) < 0 → Posit8.cfg.fmt.val ((u : ℤ) - 127) ≤ -1 / 64) := by decide +kernel
      have h := this ⟨(s + 127).toNat, by omega⟩
      simpa only [show (((s + 127).toNat : ℕ) : ℤ) - 127 = s by omega] using h
    obtain ⟨t, ht, hp⟩ := gen_pow2 (x := Posit8.cfg.fmt.val s) floatFor_posit8 hi he (n2 hn) (hi s hr) (by linarith [hb.1]) (by linarith [hb.2.1])
      (fun h => Or.inl (le_trans (hb.2.2 h) (by norm_num)))
    rw [ht, hp.unique (x2 hn)]

example : ∃ e, IsExp2 e ∧ Posit8.genExp2 e (-80) = .ok 22 ∧ P8.fmt.val (-80) = -3 / 2 ∧ P8.fmt.val 22 = 11 / 32 := by
  obtain ⟨e, he⟩ := C108_exists
  exact ⟨e, he, C110_posit8 he (by norm_num) (by norm_num), by decide +kernel, by decide +kernel⟩

/-! ## posit12 -/

/-- the numbers just below zero -/
theorem tiny12 {s : ℤ} (hs : Posit12.cfg.fmt.IsReal s) (h0 : s < 0) :
    (-14 ≤ s → -1 / 2 ^ 25 ≤ Posit12.cfg.fmt.val s ∧ Posit12.cfg.fmt.val s < 0) ∧ (s < -14 → Posit12.cfg.fmt.val s ≤ -3 / 2 ^ 26) := by
  have hr := Posit12.real_iff.mp hs
  obtain ⟨hv, hp⟩ := Posit12.val12 hs (by omega)
  rw [if_pos h0] at hv
  rw [hv]
  constructor
  · intro h
    have hw := Posit12.W_le (a := s.natAbs) (b := 14) (by omega) (by omega) (by omega)
    rw [show Posit12.W 14 = 2 ^ 15 by decide +kernel] at hw
    have hw' : (Posit12.W s.natAbs : ℚ) ≤ 2 ^ 15 := by exact_mod_cast hw
    have hp' : (0 : ℚ) < Posit12.W s.natAbs := by exact_mod_cast hp
    constructor
    · generalize (Posit12.W s.natAbs : ℚ) = w at *; norm_num at hw' ⊢; linarith
    · have : 0 < (Posit12.W s.natAbs : ℚ) / 2 ^ 40 := by positivity
      linarith
  · intro h
    have hw := Posit12.W_le (a := 15) (b := s.natAbs) (by omega) (by omega) (by omega)
    rw [show Posit12.W 15 = 3 * 2 ^ 14 by decide +kernel] at hw
    have hw' : (3 * 2 ^ 14 : ℚ) ≤ Posit12.W s.natAbs := by exact_mod_cast hw
    generalize (Posit12.W s.natAbs : ℚ) = w at *; norm_num at hw' ⊢; linarith

theorem IsPow2.of_br {t : ℕ} {x : ℚ} (h : Posit12.Br t ((2 : ℝ) ^ (x : ℝ))) (ht : t ≤ 2047) :
    IsPow2 Posit12.cfg.fmt x (if t = 0 then 1 else t : ℕ) := by
  have hr : Posit12.cfg.fmt.IsReal (if t = 0 then 1 else t : ℕ) := Posit12.real_iff.mpr (by split_ifs <;> omega)
  refine ⟨hr, by split_ifs <;> omega, ?_, fun w hw hle => ?_⟩
  · split_ifs with h0
    · exact Or.inl rfl
    · right
      rw [h.iff ht (two_pow_pos x) (Posit12.real_iff.mpr (by omega))]
  · rw [h.iff ht (two_pow_pos x) hw] at hle
    split_ifs <;> omega

/-- **C110**, posit12: from -143 to 128, and except between -2^-25 and 0, the committed entry is `2^x` truncated. -/
theorem C110_posit12_partial {s : ℤ} (hs : Posit12.cfg.fmt.IsReal s) (h1 : -143 < Posit12.cfg.fmt.val s)
    (h2 : Posit12.cfg.fmt.val s < 128) (h3 : 0 ≤ Posit12.cfg.fmt.val s ∨ Posit12.cfg.fmt.val s < -1 / 2 ^ 25) :
    IsPow2 Posit12.cfg.fmt (Posit12.cfg.fmt.val s) (Posit12.exp2 s) := by
  obtain ⟨t0, ht, b, -, -, -, -, h⟩ := Posit12.exp2_br hs
  rw [h ?_ h2 h1]
  · exact IsPow2.of_br b ht
  · rintro ⟨h4, h5⟩
    have := (tiny12 hs h5).1 h4
    rcases h3 with h | h <;> linarith [this.1, this.2]

/-- `2^(-37/8)` truncated to `41/1024` -/
example : Posit12.cfg.fmt.IsReal (-1300) ∧ Posit12.cfg.fmt.val (-1300) = -37 / 8 ∧ Posit12.exp2 (-1300) = 466 ∧
    Posit12.cfg.fmt.val 466 = 41 / 1024 ∧ Posit12.cfg.fmt.val 467 = 83 / 2048 := by decide +kernel

/-- **C110** does not hold for the 14 numbers from -2^-25 up to 0, whose entry is 1 although `2^x` is below it, from 128 on, where
the entry is NaN although `2^x` is finite, and up to -143, where it is 0. -/
theorem C110_posit12_wrong {s : ℤ} (hs : Posit12.cfg.fmt.IsReal s) :
    (-14 ≤ s → s < 0 → Posit12.exp2 s = 1024 ∧ IsPow2 Posit12.cfg.fmt (Posit12.cfg.fmt.val s) 1023) ∧
    (128 ≤ Posit12.cfg.fmt.val s → Posit12.exp2 s = -2048 ∧ IsPow2 Posit12.cfg.fmt (Posit12.cfg.fmt.val s) 2047) ∧
    (Posit12.cfg.fmt.val s ≤ -143 → Posit12.exp2 s = 0 ∧ IsPow2 Posit12.cfg.fmt (Posit12.cfg.fmt.val s) 1) := by
  obtain ⟨t0, ht, b, -, h1, h2, h3, -⟩ := Posit12.exp2_br hs
  have hp := IsPow2.of_br b ht
  refine ⟨fun h h' => ?_, fun h => ?_, fun h => ?_⟩
  · obtain ⟨h4, h5⟩ := h1 h h'
    rw [h5] at hp
    exact ⟨h4, hp⟩
  · obtain ⟨h4, h5⟩ := h2 h
    rw [h5] at hp
    exact ⟨h4, hp⟩
  · obtain ⟨h4, h5⟩ := h3 h
    rw [h5] at hp
    exact ⟨h4, hp⟩

example : Posit12.cfg.fmt.IsReal (-14) ∧ Posit12.cfg.fmt.val (-14) = -1 / 2 ^ 25 ∧ Posit12.cfg.fmt.val 1023 = 255 / 256 ∧
    Posit12.cfg.fmt.IsReal 1728 ∧ Posit12.cfg.fmt.val 1728 = 128 ∧
    Posit12.cfg.fmt.IsReal (-1736) ∧ Posit12.cfg.fmt.val (-1736) = -144 := by decide +kernel

/-- **C110**, posit12: the committed table is the one the generator writes, for every sufficiently accurate `exp2`. -/
theorem C110_posit12_gen (he : IsExp2Close e) {s : ℤ} (h1 : -2048 ≤ s) (h2 : s < 2048) :
    Posit12.genExp2 e s = .ok (Posit12.exp2 s) := by
  have hF : Posit12.genFloat s = .ok (Posit12.toFloat s) :=
    Posit12.of_all (p := fun s => Posit12.genFloat s = .ok (Posit12.toFloat s)) Posit12.genFloat_all h1 h2
  have ff := floatFor_posit12
  obtain ⟨-, -, n3, n4, -, -, n7⟩ := C52_special_partial
  unfold Posit12.genExp2
  rw [bind_ok _ hF]
  by_cases hn : s = -2048
  · rw [hn, n3]
    exact (ff.ofFloat_nan (Or.inl (by decide)) (he.nan n4)).trans rfl
  have hs : Posit12.cfg.fmt.IsReal s := Posit12.real_iff.mpr (by omega)
  have hf : ieee 8 23 (Posit12.toFloat s) = .num (Posit12.cfg.fmt.val s) := by
    by_cases h0 : s = 0
    · rw [h0, n7, Format.val_zero]
    · exact (C52_tables_partial hs h0).2.2
  obtain ⟨w1, w2, w3⟩ := C110_posit12_wrong hs
  by_cases hbig : 128 ≤ Posit12.cfg.fmt.val s
  · rw [(w2 hbig).1]
    exact (ff.ofFloat_inf (he.over hf hbig)).trans (by decide +kernel)
  by_cases hlow : Posit12.cfg.fmt.val s < -126
  · obtain ⟨l1, l2⟩ := gen_low ff rfl (by decide +kernel) he.toIsExp2 hf ⟨s, hs, rfl⟩ hlow
    by_cases h3 : Posit12.cfg.fmt.val s ≤ -143
    · rw [(w3 h3).1, l2 h3]
    · rw [l1 (not_le.mp h3)]
      have := C110_posit12_partial hs (not_le.mp h3) (not_le.mp hbig) (Or.inr (by norm_num at hlow ⊢; linarith))
      rw [this.unique (IsPow2.minpos ff (by
        obtain ⟨n, hn⟩ := int12 hs hlow.le
        rw [hn] at hlow ⊢
        have : n < -126 := by exact_mod_cast hlow
        have : n ≤ -127 := by omega
        exact_mod_cast this))]
  by_cases ht : -14 ≤ s ∧ s < 0
  · rw [(w1 ht.1 ht.2).1]
    obtain ⟨t1, t2⟩ := (tiny12 hs ht.2).1 ht.1
    exact ff.ofFloat_posit (w := 1024) (by decide) (by
      rw [show Posit12.cfg.fmt.val 1024 = 1 by decide +kernel]; exact he.one hf t1 t2)
  · have hneg : Posit12.cfg.fmt.val s < 0 → s < 0 := fun h => (Format.val_neg_iff hs.inRange).mp h
    obtain ⟨t, ht', hp⟩ := gen_pow2 ff in12_posit12 he.toIsExp2 hf ⟨s, hs, rfl⟩ (not_lt.mp hlow) (not_le.mp hbig)
      (fun h => Or.inr ⟨he, (tiny12 hs (hneg h)).2 (by have := hneg h; omega)⟩)
    rw [ht']
    have := C110_posit12_partial hs (by linarith [not_lt.mp hlow]) (not_le.mp hbig) (by
      by_cases h : 0 ≤ Posit12.cfg.fmt.val s
      · exact Or.inl h
      · right
        have h' := hneg (not_le.mp h)
        refine lt_of_le_of_lt ((tiny12 hs h').2 (by omega)) (by norm_num))
    rw [hp.unique this]

/-- `2^(37/8)` is 24.68 -/
example : ∃ e, IsExp2Close e ∧ Posit12.genExp2 e 1300 = .ok 1570 ∧ Posit12.cfg.fmt.val 1300 = 37 / 8 ∧
    Posit12.cfg.fmt.val 1570 = 49 / 2 := by
  obtain ⟨e, he, -⟩ := C110_exists
  exact ⟨e, he, C110_posit12_gen he (by norm_num) (by norm_num), by decide +kernel, by decide +kernel⟩

/-! ## posit10 -/

theorem posit10_float {a : ℤ} (ha : Posit10.cfg.fmt.IsReal a) : ∃ f, Posit10.genFloat (Posit10.uu a) = .ok f ∧
    ieee 8 23 f = .num (Posit10.cfg.fmt.val a) := by
  rw [Posit10.genFloat_uu (Posit10.canonical ha)]
  exact floatFor_posit10.toFloat ha

theorem in12_posit10' : In12 Posit10.cfg.fmt := fun _ hw => ⟨_, in12_posit10 hw⟩

theorem IsPow2.of_br10 {t0 : ℕ} {t : ℤ} {x : ℚ} (h : Posit12.Br t0 ((2 : ℝ) ^ (x : ℝ))) (ht : t0 ≤ 2047) (hr : Posit10.cfg.fmt.IsReal t)
    (h1 : 0 < t) (h2 : 4 * t ≤ t0) (h3 : t0 < 4 * t + 4) : IsPow2 Posit10.cfg.fmt x t := by
  have key : ∀ w, Posit10.cfg.fmt.IsReal w → ((Posit10.cfg.fmt.val w : ℝ) ≤ (2 : ℝ) ^ (x : ℝ) ↔ 4 * w ≤ t0) := by
    intro w hw
    obtain ⟨r, e⟩ := in12_posit10 hw
    rw [← e, h.iff ht (two_pow_pos x) r]
  refine ⟨hr, h1, Or.inr ((key t hr).mpr h2), fun w hw hle => ?_⟩
  have := (key w hw).mp hle
  omega

/-- **C110**, posit10: from -143 to 128, and except between -2^-25 and 0, the generated entry is `2^x` truncated. -/
theorem C110_posit10_partial (he : IsExp2Close e) {a : ℤ} (ha : Posit10.cfg.fmt.IsReal a) (h1 : -143 < Posit10.cfg.fmt.val a)
    (h2 : Posit10.cfg.fmt.val a < 128) (h3 : 0 ≤ Posit10.cfg.fmt.val a ∨ Posit10.cfg.fmt.val a < -1 / 2 ^ 25) :
    ∃ t, Posit10.exp2 e a = .ok t ∧ IsPow2 Posit10.cfg.fmt (Posit10.cfg.fmt.val a) t := by
  obtain ⟨f, hf, hv⟩ := posit10_float ha
  unfold Posit10.exp2 Posit10.genExp2
  rw [bind_ok _ hf]
  obtain ⟨r12, e12⟩ := in12_posit10 ha
  by_cases hlow : Posit10.cfg.fmt.val a < -126
  · obtain ⟨l1, -⟩ := gen_low floatFor_posit10 rfl (by decide +kernel) he.toIsExp2 hv ⟨_, r12, e12⟩ hlow
    refine ⟨1, l1 h1, IsPow2.minpos floatFor_posit10 ?_⟩
    obtain ⟨n, hn⟩ := int12 r12 (by rw [e12]; exact hlow.le)
    rw [e12] at hn
    rw [hn] at hlow ⊢
    have : n < -126 := by exact_mod_cast hlow
    have : n ≤ -127 := by omega
    exact_mod_cast this
  · refine gen_pow2 floatFor_posit10 in12_posit10' he.toIsExp2 hv ⟨_, r12, e12⟩ (not_lt.mp hlow) h2 (fun h => Or.inr ⟨he, ?_⟩)
    rw [← e12] at h h3 ⊢
    have hneg := (Format.val_neg_iff r12.inRange).mp h
    apply (tiny12 r12 hneg).2
    by_contra hc
    have := ((tiny12 r12 hneg).1 (by omega)).1
    rcases h3 with h3 | h3 <;> linarith

example : ∃ e t, IsExp2Close e ∧ Posit10.cfg.fmt.val (-300) = -11 / 4 ∧ Posit10.exp2 e (-300) = .ok t ∧
    IsPow2 Posit10.cfg.fmt (-11 / 4) t := by
  obtain ⟨e, he, -⟩ := C110_exists
  have hv : Posit10.cfg.fmt.val (-300) = -11 / 4 := by decide +kernel
  obtain ⟨t, h1, h2⟩ := C110_posit10_partial he (a := -300) (by decide) (by rw [hv]; norm_num) (by rw [hv]; norm_num)
    (Or.inr (by rw [hv]; norm_num))
  exact ⟨e, t, he, hv, h1, by rwa [hv] at h2⟩

/-- **C110** does not hold for the three numbers from -2^-25 up to 0, from 128 on and up to -143, as for posit12. -/
theorem C110_posit10_wrong (he : IsExp2Close e) {a : ℤ} (ha : Posit10.cfg.fmt.IsReal a) :
    (-3 ≤ a → a < 0 → Posit10.exp2 e a = .ok Posit10.one ∧ IsPow2 Posit10.cfg.fmt (Posit10.cfg.fmt.val a) (Posit10.one - 1)) ∧
    (128 ≤ Posit10.cfg.fmt.val a → Posit10.exp2 e a = .ok Posit10.nan ∧ IsPow2 Posit10.cfg.fmt (Posit10.cfg.fmt.val a) 511) ∧
    (Posit10.cfg.fmt.val a ≤ -143 → Posit10.exp2 e a = .ok 0 ∧ IsPow2 Posit10.cfg.fmt (Posit10.cfg.fmt.val a) 1) := by
  obtain ⟨f, hf, hv⟩ := posit10_float ha
  unfold Posit10.exp2 Posit10.genExp2
  rw [bind_ok _ hf]
  obtain ⟨r12, e12⟩ := in12_posit10 ha
  obtain ⟨t0, ht, b, -, b1, b2, -⟩ := Posit12.exp2_br r12
  rw [e12] at b b2
  refine ⟨fun h1 h2 => ⟨?_, ?_⟩, fun h => ⟨?_, ?_⟩, fun h => ⟨?_, ?_⟩⟩
  · obtain ⟨t1, t2⟩ := (tiny12 r12 (by omega)).1 (by omega)
    rw [e12] at t1 t2
    exact floatFor_posit10.ofFloat_posit (w := Posit10.one) (by decide) (by
      rw [show Posit10.cfg.fmt.val Posit10.one = 1 by decide +kernel]; exact he.one hv t1 t2)
  · have := (b1 (by omega) (by omega)).2
    have ho : Posit10.one = 256 := by decide
    exact IsPow2.of_br10 b ht (by decide) (by decide) (by omega) (by omega)
  · exact (floatFor_posit10.ofFloat_inf (he.over hv h)).trans (by decide +kernel)
  · have := (b2 h).2
    exact IsPow2.of_br10 b ht (by decide) (by decide) (by omega) (by omega)
  · obtain ⟨-, l2⟩ := gen_low floatFor_posit10 rfl (by decide +kernel) he.toIsExp2 hv ⟨_, r12, e12⟩ (by linarith)
    exact l2 h
  · exact IsPow2.minpos floatFor_posit10 (by linarith)

/-- -2^-26 gives 1, 128 gives NaN, -144 gives 0. -/
example : ∃ e, IsExp2Close e ∧ Posit10.exp2 e (-3) = .ok Posit10.one ∧ Posit10.exp2 e 432 = .ok Posit10.nan ∧ Posit10.exp2 e (-434) = .ok 0 ∧
    Posit10.cfg.fmt.val (-3) = -1 / 2 ^ 26 ∧ Posit10.cfg.fmt.val 432 = 128 ∧ Posit10.cfg.fmt.val (-434) = -144 := by
  obtain ⟨e, he, -⟩ := C110_exists
  have h1 : Posit10.cfg.fmt.val 432 = 128 := by decide +kernel
  have h2 : Posit10.cfg.fmt.val (-434) = -144 := by decide +kernel
  exact ⟨e, he, ((C110_posit10_wrong he (by decide)).1 (by norm_num) (by norm_num)).1,
    ((C110_posit10_wrong he (by decide)).2.1 (by rw [h1])).1, ((C110_posit10_wrong he (by decide)).2.2 (by rw [h2]; norm_num)).1,
    by decide +kernel, h1, h2⟩

/-- **C110**, posit10: NaN for NaN -/
theorem C110_posit10_nan (he : IsExp2 e) : Posit10.exp2 e Posit10.nan = .ok Posit10.nan := by
  have hc : Posit10.cfg.fmt.IsCanonical Posit10.nan := by decide
  obtain ⟨f, hf, hv⟩ := floatFor_posit10.toFloat_nan hc (by decide +kernel)
  unfold Posit10.exp2 Posit10.genExp2
  rw [Posit10.genFloat_uu hc, bind_ok _ hf]
  exact (floatFor_posit10.ofFloat_nan (Or.inl (by decide)) (he.nan hv)).trans (by decide +kernel)

example : ∃ e, IsExp2 e ∧ Posit10.exp2 e (-512) = .ok (-512) := by
  obtain ⟨e, he, -⟩ := C110_exists
  exact ⟨e, he.toIsExp2, C110_posit10_nan he.toIsExp2⟩

/-! ## binary8 -/

theorem IsPow2Cut.of_cut {x z : ℚ} {b : ℕ} (h : IsCut 5 2 z b) (hz : 0 < z)
    (hs : ∀ v, Posit12.cfg.fmt.IsReal v → ((Posit12.cfg.fmt.val v : ℝ) ≤ (2 : ℝ) ^ (x : ℝ) ↔ Posit12.cfg.fmt.val v ≤ z)) :
    IsPow2Cut 5 2 x b := by
  obtain ⟨y, hy, h1, h2⟩ := h
  have key : ∀ {g w}, ieee 5 2 g = .num w → ((w : ℝ) ≤ (2 : ℝ) ^ (x : ℝ) ↔ w ≤ z) := by
    intro g w hg
    obtain ⟨r, hv⟩ := in12_binary8 hg
    rw [← hv]; exact hs _ r
  have hmin : ieee 5 2 4 = .num (minNorm 5) := by norm_num [ieee, minNorm]
  rw [abs_of_pos hz] at h1 h2
  refine ⟨y, hy, fun h => h1 ?_, fun h => ?_⟩
  · rw [← not_le] at h ⊢
    exact fun hc => h ((key hmin).mpr hc)
  · obtain ⟨h3, h4, h5⟩ := h2 ((key hmin).mp h)
    have hy0 : 0 < y := by
      by_contra hc
      nlinarith
    rw [abs_of_pos hy0] at h4 h5
    refine ⟨hy0, (key hy).mpr h4, fun g w hg hle => ?_⟩
    rcases le_or_gt w 0 with hw | hw
    · linarith
    · have := h5 g w hg
      rw [abs_of_pos hw] at this
      exact this ((key hg).mp hle)

/-- **C110**, binary8: the entry of a number below 128 is `2^x` cut: the greatest number not above it, zero below the normal numbers. -/
theorem C110_binary8 (he : IsExp2 e) {a : ℤ} {x : ℚ} (ha : Binary8.value a = .num x) (hx : x < 128) :
    ∃ r, Binary8.exp2 e a = .ok r ∧ -128 ≤ r ∧ r ≤ 127 ∧ IsPow2Cut 5 2 x (r % 256).toNat := by
  obtain ⟨p, hp, -, hp'⟩ := genFloat_eq (Binary8.uu a)
  have hf := hp'.trans ha
  unfold Binary8.exp2 Binary8.genExp2
  rw [bind_ok _ hp]
  obtain ⟨r12, e12⟩ := in12_binary8 ha
  have hsm : x < 0 → x ≤ -1 / 2 ^ 16 := by
    intro h
    have h1 := (ieee_bounds (by norm_num) ha h.ne).1
    rw [abs_of_neg h] at h1
    norm_num at h1 ⊢
    linarith
  by_cases hl : -126 ≤ x
  · have hf' := hf
    rw [← e12] at hf'
    obtain ⟨z, hz, hzl, hs⟩ := close12 he r12 hf' (by rw [e12]; exact hl) (by rw [e12]; exact hx) (by
      rw [e12]; exact fun h => Or.inl ((hsm h).trans (by norm_num)))
    rw [e12] at hs
    obtain ⟨r, h1, h2, h3, -⟩ := C57_ofNative emu8 hz
    obtain ⟨v, h4, h5, h6, rfl⟩ := genStore_eq h1 h2
    exact ⟨v, h4, h5, h6, IsPow2Cut.of_cut h3 (lt_of_lt_of_le (by positivity) hzl) hs⟩
  · obtain ⟨z, hz, hz0, hz1⟩ := he.le_int hf (g := 0xC2FC0000) (n := -126) (by norm_num [ieee]) (by norm_num) (by norm_num)
      (by push_cast; linarith)
    obtain ⟨r, h1, h2, ⟨y, hy, h3, -⟩, -⟩ := C57_ofNative emu8 hz
    obtain ⟨v, h4, h5, h6, rfl⟩ := genStore_eq h1 h2
    have hm : (2 : ℚ) ^ (-126 : ℤ) < minNorm 5 := by norm_num [minNorm]
    have hy0 : y = 0 := h3 (by rw [abs_of_nonneg hz0]; linarith)
    refine ⟨v, h4, h5, h6, y, hy, fun _ => hy0, fun h => ?_⟩
    have h7 := two_pow_mono (x := x) (y := ((-126 : ℤ) : ℚ)) (by push_cast; linarith)
    rw [two_pow_int] at h7
    have : minNorm 5 ≤ 2 ^ (-126 : ℤ) := by exact_mod_cast h.trans h7
    linarith

/-- `2^(5/2)` is 5.66 and becomes 5. -/
example : ∃ e r, IsExp2 e ∧ Binary8.value 65 = .num (5 / 2) ∧ Binary8.exp2 e 65 = .ok r ∧ IsPow2Cut 5 2 (5 / 2) (r % 256).toNat := by
  obtain ⟨e, he, -⟩ := C110_exists
  have hv : Binary8.value 65 = .num (5 / 2) := by decide +kernel
  obtain ⟨r, h1, -, -, h2⟩ := C110_binary8 he.toIsExp2 hv (by norm_num)
  exact ⟨e, r, he.toIsExp2, hv, h1, h2⟩

/-- **C110**, binary8: infinity from 128 on and for infinity, zero for minus infinity, NaN for NaN if `exp2` returns quiet NaNs -/
theorem C110_binary8_special (he : IsExp2Close e) {a : ℤ} :
    ((∃ x, Binary8.value a = .num x ∧ 128 ≤ x) ∨ Binary8.value a = .inf false → ∃ r, Binary8.exp2 e a = .ok r ∧ Binary8.value r = .inf false) ∧
    (Binary8.value a = .inf true → ∃ r, Binary8.exp2 e a = .ok r ∧ Binary8.value r = .num 0) ∧
    ((∀ f, ieee 8 23 (e f) = .nan → 2 ^ 22 ≤ e f % 2 ^ 23) → Binary8.value a = .nan →
      ∃ r, Binary8.exp2 e a = .ok r ∧ Binary8.value r = .nan) := by
  obtain ⟨p, hp, -, hp'⟩ := genFloat_eq (Binary8.uu a)
  unfold Binary8.exp2 Binary8.genExp2
  rw [bind_ok _ hp]
  refine ⟨fun h => store_inf ?_, fun h => ?_, fun hq h => ?_⟩
  · rcases h with ⟨x, hx, h⟩ | h
    · exact he.over (hp'.trans hx) h
    · exact he.pinf (hp'.trans h)
  · obtain ⟨r, h1, h2, ⟨y, hy, h3, -⟩, -⟩ := C57_ofNative emu8 (he.ninf (hp'.trans h))
    obtain ⟨v, h4, -, -, rfl⟩ := genStore_eq h1 h2
    exact ⟨v, h4, by rw [show Binary8.value v = .num y from hy, h3 (by rw [abs_zero]; exact minNorm_pos)]⟩
  · have hn := he.nan (hp'.trans h)
    obtain ⟨r, h1, h2, h3⟩ := C57_ofNative_nan emu8 hn (hq p hn)
    obtain ⟨v, h4, -, -, rfl⟩ := genStore_eq h1 h2
    exact ⟨v, h4, h3⟩

example : ∃ e r, IsExp2Close e ∧ Binary8.value 90 = .num 192 ∧ Binary8.exp2 e 90 = .ok r ∧ Binary8.value r = .inf false := by
  obtain ⟨e, he, -⟩ := C110_exists
  have hv : Binary8.value 90 = .num 192 := by decide +kernel
  obtain ⟨r, h1, h2⟩ := (C110_binary8_special he).1 (Or.inl ⟨_, hv, by norm_num⟩)
  exact ⟨e, r, he, hv, h1, h2⟩

example : ∃ e r, IsExp2Close e ∧ Binary8.value (-1) = .nan ∧ Binary8.exp2 e (-1) = .ok r ∧ Binary8.value r = .nan := by
  obtain ⟨e, he, hq⟩ := C110_exists
  have hv : Binary8.value (-1) = .nan := by decide +kernel
  obtain ⟨r, h1, h2⟩ := (C110_binary8_special he).2.2 hq hv
  exact ⟨e, r, he, hv, h1, h2⟩

end Verif
