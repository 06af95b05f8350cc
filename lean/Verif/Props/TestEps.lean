import Verif.Model.TestEps
import Verif.Props.Posit10
import Verif.Lemmas.NearestGen

/-!
# C139: one plus and minus a small number in `posit10` (tests/testeps.cpp)
-/

namespace Verif
open Fmt

variable {o : FloatOps}

/-- between two neighbouring posits -/
theorem trunc_between {f : Format} {y : ℚ} {v : ℤ} (h0 : 0 < v) (hv : f.IsReal v) (hv1 : f.IsReal (v + 1)) (h1 : f.val v ≤ y)
    (h2 : y < f.val (v + 1)) : f.IsTrunc y v := by
  have hp : 0 < f.val v := (Format.val_pos_iff hv.inRange).mpr h0
  refine ⟨hv, Or.inl ⟨h0, by linarith⟩, fun w hw hw0 hle => ?_, Or.inl (by rw [abs_of_pos hp, abs_of_pos (by linarith)]; exact h1)⟩
  rw [abs_of_pos (show 0 < y by linarith)] at hle
  rw [abs_of_pos hp]
  have key : ∀ u, f.IsReal u → f.val u ≤ y → f.val u ≤ f.val v := by
    intro u hu hle
    have := (Format.val_lt_iff hu.inRange hv1.inRange).mp (lt_of_le_of_lt hle h2)
    exact (Format.val_le_iff hu.inRange hv.inRange).mpr (by omega)
  rcases abs_choice (f.val w) with e | e
  · rw [e] at hle ⊢; exact key w hw hle
  · rw [e, ← Format.val_neg] at hle ⊢; exact key (-w) hw.neg hle

theorem eps_vals : Posit10.cfg.fmt.val 255 = 1 - 1 / 64 ∧ Posit10.cfg.fmt.val 256 = 1 ∧ Posit10.cfg.fmt.val 257 = 1 + 1 / 32 ∧
    Posit10.cfg.fmt.val 111 = 31 / 1024 ∧ Posit10.cfg.fmt.val 112 = 1 / 32 := by decide +kernel

/-- converting a float from [63/64, 1) or [1, 33/32) -/
theorem eps_conv {t : FTrait} (ht : FloatFor Posit10.cfg t) {b : ℕ} {y : ℚ} (hb : ieee t.eb t.fb b = .num y)
    (hm : (2 : ℚ) ^ ((2 : ℤ) - 2 ^ (t.eb - 1)) ≤ 1 / 2) :
    (1 - 1 / 64 ≤ y → y < 1 → Posit.ofFloat Posit10.cfg t b = .ok 255) ∧
    (1 ≤ y → y < 1 + 1 / 32 → Posit.ofFloat Posit10.cfg t b = .ok 256) := by
  obtain ⟨e1, e2, e3, -, -⟩ := eps_vals
  have hc : 1 / 2 ≤ y → ∃ v, Posit.ofFloat Posit10.cfg t b = .ok v ∧ Posit10.cfg.fmt.IsTrunc y v := by
    intro hy
    obtain ⟨v, h1, -, -, h2⟩ := ht.ofFloat (IsRounded.of_num hb) (by rw [abs_of_pos (by linarith)]; linarith)
    exact ⟨v, h1, h2 ⟨b, hb⟩⟩
  refine ⟨fun h1 h2 => ?_, fun h1 h2 => ?_⟩
  · obtain ⟨v, hv, ht⟩ := hc (by linarith)
    rw [hv, ht.unique (trunc_between (v := 255) (by norm_num) (by decide) (by decide) (by rw [e1]; exact h1) (by
      rw [show (255 : ℤ) + 1 = 256 by norm_num, e2]; exact h2))]
  · obtain ⟨v, hv, ht⟩ := hc (by linarith)
    rw [hv, ht.unique (trunc_between (v := 256) (by norm_num) (by decide) (by decide) (by rw [e2]; exact h1) (by
      rw [show (256 : ℤ) + 1 = 257 by norm_num, e3]; exact h2))]

theorem eps_float {x : ℚ} {b : ℕ} (hr : IsRounded 8 23 x b) :
    (1 - 1 / 64 ≤ x → x ≤ 1 - 1 / 2 ^ 24 → Posit.ofFloat Posit10.cfg .single b = .ok 255) ∧
    (1 ≤ x → x ≤ 1 + 31 / 1024 → Posit.ofFloat Posit10.cfg .single b = .ok 256) := by
  obtain ⟨y, hy, hz⟩ := hr
  have hc := eps_conv floatFor_posit10 hy (zpow_le_zpow_right₀ (n := -1) (by norm_num) (by decide) |>.trans (by norm_num))
  refine ⟨fun h1 h2 => hc.1 ?_ ?_, fun h1 h2 => hc.2 ?_ ?_⟩
  · exact (hz 0x3f7c0000 (1 - 1 / 64) (by norm_num [ieee])).1 h1
  · exact lt_of_le_of_lt ((hz 0x3f7fffff (1 - 1 / 2 ^ 24) (by norm_num [ieee])).2 h2) (by norm_num)
  · exact (hz 0x3f800000 1 (by norm_num [ieee])).1 h1
  · exact lt_of_le_of_lt ((hz 0x3f83e000 (1 + 31 / 1024) (by norm_num [ieee])).2 h2) (by norm_num)

/-- the float sum of one and a small number -/
theorem eps_add (ho : o.Correct 8 23) {w : ℤ} (hw : Posit10.cfg.fmt.IsReal w) (h1 : |Posit10.cfg.fmt.val w| ≤ 1) :
    ∃ b, IsRounded 8 23 (1 + Posit10.cfg.fmt.val w) b ∧ Posit10.add o 256 w = Posit.ofFloat Posit10.cfg .single b := by
  have h256 : Posit10.cfg.fmt.IsReal 256 := by decide
  obtain ⟨p, hp, hpv⟩ := floatFor_posit10.toFloat h256
  obtain ⟨q, hq, hqv⟩ := floatFor_posit10.toFloat hw
  rw [eps_vals.2.1] at hpv
  have ho' : o.Correct FTrait.single.eb FTrait.single.fb := ho
  refine ⟨o.add p q, ho'.add hpv hqv ?_, ?_⟩
  · rw [abs_le] at h1
    have : (2 : ℚ) ≤ maxFin FTrait.single.eb FTrait.single.fb := by
      show (2 : ℚ) ≤ maxFin 8 23
      unfold maxFin; norm_num
    rw [abs_le]; constructor <;> linarith
  · exact Posit10.add_ok ((Posit10.genFloat_uu (Posit10.canonical h256)).trans hp)
      ((Posit10.genFloat_uu (Posit10.canonical hw)).trans hq)

/-- **C139**, the sum: a positive number below the distance 1/32 from one to the next posit is lost. -/
theorem C139_sum (ho : o.Correct 8 23) {a : ℤ} (ha : Posit10.cfg.fmt.IsReal a) (h0 : 0 < Posit10.cfg.fmt.val a)
    (h1 : Posit10.cfg.fmt.val a < 1 / 32) : Posit10.add o Posit10.one a = .ok Posit10.one := by
  obtain ⟨-, -, -, e4, e5⟩ := eps_vals
  rw [← e5] at h1
  have h2 := (Format.val_lt_iff ha.inRange (show Posit10.cfg.fmt.IsReal 112 by decide).inRange).mp h1
  have h3 := (Format.val_le_iff ha.inRange (show Posit10.cfg.fmt.IsReal 111 by decide).inRange).mpr (by omega)
  rw [e4] at h3
  obtain ⟨b, hr, he⟩ := eps_add ho ha (by rw [abs_of_pos h0]; linarith)
  show Posit10.add o 256 a = .ok 256
  rw [he]
  exact (eps_float hr).2 (by linarith) (by linarith)

example : (∃ o : FloatOps, o.Correct 8 23) ∧ Posit10.cfg.fmt.IsReal 100 ∧ 0 < Posit10.cfg.fmt.val 100 ∧
    Posit10.cfg.fmt.val 100 < 1 / 32 := ⟨floatOps_exists (by decide) (by decide), by decide, by decide +kernel, by decide +kernel⟩

/-- **C139**, the difference: a number from 2^-24 to 1/64 takes one down to the posit below it, in whichever
rounding mode. The result for smaller numbers depends on the rounding mode (`C139_diff`). -/
theorem C139_diff_any (ho : o.Correct 8 23) {a : ℤ} (ha : Posit10.cfg.fmt.IsReal a) (h0 : 1 / 2 ^ 24 ≤ Posit10.cfg.fmt.val a)
    (h1 : Posit10.cfg.fmt.val a ≤ 1 / 64) : Posit10.sub o Posit10.one a = .ok (Posit10.one - 1) := by
  obtain ⟨b, hr, he⟩ := eps_add ho ha.neg (by rw [Format.val_neg, abs_neg, abs_of_pos (lt_of_lt_of_le (by norm_num) h0)]; linarith)
  show Posit10.add o 256 (Posit10.neg a) = .ok 255
  rw [Posit10.neg_real ha, he]
  rw [Format.val_neg] at hr
  exact (eps_float hr).1 (by linarith) (by linarith)

example : Posit10.cfg.fmt.IsReal 40 ∧ 1 / 2 ^ 24 ≤ Posit10.cfg.fmt.val 40 ∧ Posit10.cfg.fmt.val 40 ≤ 1 / 64 :=
  ⟨by decide, by decide +kernel, by decide +kernel⟩

/-- the float below one -/
theorem eps_below {b : ℕ} {y : ℚ} (hy : ieee 8 23 b = .num y) (hb : b < 2 ^ 32) (h0 : 0 < y) :
    1 ≤ y ∨ y = 1 - 1 / 2 ^ 24 ∧ b % 2 = 1 ∨ y < 1 - 1 / 2 ^ 24 := by
  obtain ⟨s, k, hs, hk, he, hq⟩ := NearGen.ieee_num_gen hy
  rw [Nat.mod_eq_of_lt hb] at he
  have hs0 : s ≠ 1 := by
    rintro rfl
    have := NearGen.g_nonneg (eb := 8) (fb := 23) k
    rw [if_pos rfl] at hq; linarith
  rw [if_neg hs0, one_mul] at hq
  have e1 : NearGen.g 8 23 0x3f800000 = 1 := by norm_num [NearGen.g]
  have e2 : NearGen.g 8 23 0x3f7fffff = 1 - 1 / 2 ^ 24 := by norm_num [NearGen.g]
  rcases lt_trichotomy k 0x3f7fffff with hlt | rfl | hgt
  · exact Or.inr (Or.inr (by rw [hq, ← e2]; exact NearGen.g_mono hlt))
  · exact Or.inr (Or.inl ⟨by rw [hq, e2], by rw [he, NearGen.join_mod2 (by norm_num)]⟩)
  · exact Or.inl (by rw [hq, ← e1]; exact NearGen.g_mono.monotone (by omega))

/-- **C139**, the difference if the floats round to nearest, ties to even: the posit below one, which is the difference rounded
toward zero, exactly for the numbers above 2^-25; the smaller numbers are lost. -/
theorem C139_diff (hn : ∀ p q x y, ieee 8 23 p = .num x → ieee 8 23 q = .num y → IsNearestEven 8 23 (x + y) (o.add p q))
    {a : ℤ} (ha : Posit10.cfg.fmt.IsReal a) (h0 : 0 < Posit10.cfg.fmt.val a) (h1 : Posit10.cfg.fmt.val a ≤ 1 / 64) :
    Posit10.sub o Posit10.one a = .ok (if Posit10.cfg.fmt.val a ≤ 1 / 2 ^ 25 then Posit10.one else Posit10.one - 1) ∧
    Posit10.cfg.fmt.IsTrunc (1 - Posit10.cfg.fmt.val a) (Posit10.one - 1) := by
  obtain ⟨e1, e2, -, -, -⟩ := eps_vals
  refine ⟨?_, trunc_between (v := 255) (by norm_num) (by decide) (by decide) (by rw [e1]; linarith) (by
    rw [show (255 : ℤ) + 1 = 256 by norm_num, e2]; linarith)⟩
  have h256 : Posit10.cfg.fmt.IsReal 256 := by decide
  obtain ⟨p, hp, hpv⟩ := floatFor_posit10.toFloat h256
  obtain ⟨q, hq, hqv⟩ := floatFor_posit10.toFloat ha.neg
  rw [eps_vals.2.1] at hpv
  rw [Format.val_neg] at hqv
  have he : Posit10.sub o Posit10.one a = Posit.ofFloat Posit10.cfg .single (o.add p q) := by
    show Posit10.add o 256 (Posit10.neg a) = _
    rw [Posit10.neg_real ha]
    exact Posit10.add_ok ((Posit10.genFloat_uu (Posit10.canonical h256)).trans hp)
      ((Posit10.genFloat_uu (Posit10.canonical ha.neg)).trans hq)
  rw [he]
  generalize Posit10.cfg.fmt.val a = x at *
  obtain ⟨hb, -, -, hf⟩ := hn p q 1 (-x) hpv hqv
  generalize o.add p q = b at *
  rw [← sub_eq_add_neg] at hf
  obtain ⟨y, hy, hz⟩ := hf (by
    rw [abs_of_pos (by linarith)]
    have : (1 : ℚ) ≤ overflowAt 8 23 := by unfold overflowAt; norm_num
    linarith)
  have z1 := hz 0x3f800000 1 (by norm_num [ieee])
  have z2 := hz 0x3f7fffff (1 - 1 / 2 ^ 24) (by norm_num [ieee])
  have z3 := hz 0x3f7c0000 (1 - 1 / 64) (by norm_num [ieee])
  have a1 : |1 - x - 1| = x := by rw [show 1 - x - 1 = -x by ring, abs_neg, abs_of_pos h0]
  have a3 : |1 - x - (1 - 1 / 64)| = 1 / 64 - x := by rw [abs_of_nonneg (by linarith)]; ring
  rw [a1] at z1
  rw [a3] at z3
  have l1 := abs_le.mp z1.1
  have l3 := abs_le.mp z3.1
  have hc := eps_conv floatFor_posit10 hy (zpow_le_zpow_right₀ (n := -1) (by norm_num) (by decide) |>.trans (by norm_num))
  have hy0 : 0 < y := by linarith
  have hb' : b < 2 ^ 32 := hb
  show _ = Except.ok (if _ then (256 : ℤ) else 255)
  split_ifs with hx
  · apply hc.2 _ (by linarith)
    rcases eps_below hy hb' hy0 with h | ⟨h, hodd⟩ | h
    · exact h
    · exfalso
      have : |1 - x - y| = 1 / 2 ^ 24 - x := by
        rw [h, show 1 - x - (1 - 1 / 2 ^ 24) = 1 / 2 ^ 24 - x by ring, abs_of_pos]
        exact lt_of_le_of_lt' (sub_le_sub_left hx _) (by norm_num)
      rw [this] at z1
      have hxe : 1 / 2 ^ 24 - x = x := by
        have := z1.1
        apply le_antisymm this
        have : (1 : ℚ) / 2 ^ 24 = 2 * (1 / 2 ^ 25) := by norm_num
        linarith
      rcases z1.2 hxe with hh | hh
      · rw [h] at hh; norm_num at hh
      · omega
    · exfalso
      have : (1 : ℚ) / 2 ^ 24 = 2 * (1 / 2 ^ 25) := by norm_num
      linarith
  · rw [not_le] at hx
    apply hc.1 (by
      rcases le_or_gt (1 - x) y with hh | hh
      · linarith
      · rw [abs_of_pos (by linarith)] at z3; linarith)
    rcases eps_below hy hb' hy0 with h | ⟨h, -⟩ | h
    · exfalso
      have hle : x ≤ |1 - x - y| := by rw [abs_sub_comm, abs_of_pos (by linarith)]; linarith
      have h24 : (1 : ℚ) / 2 ^ 24 = 2 * (1 / 2 ^ 25) := by norm_num
      have hle2 := hle.trans z2.1
      rcases le_or_gt (1 / 2 ^ 24) x with hh | hh
      · rw [abs_of_nonpos (by linarith)] at hle2
        have : (0 : ℚ) < 1 / 2 ^ 24 := by positivity
        linarith
      · rw [abs_of_pos (by linarith)] at hle2
        linarith
    · rw [h]; norm_num
    · exact h.trans (by norm_num)

/- there is such an addition -/
example : ∃ o : FloatOps, ∀ p q x y, ieee 8 23 p = .num x → ieee 8 23 q = .num y → IsNearestEven 8 23 (x + y) (o.add p q) := by
  have hr : ∀ x : ℚ, ∃ b, IsNearestEven 8 23 x b := fun x => by
    obtain ⟨b, hb, -⟩ := NearGen.exists_nearest (eb := 8) (fb := 23) (by norm_num) (by norm_num) x (s := if x < 0 then 1 else 0)
      (by split <;> norm_num) (fun _ => by split <;> simp_all)
    exact ⟨b, hb⟩
  choose r hr using hr
  let v : ℕ → ℚ := fun p => match ieee 8 23 p with | .num x => x | _ => 0
  have hv : ∀ {p x}, ieee 8 23 p = .num x → v p = x := fun h => by simp only [v, h]
  refine ⟨⟨fun p q => r (v p + v q), fun _ _ => 0, fun _ _ => 0⟩, fun p q x y h1 h2 => ?_⟩
  show IsNearestEven 8 23 (x + y) (r (v p + v q))
  rw [hv h1, hv h2]; exact hr _

/- the number 2^-24 and the least posit -/
example : Posit10.cfg.fmt.IsReal 4 ∧ 1 / 2 ^ 25 < Posit10.cfg.fmt.val 4 ∧ Posit10.cfg.fmt.val 4 ≤ 1 / 64 ∧
    0 < Posit10.cfg.fmt.val 1 ∧ Posit10.cfg.fmt.val 1 ≤ 1 / 2 ^ 25 :=
  ⟨by decide, by decide +kernel, by decide +kernel, by decide +kernel, by decide +kernel⟩

/-- **C139**, the script: with any doubles `x`, `d`, `s` in the ranges of its constants, the posits computed are those converted
from the double results. -/
theorem C139_script (ho : o.Correct 8 23) {x d s : ℕ} {X D S : ℚ} (hx : ieee 11 52 x = .num X) (hd : ieee 11 52 d = .num D)
    (hs : ieee 11 52 s = .num S) (hX : 1 / 2 ^ 20 ≤ X ∧ X ≤ 1 / 64) (hD : 1 - 1 / 64 ≤ D ∧ D < 1) (hS : 1 ≤ S ∧ S < 1 + 1 / 32) :
    ∃ r, testEps o x d s = .ok r ∧ Posit10.cfg.fmt.IsTrunc X r.a ∧ r.a1 = Posit10.one ∧ r.adiff = Posit10.one - 1 ∧
      r.adiffF = r.adiff ∧ r.asum = Posit10.one ∧ r.asumF = r.asum := by
  have hf := floatFor_posit10.double
  have hm : (2 : ℚ) ^ ((2 : ℤ) - 2 ^ (FTrait.double.eb - 1)) ≤ 1 / 2 ^ 20 :=
    zpow_le_zpow_right₀ (n := -20) (by norm_num) (by decide) |>.trans (by norm_num)
  have hX0 : 0 < X := lt_of_lt_of_le (by norm_num) hX.1
  obtain ⟨a, ha, -, -, ht⟩ := hf.ofFloat (IsRounded.of_num hx) (by rw [abs_of_pos hX0]; exact hm.trans hX.1)
  have ht := ht ⟨x, hx⟩
  have hm2 := hm.trans (show (1 : ℚ) / 2 ^ 20 ≤ 1 / 2 by norm_num)
  have c2 := (eps_conv hf hd hm2).1 hD.1 hD.2
  have c3 := (eps_conv hf hs hm2).2 hS.1 hS.2
  have c1 : Posit10.ofDouble 0x3ff0000000000000 = .ok 256 := by decide +kernel
  rw [← (C55_posit10_constructors 0 x).2.2] at ha
  rw [← (C55_posit10_constructors 0 d).2.2] at c2
  rw [← (C55_posit10_constructors 0 s).2.2] at c3
  have hpa : 0 < a := by
    rcases ht.sign with h | h
    · exact h.1
    · linarith [h.2]
  have hva := (Format.val_pos_iff ht.real.inRange).mpr hpa
  -- 2^-20 is the posit 8
  have e8 : Posit10.cfg.fmt.val 8 = 1 / 2 ^ 20 := by decide +kernel
  have g1 : 1 / 2 ^ 20 ≤ Posit10.cfg.fmt.val a := by
    have := ht.greatest 8 (by decide) (by norm_num) (by rw [e8, abs_of_pos hX0, abs_of_pos (by norm_num)]; exact hX.1)
    rwa [e8, abs_of_pos hva, abs_of_pos (by norm_num)] at this
  have g2 : Posit10.cfg.fmt.val a ≤ X := by
    rcases ht.below with h | h
    · rwa [abs_of_pos hva, abs_of_pos hX0] at h
    · have := h 8 (by decide) (by norm_num)
      rw [e8, abs_of_pos hva, abs_of_pos (by norm_num)] at this
      exact this.trans hX.1
  have d1 := C139_diff_any ho ht.real (le_trans (by norm_num) g1) (g2.trans hX.2)
  have d2 := C139_sum ho ht.real hva (lt_of_le_of_lt (g2.trans hX.2) (by norm_num))
  refine ⟨⟨a, 256, 255, 255, 256, 256⟩, ?_, ht, rfl, rfl, rfl, rfl, rfl⟩
  unfold testEps
  rw [ha, c1, c2, c3]
  exact (bind_ok _ d1).trans (bind_ok _ d2)

/- the constants of the script: 0.00001, 1.0-0.0001 and 1.0+0.0001 -/
example : ∃ X D S, ieee 11 52 0x3ee4f8b588e368f1 = .num X ∧ ieee 11 52 0x3fefff2e48e8a71e = .num D ∧
    ieee 11 52 0x3ff00068db8bac71 = .num S ∧ (1 / 2 ^ 20 ≤ X ∧ X ≤ 1 / 64) ∧ (1 - 1 / 64 ≤ D ∧ D < 1) ∧ (1 ≤ S ∧ S < 1 + 1 / 32) := by
  refine ⟨_, _, _, by norm_num [ieee]; rfl, by norm_num [ieee]; rfl, by norm_num [ieee]; rfl, ?_, ?_, ?_⟩ <;> norm_num

end Verif
