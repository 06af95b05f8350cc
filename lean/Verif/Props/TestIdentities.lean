import Verif.Props.Integers
import Verif.Props.Scale
import Verif.Props.Constants
import Verif.Props.FloatPack
import Verif.Props.Unpacked

/-!
# C93: the identities of the project's own tests, in every format

tests/itest_constexpr.cpp:13-26 asserts identities between the constants for one format; tests/testsposit.hpp:18-70 checks that
eleven numbers pass unchanged through the chain float, `Unpacked`, posit, `Unpacked`, float. Here both are proved for all formats
and for all floats.
-/

namespace Verif
open Fmt

variable {c : Cfg} {eb fb : ℕ} {dn : Bool}

/-- magnitudes from one half up to 4 are safe -/
theorem safeMag_half (h : c.WF) {y : ℚ} (h1 : 1 / 2 ≤ |y|) (h2 : |y| < 4) : c.SafeMag y := by
  by_cases hfb : 1 ≤ c.fb
  · refine safeMag_near_one h (le_trans ?_ h1) h2
    have : (2 : ℚ) ^ (-(c.fb : ℤ)) ≤ 2 ^ (-1 : ℤ) := zpow_le_zpow_right₀ (by norm_num) (by omega)
    refine le_trans this ?_
    norm_num
  · have hf : c.fb = c.N - 3 - c.es := rfl
    have hes := h.hes
    have hN := h.hN
    have hH := h.hH
    refine safeMag_of_narrow h ?_ _
    have hpw := le_pw c.H
    have hpw32 := le_pw32 c.H
    by_cases h64 : c.H = 64
    · have := h.h64 h64
      omega
    · have hsc := h.hscale (by omega)
      by_contra hc
      have : 2 ^ 27 ≤ 2 ^ c.es := Nat.pow_le_pow_right (by norm_num) (by omega)
      have h3 : 2 ^ 27 * 16 ≤ 2 ^ c.es * (c.N - 2) := Nat.mul_le_mul this (by omega)
      norm_num at h3
      omega

/-- **C93**, the assertions about one (tests/itest_constexpr.cpp:13-16, 24, 26): `1*1 = 1`, `1-1 = 0`, `1/1 = 1`, `1+0 = 1`,
`minexponent() < maxexponent()`, `Posit(1) = one()`. -/
theorem C93_one (h : c.WF) (hF : c.fb + 2 ≤ c.F) :
    Posit.mul c c.one c.one = .ok c.one ∧ Posit.sub c c.one c.one = .ok 0 ∧ Posit.div c c.one c.one = .ok c.one ∧
    Posit.add c c.one 0 = .ok c.one ∧ c.minexponent < c.maxexponent ∧ Posit.ofInt c 1 = .ok c.one := by
  obtain ⟨o1, o2⟩ := one_real h
  have hv := val_one h
  have hs : c.SafeMag 1 := safeMag_half h (by norm_num) (by norm_num)
  obtain ⟨m1, -, m3⟩ := C13_one_partial h hF o1 (Or.inr (by rw [hv]; exact hs))
  refine ⟨m1, C11_sub_self h o1, m3, (C13_add_zero c _).1, ?_,
    C20_exact_partial h (by norm_num) (by norm_num) (by norm_num) (Or.inl (by omega)) (by exact_mod_cast hs) o1 (by rw [hv]; norm_num)⟩
  have hmx : c.maxexponent = c.topExp := maxexponent_eq h
  rw [minexponent_eq h, hmx]
  have hN3 := h.N_ge
  have hp : (0 : ℤ) < 2 ^ c.es := by positivity
  obtain ⟨n, hnN⟩ : ∃ n : ℕ, c.N = n + 3 := ⟨c.N - 3, by omega⟩
  unfold Cfg.topExp Cfg.maxScale
  rw [hnN, show n + 3 - 2 = n + 1 by omega]
  push_cast
  split_ifs <;> nlinarith [Nat.zero_le n]

example : P28.WF ∧ P28.fb + 2 ≤ P28.F ∧ P28.one = 2 ^ 26 ∧ Posit.sub P28 P28.one P28.one = .ok 0 := by decide +kernel

/-- **C93**, the assertions about two (tests/itest_constexpr.cpp:18, 19, 21, 22, tests/testsposit.hpp:31): `1+1 = 2`,
`two().half() = 1`, `one().twice() = 2`, `1*1+1 = 2` with a fused multiply-add, `Posit(2) = two()` and `2.inv().inv() = 2`. Excluded
is only the three-bit format with two infinities, which does not contain 2. -/
theorem C93_two (h : c.WF) (hF : c.fb + 2 ≤ c.F) (hn : c.spec = .withNanInf → 4 ≤ c.N) :
    Posit.add c c.one c.one = .ok c.two ∧ Posit.half c c.two = .ok c.one ∧ Posit.twice c c.one = .ok c.two ∧
    Posit.fma c c.one c.one c.one = .ok c.two ∧ Posit.ofInt c 2 = .ok c.two ∧
    (do Posit.inv c (← Posit.inv c c.two)) = .ok c.two := by
  obtain ⟨o1, o2⟩ := one_real h
  have hv := val_one h
  obtain ⟨t1, t2⟩ := C19_two_partial h hn
  have hF8 : 8 ≤ c.F := by have := h.hF; omega
  have hs1 : c.SafeMag 1 := safeMag_half h (by norm_num) (by norm_num)
  have hs2 : c.SafeMag 2 := safeMag_half h (by norm_num) (by norm_num)
  have hs3 : c.SafeMag (1 / 2) := safeMag_half h (by norm_num) (by norm_num)
  have t0 : c.two ≠ 0 := by
    intro hz
    rw [hz, Format.val_zero] at t2
    norm_num at t2
  have hcut : ∀ {v}, c.fmt.IsCut0 2 v → v = c.two := fun {v} hc => by
    rw [← t2] at hc
    exact isCut0_unique hc (isCut0_self t1)
  have hone : |(1 : ℤ)| < 2 ^ (c.F - 2) := by
    rw [abs_one]
    exact one_lt_pow₀ (by norm_num) (by omega)
  obtain ⟨s1, s2⟩ := alignedSum_int hF8 hone hone
  norm_num at s1 s2
  refine ⟨?_, ?_, ?_, ?_, ?_, ?_⟩
  · have key := (C63_add h o1 o1).1
    rw [hv, s1] at key
    obtain ⟨v, h1, h2⟩ := key (Or.inr (Or.inr ⟨s2, Or.inr hs2⟩))
    rw [h1, hcut h2]
  · exact C18_half_exact h t1 o1 (by rw [hv, t2]; norm_num) (Or.inr (by rw [t2]; norm_num; exact hs1))
  · exact C18_twice_exact h o1 t1 (by rw [hv, t2]; norm_num) (Or.inr (by rw [hv]; norm_num; exact hs2))
  · have key := (C63_fma h hF o1 o1 o1).1
    rw [hv, mul_one, s1] at key
    obtain ⟨v, h1, h2⟩ := key ⟨s2, Or.inr hs2⟩
    rw [h1, hcut h2]
  · exact C20_exact_partial h (by norm_num) (by norm_num) (by norm_num) (Or.inl (by omega)) (by exact_mod_cast hs2) t1
      (by rw [t2]; norm_num)
  · have hval : ∀ k : ℤ, (k = 1 ∨ k = -1) → c.two ≠ k := by
      have hN3 := h.N_ge
      have e : c.two = 2 ^ (c.N - 2) + 2 ^ (c.N - 3 - c.es) := by rw [two_eq h]
      have h1 : (2 : ℤ) ^ 1 ≤ 2 ^ (c.N - 2) := pow_le_pow_right₀ (by norm_num) (by omega)
      have h2 : (0 : ℤ) < 2 ^ (c.N - 3 - c.es) := by positivity
      rw [e]
      intro k hk
      omega
    obtain ⟨v, i1, -, i3⟩ := C16_inv_pow2 h hF t1 t0 (fun _ => ⟨hval 1 (Or.inl rfl), hval (-1) (Or.inr rfl)⟩) (k := 1)
      (by rw [t2]; norm_num) (by norm_num; exact hs2) (by norm_num at hs3 ⊢; exact hs3)
    rw [i1]
    exact i3

example : P60.WF ∧ P60.fb + 2 ≤ P60.F ∧ (P60.spec = .withNanInf → 4 ≤ P60.N) ∧ P60.two = 2 ^ 58 + 2 ^ 55 ∧
    Posit.fma P60 P60.one P60.one P60.one = .ok P60.two := by decide +kernel

/-- **C93**, `onehalf() == one()/two()` (tests/itest_constexpr.cpp:20) holds exactly if the posit fills its holder: in the others
the quotient is one half, but `onehalf()` is not. -/
theorem C93_half (h : c.WF) (hF : c.fb + 2 ≤ c.F) (hn : c.spec = .withNanInf → 4 ≤ c.N) :
    (∃ v, Posit.div c c.one c.two = .ok v ∧ c.fmt.IsReal v ∧ c.fmt.val v = 1 / 2) ∧
    (Posit.div c c.one c.two = .ok c.half ↔ c.N = c.H) := by
  obtain ⟨o1, o2⟩ := one_real h
  have hv := val_one h
  obtain ⟨t1, t2⟩ := C19_two_partial h hn
  have t0 : c.two ≠ 0 := by
    intro hz
    rw [hz, Format.val_zero] at t2
    norm_num at t2
  have hs3 : c.SafeMag (1 / 2) := safeMag_half h (by norm_num) (by norm_num)
  have hex : ∃ w, c.fmt.IsReal w ∧ c.fmt.val w = 1 / 2 := by
    have hN3 := h.N_ge
    obtain ⟨e1, e2, e3⟩ := pow_split h
    have hle : 2 ^ (c.N - 3 - c.es) ≤ 2 ^ (c.N - 3) := Nat.pow_le_pow_right (by norm_num) (by omega)
    have h1 := Nat.one_le_two_pow (n := c.N - 3)
    have h1' := Nat.one_le_two_pow (n := c.N - 3 - c.es)
    have hmb := maxBody_ge h
    clear e3
    refine ⟨((2 ^ (c.N - 2) - 2 ^ (c.N - 3 - c.es) : ℕ) : ℤ), by rw [isReal_bounds]; omega, ?_⟩
    rw [Format.val_natCast (by omega)]
    exact posVal_half h
  obtain ⟨w, w1, w2⟩ := hex
  have hd := C09_div_exact h hF o1 o2 t1 t0 (by rw [hv, t2]; exact hs3) w1 (by rw [hv, t2, w2])
  refine ⟨⟨w, hd, w1, w2⟩, ?_⟩
  rw [← C19_half h, hd]
  constructor
  · intro he
    cases he
    exact ⟨w1, w2⟩
  · rintro ⟨r1, r2⟩
    rw [(Format.val_inj w1.inRange r1.inRange).mp (by rw [w2, r2])]

example : P32.WF ∧ P32.N = P32.H ∧ Posit.div P32 P32.one P32.two = .ok P32.half ∧
    P12.WF ∧ P12.N ≠ P12.H ∧ Posit.div P12 P12.one P12.two = .ok 0x300 ∧ P12.half = 0x3f00 := by decide +kernel

/-- **C93**, conversions (tests/testsposit.hpp:24-26, 44-66): if a normal float `b` is the number `y` and `y` is a posit `v`, then
the float gives some `Unpacked` `u`, packing `u` gives `v`, unpacking `v` gives `u` again, and packing `u` to a float gives `b`. The
fraction type must have the bits of both, the exponent type more bits than the exponent of the float. -/
theorem C93_roundtrip (h : c.WF) (heb : 2 ≤ eb) (heb30 : eb ≤ 30) (hfb : 1 ≤ fb) (hF : fb ≤ c.F) (hF2 : c.fb ≤ c.F) (hE : eb < c.E)
    {b : ℕ} (hb : b < 2 ^ (eb + fb + 1)) {y : ℚ} (hy : ieee eb fb b = .num y) (hn : 2 ^ ((2 : ℤ) - 2 ^ (eb - 1)) ≤ |y|) {v : ℤ}
    (hv : c.fmt.IsReal v) (hvy : c.fmt.val v = y) (hs : c.SafeMag y) :
    ∃ u, Unp.unpackFloat c.F c.E (.any eb fb dn) b = .ok u ∧ Posit.pack c u = .ok v ∧ Posit.unpack c v = .ok u ∧
      Unp.packFloat c.F c.E (.any eb fb dn) u = .ok b ∧ Posit.ofFloat c (.any eb fb dn) b = .ok v ∧
      Posit.toFloat c (.any eb fb dn) v = .ok b := by
  have hF1 : 1 ≤ c.F := by have := h.hF; omega
  obtain ⟨h1, ⟨h2, h3⟩ | ⟨h2, h3⟩⟩ := ieee_num hy
  · exact absurd hn (not_le.mpr (sub_abs h3).2)
  obtain ⟨u, hu, hp⟩ := C33_normal (F := c.F) (E := c.E) (dn := dn) heb heb30 hfb hF hE.le (leastBits_max hE) hb h2 h1
  have hu' := unpackFloat_normal (F := c.F) (E := c.E) (dn := dn) heb hfb hF1 hE.le heb30 h2 h1
  have huu : u = _ := Except.ok.inj (hu.symm.trans hu')
  have hv0 : v ≠ 0 := by
    rintro rfl
    rw [Format.val_zero] at hvy
    rw [← hvy, abs_zero] at hn
    exact absurd hn (not_le.mpr (by positivity))
  obtain ⟨e, f, hq⟩ := unpack_real h hv hv0
  have hfl : fracOf c.F fb (2 ^ fb + fMan fb b) < 2 ^ c.F := by
    apply fracOf_lt
    have := fMan_lt fb b
    rw [pow_succ]; omega
  have hyv : y = (if fSign eb fb b then -1 else 1 : ℚ) * mag c.F (((fExp eb fb b : ℤ) - (2 ^ (eb - 1) - 1) - fb) + fb)
      (fracOf c.F fb (2 ^ fb + fMan fb b)) := by
    rw [h3]
    congr 1
    unfold fracOf mag
    rw [if_pos hF, Nat.add_sub_cancel_left, zpow_add₀ (by norm_num : (2 : ℚ) ≠ 0) _ (fb : ℤ), zpow_natCast]
    have e1 : (2 : ℚ) ^ c.F = 2 ^ fb * 2 ^ (c.F - fb) := by rw [← pow_add]; congr 1; omega
    rw [e1]
    push_cast
    field_simp
  have habs : |y| = mag c.F (((fExp eb fb b : ℤ) - (2 ^ (eb - 1) - 1) - fb) + fb) (fracOf c.F fb (2 ^ fb + fMan fb b)) := by
    rw [hyv, abs_sign_mul _ (mag_pos _ _ _).le]
  have hq' := hq.abs_val hF2
  rw [hvy, habs] at hq'
  obtain ⟨i1, i2⟩ := mag_inj hfl hq.f_lt hq'
  have hsg : decide (v < 0) = fSign eb fb b := by
    have hm := mag_pos c.F (((fExp eb fb b : ℤ) - (2 ^ (eb - 1) - 1) - fb) + fb) (fracOf c.F fb (2 ^ fb + fMan fb b))
    have : v < 0 ↔ y < 0 := by rw [← hvy, Format.val_neg_iff hv.inRange]
    rw [hyv] at this
    cases hsb : fSign eb fb b
    · rw [hsb] at this
      simp only [Bool.false_eq_true, if_false, one_mul] at this
      exact decide_eq_false fun hlt => absurd (this.mp hlt) (not_lt.mpr hm.le)
    · rw [hsb] at this
      simp only [if_true, neg_mul, one_mul] at this
      exact decide_eq_true (this.mpr (by linarith))
  have hup : Posit.unpack c v = .ok u := by rw [hq.eq, huu, hsg, i1, i2]
  have hpk : Posit.pack c u = .ok v := by
    obtain ⟨w, k1, k2⟩ := (pack_exact h hfl hyv).1 hs
    rw [huu, k1, k2.faithful.exact hv hvy]
  refine ⟨u, hu, hpk, hup, hp, ?_, ?_⟩
  · unfold Posit.ofFloat; rw [hu]; exact hpk
  · unfold Posit.toFloat; rw [hup]; exact hp

/-- -10 as a double, as an `Unpacked` and as a posit -/
example : P60.WF ∧ 52 ≤ P60.F ∧ P60.fb ≤ P60.F ∧ 11 < P60.E ∧ P60.SafeMag (-10) ∧ ieee 11 52 0xC024000000000000 = .num (-10) ∧ P60.fmt.val (-(2 ^ 58 + 2 ^ 56 + 2 ^ 55 + 2 ^ 53)) = -10 ∧
    Posit.ofFloat P60 .double 0xC024000000000000 = .ok (-(2 ^ 58 + 2 ^ 56 + 2 ^ 55 + 2 ^ 53)) := by
  refine ⟨by decide, by decide, by decide, by decide, by decide +kernel, by norm_num [ieee], by decide +kernel, by decide +kernel⟩

/-- **C93**, `Unpacked` (tests/testsposit.hpp:21, tests/itest_unpackfixed.cpp:6): `inv()` twice gives back every power of two whose
exponent has a negative in the exponent type, and `Unpacked(1)` is `one()`. -/
theorem C93_unpacked {F E : ℕ} (hF : 1 ≤ F) (hE : 1 ≤ E) :
    (∀ (s : Bool) (e : ℤ), InS E e → InS E (-e) →
      (do Unp.inv F E (← Unp.inv F E ⟨.regular, s, e, 0⟩)) = .ok ⟨.regular, s, e, 0⟩) ∧
    Unp.unpackFixed F E 32 0 1 = .ok ⟨.regular, false, 0, 0⟩ := by
  have hlog : (1 : ℤ).natAbs.log2 = 0 := by decide
  refine ⟨fun s e h1 h2 => ?_, ?_⟩
  · have key : ∀ {e : ℤ}, InS E (-e) → Unp.inv F E ⟨.regular, s, e, 0⟩ = .ok ⟨.regular, s, -e, 0⟩ := fun {e} h => by
      unfold Unp.inv
      simp only [if_true, bind, Except.bind, pure, Except.pure]
      rw [arithS_ok' h]
      simp only [Unp.mk3]
      rw [wrapS_of_inS hE h, Nat.zero_mod]
    rw [key h2]
    simp only [bind, Except.bind]
    rw [key (e := -e) (by rwa [neg_neg]), neg_neg]
  · rw [unpackFixed_eq (by omega) hF hE (by norm_num) ⟨by norm_num, by norm_num⟩ (Or.inr (by norm_num))
      (by rw [hlog]; unfold InS; constructor <;> simp), hlog]
    simp [fracOf]

example : InS 16 (-300) ∧ InS 16 (-(-300)) ∧ Unp.inv 32 16 ⟨.regular, true, -300, 0⟩ = .ok ⟨.regular, true, 300, 0⟩ := by
  unfold InS; decide +kernel

end Verif
