import Verif.Props.AnyFloatSpecial
import Verif.Props.FixedFull
import Verif.Spec.EmuFloat

/-!
# C99: complete outcome of `anyfloat_emu` on every pattern

include/anyfloat.hpp. C57 states where the emulated operations are right; here is what they compute on all patterns, those
that are subnormal in the native type and the special values included.
-/

namespace Verif
open Fmt

variable {eb fb neb nfb : ℕ} {o : FloatOps}

/-! ## the assumption on the native arithmetic can be met -/

/-- every exact result has a rounding -/
theorem exists_roundsTo (heb : 2 ≤ eb) (hfb : 1 ≤ fb) (X : XNum) : ∃ b, RoundsTo eb fb X b := by
  obtain ⟨_, _, _, _, _, hpinf, hninf, hnan⟩ := C51_constants (dn := true) heb hfb
  have hinf : ∀ s, ∃ b, ieee eb fb b = .inf s := by intro s; cases s; exacts [⟨_, hpinf⟩, ⟨_, hninf⟩]
  cases X with
  | num x =>
    by_cases hx : |x| ≤ maxFin eb fb
    · obtain ⟨b, hb⟩ := exists_rounded heb hfb hx
      exact ⟨b, Or.inl hb⟩
    · obtain ⟨b, hb⟩ := hinf (decide (x < 0))
      exact ⟨b, Or.inr ⟨not_le.mp hx, hb⟩⟩
  | inf s => exact hinf s
  | nan =>
    refine ⟨_, hnan, ?_⟩
    have hlm : 2 ^ (fb - 1) < 2 ^ fb := Nat.pow_lt_pow_right (by norm_num) (by omega)
    have := fJoin_man (eb := eb) (s := false) (x := 2 ^ eb - 1) hlm
    rw [any_nan hfb]
    unfold fMan at this
    rw [this]

/-- there is an arithmetic as assumed by the theorems below -/
theorem floatOps_ieee_exists (heb : 2 ≤ eb) (hfb : 1 ≤ fb) : ∃ o : FloatOps, o.Ieee eb fb := by
  classical
  choose r hr using exists_roundsTo (eb := eb) (fb := fb) heb hfb
  refine ⟨{ add := fun a b => r ((ieee eb fb a).plus (ieee eb fb b)), mul := fun a b => r ((ieee eb fb a).times (ieee eb fb b)),
            div := fun a b => r ((ieee eb fb a).over (ieee eb fb b)) }, fun _ _ => hr _, fun _ _ => hr _, fun _ _ _ => hr _⟩

/-! ## conversions -/

/-- **C99**: every pattern is converted to the native type, numbers below its normal range as +0. -/
theorem C99_toNative (h : EmuFor eb fb neb nfb) (v : ℕ) :
    ∃ r, AnyFloat.toNative (.any eb fb) (.any neb nfb) v = .ok r ∧ r < 2 ^ (neb + nfb + 1) ∧
      ieee neb nfb r = (ieee eb fb v).flush neb ∧ (ieee neb nfb r = .num 0 → r = 0) := by
  have hneb : neb ≠ 0 := by have := h.heb; have := h.he; omega
  have h0 : ieee neb nfb 0 = .num 0 := by
    rcases ieee_zero (eb := neb) (fb := nfb) with h' | h'
    · exact h'
    · exact absurd h' hneb
  cases hx : ieee eb fb v with
  | num x =>
    by_cases hs : |x| < minNorm neb
    · refine ⟨0, C57_toNative_zero h hx hs, by positivity, ?_, fun _ => rfl⟩
      unfold XNum.flush
      rw [h0]; simp only [if_pos hs]
    · obtain ⟨r, h1, h2, h3⟩ := C57_toNative h (v := v) (by rw [hx]; exact Or.inr (not_lt.mp hs))
      refine ⟨r, h1, h2, ?_, fun hc => ?_⟩
      · rw [h3, hx]; unfold XNum.flush; simp only [if_neg hs]
      · rw [h3, hx] at hc
        cases hc
        exact absurd (by rw [abs_zero]; exact minNorm_pos) hs
  | inf s =>
    obtain ⟨r, h1, h2, h3⟩ := C57_toNative h (v := v) (by rw [hx]; trivial)
    refine ⟨r, h1, h2, h3.trans hx, fun hc => ?_⟩
    rw [h3, hx] at hc; cases hc
  | nan =>
    obtain ⟨r, h1, h2, h3⟩ := C57_toNative h (v := v) (by rw [hx]; trivial)
    refine ⟨r, h1, h2, h3.trans hx, fun hc => ?_⟩
    rw [h3, hx] at hc; cases hc

/-- a rounded native result converted back, if its subnormal numbers can be unpacked or do not occur -/
theorem emu_back (heb : 2 ≤ eb) (he : eb ≤ neb) (hneb : neb ≤ 16) (hfb : 1 ≤ fb) (hf : fb ≤ nfb) (hnfb : nfb ≤ 64) {X : XNum} {w : ℕ}
    (hc : (nfb < eb + fb + 1 ∨ eb + fb + 1 < 32) ∨ ∀ z, ieee neb nfb w = .num z → z = 0 ∨ minNorm neb ≤ |z|)
    (hw : RoundsTo neb nfb X w) :
    ∃ r, AnyFloat.ofNative (.any eb fb) (.any neb nfb) w = .ok r ∧ EmuResult eb fb neb nfb X r := by
  have hinf : ∀ {s}, ieee neb nfb w = .inf s → ∃ r, AnyFloat.ofNative (.any eb fb) (.any neb nfb) w = .ok r ∧
      r < 2 ^ (eb + fb + 1) ∧ (ieee eb fb r = .num 0 → r = 0) ∧ ieee eb fb r = .inf s := by
    intro s hs
    obtain ⟨r, h1, h2, h3⟩ := conv_inf (F := eb + fb + 1) (by omega) hneb (by omega) heb hfb (by omega) hs
    exact ⟨r, h1, h2, fun hc => (by rw [h3] at hc; cases hc), h3⟩
  cases X with
  | num x =>
    rcases hw with hw | ⟨hm, hw⟩
    · obtain ⟨z, hz, -⟩ := id hw
      obtain ⟨r, h1, h2, h3, h4⟩ := conv_num (F := eb + fb + 1) (eb2 := eb) (fb2 := fb) (by omega) hneb (by omega) (by omega) heb
        (by omega) hfb (by omega) (Or.inl (by omega)) hz (by
          rcases hc with hc | hc
          · exact Or.inr (Or.inr (hc.imp_right fun h => ⟨h, he⟩))
          · rcases hc z hz with h | h
            exacts [Or.inl h, Or.inr (Or.inl h)])
      refine ⟨r, h1, h2, fun h0 => ?_, Or.inl ⟨w, z, hw, hz, h3⟩⟩
      obtain ⟨y, hy, -, h5⟩ := h3
      rw [h0] at hy; cases hy
      by_cases hs : |z| < minNorm eb
      · exact h4 hs
      · have := (h5 (not_lt.mp hs)).1
        simp at this
    · obtain ⟨r, h1, h2, h3, h4⟩ := hinf hw
      exact ⟨r, h1, h2, h3, Or.inr ⟨hm, h4⟩⟩
  | inf s =>
    obtain ⟨r, h1, h2, h3, h4⟩ := hinf hw
    exact ⟨r, h1, h2, h3, h4⟩
  | nan =>
    obtain ⟨r, h1, h2, h3⟩ := conv_nan (F := eb + fb + 1) (by omega) hneb (by omega) heb hfb (by omega) hw.1
      (Or.inr ((Nat.pow_le_pow_right (by norm_num) (by omega)).trans hw.2))
    exact ⟨r, h1, h2, fun hc => (by rw [h3] at hc; cases hc), h3⟩

theorem EmuFor.back (h : EmuFor eb fb neb nfb) {X : XNum} {w : ℕ} (hw : RoundsTo neb nfb X w) :
    ∃ r, AnyFloat.ofNative (.any eb fb) (.any neb nfb) w = .ok r ∧ EmuResult eb fb neb nfb X r :=
  emu_back h.heb h.he h.hneb h.hfb h.hf h.hnfb (Or.inl h.hF) hw

/-- `2^-149` of `binary32_emu` is +0 in `float`, `2^-16` of `binary8_emu` is kept -/
example : AnyFloat.toNative (.any 8 23) (.any 8 23) 1 = .ok 0 ∧ AnyFloat.toNative (.any 5 2) (.any 8 23) 1 = .ok 0x37800000 := by
  decide +kernel

/-! ## arithmetic -/

/-- **C99**: products of all patterns. -/
theorem C99_mul (h : EmuFor eb fb neb nfb) (ho : o.Ieee neb nfb) (a b : ℕ) :
    ∃ r, AnyFloat.mul (.any eb fb) (.any neb nfb) o a b = .ok r ∧
      EmuResult eb fb neb nfb (((ieee eb fb a).flush neb).times ((ieee eb fb b).flush neb)) r := by
  obtain ⟨p, hp, -, hp', -⟩ := C99_toNative h a
  obtain ⟨q, hq, -, hq', -⟩ := C99_toNative h b
  unfold AnyFloat.mul
  rw [bind_ok _ hp, bind_ok _ hq, ← hp', ← hq']
  exact h.back (ho.mul p q)

/-- `2^127` squared in `binary16alt_emu` is beyond `float` -/
example (ho : o.Ieee 8 23) : ∃ r, AnyFloat.mul (.any 8 7) (.any 8 23) o 0x7f00 0x7f00 = .ok r ∧ EmuResult 8 7 8 23 (.num (2 ^ 254)) r := by
  have h := C99_mul (by constructor <;> omega : EmuFor 8 7 8 23) ho 0x7f00 0x7f00
  rwa [show ((ieee 8 7 0x7f00).flush 8).times ((ieee 8 7 0x7f00).flush 8) = .num (2 ^ 254) by
    norm_num [ieee, XNum.flush, XNum.times, minNorm, abs_of_pos]] at h

/-- **C99**: sums of all patterns; the pattern of +0 leaves the other operand as it is. -/
theorem C99_add (h : EmuFor eb fb neb nfb) (ho : o.Ieee neb nfb) (a b : ℕ) :
    (a = 0 → AnyFloat.add (.any eb fb) (.any neb nfb) o a b = .ok b) ∧
    (b = 0 → AnyFloat.add (.any eb fb) (.any neb nfb) o a b = .ok a) ∧
    (a ≠ 0 → b ≠ 0 → ∃ r, AnyFloat.add (.any eb fb) (.any neb nfb) o a b = .ok r ∧
      EmuResult eb fb neb nfb (((ieee eb fb a).flush neb).plus ((ieee eb fb b).flush neb)) r) := by
  refine ⟨?_, ?_, fun ha hb => ?_⟩
  · rintro rfl; exact (C57_add_zero b).1
  · rintro rfl; exact (C57_add_zero a).2
  · obtain ⟨p, hp, -, hp', -⟩ := C99_toNative h a
    obtain ⟨q, hq, -, hq', -⟩ := C99_toNative h b
    unfold AnyFloat.add AnyFloat.isZero
    rw [if_neg (by simpa using ha), if_neg (by simpa using hb), bind_ok _ hp, bind_ok _ hq, ← hp', ← hq']
    exact h.back (ho.add p q)

/-- +infinity and -infinity -/
example (ho : o.Ieee 8 23) : ∃ r, AnyFloat.add (.any 5 2) (.any 8 23) o 0x7c 0xfc = .ok r ∧ EmuResult 5 2 8 23 .nan r := by
  have h := (C99_add (by constructor <;> omega : EmuFor 5 2 8 23) ho 0x7c 0xfc).2.2 (by norm_num) (by norm_num)
  rwa [show ((ieee 5 2 0x7c).flush 8).plus ((ieee 5 2 0xfc).flush 8) = .nan by norm_num [ieee, XNum.flush, XNum.plus]] at h

theorem flush_neg (X : XNum) : X.neg.flush neb = (X.flush neb).neg := by
  cases X with
  | num x =>
    by_cases hx : |x| < minNorm neb <;> simp [XNum.neg, XNum.flush, hx]
  | inf s => rfl
  | nan => rfl

/-- **C99**: differences of all patterns; +0 as first and -0 as second operand are not converted. -/
theorem C99_sub (h : EmuFor eb fb neb nfb) (ho : o.Ieee neb nfb) (a : ℕ) {b : ℕ} (hb : b < 2 ^ (eb + fb + 1)) :
    (a = 0 → ∃ r, AnyFloat.sub (.any eb fb) (.any neb nfb) o a b = .ok r ∧ ieee eb fb r = (ieee eb fb b).neg) ∧
    (b = 2 ^ (eb + fb) → AnyFloat.sub (.any eb fb) (.any neb nfb) o a b = .ok a) ∧
    (a ≠ 0 → b ≠ 2 ^ (eb + fb) → ∃ r, AnyFloat.sub (.any eb fb) (.any neb nfb) o a b = .ok r ∧
      EmuResult eb fb neb nfb (((ieee eb fb a).flush neb).sub ((ieee eb fb b).flush neb)) r) := by
  obtain ⟨h1, h2, h3⟩ := C57_neg hb
  obtain ⟨k1, k2, k3⟩ := C99_add h ho a (AnyFloat.neg (.any eb fb) b)
  refine ⟨fun ha => ⟨_, k1 ha, h2⟩, ?_, fun ha hb0 => ?_⟩
  · rintro rfl
    exact k2 (Nat.xor_self _)
  · obtain ⟨r, k4, k5⟩ := k3 ha (by
      intro hc
      have : b = 2 ^ (eb + fb) := by
        have e : AnyFloat.neg (.any eb fb) 0 = 2 ^ (eb + fb) := Nat.zero_xor _
        rw [← h3, hc, e]
      exact hb0 this)
    refine ⟨r, k4, ?_⟩
    rw [h2, flush_neg] at k5
    convert k5 using 1
    cases (ieee eb fb a).flush neb <;> cases (ieee eb fb b).flush neb <;> try rfl
    · simp [XNum.sub, XNum.plus, XNum.neg, sub_eq_add_neg]
    · rename_i s t
      cases s <;> cases t <;> rfl

/-- -infinity from 1 -/
example (ho : o.Ieee 8 23) : ∃ r, AnyFloat.sub (.any 5 2) (.any 8 23) o 0x3c 0xfc = .ok r ∧ EmuResult 5 2 8 23 (.inf false) r := by
  have h := (C99_sub (by constructor <;> omega : EmuFor 5 2 8 23) ho 0x3c (b := 0xfc) (by norm_num)).2.2 (by norm_num) (by norm_num)
  rwa [show ((ieee 5 2 0x3c).flush 8).sub ((ieee 5 2 0xfc).flush 8) = .inf false by
    norm_num [ieee, XNum.flush, XNum.sub, XNum.plus, XNum.neg, minNorm]] at h

/-- **C99**: quotients of all patterns; a zero divisor, and one that counts as zero, is +0. -/
theorem C99_div (h : EmuFor eb fb neb nfb) (ho : o.Ieee neb nfb) (a b : ℕ) :
    ∃ r, AnyFloat.div (.any eb fb) (.any neb nfb) o a b = .ok r ∧
      EmuResult eb fb neb nfb (((ieee eb fb a).flush neb).over ((ieee eb fb b).flush neb)) r := by
  obtain ⟨p, hp, -, hp', -⟩ := C99_toNative h a
  obtain ⟨q, hq, -, hq', hq0⟩ := C99_toNative h b
  unfold AnyFloat.div
  rw [bind_ok _ hp, bind_ok _ hq, ← hp', ← hq']
  exact h.back (ho.div p q hq0)

/-- 1 by the subnormal `2^-130` of `binary16alt_emu`, which counts as 0 -/
example (ho : o.Ieee 8 23) : ∃ r, AnyFloat.div (.any 8 7) (.any 8 23) o 0x3f80 8 = .ok r ∧ EmuResult 8 7 8 23 (.inf false) r := by
  have h := C99_div (by constructor <;> omega : EmuFor 8 7 8 23) ho 0x3f80 8
  rwa [show ((ieee 8 7 0x3f80).flush 8).over ((ieee 8 7 8).flush 8) = .inf false by
    norm_num [ieee, XNum.flush, XNum.over, minNorm, abs_of_pos]] at h

/-- **C99**: reciprocals of all patterns. -/
theorem C99_inv (h : EmuFor eb fb neb nfb) (ho : o.Ieee neb nfb) (a : ℕ) :
    ∃ r, AnyFloat.inv (.any eb fb) (.any neb nfb) o a = .ok r ∧
      EmuResult eb fb neb nfb ((XNum.num 1).over ((ieee eb fb a).flush neb)) r := by
  have hneb : 2 ≤ neb := by have := h.heb; have := h.he; omega
  have hnfb : 1 ≤ nfb := by have := h.hfb; have := h.hf; omega
  obtain ⟨h1n, _⟩ := C51_constants (eb := neb) (fb := nfb) (dn := true) hneb hnfb
  obtain ⟨p, hp, -, hp', hp0⟩ := C99_toNative h a
  unfold AnyFloat.inv
  rw [bind_ok _ hp, ← hp', ← h1n]
  exact h.back (ho.div _ p hp0)

/-- 1 by 3 -/
example (ho : o.Ieee 8 23) : ∃ r, AnyFloat.inv (.any 5 2) (.any 8 23) o 0x42 = .ok r ∧ EmuResult 5 2 8 23 (.num (1 / 3)) r := by
  have h := C99_inv (by constructor <;> omega : EmuFor 5 2 8 23) ho 0x42
  rwa [show (XNum.num 1).over ((ieee 5 2 0x42).flush 8) = .num (1 / 3) by
    norm_num [ieee, XNum.flush, XNum.over, minNorm, abs_of_pos]] at h

/-- **C99**: doubles of all patterns. -/
theorem C99_twice (h : EmuFor eb fb neb nfb) (ho : o.Ieee neb nfb) (a : ℕ) :
    ∃ r, AnyFloat.twice (.any eb fb) (.any neb nfb) o a = .ok r ∧
      EmuResult eb fb neb nfb ((XNum.num 2).times ((ieee eb fb a).flush neb)) r := by
  have hneb : 2 ≤ neb := by have := h.heb; have := h.he; omega
  have hnfb : 1 ≤ nfb := by have := h.hfb; have := h.hf; omega
  obtain ⟨-, h2n, _⟩ := C51_constants (eb := neb) (fb := nfb) (dn := true) hneb hnfb
  obtain ⟨p, hp, -, hp', -⟩ := C99_toNative h a
  unfold AnyFloat.twice
  rw [bind_ok _ hp, ← hp', ← h2n]
  exact h.back (ho.mul _ p)

/-- twice the greatest `float` -/
example (ho : o.Ieee 8 23) : ∃ r, AnyFloat.twice (.any 8 23) (.any 8 23) o 0x7f7fffff = .ok r ∧
    EmuResult 8 23 8 23 (.num (16777215 * 2 ^ 105)) r := by
  have h := C99_twice (by constructor <;> omega : EmuFor 8 23 8 23) ho 0x7f7fffff
  rwa [show (XNum.num 2).times ((ieee 8 23 0x7f7fffff).flush 8) = .num (16777215 * 2 ^ 105) by
    norm_num [ieee, XNum.flush, XNum.times, minNorm, abs_of_pos]] at h

/-- **C99**: `fma` of all patterns: the product is rounded to the native type, then the sum. -/
theorem C99_fma (h : EmuFor eb fb neb nfb) (ho : o.Ieee neb nfb) (a b c : ℕ) :
    ∃ r w, AnyFloat.fma (.any eb fb) (.any neb nfb) o a b c = .ok r ∧
      RoundsTo neb nfb (((ieee eb fb a).flush neb).times ((ieee eb fb b).flush neb)) w ∧
      EmuResult eb fb neb nfb ((ieee neb nfb w).plus ((ieee eb fb c).flush neb)) r := by
  obtain ⟨p, hp, -, hp', -⟩ := C99_toNative h a
  obtain ⟨q, hq, -, hq', -⟩ := C99_toNative h b
  obtain ⟨t, ht, -, ht', -⟩ := C99_toNative h c
  unfold AnyFloat.fma
  rw [bind_ok _ hp, bind_ok _ hq, bind_ok _ ht, ← hp', ← hq', ← ht']
  obtain ⟨r, h1, h2⟩ := h.back (ho.add (o.mul p q) t)
  exact ⟨r, _, h1, ho.mul p q, h2⟩

/-- `3 * 3 + 1` -/
example (ho : o.Ieee 8 23) : ∃ r w, AnyFloat.fma (.any 5 2) (.any 8 23) o 0x42 0x42 0x3c = .ok r ∧ RoundsTo 8 23 (.num 9) w ∧
    EmuResult 5 2 8 23 ((ieee 8 23 w).plus (.num 1)) r := by
  have h := C99_fma (by constructor <;> omega : EmuFor 5 2 8 23) ho 0x42 0x42 0x3c
  rwa [show ((ieee 5 2 0x42).flush 8).times ((ieee 5 2 0x42).flush 8) = .num 9 by
      norm_num [ieee, XNum.flush, XNum.times, minNorm, abs_of_pos],
    show (ieee 5 2 0x3c).flush 8 = .num 1 by norm_num [ieee, XNum.flush, minNorm]] at h

/-- **C99**: halves of all patterns, computed in `double`. -/
theorem C99_half {od : FloatOps} {d : DoubleConv} (h : EmuFor eb fb neb nfb) (hn : EmuFor eb fb 11 52 ∨ neb < 11) (hn' : nfb ≤ 52)
    (ho : od.Ieee 11 52) (hd : d.Correct neb nfb) (a : ℕ) :
    ∃ r, AnyFloat.half (.any eb fb) (.any neb nfb) od d a = .ok r ∧
      EmuResult eb fb 11 52 ((XNum.num (1 / 2)).times ((ieee eb fb a).flush neb)) r := by
  have heb := h.heb
  have he := h.he
  have hf := h.hf
  obtain ⟨p, hp, -, hp', -⟩ := C99_toNative h a
  have hhalf : ieee 11 52 0x3fe0000000000000 = .num (1 / 2) := by norm_num [ieee]
  unfold AnyFloat.half
  have hw := ho.mul 0x3fe0000000000000 (d.widen p)
  rw [hhalf, hd.widen, hp'] at hw
  rw [bind_ok _ hp]
  have he11 : eb ≤ 11 := by
    rcases hn with hn | hn
    · exact hn.he
    · omega
  refine emu_back heb he11 (by norm_num) h.hfb (by omega) (by norm_num) ?_ hw
  rcases hn with hn | hn
  · exact Or.inl hn.hF
  · right
    intro z hz
    cases hx : (ieee eb fb a).flush neb with
    | num x =>
      rw [hx] at hw
      rcases hw with hw | ⟨-, hw⟩
      · by_cases h0 : x = 0
        · left
          have := hw.exact ⟨0, by rw [h0]; norm_num [ieee]⟩
          rw [hz, h0] at this
          simpa using XNum.num.inj this
        · right
          obtain ⟨_, _, hmin, _⟩ := C51_constants (eb := 11) (fb := 52) (dn := true) (by norm_num) (by norm_num)
          refine (hw.abs_le hz minNorm_pos.le ⟨_, hmin⟩).2 ?_
          have hx2 : minNorm neb ≤ |x| := by
            cases hv : ieee eb fb a with
            | num y =>
              rw [hv] at hx
              change (if |y| < minNorm neb then XNum.num 0 else .num y) = _ at hx
              split_ifs at hx with hs
              · exact absurd (XNum.num.inj hx).symm h0
              · rw [← XNum.num.inj hx]; exact not_lt.mp hs
            | inf s => rw [hv] at hx; cases hx
            | nan => rw [hv] at hx; cases hx
          have h2 : 2 * minNorm 11 ≤ minNorm neb := by
            unfold minNorm
            rw [mul_comm, ← zpow_add_one₀ (by norm_num)]
            apply zpow_le_zpow_right₀ (by norm_num)
            have : (2 : ℤ) ^ (neb - 1) ≤ 2 ^ 9 := pow_le_pow_right₀ (by norm_num) (by omega)
            norm_num at this ⊢
            omega
          rw [abs_mul, abs_of_pos (by norm_num : (0 : ℚ) < 1 / 2)]
          linarith
      · rw [hz] at hw; cases hw
    | inf s =>
      rw [hx] at hw
      change RoundsTo 11 52 (if (1 / 2 : ℚ) = 0 then XNum.nan else XNum.inf (s ^^ decide ((1 / 2 : ℚ) < 0))) _ at hw
      rw [if_neg (by norm_num)] at hw
      change ieee 11 52 _ = _ at hw
      rw [hz] at hw; cases hw
    | nan =>
      rw [hx] at hw
      have := hw.1
      rw [hz] at this; cases this

/-- `2^127` squared in `binary16alt_emu` is beyond `float`; there `2^-130` counts as 0, so `1 / 2^-130` is infinity -/
example : ((ieee 8 7 0x7f00).flush 8).times ((ieee 8 7 0x7f00).flush 8) = .num (2 ^ 254) ∧ maxFin 8 23 < |(2 : ℚ) ^ 254| ∧
    (ieee 8 7 8) = .num (1 / 2 ^ 130) ∧ (XNum.num 1).over ((ieee 8 7 8).flush 8) = .inf false := by
  norm_num [ieee, XNum.flush, XNum.times, XNum.over, minNorm, maxFin, abs_of_pos]

/-! ## comparisons -/

theorem xLt_iff (X Y : XNum) : AnyFloat.xLt X Y = true ↔ X.Below Y := by
  cases X <;> cases Y <;> simp [AnyFloat.xLt, XNum.Below]

theorem xEq_iff (X Y : XNum) : AnyFloat.xEq X Y = true ↔ X.Same Y := by
  cases X <;> cases Y <;> simp [AnyFloat.xEq, XNum.Same]

theorem bool_decide {p : Prop} [Decidable p] {b : Bool} (h : b = true ↔ p) : b = decide p := by
  rw [Bool.eq_iff_iff, h, decide_eq_true_eq]

theorem cmp_flush (h : EmuFor eb fb neb nfb) (R : XNum → XNum → Bool) (a b : ℕ) :
    AnyFloat.cmp (fun x y => R (ieee neb nfb x) (ieee neb nfb y)) (.any eb fb) (.any neb nfb) a b =
      .ok (R ((ieee eb fb a).flush neb) ((ieee eb fb b).flush neb)) := by
  obtain ⟨p, hp, -, hp', -⟩ := C99_toNative h a
  obtain ⟨q, hq, -, hq', -⟩ := C99_toNative h b
  unfold AnyFloat.cmp
  rw [bind_ok _ hp, bind_ok _ hq, ← hp', ← hq']; rfl

open Classical in
/-- **C99**: the comparisons of all patterns are those of the numbers, except that numbers below the native normal range count
as zero; NaN is unequal to everything and not ordered. -/
theorem C99_cmp (h : EmuFor eb fb neb nfb) (a b : ℕ) :
    let X := (ieee eb fb a).flush neb
    let Y := (ieee eb fb b).flush neb
    AnyFloat.eq (.any eb fb) (.any neb nfb) a b = .ok (decide (X.Same Y)) ∧
    AnyFloat.ne (.any eb fb) (.any neb nfb) a b = .ok (decide (¬ X.Same Y)) ∧
    AnyFloat.lt (.any eb fb) (.any neb nfb) a b = .ok (decide (X.Below Y)) ∧
    AnyFloat.le (.any eb fb) (.any neb nfb) a b = .ok (decide (X.Below Y ∨ X.Same Y)) ∧
    AnyFloat.gt (.any eb fb) (.any neb nfb) a b = .ok (decide (Y.Below X)) ∧
    AnyFloat.ge (.any eb fb) (.any neb nfb) a b = .ok (decide (Y.Below X ∨ X.Same Y)) := by
  intro X Y
  refine ⟨(cmp_flush h AnyFloat.xEq a b).trans ?_, (cmp_flush h (fun x y => !AnyFloat.xEq x y) a b).trans ?_,
    (cmp_flush h AnyFloat.xLt a b).trans ?_, (cmp_flush h (fun x y => AnyFloat.xLt x y || AnyFloat.xEq x y) a b).trans ?_,
    (cmp_flush h (fun x y => AnyFloat.xLt y x) a b).trans ?_,
    (cmp_flush h (fun x y => AnyFloat.xLt y x || AnyFloat.xEq x y) a b).trans ?_⟩ <;> refine congrArg _ (bool_decide ?_)
  · exact xEq_iff _ _
  · rw [Bool.not_eq_true', Bool.eq_false_iff, ne_eq, xEq_iff]
  · exact xLt_iff _ _
  · rw [Bool.or_eq_true, xLt_iff, xEq_iff]
  · exact xLt_iff _ _
  · rw [Bool.or_eq_true, xLt_iff, xEq_iff]

/-- the subnormal numbers 1 and 2 of `binary32_emu` compare as equal -/
example : ieee 8 23 1 ≠ ieee 8 23 2 ∧ AnyFloat.eq (.any 8 23) (.any 8 23) 1 2 = .ok true := by
  have h := (C99_cmp (by constructor <;> omega : EmuFor 8 23 8 23) 1 2).1
  refine ⟨by norm_num [ieee], ?_⟩
  rw [h, show (ieee 8 23 1).flush 8 = .num 0 by norm_num [ieee, XNum.flush, minNorm],
    show (ieee 8 23 2).flush 8 = .num 0 by norm_num [ieee, XNum.flush, minNorm]]
  simp [XNum.Same]

/-- **C99**: `std::min` and `std::max` of all patterns: the second operand unless the first one is not above (not below) it. -/
theorem C99_min_max (h : EmuFor eb fb neb nfb) (a b : ℕ) :
    let X := (ieee eb fb a).flush neb
    let Y := (ieee eb fb b).flush neb
    (X.Below Y ∨ X.Same Y → AnyFloat.min2 (.any eb fb) (.any neb nfb) a b = .ok a) ∧
    (¬ (X.Below Y ∨ X.Same Y) → AnyFloat.min2 (.any eb fb) (.any neb nfb) a b = .ok b) ∧
    (Y.Below X ∨ X.Same Y → AnyFloat.max2 (.any eb fb) (.any neb nfb) a b = .ok a) ∧
    (¬ (Y.Below X ∨ X.Same Y) → AnyFloat.max2 (.any eb fb) (.any neb nfb) a b = .ok b) := by
  intro X Y
  obtain ⟨-, -, -, h4, -, h6⟩ := C99_cmp h a b
  unfold AnyFloat.min2 AnyFloat.max2
  rw [bind_ok _ h4, bind_ok _ h6]
  refine ⟨fun hc => ?_, fun hc => ?_, fun hc => ?_, fun hc => ?_⟩
  · rw [if_pos (by simpa using hc)]; rfl
  · rw [if_neg (by simpa using hc)]; rfl
  · rw [if_pos (by simpa using hc)]; rfl
  · rw [if_neg (by simpa using hc)]; rfl

/-- NaN as one operand of `std::min` gives the other only if it comes first; subnormal `binary32_emu` numbers are equal -/
example : AnyFloat.min2 (.any 5 2) (.any 8 23) 0x7e 0x3c = .ok 0x3c ∧ AnyFloat.min2 (.any 5 2) (.any 8 23) 0x3c 0x7e = .ok 0x7e ∧
    AnyFloat.max2 (.any 8 23) (.any 8 23) 1 2 = .ok 1 ∧ ieee 5 2 0x7e = .nan := by
  have hb : EmuFor 5 2 8 23 := by constructor <;> omega
  have hc : EmuFor 8 23 8 23 := by constructor <;> omega
  have n1 : ieee 5 2 0x7e = .nan := by norm_num [ieee]
  have n2 : (ieee 8 23 1).flush 8 = .num 0 := by norm_num [ieee, XNum.flush, minNorm]
  have n3 : (ieee 8 23 2).flush 8 = .num 0 := by norm_num [ieee, XNum.flush, minNorm]
  refine ⟨(C99_min_max hb _ _).2.1 ?_, (C99_min_max hb _ _).2.1 ?_, (C99_min_max hc _ _).2.2.1 ?_, n1⟩
  · rw [n1]; simp [XNum.flush, XNum.Below, XNum.Same]
  · rw [n1]; cases (ieee 5 2 0x3c).flush 8 <;> simp [XNum.flush, XNum.Below, XNum.Same]
  · rw [n2, n3]; simp [XNum.Below, XNum.Same]

/-! ## integers -/

/-- **C99**: conversion of every pattern to `int`. Infinities and NaN give 0; `1 ≤ |x| < 2` and `-2^31` (with any fraction) are
undefined; from `2^32` on the result saturates, between `2^31` and `2^32` it wraps. -/
theorem C99_toInt (h : EmuFor eb fb neb nfb) (v : ℕ) :
    AnyFloat.toInt (.any eb fb) v = match ieee eb fb v with
      | .num x =>
        if 2 ^ 32 ≤ |x| then .ok (if x < 0 then -2 ^ 31 else 2 ^ 31 - 1)
        else if 1 ≤ |x| ∧ |x| < 2 then .error .shiftAmount
        else if truncZ x = -2 ^ 31 then .error .overflow
        else .ok ((truncZ x).bmod (2 ^ 32))
      | _ => .ok 0 := by
  obtain ⟨q1, q2, q3, q4, q5, q6, q7⟩ := h
  have special : fExp eb fb v = 2 ^ eb - 1 → AnyFloat.toInt (.any eb fb) v = .ok 0 := by
    intro hs
    obtain ⟨e, hu⟩ := unpackFloat_special (F := eb + fb + 1) (E := 32) (dn := true) q1 q4 (by omega) (by omega) hs
    unfold AnyFloat.toInt
    refine (bind_ok _ hu).trans (C95_pack_special _ ?_)
    dsimp only
    split_ifs <;> simp
  cases hx : ieee eb fb v with
  | num x =>
    unfold AnyFloat.toInt
    rcases unpack_num (F := eb + fb + 1) q1 (by omega) q4 (by omega) (by omega) hx (Or.inr (Or.inr (by omega))) with
      ⟨rfl, e, f, hu⟩ | ⟨-, s, e, f, hu, k2, k3, k4, k5, k6, k7⟩
    · refine (bind_ok _ hu).trans ((C95_pack_special _ (by simp)).trans ?_)
      have t0 : truncZ 0 = 0 := by decide +kernel
      dsimp only
      rw [if_neg (by norm_num), if_neg (by norm_num), t0, if_neg (by norm_num)]
      rfl
    · refine (bind_ok _ hu).trans ?_
      have hv : x = tripleVal (eb + fb + 1) s e f * 2 ^ 0 := by
        have h7 := k7 (by omega)
        have : tripleVal (eb + fb + 1) s e f = (if s then -1 else 1 : ℚ) * mag (eb + fb + 1) e f := by unfold tripleVal mag; ring
        rw [this, h7, pow_zero, mul_one]
        cases s
        · simp at k4 ⊢; rw [abs_of_pos k4]
        · simp at k4 ⊢; rw [abs_of_neg k4]; ring
      refine (C95_pack (N := 32) (q := 0) (by simp) (by omega) k2 hv).trans ?_
      simp
  | inf s =>
    refine special ?_
    rw [ieee_eq] at hx
    by_contra hc
    rw [if_neg hc] at hx
    split_ifs at hx
  | nan =>
    refine special ?_
    rw [ieee_eq] at hx
    by_contra hc
    rw [if_neg hc] at hx
    split_ifs at hx

/-- infinity of `binary16_emu` to `int`; `2^31` and `3*2^30` of `binary32_emu` wrap -/
example : AnyFloat.toInt (.any 5 10) 0x7c00 = .ok 0 ∧ AnyFloat.toInt (.any 8 23) 0x4f000000 = .ok (-2 ^ 31) ∧
    AnyFloat.toInt (.any 8 23) 0x4f400000 = .ok (-2 ^ 30) ∧ AnyFloat.toInt (.any 8 23) 0xcf000000 = .error .overflow := by decide +kernel

end Verif
