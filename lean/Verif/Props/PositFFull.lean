import Verif.Props.ExtConvert
import Verif.Props.Extended
import Verif.Props.EmuFull
import Verif.Props.PositFMore
import Verif.Spec.PositFloat

/-!
# C100: complete outcome of float-backed posits on every pattern

include/positf.h. C54 states where the operations of `PositF` are faithful or truncate; here is what they compute on all
canonical patterns, formats wider than the native type and the special values included.
-/

namespace Verif
open Fmt

variable {c : Cfg} {eb fb : ℕ} {o : FloatOps}

/-- the instantiations covered: `float` with a 32-bit or `double` with a 64-bit fraction type (positf.h:25-27), an exponent type
in which the exponents of the posit can be biased for the native type -/
structure NativeFor (c : Cfg) (eb fb : ℕ) : Prop where
  tr : (eb = 8 ∧ fb = 23 ∧ c.F = 32) ∨ (eb = 11 ∧ fb = 52 ∧ c.F = 64)
  wf : c.WF
  hE : 16 ≤ c.E
  hF : c.fb ≤ c.F
  range : c.maxScale + 2 ^ (eb - 1) ≤ 2 ^ (c.E - 1)

/-- `PositF<int32_t,28,5,float>`, whose numbers exceed the range of `float` -/
theorem nativeFor_P28 : NativeFor ⟨32, 28, 5, 32, .withNan⟩ 8 23 :=
  ⟨Or.inl ⟨rfl, rfl, rfl⟩, by decide, by decide, by decide, by decide⟩

/-- `PositF<int16_t,16,2,double>` with infinity -/
theorem nativeFor_P16 : NativeFor ⟨16, 16, 2, 64, .withInf⟩ 11 52 :=
  ⟨Or.inr ⟨rfl, rfl, rfl⟩, by decide, by decide, by decide, by decide⟩

theorem NativeFor.bits (h : NativeFor c eb fb) : 2 ≤ eb ∧ eb ≤ 11 ∧ 1 ≤ fb ∧ fb ≤ 52 ∧ fb < c.F := by
  have := h.tr; omega

/-- every pattern read as a float -/
theorem NativeFor.read (h : NativeFor c eb fb) {v : ℤ} (hv : c.fmt.IsCanonical v) :
    ∃ b, Posit.toFloat c (.any eb fb) v = .ok b ∧ FloatOf eb fb (c.ext v) (ieee eb fb b) ∧ (ieee eb fb b = .num 0 → b = 0) := by
  obtain ⟨k1, k2, k3, k4, k5⟩ := h.bits
  have hE := h.hE
  have hle : c.E ≤ max c.E (Unp.leastBits eb) := le_max_left _ _
  obtain ⟨b, hb, hm⟩ := C89_toFloat (eb := eb) (fb := fb) h.wf h.hF k1 (by omega) k3 (by omega)
    (h.range.trans (Nat.pow_le_pow_right (by norm_num) (by omega))) hv
  refine ⟨b, hb, ?_⟩
  cases hx : c.ext v with
  | num x =>
    rw [hx] at hm
    obtain ⟨-, hc, h0⟩ := hm
    refine ⟨⟨b, hc, rfl⟩, fun hz => ?_⟩
    by_cases hs : |x| < minNorm eb
    · exact h0 hs
    · obtain ⟨y, hy, -, h5⟩ := hc
      rw [hz] at hy; cases hy
      have := (h5 (not_lt.mp hs)).1
      simp at this
  | inf s =>
    rw [hx] at hm
    exact ⟨hm, fun hz => by rw [hz] at hm; cases hm⟩
  | nan =>
    rw [hx] at hm
    exact ⟨hm, fun hz => by rw [hz] at hm; cases hm⟩

/-- every native result read back -/
theorem NativeFor.back (h : NativeFor c eb fb) (w : ℕ) :
    EV.Outcome c (ieee eb fb w).toEV (Posit.ofFloat c (.any eb fb) w) := by
  obtain ⟨k1, k2, k3, k4, k5⟩ := h.bits
  have hE := h.hE
  have hp : 2 ^ (eb - 1) + fb ≤ 2 ^ (c.E - 1) := by
    have h1 : 2 ^ (eb - 1) ≤ 2 ^ 10 := Nat.pow_le_pow_right (by norm_num) (by omega)
    have h2 : 2 ^ 15 ≤ 2 ^ (c.E - 1) := Nat.pow_le_pow_right (by norm_num) (by omega)
    norm_num at h1 h2
    omega
  have hm := C89_ofFloat (eb := eb) (fb := fb) h.wf k1 (by omega) k3 h.hF (by omega) hp w
  cases hx : ieee eb fb w with
  | num x =>
    rw [hx] at hm
    -- the subnormal numbers of the native type are whole multiples of the unit of the fraction type, and at least two of them
    have hread : readSub eb c.F x = x ∧ (|x| < minNorm eb → |x| ≠ subUnit eb c.F) := by
      unfold readSub
      by_cases hs : |x| < minNorm eb
      · obtain ⟨n, A, -, hA, hA1, -⟩ := ieee_int hx
        have hk : ∃ k : ℕ, A = (2 : ℤ) - 2 ^ (eb - 1) - c.F + (1 + k : ℕ) := by
          refine ⟨(A - ((2 : ℤ) - 2 ^ (eb - 1) - c.F) - 1).toNat, ?_⟩
          push_cast
          rw [Int.toNat_of_nonneg (by omega)]; ring
        obtain ⟨k, hk⟩ := hk
        have hu : (0 : ℚ) < subUnit eb c.F := by unfold subUnit; positivity
        have hxu : x = ((n * 2 ^ (1 + k) : ℤ) : ℚ) * subUnit eb c.F := by
          rw [hA, hk, zpow_add₀ (by norm_num), zpow_natCast]
          unfold subUnit
          push_cast
          ring
        refine ⟨?_, fun _ hc => ?_⟩
        · rw [if_pos hs]
          refine cutTo_multiple hu (n := (n * 2 ^ (1 + k)).natAbs) ?_
          nth_rewrite 1 [hxu]
          rw [abs_mul, abs_of_pos hu, Nat.cast_natAbs, Int.cast_abs]
        · rw [hxu, abs_mul, abs_of_pos hu, ← Int.cast_abs] at hc
          have h1 : ((|n * 2 ^ (1 + k)| : ℤ) : ℚ) = 1 := by
            have := mul_right_cancel₀ hu.ne' (hc.trans (one_mul _).symm)
            exact_mod_cast this
          have h2 : |n * 2 ^ (1 + k)| = 1 := by exact_mod_cast h1
          rw [abs_mul, abs_of_pos (by positivity : (0 : ℤ) < 2 ^ (1 + k)), pow_add, pow_one] at h2
          have : (2 : ℤ) ∣ 1 := ⟨|n| * 2 ^ k, by rw [← h2]; ring⟩
          norm_num at this
      · exact ⟨if_neg hs, fun hc => absurd hc hs⟩
    dsimp only at hm
    rw [hread.1] at hm
    exact hm.2 fun hc => hread.2 hc.1 hc.2.2
  | inf s => rw [hx] at hm; exact hm
  | nan =>
    rw [hx] at hm
    dsimp only at hm
    rwa [if_neg (by omega)] at hm

/-! ## arithmetic -/

/-- **C100**: products of all patterns: the operands are cut down to floats, multiplied there, and the result is rounded. -/
theorem C100_mul (h : NativeFor c eb fb) (ho : o.Ieee eb fb) {a b : ℤ} (ha : c.fmt.IsCanonical a) (hb : c.fmt.IsCanonical b) :
    ∃ X Y w, FloatOf eb fb (c.ext a) X ∧ FloatOf eb fb (c.ext b) Y ∧ RoundsTo eb fb (X.times Y) w ∧
      EV.Outcome c (ieee eb fb w).toEV (PositF.mul c (.any eb fb) o a b) := by
  obtain ⟨p, hp, hp', -⟩ := h.read ha
  obtain ⟨q, hq, hq', -⟩ := h.read hb
  refine ⟨_, _, o.mul p q, hp', hq', ho.mul p q, ?_⟩
  unfold PositF.mul
  rw [bind_ok _ hp, bind_ok _ hq]
  exact h.back _

/-- infinity times 327/128 -/
example (ho : o.Ieee 11 52) : ∃ X Y w, FloatOf 11 52 (.inf true) X ∧ FloatOf 11 52 (.num (327 / 128)) Y ∧ RoundsTo 11 52 (X.times Y) w ∧
    EV.Outcome ⟨16, 16, 2, 64, .withInf⟩ (ieee 11 52 w).toEV (PositF.mul ⟨16, 16, 2, 64, .withInf⟩ (.any 11 52) o (-2 ^ 15) 19000) := by
  have h := C100_mul nativeFor_P16 ho (a := -2 ^ 15) (b := 19000) (by decide) (by decide)
  rwa [show (⟨16, 16, 2, 64, .withInf⟩ : Cfg).ext (-2 ^ 15) = .inf true by decide +kernel,
    show (⟨16, 16, 2, 64, .withInf⟩ : Cfg).ext 19000 = .num (327 / 128) by decide +kernel] at h

/-- **C100**: sums of all patterns; zero leaves the other operand as it is. -/
theorem C100_add (h : NativeFor c eb fb) (ho : o.Ieee eb fb) {a b : ℤ} (ha : c.fmt.IsCanonical a) (hb : c.fmt.IsCanonical b) :
    (a = 0 → PositF.add c (.any eb fb) o a b = .ok b) ∧ (b = 0 → PositF.add c (.any eb fb) o a b = .ok a) ∧
    (a ≠ 0 → b ≠ 0 → ∃ X Y w, FloatOf eb fb (c.ext a) X ∧ FloatOf eb fb (c.ext b) Y ∧ RoundsTo eb fb (X.plus Y) w ∧
      EV.Outcome c (ieee eb fb w).toEV (PositF.add c (.any eb fb) o a b)) := by
  unfold PositF.add
  refine ⟨fun h0 => if_pos h0, fun h0 => ?_, fun ha0 hb0 => ?_⟩
  · split_ifs with h1
    · rw [h0, h1]
    · rfl
  · obtain ⟨p, hp, hp', -⟩ := h.read ha
    obtain ⟨q, hq, hq', -⟩ := h.read hb
    refine ⟨_, _, o.add p q, hp', hq', ho.add p q, ?_⟩
    rw [if_neg ha0, if_neg hb0, bind_ok _ hp, bind_ok _ hq]
    exact h.back _

/-- NaN plus 1 in a format wider than `float` -/
example (ho : o.Ieee 8 23) : ∃ X Y w, FloatOf 8 23 .nan X ∧ FloatOf 8 23 (.num 1) Y ∧ RoundsTo 8 23 (X.plus Y) w ∧
    EV.Outcome ⟨32, 28, 5, 32, .withNan⟩ (ieee 8 23 w).toEV (PositF.add ⟨32, 28, 5, 32, .withNan⟩ (.any 8 23) o (-2 ^ 27) (2 ^ 26)) := by
  have h := (C100_add nativeFor_P28 ho (a := -2 ^ 27) (b := 2 ^ 26) (by decide) (by decide)).2.2 (by norm_num) (by norm_num)
  rwa [show (⟨32, 28, 5, 32, .withNan⟩ : Cfg).ext (-2 ^ 27) = .nan by decide +kernel,
    show (⟨32, 28, 5, 32, .withNan⟩ : Cfg).ext (2 ^ 26) = .num 1 by decide +kernel] at h

/-- **C100**: quotients of all patterns; a zero divisor, and one that counts as zero, is +0. -/
theorem C100_div (h : NativeFor c eb fb) (ho : o.Ieee eb fb) {a b : ℤ} (ha : c.fmt.IsCanonical a) (hb : c.fmt.IsCanonical b) :
    ∃ X Y w, FloatOf eb fb (c.ext a) X ∧ FloatOf eb fb (c.ext b) Y ∧ RoundsTo eb fb (X.over Y) w ∧
      EV.Outcome c (ieee eb fb w).toEV (PositF.div c (.any eb fb) o a b) := by
  obtain ⟨p, hp, hp', -⟩ := h.read ha
  obtain ⟨q, hq, hq', hq0⟩ := h.read hb
  refine ⟨_, _, o.div p q, hp', hq', ho.div p q hq0, ?_⟩
  unfold PositF.div
  rw [bind_ok _ hp, bind_ok _ hq]
  exact h.back _

/-- 327/128 by 0 -/
example (ho : o.Ieee 11 52) : ∃ X Y w, FloatOf 11 52 (.num (327 / 128)) X ∧ FloatOf 11 52 (.num 0) Y ∧ RoundsTo 11 52 (X.over Y) w ∧
    EV.Outcome ⟨16, 16, 2, 64, .withInf⟩ (ieee 11 52 w).toEV (PositF.div ⟨16, 16, 2, 64, .withInf⟩ (.any 11 52) o 19000 0) := by
  have h := C100_div nativeFor_P16 ho (a := 19000) (b := 0) (by decide) (by decide)
  rwa [show (⟨16, 16, 2, 64, .withInf⟩ : Cfg).ext 0 = .num 0 by decide +kernel,
    show (⟨16, 16, 2, 64, .withInf⟩ : Cfg).ext 19000 = .num (327 / 128) by decide +kernel] at h

/-- **C100**: reciprocals of all patterns. -/
theorem C100_inv (h : NativeFor c eb fb) (ho : o.Ieee eb fb) {a : ℤ} (ha : c.fmt.IsCanonical a) :
    ∃ X w, FloatOf eb fb (c.ext a) X ∧ RoundsTo eb fb ((XNum.num 1).over X) w ∧
      EV.Outcome c (ieee eb fb w).toEV (PositF.inv c (.any eb fb) o a) := by
  obtain ⟨k1, k2, k3, -⟩ := h.bits
  obtain ⟨p, hp, hp', hp0⟩ := h.read ha
  obtain ⟨h1, _⟩ := C51_constants (eb := eb) (fb := fb) (dn := true) k1 k3
  refine ⟨_, o.div (FTrait.any eb fb).one p, hp', ?_, ?_⟩
  · rw [← h1]; exact ho.div _ p hp0
  · unfold PositF.inv
    rw [bind_ok _ hp]
    exact h.back _

/-- of infinity -/
example (ho : o.Ieee 11 52) : ∃ X w, FloatOf 11 52 (.inf true) X ∧ RoundsTo 11 52 ((XNum.num 1).over X) w ∧
    EV.Outcome ⟨16, 16, 2, 64, .withInf⟩ (ieee 11 52 w).toEV (PositF.inv ⟨16, 16, 2, 64, .withInf⟩ (.any 11 52) o (-2 ^ 15)) := by
  have h := C100_inv nativeFor_P16 ho (a := -2 ^ 15) (by decide)
  rwa [show (⟨16, 16, 2, 64, .withInf⟩ : Cfg).ext (-2 ^ 15) = .inf true by decide +kernel] at h

/-- **C100**: doubles of all patterns. -/
theorem C100_twice (h : NativeFor c eb fb) (ho : o.Ieee eb fb) {a : ℤ} (ha : c.fmt.IsCanonical a) :
    ∃ X w, FloatOf eb fb (c.ext a) X ∧ RoundsTo eb fb ((XNum.num 2).times X) w ∧
      EV.Outcome c (ieee eb fb w).toEV (PositF.twice c (.any eb fb) o a) := by
  obtain ⟨k1, k2, k3, -⟩ := h.bits
  obtain ⟨p, hp, hp', -⟩ := h.read ha
  obtain ⟨-, h2, _⟩ := C51_constants (eb := eb) (fb := fb) (dn := true) k1 k3
  refine ⟨_, o.mul (FTrait.any eb fb).two p, hp', ?_, ?_⟩
  · rw [← h2]; exact ho.mul _ p
  · unfold PositF.twice
    rw [bind_ok _ hp]
    exact h.back _

example (ho : o.Ieee 11 52) : ∃ X w, FloatOf 11 52 (.num (327 / 128)) X ∧ RoundsTo 11 52 ((XNum.num 2).times X) w ∧
    EV.Outcome ⟨16, 16, 2, 64, .withInf⟩ (ieee 11 52 w).toEV (PositF.twice ⟨16, 16, 2, 64, .withInf⟩ (.any 11 52) o 19000) := by
  have h := C100_twice nativeFor_P16 ho (a := 19000) (by decide)
  rwa [show (⟨16, 16, 2, 64, .withInf⟩ : Cfg).ext 19000 = .num (327 / 128) by decide +kernel] at h

/-- **C100**: differences: `a + (-b)` for every pattern `b` but `100…0` (NaN, or the single infinity). For that pattern the
difference is `a + b` in a format that fills an 8 or 16-bit integer and undefined in the others, except that `0 - b` is a
pattern outside of the format if that is narrower than its integer. -/
theorem C100_sub (h : NativeFor c eb fb) (ho : o.Ieee eb fb) {a b : ℤ} (ha : c.fmt.IsCanonical a) (hb : c.fmt.IsCanonical b) :
    (b ≠ c.topPat → a = 0 → PositF.sub c (.any eb fb) o a b = .ok (-b)) ∧
    (b = 0 → PositF.sub c (.any eb fb) o a b = .ok a) ∧
    (b ≠ c.topPat → a ≠ 0 → b ≠ 0 → ∃ X Y w, FloatOf eb fb (c.ext a) X ∧ FloatOf eb fb (c.ext b).neg Y ∧
      RoundsTo eb fb (X.plus Y) w ∧ EV.Outcome c (ieee eb fb w).toEV (PositF.sub c (.any eb fb) o a b)) ∧
    (b = c.topPat → c.N = c.H → c.H < 32 → PositF.sub c (.any eb fb) o a b = PositF.add c (.any eb fb) o a b) ∧
    (b = c.topPat → c.N = c.H → 32 ≤ c.H → PositF.sub c (.any eb fb) o a b = .error .overflow) ∧
    (b = c.topPat → c.N < c.H → a = 0 → PositF.sub c (.any eb fb) o a b = .ok (2 ^ (c.N - 1))) ∧
    (b = c.topPat → c.N < c.H → a ≠ 0 → PositF.sub c (.any eb fb) o a b = .error .shiftValue) := by
  obtain ⟨n1, n2, n3⟩ := C06_neg_nan h.wf
  have hg := h.wf.pow_ge
  have hsub : ∀ {w}, Posit.neg c b = .ok w → PositF.sub c (.any eb fb) o a b = PositF.add c (.any eb fb) o a w := by
    intro w hw; unfold PositF.sub; rw [hw]; rfl
  refine ⟨fun hn h0 => ?_, fun h0 => ?_, fun hn ha0 hb0 => ?_, fun ht he hl => ?_, fun ht he hl => ?_, fun ht hl h0 => ?_,
    fun ht hl h0 => ?_⟩
  · obtain ⟨k1, k2, k3⟩ := C88_neg h.wf hb hn
    rw [hsub k1]; exact (C100_add h ho ha k2).1 h0
  · obtain ⟨k1, k2, k3⟩ := C88_neg h.wf hb (by unfold Cfg.topPat; omega)
    rw [hsub k1]; exact (C100_add h ho ha k2).2.1 (by omega)
  · obtain ⟨k1, k2, k3⟩ := C88_neg h.wf hb hn
    rw [hsub k1, ← k3]
    exact (C100_add h ho ha k2).2.2 ha0 (by omega)
  · exact hsub (by rw [ht]; exact n1 he hl)
  · unfold PositF.sub
    rw [ht, Cfg.topPat, n2 he hl]; rfl
  · rw [hsub (w := 2 ^ (c.N - 1)) (by rw [ht]; exact (n3 hl).1)]
    exact if_pos h0
  · rw [hsub (w := 2 ^ (c.N - 1)) (by rw [ht]; exact (n3 hl).1)]
    obtain ⟨p, hp, -, -⟩ := h.read ha
    unfold PositF.add
    rw [if_neg h0, if_neg (by omega), bind_ok _ hp]
    unfold Posit.toFloat
    rw [unpack_above h.wf hl]
    rfl

/-- infinity minus infinity is computed as a sum; in a format that does not fill its integer, minus NaN is undefined -/
example (ho : o.Ieee 11 52) {o' : FloatOps} (ho' : o'.Ieee 8 23) :
    PositF.sub ⟨16, 16, 2, 64, .withInf⟩ (.any 11 52) o (-2 ^ 15) (-2 ^ 15) =
      PositF.add ⟨16, 16, 2, 64, .withInf⟩ (.any 11 52) o (-2 ^ 15) (-2 ^ 15) ∧
    PositF.sub ⟨32, 28, 5, 32, .withNan⟩ (.any 8 23) o' 1 (-2 ^ 27) = .error .shiftValue :=
  ⟨(C100_sub nativeFor_P16 ho (by decide) (by decide)).2.2.2.1 (by decide) rfl (by decide),
    (C100_sub nativeFor_P28 ho' (by decide) (by decide)).2.2.2.2.2.2 (by decide) (by decide) (by decide)⟩

/-- **C100**: halves of all patterns, computed in `double`. -/
theorem C100_half {od : FloatOps} {d : DoubleConv} (h : NativeFor c eb fb) (ho : od.Ieee 11 52) (hd : d.Correct eb fb) {a : ℤ}
    (ha : c.fmt.IsCanonical a) :
    ∃ X w, FloatOf eb fb (c.ext a) X ∧ RoundsTo 11 52 ((XNum.num (1 / 2)).times X) w ∧
      EV.Outcome c (ieee 11 52 w).toEV (PositF.half c (.any eb fb) od d a) := by
  obtain ⟨k1, k2, k3, k4, k5⟩ := h.bits
  obtain ⟨p, hp, hp', -⟩ := h.read ha
  have hhalf : ieee 11 52 0x3fe0000000000000 = .num (1 / 2) := by norm_num [ieee]
  have hw := ho.mul 0x3fe0000000000000 (d.widen p)
  rw [hhalf, hd.widen] at hw
  refine ⟨_, _, hp', hw, ?_⟩
  unfold PositF.half
  rw [bind_ok _ hp]
  have htr := h.tr
  rcases htr with ⟨rfl, rfl, hF⟩ | ⟨rfl, rfl, hF⟩
  · -- a 32-bit fraction type: the result is zero, a normal `double`, or special
    have hE := h.hE
    have hpow : 2 ^ (11 - 1) + 52 ≤ 2 ^ (c.E - 1) := by
      have h2 : 2 ^ 15 ≤ 2 ^ (c.E - 1) := Nat.pow_le_pow_right (by norm_num) (by omega)
      norm_num at h2 ⊢
      omega
    have hm := C89_ofFloat (eb := 11) (fb := 52) h.wf (by norm_num) (by norm_num) (by norm_num) h.hF (by omega) hpow
      (od.mul 0x3fe0000000000000 (d.widen p))
    show EV.Outcome c _ (Posit.ofFloat c (.any 11 52) _)
    cases hx : ieee 11 52 (od.mul 0x3fe0000000000000 (d.widen p)) with
    | num z =>
      rw [hx] at hm
      dsimp only at hm
      have hz : z = 0 ∨ minNorm 11 ≤ |z| := by
        cases hy : ieee 8 23 p with
        | num x =>
          rw [hy] at hw
          rcases hw with hw | ⟨-, hw⟩
          · by_cases h0 : x = 0
            · left
              have := hw.exact ⟨0, by rw [h0]; norm_num [ieee]⟩
              rw [hx, h0] at this
              simpa using XNum.num.inj this
            · right
              obtain ⟨_, _, hmin, _⟩ := C51_constants (eb := 11) (fb := 52) (dn := true) (by norm_num) (by norm_num)
              refine (hw.abs_le hx minNorm_pos.le ⟨_, hmin⟩).2 ?_
              obtain ⟨hb, -⟩ := ieee_bounds (by norm_num) hy h0
              rw [abs_mul, abs_of_pos (by norm_num : (0 : ℚ) < 1 / 2)]
              refine le_trans ?_ (mul_le_mul_of_nonneg_left hb (by norm_num))
              unfold minNorm
              rw [show (1 / 2 : ℚ) = 2 ^ (-1 : ℤ) by norm_num, ← zpow_add₀ (by norm_num)]
              apply zpow_le_zpow_right₀ (by norm_num)
              norm_num
          · rw [hx] at hw; cases hw
        | inf s =>
          rw [hy] at hw
          change RoundsTo 11 52 (if (1 / 2 : ℚ) = 0 then XNum.nan else XNum.inf (s ^^ decide ((1 / 2 : ℚ) < 0))) _ at hw
          rw [if_neg (by norm_num)] at hw
          change ieee 11 52 _ = _ at hw
          rw [hx] at hw; cases hw
        | nan =>
          rw [hy] at hw
          have := hw.1
          rw [hx] at this; cases this
      have hread : readSub 11 c.F z = z := by
        unfold readSub
        rcases hz with rfl | hz
        · rw [cutTo_zero, ite_self]
        · exact if_neg (not_lt.mpr hz)
      rw [hread] at hm
      refine hm.2 fun hc => ?_
      rcases hz with rfl | hz
      · have := hc.2.2
        rw [abs_zero] at this
        have h2 : (0 : ℚ) < subUnit 11 c.F := by unfold subUnit; positivity
        linarith
      · exact absurd hc.1 (not_lt.mpr hz)
    | inf s => rw [hx] at hm; exact hm
    | nan =>
      rw [hx] at hm
      dsimp only at hm
      rw [if_neg] at hm
      · exact hm
      · rintro ⟨-, hlt⟩
        have hq : 2 ^ 51 ≤ fMan 52 (od.mul 0x3fe0000000000000 (d.widen p)) := by
          cases hy : ieee 8 23 p with
          | num x =>
            rw [hy] at hw
            rcases hw with ⟨y, hw, -⟩ | ⟨-, hw⟩ <;> rw [hx] at hw <;> cases hw
          | inf s =>
            rw [hy] at hw
            change RoundsTo 11 52 (if (1 / 2 : ℚ) = 0 then XNum.nan else XNum.inf (s ^^ decide ((1 / 2 : ℚ) < 0))) _ at hw
            rw [if_neg (by norm_num)] at hw
            change ieee 11 52 _ = _ at hw
            rw [hx] at hw; cases hw
          | nan =>
            rw [hy] at hw
            exact hw.2
        rw [hF] at hlt
        norm_num at hlt hq
        omega
  · exact h.back _

example {od : FloatOps} {d : DoubleConv} (ho : od.Ieee 11 52) (hd : d.Correct 11 52) : ∃ X w, FloatOf 11 52 (.num (327 / 128)) X ∧
    RoundsTo 11 52 ((XNum.num (1 / 2)).times X) w ∧
    EV.Outcome ⟨16, 16, 2, 64, .withInf⟩ (ieee 11 52 w).toEV (PositF.half ⟨16, 16, 2, 64, .withInf⟩ (.any 11 52) od d 19000) := by
  have h := C100_half nativeFor_P16 ho hd (a := 19000) (by decide)
  rwa [show (⟨16, 16, 2, 64, .withInf⟩ : Cfg).ext 19000 = .num (327 / 128) by decide +kernel] at h

/-- **C100**: every `int`, the least one included, has the outcome of rounding the number. -/
theorem C100_ofInt {d : DoubleConv} (h : NativeFor c eb fb) (hd : d.Correct eb fb) {i : ℤ} (h1 : -2 ^ 31 ≤ i) (h2 : i < 2 ^ 31) :
    EV.Outcome c (.num i) (PositF.ofInt c d i) := by
  have hE := h.hE
  have hpow : 2 ^ (11 - 1) + 52 ≤ 2 ^ (c.E - 1) := by
    have h2 : 2 ^ 15 ≤ 2 ^ (c.E - 1) := Nat.pow_le_pow_right (by norm_num) (by omega)
    norm_num at h2 ⊢
    omega
  have hm := C89_ofFloat (eb := 11) (fb := 52) h.wf (by norm_num) (by norm_num) (by norm_num) h.hF (by omega) hpow (d.ofInt i)
  rw [hd.ofInt i h1 h2] at hm
  dsimp only at hm
  show EV.Outcome c _ (Posit.ofFloat c (.any 11 52) _)
  have hz : (i : ℚ) = 0 ∨ minNorm 11 ≤ |(i : ℚ)| := by
    by_cases h0 : i = 0
    · left; rw [h0]; rfl
    · right
      have : (1 : ℚ) ≤ |(i : ℚ)| := by rw [← Int.cast_abs]; exact_mod_cast Int.one_le_abs h0
      refine le_trans ?_ this
      unfold minNorm
      rw [show (1 : ℚ) = 2 ^ (0 : ℤ) by norm_num]
      apply zpow_le_zpow_right₀ (by norm_num)
      norm_num
  have hread : readSub 11 c.F i = i := by
    unfold readSub
    rcases hz with h0 | hz
    · rw [h0, cutTo_zero, ite_self]
    · exact if_neg (not_lt.mpr hz)
  rw [hread] at hm
  refine hm.2 fun hc => ?_
  rcases hz with h0 | hz
  · have := hc.2.2
    rw [h0, abs_zero] at this
    have h2 : (0 : ℚ) < subUnit 11 c.F := by unfold subUnit; positivity
    linarith
  · exact absurd hc.1 (not_lt.mpr hz)

/-! ## examples -/

-- the hypotheses of C100_mul, C100_add, C100_div, C100_inv, C100_twice, C100_sub, C100_half, C100_ofInt
example : NativeFor ⟨32, 28, 5, 32, .withNan⟩ 8 23 ∧ (∃ o : FloatOps, o.Ieee 8 23) ∧ (∃ o : FloatOps, o.Ieee 11 52) ∧
    (∃ d : DoubleConv, d.Correct 8 23) ∧ (⟨32, 28, 5, 32, .withNan⟩ : Cfg).fmt.IsCanonical 1 ∧
    (⟨32, 28, 5, 32, .withNan⟩ : Cfg).fmt.IsCanonical (-2 ^ 27) ∧ (⟨32, 28, 5, 32, .withNan⟩ : Cfg).topPat = -2 ^ 27 :=
  ⟨nativeFor_P28, floatOps_ieee_exists (by decide) (by decide), floatOps_ieee_exists (by decide) (by decide),
    doubleConv_exists (t := .single) (Or.inl rfl), by decide, by decide, by decide⟩

-- the special values take part: infinity minus infinity is `inf + inf` in a format that fills its integer
example : NativeFor ⟨16, 16, 2, 64, .withInf⟩ 11 52 ∧ (⟨16, 16, 2, 64, .withInf⟩ : Cfg).ext (-2 ^ 15) = .inf true ∧
    (⟨16, 16, 2, 64, .withInf⟩ : Cfg).topPat = -2 ^ 15 := ⟨nativeFor_P16, by decide +kernel, by decide⟩

/-- **C100**: a format wider than the native type is not computed faithfully: the least positive posit counts as zero, so its
reciprocal is NaN (it is the greatest posit) and its product with one is zero. -/
theorem C100_wide_wrong (ho : o.Ieee 8 23) :
    PositF.inv ⟨32, 28, 5, 32, .withNan⟩ (.any 8 23) o 1 = .ok (-2 ^ 27) ∧
    (1 : ℚ) / (⟨32, 28, 5, 32, .withNan⟩ : Cfg).fmt.val 1 = (⟨32, 28, 5, 32, .withNan⟩ : Cfg).fmt.val (2 ^ 27 - 1) ∧
    PositF.mul ⟨32, 28, 5, 32, .withNan⟩ (.any 8 23) o 1 (2 ^ 26) = .ok 0 ∧
    (⟨32, 28, 5, 32, .withNan⟩ : Cfg).fmt.val (2 ^ 26) = 1 := by
  have hr : Posit.toFloat ⟨32, 28, 5, 32, .withNan⟩ (.any 8 23) 1 = .ok 0 := by decide +kernel
  have hr1 : Posit.toFloat ⟨32, 28, 5, 32, .withNan⟩ (.any 8 23) (2 ^ 26) = .ok 0x3f800000 := by decide +kernel
  have h0 : ieee 8 23 0 = .num 0 := by norm_num [ieee]
  have h1 : ieee 8 23 0x3f800000 = .num 1 := by norm_num [ieee]
  refine ⟨?_, by decide +kernel, ?_, by decide +kernel⟩
  · have hw := ho.div 0x3f800000 0 (fun _ => rfl)
    rw [h0, h1] at hw
    have hi : ieee 8 23 (o.div 0x3f800000 0) = .inf false := by
      have : (XNum.num 1).over (.num 0) = .inf false := by norm_num [XNum.over]
      rw [this] at hw
      exact hw
    have hb := nativeFor_P28.back (o.div 0x3f800000 0)
    rw [hi] at hb
    unfold PositF.inv
    rw [bind_ok _ hr]
    exact hb
  · have hw := ho.mul 0 0x3f800000
    rw [h0, h1] at hw
    have hi : ieee 8 23 (o.mul 0 0x3f800000) = .num 0 := by
      have : (XNum.num 0).times (.num 1) = .num 0 := by norm_num [XNum.times]
      rw [this] at hw
      rcases hw with hw | ⟨hw, -⟩
      · exact hw.exact ⟨0, h0⟩
      · exfalso
        norm_num [maxFin] at hw
    have hb := nativeFor_P28.back (o.mul 0 0x3f800000)
    rw [hi] at hb
    unfold PositF.mul
    rw [bind_ok _ hr, bind_ok _ hr1]
    obtain ⟨v, hv, hc⟩ := hb.1 (Or.inl rfl)
    rw [isCut0_unique hc (Or.inl ⟨rfl, rfl⟩)] at hv
    exact hv

example : ∃ o : FloatOps, o.Ieee 8 23 ∧ PositF.inv ⟨32, 28, 5, 32, .withNan⟩ (.any 8 23) o 1 = .ok (-2 ^ 27) := by
  obtain ⟨o, ho⟩ := floatOps_ieee_exists (eb := 8) (fb := 23) (by decide) (by decide)
  exact ⟨o, ho, (C100_wide_wrong ho).1⟩

end Verif
