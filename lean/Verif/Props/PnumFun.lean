import Verif.Spec.PnumFun
import Verif.Props.Pnum
import Mathlib.Analysis.Complex.ExponentialBounds

/-!
# C131: `sqrt` and `exp` of projective numbers
-/

namespace Verif
namespace Pnum

variable {A : Alphabet} {rt ex : ℚ → Except FunErr ℚ}

theorem pat_steps {v : ℤ} (h0 : 0 ≤ v) (h1 : v ≤ 4 * A.k) : steps A v = v := by unfold steps; rw [if_neg (by omega)]

theorem exact_iff (v : ℤ) : Alphabet.isExact v = decide (v % 2 = 0) := by
  unfold Alphabet.isExact
  by_cases h : v % 2 = 0 <;> simp [h]

/-- the root of an exact number from 0 on, looked up -/
theorem applied_root (h : Table A) (hs : Sided A rt) {j : ℕ} (hj : j < 2 * A.k) :
    ∃ r y, 0 ≤ r ∧ applied A rt (2 * j) = .ok y ∧ 0 ≤ y ∧ y < 4 * A.k ∧ Mem A y (some r) ∧
      ∀ i : ℕ, i < 2 * A.k → (mag A i < r ↔ mag A i ^ 2 < mag A j) ∧ (r < mag A i ↔ mag A j < mag A i ^ 2) := by
  obtain ⟨r, r0, hr, hc⟩ := hs j hj
  have hp : IsPat A (2 * j : ℤ) := ⟨by omega, by omega⟩
  have he := exactValue_eq h hp (by omega)
  rw [if_neg (by omega), pat_steps (by omega) (by omega), show (2 * (j : ℤ)) / 2 = (j : ℕ) by omega, pt_nat] at he
  obtain ⟨p, q⟩ := searchValue_mem h r
  have h1 : steps A 0 ≤ steps A (A.searchValue r) := by
    have hz : Mem A 0 (some 0) := mem_zero.mpr h.kpos
    exact steps_le_of_le h ⟨le_rfl, by have := h.kpos; omega⟩ p hz q r0
  rw [pat_steps le_rfl (by omega)] at h1
  have hlt := steps_lt p q.1
  have hr2 : 0 ≤ A.searchValue r ∧ A.searchValue r < 4 * A.k := by
    unfold IsPat at p
    unfold steps at h1 hlt
    split_ifs at h1 hlt <;> omega
  refine ⟨r, _, r0, ?_, hr2.1, hr2.2, q, hc⟩
  unfold applied
  rw [he]
  simp only [hr]

/-- strictly smaller than the exact number of `w`: an earlier pattern -/
theorem mem_lt_of (h : Table A) {v w : ℤ} (hv : IsPat A v) (hw : IsPat A w) {x y : ℚ} (hx : Mem A v (some x))
    (hy : Mem A w (some y)) (hlt : x < y) (he : w % 2 = 0) : steps A v < steps A w := by
  have h1 := steps_le_of_le h hv hw hx hy hlt.le
  rcases eq_or_lt_of_le h1 with h2 | h2
  · have := steps_inj hv hw h2
    subst this
    have e1 := hx.2
    have e2 := hy.2
    rw [steps_even, if_pos he] at e1 e2
    rw [e1, e2] at hlt
    exact absurd hlt (lt_irrefl _)
  · exact h2

theorem mag_nonneg (h : Table A) {i : ℕ} (hi : i < 2 * A.k) : 0 ≤ mag A i := by
  rcases Nat.eq_zero_or_pos i with rfl | h0
  · rw [mag_zero]
  · have := mag_mono h h0 hi
    rw [mag_zero] at this
    exact this.le

theorem even_of_mem {y : ℤ} {r : ℚ} (h0 : 0 ≤ y) (h4 : y < 4 * A.k) (he : y % 2 = 0) (hm : Mem A y (some r)) : r = mag A (y / 2).toNat := by
  have := hm.2
  rw [pat_steps h0 h4.le, if_pos he] at this
  rw [this, ← pt_nat, Int.toNat_of_nonneg (by omega)]

theorem odd_of_mem {y : ℤ} {r : ℚ} (h0 : 0 ≤ y) (h4 : y < 4 * A.k) (he : y % 2 = 1) (hm : Mem A y (some r)) :
    mag A (y / 2).toNat < r ∧ (y = 4 * A.k - 1 ∨ r < mag A (y / 2 + 1).toNat) := by
  have := hm.2
  rw [pat_steps h0 h4.le, if_neg (by omega)] at this
  rw [← pt_nat, ← pt_nat, Int.toNat_of_nonneg (by omega), Int.toNat_of_nonneg (by omega)]
  exact ⟨this.1.resolve_left (by omega), this.2⟩

theorem mem_mag (h : Table A) {i : ℕ} (hi : i < 2 * A.k) : Mem A (2 * i) (some (mag A i)) := by
  refine ⟨by omega, ?_⟩
  rw [pat_steps (by omega) (by omega), if_pos (by omega), show (2 * (i : ℤ)) / 2 = (i : ℕ) by omega, pt_nat]

/-- numbers above the root are at or above the adjusted lower end -/
theorem root_low (h : Table A) {x r s : ℚ} {y p : ℤ} (y0 : 0 ≤ y) (y4 : y < 4 * A.k) (m : Mem A y (some r))
    (c : ∀ i : ℕ, i < 2 * A.k → (mag A i < r ↔ mag A i ^ 2 < x) ∧ (r < mag A i ↔ x < mag A i ^ 2)) (s0 : 0 ≤ s) (hx : x < s ^ 2)
    (p0 : 0 ≤ p) (p4 : p < 4 * A.k) (hp : Mem A p (some s)) : stepUp A y ≤ p ∧ 0 ≤ stepUp A y := by
  have hpp : IsPat A p := ⟨p0, by omega⟩
  have hpy : IsPat A y := ⟨y0, by omega⟩
  unfold stepUp
  rw [exact_iff]
  by_cases he : y % 2 = 0
  · simp only [he, decide_true, if_true]
    rw [next_eq hpy, if_neg (by omega)]
    have hr := even_of_mem y0 y4 he m
    obtain ⟨i1, i2⟩ := c (y / 2).toNat (by omega)
    rw [← hr] at i1 i2
    have hlt : r < s := by
      have hxr : ¬ x < r ^ 2 := fun hc => absurd (i2.mpr hc) (lt_irrefl _)
      exact lt_of_pow_lt_pow_left₀ 2 s0 (by linarith)
    have := steps_lt_of_lt h hpy hpp m hp hlt he
    rw [pat_steps y0 y4.le, pat_steps p0 p4.le] at this
    omega
  · simp only [he, decide_false, Bool.false_eq_true, if_false]
    refine ⟨?_, y0⟩
    obtain ⟨o1, -⟩ := odd_of_mem y0 y4 (by omega) m
    have hi : (y / 2).toNat < 2 * A.k := by omega
    have hsq := (c _ hi).1.mp o1
    have hlt : mag A (y / 2).toNat < s := lt_of_pow_lt_pow_left₀ 2 s0 (hsq.trans hx)
    have hq : IsPat A (2 * ((y / 2).toNat : ℤ)) := ⟨by omega, by omega⟩
    have := steps_lt_of_lt h hq hpp (mem_mag h hi) hp hlt (by omega)
    rw [pat_steps (by omega) (by omega), pat_steps p0 p4.le] at this
    omega

/-- numbers below the root are at or below the adjusted upper end -/
theorem root_high (h : Table A) {x r s : ℚ} {y p : ℤ} (y0 : 0 ≤ y) (y4 : y < 4 * A.k) (m : Mem A y (some r))
    (c : ∀ i : ℕ, i < 2 * A.k → (mag A i < r ↔ mag A i ^ 2 < x) ∧ (r < mag A i ↔ x < mag A i ^ 2)) (s0 : 0 ≤ s) (hx : s ^ 2 < x)
    (p0 : 0 ≤ p) (p4 : p < 4 * A.k) (hp : Mem A p (some s)) : p ≤ stepDown A y ∧ stepDown A y < 4 * A.k := by
  have hpp : IsPat A p := ⟨p0, by omega⟩
  have hpy : IsPat A y := ⟨y0, by omega⟩
  unfold stepDown
  rw [exact_iff]
  by_cases he : y % 2 = 0
  · simp only [he, decide_true, if_true]
    have hi : (y / 2).toNat < 2 * A.k := by omega
    have hr := even_of_mem y0 y4 he m
    obtain ⟨i1, i2⟩ := c (y / 2).toNat hi
    have hn := mag_nonneg h hi
    rw [← hr] at i1 i2 hn
    have hlt : s < r := by
      have hxr : ¬ r ^ 2 < x := fun hc => absurd (i1.mpr hc) (lt_irrefl _)
      exact lt_of_pow_lt_pow_left₀ 2 hn (by linarith)
    have hle := mem_lt_of h hpp hpy hp m hlt he
    rw [pat_steps y0 y4.le, pat_steps p0 p4.le] at hle
    rw [prev_eq hpy, if_neg (by omega)]
    omega
  · simp only [he, decide_false, Bool.false_eq_true, if_false]
    refine ⟨?_, y4⟩
    obtain ⟨-, o2⟩ := odd_of_mem y0 y4 (by omega) m
    rcases o2 with o2 | o2
    · omega
    · by_cases hi : (y / 2 + 1).toNat < 2 * A.k
      · have hsq := (c _ hi).2.mp o2
        have hlt : s < mag A (y / 2 + 1).toNat := lt_of_pow_lt_pow_left₀ 2 (mag_nonneg h hi) (hx.trans hsq)
        have hq : IsPat A (2 * ((y / 2 + 1).toNat : ℤ)) := ⟨by omega, by omega⟩
        have := mem_lt_of h hpp hq hp (mem_mag h hi) hlt (by omega)
        rw [pat_steps p0 p4.le, pat_steps (by omega) (by omega)] at this
        omega
      · omega

/-- patterns on the way from one to another above it -/
theorem inArc_of_le {f l p : ℤ} (f0 : 0 ≤ f) (h1 : f ≤ p) (h2 : p ≤ l) (l4 : l < 8 * A.k) : InArc A f l p := by
  unfold InArc
  rw [Int.emod_eq_of_lt (by omega) (by omega), Int.emod_eq_of_lt (by omega) (by omega)]
  omega

/-- **C131**: the square root of a projective number above zero that stands for an interval contains all square roots of its
members, if the roots of exact numbers are computed well enough. -/
theorem C131_sqrt_partial (h : Table A) (hs : Sided A rt) {v : ℤ} (h0 : 0 < v) (h4 : v < 4 * A.k) (ho : v % 2 = 1) :
    ∃ b, sqrt A rt v = .ok b ∧ ∀ s : ℚ, 0 ≤ s → Mem A v (some (s ^ 2)) → b.Has A (some s) := by
  have hk := h.kpos
  obtain ⟨j, rfl⟩ : ∃ j : ℕ, v = 2 * j + 1 := ⟨((v - 1) / 2).toNat, by omega⟩
  have hv : IsPat A (2 * j + 1 : ℤ) := ⟨by omega, by omega⟩
  have hprev : A.prev (2 * j + 1) = 2 * (j : ℤ) := by rw [prev_eq hv, if_neg (by omega)]; ring
  have hnext : A.next (2 * j + 1) = 2 * ((j + 1 : ℕ) : ℤ) := by rw [next_eq hv, if_neg (by omega)]; push_cast; ring
  obtain ⟨r1, y1, r10, a1, y10, y14, m1, c1⟩ := applied_root h hs (j := j) (by omega)
  have hneg : A.isStrictlyNegative (2 * j + 1) = false := by
    unfold Alphabet.isStrictlyNegative; rw [n2_half]; simp only [gt_iff_lt, decide_eq_false_iff_not]; omega
  have hex : Alphabet.isExact (2 * (j : ℤ) + 1) = false := by rw [exact_iff, decide_eq_false_iff_not]; omega
  have key : ∀ y2, applied A rt (A.next (2 * j + 1)) = .ok y2 → (∀ s : ℚ, 0 ≤ s → Mem A (2 * j + 1) (some (s ^ 2)) → ∀ p : ℤ, 0 ≤ p →
      p < 4 * A.k → Mem A p (some s) → p ≤ stepDown A y2 ∧ stepDown A y2 < 4 * A.k) →
      ∃ b, sqrt A rt (2 * j + 1) = .ok b ∧ ∀ s : ℚ, 0 ≤ s → Mem A (2 * j + 1) (some (s ^ 2)) → b.Has A (some s) := by
    intro y2 a2 hup
    refine ⟨⟨false, stepUp A y1, stepDown A y2⟩, ?_, fun s s0 hm => ⟨rfl, ?_⟩⟩
    · unfold sqrt
      rw [hneg, hex, hprev, a1, a2]
      rfl
    · obtain ⟨p, q⟩ := searchValue_mem h s
      have h1 : steps A 0 ≤ steps A (A.searchValue s) :=
        steps_le_of_le h ⟨le_rfl, by omega⟩ p (mem_zero.mpr hk) q s0
      rw [pat_steps le_rfl (by omega)] at h1
      have hlt := steps_lt p q.1
      have hr2 : 0 ≤ A.searchValue s ∧ A.searchValue s < 4 * A.k := by
        unfold IsPat at p
        unfold steps at h1 hlt
        split_ifs at h1 hlt <;> omega
      have hx := (odd_of_mem (by omega) (by omega) (by omega) hm).1
      rw [show ((2 * (j : ℤ) + 1) / 2).toNat = j by omega] at hx
      obtain ⟨l1, l2⟩ := root_low h y10 y14 m1 c1 s0 hx hr2.1 hr2.2 q
      obtain ⟨u1, u2⟩ := hup s s0 hm _ hr2.1 hr2.2 q
      exact ⟨_, p, inArc_of_le l2 l1 u1 (show stepDown A y2 < 8 * A.k by omega), q⟩
  by_cases htop : j + 1 < 2 * A.k
  · obtain ⟨r2, y2, r20, a2, y20, y24, m2, c2⟩ := applied_root h hs (j := j + 1) htop
    refine key y2 (by rw [hnext]; exact a2) fun s s0 hm p p0 p4 hp => ?_
    have hx := (odd_of_mem (by omega) (by omega) (by omega) hm).2.resolve_left (by omega)
    rw [show ((2 * (j : ℤ) + 1) / 2 + 1).toNat = j + 1 by omega] at hx
    exact root_high h y20 y24 m2 c2 s0 hx p0 p4 hp
  · refine key (4 * A.k) ?_ fun s s0 hm p p0 p4 hp => ?_
    · rw [hnext, show 2 * ((j + 1 : ℕ) : ℤ) = 4 * A.k by omega]
      unfold applied
      rw [exactValue_eq h ⟨by omega, by omega⟩ (by omega), if_pos rfl]
      simp only [inf_eq h]
    · unfold stepDown
      rw [exact_iff]
      have : (4 * (A.k : ℤ)) % 2 = 0 := by omega
      simp only [this, decide_true, if_true]
      rw [prev_eq ⟨by omega, by omega⟩, if_neg (by omega)]
      omega

/-- the roots of 0, 1/2, 1 and 2, to one digit -/
def rt2 (x : ℚ) : Except FunErr ℚ :=
  if x = 0 then .ok 0 else if x = 1 / 2 then .ok (7 / 10) else if x = 1 then .ok 1 else if x = 2 then .ok (14 / 10) else .error .value

theorem sided_p2 : Sided p2 rt2 := by
  have hk : p2.k = 2 := by decide
  intro j hj
  rw [hk] at hj ⊢
  have key : ∀ j : Fin 4, (rt2 (mag p2 j)).toOption.isSome = true ∧ 0 ≤ (rt2 (mag p2 j)).toOption.getD 0 ∧ ∀ i : Fin 4,
      (mag p2 i < (rt2 (mag p2 j)).toOption.getD 0 ↔ mag p2 i ^ 2 < mag p2 j) ∧
      ((rt2 (mag p2 j)).toOption.getD 0 < mag p2 i ↔ mag p2 j < mag p2 i ^ 2) := by decide +kernel
  obtain ⟨k1, k2, k3⟩ := key ⟨j, hj⟩
  refine ⟨(rt2 (mag p2 j)).toOption.getD 0, k2, ?_, fun i hi => k3 ⟨i, hi⟩⟩
  cases hr : rt2 (mag p2 j) with
  | error e => rw [show ((⟨j, hj⟩ : Fin 4) : ℕ) = j from rfl, hr] at k1; cases k1
  | ok r => rfl

/-- of the numbers between 1 and 2, and of those above 2 -/
example : Table p2 ∧ Sided p2 rt2 ∧ sqrt p2 rt2 5 = .ok ⟨false, 5, 5⟩ ∧ sqrt p2 rt2 7 = .ok ⟨false, 5, 7⟩ :=
  ⟨table_p2, sided_p2, by decide +kernel, by decide +kernel⟩

/-- **C131**: a root that is rounded to an exact number makes members disappear. With the points 1, 5/4, 25/16 - 2^-52 and 4 and
the correctly rounded roots, the square root of the numbers between 25/16 - 2^-52 and 4 does not contain 5/4. -/
theorem C131_sqrt_wrong : Table ⟨[1, 5 / 4, 25 / 16 - 1 / 2 ^ 52, 4]⟩ ∧
    (5 / 4 - 1 / 2 ^ 53 : ℚ) ^ 2 < 25 / 16 - 1 / 2 ^ 52 ∧ (25 / 16 - 1 / 2 ^ 52 : ℚ) < (5 / 4 + 1 / 2 ^ 53) ^ 2 ∧
    Mem ⟨[1, 5 / 4, 25 / 16 - 1 / 2 ^ 52, 4]⟩ 13 (some ((5 / 4) ^ 2)) ∧
    ∀ rt : ℚ → Except FunErr ℚ, rt (25 / 16 - 1 / 2 ^ 52) = .ok (5 / 4) → rt 4 = .ok 2 →
      ∃ b, sqrt ⟨[1, 5 / 4, 25 / 16 - 1 / 2 ^ 52, 4]⟩ rt 13 = .ok b ∧
        ¬ b.Has ⟨[1, 5 / 4, 25 / 16 - 1 / 2 ^ 52, 4]⟩ (some (5 / 4)) := by
  have ht : Table ⟨[1, 5 / 4, 25 / 16 - 1 / 2 ^ 52, 4]⟩ := (C72_make _).mp ⟨⟨[1, 5 / 4, 25 / 16 - 1 / 2 ^ 52, 4]⟩, by decide +kernel⟩
  refine ⟨ht, by norm_num, by norm_num, ?_, fun rt h1 h2 => ⟨⟨false, 11, 13⟩, ?_, ?_⟩⟩
  · unfold Mem; decide +kernel
  · have e1 : Alphabet.exactValue ⟨[1, 5 / 4, 25 / 16 - 1 / 2 ^ 52, 4]⟩ (Alphabet.prev ⟨[1, 5 / 4, 25 / 16 - 1 / 2 ^ 52, 4]⟩ 13) =
        some (25 / 16 - 1 / 2 ^ 52) := by decide +kernel
    have e2 : Alphabet.exactValue ⟨[1, 5 / 4, 25 / 16 - 1 / 2 ^ 52, 4]⟩ (Alphabet.next ⟨[1, 5 / 4, 25 / 16 - 1 / 2 ^ 52, 4]⟩ 13) =
        some 4 := by decide +kernel
    have n1 : Alphabet.isStrictlyNegative ⟨[1, 5 / 4, 25 / 16 - 1 / 2 ^ 52, 4]⟩ 13 = false := by decide +kernel
    have n2 : Alphabet.isExact 13 = false := by decide
    have s1 : stepUp ⟨[1, 5 / 4, 25 / 16 - 1 / 2 ^ 52, 4]⟩ (Alphabet.searchValue ⟨[1, 5 / 4, 25 / 16 - 1 / 2 ^ 52, 4]⟩ (5 / 4)) = 11 := by
      decide +kernel
    have s2 : stepDown ⟨[1, 5 / 4, 25 / 16 - 1 / 2 ^ 52, 4]⟩ (Alphabet.searchValue ⟨[1, 5 / 4, 25 / 16 - 1 / 2 ^ 52, 4]⟩ 2) = 13 := by
      decide +kernel
    unfold sqrt applied
    rw [e1, e2]
    simp only [h1, h2, n1, n2, s1, s2, bind, Except.bind, pure, Except.pure, Bool.false_eq_true, if_false]
  · rintro ⟨-, p, hp, ha, hm⟩
    have h10 : Mem ⟨[1, 5 / 4, 25 / 16 - 1 / 2 ^ 52, 4]⟩ 10 (some (5 / 4)) := by unfold Mem; decide +kernel
    have : p = 10 := mem_unique ht hp (by unfold IsPat; decide +kernel) hm h10
    subst this
    revert ha
    unfold InArc
    decide +kernel

/-- **C131**: the square root of numbers below zero is empty, and they have none. -/
theorem C131_sqrt_negative (h : Table A) {v : ℤ} (h1 : 4 * A.k < v) (h2 : v < 8 * A.k) :
    (∃ b, sqrt A rt v = .ok b ∧ ∀ x, ¬ b.Has A x) ∧ ∀ s : ℚ, ¬ Mem A v (some (s ^ 2)) := by
  have hk := h.kpos
  constructor
  · refine ⟨⟨true, A.zero, A.zero⟩, ?_, fun x hx => absurd hx.1 (by simp)⟩
    unfold sqrt
    rw [if_pos (by unfold Alphabet.isStrictlyNegative; rw [n2_half]; simp; omega)]
  · intro s hs
    have := steps_le_of_le h (v := 0) (w := v) ⟨le_rfl, by omega⟩ ⟨by omega, h2⟩ (mem_zero.mpr hk) hs (sq_nonneg s)
    unfold steps at this
    rw [if_neg (by omega), if_pos (by omega)] at this
    omega

example : Table p2 ∧ 4 * p2.k < 11 ∧ 11 < 8 * p2.k := ⟨table_p2, by decide, by decide⟩

/-- **C131**: there is no square root and no exponential of an exact number, except of negative numbers and infinity: the
functions fail. -/
theorem C131_exact_wrong {v : ℤ} (he : Alphabet.isExact v = true) :
    (A.isStrictlyNegative v = false → ∀ b, sqrt A rt v ≠ .ok b) ∧ (A.isInf v = false → ∀ b, exp A ex rt v ≠ .ok b) := by
  constructor
  · intro hn b
    unfold sqrt
    rw [hn, he]
    cases applied A rt v <;> simp [bind, Except.bind]
  · intro hn b
    unfold exp
    rw [hn, he]
    cases applied A ex v <;> simp [bind, Except.bind]

example : Alphabet.isExact 4 = true ∧ p2.isStrictlyNegative 4 = false ∧ p2.isInf 4 = false ∧ p2.exactValue 4 = some 1 ∧
    sqrt p2 rt2 4 = .error .name := by decide +kernel

/-- **C131**: the exponential of infinity is the bound from zero to infinity. -/
theorem C131_exp_inf (h : Table A) : exp A ex rt A.inf = .ok ⟨false, 0, 4 * A.k⟩ := by
  unfold exp Alphabet.isInf
  rw [n2_half, inf_eq h]
  simp [zero_eq]

/-- **C131**: the exponential of an interval fails if its upper end is negative, `math.sqrt` being called with it, or infinity,
`Pboun` not being defined. -/
theorem C131_exp_fails_wrong (h : Table A) (hneg : ∀ q, q < 0 → rt q = .error .value) {v : ℤ} (ho : v % 2 = 1)
    (hv : (4 * A.k < v ∧ v < 8 * A.k - 1) ∨ v = 4 * A.k - 1) (b : Pbound) : exp A ex rt v ≠ .ok b := by
  have hk := h.kpos
  have hp : IsPat A v := ⟨by omega, by omega⟩
  have hi : A.isInf v = false := by unfold Alphabet.isInf; rw [n2_half]; simp; omega
  have hex : Alphabet.isExact v = false := by rw [exact_iff, decide_eq_false_iff_not]; omega
  have hn : A.next v = v + 1 := by rw [next_eq hp, if_neg (by omega)]
  have hpr : A.prev v = v - 1 := by rw [prev_eq hp, if_neg (by omega)]
  unfold exp
  rw [hi, hex]
  simp only [Bool.false_eq_true, if_false]
  cases h1 : applied A ex (A.prev v) with
  | error e => simp [bind, Except.bind]
  | ok y1 =>
    rcases hv with ⟨a1, a2⟩ | hv
    · have hnp : IsPat A (v + 1) := ⟨by omega, by omega⟩
      have h2 : applied A rt (A.next v) = .error .value := by
        unfold applied
        rw [hn, exactValue_eq h hnp (by omega), if_neg (by omega)]
        simp only
        rw [hneg]
        have hs : steps A (v + 1) = v + 1 - 8 * A.k := by unfold steps; rw [if_pos (by omega)]
        have := pt_mono h (i := steps A (v + 1) / 2) (j := 0) (by omega) (by omega) (by omega)
        rwa [pt_zero] at this
      rw [h2]
      simp [bind, Except.bind]
    · cases h2 : applied A rt (A.next v) with
      | error e => simp [bind, Except.bind]
      | ok y2 =>
        have i1 : A.isInf (A.prev v) = false := by unfold Alphabet.isInf; rw [n2_half, hpr]; simp; omega
        have i2 : A.isInf (A.next v) = true := by unfold Alphabet.isInf; rw [n2_half, hn]; simp; omega
        simp [bind, Except.bind, i1, i2]

example : Table p2 ∧ (11 : ℤ) % 2 = 1 ∧ 4 * p2.k < 11 ∧ 11 < 8 * p2.k - 1 := ⟨table_p2, by decide, by decide, by decide⟩

/-- **C131**: the exponential of the numbers between 1 and 1024, over the points 1 and 1024: the bound is the same interval, as
its upper end comes from the square root, 32. It does not contain the exponential of 10, nor that of any greater number. -/
theorem C131_exp_wrong (he : ∃ y, ex 1 = .ok y ∧ 1 < y ∧ y < 1024) (hr : rt 1024 = .ok 32) :
    Table ⟨[1, 1024]⟩ ∧ Mem ⟨[1, 1024]⟩ 5 (some 10) ∧ (1024 : ℝ) < Real.exp 10 ∧
    ∃ b, exp ⟨[1, 1024]⟩ ex rt 5 = .ok b ∧ ∀ x : ℚ, 1024 < x → ¬ b.Has ⟨[1, 1024]⟩ (some x) := by
  have ht : Table ⟨[1, 1024]⟩ := (C72_make _).mp ⟨⟨[1, 1024]⟩, by decide +kernel⟩
  obtain ⟨y, hy, y1, y2⟩ := he
  refine ⟨ht, by unfold Mem; decide +kernel, ?_, ⟨false, 5, 5⟩, ?_, fun x hx hb => ?_⟩
  · have h1 := Real.exp_one_gt_d9
    have h2 : Real.exp 10 = Real.exp 1 ^ 10 := by rw [← Real.exp_nat_mul]; norm_num
    rw [h2]
    calc (1024 : ℝ) = 2 ^ 10 := by norm_num
      _ < Real.exp 1 ^ 10 := by gcongr; linarith
  · have hs : Alphabet.searchValue ⟨[1, 1024]⟩ y = 5 := by
      obtain ⟨p, q⟩ := searchValue_mem ht y
      have hm : Mem ⟨[1, 1024]⟩ 5 (some y) := by
        refine ⟨by decide, ?_⟩
        have e1 : steps ⟨[1, 1024]⟩ 5 = 5 := by decide
        have e2 : pt ⟨[1, 1024]⟩ (5 / 2) = 1 := by decide +kernel
        have e3 : pt ⟨[1, 1024]⟩ (5 / 2 + 1) = 1024 := by decide +kernel
        rw [e1, if_neg (by decide), e2, e3]
        exact ⟨Or.inr y1, Or.inr y2⟩
      exact mem_unique ht p (by unfold IsPat; decide) q hm
    have a1 : applied ⟨[1, 1024]⟩ ex (Alphabet.prev ⟨[1, 1024]⟩ 5) = .ok 5 := by
      unfold applied
      rw [show Alphabet.exactValue ⟨[1, 1024]⟩ (Alphabet.prev ⟨[1, 1024]⟩ 5) = some 1 by decide +kernel]
      simp only [hy, hs]
    have a2 : applied ⟨[1, 1024]⟩ rt (Alphabet.next ⟨[1, 1024]⟩ 5) = .ok 5 := by
      unfold applied
      rw [show Alphabet.exactValue ⟨[1, 1024]⟩ (Alphabet.next ⟨[1, 1024]⟩ 5) = some 1024 by decide +kernel]
      simp only [hr]
      decide +kernel
    have i1 : Alphabet.isInf ⟨[1, 1024]⟩ 5 = false := by decide
    have i2 : Alphabet.isExact 5 = false := by decide
    have i3 : Alphabet.isInf ⟨[1, 1024]⟩ (Alphabet.prev ⟨[1, 1024]⟩ 5) = false := by decide
    have i4 : Alphabet.isInf ⟨[1, 1024]⟩ (Alphabet.next ⟨[1, 1024]⟩ 5) = false := by decide
    unfold exp
    rw [a1, a2, i1, i2, i3, i4]
    rfl
  · obtain ⟨-, p, hp, ha, hm⟩ := hb
    have h6 : Mem ⟨[1, 1024]⟩ 6 (some 1024) := by unfold Mem; decide +kernel
    have hlt := steps_lt_of_lt ht (v := 6) (by unfold IsPat; decide) hp h6 hm hx (by decide)
    have hp2 : 0 ≤ p ∧ p < 16 := hp
    have h5 : p = 5 := by
      unfold InArc at ha
      have hk : ((Alphabet.k ⟨[1, 1024]⟩ : ℕ) : ℤ) = 2 := by decide
      rw [hk] at ha
      norm_num at ha
      omega
    rw [h5] at hlt
    revert hlt
    decide

end Pnum
end Verif
