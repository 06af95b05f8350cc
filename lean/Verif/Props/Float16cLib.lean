import Verif.Spec.FloatLib
import Verif.Lemmas.RootHalf
import Verif.Props.Float16c

/-! # C102: remainders of half floats are exact and square roots are the nearest half float — include/float16native32.hpp:101-102 -/

namespace Verif
namespace Float16c
open Fmt HalfPrec

variable {l : FloatLib} {k : F16C}

/-- there are library functions as assumed below -/
theorem floatLib_exists : ∃ l : FloatLib, l.Correct := by
  classical
  have hnan : ieee 8 23 0x7FC00000 = .nan := by norm_num [ieee]
  have hinf : ieee 8 23 0x7F800000 = .inf false := by norm_num [ieee]
  have hrem : ∀ a b : ℕ, ∃ r : ℕ, (∀ x y, ieee 8 23 a = .num x → ieee 8 23 b = .num y → y ≠ 0 →
      ∃ z, ieee 8 23 r = .num z ∧ IsRemainder x y z) ∧
      ((ieee 8 23 b = .num 0 ∨ (∃ s, ieee 8 23 a = .inf s) ∨ ieee 8 23 a = .nan ∨ ieee 8 23 b = .nan) → ieee 8 23 r = .nan) ∧
      (∀ x s, ieee 8 23 a = .num x → ieee 8 23 b = .inf s → ieee 8 23 r = .num x) := by
    intro a b
    cases ha : ieee 8 23 a with
    | num x =>
      cases hb : ieee 8 23 b with
      | num y =>
        by_cases hy : y = 0
        · exact ⟨0x7FC00000, fun x' y' _ h h0 => absurd ((XNum.num.inj h).symm.trans hy) h0, fun _ => hnan, fun _ _ _ h => by simp at h⟩
        · obtain ⟨z, hz⟩ := exists_remainder x hy
          obtain ⟨g, hg⟩ := remainder_float (by norm_num) ha hb hy hz
          refine ⟨g, fun x' y' hx' hy' _ => ?_, fun h => ?_, fun _ _ _ h => by simp at h⟩
          · rw [← XNum.num.inj hx', ← XNum.num.inj hy']; exact ⟨z, hg, hz⟩
          · simp [hy] at h
      | inf s => exact ⟨a, fun _ _ _ h => by simp at h, fun h => by simp at h, fun x' _ h _ => by rw [ha, h]⟩
      | nan => exact ⟨0x7FC00000, fun _ _ _ h => by simp at h, fun _ => hnan, fun _ _ _ h => by simp at h⟩
    | inf s => exact ⟨0x7FC00000, fun _ _ h => by simp at h, fun _ => hnan, fun _ _ h => by simp at h⟩
    | nan => exact ⟨0x7FC00000, fun _ _ h => by simp at h, fun _ => hnan, fun _ _ h => by simp at h⟩
  have hsq : ∀ a : ℕ, ∃ f : ℕ, (∀ x, ieee 8 23 a = .num x → 0 ≤ x → IsRootFloat x f) ∧ (∀ x, ieee 8 23 a = .num x → x < 0 → ieee 8 23 f = .nan) ∧
      (∀ s, ieee 8 23 a = .inf s → ieee 8 23 f = if s then .nan else .inf false) ∧ (ieee 8 23 a = .nan → ieee 8 23 f = .nan) := by
    intro a
    cases ha : ieee 8 23 a with
    | num x =>
      rcases le_or_gt 0 x with h | h
      · obtain ⟨b, hb⟩ := exists_nearestReal (eb := 8) (fb := 23) (by norm_num) (√(x : ℝ))
        exact ⟨b, fun x' hx' _ => by rw [← XNum.num.inj hx']; exact Or.inl hb, fun x' hx' h' => absurd h (by rw [XNum.num.inj hx']; linarith),
          fun _ h => by simp at h, fun h => by simp at h⟩
      · exact ⟨0x7FC00000, fun x' hx' h' => absurd h (by rw [XNum.num.inj hx']; linarith), fun _ _ _ => hnan, fun _ h => by simp at h, fun _ => hnan⟩
    | inf s =>
      cases s with
      | true => exact ⟨0x7FC00000, fun _ h => by simp at h, fun _ _ _ => hnan, fun s h => by rw [← XNum.inf.inj h]; exact hnan, fun _ => hnan⟩
      | false =>
        exact ⟨0x7F800000, fun _ h => by simp at h, fun _ h => by simp at h, fun s h => by rw [← XNum.inf.inj h]; exact hinf, fun h => by simp at h⟩
    | nan => exact ⟨0x7FC00000, fun _ h => by simp at h, fun _ _ _ => hnan, fun _ h => by simp at h, fun _ => hnan⟩
  choose r hr1 hr2 hr3 using hrem
  choose f hf1 hf2 hf3 hf4 using hsq
  exact ⟨⟨r, f⟩, fun h1 h2 h3 => hr1 _ _ _ _ h1 h2 h3, fun h => hr2 _ _ h, fun h1 h2 => hr3 _ _ _ _ h1 h2, fun h1 h2 => hf1 _ _ h1 h2,
    fun h1 h2 => hf2 _ _ h1 h2, fun h => hf3 _ _ h, fun h => hf4 _ h⟩

/-- a `float` whose number is a half float comes back as that number -/
theorem back_half (hk : k.Correct) {f v : ℕ} {r : ℚ} (hf : ieee 8 23 f = .num r) (hv : ieee 5 10 v = .num r) :
    ieee 5 10 (ofFloat k f) = .num r := by
  have h := (C101_ofFloat hk f).1
  rw [hf] at h
  have hmax : |r| < overflowAt 5 10 := by
    have hb := half_num hv
    rw [overflowAt_half, hb.2, abs_mul]
    have e : |(if v / 2 ^ 15 % 2 = 1 then (-1 : ℚ) else 1)| = 1 := by split <;> simp
    have : g (v % 2 ^ 15) ≤ g 31743 := g_mono.monotone hb.1
    rw [g_top.1] at this
    rw [e, one_mul, abs_of_nonneg (g_nonneg _)]
    linarith
  obtain ⟨y, hy, hall⟩ := h.2.2.2 hmax
  have h6 := (hall v r hv).1
  rw [sub_self, abs_zero] at h6
  have h7 : r = y := by
    have := abs_nonpos_iff.mp h6
    linarith
  rw [hy, h7]

/-- **C102**: the remainder of two finite half floats is exact, … -/
theorem C102_rem (hl : l.Correct) (hk : k.Correct) {a b : ℕ} (ha : a < 2 ^ 16) (hb : b < 2 ^ 16) {x y : ℚ} (hx : ieee 5 10 a = .num x)
    (hy : ieee 5 10 b = .num y) (h0 : y ≠ 0) : ∃ r, ieee 5 10 (rem l k a b) = .num r ∧ IsRemainder x y r := by
  have h1 := (C101_toFloat hk ha).2.1
  have h2 := (C101_toFloat hk hb).2.1
  rw [hx] at h1
  rw [hy] at h2
  obtain ⟨r, hr, hrem⟩ := hl.rem h1 h2 h0
  obtain ⟨v, hv⟩ := remainder_float (by norm_num) hx hy h0 hrem
  exact ⟨r, back_half hk hr hv, hrem⟩

/-- remainder of -7 by 2.5 -/
example (hl : l.Correct) (hk : k.Correct) : ∃ r, ieee 5 10 (rem l k 0xC700 0x4100) = .num r ∧ IsRemainder (-7) (5 / 2) r :=
  C102_rem hl hk (by norm_num) (by norm_num) (by norm_num [ieee]) (by norm_num [ieee]) (by norm_num)

/-- … it is NaN if the divisor is zero, the dividend is infinite or one of them is NaN, and the dividend if the divisor is infinite; … -/
theorem C102_rem_special (hl : l.Correct) (hk : k.Correct) {a b : ℕ} (ha : a < 2 ^ 16) (hb : b < 2 ^ 16) :
    ((ieee 5 10 b = .num 0 ∨ (∃ s, ieee 5 10 a = .inf s) ∨ ieee 5 10 a = .nan ∨ ieee 5 10 b = .nan) → ieee 5 10 (rem l k a b) = .nan) ∧
    (∀ x s, ieee 5 10 a = .num x → ieee 5 10 b = .inf s → ieee 5 10 (rem l k a b) = .num x) := by
  have h1 := (C101_toFloat hk ha).2.1
  have h2 := (C101_toFloat hk hb).2.1
  constructor
  · intro h
    rw [← h1, ← h2] at h
    have h3 := (C101_ofFloat hk (l.rem (toFloat k a) (toFloat k b))).1
    rw [hl.rem_nan h] at h3
    exact h3.2
  · intro x s hx hs
    have hx' := hx
    rw [← h1] at hx'
    rw [← h2] at hs
    exact back_half hk (hl.rem_inf hx' hs) hx

/-- by 0 and by infinity -/
example (hl : l.Correct) (hk : k.Correct) : ieee 5 10 (rem l k 0xC700 0) = .nan ∧ ieee 5 10 (rem l k 0xC700 0x7C00) = .num (-7) :=
  ⟨(C102_rem_special hl hk (by norm_num) (by norm_num)).1 (Or.inl (by norm_num [ieee])),
    (C102_rem_special hl hk (by norm_num) (by norm_num)).2 (-7) false (by norm_num [ieee]) (by norm_num [ieee])⟩

/-- … the square root of a half float that is not negative is the one half float nearest to the real square root (none is as close),
although it has been rounded twice or three times, … -/
theorem C102_sqrt (hl : l.Correct) (hk : k.Correct) {a : ℕ} (ha : a < 2 ^ 16) {x : ℚ} (hx : ieee 5 10 a = .num x) (h0 : 0 ≤ x) :
    ∃ q, ieee 5 10 (sqrt l k a) = .num q ∧ ∀ v z, ieee 5 10 v = .num z → z ≠ q → |√(x : ℝ) - q| < |√(x : ℝ) - z| := by
  have h1 := (C101_toFloat hk ha).2.1
  rw [hx] at h1
  have hroot := hl.sqrt h1 h0
  have hS0 := Real.sqrt_nonneg (x : ℝ)
  have hS8 : √(x : ℝ) ≤ 2 ^ 8 := by
    have h2 := half_lt hx
    rw [abs_of_nonneg h0] at h2
    have h3 : (x : ℝ) ≤ (2 ^ 8) ^ 2 := by
      have : (x : ℝ) < ((2 ^ 16 : ℚ) : ℝ) := by exact_mod_cast h2
      push_cast at this
      linarith
    exact Real.sqrt_le_iff.mpr ⟨by norm_num, h3⟩
  unfold sqrt
  generalize hf : l.sqrt (toFloat k a) = f at *
  -- the float is a number between 0 and 256
  obtain ⟨y, hy, hy0, hy8⟩ : ∃ y, ieee 8 23 f = .num y ∧ 0 ≤ y ∧ y ≤ 2 ^ 8 := by
    have z0 : ieee 8 23 0 = .num ((0 : ℚ)) := by norm_num [ieee]
    have z8 : ieee 8 23 0x43800000 = .num ((2 : ℚ) ^ 8) := by norm_num [ieee]
    have z0d : ieee 11 52 0 = .num ((0 : ℚ)) := by norm_num [ieee]
    have z8d : ieee 11 52 0x4070000000000000 = .num ((2 : ℚ) ^ 8) := by norm_num [ieee]
    have key : ∀ r : ℝ, NearestReal 8 23 r f → 0 ≤ r → r ≤ 2 ^ 8 → ∃ y, ieee 8 23 f = .num y ∧ 0 ≤ y ∧ y ≤ 2 ^ 8 := by
      intro r hr hr0 hr8
      have hr' := hr
      obtain ⟨y, hy, -⟩ := hr'
      refine ⟨y, hy, ?_, ?_⟩
      · exact_mod_cast (nearestReal_mono hr hy z0).1 (by push_cast; exact hr0)
      · have := (nearestReal_mono hr hy z8).2 (by push_cast; exact hr8)
        exact_mod_cast this
    rcases hroot with h | ⟨d, h2, q, h3, h4⟩
    · exact key _ h hS0 hS8
    · refine key _ h4 ?_ ?_
      · exact_mod_cast (nearestReal_mono h2 h3 z0d).1 (by push_cast; exact hS0)
      · have := (nearestReal_mono h2 h3 z8d).2 (by push_cast; exact hS8)
        push_cast at this
        exact this
  have hn := (C101_ofFloat hk f).1
  rw [hy] at hn
  have hn' : IsNearestEven 5 10 y (ofFloat k f) := hn
  have hne := hn'.2.2.2 (by rw [overflowAt_half, abs_of_nonneg hy0]; linarith)
  obtain ⟨q, hq, -⟩ := hne
  have hnear := (nearest_iff hn'.1 hn'.2.1).1 hn'
  rw [abs_of_nonneg hy0] at hnear
  obtain ⟨hb, hqe⟩ := half_num hq
  generalize hm : ofFloat k f % 2 ^ 15 = m at *
  obtain ⟨-, hlo, hhi⟩ := hnear
  have hhi := (hhi hb).1
  -- the root lies strictly between the midpoints
  obtain ⟨n, A, hnb, hA, hxe⟩ := half_int hx
  have hlo' : ∀ j, j + 1 = m → ((mid j : ℚ) : ℝ) < √(x : ℝ) := by
    intro j hj
    obtain ⟨c, W, hM, hc, he⟩ := mid_form (j := j) (by omega)
    have hd := root_mid hxe h0 hnb hA hM hc
    have hs := root_side hroot hy hM hc hd
    have h5 := (hlo j hj).1
    rw [he] at h5 ⊢
    push_cast
    rcases lt_trichotomy (√(x : ℝ)) (c * 2 ^ W) with h6 | h6 | h6
    · exact absurd (hs.1 h6) (not_lt.mpr h5)
    · rw [h6, sub_self, abs_zero] at hd
      exact absurd hd (not_le.mpr (by positivity))
    · exact h6
  have hhi' : √(x : ℝ) < ((mid m : ℚ) : ℝ) := by
    obtain ⟨c, W, hM, hc, he⟩ := mid_form (j := m) hb
    have hd := root_mid hxe h0 hnb hA hM hc
    have hs := root_side hroot hy hM hc hd
    rw [he] at hhi ⊢
    push_cast
    rcases lt_trichotomy (√(x : ℝ)) (c * 2 ^ W) with h6 | h6 | h6
    · exact h6
    · rw [h6, sub_self, abs_zero] at hd
      exact absurd hd (not_le.mpr (by positivity))
    · exact absurd (hs.2 h6) (not_lt.mpr hhi)
  have hqg : q = g m := by
    rw [hqe]
    by_cases hy00 : y = 0
    · have hm0 : m = 0 := by
        by_contra hm0
        obtain ⟨j, hj⟩ : ∃ j, j + 1 = m := ⟨m - 1, by omega⟩
        have h5 := (hlo j hj).1
        have h6 : g j < g (j + 1) := g_mono (Nat.lt_succ_self j)
        have h7 := g_nonneg j
        unfold mid at h5
        linarith
      rw [hm0, g_zero]; simp
    · have h5 := hn'.2.1 hy00
      have h6 : ¬ ofFloat k f / 2 ^ (5 + 10) = 1 := fun h => absurd (h5.1 h) (not_lt.mpr hy0)
      have h7 := hn'.1
      rw [if_neg (by omega), one_mul]
  refine ⟨q, hq, fun v z hz hzq => ?_⟩
  obtain ⟨-, hze⟩ := half_num hz
  generalize √(x : ℝ) = S at *
  rw [hqg] at hzq ⊢
  have hcase : g (m + 1) ≤ z ∨ (m = 0 ∧ z < 0) ∨ ∃ j, j + 1 = m ∧ z ≤ g j := by
    have hcmp : ∀ i, (∃ j, j + 1 = m ∧ g i ≤ g j) ∨ i = m ∨ g (m + 1) ≤ g i := by
      intro i
      rcases lt_trichotomy i m with h | h | h
      · exact Or.inl ⟨m - 1, by omega, g_mono.monotone (by omega)⟩
      · exact Or.inr (Or.inl h)
      · exact Or.inr (Or.inr (g_mono.monotone h))
    by_cases hs : v / 2 ^ 15 % 2 = 1
    · rw [if_pos hs] at hze
      have hzn : z ≤ 0 := by have := g_nonneg (v % 2 ^ 15); linarith
      by_cases hm0 : m = 0
      · refine Or.inr (Or.inl ⟨hm0, lt_of_le_of_ne hzn (fun h => hzq ?_)⟩)
        rw [h, hm0, g_zero]
      · exact Or.inr (Or.inr ⟨m - 1, by omega, hzn.trans (g_nonneg _)⟩)
    · rw [if_neg hs, one_mul] at hze
      rcases hcmp (v % 2 ^ 15) with ⟨j, hj, h⟩ | h | h
      · exact Or.inr (Or.inr ⟨j, hj, by rw [hze]; exact h⟩)
      · exact absurd (by rw [hze, h]) hzq
      · exact Or.inl (by rw [hze]; exact h)
  rcases hcase with h | ⟨hm0, h⟩ | ⟨j, hj, h⟩
  · have h' : ((g (m + 1) : ℚ) : ℝ) ≤ z := by exact_mod_cast h
    have h2 : ((g m : ℚ) : ℝ) < (g (m + 1) : ℚ) := by exact_mod_cast g_mono (Nat.lt_succ_self m)
    unfold mid at hhi'
    push_cast at hhi'
    rw [abs_of_neg (a := S - z) (by linarith)]
    rcases le_total S (g m : ℚ) with h3 | h3
    · rw [abs_of_nonpos (by linarith)]; linarith
    · rw [abs_of_nonneg (by linarith)]; linarith
  · have h' : (z : ℝ) < 0 := by exact_mod_cast h
    rw [hm0, g_zero]
    push_cast
    rw [abs_of_pos (a := S - z) (by linarith), sub_zero, abs_of_nonneg hS0]
    linarith
  · have h' : (z : ℝ) ≤ (g j : ℚ) := by exact_mod_cast h
    have h2 : ((g j : ℚ) : ℝ) < (g (j + 1) : ℚ) := by exact_mod_cast g_mono (Nat.lt_succ_self j)
    have h3 := hlo' j hj
    unfold mid at h3
    push_cast at h3
    rw [hj] at h2 h3
    rw [abs_of_pos (a := S - z) (by linarith)]
    rcases le_total S (g m : ℚ) with h4 | h4
    · rw [abs_of_nonpos (by linarith)]; linarith
    · rw [abs_of_nonneg (by linarith)]; linarith

/-- the half nearest to the square root of 2, and of the least number -/
example (hl : l.Correct) (hk : k.Correct) : (∃ q, ieee 5 10 (sqrt l k 0x4000) = .num q ∧
    ∀ v z, ieee 5 10 v = .num z → z ≠ q → |√((2 : ℚ) : ℝ) - q| < |√((2 : ℚ) : ℝ) - z|) ∧ ∃ q, ieee 5 10 (sqrt l k 1) = .num q :=
  ⟨C102_sqrt hl hk (by norm_num) (by norm_num [ieee]) (by norm_num),
    (C102_sqrt hl hk (a := 1) (x := 1 / 2 ^ 24) (by norm_num) (by norm_num [ieee]) (by norm_num)).imp fun _ h => h.1⟩

/-- … and that of a negative number, of -infinity and of NaN is NaN, that of infinity is infinity. -/
theorem C102_sqrt_special (hl : l.Correct) (hk : k.Correct) {a : ℕ} (ha : a < 2 ^ 16) :
    (∀ x, ieee 5 10 a = .num x → x < 0 → ieee 5 10 (sqrt l k a) = .nan) ∧
    (ieee 5 10 a = .inf true → ieee 5 10 (sqrt l k a) = .nan) ∧ (ieee 5 10 a = .nan → ieee 5 10 (sqrt l k a) = .nan) ∧
    (ieee 5 10 a = .inf false → ieee 5 10 (sqrt l k a) = .inf false) := by
  have h1 := (C101_toFloat hk ha).2.1
  have h3 := (C101_ofFloat hk (l.sqrt (toFloat k a))).1
  refine ⟨fun x hx h0 => ?_, fun h => ?_, fun h => ?_, fun h => ?_⟩
  · rw [← h1] at hx
    rw [hl.sqrt_neg hx h0] at h3
    exact h3.2
  · rw [← h1] at h
    rw [hl.sqrt_inf h] at h3
    exact h3.2
  · rw [← h1] at h
    rw [hl.sqrt_nan h] at h3
    exact h3.2
  · rw [← h1] at h
    rw [hl.sqrt_inf h] at h3
    exact h3.2

/-- remainder of 5 by 3 is -1, whatever the library -/
example (hl : l.Correct) (hk : k.Correct) : ieee 5 10 (rem l k 0x4500 0x4200) = .num (-1) := by
  obtain ⟨r, hr, n, h1, h2, -⟩ := C102_rem hl hk (a := 0x4500) (b := 0x4200) (by norm_num) (by norm_num) (x := 5) (y := 3)
    (by norm_num [ieee]) (by norm_num [ieee]) (by norm_num)
  rw [hr, h1]
  have h3 := abs_le.mp h2
  have h4 : (1 : ℚ) < n := by linarith [h3.2]
  have h5 : (n : ℚ) < 3 := by linarith [h3.1]
  have : n = 2 := by
    have h6 : 1 < n := by exact_mod_cast h4
    have h7 : n < 3 := by exact_mod_cast h5
    omega
  rw [this]; norm_num

/-- square root of 9 is 3 -/
example (hl : l.Correct) (hk : k.Correct) : ieee 5 10 (sqrt l k 0x4880) = .num 3 := by
  obtain ⟨q, hq, hall⟩ := C102_sqrt hl hk (a := 0x4880) (by norm_num) (x := 9) (by norm_num [ieee]) (by norm_num)
  rw [hq]
  by_contra hne
  have h3 : (3 : ℚ) ≠ q := fun h => hne (by rw [h])
  have h := hall 0x4200 3 (by norm_num [ieee]) h3
  have e : √((9 : ℚ) : ℝ) = 3 := by
    rw [show ((9 : ℚ) : ℝ) = 3 ^ 2 by norm_num]; exact Real.sqrt_sq (by norm_num)
  rw [e] at h
  push_cast at h
  rw [sub_self, abs_zero] at h
  exact absurd h (not_lt.mpr (abs_nonneg _))

end Float16c
end Verif
