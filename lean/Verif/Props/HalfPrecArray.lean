import Verif.Props.HalfPrec

/-! # C84–C86 continued: uniqueness, round trips, arrays, platforms -/

namespace Verif.HalfPrec

/-- a half is determined by its number (or infinity) and its sign bit -/
theorem half_inj {h h' : ℕ} (hh : h < 2 ^ 16) (hh' : h' < 2 ^ 16) (hs : h / 2 ^ 15 = h' / 2 ^ 15)
    (he : ieee 5 10 h = ieee 5 10 h') (hn : ieee 5 10 h ≠ .nan) : h = h' := by
  have d : h = h / 2 ^ 15 * 2 ^ 15 + h % 2 ^ 15 := by omega
  have d' : h' = h / 2 ^ 15 * 2 ^ 15 + h' % 2 ^ 15 := by omega
  have i := ieee_half (h / 2 ^ 15) (h % 2 ^ 15) (by omega) (by omega)
  have i' := ieee_half (h / 2 ^ 15) (h' % 2 ^ 15) (by omega) (by omega)
  rw [← d] at i
  rw [← d'] at i'
  rw [i] at hn
  rw [i, i'] at he
  have key : h % 2 ^ 15 = h' % 2 ^ 15 := by
    by_cases c : h % 2 ^ 15 < 31744
    · rw [if_pos c] at he
      by_cases c' : h' % 2 ^ 15 < 31744
      · rw [if_pos c'] at he
        injection he with he
        apply g_mono.injective
        split at he <;> linarith
      · rw [if_neg c'] at he
        by_cases c3 : h' % 2 ^ 15 = 31744
        · rw [if_pos c3] at he; cases he
        · rw [if_neg c3] at he; cases he
    · rw [if_neg c] at he hn
      by_cases c2 : h % 2 ^ 15 = 31744
      · rw [if_pos c2] at he
        by_cases c' : h' % 2 ^ 15 < 31744
        · rw [if_pos c'] at he; cases he
        · rw [if_neg c'] at he
          by_cases c3 : h' % 2 ^ 15 = 31744
          · omega
          · rw [if_neg c3] at he; cases he
      · rw [if_neg c2] at hn
        exact absurd rfl hn
  omega

/-- **C84**: the specification of the conversion leaves no choice: at most one half meets it. -/
theorem C84_unique (n : XNum) (s : Bool) (h h' : ℕ) (hinf : ∀ t, n = .inf t → t = s) (a : ConvertsTo n s h)
    (b : ConvertsTo n s h') : h = h' := by
  cases n with
  | nan => exact a.1.trans b.1.symm
  | inf t =>
    obtain ⟨a1, a2⟩ := a
    obtain ⟨b1, b2⟩ := b
    have sgn : ∀ k : ℕ, k < 2 ^ 16 → ieee 5 10 k = .inf t → (k / 2 ^ 15 = if t then 1 else 0) := by
      intro k hk he
      have d : k = k / 2 ^ 15 * 2 ^ 15 + k % 2 ^ 15 := by omega
      have i := ieee_half (k / 2 ^ 15) (k % 2 ^ 15) (by omega) (by omega)
      rw [← d, he] at i
      split at i
      · cases i
      split at i
      · injection i with i
        rw [i]
        have : k / 2 ^ 15 < 2 := by omega
        by_cases c : k / 2 ^ 15 = 1
        · rw [decide_eq_true c, if_pos rfl, c]
        · rw [decide_eq_false c, if_neg (by simp)]; omega
      · cases i
    exact half_inj a2 b2 ((sgn h a2 a1).trans (sgn h' b2 b1).symm) (a1.trans b1.symm) (by rw [a1]; simp)
  | num v =>
    obtain ⟨a1, a2, a3, a4⟩ := a
    obtain ⟨b1, b2, b3, b4⟩ := b
    have hs : h / 2 ^ 15 = h' / 2 ^ 15 := by
      have u1 : h / 2 ^ 15 < 2 := by omega
      have u2 : h' / 2 ^ 15 < 2 := by omega
      have := a2.trans b2.symm
      by_cases c : h / 2 ^ 15 = 1
      · rw [c, this.1 c]
      · have c' : ¬ h' / 2 ^ 15 = 1 := fun e => c (this.2 e)
        omega
    rcases lt_or_ge |v| 65520 with hv | hv
    · obtain ⟨q, q1, q2⟩ := a4 hv
      obtain ⟨r, r1, r2⟩ := b4 hv
      have d : |v - q| = |v - r| := le_antisymm (q2 h' r r1).1 (r2 h q q1).1
      have m : |q| = |r| := le_antisymm ((r2 h q q1).2 d.symm) ((q2 h' r r1).2 d)
      have hqr : q = r := by
        rcases abs_eq_abs.1 m with e | e
        · exact e
        · have z : ieee 5 10 0 = .num 0 := by simp [ieee]
          have c1 := (q2 0 0 z).1
          rcases abs_eq_abs.1 d with e' | e'
          · linarith
          · have hv0 : v = 0 := by linarith
            rw [hv0] at c1
            simp at c1
            rw [c1] at e
            linarith
      exact half_inj a1 b1 hs (by rw [q1, r1, hqr]) (by rw [q1]; simp)
    · exact half_inj a1 b1 hs (by rw [a3 hv, b3 hv]) (by rw [a3 hv]; simp)

/-- the nearest half of 1 is 0x3C00 -/
example : ofSingle 0x3F800000 = .ok 0x3C00 ∧ (∀ t, XNum.num 1 = XNum.inf t → t = false) := ⟨by decide, fun t h => by cases h⟩

/-- a half that is a number is its own nearest half -/
theorem converts_self (h : ℕ) (hh : h < 2 ^ 16) (hn : ieee 5 10 h ≠ .nan) :
    ConvertsTo (ieee 5 10 h) (decide (h / 2 ^ 15 = 1)) h ∧ ∀ t, ieee 5 10 h = .inf t → t = decide (h / 2 ^ 15 = 1) := by
  have d : h = h / 2 ^ 15 * 2 ^ 15 + h % 2 ^ 15 := by omega
  have i := ieee_half (h / 2 ^ 15) (h % 2 ^ 15) (by omega) (by omega)
  rw [← d] at i
  by_cases c : h % 2 ^ 15 < 31744
  · rw [if_pos c] at i
    have hlt : |(if h / 2 ^ 15 = 1 then (-1 : ℚ) else 1) * g (h % 2 ^ 15)| < 65520 := by
      have : g (h % 2 ^ 15) ≤ g 31743 := g_mono.monotone (by omega)
      rw [g_top.1] at this
      rw [abs_mul, abs_of_nonneg (g_nonneg _)]
      have h1 : |(if h / 2 ^ 15 = 1 then (-1 : ℚ) else 1)| = 1 := by split <;> simp
      rw [h1]
      linarith
    refine ⟨?_, fun t ht => by rw [i] at ht; cases ht⟩
    have ii := i
    rw [i]
    refine ⟨hh, by simp, fun h2 => absurd hlt (not_lt.2 h2), fun _ => ⟨_, ii, ?_⟩⟩
    intro h' q' hq'
    rw [sub_self, abs_zero]
    refine ⟨abs_nonneg _, fun h0 => ?_⟩
    have := abs_eq_zero.1 h0.symm
    have : q' = (if h / 2 ^ 15 = 1 then (-1 : ℚ) else 1) * g (h % 2 ^ 15) := by linarith
    rw [this]
  · rw [if_neg c] at i
    by_cases c2 : h % 2 ^ 15 = 31744
    · rw [if_pos c2] at i
      have ii := i
      rw [i]
      exact ⟨⟨ii, hh⟩, fun t ht => by injection ht with ht; exact ht.symm⟩
    · rw [if_neg c2] at i
      exact absurd i hn

/-- **C86** (floats): converting a half to float and back restores its bits; every NaN comes back as 0xFE00. -/
theorem C86_roundtrip_single (h : ℕ) (hh : h < 2 ^ 16) : ∃ x y, toSingle h = some (.ok x) ∧
    ofSingle x = .ok y ∧ (ieee 5 10 h = .nan → y = 0xFE00) ∧ (ieee 5 10 h ≠ .nan → y = h) := by
  obtain ⟨x, x1, x2, x3, x4⟩ := C85_single h hh
  obtain ⟨y, y1, y2⟩ := C84_single x x2
  rw [x3] at y2
  refine ⟨x, y, x1, y1, fun hn => ?_, fun hn => ?_⟩
  · rw [hn] at y2
    exact y2.1
  · obtain ⟨z1, z2⟩ := converts_self h hh hn
    rw [x4 hn] at y2
    exact C84_unique _ _ _ _ z2 y2 z1

/-- -1/3 rounded, and a NaN -/
example : toSingle 0xB555 = some (.ok 0xBEAAA000) ∧ ofSingle 0xBEAAA000 = .ok 0xB555 ∧ toSingle 0x7C01 = some (.ok 0xFFC00000) ∧
    ofSingle 0xFFC00000 = .ok 0xFE00 := by decide

/-- **C86** (doubles): converting a half to double and back restores its bits; every NaN comes back as 0xFE00. -/
theorem C86_roundtrip_double (h : ℕ) (hh : h < 2 ^ 16) : ∃ x y, toDoubleHigh h = some (.ok x) ∧
    ofDoubleHigh x = .ok y ∧ (ieee 5 10 h = .nan → y = 0xFE00) ∧ (ieee 5 10 h ≠ .nan → y = h) := by
  obtain ⟨x, x1, x2, x3, x4⟩ := C85_double h hh
  rw [← Nat.add_zero (x * 2 ^ 32)] at x3
  obtain ⟨s, e, m, hs, he, hm, hx, hsign⟩ := fields64 x x2
  have hf := ieee_fields 11 52 s e (m * 2 ^ 32) hs he (by omega)
  have hxe : x * 2 ^ 32 + 0 = s * 2 ^ (11 + 52) + e * 2 ^ 52 + m * 2 ^ 32 := by rw [hx]; ring
  have hnan : ieee 11 52 (x * 2 ^ 32 + 0) = .nan → x % 2 ^ 20 ≠ 0 := by
    intro hc h0
    have m0 : m = 0 := by omega
    rw [hxe, hf, m0] at hc
    split at hc
    · simp at hc
    · split at hc <;> cases hc
  obtain ⟨y, y1, y2⟩ := C84_double_partial x 0 x2 (by norm_num) hnan
  rw [x3] at y2
  refine ⟨x, y, x1, y1, fun hn => ?_, fun hn => ?_⟩
  · rw [hn] at y2
    exact y2.1
  · obtain ⟨z1, z2⟩ := converts_self h hh hn
    rw [x4 hn] at y2
    exact C84_unique _ _ _ _ z2 y2 z1

/-- -1/3 as a half -/
example : toSingle 0xB555 = some (.ok 0xBEAAA000) ∧ ofSingle 0xBEAAA000 = .ok 0xB555 ∧
    toDoubleHigh 0xB555 = some (.ok 0xBFD55400) ∧ ofDoubleHigh 0xBFD55400 = .ok 0xB555 := by decide

/-- **C84**: a float and a double of the same number and sign give the same half. -/
theorem C84_agree (x hi lo : ℕ) (v : ℚ) (hx : x < 2 ^ 32) (hhi : hi < 2 ^ 32) (hlo : lo < 2 ^ 32)
    (e1 : ieee 8 23 x = .num v) (e2 : ieee 11 52 (hi * 2 ^ 32 + lo) = .num v) (hs : x / 2 ^ 31 = hi / 2 ^ 31) :
    ofSingle x = ofDoubleHigh hi := by
  obtain ⟨a, a1, a2⟩ := C84_single x hx
  obtain ⟨b, b1, b2⟩ := C84_double_partial hi lo hhi hlo (by rw [e2]; intro h; cases h)
  rw [e1] at a2
  rw [e2, ← hs] at b2
  rw [a1, b1, C84_unique _ _ _ _ (fun t h => by cases h) a2 b2]

/-- 1.5 as a float and as a double -/
example : ieee 8 23 0x3FC00000 = .num (3 / 2) ∧ ieee 11 52 (0x3FF80000 * 2 ^ 32 + 0) = .num (3 / 2) ∧
    0x3FC00000 / 2 ^ 31 = 0x3FF80000 / 2 ^ 31 := by
  refine ⟨?_, ?_, by norm_num⟩
  · have := ieee_fields 8 23 0 127 (2 ^ 22) (by norm_num) (by norm_num) (by norm_num)
    norm_num at this
    exact this
  · have := ieee_fields 11 52 0 1023 (2 ^ 51) (by norm_num) (by norm_num) (by norm_num)
    norm_num at this
    exact this

/-! ## Arrays -/

/-- **C86** (arrays): `singles2halfp` converts every element and writes nothing else. -/
theorem C86_singles2halfp (src tgt : Mem) (n : ℕ) (hsrc : ∀ i < n, src i < 2 ^ 32) :
    ∃ r, singles2halfp src n tgt = some (.ok r) ∧
      (∀ i < n, ConvertsTo (ieee 8 23 (src i)) (decide (src i / 2 ^ 31 = 1)) (r i)) ∧ ∀ j, n ≤ j → r j = tgt j := by
  choose f f1 f2 using fun (i : Fin n) => C84_single (src i) (hsrc i i.2)
  obtain ⟨r, r1, r2, r3⟩ := copyLoop_spec (fun x => some (ofSingle x)) (fun i => if h : i < n then f ⟨i, h⟩ else 0) 1 1
    (le_refl 1) src n 0 0 tgt (fun i hi => by
      rw [Nat.zero_add, Nat.mul_one, dif_pos hi]
      exact congrArg some (f1 ⟨i, hi⟩))
  refine ⟨r, r1, fun i hi => ?_, fun j hj => r3 j (fun i hi => by omega)⟩
  have := r2 i hi
  rw [Nat.zero_add, Nat.mul_one, dif_pos hi] at this
  rw [this]
  exact f2 ⟨i, hi⟩

/-- two floats, 1 and -2, over a target that is not zero: the third element stays -/
example : (singles2halfp (fun i => if i = 0 then 0x3F800000 else 0xC0000000) 2 (fun _ => 7)).map
    (fun r => r.map (fun m => (m 0, m 1, m 2))) = some (.ok (0x3C00, 0xC000, 7)) := by decide

/-- **C86** (arrays): `doubles2halfp` converts every double, whose words are stored in the order that `next` says, and writes
nothing else; NaNs with an empty upper fraction excepted (`C84_double_nan_wrong`). -/
theorem C86_doubles2halfp_partial (next : ℕ) (hnext : next ≤ 1) (src tgt : Mem) (n : ℕ)
    (hsrc : ∀ j < 2 * n, src j < 2 ^ 32)
    (hnan : ∀ i < n, ieee 11 52 (src (2 * i + next) * 2 ^ 32 + src (2 * i + (1 - next))) = .nan →
      src (2 * i + next) % 2 ^ 20 ≠ 0) :
    ∃ r, doubles2halfp next src n tgt = some (.ok r) ∧
      (∀ i < n, ConvertsTo (ieee 11 52 (src (2 * i + next) * 2 ^ 32 + src (2 * i + (1 - next))))
        (decide (src (2 * i + next) / 2 ^ 31 = 1)) (r i)) ∧ ∀ j, n ≤ j → r j = tgt j := by
  choose f f1 f2 using fun (i : Fin n) => C84_double_partial (src (2 * i + next)) (src (2 * i + (1 - next)))
    (hsrc _ (by omega)) (hsrc _ (by omega)) (hnan i i.2)
  obtain ⟨r, r1, r2, r3⟩ := copyLoop_spec (fun x => some (ofDoubleHigh x)) (fun i => if h : i < n then f ⟨i, h⟩ else 0) 2 1
    (le_refl 1) src n next 0 tgt (fun i hi => by
      rw [dif_pos hi, Nat.add_comm, Nat.mul_comm i 2]
      exact congrArg some (f1 ⟨i, hi⟩))
  refine ⟨r, r1, fun i hi => ?_, fun j hj => r3 j (fun i hi => by omega)⟩
  have := r2 i hi
  rw [Nat.zero_add, Nat.mul_one, dif_pos hi] at this
  rw [this]
  exact f2 ⟨i, hi⟩

/-- a little endian double, 1: lower word first -/
example : (doubles2halfp 1 (fun j => if j = 1 then 0x3FF00000 else 0) 1 (fun _ => 7)).map
    (fun r => r.map (fun m => (m 0, m 1))) = some (.ok (0x3C00, 7)) ∧
    (0x3FF00000 % 2 ^ 20 = 0 → (0x3FF00000 / 2 ^ 20) % 2 ^ 11 ≠ 2047) := by decide

/-- **C86** (arrays): `halfp2singles` converts every element exactly and writes nothing else. -/
theorem C86_halfp2singles (src tgt : Mem) (n : ℕ) (hsrc : ∀ i < n, src i < 2 ^ 16) :
    ∃ r, halfp2singles src n tgt = some (.ok r) ∧
      (∀ i < n, r i < 2 ^ 32 ∧ ieee 8 23 (r i) = ieee 5 10 (src i)) ∧ ∀ j, n ≤ j → r j = tgt j := by
  choose f f1 f2 f3 f4 using fun (i : Fin n) => C85_single (src i) (hsrc i i.2)
  obtain ⟨r, r1, r2, r3⟩ := copyLoop_spec toSingle (fun i => if h : i < n then f ⟨i, h⟩ else 0) 1 1
    (le_refl 1) src n 0 0 tgt (fun i hi => by
      rw [Nat.zero_add, Nat.mul_one, dif_pos hi]
      exact f1 ⟨i, hi⟩)
  refine ⟨r, r1, fun i hi => ?_, fun j hj => r3 j (fun i hi => by omega)⟩
  have := r2 i hi
  rw [Nat.zero_add, Nat.mul_one, dif_pos hi] at this
  rw [this]
  exact ⟨f2 ⟨i, hi⟩, f3 ⟨i, hi⟩⟩

/-- two halfs, 1 and the least subnormal -/
example : (halfp2singles (fun i => if i = 0 then 0x3C00 else 1) 2 (fun _ => 7)).map
    (fun r => r.map (fun m => (m 0, m 1, m 2))) = some (.ok (0x3F800000, 0x33800000, 7)) := by decide

/-- **C86** (arrays): `halfp2doubles` converts every element exactly if the target was filled with zeros before. -/
theorem C86_halfp2doubles_partial (next : ℕ) (hnext : next ≤ 1) (src tgt : Mem) (n : ℕ) (hsrc : ∀ i < n, src i < 2 ^ 16)
    (htgt : ∀ i < n, tgt (2 * i + (1 - next)) = 0) :
    ∃ r, halfp2doubles next src n tgt = some (.ok r) ∧
      (∀ i < n, ieee 11 52 (r (2 * i + next) * 2 ^ 32 + r (2 * i + (1 - next))) = ieee 5 10 (src i)) ∧
      ∀ j, 2 * n ≤ j → r j = tgt j := by
  choose f f1 f2 f3 f4 using fun (i : Fin n) => C85_double (src i) (hsrc i i.2)
  obtain ⟨r, r1, r2, r3⟩ := copyLoop_spec toDoubleHigh (fun i => if h : i < n then f ⟨i, h⟩ else 0) 1 2
    (by norm_num) src n 0 next tgt (fun i hi => by
      rw [Nat.zero_add, Nat.mul_one, dif_pos hi]
      exact f1 ⟨i, hi⟩)
  refine ⟨r, r1, fun i hi => ?_, fun j hj => r3 j (fun i hi => by omega)⟩
  have h1 := r2 i hi
  rw [dif_pos hi, Nat.add_comm, Nat.mul_comm i 2] at h1
  have h2 := r3 (2 * i + (1 - next)) (fun i' _ => by omega)
  rw [h1, h2, htgt i hi, Nat.add_zero]
  exact f3 ⟨i, hi⟩

/-- a half, 1, into a cleared little endian double -/
example : (halfp2doubles 1 (fun _ => 0x3C00) 1 (fun j => if j < 2 then 0 else 7)).map
    (fun r => r.map (fun m => (m 0, m 1, m 2))) = some (.ok (0, 0x3FF00000, 7)) := by decide

/-- **C86** fails for every half but NaN if the lower word of its target was not zero: it is not written. -/
theorem C86_halfp2doubles_wrong (next : ℕ) (hnext : next ≤ 1) (src tgt : Mem) (n i : ℕ) (hi : i < n)
    (hsrc : ∀ i < n, src i < 2 ^ 16) (hn : ieee 5 10 (src i) ≠ .nan)
    (h0 : tgt (2 * i + (1 - next)) ≠ 0) (hlt : tgt (2 * i + (1 - next)) < 2 ^ 32) :
    ∃ r, halfp2doubles next src n tgt = some (.ok r) ∧
      ieee 11 52 (r (2 * i + next) * 2 ^ 32 + r (2 * i + (1 - next))) ≠ ieee 5 10 (src i) := by
  choose f f1 f2 f3 f4 using fun (i : Fin n) => C85_double (src i) (hsrc i i.2)
  obtain ⟨r, r1, r2, r3⟩ := copyLoop_spec toDoubleHigh (fun i => if h : i < n then f ⟨i, h⟩ else 0) 1 2
    (by norm_num) src n 0 next tgt (fun i hi => by
      rw [Nat.zero_add, Nat.mul_one, dif_pos hi]
      exact f1 ⟨i, hi⟩)
  refine ⟨r, r1, ?_⟩
  have h1 := r2 i hi
  rw [dif_pos hi, Nat.add_comm, Nat.mul_comm i 2] at h1
  have h2 := r3 (2 * i + (1 - next)) (fun i' _ => by omega)
  rw [h1, h2, ← f3 ⟨i, hi⟩]
  have hn' : ieee 11 52 (f ⟨i, hi⟩ * 2 ^ 32) ≠ .nan := by rw [f3 ⟨i, hi⟩]; exact hn
  have hf2 := f2 ⟨i, hi⟩
  generalize f ⟨i, hi⟩ = x at hf2 hn'
  generalize tgt (2 * i + (1 - next)) = lo at h0 hlt
  clear h1 h2 r1 r2 r3 f1 f2 f3 f4
  obtain ⟨s, e, m, hs, he, hm, hx, -⟩ := fields64 x hf2
  have hxe : x * 2 ^ 32 = s * 2 ^ (11 + 52) + e * 2 ^ 52 + m * 2 ^ 32 := by rw [hx]; ring
  have hxe2 : x * 2 ^ 32 + lo = s * 2 ^ (11 + 52) + e * 2 ^ 52 + (m * 2 ^ 32 + lo) := by rw [hx]; ring
  rw [hxe] at hn' ⊢
  rw [show s * 2 ^ (11 + 52) + e * 2 ^ 52 + m * 2 ^ 32 + lo = s * 2 ^ (11 + 52) + e * 2 ^ 52 + (m * 2 ^ 32 + lo) by ring]
  clear hx hxe hxe2 hf2
  rw [ieee_fields 11 52 s e _ hs he (by omega)] at hn'
  rw [ieee_fields 11 52 s e _ hs he (by omega), ieee_fields 11 52 s e _ hs he (by omega)]
  have hlo : (lo : ℚ) ≠ 0 := by exact_mod_cast h0
  by_cases c1 : e = 2 ^ 11 - 1
  · rw [if_pos c1] at hn' ⊢
    rw [if_pos c1]
    by_cases c2 : m * 2 ^ 32 = 0
    · rw [if_pos c2, if_neg (by omega)]
      intro h; cases h
    · rw [if_neg c2] at hn'
      exact absurd rfl hn'
  · rw [if_neg c1, if_neg c1]
    have hp : ∀ z : ℤ, (2 : ℚ) ^ z ≠ 0 := fun z => by positivity
    by_cases c2 : e = 0
    · rw [if_pos c2, if_pos c2]
      intro h
      injection h with h
      push_cast at h
      
      split at h
      · rw [mul_right_inj' (by norm_num), mul_left_inj' (hp _)] at h
        apply hlo; linarith
      · rw [mul_right_inj' (by norm_num), mul_left_inj' (hp _)] at h
        apply hlo; linarith
    · rw [if_neg c2, if_neg c2]
      intro h
      injection h with h
      push_cast at h
      
      split at h
      · rw [mul_right_inj' (by norm_num), mul_left_inj' (hp _)] at h
        apply hlo; linarith
      · rw [mul_right_inj' (by norm_num), mul_left_inj' (hp _)] at h
        apply hlo; linarith

/-- a single half 1.0 on a little endian machine, target filled with ones -/
example : (1 : ℕ) ≤ 1 ∧ (0 : ℕ) < 1 ∧ (∀ i < 1, (fun _ => 0x3C00 : Mem) i < 2 ^ 16) ∧
    (fun _ => 0xFFFFFFFF : Mem) (2 * 0 + (1 - 1)) ≠ 0 := by decide

/-! ## Platforms -/

/-- **C86** (platforms): with a four byte word type the check succeeds and finds the byte order. -/
theorem C86_check (little : Bool) : check 4 little = some (if little then 1 else 0) := by
  cases little <;> decide

/-- **C86** (platforms): where `long` has four bytes the routines of ieeehalfprecision.c return 0 and do the same as those of
halfprecision.c. -/
theorem C86_ieee (little : Bool) (src tgt : Mem) (n : ℕ) :
    ieeeSingles2halfp 4 little src n tgt = (singles2halfp src n tgt).map (fun r => r.map (fun m => (0, m))) ∧
    ieeeDoubles2halfp 4 little src n tgt =
      (doubles2halfp (if little then 1 else 0) src n tgt).map (fun r => r.map (fun m => (0, m))) ∧
    ieeeHalfp2singles 4 little src n tgt = (halfp2singles src n tgt).map (fun r => r.map (fun m => (0, m))) ∧
    ieeeHalfp2doubles 4 little src n tgt =
      (halfp2doubles (if little then 1 else 0) src n tgt).map (fun r => r.map (fun m => (0, m))) := by
  unfold ieeeSingles2halfp ieeeDoubles2halfp ieeeHalfp2singles ieeeHalfp2doubles
  rw [C86_check]
  exact ⟨rfl, rfl, rfl, rfl⟩

example : (ieeeHalfp2singles 4 true (fun i => if i = 0 then 0x3C00 else 1) 2 (fun _ => 7)).map
    (fun r => r.map (fun m => (m.1, m.2 0, m.2 1, m.2 2))) = some (.ok (0, 0x3F800000, 0x33800000, 7)) := by decide

/-- **C86** fails for ieeehalfprecision.c where `long` has eight bytes (64-bit Linux): every routine returns 1 and converts
nothing. -/
theorem C86_long64_wrong (little : Bool) (src tgt : Mem) (n : ℕ) :
    ieeeSingles2halfp 8 little src n tgt = some (.ok (1, tgt)) ∧ ieeeDoubles2halfp 8 little src n tgt = some (.ok (1, tgt)) ∧
    ieeeHalfp2singles 8 little src n tgt = some (.ok (1, tgt)) ∧ ieeeHalfp2doubles 8 little src n tgt = some (.ok (1, tgt)) := by
  have h : check 8 little = none := by cases little <;> decide
  unfold ieeeSingles2halfp ieeeDoubles2halfp ieeeHalfp2singles ieeeHalfp2doubles
  rw [h]
  exact ⟨rfl, rfl, rfl, rfl⟩

end Verif.HalfPrec
