import Verif.Props.Laws
import Verif.Props.Fixed
import Verif.Lemmas.Spacing

/-!
# C71: posits compute exactly with small integers

`m ≤ fracBits N es m`: a posit of exponent `m` has at least `m` fraction bits, so that the integers below `2^(m+1)` are
posits.
-/

namespace Verif
open Fmt

variable {c : Cfg}

/-! ## Integers that are posits -/

theorem intLogQ {n : ℤ} (h0 : n ≠ 0) : Int.log 2 |(n : ℚ)| = (n.natAbs.log2 : ℤ) := by
  obtain ⟨h1, h2⟩ := intLog n h0
  have e : |(n : ℚ)| = (n.natAbs : ℚ) := by rw [Nat.cast_natAbs]; push_cast; rfl
  have hpos : (0 : ℚ) < n.natAbs := by
    have : 0 < n.natAbs := by omega
    exact_mod_cast this
  rw [e]
  apply le_antisymm
  · have := (Int.lt_zpow_iff_log_lt (b := 2) (by norm_num) hpos (x := (n.natAbs.log2 : ℤ) + 1)).mp (by
      have : ((n.natAbs.log2 : ℤ) + 1) = ((n.natAbs.log2 + 1 : ℕ) : ℤ) := by push_cast; rfl
      rw [this, zpow_natCast]; exact_mod_cast h2)
    omega
  · exact (Int.zpow_le_iff_le_log (b := 2) (by norm_num) hpos).mp (by rw [zpow_natCast]; exact_mod_cast h1)

theorem log2_le_of_lt {n : ℤ} {m : ℕ} (h0 : n ≠ 0) (h : |n| < 2 ^ (m + 1)) : n.natAbs.log2 ≤ m := by
  have : n.natAbs < 2 ^ (m + 1) := by zify; exact h
  have := (Nat.log2_lt (by omega : n.natAbs ≠ 0)).mpr this
  omega

theorem fracBits_maxScale (h : c.WF) : fracBits c.N c.es c.maxScale < 0 := by
  have := h.N_ge
  unfold fracBits runExtra Cfg.maxScale
  push_cast
  rw [Int.mul_ediv_cancel_left _ (by positivity)]
  omega

theorem int_real (h : c.WF) {m : ℕ} (hm : (m : ℤ) ≤ fracBits c.N c.es m) {n : ℤ} (hn : |n| < 2 ^ (m + 1)) :
    ∃ v, c.fmt.IsReal v ∧ c.fmt.val v = n := by
  by_cases h0 : n = 0
  · subst h0
    exact ⟨0, by unfold Format.IsReal; omega, by simp⟩
  suffices key : ∀ k : ℕ, k ≠ 0 → k < 2 ^ (m + 1) → ∃ p : ℕ, 1 ≤ p ∧ p ≤ c.fmt.maxBody ∧ posVal c.N c.es p = k by
    obtain ⟨p, p1, p2, p3⟩ := key n.natAbs (by omega) (by zify; exact hn)
    have hk : ((n.natAbs : ℕ) : ℚ) = |(n : ℚ)| := by rw [Nat.cast_natAbs]; push_cast; rfl
    rcases lt_or_gt_of_ne h0 with hneg | hpos
    · refine ⟨-(p : ℤ), ?_, ?_⟩
      · rw [Format.isReal_iff]; simpa using p2
      · rw [Format.val_neg, Format.val_natCast p1]
        have : posVal c.fmt.N c.fmt.es p = posVal c.N c.es p := rfl
        have hq : (n : ℚ) < 0 := by exact_mod_cast hneg
        rw [this, p3, hk, abs_of_neg hq, neg_neg]
    · refine ⟨(p : ℤ), ?_, ?_⟩
      · rw [Format.isReal_iff]; simpa using p2
      · rw [Format.val_natCast p1]
        have : posVal c.fmt.N c.fmt.es p = posVal c.N c.es p := rfl
        have hq : (0 : ℚ) < n := by exact_mod_cast hpos
        rw [this, p3, hk, abs_of_pos hq]
  intro k hk0 hk
  set L := k.log2 with hL
  have hL1 : 2 ^ L ≤ k := Nat.log2_self_le hk0
  have hL2 : k < 2 ^ (L + 1) := Nat.lt_log2_self
  have hLm : L ≤ m := by
    have := (Nat.log2_lt hk0).mpr hk
    omega
  have hfb : (L : ℤ) ≤ fracBits c.N c.es L := by
    have := (fracBits_step (N := c.N) (es := c.es) (e := m) (e' := L) (by exact_mod_cast hLm)).1
    omega
  obtain ⟨J, hJ⟩ : ∃ J : ℕ, fracBits c.N c.es L = J := ⟨(fracBits c.N c.es L).toNat, by omega⟩
  have hLJ : L ≤ J := by omega
  have hd : 2 ^ J = 2 ^ L * 2 ^ (J - L) := by rw [← pow_add]; congr 1; omega
  have hd' : 2 ^ (J + 1) = 2 ^ (L + 1) * 2 ^ (J - L) := by rw [← pow_add]; congr 1; omega
  have hp : 0 < 2 ^ (J - L) := by positivity
  obtain ⟨p, p1, p2, p3⟩ := exists_posVal (N := c.N) (es := c.es) hJ (n := k * 2 ^ (J - L))
    (by rw [hd]; exact Nat.mul_le_mul_right _ hL1) (by rw [hd']; exact Nat.mul_lt_mul_of_pos_right hL2 hp)
  have hv : posVal c.N c.es p = k := by
    rw [p3]
    push_cast
    rw [mul_assoc, ← zpow_natCast, ← zpow_add₀ (by norm_num)]
    have : ((J - L : ℕ) : ℤ) + ((L : ℤ) - J) = 0 := by omega
    rw [this]; simp
  refine ⟨p, p1, ?_, hv⟩
  have hmb := maxBody_ge h
  by_contra hgt
  have hpe : p = 2 ^ (c.N - 1) - 1 := by omega
  have h4 : 4 ≤ 2 ^ (c.N - 1) := by have := h.pow_ge; exact_mod_cast this
  have hr := posVal_reflect (N := c.N) (es := c.es) (p := 1) le_rfl (by omega) (posVal_one h)
  rw [← hpe, hv, neg_neg, zpow_natCast] at hr
  have hke : k = 2 ^ c.maxScale := by exact_mod_cast hr
  have : L = c.maxScale := by rw [hL, hke, Nat.log2_two_pow]
  have := fracBits_maxScale h
  rw [← ‹L = c.maxScale›] at this
  omega

theorem fracBits_le (N es : ℕ) (e : ℤ) : fracBits N es e ≤ (N : ℤ) - 3 - es := by
  unfold fracBits runExtra; omega

theorem m_le_fb (h : c.WF) {m : ℕ} (hm : (m : ℤ) ≤ fracBits c.N c.es m) : m ≤ c.fb := by
  have := fracBits_le c.N c.es m
  have := h.hes
  unfold Cfg.fb
  omega

/-- numbers between `2^-(m+1)` and `2^(m+1)` are packed without undefined behaviour -/
theorem safeMag_int (h : c.WF) {m : ℕ} (hm : (m : ℤ) ≤ fracBits c.N c.es m) {y : ℚ}
    (h1 : (2 : ℚ) ^ (-((m : ℤ) + 1)) ≤ |y|) (h2 : |y| < 2 ^ ((m : ℤ) + 1)) : c.SafeMag y := by
  have hN := h.hN
  have hN3 := h.N_ge
  have hes := h.hes
  have hpw := le_pw c.H
  have hpw32 := le_pw32 c.H
  have hp := Nat.one_le_two_pow (n := c.es)
  have hb : m + 1 ≤ c.packBound := by
    set q := pw c.H - 3 - (if c.N < pw c.H then 0 else c.es) with hq
    have hf : (m : ℤ) ≤ (c.N : ℤ) - 3 - c.es - (m : ℤ) / 2 ^ c.es := by
      have : fracBits c.N c.es m = (c.N : ℤ) - 3 - c.es - (m : ℤ) / 2 ^ c.es := by
        have : (0 : ℤ) ≤ (m : ℤ) / 2 ^ c.es := by positivity
        unfold fracBits runExtra
        omega
      omega
    have hdiv : (0 : ℤ) ≤ (m : ℤ) / 2 ^ c.es := by positivity
    have hq2 : m ≤ q ∧ 2 ≤ q := by
      rw [hq]
      split_ifs with hlt
      · omega
      · have hHN : c.N = pw c.H := by omega
        have hH : c.H = 32 := by
          have := h.hH
          have := h.h64
          unfold pw at *
          omega
        have hsc := h.hscale (by omega)
        have hN32 : c.N = 32 := by rw [hHN, hH]; rfl
        have hes27 : c.es ≤ 26 := by
          by_contra hc
          have : 2 ^ 27 ≤ 2 ^ c.es := Nat.pow_le_pow_right (by norm_num) (by omega)
          rw [hN32] at hsc
          omega
        omega
    have hpb : c.packBound = 2 ^ c.es * q := rfl
    rw [hpb]
    by_cases he : c.es = 0
    · rw [he] at hf ⊢
      simp only [pow_zero, Int.ediv_one, one_mul] at hf ⊢
      have : c.N ≤ pw c.H := by omega
      have : pw c.H - 3 ≤ q + c.es := by rw [hq]; split_ifs <;> omega
      omega
    · have : 2 ^ 1 ≤ 2 ^ c.es := Nat.pow_le_pow_right (by norm_num) (by omega)
      nlinarith
  exact ⟨Or.inl (le_trans (zpow_le_zpow_right₀ (by norm_num) (by omega)) h1),
    Or.inl (lt_of_lt_of_le h2 (zpow_le_zpow_right₀ (by norm_num) (by omega)))⟩

/-! ## Sums of integers -/

theorem alignedSum_int {F : ℕ} (hF : 8 ≤ F) {a b : ℤ} (ha : |a| < 2 ^ (F - 2)) (hb : |b| < 2 ^ (F - 2)) :
    alignedSum F a b = ((a + b : ℤ) : ℚ) ∧ SumOK F a b := by
  by_cases ha0 : a = 0
  · subst ha0
    exact ⟨by simp [alignedSum], Or.inl (by simp)⟩
  by_cases hb0 : b = 0
  · subst hb0
    refine ⟨?_, Or.inr (Or.inl (by simp))⟩
    unfold alignedSum
    rw [if_neg (by exact_mod_cast ha0)]; simp
  have e2 : F - 2 = (F - 3) + 1 := by omega
  rw [e2] at ha hb
  have la := log2_le_of_lt ha0 ha
  have lb := log2_le_of_lt hb0 hb
  have qa := intLogQ ha0
  have qb := intLogQ hb0
  set u := sumUnit F a b with hu
  have hu' : u = 2 ^ (max (a.natAbs.log2 : ℤ) b.natAbs.log2 + 2 - F : ℤ) := by rw [hu, sumUnit, qa, qb]
  obtain ⟨j, hj⟩ : ∃ j : ℕ, max (a.natAbs.log2 : ℤ) b.natAbs.log2 + 2 - F = -((j : ℤ) + 1) :=
    ⟨(F - 3 - max (a.natAbs.log2 : ℤ) b.natAbs.log2).toNat, by omega⟩
  rw [hj] at hu'
  have upos : 0 < u := by rw [hu']; positivity
  have one : (1 : ℚ) = 2 ^ (j + 1) * u := by
    rw [hu', ← zpow_natCast, ← zpow_add₀ (by norm_num)]; push_cast; simp
  have ex : ∀ n : ℤ, cutTo u n = n := fun n => by
    refine cutTo_multiple upos (n := n.natAbs * 2 ^ (j + 1)) ?_
    push_cast
    rw [mul_assoc, ← one, mul_one, Nat.cast_natAbs]; push_cast; rfl
  have hs : cutSum F a b = ((a + b : ℤ) : ℚ) := by
    unfold cutSum
    rw [← hu, ex, ex]; push_cast; rfl
  refine ⟨?_, Or.inr (Or.inr ⟨?_, ?_⟩)⟩
  · unfold alignedSum
    rw [if_neg (by exact_mod_cast ha0), if_neg (by exact_mod_cast hb0), hs]
  · rw [qa, qb]
    unfold pw
    rw [abs_lt]; push_cast
    constructor <;> omega
  · rintro ⟨-, he⟩
    rw [hs, ← hu] at he
    have hlt : u < 1 := by
      rw [hu']; exact zpow_lt_one_of_neg₀ (by norm_num) (by omega)
    by_cases h0 : a + b = 0
    · rw [h0] at he; simp at he; linarith
    · have : (1 : ℚ) ≤ |((a + b : ℤ) : ℚ)| := by
        have : 1 ≤ |a + b| := Int.one_le_abs h0
        exact_mod_cast this
      linarith

theorem foldl_int {F : ℕ} (hF : 8 ≤ F) : ∀ (l : List ℤ) (s : ℤ), |s| + (l.map fun p : ℤ => |p|).sum < 2 ^ (F - 2) →
    FoldOK F s (l.map fun p : ℤ => (p : ℚ)) ∧ (l.map fun p : ℤ => (p : ℚ)).foldl (alignedSum F) s = ((s + l.sum : ℤ) : ℚ)
  | [], s, _ => ⟨trivial, by simp⟩
  | p :: l, s, hb => by
    have hn : 0 ≤ (l.map fun p : ℤ => |p|).sum := List.sum_nonneg (by simp)
    simp only [List.map_cons, List.sum_cons] at hb ⊢
    obtain ⟨h1, h2⟩ := alignedSum_int hF (a := s) (b := p) (by have := abs_nonneg p; omega) (by have := abs_nonneg s; omega)
    obtain ⟨h3, h4⟩ := foldl_int hF l (s + p) (by have := abs_add_le s p; omega)
    refine ⟨⟨h2, by rw [h1]; exact h3⟩, ?_⟩
    rw [List.foldl_cons, h1, h4]
    congr 1; ring

/-! ## C71 -/

/-- the instantiation represents the integers below `2^(m+1)`, and its arithmetic has the bits to work on them -/
structure Cfg.Ints (c : Cfg) (m : ℕ) : Prop where
  wf : c.WF
  hm : (m : ℤ) ≤ fracBits c.N c.es m
  m30 : m ≤ 30
  hF : c.fb + 2 ≤ c.F
  hmF : m + 3 ≤ c.F

theorem ints_P8 : P8.Ints 2 := ⟨by decide +kernel, by decide +kernel, by decide, by decide, by decide⟩

theorem ints_P16 : P16.Ints 9 := ⟨by decide +kernel, by decide +kernel, by decide, by decide, by decide⟩

theorem ints_P32 : P32.Ints 23 := ⟨by decide +kernel, by decide +kernel, by decide, by decide, by decide⟩

variable {m : ℕ}

theorem Cfg.Ints.safe (h : c.Ints m) {n : ℤ} (h0 : n ≠ 0) (hn : |n| < 2 ^ (m + 1)) : c.SafeMag n := by
  have e : |(n : ℚ)| = ((|n| : ℤ) : ℚ) := by push_cast; rfl
  refine safeMag_int h.wf h.hm ?_ ?_
  · have : (1 : ℚ) ≤ |(n : ℚ)| := by rw [e]; exact_mod_cast Int.one_le_abs h0
    exact le_trans (zpow_le_one_of_nonpos₀ (by norm_num) (by omega)) this
  · rw [e]
    have : ((m : ℤ) + 1) = ((m + 1 : ℕ) : ℤ) := by push_cast; rfl
    rw [this, zpow_natCast]; exact_mod_cast hn

/-- **C71**: every integer below `2^(m+1)` is a posit, and converting it from `int` is exact. -/
theorem C71_ofInt (h : c.Ints m) {n : ℤ} (hn : |n| < 2 ^ (m + 1)) :
    ∃ v, Posit.ofInt c n = .ok v ∧ c.fmt.IsReal v ∧ c.fmt.val v = n := by
  obtain ⟨v, hv, he⟩ := int_real h.wf h.hm hn
  by_cases h0 : n = 0
  · subst h0
    refine ⟨0, C20_zero h.wf, by unfold Format.IsReal; omega, by simp⟩
  · have hb : (2 : ℤ) ^ (m + 1) ≤ 2 ^ 31 := pow_le_pow_right₀ (by norm_num) (by have := h.m30; omega)
    rw [abs_lt] at hn
    exact ⟨v, C20_exact_partial h.wf h0 (by omega) (by omega) (Or.inl (by have := h.hF; omega)) (h.safe h0 (abs_lt.mpr hn)) hv he,
      hv, he⟩

example : P32.Ints 23 ∧ |(-12345678 : ℤ)| < 2 ^ (23 + 1) ∧ ∃ v, Posit.ofInt P32 (-12345678) = .ok v ∧ P32.fmt.val v = -12345678 :=
  ⟨ints_P32, by decide, _, rfl, by decide +kernel⟩

/-- the posit of an integer is the only one of that value -/
theorem Cfg.Ints.ofInt_eq (h : c.Ints m) {n v : ℤ} (hn : |n| < 2 ^ (m + 1)) (hv : c.fmt.IsReal v) (he : c.fmt.val v = n) :
    Posit.ofInt c n = .ok v := by
  obtain ⟨w, h1, h2, h3⟩ := C71_ofInt h hn
  rw [h1, (Format.val_inj h2.inRange hv.inRange).mp (h3.trans he.symm)]

theorem Cfg.Ints.of_cut (h : c.Ints m) {n v : ℤ} {r : M ℤ} (hn : |n| < 2 ^ (m + 1)) (hr : r = .ok v) (hc : c.fmt.IsCut0 n v) :
    r = Posit.ofInt c n := by
  obtain ⟨w, h1, h2, h3⟩ := C71_ofInt h hn
  rw [hr, h1, isCut0_unique hc (h3 ▸ isCut0_self h2)]

theorem Cfg.Ints.val_ofInt (h : c.Ints m) {n v : ℤ} (hn : |n| < 2 ^ (m + 1)) (hv : Posit.ofInt c n = .ok v) :
    c.fmt.IsReal v ∧ c.fmt.val v = n := by
  obtain ⟨w, h1, h2, h3⟩ := C71_ofInt h hn
  rw [h1] at hv
  cases hv
  exact ⟨h2, h3⟩

theorem Cfg.Ints.zero_or_safe (h : c.Ints m) {n : ℤ} (hn : |n| < 2 ^ (m + 1)) : (n : ℚ) = 0 ∨ c.SafeMag n := by
  by_cases h0 : n = 0
  · exact Or.inl (by exact_mod_cast h0)
  · exact Or.inr (h.safe h0 hn)

/-- **C71**: sums, differences and products of small integers are exact: the posit result is the posit of the integer
result, whenever that one is below `2^(m+1)`. -/
theorem C71_arith (h : c.Ints m) {a b x y : ℤ} (ha : |a| < 2 ^ (m + 1)) (hb : |b| < 2 ^ (m + 1))
    (hx : Posit.ofInt c a = .ok x) (hy : Posit.ofInt c b = .ok y) :
    (|a + b| < 2 ^ (m + 1) → Posit.add c x y = Posit.ofInt c (a + b)) ∧
    (|a - b| < 2 ^ (m + 1) → Posit.sub c x y = Posit.ofInt c (a - b)) ∧
    (|a * b| < 2 ^ (m + 1) → Posit.mul c x y = Posit.ofInt c (a * b)) ∧
    Posit.neg c x = Posit.ofInt c (-a) := by
  obtain ⟨rx, vx⟩ := h.val_ofInt ha hx
  obtain ⟨ry, vy⟩ := h.val_ofInt hb hy
  have hF8 := h.wf.F_pos
  have hpow : (2 : ℤ) ^ (m + 1) ≤ 2 ^ (c.F - 2) := pow_le_pow_right₀ (by norm_num) (by have := h.hmF; omega)
  refine ⟨fun hr => ?_, fun hr => ?_, fun hr => ?_, ?_⟩
  · obtain ⟨h1, h2⟩ := alignedSum_int hF8 (lt_of_lt_of_le ha hpow) (lt_of_lt_of_le hb hpow)
    have key := (C63_add h.wf rx ry).1
    rw [vx, vy, h1] at key
    obtain ⟨v, hv, hc⟩ := key (Or.inr (Or.inr ⟨h2, h.zero_or_safe hr⟩))
    exact h.of_cut hr hv hc
  · have e : -(b : ℚ) = ((-b : ℤ) : ℚ) := by push_cast; rfl
    obtain ⟨h1, h2⟩ := alignedSum_int hF8 (lt_of_lt_of_le ha hpow) (b := -b) (by rw [abs_neg]; exact lt_of_lt_of_le hb hpow)
    have key := (C63_sub h.wf rx ry).1
    rw [vx, vy, e, h1, ← sub_eq_add_neg] at key
    obtain ⟨v, hv, hc⟩ := key (Or.inr (Or.inr ⟨h2, h.zero_or_safe hr⟩))
    exact h.of_cut hr hv hc
  · have key := (outcome_mul h.wf h.hF rx ry).1
    rw [vx, vy] at key
    have e : (a : ℚ) * b = ((a * b : ℤ) : ℚ) := by push_cast; rfl
    rw [e] at key
    obtain ⟨v, hv, hc⟩ := key (h.zero_or_safe hr)
    exact h.of_cut hr hv hc
  · rw [h.ofInt_eq (n := -a) (v := -x) (by rwa [abs_neg]) rx.neg (by rw [Format.val_neg, vx]; push_cast; rfl)]
    exact neg_ok h.wf rx.inRange

example : P16.Ints 9 ∧ |(700 : ℤ)| < 2 ^ (9 + 1) ∧ |(23 : ℤ) * 41| < 2 ^ (9 + 1) ∧
    (do Posit.mul P16 (← Posit.ofInt P16 23) (← Posit.ofInt P16 41)) = Posit.ofInt P16 943 ∧
    (do Posit.sub P16 (← Posit.ofInt P16 23) (← Posit.ofInt P16 700)) = Posit.ofInt P16 (-677) :=
  ⟨ints_P16, by decide, by decide, by decide +kernel⟩

/-- **C71**: a quotient of small integers is exact if it is an integer. -/
theorem C71_div_exact (h : c.Ints m) {a b x y : ℤ} (ha : |a| < 2 ^ (m + 1)) (hb : |b| < 2 ^ (m + 1)) (hb0 : b ≠ 0)
    (hd : b ∣ a) (hx : Posit.ofInt c a = .ok x) (hy : Posit.ofInt c b = .ok y) :
    Posit.div c x y = Posit.ofInt c (a / b) := by
  obtain ⟨rx, vx⟩ := h.val_ofInt ha hx
  obtain ⟨ry, vy⟩ := h.val_ofInt hb hy
  obtain ⟨k, rfl⟩ := hd
  rw [Int.mul_ediv_cancel_left _ hb0]
  have hk : |k| < 2 ^ (m + 1) := by
    rw [abs_mul] at ha
    have := Int.one_le_abs hb0
    have := abs_nonneg k
    nlinarith
  have hq : (b : ℚ) ≠ 0 := by exact_mod_cast hb0
  have hy0 : y ≠ 0 := by
    rintro rfl
    rw [Format.val_zero] at vy
    exact hq vy.symm
  have key := (outcome_div h.wf h.hF rx ry hy0).1
  rw [vx, vy] at key
  have e : ((b * k : ℤ) : ℚ) / b = k := by push_cast; field_simp
  rw [e] at key
  obtain ⟨v, hv, hc⟩ := key (h.zero_or_safe hk)
  exact h.of_cut hk hv hc

example : P16.Ints 9 ∧ (23 : ℤ) ∣ 943 ∧ (do Posit.div P16 (← Posit.ofInt P16 943) (← Posit.ofInt P16 (-23))) = Posit.ofInt P16 (-41) :=
  ⟨ints_P16, by decide, by decide +kernel⟩

/-- **C71**: `a*b+d`, `a*b+x*y` on integers with a result below `2^(m+1)` and terms below `2^(F-2)` are exact, although a
product alone need not be a posit. -/
theorem C71_fused (h : c.Ints m) {a b d e x y z w : ℤ} (ha : |a| < 2 ^ (m + 1)) (hb : |b| < 2 ^ (m + 1))
    (hd : |d| < 2 ^ (m + 1)) (he : |e| < 2 ^ (m + 1)) (hx : Posit.ofInt c a = .ok x) (hy : Posit.ofInt c b = .ok y)
    (hz : Posit.ofInt c d = .ok z) (hw : Posit.ofInt c e = .ok w) (hp : |a * b| < 2 ^ (c.F - 2)) :
    (|a * b + d| < 2 ^ (m + 1) → Posit.fma c x y z = Posit.ofInt c (a * b + d)) ∧
    (|d * e| < 2 ^ (c.F - 2) → |a * b + d * e| < 2 ^ (m + 1) → Posit.mulAddMul c x y z w = Posit.ofInt c (a * b + d * e)) := by
  obtain ⟨rx, vx⟩ := h.val_ofInt ha hx
  obtain ⟨ry, vy⟩ := h.val_ofInt hb hy
  obtain ⟨rz, vz⟩ := h.val_ofInt hd hz
  obtain ⟨rw', vw⟩ := h.val_ofInt he hw
  have hF8 := h.wf.F_pos
  have hpow : (2 : ℤ) ^ (m + 1) ≤ 2 ^ (c.F - 2) := pow_le_pow_right₀ (by norm_num) (by have := h.hmF; omega)
  have e1 : (a : ℚ) * b = ((a * b : ℤ) : ℚ) := by push_cast; rfl
  have e2 : (d : ℚ) * e = ((d * e : ℤ) : ℚ) := by push_cast; rfl
  refine ⟨fun hr => ?_, fun hq hr => ?_⟩
  · obtain ⟨h1, h2⟩ := alignedSum_int hF8 hp (lt_of_lt_of_le hd hpow)
    have key := (C63_fma h.wf h.hF rx ry rz).1
    rw [vx, vy, vz, e1, h1] at key
    obtain ⟨v, hv, hc⟩ := key ⟨h2, h.zero_or_safe hr⟩
    exact h.of_cut hr hv hc
  · obtain ⟨h1, h2⟩ := alignedSum_int hF8 hp hq
    have key := (C63_mulAddMul h.wf h.hF rx ry rz rw').1
    rw [vx, vy, vz, vw, e1, e2, h1] at key
    obtain ⟨v, hv, hc⟩ := key ⟨h2, h.zero_or_safe hr⟩
    exact h.of_cut hr hv hc

example : P16.Ints 9 ∧ |(101 : ℤ) * 103| < 2 ^ (P16.F - 2) ∧ |(101 : ℤ) * 103 + -100 * 97| < 2 ^ (9 + 1) ∧
    (do Posit.mulAddMul P16 (← Posit.ofInt P16 101) (← Posit.ofInt P16 103) (← Posit.ofInt P16 (-100)) (← Posit.ofInt P16 97)) =
      Posit.ofInt P16 703 ∧
    (Posit.ofInt P16 (101 * 103)).toOption.map P16.fmt.val ≠ some (101 * 103) :=
  ⟨ints_P16, by decide, by decide, by decide +kernel⟩

/-- **C71**: the dot product of two vectors of small integers is exact if it is below `2^(m+1)` and the sum of the magnitudes
of the products is below `2^(F-2)`. -/
theorem C71_dot (h : c.Ints m) {l : List (ℤ × ℤ)} {k : List (ℤ × ℤ)} (hl0 : l ≠ []) (hlen : l.length < 2 ^ 60)
    (hl : ∀ p ∈ l, |p.1| < 2 ^ (m + 1) ∧ |p.2| < 2 ^ (m + 1))
    (hk : List.Forall₂ (fun p q => Posit.ofInt c p.1 = .ok q.1 ∧ Posit.ofInt c p.2 = .ok q.2) l k)
    (hs : (l.map fun p => |p.1 * p.2|).sum < 2 ^ (c.F - 2)) (hr : |(l.map fun p => p.1 * p.2).sum| < 2 ^ (m + 1)) :
    Posit.dot c k = Posit.ofInt c (l.map fun p => p.1 * p.2).sum := by
  have hF8 := h.wf.F_pos
  have hval : k.map (fun q => c.fmt.val q.1 * c.fmt.val q.2) = (l.map fun p => p.1 * p.2).map fun p : ℤ => (p : ℚ) := by
    clear hl0 hlen hs hr
    induction hk with
    | nil => rfl
    | cons h1 _ ih =>
      obtain ⟨-, v1⟩ := h.val_ofInt (hl _ List.mem_cons_self).1 h1.1
      obtain ⟨-, v2⟩ := h.val_ofInt (hl _ List.mem_cons_self).2 h1.2
      simp only [List.map_cons]
      rw [v1, v2, ih fun p hp => hl p (List.mem_cons_of_mem _ hp)]
      push_cast; rfl
  have hreal : ∀ q ∈ k, c.fmt.IsReal q.1 ∧ c.fmt.IsReal q.2 := by
    clear hl0 hlen hs hr hval
    induction hk with
    | nil => simp
    | cons h1 _ ih =>
      intro q hq
      rcases List.mem_cons.mp hq with rfl | hq
      · exact ⟨(h.val_ofInt (hl _ List.mem_cons_self).1 h1.1).1, (h.val_ofInt (hl _ List.mem_cons_self).2 h1.2).1⟩
      · exact ih (fun p hp => hl p (List.mem_cons_of_mem _ hp)) q hq
  have hlk := hk.length_eq
  rcases l with _ | ⟨p, l⟩
  · exact absurd rfl hl0
  rcases k with _ | ⟨q, k⟩
  · simp at hlk
  simp only [List.map_cons, List.cons.injEq, List.sum_cons, List.length_cons] at hval hs hr hlen hlk ⊢
  have hs' : |p.1 * p.2| + ((l.map fun p => p.1 * p.2).map fun p : ℤ => |p|).sum < 2 ^ (c.F - 2) := by
    rw [List.map_map]; exact hs
  obtain ⟨f1, f2⟩ := foldl_int hF8 (l.map fun p => p.1 * p.2) (p.1 * p.2) hs'
  obtain ⟨r1, r2⟩ := hreal q List.mem_cons_self
  have key := (C63_dot h.wf h.hF r1 r2 (fun r hr => hreal r (List.mem_cons_of_mem _ hr)) (by omega) hval.2.symm rfl).1
  rw [hval.1, f2] at key
  obtain ⟨v, hv, hc⟩ := key ⟨f1, h.zero_or_safe hr⟩
  exact h.of_cut hr hv hc

example : P16.Ints 9 ∧ ([(101, 103), (-100, 97), (7, -11)].map fun p : ℤ × ℤ => p.1 * p.2).sum = 626 ∧
    (do Posit.dot P16 [(← Posit.ofInt P16 101, ← Posit.ofInt P16 103), (← Posit.ofInt P16 (-100), ← Posit.ofInt P16 97),
      (← Posit.ofInt P16 7, ← Posit.ofInt P16 (-11))]) = Posit.ofInt P16 626 :=
  ⟨ints_P16, by decide, by decide +kernel⟩

/-- **C71**: comparisons of small integers agree. -/
theorem C71_compare (h : c.Ints m) {a b x y : ℤ} (ha : |a| < 2 ^ (m + 1)) (hb : |b| < 2 ^ (m + 1))
    (hx : Posit.ofInt c a = .ok x) (hy : Posit.ofInt c b = .ok y) :
    (Posit.lt c x y = true ↔ a < b) ∧ (Posit.le c x y = true ↔ a ≤ b) ∧ (Posit.gt c x y = true ↔ b < a) ∧
    (Posit.ge c x y = true ↔ b ≤ a) ∧ (Posit.eq c x y = true ↔ a = b) ∧ (Posit.ne c x y = true ↔ a ≠ b) := by
  obtain ⟨rx, vx⟩ := h.val_ofInt ha hx
  obtain ⟨ry, vy⟩ := h.val_ofInt hb hy
  have key := C04_compare h.wf rx ry
  rw [vx, vy] at key
  simp only [gt_iff_lt, ge_iff_le, Int.cast_lt, Int.cast_le, ne_eq, Int.cast_inj] at key ⊢
  exact key

example : P8.Ints 2 ∧ (do return Posit.lt P8 (← Posit.ofInt P8 (-7)) (← Posit.ofInt P8 5)) = .ok true := ⟨ints_P8, by decide +kernel⟩

theorem truncZ_int (n : ℤ) : truncZ n = n := by unfold truncZ; split_ifs <;> simp

theorem satZ_small {n : ℤ} (hn : |n| < 2 ^ 31) : satZ 32 n = n := by
  rw [abs_lt] at hn
  unfold satZ
  norm_num at hn ⊢
  omega

/-- **C71**: converting back to `int` gives the integer, except for `±1`, where the conversion executes an out-of-range
shift. -/
theorem C71_toInt (h : c.Ints m) {n x : ℤ} (hn : |n| < 2 ^ (m + 1)) (hx : Posit.ofInt c n = .ok x) :
    (|n| ≠ 1 → Posit.toInt c x = .ok n) ∧ (|n| = 1 → Posit.toInt c x = .error .shiftAmount) := by
  obtain ⟨rx, vx⟩ := h.val_ofInt hn hx
  have hb : (2 : ℤ) ^ (m + 1) ≤ 2 ^ 31 := pow_le_pow_right₀ (by norm_num) (by have := h.m30; omega)
  have hn' := lt_of_lt_of_le hn hb
  have e : |(n : ℚ)| = ((|n| : ℤ) : ℚ) := by push_cast; rfl
  refine ⟨fun h1 => ?_, fun h1 => ?_⟩
  · have key := C21_toInt_partial h.wf (by have := h.hF; omega) rx
    rw [vx, e, truncZ_int, satZ_small hn'] at key
    refine key ?_
    have h0 := abs_nonneg n
    by_cases h2 : |n| < 1
    · exact Or.inl (by exact_mod_cast h2)
    · exact Or.inr (Or.inl ⟨by exact_mod_cast (by omega : (2 : ℤ) ≤ |n|), by exact_mod_cast hn'⟩)
  · exact C21_toInt_one_ub h.wf rx (by rw [vx, e, h1]; norm_num) (by rw [vx, e, h1]; norm_num)

example : P32.Ints 23 ∧ (do Posit.toInt P32 (← Posit.ofInt P32 (-12345678))) = .ok (-12345678) ∧
    (do Posit.toInt P32 (← Posit.ofInt P32 1)) = .error .shiftAmount := ⟨ints_P32, by decide +kernel⟩

theorem tdiv_signed (a b : ℤ) : ∃ s : ℤ, |s| = 1 ∧ a.tdiv b = s * ((a.natAbs / b.natAbs : ℕ) : ℤ) ∧
    (a : ℚ) / b = s * ((a.natAbs : ℚ) / (b.natAbs : ℚ)) := by
  generalize hA : a.natAbs = A
  generalize hB : b.natAbs = B
  rcases Int.natAbs_eq a with ha | ha <;> rcases Int.natAbs_eq b with hb | hb <;> rw [hA] at ha <;> rw [hB] at hb
  · refine ⟨1, by simp, ?_, ?_⟩
    · conv_lhs => rw [ha, hb]
      rw [one_mul]; rfl
    · conv_lhs => rw [ha, hb]
      push_cast; ring
  · refine ⟨-1, by simp, ?_, ?_⟩
    · conv_lhs => rw [ha, hb]
      rw [Int.tdiv_neg, neg_one_mul]; rfl
    · conv_lhs => rw [ha, hb]
      push_cast; rw [div_neg]; ring
  · refine ⟨-1, by simp, ?_, ?_⟩
    · conv_lhs => rw [ha, hb]
      rw [Int.neg_tdiv, neg_one_mul]; rfl
    · conv_lhs => rw [ha, hb]
      push_cast; ring
  · refine ⟨1, by simp, ?_, ?_⟩
    · conv_lhs => rw [ha, hb]
      rw [Int.neg_tdiv, Int.tdiv_neg, neg_neg, one_mul]; rfl
    · conv_lhs => rw [ha, hb]
      push_cast; rw [neg_div_neg_eq]; ring

theorem truncZ_of_floor {q : ℚ} {s : ℤ} {k : ℕ} (hs : |s| = 1) (h0 : 0 < q * s) (h1 : (k : ℚ) ≤ |q|) (h2 : |q| < k + 1) :
    truncZ q = s * k := by
  unfold truncZ
  rcases (abs_eq (by norm_num : (0 : ℤ) ≤ 1)).mp hs with rfl | rfl
  · have hq : 0 < q := by simpa using h0
    rw [abs_of_pos hq] at h1 h2
    rw [if_pos hq.le, one_mul, Int.floor_eq_iff]
    exact ⟨by exact_mod_cast h1, by exact_mod_cast h2⟩
  · have hq : q < 0 := by push_cast at h0; linarith
    rw [abs_of_neg hq] at h1 h2
    rw [if_neg (by linarith), Int.ceil_eq_iff]
    push_cast
    constructor <;> linarith

theorem least_lt_one (h : c.WF) : |c.fmt.val 1| < 1 := by
  have e := posVal_one h
  rw [Format.abs_val (one_isReal h).inRange one_ne_zero]
  have : posVal c.fmt.N c.fmt.es (1 : ℤ).natAbs = posVal c.N c.es 1 := rfl
  rw [this, e]
  refine zpow_lt_one_of_neg₀ (by norm_num) ?_
  have := h.N_ge
  have hp : 0 < c.maxScale := by unfold Cfg.maxScale; exact Nat.mul_pos (by positivity) (by omega)
  omega

/-- **C71**: dividing two small integers as posits and converting the quotient to `int` is the integer division of C++, which
truncates. Missing: quotients `1 ≤ |a/b| < 2`, whose conversion executes an out-of-range shift. -/
theorem C71_tdiv_partial (h : c.Ints m) {a b x y : ℤ} (ha : |a| < 2 ^ (m + 1)) (hb : |b| < 2 ^ (m + 1)) (hb0 : b ≠ 0)
    (hx : Posit.ofInt c a = .ok x) (hy : Posit.ofInt c b = .ok y) (hr : |a| < |b| ∨ 2 * |b| ≤ |a|) :
    ∃ q, Posit.div c x y = .ok q ∧ Posit.toInt c q = .ok (a.tdiv b) := by
  obtain ⟨rx, vx⟩ := h.val_ofInt ha hx
  obtain ⟨ry, vy⟩ := h.val_ofInt hb hy
  have hqb : (b : ℚ) ≠ 0 := by exact_mod_cast hb0
  have hy0 : y ≠ 0 := by
    rintro rfl
    rw [Format.val_zero] at vy
    exact hqb vy.symm
  by_cases ha0 : a = 0
  · subst ha0
    have hx0 : x = 0 := by
      rw [Int.cast_zero] at vx
      exact (Format.val_eq_zero_iff rx.inRange).mp vx
    have : Posit.toInt c 0 = .ok 0 := (C71_toInt h (n := 0) (by simpa using ha) (C20_zero h.wf)).1 (by simp)
    exact ⟨0, by rw [hx0]; exact (C13_mul_zero h.wf ry).2.2 hy0, by rw [this]; simp⟩
  have hqa : (a : ℚ) ≠ 0 := by exact_mod_cast ha0
  set A := a.natAbs with hA
  set B := b.natAbs with hB
  have eA : |(a : ℚ)| = (A : ℚ) := by rw [hA, Nat.cast_natAbs]; push_cast; rfl
  have eB : |(b : ℚ)| = (B : ℚ) := by rw [hB, Nat.cast_natAbs]; push_cast; rfl
  have hB0 : 0 < B := by omega
  have hA0 : 0 < A := by omega
  have qB : (0 : ℚ) < B := by exact_mod_cast hB0
  have qA : (0 : ℚ) < A := by exact_mod_cast hA0
  have nA : A < 2 ^ (m + 1) := by zify; rw [hA]; simpa using ha
  have nB : B < 2 ^ (m + 1) := by zify; rw [hB]; simpa using hb
  have zp : (2 : ℚ) ^ ((m : ℤ) + 1) = ((2 ^ (m + 1) : ℕ) : ℚ) := by
    have : ((m : ℤ) + 1) = ((m + 1 : ℕ) : ℤ) := by push_cast; rfl
    rw [this, zpow_natCast]; push_cast; rfl
  have eAB : |(a : ℚ) / b| = (A : ℚ) / B := by rw [abs_div, eA, eB]
  have hA1 : (1 : ℚ) ≤ A := by exact_mod_cast hA0
  have hB1 : (1 : ℚ) ≤ B := by exact_mod_cast hB0
  have hsafe : c.SafeMag ((a : ℚ) / b) := by
    refine safeMag_int h.wf h.hm ?_ ?_
    · rw [eAB, zpow_neg, zp, inv_eq_one_div, div_le_div_iff₀ (by positivity) qB]
      have : (B : ℚ) ≤ ((2 ^ (m + 1) : ℕ) : ℚ) := by exact_mod_cast nB.le
      nlinarith
    · rw [eAB, zp, div_lt_iff₀ qB]
      have : (A : ℚ) < ((2 ^ (m + 1) : ℕ) : ℚ) := by exact_mod_cast nA
      nlinarith
  have key := (outcome_div h.wf h.hF rx ry hy0).1
  rw [vx, vy] at key
  obtain ⟨v, hv, hc⟩ := key (Or.inr hsafe)
  have hc := hc.resolve_left fun hh => div_ne_zero hqa hqb hh.1
  refine ⟨v, hv, ?_⟩
  obtain ⟨s, hs1, hs2, hs3⟩ := tdiv_signed a b
  have hsg : 0 < c.fmt.val v * s := by
    have := IsTrunc.val_sign hc
    rw [hs3, ← mul_assoc] at this
    exact (mul_pos_iff_of_pos_right (div_pos qA qB)).mp this
  have hAB : ((A / B : ℕ) : ℚ) ≤ (A : ℚ) / B ∧ (A : ℚ) / B < ((A / B : ℕ) : ℚ) + 1 := by
    constructor
    · rw [le_div_iff₀ qB]
      exact_mod_cast Nat.div_mul_le_self A B
    · rw [div_lt_iff₀ qB]
      have := Nat.lt_mul_div_succ A hB0
      have : A < (A / B + 1) * B := by rw [mul_comm]; exact this
      exact_mod_cast this
  have hf : ((A / B : ℕ) : ℚ) ≤ |c.fmt.val v| ∧ |c.fmt.val v| < ((A / B : ℕ) : ℚ) + 1 := by
    by_cases hk : A / B = 0
    · rw [hk] at hAB ⊢
      refine ⟨by simp, ?_⟩
      rcases hc.below with hl | hl
      · rw [eAB] at hl; exact lt_of_le_of_lt hl hAB.2
      · have := hl 1 (one_isReal h.wf) one_ne_zero
        have := least_lt_one h.wf
        simp; linarith
    · have hkm : A / B < 2 ^ (m + 1) := lt_of_le_of_lt (Nat.div_le_self A B) nA
      obtain ⟨w, hw, hwv⟩ := int_real h.wf h.hm (n := ((A / B : ℕ) : ℤ)) (by rw [abs_of_nonneg (by positivity)]; exact_mod_cast hkm)
      have hw0 : w ≠ 0 := by
        rintro rfl
        rw [Format.val_zero] at hwv
        have : ((A / B : ℕ) : ℤ) = 0 := by exact_mod_cast hwv.symm
        exact hk (by exact_mod_cast this)
      have hwa : |c.fmt.val w| = ((A / B : ℕ) : ℚ) := by
        rw [hwv, Int.cast_natCast, abs_of_nonneg (by positivity)]
      refine ⟨?_, ?_⟩
      · rw [← hwa]; exact hc.greatest w hw hw0 (by rw [hwa, eAB]; exact hAB.1)
      · rcases hc.below with hl | hl
        · rw [eAB] at hl; exact lt_of_le_of_lt hl hAB.2
        · have := hl w hw hw0
          rw [hwa] at this
          linarith
  have ht := truncZ_of_floor hs1 hsg hf.1 hf.2
  have hle : A / B ≤ A := Nat.div_le_self A B
  have hb31 : (2 : ℕ) ^ (m + 1) ≤ 2 ^ 31 := Nat.pow_le_pow_right (by norm_num) (by have := h.m30; omega)
  have hk31 : A / B + 1 ≤ 2 ^ 31 := by omega
  have hsat : satZ 32 (truncZ (c.fmt.val v)) = a.tdiv b := by
    rw [ht, hs2]
    refine satZ_small ?_
    rw [abs_mul, hs1, one_mul, abs_of_nonneg (by positivity)]
    exact_mod_cast (by omega : A / B < 2 ^ 31)
  rw [← hsat]
  refine C21_toInt_partial h.wf (by have := h.hF; omega) hc.real ?_
  rcases hr with hr | hr
  · left
    have : A / B = 0 := Nat.div_eq_of_lt (by rw [hA, hB]; zify; exact hr)
    rw [this] at hf
    simpa using hf.2
  · right; left
    have h2 : 2 ≤ A / B := (Nat.le_div_iff_mul_le hB0).mpr (by rw [hA, hB]; zify; exact hr)
    refine ⟨le_trans (by exact_mod_cast h2) hf.1, lt_of_lt_of_le hf.2 ?_⟩
    exact_mod_cast hk31

example : P16.Ints 9 ∧ 2 * |(-41 : ℤ)| ≤ |(1000 : ℤ)| ∧ (1000 : ℤ).tdiv (-41) = -24 ∧
    (do Posit.toInt P16 (← Posit.div P16 (← Posit.ofInt P16 1000) (← Posit.ofInt P16 (-41)))) = .ok (-24) :=
  ⟨ints_P16, by decide, by decide, by decide +kernel⟩

end Verif
