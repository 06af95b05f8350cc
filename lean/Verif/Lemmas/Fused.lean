import Verif.Lemmas.Den

/-! # `fma`, `dot` and sums of products -/

namespace Verif
open Fmt

variable {c : Cfg} {F E : ℕ}

/-- number of spare low bits an exact product leaves in the fraction type -/
def spareBits (c : Cfg) : ℕ := if 2 * c.fb + 5 ≤ c.F then 4 else 3

theorem spareBits_ge (c : Cfg) : 3 ≤ spareBits c := by unfold spareBits; split_ifs <;> omega

theorem spareBits_le (hF : 2 * c.fb + 4 ≤ c.F) : 2 * c.fb + 1 + spareBits c ≤ c.F := by
  unfold spareBits; split_ifs <;> omega

theorem fmaSafe_addOK {x y : ℚ} (hs : c.FmaSafe x y) : AddOK c (spareBits c) x y := by
  refine ⟨hs.2.imp id fun h => h.imp id fun h => h.1, fun hneg => ?_⟩
  rcases hs.2 with h | h | h
  · simp [h] at hneg
  · simp [h] at hneg
  · refine (h.2 hneg).1.imp id fun h5 => ?_
    unfold spareBits; rw [if_pos h5]

theorem fmaSafe_mags {x y : ℚ} (hs : c.FmaSafe x y) (hneg : x * y < 0) : c.SafeMag x ∧ c.SafeMag y := by
  rcases hs.2 with h | h | h
  · simp [h] at hneg
  · simp [h] at hneg
  · exact (h.2 hneg).2

theorem den_sum_pack (h : c.WF) (hF : 2 * c.fb + 4 ≤ c.F) {u w : Unp} {x y : ℚ}
    (hu : Den c.F (spareBits c) u x) (hw : Den c.F (spareBits c) w y)
    (heu : |u.exp| ≤ 2 * c.maxScale + 1) (hew : |w.exp| ≤ 2 * c.maxScale + 1) (hs : c.FmaSafe x y) :
    ∃ v, (do let r ← Unp.add c.F c.E u w; Posit.pack c r) = .ok v ∧ c.fmt.IsFaithful (x + y) v ∧ (v = 0 ↔ x + y = 0) ∧
      (0 < x * y → c.fmt.IsTrunc (x + y) v) :=
  den_add_pack h (spareBits_ge c) (by omega) hu hw heu hew (fmaSafe_addOK hs) (fmaSafe_mags hs) hs.1

theorem Den.exp_log {k : ℕ} {u : Unp} {x : ℚ} (hu : Den F k u x) : (x = 0 ∧ u.exp = 0) ∨ (x ≠ 0 ∧ Int.log 2 |x| = u.exp) := by
  rcases hu.cases with ⟨rfl, rfl⟩ | ⟨s, e, f, rfl, hf, -, -, hax, hx0⟩
  · exact Or.inl ⟨rfl, rfl⟩
  · right; rw [hax, log_mag hf]; exact ⟨hx0, rfl⟩

theorem den_sum_far (h : c.WF) {k : ℕ} {u w : Unp} {x y : ℚ} (hu : Den c.F k u x) (hw : Den c.F k w y) (hx : x ≠ 0) (hy : y ≠ 0)
    (hr : AddRange c.E c.F u.exp w.exp) (hfar : (pw c.F : ℤ) ≤ |Int.log 2 (|x|) - Int.log 2 (|y|)|) :
    (do let r ← Unp.add c.F c.E u w; Posit.pack c r) = .error .shiftAmount := by
  rcases hu.cases with ⟨rfl, rfl⟩ | ⟨sa, ea, fa, rfl, hfa, -, -, hax, -⟩
  · exact absurd rfl hx
  · rcases hw.cases with ⟨rfl, rfl⟩ | ⟨sb, eb, fb, rfl, hfb, -, -, hay, -⟩
    · exact absurd rfl hy
    · rw [hax, hay, log_mag hfa, log_mag hfb] at hfar
      rw [add_unp, addRegular_ub hfar hr]
      rfl

theorem Den.neg {k : ℕ} {u : Unp} {x : ℚ} (hu : Den F k u x) (hx : x ≠ 0) : Den F k (Unp.neg' u) (-x) := by
  rcases hu.cases with ⟨rfl, rfl⟩ | ⟨s, e, f, rfl, hf, hd, hx, -, -⟩
  · exact absurd rfl hx
  · rw [hx]
    have := Den.reg (!s) e f hf hd
    cases s
    · simpa [Unp.neg'] using this
    · simpa [Unp.neg'] using this

theorem den_neg_zero {k : ℕ} {u : Unp} (hu : Den F k u 0) : Den F k (Unp.neg' u) (-1) ∧ (Unp.neg' u).exp = 0 := by
  rcases hu.cases with ⟨rfl, -⟩ | ⟨s, e, f, rfl, hf, hd, hx, -, hx0⟩
  · have := Den.reg true 0 0 (by positivity : 0 < 2 ^ F) (dvd_zero (2 ^ k))
    refine ⟨?_, rfl⟩
    simpa [Unp.neg', mag] using this
  · exact absurd rfl hx0

/-! ## dot -/

theorem den_dotLoop (h : c.WF) (hF : 2 * c.fb + 5 ≤ c.F) : ∀ (l : List (ℤ × ℤ)) (acc : Unp) (s : ℚ),
    (∀ p ∈ l, c.fmt.IsReal p.1 ∧ c.fmt.IsReal p.2) → Den c.F 4 acc s → |acc.exp| ≤ 2 * c.maxScale + 1 →
    c.DotSafe s (l.map fun p => c.fmt.val p.1 * c.fmt.val p.2) →
    ∃ r, Posit.dotLoop c acc l = .ok r ∧ Den c.F 4 r (s + (l.map fun p => c.fmt.val p.1 * c.fmt.val p.2).sum)
  | [], acc, s, _, hd, _, _ => ⟨acc, rfl, by simpa using hd⟩
  | (a, b) :: l, acc, s, hreal, hd, he, hs => by
    obtain ⟨ha, hb⟩ := hreal (a, b) (by simp)
    obtain ⟨ua, ub, m, h1, h2, h3, h4, h5⟩ := den_mul h (k := 4) (by norm_num) (by omega) ha hb
    obtain ⟨hclose, hfit, hrange, hrest⟩ := hs
    obtain ⟨r, hr, hdr⟩ := den_add h (k := 4) (by norm_num) (by omega) hd h4 he h5 ⟨hclose, fun _ => Or.inr le_rfl⟩
      (hfit.mono (by omega))
    have her : |r.exp| ≤ 2 * c.maxScale + 1 := by
      rcases hdr.exp_log with ⟨-, h0⟩ | ⟨hne, hl⟩
      · rw [h0]; simp; omega
      · rw [← hl]; exact hrange.resolve_left hne
    obtain ⟨q, hq, hdq⟩ := den_dotLoop h hF l r _ (fun p hp => hreal p (by simp [hp])) hdr her hrest
    refine ⟨q, ?_, ?_⟩
    · unfold Posit.dotLoop
      rw [h1, h2]
      simp only [bind, Except.bind]
      rw [h3]
      simp only []
      rw [hr]
      exact hq
    · simpa [add_assoc] using hdq

/-! ## sums of truncated products of one sign -/

theorem addRegular_floor {E : ℕ} {sa sb : Bool} {ea eb : ℤ} {fa fb : ℕ} :
    Unp.addRegular F E ⟨.regular, sa, ea, fa⟩ ⟨.regular, sb, eb, fb⟩ =
      Unp.addRegular F E ⟨.regular, sa, ea, 4 * (fa / 4)⟩ ⟨.regular, sb, eb, 4 * (fb / 4)⟩ := by
  have key : ∀ x : ℕ, (4 * (x / 4)) >>> 2 = x >>> 2 := by
    intro x; rw [Nat.shiftRight_eq_div_pow, Nat.shiftRight_eq_div_pow]; norm_num
  unfold Unp.addRegular
  simp only [key]

theorem mag_mono {e : ℤ} {f f' : ℕ} (hf : f' ≤ f) : mag F e f' ≤ mag F e f := by
  unfold mag
  have : (f' : ℚ) ≤ f := by exact_mod_cast hf
  gcongr

/-- `u` is a lower approximation, in magnitude, of a number of sign `s` and magnitude `S` -/
def Below (c : Cfg) (s : Bool) (u : Unp) (S : ℚ) : Prop :=
  (u = ⟨.zero, false, 0, 0⟩ ∧ S = 0) ∨
    ∃ e f, u = ⟨.regular, s, e, f⟩ ∧ f < 2 ^ c.F ∧ -(2 * c.maxScale : ℤ) ≤ e ∧ mag c.F e f ≤ S

theorem Below.nonneg {s : Bool} {u : Unp} {S : ℚ} (h : Below c s u S) : 0 ≤ S := by
  rcases h with ⟨-, rfl⟩ | ⟨e, f, -, -, -, h⟩
  · exact le_rfl
  · exact (mag_pos _ _ _).le.trans h

theorem exp_lt_of_mag_le {e K : ℤ} {f : ℕ} {S : ℚ} (h : mag F e f ≤ S) (hS : S < 2 ^ K) : e < K :=
  (zpow_lt_zpow_iff_right₀ (by norm_num : (1 : ℚ) < 2)).mp (lt_of_le_of_lt ((le_mag F e f).trans h) hS)

theorem below_mul (h : c.WF) (hF : c.fb + 1 ≤ c.F) {s : Bool} {a b : ℤ} (ha : c.fmt.IsReal a) (hb : c.fmt.IsReal b)
    (hsg : 0 ≤ (if s then -1 else 1) * (c.fmt.val a * c.fmt.val b)) :
    ∃ ua ub u, Posit.unpack c a = .ok ua ∧ Posit.unpack c b = .ok ub ∧ Unp.mul c.F c.E ua ub = .ok u ∧
      Below c s u ((if s then -1 else 1) * (c.fmt.val a * c.fmt.val b)) := by
  by_cases ha0 : a = 0
  · subst ha0
    simp only [Format.val_zero, zero_mul, mul_zero]
    by_cases hb0 : b = 0
    · subst hb0
      exact ⟨_, _, _, unpack_zero h, unpack_zero h, rfl, Or.inl ⟨rfl, rfl⟩⟩
    · obtain ⟨e, f, hu⟩ := unpack_real h hb hb0
      exact ⟨_, _, _, unpack_zero h, hu.eq, rfl, Or.inl ⟨rfl, rfl⟩⟩
  · obtain ⟨ea, fa, hua⟩ := unpack_real h ha ha0
    by_cases hb0 : b = 0
    · subst hb0
      simp only [Format.val_zero, mul_zero]
      exact ⟨_, _, _, hua.eq, unpack_zero h, rfl, Or.inl ⟨rfl, rfl⟩⟩
    · obtain ⟨eb, fb, hub⟩ := unpack_real h hb hb0
      obtain ⟨e, f, u, Y, heq, hf, hu, hm, hy1, hy2, he⟩ := mul_unp h hF hua hub
      have hsign := mul_real_sign ha ha0 hb hb0
      have hpos : 0 < |c.fmt.val a * c.fmt.val b| := lt_of_lt_of_le (by rw [← hm]; exact mag_pos _ _ _) hy1
      have hss : xor (decide (a < 0)) (decide (b < 0)) = s := by
        rw [← hsign] at hsg
        revert hsg
        generalize |c.fmt.val a * c.fmt.val b| = z at hpos ⊢
        generalize xor (decide (a < 0)) (decide (b < 0)) = t
        intro hsg
        cases t <;> cases s <;> simp only [if_true, if_false, Bool.false_eq_true] at hsg <;>
          first | rfl | (exfalso; linarith)
      have habs : (if s then -1 else 1) * (c.fmt.val a * c.fmt.val b) = |c.fmt.val a * c.fmt.val b| := by
        rw [hss] at hsign
        nth_rewrite 1 [← hsign]
        cases s <;> simp
      refine ⟨_, _, _, hua.eq, hub.eq, heq, Or.inr ⟨e, f, by rw [hss], hf, ?_, ?_⟩⟩
      · have := hua.e_lo
        have := hub.e_lo
        omega
      · rw [habs, hm]; exact hy1

theorem below_add (h : c.WF) {s : Bool} {u w : Unp} {S T : ℚ} (hu : Below c s u S) (hw : Below c s w T)
    (h1 : S + T < 2 ^ ((pw c.F : ℤ) - 2 * c.maxScale)) (h2 : S + T < 2 ^ (2 * (c.maxScale : ℤ) + 2)) :
    ∃ r, Unp.add c.F c.E u w = .ok r ∧ Below c s r (S + T) := by
  have hS := hu.nonneg
  have hT := hw.nonneg
  have hE := E_ge h
  rcases hu with ⟨rfl, rfl⟩ | ⟨ea, fa, rfl, hfa, hea, hma⟩
  · refine ⟨w, ?_, by rwa [zero_add]⟩
    rcases hw with ⟨rfl, -⟩ | ⟨eb, fb, rfl, -⟩ <;> rfl
  · rcases hw with ⟨rfl, rfl⟩ | ⟨eb, fb, rfl, hfb, heb, hmb⟩
    · exact ⟨_, rfl, Or.inr ⟨ea, fa, rfl, hfa, hea, by rwa [add_zero]⟩⟩
    · have a1 := exp_lt_of_mag_le (hma.trans (le_add_of_nonneg_right hT)) h1
      have a2 := exp_lt_of_mag_le (hma.trans (le_add_of_nonneg_right hT)) h2
      have b1 := exp_lt_of_mag_le (hmb.trans (le_add_of_nonneg_left hS)) h1
      have b2 := exp_lt_of_mag_le (hmb.trans (le_add_of_nonneg_left hS)) h2
      have hcl : |ea - eb| < pw c.F := by rw [abs_lt]; omega
      have hr := addRange_close h (ea := ea) (eb := eb) (by rw [abs_le]; omega) (by rw [abs_le]; omega) hcl
      obtain ⟨e, f, v, heq, hf, -, hm, hy1, -, -, he⟩ := addRegular_same (s := s) (fa := 4 * (fa / 4)) (fb := 4 * (fb / 4)) h.hF
        (by omega) (by omega) (by omega) (Dvd.intro _ rfl) (Dvd.intro _ rfl) hcl hr
      rw [add_unp, addRegular_floor]
      refine ⟨_, heq, Or.inr ⟨e, f, rfl, hf, by omega, ?_⟩⟩
      have := mag_mono (F := c.F) (e := ea) (f := fa) (f' := 4 * (fa / 4)) (by omega)
      have := mag_mono (F := c.F) (e := eb) (f := fb) (f' := 4 * (fb / 4)) (by omega)
      rw [hm]
      linarith

theorem below_dotLoop (h : c.WF) (hF : c.fb + 1 ≤ c.F) {s : Bool} : ∀ (l : List (ℤ × ℤ)) (acc : Unp) (S : ℚ),
    (∀ p ∈ l, c.fmt.IsReal p.1 ∧ c.fmt.IsReal p.2 ∧ 0 ≤ (if s then -1 else 1) * (c.fmt.val p.1 * c.fmt.val p.2)) →
    Below c s acc S →
    S + (if s then -1 else 1) * (l.map fun p => c.fmt.val p.1 * c.fmt.val p.2).sum < 2 ^ ((pw c.F : ℤ) - 2 * c.maxScale) →
    S + (if s then -1 else 1) * (l.map fun p => c.fmt.val p.1 * c.fmt.val p.2).sum < 2 ^ (2 * (c.maxScale : ℤ) + 2) →
    ∃ r, Posit.dotLoop c acc l = .ok r ∧
      Below c s r (S + (if s then -1 else 1) * (l.map fun p => c.fmt.val p.1 * c.fmt.val p.2).sum)
  | [], acc, S, _, hd, _, _ => ⟨acc, rfl, by simpa using hd⟩
  | (a, b) :: l, acc, S, hl, hd, h1, h2 => by
    obtain ⟨ha, hb, hsg⟩ := hl (a, b) (by simp)
    have hl' : ∀ p ∈ l, c.fmt.IsReal p.1 ∧ c.fmt.IsReal p.2 ∧ 0 ≤ (if s then -1 else 1) * (c.fmt.val p.1 * c.fmt.val p.2) :=
      fun p hp => hl p (by simp [hp])
    have hnn : ∀ l : List (ℤ × ℤ), (∀ p ∈ l, c.fmt.IsReal p.1 ∧ c.fmt.IsReal p.2 ∧
        0 ≤ (if s then -1 else 1) * (c.fmt.val p.1 * c.fmt.val p.2)) →
        0 ≤ (if s then -1 else 1 : ℚ) * (l.map fun p => c.fmt.val p.1 * c.fmt.val p.2).sum := by
      intro l
      induction l with
      | nil => intro _; simp
      | cons p l ih =>
        intro hp
        have e1 := ih fun q hq => hp q (by simp [hq])
        have e2 := (hp p (by simp)).2.2
        rw [List.map_cons, List.sum_cons, mul_add]
        linarith
    have hrest := hnn l hl'
    rw [List.map_cons, List.sum_cons, mul_add, ← add_assoc] at h1 h2
    simp only at hsg h1 h2
    obtain ⟨ua, ub, m, e1, e2, e3, e4⟩ := below_mul h hF ha hb hsg
    obtain ⟨r, hr, hbr⟩ := below_add h hd e4 (by linarith) (by linarith)
    obtain ⟨q, hq, hbq⟩ := below_dotLoop h hF l r _ hl' hbr h1 h2
    refine ⟨q, ?_, ?_⟩
    · unfold Posit.dotLoop
      rw [e1, e2]
      simp only [bind, Except.bind]
      rw [e3]
      simp only []
      rw [hr]
      exact hq
    · rw [List.map_cons, List.sum_cons, mul_add, ← add_assoc]
      exact hbq

end Verif
