import Verif.Model.EigenDot
import Verif.Props.Loops
import Verif.Props.TestIdentities
import Verif.Props.Sum
import Verif.Props.Special

/-!
# C125: the dot product of src/maineigen.cpp
-/

namespace Verif
open Fmt

variable {c : Cfg}

namespace Eigen

theorem bind_ok {α β : Type} {x : M α} {f : α → M β} {v : β} (h : (x >>= f) = .ok v) : ∃ y, x = .ok y ∧ f y = .ok v := by
  cases x with
  | error e => cases h
  | ok y => exact ⟨y, rfl, h⟩

theorem mul_trunc (h : c.WF) (hF : c.fb + 2 ≤ c.F) {a b v : ℤ} (ha : c.fmt.IsReal a) (hb : c.fmt.IsReal b)
    (h0 : c.fmt.val a * c.fmt.val b ≠ 0) (hv : Posit.mul c a b = .ok v) : c.fmt.IsTrunc (c.fmt.val a * c.fmt.val b) v := by
  have ha0 : a ≠ 0 := by rintro rfl; simp at h0
  have hb0 : b ≠ 0 := by rintro rfl; simp at h0
  by_cases hs : c.SafeMag (c.fmt.val a * c.fmt.val b)
  · obtain ⟨w, hw, ht⟩ := C08_mul_partial h hF ha ha0 hb hb0 hs
    rw [hv] at hw
    cases hw
    exact ht
  · rw [C08_mul_ub h hF ha ha0 hb hb0 hs] at hv
    cases hv

/-- a positive number that is lost in the sum -/
theorem add_lost (h : c.WF) (hF : c.fb + 2 ≤ c.F) {p e v : ℤ} (hp : c.fmt.IsReal p) (hp0 : 0 < p) (he : c.fmt.IsReal e) (he0 : 0 ≤ e)
    (hg : ∀ w, c.fmt.IsReal w → p < w → c.fmt.val p + c.fmt.val e < c.fmt.val w) (hv : Posit.add c p e = .ok v) : v = p := by
  obtain ⟨r1, -, r3, r4, -⟩ := Loops.add_step h hF hp hp0.le he he0 hv
  by_contra hne
  have := (Format.val_le_iff hp.inRange r1.inRange).mp r4
  linarith [hg v r1 (by omega)]

theorem loop_lost (h : c.WF) (hF : c.fb + 2 ≤ c.F) {p v : ℤ} (hp : c.fmt.IsReal p) (hp0 : 0 < p) {l m : List (ℤ × ℤ)}
    (hl : ∀ q ∈ l, ∃ e, Posit.mul c q.1 q.2 = .ok e ∧ c.fmt.IsReal e ∧ 0 ≤ e ∧
      ∀ w, c.fmt.IsReal w → p < w → c.fmt.val p + c.fmt.val e < c.fmt.val w) (hv : loop c p (l ++ m) = .ok v) : loop c p m = .ok v := by
  induction l with
  | nil => exact hv
  | cons q l ih =>
    obtain ⟨e, e1, e2, e3, e4⟩ := hl q List.mem_cons_self
    obtain ⟨a, b⟩ := q
    rw [List.cons_append, loop] at hv
    obtain ⟨e', he', hv⟩ := bind_ok hv
    rw [e1] at he'
    cases he'
    obtain ⟨s, hs, hv⟩ := bind_ok hv
    rw [add_lost h hF hp hp0 e2 e3 e4 hs] at hv
    exact ih (fun q hq => hl q (List.mem_cons_of_mem _ hq)) hv

/-- in every format a posit of `2^53` or more is an even number -/
theorem even_posit (h : c.WF) {w : ℤ} (hw : c.fmt.IsReal w) (h53 : 2 ^ 53 ≤ c.fmt.val w) : ∃ n : ℤ, c.fmt.val w = 2 * n := by
  have hp : 0 < w := (Format.val_pos_iff hw.inRange).mp (by linarith)
  have hlt := hw.natAbs_lt
  rw [Format.val_pos' hp] at h53 ⊢
  have two : ∀ {x y : ℤ}, (2 : ℚ) ^ x < 2 ^ y → x < y := fun h => (zpow_lt_zpow_iff_right₀ (by norm_num)).mp h
  have h53' : (2 : ℚ) ^ (53 : ℤ) ≤ posVal c.fmt.N c.fmt.es w.natAbs := by exact_mod_cast h53
  obtain ⟨e, ⟨J, n, hJ, h1, h2, hv⟩ | ⟨-, hv⟩⟩ := posVal_form (N := c.fmt.N) (es := c.fmt.es) (p := w.natAbs) (by omega) hlt
  · obtain ⟨-, hlog⟩ := posVal_log h1 h2 hv
    have he := two (lt_of_le_of_lt h53' hlog)
    have hk : 1 ≤ e - J := by
      have hN : fracBits c.N c.es e = J := hJ
      unfold fracBits runExtra at hN
      have hes := h.hes
      have hle : (53 : ℤ) / 2 ^ c.es ≤ e / 2 ^ c.es := Int.ediv_le_ediv (by positivity) (by omega)
      have h64 : c.N + c.es < 64 ∨ c.N ≤ 32 := by
        have := h.hN
        rcases h.hH with hh | hh | hh | hh
        · omega
        · omega
        · omega
        · exact Or.inl (h.h64 hh)
      have h0 : (0 : ℤ) ≤ 53 / 2 ^ c.es := by positivity
      have hsmall : c.es = 0 ∨ c.es = 1 ∨ c.es = 2 ∨ c.es = 3 ∨ 4 ≤ c.es := by omega
      rcases hsmall with hh | hh | hh | hh | hh
      · have : (53 : ℤ) / 2 ^ c.es = 53 := by rw [hh]; norm_num
        omega
      · have : (53 : ℤ) / 2 ^ c.es = 26 := by rw [hh]; norm_num
        omega
      · have : (53 : ℤ) / 2 ^ c.es = 13 := by rw [hh]; norm_num
        omega
      · have : (53 : ℤ) / 2 ^ c.es = 6 := by rw [hh]; norm_num
        omega
      · omega
    obtain ⟨k, hk'⟩ := Int.eq_ofNat_of_zero_le (show 0 ≤ e - J - 1 by omega)
    refine ⟨n * 2 ^ k, ?_⟩
    rw [hv, show e - (J : ℤ) = 1 + k by omega, zpow_add₀ (by norm_num)]
    push_cast
    rw [zpow_natCast]
    ring
  · rw [hv] at h53'
    have he : (53 : ℤ) ≤ e := (zpow_le_zpow_iff_right₀ (by norm_num)).mp h53'
    obtain ⟨k, hk'⟩ := Int.eq_ofNat_of_zero_le (show 0 ≤ e - 1 by omega)
    refine ⟨2 ^ k, ?_⟩
    rw [hv, show e = 1 + k by omega, zpow_add₀ (by norm_num)]
    push_cast
    rw [zpow_natCast]

end Eigen
open Eigen

namespace Eigen

/-- adding the products of the pairs to `s` one after the other: every product and every sum is a posit, and what is computed is in
the range in which the operators are defined -/
def Steps (c : Cfg) : ℚ → List (ℤ × ℤ) → Prop
  | _, [] => True
  | s, (a, b) :: l =>
    c.fmt.IsReal a ∧ c.fmt.IsReal b ∧ (c.fmt.val a * c.fmt.val b = 0 ∨ c.SafeMag (c.fmt.val a * c.fmt.val b)) ∧
    (∃ w, c.fmt.IsReal w ∧ c.fmt.val w = c.fmt.val a * c.fmt.val b) ∧
    c.AddSafe s (c.fmt.val a * c.fmt.val b) ∧ (∃ w, c.fmt.IsReal w ∧ c.fmt.val w = s + c.fmt.val a * c.fmt.val b) ∧
    Steps c (s + c.fmt.val a * c.fmt.val b) l

theorem mul_exact (h : c.WF) (hF : c.fb + 3 ≤ c.F) {a b w : ℤ} (ha : c.fmt.IsReal a) (hb : c.fmt.IsReal b)
    (hs : c.fmt.val a * c.fmt.val b = 0 ∨ c.SafeMag (c.fmt.val a * c.fmt.val b)) (hw : c.fmt.IsReal w)
    (he : c.fmt.val w = c.fmt.val a * c.fmt.val b) : Posit.mul c a b = .ok w := by
  by_cases h0 : c.fmt.val a * c.fmt.val b = 0
  · rw [h0, Format.val_eq_zero_iff hw.inRange] at he
    subst he
    have : a = 0 ∨ b = 0 := by
      rcases mul_eq_zero.mp h0 with hh | hh
      · exact Or.inl ((Format.val_eq_zero_iff ha.inRange).mp hh)
      · exact Or.inr ((Format.val_eq_zero_iff hb.inRange).mp hh)
    rcases this with rfl | rfl
    · exact (C13_mul_zero h hb).2.1
    · exact (C13_mul_zero h ha).1
  · have ha0 : a ≠ 0 := by rintro rfl; simp at h0
    have hb0 : b ≠ 0 := by rintro rfl; simp at h0
    exact C08_mul_exact h (by omega) ha ha0 hb hb0 (hs.resolve_left h0) hw he

theorem loop_exact (h : c.WF) (hF : c.fb + 3 ≤ c.F) {l : List (ℤ × ℤ)} : ∀ {s : ℤ}, c.fmt.IsReal s → Steps c (c.fmt.val s) l →
    ∃ v, loop c s l = .ok v ∧ c.fmt.IsReal v ∧ c.fmt.val v = c.fmt.val s + (l.map fun q => c.fmt.val q.1 * c.fmt.val q.2).sum := by
  induction l with
  | nil => exact fun hs _ => ⟨_, rfl, hs, by simp⟩
  | cons q l ih =>
    obtain ⟨a, b⟩ := q
    rintro s hs ⟨ha, hb, h1, ⟨w, hw, ew⟩, h2, ⟨t, ht, et⟩, h3⟩
    rw [← ew] at h2
    obtain ⟨v, hv, -, -, hx, -⟩ := C10_add_partial h hF hs hw h2
    have := hx t ht (by rw [et, ew])
    subst this
    rw [← et] at h3
    obtain ⟨r, hr, r1, r2⟩ := ih ht h3
    refine ⟨r, ?_, r1, ?_⟩
    · rw [loop, mul_exact h hF ha hb h1 hw ew]
      show (Posit.add c s w >>= fun s' => loop c s' l) = _
      rw [hv]
      exact hr
    · rw [r2, et, List.map_cons, List.sum_cons]
      ring

end Eigen

/-- **C125**: where every product and every partial sum is a posit, the dot product of Eigen is exact. -/
theorem C125_exact_partial (h : c.WF) (hF : c.fb + 3 ≤ c.F) {l : List (ℤ × ℤ)} (hl : Steps c 0 l) :
    ∃ v, Eigen.dot c l = .ok v ∧ c.fmt.IsReal v ∧ c.fmt.val v = (l.map fun q => c.fmt.val q.1 * c.fmt.val q.2).sum := by
  cases l with
  | nil => exact ⟨0, rfl, by rw [isReal_bounds]; omega, by simp [Format.val_zero]⟩
  | cons q l =>
    obtain ⟨a, b⟩ := q
    obtain ⟨ha, hb, h1, ⟨w, hw, ew⟩, -, -, h3⟩ := hl
    rw [zero_add, ← ew] at h3
    obtain ⟨v, hv, r1, r2⟩ := loop_exact h hF hw h3
    refine ⟨v, ?_, r1, ?_⟩
    · rw [Eigen.dot, mul_exact h hF ha hb h1 hw ew]
      exact hv
    · rw [r2, ew, List.map_cons, List.sum_cons]

example : P8.WF ∧ P8.fb + 3 ≤ P8.F ∧ Steps P8 0 [(96, 32), (-80, 96), (0, 5)] ∧ Eigen.dot P8 [(96, 32), (-80, 96), (0, 5)] = .ok (-96) := by
  refine ⟨by decide +kernel, by decide +kernel, ⟨by decide +kernel, by decide +kernel, by decide +kernel, ⟨64, by decide +kernel⟩,
    by decide +kernel, ⟨64, by decide +kernel⟩, by decide +kernel, by decide +kernel, by decide +kernel, ⟨-104, by decide +kernel⟩,
    by decide +kernel, ⟨-96, by decide +kernel⟩, by decide +kernel, by decide +kernel, by decide +kernel, ⟨0, by decide +kernel⟩,
    by decide +kernel, ⟨-96, by decide +kernel⟩, trivial⟩, by decide +kernel⟩

/-- **C125** does not hold in general: if the first and the last product cancel and the posits next to the first product are
further away than each of the products in between, all of these are lost: the dot product of Eigen is zero. -/
theorem C125_lost (h : c.WF) (hF : c.fb + 2 ≤ c.F) {a b x y p v : ℤ} {l : List (ℤ × ℤ)} (ha : c.fmt.IsReal a) (hb : c.fmt.IsReal b)
    (hx : c.fmt.IsReal x) (hy : c.fmt.IsReal y) (h0 : 0 < c.fmt.val a * c.fmt.val b)
    (hc : c.fmt.val a * c.fmt.val b + c.fmt.val x * c.fmt.val y = 0) (hp : Posit.mul c a b = .ok p)
    (hl : ∀ q ∈ l, ∃ e, Posit.mul c q.1 q.2 = .ok e ∧ c.fmt.IsReal e ∧ 0 ≤ e ∧
      ∀ w, c.fmt.IsReal w → p < w → c.fmt.val p + c.fmt.val e < c.fmt.val w)
    (hv : Eigen.dot c ((a, b) :: (l ++ [(x, y)])) = .ok v) : v = 0 := by
  have ht := mul_trunc h hF ha hb h0.ne' hp
  have hp0 : 0 < p := by rcases ht.sign with hh | hh <;> linarith [hh.1, hh.2]
  unfold Eigen.dot at hv
  obtain ⟨p', hp', hv⟩ := bind_ok hv
  rw [hp] at hp'
  cases hp'
  have hv := loop_lost h hF ht.real hp0 hl hv
  unfold Eigen.loop at hv
  obtain ⟨q, hq, hv⟩ := bind_ok hv
  obtain ⟨s, hs, hv⟩ := bind_ok hv
  have e : c.fmt.val x * c.fmt.val y = -(c.fmt.val a * c.fmt.val b) := by linarith
  have ht' := mul_trunc h hF hx hy (by rw [e]; exact neg_ne_zero.mpr h0.ne') hq
  rw [e] at ht'
  rw [ht'.unique ht.neg, ← sub_as_add h p ht.real, C11_sub_self h ht.real] at hs
  cases hs
  unfold Eigen.loop at hv
  cases hv
  rfl

/- products of 1/4 beside 16 in an 8-bit format, where the next posit is 24 -/
example : P8.WF ∧ P8.fb + 2 ≤ P8.F ∧ Posit.mul P8 112 112 = .ok 124 ∧ Posit.mul P8 32 32 = .ok 16 ∧ P8.fmt.val 16 = 1 / 4 ∧
    P8.fmt.val 124 = 16 ∧ P8.fmt.val 125 = 24 ∧ Eigen.dot P8 [(112, 112), (32, 32), (32, 32), (32, 32), (-112, 112)] = .ok 0 := by
  decide +kernel

/-- **C125** is false for the vectors of the program in every format that has their elements: `ap.dot(bp)` is never 2; where it is
defined it is zero. -/
theorem C125_main_wrong (h : c.WF) (hF : c.fb + 2 ≤ c.F) {a b x y v : ℤ} (ha : c.fmt.IsReal a) (hb : c.fmt.IsReal b)
    (hx : c.fmt.IsReal x) (hy : c.fmt.IsReal y) (va : c.fmt.val a = 320000000) (vb : c.fmt.val b = 40000000)
    (vx : c.fmt.val x = 80000000) (vy : c.fmt.val y = -160000000)
    (hv : Eigen.dot c [(a, b), (c.one, c.one), (c.mone, c.mone), (x, y)] = .ok v) : v = 0 := by
  obtain ⟨-, ⟨o1, o2⟩, m1, m2⟩ := C19_zero_one h
  have o0 : c.one ≠ 0 := by intro hh; rw [hh] at o2; simp at o2
  have m0 : c.mone ≠ 0 := by intro hh; rw [hh] at m2; simp at m2
  have hs : c.SafeMag 1 := safeMag_half h (by norm_num) (by norm_num)
  have hone : ∀ q : ℤ × ℤ, q = (c.one, c.one) ∨ q = (c.mone, c.mone) → Posit.mul c q.1 q.2 = .ok c.one := by
    rintro q (rfl | rfl)
    · exact C08_mul_exact h hF o1 o0 o1 o0 (by rw [o2, one_mul]; exact hs) o1 (by rw [o2, one_mul])
    · exact C08_mul_exact h hF m1 m0 m1 m0 (by rw [m2]; norm_num; exact hs) o1 (by rw [o2, m2]; norm_num)
  have hv' := hv
  unfold Eigen.dot at hv'
  obtain ⟨p, hp, -⟩ := bind_ok hv'
  have hP : c.fmt.val a * c.fmt.val b = 12800000000000000 := by rw [va, vb]; norm_num
  have ht := mul_trunc h hF ha hb (by rw [hP]; norm_num) hp
  rw [hP] at ht
  have hp0 : 0 < p := by rcases ht.sign with hh | hh <;> linarith [hh.1, hh.2]
  have pp := (Format.val_pos_iff ht.real.inRange).mpr hp0
  have hple : c.fmt.val p ≤ 12800000000000000 := by
    rcases ht.below with hb' | hb'
    · rwa [abs_of_pos pp, abs_of_pos (by norm_num)] at hb'
    · have := hb' c.one o1 o0
      rw [abs_of_pos pp, o2] at this
      norm_num at this
      linarith
  refine C125_lost h hF ha hb hx hy (l := [(c.one, c.one), (c.mone, c.mone)]) (by rw [hP]; norm_num) (by rw [hP, vx, vy]; norm_num) hp ?_ hv
  intro q hq
  refine ⟨c.one, hone q (by simpa using hq), o1, by rw [one_eq h]; positivity, fun w hw hlt => ?_⟩
  have hw0 : 0 < w := by omega
  have pw' := (Format.val_pos_iff hw.inRange).mpr hw0
  have hgt : 12800000000000000 < c.fmt.val w := by
    by_contra hle
    have := ht.greatest w hw hw0.ne' (by rw [abs_of_pos pw', abs_of_pos (by norm_num)]; linarith)
    rw [abs_of_pos pw', abs_of_pos pp, Format.val_le_iff hw.inRange ht.real.inRange] at this
    omega
  obtain ⟨n, hn⟩ := even_posit h hw (by norm_num; linarith)
  rw [hn] at hgt ⊢
  have : (6400000000000000 : ℤ) < n := by
    have : (6400000000000000 : ℚ) < n := by linarith
    exact_mod_cast this
  have : (6400000000000001 : ℚ) ≤ n := by exact_mod_cast (show (6400000000000001 : ℤ) ≤ n by omega)
  rw [o2]
  linarith

example : P60.WF ∧ P60.fb + 2 ≤ P60.F ∧ P60.fmt.IsReal 574263021833027584 ∧ P60.fmt.val 574263021833027584 = 320000000 ∧
    P60.fmt.IsReal 572628241316052992 ∧ P60.fmt.val 572628241316052992 = 40000000 ∧
    P60.fmt.IsReal 573191191269474304 ∧ P60.fmt.val 573191191269474304 = 80000000 ∧
    P60.fmt.IsReal (-573754141222895616) ∧ P60.fmt.val (-573754141222895616) = -160000000 ∧
    Eigen.dot P60 [(574263021833027584, 572628241316052992), (P60.one, P60.one), (P60.mone, P60.mone),
      (573191191269474304, -573754141222895616)] = .ok 0 := by decide +kernel

/-- **C125** for `Posit::dot` of the same vectors: with a fraction type of 64 bits it is exactly 2. -/
theorem C125_posit_dot (h : c.WF) (hF : c.fb + 2 ≤ c.F) (h64 : c.F = 64) {a b x y : ℤ} (ha : c.fmt.IsReal a) (hb : c.fmt.IsReal b)
    (hx : c.fmt.IsReal x) (hy : c.fmt.IsReal y) (va : c.fmt.val a = 320000000) (vb : c.fmt.val b = 40000000)
    (vx : c.fmt.val x = 80000000) (vy : c.fmt.val y = -160000000) :
    ∃ v, Posit.dot c [(a, b), (c.one, c.one), (c.mone, c.mone), (x, y)] = .ok v ∧ c.fmt.IsReal v ∧ c.fmt.val v = 2 := by
  obtain ⟨-, ⟨o1, o2⟩, m1, m2⟩ := C19_zero_one h
  obtain ⟨k, -⟩ := C63_dot h hF (l := [(c.one, c.one), (c.mone, c.mone), (x, y)]) ha hb
    (by simp; exact ⟨o1, m1, hx, hy⟩) (by norm_num) rfl rfl
  simp only [List.map, o2, m2, va, vb, vx, vy, h64] at k
  have hf : List.foldl (alignedSum 64) (320000000 * 40000000) [(1 : ℚ) * 1, -1 * -1, 80000000 * -160000000] = 2 := by decide +kernel
  rw [hf] at k
  obtain ⟨v, hv, hc⟩ := k ⟨by decide +kernel, Or.inr (safeMag_half h (by norm_num) (by norm_num))⟩
  have hn : c.spec = .withNanInf → 4 ≤ c.N := by
    intro hs
    by_contra h4
    have hN := h.N_ge
    rw [isReal_bounds] at ha
    have hm : c.fmt.maxBody = 2 := by
      unfold Format.maxBody
      simp only [Cfg.fmt, hs, decide_true, if_true]
      rw [show c.N = 3 by omega]
      norm_num
    have ho : c.one = 2 := by rw [one_eq h, show c.N = 3 by omega]; norm_num
    have : c.fmt.val a ≤ c.fmt.val c.one := (Format.val_le_iff (isReal_bounds.mpr ha).inRange o1.inRange).mpr (by omega)
    rw [va, o2] at this
    norm_num at this
  obtain ⟨t1, t2⟩ := C19_two_partial h hn
  rcases hc with ⟨hh, -⟩ | hc
  · norm_num at hh
  · rw [hc.faithful.exact t1 t2] at hv
    exact ⟨_, hv, t1, t2⟩

example : P60.F = 64 ∧ Posit.dot P60 [(574263021833027584, 572628241316052992), (P60.one, P60.one), (P60.mone, P60.mone),
      (573191191269474304, -573754141222895616)] = .ok P60.two := by decide +kernel

end Verif
