import Verif.Model.PositMul
import Verif.Props.ErrorBound

/-!
# C106: accumulating in a loop with `+=` and `*=`

The loop `for (x : l) s += x;` is `l.foldlM (Posit.addAssign c) s`, the loop `for (x : l) s *= x;` is `l.foldlM (Posit.mulAssign c) s`;
`.ok v` says that no step is undefined and `v` is the last value of `s`.
-/

namespace Verif
open Fmt

variable {c : Cfg}

namespace Loops

theorem addAssign_eq (a b : ℤ) : Posit.addAssign c a b = Posit.add c a b := by
  unfold Posit.addAssign; cases Posit.add c a b <;> rfl

theorem mulAssign_eq (a b : ℤ) : Posit.mulAssign c a b = Posit.mul c a b := rfl

theorem foldlM_cons {f : ℤ → ℤ → M ℤ} {s x v : ℤ} {l : List ℤ} (h : (x :: l).foldlM f s = .ok v) :
    ∃ t, f s x = .ok t ∧ l.foldlM f t = .ok v := by
  rw [List.foldlM_cons] at h
  cases hf : f s x with
  | error e => rw [hf] at h; cases h
  | ok t => rw [hf] at h; exact ⟨t, rfl, h⟩

theorem val_nonneg {a : ℤ} (ha : c.fmt.IsReal a) (h0 : 0 ≤ a) : 0 ≤ c.fmt.val a := by
  rcases h0.lt_or_eq with h | h
  · exact ((Format.val_pos_iff ha.inRange).mpr h).le
  · rw [← h, Format.val_zero]

theorem sum_nonneg {l : List ℤ} (hl : ∀ x ∈ l, c.fmt.IsReal x ∧ 0 ≤ x) : 0 ≤ (l.map c.fmt.val).sum :=
  List.sum_nonneg fun y hy => by
    obtain ⟨x, hx, rfl⟩ := List.mem_map.mp hy; exact val_nonneg (hl x hx).1 (hl x hx).2

theorem add_pos_trunc (h : c.WF) (hF : c.fb + 2 ≤ c.F) {a b v : ℤ} (ha : c.fmt.IsReal a) (ha0 : 0 < a) (hb : c.fmt.IsReal b)
    (hb0 : 0 < b) (hv : Posit.add c a b = .ok v) : c.fmt.IsTrunc (c.fmt.val a + c.fmt.val b) v := by
  by_cases hd : |c.fmt.scale a - c.fmt.scale b| < pw c.F
  · obtain ⟨k1, k2⟩ := add_real_same h hF ha (by omega) hb (by omega) (by omega) hd
    by_cases hs : c.SafeMag (c.fmt.val a + c.fmt.val b)
    · obtain ⟨w, hw, ht⟩ := k1 hs
      rw [hv] at hw; cases hw; exact ht
    · rw [k2 hs] at hv; cases hv
  · rw [add_real_ub h ha (by omega) hb (by omega) (by omega)] at hv; cases hv

/-- one step of a sum of numbers that are not negative -/
theorem add_step (h : c.WF) (hF : c.fb + 2 ≤ c.F) {a b v : ℤ} (ha : c.fmt.IsReal a) (ha0 : 0 ≤ a) (hb : c.fmt.IsReal b)
    (hb0 : 0 ≤ b) (hv : Posit.add c a b = .ok v) :
    c.fmt.IsReal v ∧ 0 ≤ v ∧ c.fmt.val v ≤ c.fmt.val a + c.fmt.val b ∧ c.fmt.val a ≤ c.fmt.val v ∧ c.fmt.val b ≤ c.fmt.val v ∧
    ∀ J : ℕ, (0 < c.fmt.val a + c.fmt.val b → (J : ℤ) ≤ fracBits c.N c.es (Int.log 2 (c.fmt.val a + c.fmt.val b))) →
      (c.fmt.val a + c.fmt.val b) * (1 - 1 / 2 ^ J) ≤ c.fmt.val v := by
  have hva := val_nonneg ha ha0
  have hvb := val_nonneg hb hb0
  have triv : ∀ (J : ℕ) (x : ℚ), 0 ≤ x → x * (1 - 1 / 2 ^ J) ≤ x := fun J x hx => by
    have : (0 : ℚ) ≤ 1 / 2 ^ J := by positivity
    nlinarith
  rcases ha0.lt_or_eq with ha' | ha'
  · rcases hb0.lt_or_eq with hb' | hb'
    · have ht := add_pos_trunc h hF ha ha' hb hb' hv
      have pa := (Format.val_pos_iff ha.inRange).mpr ha'
      have pb := (Format.val_pos_iff hb.inRange).mpr hb'
      have hv0 : 0 < v := by rcases ht.sign with hh | hh <;> linarith [hh.1, hh.2]
      have pv := (Format.val_pos_iff ht.real.inRange).mpr hv0
      have ga := ht.greatest a ha (by omega) (by rw [abs_of_pos pa, abs_of_pos (by linarith)]; linarith)
      have gb := ht.greatest b hb (by omega) (by rw [abs_of_pos pb, abs_of_pos (by linarith)]; linarith)
      rw [abs_of_pos pa, abs_of_pos pv] at ga
      rw [abs_of_pos pb, abs_of_pos pv] at gb
      have hle : c.fmt.val v ≤ c.fmt.val a + c.fmt.val b := by
        rcases ht.below with hh | hh
        · rwa [abs_of_pos pv, abs_of_pos (by linarith)] at hh
        · have := hh a ha (by omega)
          rw [abs_of_pos pv, abs_of_pos pa] at this
          linarith
      refine ⟨ht.real, hv0.le, hle, ga, gb, fun J hJ => ?_⟩
      have hy : 0 < c.fmt.val a + c.fmt.val b := by linarith
      specialize hJ hy
      obtain ⟨J', hJ'⟩ := Int.eq_ofNat_of_zero_le (show 0 ≤ fracBits c.N c.es (Int.log 2 (c.fmt.val a + c.fmt.val b)) by omega)
      have he := (faithful_errors (J := J') ht.faithful hy.ne' (by rw [abs_of_pos hy]; exact hJ')).2
      rw [abs_of_pos hy, abs_lt] at he
      have h1 : (c.fmt.val a + c.fmt.val b) / 2 ^ J' ≤ (c.fmt.val a + c.fmt.val b) / 2 ^ J :=
        div_le_div_of_nonneg_left hy.le (by positivity) (pow_le_pow_right₀ (by norm_num) (by omega))
      have h2 : (c.fmt.val a + c.fmt.val b) * (1 - 1 / 2 ^ J) =
          (c.fmt.val a + c.fmt.val b) - (c.fmt.val a + c.fmt.val b) / 2 ^ J := by ring
      linarith [he.1]
    · subst hb'
      have : v = a := by
        unfold Posit.add Posit.isZero at hv
        simp [ha'.ne'] at hv
        cases hv; rfl
      subst this
      rw [Format.val_zero, add_zero]
      exact ⟨ha, ha0, le_rfl, le_rfl, hva, fun J _ => triv J _ hva⟩
  · subst ha'
    have : v = b := by
      unfold Posit.add Posit.isZero at hv
      simp at hv
      cases hv; rfl
    subst this
    rw [Format.val_zero, zero_add]
    exact ⟨hb, hb0, le_rfl, hvb, le_rfl, fun J _ => triv J _ hvb⟩

end Loops
open Loops

/-- **C106**, sums of numbers that are not negative: a defined loop `s += x` ends with a real posit that is not greater than the exact sum
and not less than the start or any of the elements; it is zero only if everything is. -/
theorem C106_sum (h : c.WF) (hF : c.fb + 2 ≤ c.F) {s v : ℤ} {l : List ℤ} (hs : c.fmt.IsReal s) (hs0 : 0 ≤ s)
    (hl : ∀ x ∈ l, c.fmt.IsReal x ∧ 0 ≤ x) (hv : l.foldlM (Posit.addAssign c) s = .ok v) :
    c.fmt.IsReal v ∧ 0 ≤ v ∧ c.fmt.val v ≤ c.fmt.val s + (l.map c.fmt.val).sum ∧ c.fmt.val s ≤ c.fmt.val v ∧
    (∀ x ∈ l, c.fmt.val x ≤ c.fmt.val v) ∧ (v = 0 ↔ s = 0 ∧ ∀ x ∈ l, x = 0) := by
  suffices hh : c.fmt.IsReal v ∧ 0 ≤ v ∧ c.fmt.val v ≤ c.fmt.val s + (l.map c.fmt.val).sum ∧ c.fmt.val s ≤ c.fmt.val v ∧
      (∀ x ∈ l, c.fmt.val x ≤ c.fmt.val v) by
    obtain ⟨h1, h2, h3, h4, h5⟩ := hh
    refine ⟨h1, h2, h3, h4, h5, ?_, ?_⟩
    · rintro rfl
      have z : ∀ x, c.fmt.IsReal x → 0 ≤ x → c.fmt.val x ≤ c.fmt.val 0 → x = 0 := fun x hx hx0 hle => by
        rw [Format.val_zero] at hle
        have := (Format.val_eq_zero_iff hx.inRange).mp (le_antisymm hle (val_nonneg hx hx0))
        exact this
      exact ⟨z s hs hs0 h4, fun x hx => z x (hl x hx).1 (hl x hx).2 (h5 x hx)⟩
    · rintro ⟨rfl, hx⟩
      have : (l.map c.fmt.val).sum = 0 := by
        apply List.sum_eq_zero
        intro y hy
        obtain ⟨x, hxl, rfl⟩ := List.mem_map.mp hy
        rw [hx x hxl, Format.val_zero]
      rw [this, Format.val_zero, add_zero] at h3
      exact (Format.val_eq_zero_iff h1.inRange).mp (le_antisymm h3 (val_nonneg h1 h2))
  induction l generalizing s with
  | nil =>
    cases hv
    exact ⟨hs, hs0, by simp, le_rfl, by simp⟩
  | cons x l ih =>
    obtain ⟨t, ht, hv⟩ := foldlM_cons hv
    rw [addAssign_eq] at ht
    obtain ⟨hx, hx0⟩ := hl x (by simp)
    obtain ⟨t1, t2, t3, t4, t5, -⟩ := add_step h hF hs hs0 hx hx0 ht
    obtain ⟨i1, i2, i3, i4, i5⟩ := ih t1 t2 (fun y hy => hl y (by simp [hy])) hv
    refine ⟨i1, i2, ?_, by linarith, fun y hy => ?_⟩
    · rw [List.map_cons, List.sum_cons]; linarith
    · rcases List.mem_cons.mp hy with rfl | hy
      · linarith
      · exact i5 y hy

example : P16.WF ∧ P16.fb + 2 ≤ P16.F ∧ (∀ x ∈ [(12001 : ℤ), 12700, 0, 301, 20000], P16.fmt.IsReal x ∧ 0 ≤ x) ∧
    [(12001 : ℤ), 12700, 0, 301, 20000].foldlM (Posit.addAssign P16) 0 = .ok 20512 := by decide +kernel

/-- **C106**, relative error of such sums: if the exact sum is below `2^(hi+1)`, every number that occurs is zero or at least `2^lo`, and
posits have at least `J` fraction bits at every exponent from `lo` to `hi`, then the result of `n` steps is at least `(1 - 2^-J)^n` times
the exact sum. -/
theorem C106_sum_error (h : c.WF) (hF : c.fb + 2 ≤ c.F) {s v lo hi : ℤ} {l : List ℤ} {J : ℕ} (hs : c.fmt.IsReal s) (hs0 : 0 ≤ s)
    (hl : ∀ x ∈ l, c.fmt.IsReal x ∧ 0 ≤ x) (hlo : ∀ x ∈ s :: l, x = 0 ∨ (2 : ℚ) ^ lo ≤ c.fmt.val x)
    (hhi : c.fmt.val s + (l.map c.fmt.val).sum < 2 ^ (hi + 1)) (hJ : ∀ e, lo ≤ e → e ≤ hi → J ≤ fracBits c.N c.es e)
    (hv : l.foldlM (Posit.addAssign c) s = .ok v) :
    (c.fmt.val s + (l.map c.fmt.val).sum) * (1 - 1 / 2 ^ J) ^ l.length ≤ c.fmt.val v := by
  have hu : (0 : ℚ) ≤ 1 - 1 / 2 ^ J := by
    have : (1 : ℚ) / 2 ^ J ≤ 1 := by rw [div_le_one (by positivity)]; exact one_le_pow₀ (by norm_num)
    linarith
  have hu1 : (1 : ℚ) - 1 / 2 ^ J ≤ 1 := by
    have : (0 : ℚ) ≤ 1 / 2 ^ J := by positivity
    linarith
  induction l generalizing s with
  | nil => cases hv; simp
  | cons x l ih =>
    obtain ⟨t, ht, hv⟩ := foldlM_cons hv
    rw [addAssign_eq] at ht
    obtain ⟨hx, hx0⟩ := hl x (by simp)
    obtain ⟨t1, t2, t3, t4, t5, t6⟩ := add_step h hF hs hs0 hx hx0 ht
    have hl' : ∀ y ∈ l, c.fmt.IsReal y ∧ 0 ≤ y := fun y hy => hl y (by simp [hy])
    have hn := Loops.sum_nonneg hl'
    rw [List.map_cons, List.sum_cons] at hhi ⊢
    have hvs := val_nonneg hs hs0
    have hvx := val_nonneg hx hx0
    have t7 := t6 J (fun hp => by
      have hlo' : (2 : ℚ) ^ lo ≤ c.fmt.val s + c.fmt.val x := by
        rcases hlo s (by simp) with h0 | h0
        · rcases hlo x (by simp) with h1 | h1
          · rw [h0, h1, Format.val_zero] at hp; norm_num at hp
          · linarith
        · linarith
      apply hJ
      · exact (Int.zpow_le_iff_le_log (b := 2) (by norm_num) hp).mp (by exact_mod_cast hlo')
      · have : Int.log 2 (c.fmt.val s + c.fmt.val x) < hi + 1 :=
          (Int.lt_zpow_iff_log_lt (b := 2) (by norm_num) hp).mp (by push_cast; linarith)
        omega)
    have := ih t1 t2 hl' (fun y hy => by
      rcases List.mem_cons.mp hy with rfl | hy
      · by_cases hy0 : y = 0
        · exact Or.inl hy0
        · rcases hlo s (by simp) with h0 | h0
          · rcases hlo x (by simp) with h1 | h1
            · exfalso
              rw [h0, h1, Format.val_zero] at t3
              exact hy0 ((Format.val_eq_zero_iff t1.inRange).mp (le_antisymm (by linarith) (val_nonneg t1 t2)))
            · exact Or.inr (by linarith)
          · exact Or.inr (by linarith)
      · exact hlo y (by simp [hy])) (by linarith) hv
    refine le_trans ?_ this
    rw [List.length_cons, pow_succ, mul_comm ((1 - 1 / 2 ^ J : ℚ) ^ l.length), ← mul_assoc]
    refine mul_le_mul_of_nonneg_right ?_ (by positivity)
    nlinarith

example : P16.WF ∧ P16.fb + 2 ≤ P16.F ∧ (∀ x ∈ [(17001 : ℤ), 18700, 0, 20000], P16.fmt.IsReal x ∧ 0 ≤ x) ∧
    (∀ x ∈ 0 :: [(17001 : ℤ), 18700, 0, 20000], x = 0 ∨ (2 : ℚ) ^ (0 : ℤ) ≤ P16.fmt.val x) ∧
    P16.fmt.val 0 + ([(17001 : ℤ), 18700, 0, 20000].map P16.fmt.val).sum < 2 ^ ((3 : ℤ) + 1) ∧
    (∀ e ∈ [(0 : ℤ), 1, 2, 3], ((11 : ℕ) : ℤ) ≤ fracBits P16.N P16.es e) ∧
    [(17001 : ℤ), 18700, 0, 20000].foldlM (Posit.addAssign P16) 0 = .ok 22064 := by decide +kernel

namespace Loops

theorem mul_trunc (h : c.WF) (hF : c.fb + 2 ≤ c.F) {a b v : ℤ} (ha : c.fmt.IsReal a) (ha0 : a ≠ 0) (hb : c.fmt.IsReal b) (hb0 : b ≠ 0)
    (hv : Posit.mul c a b = .ok v) : c.fmt.IsTrunc (c.fmt.val a * c.fmt.val b) v := by
  by_cases hs : c.SafeMag (c.fmt.val a * c.fmt.val b)
  · obtain ⟨w, hw, ht⟩ := C08_mul_partial h hF ha ha0 hb hb0 hs
    rw [hv] at hw; cases hw; exact ht
  · rw [C08_mul_ub h hF ha ha0 hb hb0 hs] at hv; cases hv

theorem trunc_ne_zero {y : ℚ} {v : ℤ} (ht : c.fmt.IsTrunc y v) : v ≠ 0 := by rcases ht.sign with hh | hh <;> omega

theorem trunc_val_sign {y : ℚ} {v : ℤ} (ht : c.fmt.IsTrunc y v) : 0 < c.fmt.val v * y := by
  have hz : c.fmt.IsReal 0 := by unfold Format.IsReal; omega
  rcases ht.sign with ⟨h1, h2⟩ | ⟨h1, h2⟩
  · exact mul_pos ((Format.val_pos_iff ht.real.inRange).mpr h1) h2
  · have := (Format.val_lt_iff ht.real.inRange hz.inRange).mpr h1
    rw [Format.val_zero] at this
    exact mul_pos_of_neg_of_neg this h2

theorem val_ne {a : ℤ} (ha : c.fmt.IsReal a) (h0 : a ≠ 0) : c.fmt.val a ≠ 0 := fun hh => h0 ((Format.val_eq_zero_iff ha.inRange).mp hh)

end Loops

/-- **C106**, products of nonzero numbers: a defined loop `s *= x` ends with a real posit that is not zero and has the sign of the exact
product, however long the loop is. -/
theorem C106_prod_sign (h : c.WF) (hF : c.fb + 2 ≤ c.F) {s v : ℤ} {l : List ℤ} (hs : c.fmt.IsReal s) (hs0 : s ≠ 0)
    (hl : ∀ x ∈ l, c.fmt.IsReal x ∧ x ≠ 0) (hv : l.foldlM (Posit.mulAssign c) s = .ok v) :
    c.fmt.IsReal v ∧ v ≠ 0 ∧ 0 < c.fmt.val v * (c.fmt.val s * (l.map c.fmt.val).prod) := by
  induction l generalizing s with
  | nil =>
    cases hv
    exact ⟨hs, hs0, by simpa using val_ne hs hs0⟩
  | cons x l ih =>
    obtain ⟨t, ht, hv⟩ := foldlM_cons hv
    rw [mulAssign_eq] at ht
    obtain ⟨hx, hx0⟩ := hl x (by simp)
    have tr := mul_trunc h hF hs hs0 hx hx0 ht
    obtain ⟨i1, i2, i3⟩ := ih tr.real (trunc_ne_zero tr) (fun y hy => hl y (by simp [hy])) hv
    refine ⟨i1, i2, ?_⟩
    rw [List.map_cons, List.prod_cons]
    have k := trunc_val_sign tr
    have := mul_pos i3 k
    have ht2 : 0 < c.fmt.val t ^ 2 := by have := val_ne tr.real (trunc_ne_zero tr); positivity
    have e : c.fmt.val v * (c.fmt.val t * (l.map c.fmt.val).prod) * (c.fmt.val t * (c.fmt.val s * c.fmt.val x)) =
        c.fmt.val t ^ 2 * (c.fmt.val v * (c.fmt.val s * (c.fmt.val x * (l.map c.fmt.val).prod))) := by ring
    rw [e] at this
    exact (pos_iff_pos_of_mul_pos this).mp ht2

example : P16.WF ∧ P16.fb + 2 ≤ P16.F ∧ (∀ x ∈ [(-12001 : ℤ), 301, -22700, -3], P16.fmt.IsReal x ∧ x ≠ 0) ∧
    [(-12001 : ℤ), 301, -22700, -3].foldlM (Posit.mulAssign P16) 5 = .ok (-1) := by decide +kernel

/-- **C106**, products of numbers of magnitude at least 1: the result is not greater in magnitude than the exact product and not less than
1, the start, or any of the factors; and if the exact product is below `2^(hi+1)` and posits have at least `J` fraction bits at every
exponent from 0 to `hi`, it is at least `(1 - 2^-J)^n` times the exact product. -/
theorem C106_prod_large (h : c.WF) (hF : c.fb + 2 ≤ c.F) {s v : ℤ} {l : List ℤ} (hs : c.fmt.IsReal s) (hs1 : 1 ≤ |c.fmt.val s|)
    (hl : ∀ x ∈ l, c.fmt.IsReal x ∧ 1 ≤ |c.fmt.val x|) (hv : l.foldlM (Posit.mulAssign c) s = .ok v) :
    |c.fmt.val v| ≤ |c.fmt.val s * (l.map c.fmt.val).prod| ∧ 1 ≤ |c.fmt.val v| ∧ |c.fmt.val s| ≤ |c.fmt.val v| ∧
    (∀ x ∈ l, |c.fmt.val x| ≤ |c.fmt.val v|) ∧
    ∀ (hi : ℤ) (J : ℕ), |c.fmt.val s * (l.map c.fmt.val).prod| < 2 ^ (hi + 1) → (∀ e, 0 ≤ e → e ≤ hi → J ≤ fracBits c.N c.es e) →
      |c.fmt.val s * (l.map c.fmt.val).prod| * (1 - 1 / 2 ^ J) ^ l.length ≤ |c.fmt.val v| := by
  have nz : ∀ x, 1 ≤ |c.fmt.val x| → x ≠ 0 := fun x hx h0 => by rw [h0, Format.val_zero] at hx; norm_num at hx
  induction l generalizing s with
  | nil =>
    cases hv
    exact ⟨by simp, hs1, le_rfl, by simp, by simp⟩
  | cons x l ih =>
    obtain ⟨t, ht, hv⟩ := foldlM_cons hv
    rw [mulAssign_eq] at ht
    obtain ⟨hx, hx1⟩ := hl x (by simp)
    have tr := mul_trunc h hF hs (nz s hs1) hx (nz x hx1) ht
    have hl' : ∀ y ∈ l, c.fmt.IsReal y ∧ 1 ≤ |c.fmt.val y| := fun y hy => hl y (by simp [hy])
    have hsx : |c.fmt.val s| ≤ |c.fmt.val s * c.fmt.val x| := by rw [abs_mul]; nlinarith [abs_nonneg (c.fmt.val s)]
    have hxs : |c.fmt.val x| ≤ |c.fmt.val s * c.fmt.val x| := by rw [abs_mul]; nlinarith [abs_nonneg (c.fmt.val x)]
    have gs := tr.greatest s hs (nz s hs1) hsx
    have gx := tr.greatest x hx (nz x hx1) hxs
    have hle : |c.fmt.val t| ≤ |c.fmt.val s * c.fmt.val x| := by
      rcases tr.below with hh | hh
      · exact hh
      · exact (hh s hs (nz s hs1)).trans hsx
    obtain ⟨i1, i2, i3, i4, i5⟩ := ih tr.real (by linarith) hl' hv
    rw [List.map_cons, List.prod_cons, ← mul_assoc]
    set P := (l.map c.fmt.val).prod with hP
    have hP1 : 1 ≤ |P| := by
      rw [hP]
      clear * - hl'
      induction l with
      | nil => simp
      | cons y l ih' =>
        rw [List.map_cons, List.prod_cons, abs_mul]
        have a := (hl' y (by simp)).2
        have b := ih' (fun z hz => hl' z (by simp [hz]))
        nlinarith
    refine ⟨?_, i2, by linarith, fun y hy => ?_, fun hi J hhi hJ => ?_⟩
    · refine i1.trans ?_
      rw [abs_mul, abs_mul (c.fmt.val s * c.fmt.val x)]
      exact mul_le_mul_of_nonneg_right hle (abs_nonneg _)
    · rcases List.mem_cons.mp hy with rfl | hy
      · linarith
      · exact i4 y hy
    · have hu : (0 : ℚ) ≤ 1 - 1 / 2 ^ J := by
        have : (1 : ℚ) / 2 ^ J ≤ 1 := by rw [div_le_one (by positivity)]; exact one_le_pow₀ (by norm_num)
        linarith
      have hy : 0 < |c.fmt.val s * c.fmt.val x| := by linarith
      have hhi' : |c.fmt.val s * c.fmt.val x| < 2 ^ (hi + 1) := by
        rw [abs_mul] at hhi
        exact lt_of_le_of_lt (le_mul_of_one_le_right hy.le hP1) hhi
      have hJ' : (J : ℤ) ≤ fracBits c.N c.es (Int.log 2 |c.fmt.val s * c.fmt.val x|) := by
        apply hJ
        · exact (Int.zpow_le_iff_le_log (b := 2) (by norm_num) hy).mp (by rw [zpow_zero]; linarith)
        · have : Int.log 2 |c.fmt.val s * c.fmt.val x| < hi + 1 :=
            (Int.lt_zpow_iff_log_lt (b := 2) (by norm_num) hy).mp (by push_cast; linarith)
          omega
      obtain ⟨J', hJ''⟩ := Int.eq_ofNat_of_zero_le (show 0 ≤ fracBits c.N c.es (Int.log 2 |c.fmt.val s * c.fmt.val x|) by omega)
      have he := (faithful_errors (J := J') tr.faithful (abs_pos.mp hy) hJ'').2
      have h1 : |c.fmt.val s * c.fmt.val x| / 2 ^ J' ≤ |c.fmt.val s * c.fmt.val x| / 2 ^ J :=
        div_le_div_of_nonneg_left hy.le (by positivity) (pow_le_pow_right₀ (by norm_num) (by omega))
      have h2 : |c.fmt.val s * c.fmt.val x| - |c.fmt.val t| ≤ |c.fmt.val t - c.fmt.val s * c.fmt.val x| := by
        rw [abs_sub_comm]; exact abs_sub_abs_le_abs_sub _ _
      have h3 : |c.fmt.val s * c.fmt.val x| * (1 - 1 / 2 ^ J) ≤ |c.fmt.val t| := by
        have : |c.fmt.val s * c.fmt.val x| * (1 - 1 / 2 ^ J) = |c.fmt.val s * c.fmt.val x| - |c.fmt.val s * c.fmt.val x| / 2 ^ J := by ring
        linarith
      have hlt : |c.fmt.val t * P| < 2 ^ (hi + 1) := by
        refine lt_of_le_of_lt ?_ hhi
        rw [abs_mul, abs_mul (c.fmt.val s * c.fmt.val x)]
        exact mul_le_mul_of_nonneg_right hle (abs_nonneg _)
      refine le_trans ?_ (i5 hi J hlt hJ)
      rw [List.length_cons, pow_succ, abs_mul, abs_mul (c.fmt.val t)]
      have hq : (0 : ℚ) ≤ (1 - 1 / 2 ^ J) ^ l.length := by positivity
      calc |c.fmt.val s * c.fmt.val x| * |P| * ((1 - 1 / 2 ^ J) ^ l.length * (1 - 1 / 2 ^ J))
          = |c.fmt.val s * c.fmt.val x| * (1 - 1 / 2 ^ J) * (|P| * (1 - 1 / 2 ^ J) ^ l.length) := by ring
        _ ≤ |c.fmt.val t| * (|P| * (1 - 1 / 2 ^ J) ^ l.length) := mul_le_mul_of_nonneg_right h3 (by positivity)
        _ = _ := by ring

example : P16.WF ∧ P16.fb + 2 ≤ P16.F ∧ P16.fmt.IsReal (-17001) ∧ 1 ≤ |P16.fmt.val (-17001)| ∧
    (∀ x ∈ [(18700 : ℤ), -16400, -17003], P16.fmt.IsReal x ∧ 1 ≤ |P16.fmt.val x|) ∧
    |P16.fmt.val (-17001) * ([(18700 : ℤ), -16400, -17003].map P16.fmt.val).prod| < 2 ^ ((2 : ℤ) + 1) ∧
    (∀ e ∈ [(0 : ℤ), 1, 2], ((11 : ℕ) : ℤ) ≤ fracBits P16.N P16.es e) ∧
    [(18700 : ℤ), -16400, -17003].foldlM (Posit.mulAssign P16) (-17001) = .ok (-20337) := by decide +kernel

/-- **C106**, products of numbers of magnitude at most 1: the result is not greater in magnitude than the start or any of the factors. -/
theorem C106_prod_small (h : c.WF) (hF : c.fb + 2 ≤ c.F) {s v : ℤ} {l : List ℤ} (hs : c.fmt.IsReal s) (hs0 : s ≠ 0)
    (hs1 : |c.fmt.val s| ≤ 1) (hl : ∀ x ∈ l, c.fmt.IsReal x ∧ x ≠ 0 ∧ |c.fmt.val x| ≤ 1)
    (hv : l.foldlM (Posit.mulAssign c) s = .ok v) : |c.fmt.val v| ≤ |c.fmt.val s| ∧ ∀ x ∈ l, |c.fmt.val v| ≤ |c.fmt.val x| := by
  induction l generalizing s with
  | nil =>
    cases hv
    exact ⟨le_rfl, by simp⟩
  | cons x l ih =>
    obtain ⟨t, ht, hv⟩ := foldlM_cons hv
    rw [mulAssign_eq] at ht
    obtain ⟨hx, hx0, hx1⟩ := hl x (by simp)
    have tr := mul_trunc h hF hs hs0 hx hx0 ht
    have hts : |c.fmt.val t| ≤ |c.fmt.val s| := by
      rcases tr.below with hh | hh
      · rw [abs_mul] at hh; nlinarith [abs_nonneg (c.fmt.val s)]
      · exact hh s hs hs0
    have htx : |c.fmt.val t| ≤ |c.fmt.val x| := by
      rcases tr.below with hh | hh
      · rw [abs_mul] at hh; nlinarith [abs_nonneg (c.fmt.val x)]
      · exact hh x hx hx0
    obtain ⟨i1, i2⟩ := ih tr.real (trunc_ne_zero tr) (by linarith) (fun y hy => hl y (by simp [hy])) hv
    refine ⟨i1.trans hts, fun y hy => ?_⟩
    rcases List.mem_cons.mp hy with rfl | hy
    · exact i1.trans htx
    · exact i2 y hy

example : P16.WF ∧ P16.fb + 2 ≤ P16.F ∧ P16.fmt.IsReal 301 ∧ |P16.fmt.val 301| ≤ 1 ∧
    (∀ x ∈ [(-12001 : ℤ), 40, 9000], P16.fmt.IsReal x ∧ x ≠ 0 ∧ |P16.fmt.val x| ≤ 1) ∧
    [(-12001 : ℤ), 40, 9000].foldlM (Posit.mulAssign P16) 301 = .ok (-1) := by decide +kernel

/-- **C106**: the bound of `C106_prod_large` by the exact product does not extend to factors below 1: a product below the least positive
posit becomes the least positive posit, and later factors enlarge it. -/
theorem C106_prod_not_below : P8.WF ∧ P8.fb + 2 ≤ P8.F ∧ (∀ x ∈ [(2 : ℤ), 127], P8.fmt.IsReal x ∧ x ≠ 0) ∧
    [(2 : ℤ), 127].foldlM (Posit.mulAssign P8) 2 = .ok 64 ∧
    P8.fmt.val 2 * ([(2 : ℤ), 127].map P8.fmt.val).prod < P8.fmt.val 64 := by decide +kernel

/-- **C106**, stagnation: if a positive `x` is less than the distance from `s` to the next posit and `s += x` is defined, then repeating it
any number of times leaves `s` as it is. -/
theorem C106_stagnate (h : c.WF) (hF : c.fb + 2 ≤ c.F) {s x w : ℤ} (hs : c.fmt.IsReal (s + 1)) (hs0 : 0 < s) (hx : c.fmt.IsReal x)
    (hx0 : 0 < x) (hlt : c.fmt.val x < c.fmt.val (s + 1) - c.fmt.val s) (hw : Posit.addAssign c s x = .ok w) (n : ℕ) :
    (List.replicate n x).foldlM (Posit.addAssign c) s = .ok s := by
  have hs' : c.fmt.IsReal s := by unfold Format.IsReal at *; omega
  have hws : w = s := by
    rw [addAssign_eq] at hw
    obtain ⟨k1, k2, k3, k4, -⟩ := add_step h hF hs' hs0.le hx hx0.le hw
    have a := (Format.val_le_iff hs'.inRange k1.inRange).mp k4
    have b := (Format.val_lt_iff k1.inRange hs.inRange).mp (by linarith)
    omega
  subst hws
  induction n with
  | zero => rfl
  | succ n ih => rw [List.replicate_succ, List.foldlM_cons, hw]; exact ih

example : P16.WF ∧ P16.fb + 2 ≤ P16.F ∧ P16.fmt.IsReal (30000 + 1) ∧ P16.fmt.IsReal 16384 ∧
    P16.fmt.val 16384 < P16.fmt.val (30000 + 1) - P16.fmt.val 30000 ∧ Posit.addAssign P16 30000 16384 = .ok 30000 := by decide +kernel

/-- **C106**, counters: a posit counter whose exponent exceeds its number of fraction bits is not changed by counting on by ones, however
long. -/
theorem C106_counter (h : c.WF) (hF : c.fb + 2 ≤ c.F) {s w : ℤ} {J : ℕ} (hs : c.fmt.IsReal (s + 1)) (hs0 : 0 < s)
    (hJ : fracBits c.N c.es (c.fmt.scale s) = J) (hbig : (J : ℤ) < c.fmt.scale s) (hw : Posit.addAssign c s c.one = .ok w) (n : ℕ) :
    (List.replicate n c.one).foldlM (Posit.addAssign c) s = .ok s := by
  have h1 := val_one h
  have hone : c.fmt.IsReal c.one := (one_real h).1
  refine C106_stagnate h hF hs hs0 hone ((Format.val_pos_iff hone.inRange).mp (by rw [h1]; norm_num)) ?_ hw n
  rw [h1, C67_spacing hs hs0 hJ]
  have : (2 : ℚ) ^ (0 : ℤ) < 2 ^ (c.fmt.scale s - J) := zpow_lt_zpow_right₀ (by norm_num) (by omega)
  simpa using this

example : P16.WF ∧ P16.fb + 2 ≤ P16.F ∧ P16.fmt.IsReal (30000 + 1) ∧ fracBits P16.N P16.es (P16.fmt.scale 30000) = (9 : ℕ) ∧
    ((9 : ℕ) : ℤ) < P16.fmt.scale 30000 ∧ Posit.addAssign P16 30000 P16.one = .ok 30000 := by decide +kernel

end Verif
