import Verif.Lemmas.Fused
import Verif.Spec.Unpacked
import Verif.Model.Instances

/-! # `Unpacked` itself: C31 (equality), C32 (negation and subtraction) -/

namespace Verif
open Fmt

variable {c : Cfg} {F E : ℕ}

theorem tripleVal_mag (s : Bool) (e : ℤ) (f : ℕ) : tripleVal F s e f = (if s then -1 else 1) * mag F e f := rfl

theorem mag_inj {e e' : ℤ} {f f' : ℕ} (hf : f < 2 ^ F) (hf' : f' < 2 ^ F) (h : mag F e f = mag F e' f') : e = e' ∧ f = f' := by
  have he : e = e' := by rw [← log_mag (e := e) hf, h, log_mag hf']
  subst he
  refine ⟨rfl, ?_⟩
  unfold mag at h
  have h2 : (0 : ℚ) < 2 ^ e := by positivity
  have h3 := mul_left_cancel₀ h2.ne' h
  have h4 : (f : ℚ) / 2 ^ F = f' / 2 ^ F := by linarith
  have h5 : (f : ℚ) = f' := by
    have hp : (0 : ℚ) < 2 ^ F := by positivity
    rwa [div_left_inj' hp.ne'] at h4
  exact_mod_cast h5

/-! ## C31 -/

/-- **C31**: NaN is unequal to everything, itself included. -/
theorem C31_nan (u v : Unp) (h : u.ty = .nan ∨ v.ty = .nan) : Unp.eq u v = false ∧ Unp.ne u v = true := by
  unfold Unp.eq Unp.ne
  simp [h]

example : Unp.eq (Unp.ofTy .nan) (Unp.ofTy .nan) = false ∧ Unp.ne (Unp.ofTy .nan) ⟨.regular, true, 3, 128⟩ = true := by decide

/-- **C31**: `==` on finite numbers in normal form (zero has no sign, as every function of the library builds it) holds
exactly when they denote the same number. -/
theorem C31_eq (u v : Unp) (hu : u.ty = .regular ∨ u = Unp.ofTy .zero) (hv : v.ty = .regular ∨ v = Unp.ofTy .zero)
    (hfu : u.frac < 2 ^ F) (hfv : v.frac < 2 ^ F) : Unp.eq u v = true ↔ u.denote F = v.denote F := by
  have nz : ∀ (s : Bool) (e : ℤ) (f : ℕ), tripleVal F s e f ≠ 0 := by
    intro s e f
    rw [tripleVal_mag]
    have := mag_pos F e f
    cases s <;> simp <;> linarith
  obtain ⟨ut, us, ue, uf⟩ := u
  obtain ⟨vt, vs, ve, vf⟩ := v
  rcases hu with hu | hu <;> rcases hv with hv | hv
  · simp only at hu hv; subst hu hv
    simp only [Unp.eq, Unp.denote, reduceCtorEq, or_self, if_false, if_true, XNum.num.injEq, decide_true, Bool.and_true]
    rw [tripleVal_mag, tripleVal_mag]
    simp only [Bool.and_eq_true, decide_eq_true_eq]
    constructor
    · rintro ⟨h1, h2, h3⟩; rw [h1, h2, h3]
    · intro h
      have h1 := mag_pos F ue uf
      have h2 := mag_pos F ve vf
      have hs : us = vs := by
        cases us <;> cases vs <;> simp at h ⊢ <;> linarith
      subst hs
      have hm : mag F ue uf = mag F ve vf := by cases us <;> simpa using h
      obtain ⟨h3, h4⟩ := mag_inj hfu hfv hm
      exact ⟨rfl, h3, h4⟩
  · simp only at hu; subst hu
    simp only [Unp.ofTy, Unp.mk.injEq] at hv
    obtain ⟨rfl, rfl, rfl, rfl⟩ := hv
    simp [Unp.eq, Unp.denote, nz]
  · simp only at hv; subst hv
    simp only [Unp.ofTy, Unp.mk.injEq] at hu
    obtain ⟨rfl, rfl, rfl, rfl⟩ := hu
    simp [Unp.eq, Unp.denote, Ne.symm (nz _ _ _)]
  · rw [hu, hv]
    simp [Unp.eq, Unp.denote, Unp.ofTy]

example : (⟨.regular, true, 3, 128⟩ : Unp).frac < 2 ^ 8 ∧ Unp.eq ⟨.regular, true, 3, 128⟩ ⟨.regular, true, 3, 128⟩ = true ∧
    Unp.eq ⟨.regular, true, 3, 128⟩ ⟨.regular, true, 3, 129⟩ = false := by decide

/-- **C31**: infinities are equal exactly when their signs are. -/
theorem C31_eq_inf (s t : Bool) (e e' : ℤ) (f f' : ℕ) :
    Unp.eq ⟨.infinity, s, e, f⟩ ⟨.infinity, t, e', f'⟩ = decide (s = t) := by
  simp [Unp.eq]

/-- **C31** fails: `!=` is the negation of `==` exactly for the pairs with a NaN. -/
theorem C31_ne_iff (u v : Unp) : (Unp.ne u v = !Unp.eq u v) ↔ u.ty = .nan ∨ v.ty = .nan := by
  constructor
  · intro h
    by_contra hc
    unfold Unp.ne at h
    rw [if_neg hc] at h
    cases hh : Unp.eq u v <;> rw [hh] at h <;> simp at h
  · intro h
    obtain ⟨h1, h2⟩ := C31_nan u v h
    rw [h1, h2]; rfl

example : Unp.ne ⟨.regular, false, 0, 0⟩ ⟨.regular, false, 0, 0⟩ = true ∧
    Unp.eq ⟨.regular, false, 0, 0⟩ ⟨.regular, false, 0, 0⟩ = true := by decide

/-- **C31**, witness: `1 != 1` is true and `1 != 2` is false. -/
theorem C31_ne_wrong : Unp.ne ⟨.regular, false, 0, 0⟩ ⟨.regular, false, 0, 0⟩ = true ∧
    Unp.ne ⟨.regular, false, 0, 0⟩ ⟨.regular, false, 1, 0⟩ = false := by decide

/-! ## C32 -/

/-- **C32** holds exactly for regular numbers: unary minus gives the negated number iff the operand is regular; for zero,
the infinities and NaN it gives something else. -/
theorem C32_neg_iff (u : Unp) : (Unp.neg' u).denote F = (u.denote F).neg ↔ u.ty = .regular := by
  obtain ⟨t, s, e, f⟩ := u
  have h1 := mag_pos F e f
  cases t
  · simp only [Unp.neg', Unp.denote, XNum.neg, XNum.num.injEq, iff_true]
    rw [tripleVal_mag, tripleVal_mag]
    cases s <;> simp
  · simp [Unp.neg', Unp.denote, XNum.neg]
  · simp [Unp.neg', Unp.denote, XNum.neg]
  · simp only [Unp.neg', Unp.denote, XNum.neg, XNum.num.injEq, reduceCtorEq, iff_false]
    rw [tripleVal_mag]
    cases s <;> simp <;> linarith

/-- **C32**: unary minus is an involution on regular numbers. -/
theorem C32_neg_neg (u : Unp) (h : u.ty = .regular) : Unp.neg' (Unp.neg' u) = u := by
  obtain ⟨t, s, e, f⟩ := u
  simp only at h; subst h
  simp [Unp.neg']

example : Unp.neg' ⟨.regular, true, 3, 128⟩ = ⟨.regular, false, 3, 128⟩ := by decide

/-- **C32**, witnesses: minus zero is −1, minus infinity and minus NaN are numbers. -/
theorem C32_neg_wrong (F : ℕ) : (Unp.neg' (Unp.ofTy .zero)).denote F = .num (-1) ∧
    (Unp.neg' (Unp.ofTy .infinity)).denote F = .num (-1) ∧ (Unp.neg' (Unp.ofTy .nan)).denote F = .num (-1) := by
  refine ⟨?_, ?_, ?_⟩ <;> simp [Unp.neg', Unp.ofTy, Unp.denote, tripleVal]

/-- **C32**, subtraction of a nonzero regular number from zero or a regular number, when the difference fits the fraction
type and the operands do not have to be aligned by `max 32 F` bits: the result is the exact difference. `k` is a number of
trailing zero bits of the fraction fields. Missing: differences that need more than `F+1-k` bits (they are rounded), and
the operands for which the result is wrong, see below. -/
theorem C32_sub_partial (h : c.WF) {k : ℕ} (hk : 4 ≤ k) (hkF : k ≤ c.F) {u v : Unp}
    (hu : u = Unp.ofTy .zero ∨ (u.ty = .regular ∧ u.frac < 2 ^ c.F ∧ 2 ^ k ∣ u.frac))
    (hv : v.ty = .regular ∧ v.frac < 2 ^ c.F ∧ 2 ^ k ∣ v.frac)
    (heu : |u.exp| ≤ 2 * c.maxScale + 1) (hev : |v.exp| ≤ 2 * c.maxScale + 1)
    {x y : ℚ} (hx : u.denote c.F = .num x) (hy : v.denote c.F = .num y)
    (hd : x = 0 ∨ |u.exp - v.exp| < pw c.F) (hfit : Fits (c.F + 1 - k) (x - y)) :
    ∃ r, Unp.sub c.F c.E u v = .ok r ∧ r.denote c.F = (u.denote c.F).sub (v.denote c.F) := by
  have denv : Den c.F k v y := by
    obtain ⟨t, s, e, f⟩ := v
    simp only at hv
    obtain ⟨rfl, h2, h3⟩ := hv
    simp only [Unp.denote, XNum.num.injEq] at hy
    rw [← hy, tripleVal_mag]
    exact .reg s e f h2 h3
  have denu : Den c.F k u x := by
    rcases hu with rfl | hu
    · simp only [Unp.denote, Unp.ofTy, XNum.num.injEq] at hx
      rw [← hx]; exact .zero
    · obtain ⟨t, s, e, f⟩ := u
      simp only at hu
      obtain ⟨rfl, h2, h3⟩ := hu
      simp only [Unp.denote, XNum.num.injEq] at hx
      rw [← hx, tripleVal_mag]
      exact .reg s e f h2 h3
  have hy0 : y ≠ 0 := by
    rcases denv.cases with ⟨rfl, -⟩ | ⟨s, e, f, -, -, -, -, -, h0⟩
    · simp at hv
    · exact h0
  obtain ⟨r, hr, hdr⟩ := den_add h (by omega) hkF denu (denv.neg hy0) heu hev (c := c)
    ⟨by
      rcases hd with h0 | h0
      · exact Or.inl h0
      · rcases denu.exp_log with ⟨h1, -⟩ | ⟨-, h1⟩
        · exact Or.inl h1
        · rcases denv.exp_log with ⟨h2, -⟩ | ⟨-, h2⟩
          · exact absurd h2 hy0
          · right; right; rw [abs_neg, h1, h2]; exact h0,
      fun _ => Or.inr hk⟩ (by rwa [← sub_eq_add_neg])
  refine ⟨r, hr, ?_⟩
  rw [hx, hy]
  simp only [XNum.sub]
  rw [sub_eq_add_neg]
  generalize x + -y = z at hdr
  cases hdr with
  | zero => rfl
  | reg s e f hf hd => simp only [Unp.denote, tripleVal_mag]

/-- 3 − 1.25 = 1.75 -/
example : P16.WF ∧ (2 ^ 4 ∣ (2 : ℕ) ^ 15) ∧ Unp.sub P16.F P16.E ⟨.regular, false, 1, 2 ^ 15⟩ ⟨.regular, false, 0, 2 ^ 14⟩ =
    .ok ⟨.regular, false, 0, 2 ^ 15 + 2 ^ 14⟩ := by decide +kernel

/-- **C32** fails for the subtraction of zero: from zero it gives −1, from infinity or NaN it is right, from a regular
number it subtracts one (`C32_sub_zero_regular`). -/
theorem C32_sub_zero_zero : ∃ r, Unp.sub F E (Unp.ofTy .zero) (Unp.ofTy .zero) = .ok r ∧ r.denote F = .num (-1) := by
  refine ⟨_, rfl, ?_⟩
  simp [Unp.neg', Unp.ofTy, Unp.denote, tripleVal]

/-- **C32** fails for `∞ - ∞`: the result is the left infinity instead of NaN. -/
theorem C32_sub_inf_inf (s : Bool) :
    ∃ r, Unp.sub F E (Unp.ofTy .infinity s) (Unp.ofTy .infinity s) = .ok r ∧ r.denote F = .inf s ∧
      ((Unp.ofTy .infinity s).denote F).sub ((Unp.ofTy .infinity s).denote F) = .nan := by
  refine ⟨_, rfl, rfl, ?_⟩
  simp [Unp.denote, Unp.ofTy, XNum.sub]

/-- **C32** fails for a NaN subtrahend: `0 - NaN` is -1. -/
theorem C32_sub_nan_zero : ∃ r, Unp.sub F E (Unp.ofTy .zero) (Unp.ofTy .nan) = .ok r ∧ r.denote F = .num (-1) := by
  refine ⟨_, rfl, ?_⟩
  simp [Unp.neg', Unp.ofTy, Unp.denote, tripleVal]

/-- **C32**: the difference does not depend on whether the subtrahend is a number, zero, an infinity or NaN: the subtrahend counts
as the regular number of its fields. From an infinity and from NaN nothing is subtracted. -/
theorem C32_sub_type (u v : Unp) : (∀ t, Unp.sub F E u { v with ty := t } = Unp.sub F E u v) ∧
    (u.ty = .infinity ∨ u.ty = .nan → Unp.sub F E u v = .ok u) ∧
    (u.ty = .zero → ∃ r, Unp.sub F E u v = .ok r ∧ r.denote F = .num (-tripleVal F v.neg v.exp v.frac)) := by
  obtain ⟨t, s, e, f⟩ := u
  refine ⟨fun t => rfl, ?_, ?_⟩
  · rintro (h | h) <;> simp only at h <;> subst h <;> rfl
  · intro h
    simp only at h; subst h
    refine ⟨_, rfl, ?_⟩
    simp only [Unp.neg', Unp.denote, tripleVal_mag, XNum.num.injEq]
    cases v.neg <;> simp

/-- an infinity minus NaN, and zero minus an infinity whose fields are those of 3 -/
example : Unp.sub 16 32 (Unp.ofTy .infinity true) (Unp.ofTy .nan) = .ok (Unp.ofTy .infinity true) ∧
    Unp.sub 16 32 (Unp.ofTy .zero) ⟨.infinity, false, 1, 2 ^ 15⟩ = .ok ⟨.regular, true, 1, 2 ^ 15⟩ := by decide

theorem unp_bind_inv {α β : Type} {m : M α} {f : α → M β} {r : β} (h : (m >>= f) = .ok r) : ∃ a, m = .ok a ∧ f a = .ok r := by
  cases m with
  | error e => cases h
  | ok a => exact ⟨a, rfl, h⟩

theorem normalized_ty {u r : Unp} (h : Unp.normalized F E u = .ok r) : r.ty ≠ .nan := by
  unfold Unp.normalized at h
  split_ifs at h
  · cases h; exact nofun
  · obtain ⟨k, -, h⟩ := unp_bind_inv h
    obtain ⟨x, -, h⟩ := unp_bind_inv h
    obtain ⟨y, -, h⟩ := unp_bind_inv h
    cases h; exact nofun

/-- **C32** fails for NaN: a difference is NaN exactly if the minuend is, whatever is subtracted. -/
theorem C32_sub_nan_iff {u v r : Unp} (h : Unp.sub F E u v = .ok r) : r.denote F = .nan ↔ u.denote F = .nan := by
  obtain ⟨t, s, e, f⟩ := u
  cases t
  · have hr : r.ty ≠ .nan := by
      change Unp.addRegular F E _ _ = _ at h
      unfold Unp.addRegular at h
      obtain ⟨d, -, h⟩ := unp_bind_inv h
      obtain ⟨x, -, h⟩ := unp_bind_inv h
      obtain ⟨af, -, h⟩ := unp_bind_inv h
      obtain ⟨bf, -, h⟩ := unp_bind_inv h
      exact normalized_ty h
    obtain ⟨t', s', e', f'⟩ := r
    cases t' <;> simp_all [Unp.denote]
  · cases h; rfl
  · cases h; rfl
  · cases h; simp [Unp.neg', Unp.denote]

/-- 3 - NaN is 2 -/
example : Unp.sub 16 32 ⟨.regular, false, 1, 2 ^ 15⟩ (Unp.ofTy .nan) = .ok ⟨.regular, false, 1, 0⟩ := by decide +kernel

/-- **C32** fails for a regular number minus zero: one is subtracted, `x - 0 = x - 1` (when that fits). -/
theorem C32_sub_zero_regular (h : c.WF) {k : ℕ} (hk : 4 ≤ k) (hkF : k ≤ c.F) {u : Unp}
    (hu : u.ty = .regular ∧ u.frac < 2 ^ c.F ∧ 2 ^ k ∣ u.frac) (heu : |u.exp| ≤ 2 * c.maxScale + 1)
    (hd : |u.exp| < pw c.F) {x : ℚ} (hx : u.denote c.F = .num x) (hfit : Fits (c.F + 1 - k) (x - 1)) :
    ∃ r, Unp.sub c.F c.E u (Unp.ofTy .zero) = .ok r ∧ r.denote c.F = .num (x - 1) := by
  have heq : Unp.sub c.F c.E u (Unp.ofTy .zero) = Unp.sub c.F c.E u ⟨.regular, false, 0, 0⟩ := rfl
  have h1 : (⟨.regular, false, 0, 0⟩ : Unp).denote c.F = .num 1 := by simp [Unp.denote, tripleVal]
  rw [heq]
  obtain ⟨r, hr, hdr⟩ := C32_sub_partial h hk hkF (Or.inr hu) (v := ⟨.regular, false, 0, 0⟩)
    ⟨rfl, by simp, dvd_zero _⟩ heu (by simp; omega) hx h1 (Or.inr (by simpa using hd)) hfit
  refine ⟨r, hr, ?_⟩
  rw [hdr, hx, h1]
  rfl

example : Unp.sub P16.F P16.E ⟨.regular, false, 1, 2 ^ 15⟩ (Unp.ofTy .zero) = .ok ⟨.regular, false, 1, 0⟩ := by decide +kernel

end Verif
