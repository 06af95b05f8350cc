import Verif.Model.TPosit
import Verif.Lemmas.Float2Posit
import Mathlib.Tactic.IntervalCases

/-! # The tabulated template `tvalid` (C123) -/

namespace Verif
namespace TValid

/-- the points of the circle: `4N` of them, 0 at 0, one at `N`, infinity at `-2N`, minus one at `-N` -/
def Point (t : TValid) (v : ℤ) : Prop := -(2 * t.N : ℤ) ≤ v ∧ v < 2 * t.N

instance (t : TValid) (v : ℤ) : Decidable (t.Point v) := by unfold Point; infer_instance

/-- `v` and `w` stand for the same point -/
def Same (t : TValid) (v w : ℤ) : Prop := (4 * t.N : ℤ) ∣ v - w

/-- the reciprocal is the reflection that fixes one and exchanges zero and infinity -/
def recip (t : TValid) (v : ℤ) : ℤ := 2 * t.N - v

variable {t : TValid}

theorem WF.le (h : t.WF) : t.N ≤ 16 := by have := h.hH; have := h.hs; omega

theorem arith_ok (h : t.WF) {x : ℤ} (h1 : -1000 ≤ x) (h2 : x ≤ 1000) : t.arith x = .ok x := by
  have : (2 : ℤ) ^ 31 ≤ 2 ^ (pw t.H - 1) := pow_le_pow_right₀ (by norm_num) (by have := le_pw32 t.H; omega)
  norm_num at this
  unfold arith
  rw [arithS_ok (show InS (pw t.H) x from ⟨by omega, by omega⟩)]

theorem deep_id (h : t.WF) {x : ℤ} (h1 : -(6 * t.N : ℤ) ≤ x) (h2 : x ≤ 2 * t.N) : t.deep x = x := by
  have hs := h.hs
  have hN := h.le
  have i16 : wrapS 16 x = x := wrapS_of_inS (by norm_num) ⟨by norm_num; omega, by norm_num; omega⟩
  unfold deep
  rw [i16]
  refine wrapS_of_inS (by have := h.hN; omega) ?_
  unfold InS
  rcases h.hH with e | e | e | e <;> rw [e] <;> norm_num <;> omega

theorem neg_eq (h : t.WF) {v : ℤ} (hv : t.Point v) : t.neg v = .ok (-v) := by
  obtain ⟨h1, h2⟩ := hv
  have hN := h.le
  unfold neg
  rw [arith_ok h (by omega) (by omega)]
  exact congrArg Except.ok (deep_id h (by omega) (by omega))

theorem inv_eq (h : t.WF) {v : ℤ} (hv : t.Point v) : t.inv v = .ok (-(v + 4 * t.N)) := by
  obtain ⟨h1, h2⟩ := hv
  have hN := h.le
  have e : (t.TN : ℤ) = 4 * t.N := by unfold TN; push_cast; rfl
  unfold inv
  rw [e, arith_ok h (by omega) (by omega)]
  show (do let r ← t.arith (-(v + 4 * t.N)); return t.deep r) = _
  rw [arith_ok h (by omega) (by omega)]
  exact congrArg Except.ok (deep_id h (by omega) (by omega))

theorem uu_nonneg (h : t.WF) {v : ℤ} (h0 : 0 ≤ v) (h1 : v < 2 * t.N) : t.uu v = v.toNat := by
  have hN := h.le
  have hs := h.hs
  unfold uu wrapU
  rw [Int.emod_eq_of_lt h0]
  rcases h.hH with e | e | e | e <;> rw [e] <;> norm_num <;> omega

theorem uu_neg (h : t.WF) {v : ℤ} (h0 : v < 0) (h1 : -(6 * t.N : ℤ) ≤ v) : (t.uu v : ℤ) = v + 2 ^ t.H := by
  have hN := h.le
  have hs := h.hs
  unfold uu wrapU
  rw [← Int.add_mul_emod_self_right (b := 1) v, one_mul, Int.emod_eq_of_lt, Int.toNat_of_nonneg] <;>
    rcases h.hH with e | e | e | e <;> rw [e] <;> norm_num <;> omega

theorem get_big {tab : List ℤ} {i : ℕ} (h : tab.length ≤ i) : get tab i = .error .outOfBounds := by
  unfold get
  rw [List.getElem?_eq_none h]

/-- **C123** does not hold for `inv()`: what it returns stands for the negation of its argument, the point `operator-` returns, and for
no argument for the reciprocal; and except for infinity it is not one of the `4N` points. -/
theorem C123_inv_wrong (h : t.WF) {v : ℤ} (hv : t.Point v) :
    ∃ w n, t.inv v = .ok w ∧ t.neg v = .ok n ∧ t.Same w n ∧ t.Same w (-v) ∧ ¬ t.Same w (t.recip v) ∧
      (t.Point w ↔ v = -(2 * t.N : ℤ)) := by
  refine ⟨_, _, inv_eq h hv, neg_eq h hv, ⟨-1, by ring⟩, ⟨-1, by ring⟩, ?_, ?_⟩
  · rintro ⟨k, hk⟩
    unfold recip at hk
    have hN := h.hN
    have e : (t.N : ℤ) * (4 * k + 6) = 0 := by linarith
    rcases mul_eq_zero.mp e with e | e <;> omega
  · unfold Point at hv ⊢
    constructor <;> intro _ <;> [omega; constructor <;> omega]

example : WF ⟨16, 4, 8⟩ ∧ Point ⟨16, 4, 8⟩ 4 ∧ inv ⟨16, 4, 8⟩ 4 = .ok (-20) ∧ recip ⟨16, 4, 8⟩ 4 = 4 ∧
    inv ⟨16, 4, 8⟩ 0 = .ok (-16) ∧ recip ⟨16, 4, 8⟩ 0 = 8 :=
  ⟨⟨by decide, by decide, by decide⟩, by decide, by decide, by decide, by decide, by decide⟩

/-- **C123**, functions of one argument: a table of `4N` entries is read within its bounds exactly for the points from zero on. -/
theorem C123_unary_partial (h : t.WF) {tab : List ℤ} (ht : tab.length = 4 * t.N) {v : ℤ} (hv : t.Point v) :
    (∀ h0 : 0 ≤ v, t.op1 tab v = .ok (t.deep (tab[v.toNat]'(by have := hv.2; omega)))) ∧
    (v < 0 → t.op1 tab v = .error .outOfBounds) := by
  obtain ⟨h1, h2⟩ := hv
  constructor
  · intro h0
    unfold op1 get
    rw [uu_nonneg h h0 h2, List.getElem?_eq_getElem (by omega)]
    rfl
  · intro h0
    unfold op1
    rw [get_big]
    · rfl
    · have e := uu_neg h h0 (by omega)
      have hN := h.le
      have hs := h.hs
      rcases h.hH with e' | e' | e' | e' <;> rw [e'] at e <;> norm_num at e <;> omega

example : WF ⟨8, 2, 3⟩ ∧ Point ⟨8, 2, 3⟩ 2 ∧ op1 ⟨8, 2, 3⟩ [0, 2, 3, 3, 4, 5, 5, 6] 2 = .ok 3 ∧
    op1 ⟨8, 2, 3⟩ [0, 2, 3, 3, 4, 5, 5, 6] (-2) = .error .outOfBounds :=
  ⟨⟨by decide, by decide, by decide⟩, by decide, by decide, by decide⟩

/-- the index of a pair -/
theorem index_eq (h : t.WF) {a b : ℤ} (ha : t.Point a) (hb1 : -(6 * t.N : ℤ) ≤ b) (hb2 : b < 2 * t.N) :
    (0 ≤ a → 0 ≤ b → t.index a b = (4 * t.N * a + b).toNat) ∧
    (t.H ≤ 16 → a < 0 ∨ b < 0 → (4 * t.N) * (4 * t.N) ≤ t.index a b) ∧
    (32 ≤ t.H → (0 ≤ 4 * t.N * a + b → t.index a b = (4 * t.N * a + b).toNat) ∧
      (4 * t.N * a + b < 0 → (4 * t.N) * (4 * t.N) ≤ t.index a b)) := by
  obtain ⟨ha1, ha2⟩ := ha
  have hN := h.le
  have hN2 := h.hN
  have hs := h.hs
  have hH := h.hH
  have key : ∀ x : ℤ, -(6 * t.N : ℤ) ≤ x → x < 2 * t.N →
      (0 ≤ x ∧ (t.uu x : ℤ) = x) ∨ (x < 0 ∧ (t.uu x : ℤ) = x + 2 ^ t.H) := by
    intro x h1 h2
    by_cases h0 : 0 ≤ x
    · exact Or.inl ⟨h0, by rw [uu_nonneg h h0 h2]; omega⟩
    · exact Or.inr ⟨by omega, uu_neg h (by omega) h1⟩
  have kA := key a (by omega) ha2
  have kB := key b hb1 hb2
  unfold index TN
  generalize t.uu a = A at kA
  generalize t.uu b = B at kB
  obtain ⟨H, N, two⟩ := t
  dsimp only at *
  clear key h
  rcases hH with rfl | rfl | rfl | rfl
  · rw [show pw 8 = 32 from rfl]
    interval_cases N <;> norm_num at * <;> rcases kA with ⟨a0, kA⟩ | ⟨a0, kA⟩ <;> rcases kB with ⟨b0, kB⟩ | ⟨b0, kB⟩ <;> omega
  · rw [show pw 16 = 32 from rfl]
    have hA : A < 65536 := by norm_num at kA; omega
    have hB : B < 65536 := by norm_num at kB; omega
    have hlt : A * (4 * N) + B < 2 ^ 32 := by
      have : A * (4 * N) ≤ 65536 * 16 := Nat.mul_le_mul (by omega) (by omega)
      omega
    rw [Nat.mod_eq_of_lt hlt]
    interval_cases N <;> norm_num at * <;> rcases kA with ⟨a0, kA⟩ | ⟨a0, kA⟩ <;> rcases kB with ⟨b0, kB⟩ | ⟨b0, kB⟩ <;> omega
  · rw [show pw 32 = 32 from rfl]
    interval_cases N <;> norm_num at * <;> rcases kA with ⟨a0, kA⟩ | ⟨a0, kA⟩ <;> rcases kB with ⟨b0, kB⟩ | ⟨b0, kB⟩ <;> omega
  · rw [show pw 64 = 64 from rfl]
    interval_cases N <;> norm_num at * <;> rcases kA with ⟨a0, kA⟩ | ⟨a0, kA⟩ <;> rcases kB with ⟨b0, kB⟩ | ⟨b0, kB⟩ <;> omega

theorem get_in {tab : List ℤ} {i : ℕ} (h : i < tab.length) : get tab i = .ok tab[i] := by
  unfold get
  rw [List.getElem?_eq_getElem h]

theorem op2_big {tab : List ℤ} {a b : ℤ} (h : tab.length ≤ t.index a b) : t.op2 tab a b = .error .outOfBounds := by
  unfold op2
  rw [get_big h]
  rfl

theorem op2_at {tab : List ℤ} {a b : ℤ} {i : ℕ} (e : t.index a b = i) (h : i < tab.length) : t.op2 tab a b = .ok (t.deep tab[i]) := by
  subst e
  unfold op2
  rw [get_in h]
  rfl

/-- `a * (4N) + b` for points from zero on is within a table of `(4N)²` entries -/
theorem idx_lt (h : t.WF) {a b : ℤ} (ha2 : a < 2 * t.N) (hb2 : b < 2 * t.N) : (4 * t.N * a + b).toNat < 4 * t.N * (4 * t.N) := by
  have hN := h.hN
  have hle : (4 * t.N * a : ℤ) ≤ 4 * t.N * (2 * t.N - 1) := mul_le_mul_of_nonneg_left (by omega) (by omega)
  have h2 : (4 * t.N * a + b : ℤ) < ((4 * t.N * (4 * t.N) : ℕ) : ℤ) := by
    push_cast
    nlinarith
  have h0 : 0 < 4 * t.N * (4 * t.N) := by positivity
  omega

/-- **C123**, sums and products: with a table of `(4N)²` entries, two points from zero on read the entry of row `a` and column `b`. For holders of 8
and 16 bits every other pair reads out of bounds. -/
theorem C123_binary_partial (h : t.WF) {tab : List ℤ} (ht : tab.length = 4 * t.N * (4 * t.N)) {a b : ℤ} (ha : t.Point a) (hb : t.Point b) :
    (∀ (_ : 0 ≤ a) (_ : 0 ≤ b), t.op2 tab a b = .ok (t.deep (tab[(4 * t.N * a + b).toNat]'(by rw [ht]; exact idx_lt h ha.2 hb.2)))) ∧
    (t.H ≤ 16 → a < 0 ∨ b < 0 → t.op2 tab a b = .error .outOfBounds) := by
  obtain ⟨h1, h2, -⟩ := index_eq h ha (b := b) (by have := hb.1; omega) hb.2
  exact ⟨fun a0 b0 => op2_at (h1 a0 b0) _, fun hH hn => op2_big (by rw [ht]; exact h2 hH hn)⟩

example : WF ⟨16, 2, 3⟩ ∧ op2 ⟨16, 2, 3⟩ ((List.range 64).map fun i => (i : ℤ)) 2 3 = .ok 19 ∧
    op2 ⟨16, 2, 3⟩ ((List.range 64).map fun i => (i : ℤ)) 2 (-3) = .error .outOfBounds :=
  ⟨⟨by decide, by decide, by decide⟩, by decide, by decide⟩

/-- **C123** does not hold for sums and products with a negative operand for holders of 32 and 64 bits either: with `b < 0` the entry read is that of row `a - 1`,
column `4N + b`, and for `a ≤ 0` out of bounds. -/
theorem C123_binary_wrong (h : t.WF) (hH : 32 ≤ t.H) {tab : List ℤ} (ht : tab.length = 4 * t.N * (4 * t.N)) {a b : ℤ} (ha : t.Point a)
    (hb : t.Point b) :
    (a < 0 → t.op2 tab a b = .error .outOfBounds) ∧
    (b < 0 → a = 0 → t.op2 tab a b = .error .outOfBounds) ∧
    (∀ (_ : b < 0) (_ : 0 < a), t.op2 tab a b = .ok (t.deep (tab[(4 * t.N * (a - 1) + (4 * t.N + b)).toNat]'(by
      rw [ht, show 4 * t.N * (a - 1) + (4 * t.N + b) = 4 * t.N * a + b by ring]; exact idx_lt h ha.2 hb.2)))) := by
  obtain ⟨-, -, h3⟩ := index_eq h ha (b := b) (by have := hb.1; omega) hb.2
  obtain ⟨h4, h5⟩ := h3 hH
  obtain ⟨b1, b2⟩ := hb
  have hN := h.hN
  refine ⟨fun a0 => ?_, fun b0 a0 => ?_, fun b0 a0 => op2_at ?_ _⟩
  · have : (4 * t.N * a : ℤ) ≤ 4 * t.N * (-1) := mul_le_mul_of_nonneg_left (by omega) (by omega)
    exact op2_big (by rw [ht]; exact h5 (by linarith))
  · exact op2_big (by rw [ht]; exact h5 (by rw [a0]; linarith))
  · have : (4 * t.N * 1 : ℤ) ≤ 4 * t.N * a := mul_le_mul_of_nonneg_left (by omega) (by omega)
    rw [h4 (by linarith)]
    congr 1
    ring

example : WF ⟨32, 2, 3⟩ ∧ op2 ⟨32, 2, 3⟩ ((List.range 64).map fun i => (i : ℤ)) 2 (-3) = .ok 13 ∧
    op2 ⟨32, 2, 3⟩ ((List.range 64).map fun i => (i : ℤ)) (-1) 3 = .error .outOfBounds :=
  ⟨⟨by decide, by decide, by decide⟩, by decide, by decide⟩

/-- **C123** does not hold for differences: with a holder of 8 or 16 bits `a - b` is undefined for every `b > 0`. -/
theorem C123_sub_wrong (h : t.WF) (hH : t.H ≤ 16) {tab : List ℤ} (ht : tab.length = 4 * t.N * (4 * t.N)) {a b : ℤ} (ha : t.Point a)
    (hb : t.Point b) (hb0 : 0 < b) : t.sub tab a b = .error .outOfBounds := by
  unfold sub
  rw [neg_eq h hb]
  exact (C123_binary_partial h ht ha (b := -b) ⟨by have := hb.2; omega, by omega⟩).2 hH (Or.inr (by omega))

example : WF ⟨8, 2, 3⟩ ∧ Point ⟨8, 2, 3⟩ 1 ∧ sub ⟨8, 2, 3⟩ (List.replicate 64 0) 3 1 = .error .outOfBounds ∧
    sub ⟨8, 2, 3⟩ (List.replicate 64 0) 3 0 = .ok 0 :=
  ⟨⟨by decide, by decide, by decide⟩, by decide, by decide, by decide⟩

/-- **C123** does not hold for quotients and halves: with a holder of 8 or 16 bits they are undefined for all operands. With a wider
one a quotient that is defined is the entry `4N(a - 1) - b` of the table of products, so that 1/1 is the product of the points `N - 2` and `-N`. -/
theorem C123_div_wrong (h : t.WF) {tab : List ℤ} (ht : tab.length = 4 * t.N * (4 * t.N)) {a b : ℤ} (ha : t.Point a) (hb : t.Point b) :
    (t.H ≤ 16 → t.div tab a b = .error .outOfBounds ∧ (t.Point t.two → t.half tab a = .error .outOfBounds)) ∧
    (32 ≤ t.H → 4 * t.N * (a - 1) < b → t.div tab a b = .error .outOfBounds) ∧
    (32 ≤ t.H → b ≤ 4 * t.N * (a - 1) → ∃ i : Fin tab.length, (i : ℤ) = 4 * t.N * (a - 1) - b ∧ t.div tab a b = .ok (t.deep tab[i])) := by
  have hN := h.hN
  have big : ∀ b, t.Point b → t.H ≤ 16 → t.op2 tab a (-(b + 4 * t.N)) = .error .outOfBounds := fun b hb hH =>
    op2_big (by
      rw [ht]
      exact (index_eq h ha (b := -(b + 4 * t.N)) (by have := hb.2; omega) (by have := hb.1; omega)).2.1 hH
        (Or.inr (by have := hb.1; omega)))
  have e : t.div tab a b = t.op2 tab a (-(b + 4 * t.N)) := by
    unfold div
    rw [inv_eq h hb]
    rfl
  refine ⟨fun hH => ⟨by rw [e]; exact big b hb hH, fun h2 => ?_⟩, fun hH hlt => ?_, fun hH hle => ?_⟩
  · unfold half
    rw [inv_eq h h2]
    exact big _ h2 hH
  · rw [e]
    exact op2_big (by
      rw [ht]
      exact ((index_eq h ha (b := -(b + 4 * t.N)) (by have := hb.2; omega) (by have := hb.1; omega)).2.2 hH).2 (by linarith))
  · have i1 := ((index_eq h ha (b := -(b + 4 * t.N)) (by have := hb.2; omega) (by have := hb.1; omega)).2.2 hH).1 (by linarith)
    have i2 := idx_lt h ha.2 (b := -(b + 4 * t.N)) (by have := hb.1; omega)
    refine ⟨⟨(4 * t.N * a + -(b + 4 * t.N)).toNat, by rw [ht]; exact i2⟩, ?_, ?_⟩
    · dsimp only
      rw [Int.toNat_of_nonneg (by linarith)]
      ring
    · rw [e]
      exact op2_at i1 _

example : WF ⟨32, 4, 8⟩ ∧ div ⟨32, 4, 8⟩ ((List.range 256).map fun i => (i : ℤ)) 4 4 = .ok (4 * 4 * 2 + 12) ∧
    div ⟨8, 2, 3⟩ (List.replicate 64 0) 2 2 = .error .outOfBounds ∧ half ⟨8, 2, 3⟩ (List.replicate 64 0) 2 = .error .outOfBounds :=
  ⟨⟨by decide, by decide, by decide⟩, by decide +kernel, by decide, by decide⟩

end TValid
end Verif
