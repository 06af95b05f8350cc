import Verif.Props.ExtConvert
import Verif.Props.Sum

/-!
# C97: the conversions preserve the order of the numbers

For every two inputs whose conversions are defined. The conversion to `int` is the exception.
-/

namespace Verif
open Fmt

variable {c c' : Cfg} {eb fb : ℕ}

/-- outcomes follow the order of the numbers -/
theorem Outcome.le {x y : ℚ} {r s : M ℤ} {v w : ℤ} (hr : Outcome c x r) (hs : Outcome c y s) (hv : r = .ok v) (hw : s = .ok w)
    (hxy : x ≤ y) : c.fmt.IsReal v ∧ c.fmt.IsReal w ∧ c.fmt.val v ≤ c.fmt.val w := by
  have key : ∀ {x r v}, Outcome c x r → r = .ok v → c.fmt.IsCut0 x v := by
    intro x r v hr hv
    by_cases hx : x = 0 ∨ c.SafeMag x
    · obtain ⟨u, h1, h2⟩ := hr.1 hx
      rw [hv] at h1
      cases h1
      exact h2
    · have := hr.2 hx
      rw [hv] at this
      cases this
  have hv' := key hr hv
  have hw' := key hs hw
  exact ⟨IsCut0.real hv', IsCut0.real hw',
    (Format.val_le_iff (IsCut0.real hv').inRange (IsCut0.real hw').inRange).mpr (IsCut0.le hv' hw' hxy)⟩

/-- **C97**, from integers: for every two values of an `int` whose conversions are defined. -/
theorem C97_ofInt (h : c.WF) (hF : c.fb ≤ c.F) {i j v w : ℤ} (hi : -2 ^ 31 ≤ i) (hij : i ≤ j) (hj : j < 2 ^ 31)
    (hv : Posit.ofInt c i = .ok v) (hw : Posit.ofInt c j = .ok w) :
    c.fmt.IsReal v ∧ c.fmt.IsReal w ∧ c.fmt.val v ≤ c.fmt.val w := by
  have key : ∀ {i v}, -2 ^ 31 ≤ i → i < 2 ^ 31 → Posit.ofInt c i = .ok v → Outcome c i (Posit.ofInt c i) := by
    intro i v h1 h2 hv
    obtain ⟨a, b⟩ := C89_ofInt h hF h1 h2
    refine b fun he => ?_
    have := a he
    rw [hv] at this
    cases this
  exact (key hi (by omega) hv).le (key (by omega) hj hw) hv hw (by exact_mod_cast hij)

example : P32.WF ∧ P32.fb ≤ P32.F ∧ Posit.ofInt P32 (-77) = .ok (-1490026496) ∧ Posit.ofInt P32 123456789 = .ok 2037086626 := by
  decide +kernel

theorem readSub_mono (eb F : ℕ) {x y : ℚ} (h : x ≤ y) : readSub eb F x ≤ readSub eb F y := by
  have hu : 0 < subUnit eb F := by unfold subUnit; positivity
  have hab : ∀ z : ℚ, |cutTo (subUnit eb F) z| ≤ |z| := fun z => cutTo_abs hu
  unfold readSub
  split_ifs with h1 h2 h2
  · exact cutTo_mono hu h
  · have h3 := abs_le.mp (hab x)
    have h4 := abs_lt.mp h1
    rcases le_total 0 x with hx | hx
    · have := abs_of_nonneg hx
      linarith [h3.2]
    · have hy : 0 ≤ y := by
        by_contra hc
        have := abs_of_neg (not_le.mp hc)
        linarith [not_lt.mp h2]
      have := cutTo_nonpos hu hx
      linarith
  · have h3 := abs_le.mp (hab y)
    have h4 := abs_lt.mp h2
    rcases le_total 0 y with hy | hy
    · have hx : x ≤ 0 := by
        by_contra hc
        have := abs_of_pos (not_le.mp hc)
        linarith [not_lt.mp h1, abs_of_nonneg hy]
      have := cutTo_nonneg hu hy
      linarith
    · have := abs_of_nonpos hy
      linarith [h3.1]
  · exact h

/-- **C97**, from floats: for every two bit patterns that are numbers. -/
theorem C97_ofFloat (h : c.WF) (heb : 2 ≤ eb) (heb30 : eb ≤ 30) (hfb : 1 ≤ fb) (hF : c.fb ≤ c.F) (hE : eb < c.E)
    (hE2 : 2 ^ (eb - 1) + fb ≤ 2 ^ (c.E - 1)) {a b : ℕ} {x y : ℚ} (ha : ieee eb fb a = .num x) (hb : ieee eb fb b = .num y)
    (hxy : x ≤ y) {v w : ℤ} (hv : Posit.ofFloat c (.any eb fb true) a = .ok v)
    (hw : Posit.ofFloat c (.any eb fb true) b = .ok w) :
    c.fmt.IsReal v ∧ c.fmt.IsReal w ∧ c.fmt.val v ≤ c.fmt.val w := by
  have key : ∀ {b y w}, ieee eb fb b = .num y → Posit.ofFloat c (.any eb fb true) b = .ok w →
      Outcome c (readSub eb c.F y) (Posit.ofFloat c (.any eb fb true) b) := by
    intro b y w hb hw
    have := C89_ofFloat h heb heb30 hfb hF hE hE2 b
    rw [hb] at this
    simp only [] at this
    refine this.2 fun hc => ?_
    have := this.1 hc
    rw [hw] at this
    cases this
  exact (key ha hv).le (key hb hw) hv hw (readSub_mono eb c.F hxy)

/-- two doubles, one of them subnormal -/
example : P28.WF ∧ P28.fb ≤ P28.F ∧ 11 < P28.E ∧ 2 ^ (11 - 1) + 52 ≤ 2 ^ (P28.E - 1) ∧
    [2 ^ 40 + 5, 0x40490fdb00000000].map (Posit.ofFloat P28 .double) = [.ok 1, .ok 72945627] := by decide +kernel

/-- **C97**, infinite floats: in the formats with two infinities they stay outside of all numbers. -/
theorem C97_ofFloat_inf (h : c.WF) (heb : 2 ≤ eb) (hfb : 1 ≤ fb) (hE : eb < c.E) (hs : c.spec = .withNanInf) {p n : ℕ}
    (hp : ieee eb fb p = .inf false) (hn : ieee eb fb n = .inf true) {v : ℤ} (hv : c.fmt.IsReal v) :
    ∃ x y, Posit.ofFloat c (.any eb fb true) n = .ok x ∧ Posit.ofFloat c (.any eb fb true) p = .ok y ∧
      Posit.lt c x v = true ∧ Posit.lt c v y = true := by
  refine ⟨_, _, C22_inf h heb hfb hE hn, C22_inf h heb hfb hE hp, ?_⟩
  have hi := invertBit_lt h
  have hmb : c.fmt.maxBody = if c.fmt.twoInf then 2 ^ (c.fmt.N - 1) - 2 else 2 ^ (c.fmt.N - 1) - 1 := rfl
  rw [fmt_N, if_pos (by simpa [Cfg.fmt] using hs)] at hmb
  have hb := isReal_bounds.mp hv
  have h2 : 2 ≤ 2 ^ (c.N - 1) := by
    have := h.N_ge
    calc 2 = 2 ^ 1 := rfl
      _ ≤ _ := Nat.pow_le_pow_right (by norm_num) (by omega)
  unfold Cfg.infPat
  simp only [hs, if_true, Bool.false_eq_true, if_false]
  rw [natCast_pow2] at hi ⊢
  have hnan : ∀ x : ℤ, -((2 ^ (c.N - 1) : ℕ) : ℤ) < x → Posit.isNaN c x = false := by
    intro x hx
    unfold Posit.isNaN
    have : x ≠ c.nan := by
      have e : c.nan = -((2 ^ (c.N - 1) : ℕ) : ℤ) := by rw [← natCast_pow2]; exact h.nan_eq
      omega
    simp [this]
  have hlt : ∀ x y : ℤ, -((2 ^ (c.N - 1) : ℕ) : ℤ) < x → x < y → Posit.lt c x y = true := by
    intro x y h1 h2
    unfold Posit.lt
    rw [hnan x h1, hnan y (by omega)]
    simp [h2]
  exact ⟨hlt _ _ (by omega) (by omega), hlt _ _ (by omega) (by omega)⟩

example : P60.WF ∧ 11 < P60.E ∧ P60.spec = .withNanInf ∧ P60.fmt.IsReal 12345 ∧
    [0x7ff0000000000000, 0xfff0000000000000].map (Posit.ofFloat P60 .double) = [.ok (2 ^ 59 - 1), .ok (1 - 2 ^ 59)] := by
  decide +kernel

/-- **C97**, between posit formats with the same fraction type. -/
theorem C97_convert (h : c.WF) (h' : c'.WF) (hF : c.fb ≤ c.F) (hFF : c.F = c'.F) {a b v w : ℤ} (ha : c.fmt.IsReal a)
    (hb : c.fmt.IsReal b) (hab : c.fmt.val a ≤ c.fmt.val b) (hv : (do let u ← Posit.unpack c a; Posit.pack c' u) = .ok v)
    (hw : (do let u ← Posit.unpack c b; Posit.pack c' u) = .ok w) :
    c'.fmt.IsReal v ∧ c'.fmt.IsReal w ∧ c'.fmt.val v ≤ c'.fmt.val w := by
  have hcan : ∀ {x}, c.fmt.IsReal x → c.fmt.IsCanonical x := fun {x} hx => by
    have := maxBody_lt' c
    rw [isReal_bounds] at hx
    unfold Format.IsCanonical
    rw [fmt_N]; omega
  have k1 := C89_convert h h' hF hFF (hcan ha)
  have k2 := C89_convert h h' hF hFF (hcan hb)
  rw [ext_real ha] at k1
  rw [ext_real hb] at k2
  exact Outcome.le k1 k2 hv hw hab

/-- from 32 bits with three exponent bits to 20 bits with one -/
example : P32.WF ∧ Cfg.WF { P32 with N := 20, es := 1 } ∧ P32.fb ≤ P32.F ∧
    [-1490026496, 2037086626].map (fun a => do let u ← Posit.unpack P32 a; Posit.pack { P32 with N := 20, es := 1 } u) =
      [.ok (-493184), .ok 524262] := by decide +kernel

/-- cut numbers follow the order -/
theorem IsCut.le {x y X Y : ℚ} {a b : ℕ} (ha : IsCut eb fb x a) (hb : IsCut eb fb y b) (hxy : x ≤ y)
    (hX : ieee eb fb a = .num X) (hY : ieee eb fb b = .num Y) : X ≤ Y := by
  obtain ⟨X', hX', a1, a2⟩ := ha
  obtain ⟨Y', hY', b1, b2⟩ := hb
  rw [hX] at hX'; cases hX'
  rw [hY] at hY'; cases hY'
  have hm : 0 < minNorm eb := by unfold minNorm; positivity
  rcases lt_or_ge |x| (minNorm eb) with h1 | h1 <;> rcases lt_or_ge |y| (minNorm eb) with h2 | h2
  · rw [a1 h1, b1 h2]
  · rw [a1 h1]
    have := (b2 h2).1
    have hy : 0 < y := by
      by_contra hc
      have := abs_of_nonpos (not_lt.mp hc)
      have := (abs_lt.mp h1).1
      linarith
    by_contra hc
    nlinarith
  · rw [b1 h2]
    have := (a2 h1).1
    have hx : x < 0 := by
      by_contra hc
      have := abs_of_nonneg (not_lt.mp hc)
      have := (abs_lt.mp h2).2
      linarith
    by_contra hc
    nlinarith
  · obtain ⟨p1, p2, p3⟩ := a2 h1
    obtain ⟨q1, q2, q3⟩ := b2 h2
    rcases lt_or_ge x 0 with hx | hx <;> rcases lt_or_ge y 0 with hy | hy
    · have hX0 : X < 0 := by by_contra hc; nlinarith
      have hY0 : Y < 0 := by by_contra hc; nlinarith
      have := p3 b Y hY (by
        rw [abs_of_neg hx]
        rw [abs_of_neg hy] at q2
        linarith)
      rw [abs_of_neg hX0, abs_of_neg hY0] at this
      linarith
    · have hX0 : X < 0 := by by_contra hc; nlinarith
      have hY0 : 0 < Y := by by_contra hc; nlinarith
      linarith
    · linarith
    · have hX0 : 0 < X := by by_contra hc; nlinarith
      have hY0 : 0 < Y := by by_contra hc; nlinarith
      have := q3 a X hX (by
        rw [abs_of_nonneg hy]
        rw [abs_of_nonneg hx] at p2
        linarith)
      rwa [abs_of_pos hX0, abs_of_pos hY0] at this

/-- **C97**, to floats: the float of the greater posit is not below that of the smaller. -/
theorem C97_toFloat (h : c.WF) (hF : c.fb ≤ c.F) (heb : 2 ≤ eb) (heb30 : eb ≤ 30) (hfb : 1 ≤ fb)
    (hE : eb < max c.E (Unp.leastBits eb)) (hE2 : c.maxScale + 2 ^ (eb - 1) ≤ 2 ^ (max c.E (Unp.leastBits eb) - 1))
    {v w : ℤ} (hv : c.fmt.IsReal v) (hw : c.fmt.IsReal w) (hvw : c.fmt.val v ≤ c.fmt.val w) :
    ∃ a b x y, Posit.toFloat c (.any eb fb true) v = .ok a ∧ Posit.toFloat c (.any eb fb true) w = .ok b ∧
      ieee eb fb a = .num x ∧ ieee eb fb b = .num y ∧ x ≤ y := by
  have hcan : ∀ {x}, c.fmt.IsReal x → c.fmt.IsCanonical x := fun {x} hx => by
    have := maxBody_lt' c
    rw [isReal_bounds] at hx
    unfold Format.IsCanonical
    rw [fmt_N]; omega
  obtain ⟨a, ha, h1⟩ := C89_toFloat h hF heb heb30 hfb hE hE2 (hcan hv)
  obtain ⟨b, hb, h2⟩ := C89_toFloat h hF heb heb30 hfb hE hE2 (hcan hw)
  rw [ext_real hv] at h1
  rw [ext_real hw] at h2
  obtain ⟨x, hx, -⟩ := id h1.2.1
  obtain ⟨y, hy, -⟩ := id h2.2.1
  exact ⟨a, b, x, y, ha, hb, hx, hy, h1.2.1.le h2.2.1 hvw hx hy⟩

example : P28.WF ∧ P28.fb ≤ P28.F ∧ 11 < max P28.E (Unp.leastBits 11) ∧
    P28.maxScale + 2 ^ (11 - 1) ≤ 2 ^ (max P28.E (Unp.leastBits 11) - 1) ∧ P28.fmt.IsReal (-98000000) ∧
    P28.fmt.IsReal 98000000 ∧ [-98000000, 98000000].map (Posit.toFloat P28 .double) =
      [.ok 13963230874511081472, .ok 4739858837656305664] := by decide +kernel

theorem truncZ_mono {x y : ℚ} (h : x ≤ y) : truncZ x ≤ truncZ y := by
  unfold truncZ
  split_ifs with h1 h2 h2
  · exact Int.floor_le_floor h
  · linarith
  · exact (Int.ceil_le.mpr (by push_cast; linarith)).trans (Int.floor_nonneg.mpr h2)
  · exact Int.ceil_le_ceil h

/-- **C97**, to integers: the order is kept outside of `[2^31, 2^32)`, where the result has the wrong sign. -/
theorem C97_toInt (h : c.WF) (hF : c.fb ≤ c.F) {v w i j : ℤ} (hv : c.fmt.IsReal v) (hw : c.fmt.IsReal w)
    (hvw : c.fmt.val v ≤ c.fmt.val w) (hi : Posit.toInt c v = .ok i) (hj : Posit.toInt c w = .ok j) :
    (¬ (2 ^ 31 ≤ |c.fmt.val v| ∧ |c.fmt.val v| < 2 ^ 32) → ¬ (2 ^ 31 ≤ |c.fmt.val w| ∧ |c.fmt.val w| < 2 ^ 32) → i ≤ j) ∧
    (2 ^ 31 ≤ c.fmt.val v → c.fmt.val v < 2 ^ 32 → i < 0) ∧ (c.fmt.val w ≤ -2 ^ 31 → -2 ^ 32 < c.fmt.val w → 0 < j) := by
  have hcan : ∀ {x}, c.fmt.IsReal x → c.fmt.IsCanonical x := fun {x} hx => by
    have := maxBody_lt' c
    rw [isReal_bounds] at hx
    unfold Format.IsCanonical
    rw [fmt_N]; omega
  rw [C89_toInt h hF (hcan hv), ext_real hv] at hi
  rw [C89_toInt h hF (hcan hw), ext_real hw] at hj
  generalize c.fmt.val v = x at *
  generalize c.fmt.val w = y at *
  have hb : ∀ {z : ℚ} {k : ℤ}, (EV.num z).toInt = .ok k → ¬ (2 ^ 31 ≤ |z| ∧ |z| < 2 ^ 32) →
      k = satZ 32 (truncZ z) := by
    intro z k hk hn
    have hp31 : (2 : ℤ) ^ (32 - 1) = 2147483648 := by norm_num
    unfold EV.toInt at hk
    simp only [] at hk
    unfold satZ
    rw [hp31]
    split_ifs at hk with c1 c2 c3 c4 c5 c6 c5
    · cases hk
      have : truncZ z = 0 := by
        rw [abs_lt] at c1
        unfold truncZ
        split_ifs with h0
        · exact Int.floor_eq_zero_iff.mpr ⟨h0, c1.2⟩
        · exact Int.ceil_eq_zero_iff.mpr ⟨by linarith [c1.1], by linarith⟩
      omega
    · cases hk
      obtain ⟨g1, g2⟩ := abs_lt.mp c3
      have k1 : truncZ z < 2 ^ 31 := by
        unfold truncZ
        split_ifs with h0
        · exact Int.floor_lt.mpr (by exact_mod_cast g2)
        · have : ⌈z⌉ ≤ 0 := Int.ceil_le.mpr (by push_cast; linarith)
          omega
      have k2 : -2 ^ 31 < truncZ z := by
        unfold truncZ
        split_ifs with h0
        · have : 0 ≤ ⌊z⌋ := Int.floor_nonneg.mpr h0
          omega
        · exact Int.lt_ceil.mpr (by exact_mod_cast g1)
      omega
    · exact absurd ⟨not_lt.mp c3, c4⟩ hn
    · exact absurd ⟨not_lt.mp c3, c4⟩ hn
    · cases hk
      have : 2 ^ 32 ≤ truncZ z := by
        unfold truncZ
        rw [if_pos c5.le, Int.le_floor]
        rw [abs_of_pos c5] at c4
        exact_mod_cast not_lt.mp c4
      omega
    · cases hk
      have hz : z < 0 := by
        rcases eq_or_lt_of_le (not_lt.mp c5) with h0 | h0
        · rw [h0] at c1; norm_num at c1
        · exact h0
      have : truncZ z ≤ -2 ^ 32 := by
        unfold truncZ
        rw [if_neg (not_le.mpr hz), Int.ceil_le]
        rw [abs_of_neg hz] at c4
        have := not_lt.mp c4
        push_cast
        linarith
      omega
  refine ⟨fun h1 h2 => ?_, fun h1 h2 => ?_, fun h1 h2 => ?_⟩
  · rw [hb hi h1, hb hj h2]
    have := truncZ_mono hvw
    unfold satZ
    omega
  · unfold EV.toInt at hi
    simp only [] at hi
    have hx : 0 < x := by linarith
    rw [abs_of_pos hx, if_neg (by linarith), if_neg (by linarith), if_neg (by linarith), if_pos h2, if_pos hx] at hi
    cases hi
    have : truncZ x < 2 ^ 32 := by
      unfold truncZ
      rw [if_pos hx.le]
      exact Int.floor_lt.mpr (by exact_mod_cast h2)
    omega
  · unfold EV.toInt at hj
    simp only [] at hj
    have hy : y < 0 := by linarith
    rw [abs_of_neg hy, if_neg (by linarith), if_neg (by linarith), if_neg (by linarith), if_pos (by linarith),
      if_neg (by linarith)] at hj
    split_ifs at hj
    cases hj
    have : -2 ^ 32 < truncZ y := by
      unfold truncZ
      rw [if_neg (by linarith)]
      exact Int.lt_ceil.mpr (by push_cast; linarith)
    omega

example : P28.WF ∧ P28.fb ≤ P28.F ∧ P28.fmt.IsReal (-98000000) ∧ P28.fmt.IsReal 98000000 ∧
    [-98000000, 98000000].map (Posit.toInt P28) = [.ok (-783876096), .ok 783876096] := by decide +kernel

/-- **C97** fails for the conversion to `int`: the order is lost at `2^31`. -/
theorem C97_toInt_wrong : ∃ (c : Cfg) (v w : ℤ), c.WF ∧ c.fb ≤ c.F ∧ c.fmt.IsReal v ∧ c.fmt.IsReal w ∧
    c.fmt.val v = 783876096 ∧ c.fmt.val w = 2147483648 ∧ Posit.toInt c v = .ok 783876096 ∧
    Posit.toInt c w = .ok (-2147483648) :=
  ⟨P28, 98000000, 99614720, by decide +kernel, by decide +kernel, by decide +kernel, by decide +kernel, by decide +kernel,
    by decide +kernel, by decide +kernel, by decide +kernel⟩

end Verif
