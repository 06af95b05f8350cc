import Verif.Props.AnyFloatEmu

/-!
# C57: `anyfloat_emu`, continued — special values, comparisons, sign operations, integers
-/

namespace Verif
open Fmt

variable {eb fb neb nfb : ℕ} {o : FloatOps}

/-! ## special values -/

/-- there is an arithmetic as assumed by the theorems below -/
theorem floatOps_specials_exists {eb fb : ℕ} (heb : 2 ≤ eb) (hfb : 1 ≤ fb) : ∃ o : FloatOps, o.Correct eb fb ∧ o.Specials eb fb := by
  classical
  obtain ⟨_, _, _, _, _, hpinf, hninf, hnan⟩ := C51_constants (dn := true) heb hfb
  have h0 : ieee eb fb 0 = .num 0 := by
    rcases ieee_zero (eb := eb) (fb := fb) with h | h
    · exact h
    · omega
  have hr : ∀ x : ℚ, ∃ b, |x| ≤ maxFin eb fb → IsRounded eb fb x b := by
    intro x
    by_cases hx : |x| ≤ maxFin eb fb
    · obtain ⟨b, hb⟩ := exists_rounded heb hfb hx; exact ⟨b, fun _ => hb⟩
    · exact ⟨0, fun hc => absurd hc hx⟩
  -- roundings of numbers in range, zero otherwise: never NaN
  have hr' : ∀ x : ℚ, ∃ b, (|x| ≤ maxFin eb fb → IsRounded eb fb x b) ∧ ieee eb fb b ≠ .nan := by
    intro x
    by_cases hx : |x| ≤ maxFin eb fb
    · obtain ⟨b, hb⟩ := exists_rounded heb hfb hx
      obtain ⟨y, hy, -⟩ := id hb
      exact ⟨b, fun _ => hb, by rw [hy]; simp⟩
    · exact ⟨0, fun hc => absurd hc hx, by rw [h0]; simp⟩
  choose r hr hrn using hr'
  set nan := (FTrait.any eb fb true).nan with hnandef
  let inf : Bool → ℕ := fun s => if s then (FTrait.any eb fb true).ninf else (FTrait.any eb fb true).pinf
  have hinf : ∀ s, ieee eb fb (inf s) = .inf s := by intro s; cases s; exacts [hpinf, hninf]
  have hq : 2 ^ (fb - 1) ≤ nan % 2 ^ fb := by
    have hlm : 2 ^ (fb - 1) < 2 ^ fb := Nat.pow_lt_pow_right (by norm_num) (by omega)
    have := fJoin_man (eb := eb) (s := false) (x := 2 ^ eb - 1) hlm
    rw [hnandef, any_nan hfb]
    unfold fMan at this
    rw [this]
  let add : XNum → XNum → ℕ := fun a b => match a, b with
    | .num x, .num y => r (x + y)
    | .num _, .inf s => inf s
    | .inf s, .num _ => inf s
    | .inf s, .inf t => if s = t then inf s else nan
    | _, _ => nan
  let mul : XNum → XNum → ℕ := fun a b => match a, b with
    | .num x, .num y => r (x * y)
    | .num x, .inf s => if x = 0 then nan else inf (s ^^ decide (x < 0))
    | .inf s, .num y => if y = 0 then nan else inf (s ^^ decide (y < 0))
    | .inf s, .inf t => inf (s ^^ t)
    | _, _ => nan
  let div : XNum → XNum → ℕ := fun a b => match a, b with
    | .num x, .num y => if y = 0 then (if x = 0 then nan else inf (decide (x < 0))) else r (x / y)
    | .num _, .inf _ => 0
    | .inf s, .num y => inf (s ^^ decide (y < 0))
    | _, _ => nan
  refine ⟨⟨fun a b => add (ieee eb fb a) (ieee eb fb b), fun a b => mul (ieee eb fb a) (ieee eb fb b),
    fun a b => div (ieee eb fb a) (ieee eb fb b)⟩, ?_, ?_⟩
  · constructor
    · intro a b x y h1 h2 h3; simp only [h1, h2, add]; exact hr _ h3
    · intro a b x y h1 h2 h3; simp only [h1, h2, mul]; exact hr _ h3
    · intro a b x y h1 h2 h4 h3; simp only [h1, h2, div, if_neg h4]; exact hr _ h3
    · intro a b x h1 h4 h2; simp only [h1, h2, div, if_neg h4, if_true]; exact ⟨_, hinf _⟩
    · intro a b h1 h2; simp only [h1, h2, div, if_true]; exact hnan
    · intro a b h
      refine ⟨?_, ?_, ?_⟩
      · show ieee eb fb (add _ _) = _
        rcases h with h | h <;> rw [h]
        · exact hnan
        · cases ieee eb fb a <;> exact hnan
      · show ieee eb fb (mul _ _) = _
        rcases h with h | h <;> rw [h]
        · exact hnan
        · cases ieee eb fb a <;> exact hnan
      · show ieee eb fb (div _ _) = _
        rcases h with h | h <;> rw [h]
        · exact hnan
        · cases ieee eb fb a <;> exact hnan
  · constructor
    · intro a b s h1 h2
      rcases h2 with ⟨y, h2⟩ | h2 <;> simp only [h1, h2, add, if_true, hinf, and_self]
    · intro a b s h1 h2
      simp only [h1, h2, add]
      rw [if_neg (by cases s <;> simp)]; exact hnan
    · intro a b s y h1 h2 h3; simp only [h1, h2, mul, if_neg h3, hinf, and_self]
    · intro a b s t h1 h2; simp only [h1, h2, mul, hinf]
    · intro a b s h1 h2; simp only [h1, h2, mul, if_true]; exact ⟨hnan, hnan⟩
    · intro a b s y h1 h2 h3; simp only [h1, h2, div, hinf]
    · intro a b s x h1 h2; simp only [h1, h2, div, h0]
    · intro a b s t h1 h2; simp only [h1, h2, div]; exact hnan
    · intro a x h1 h3; simp only [h1, h0, div, if_true, if_neg h3, hinf]
    · intro a b v hv hn
      simp only [List.mem_cons, List.not_mem_nil, or_false] at hv
      have key : v = nan := by
        rcases hv with rfl | rfl | rfl
        · cases h1 : ieee eb fb a <;> cases h2 : ieee eb fb b <;> simp only [h1, h2, add] at hn ⊢
          · exact absurd hn (hrn _)
          · rw [hinf] at hn; simp at hn
          · rw [hinf] at hn; simp at hn
          · split_ifs at hn ⊢
            · rw [hinf] at hn; simp at hn
            · rfl
        · cases h1 : ieee eb fb a <;> cases h2 : ieee eb fb b <;> simp only [h1, h2, mul] at hn ⊢
          · exact absurd hn (hrn _)
          · split_ifs at hn ⊢
            · rfl
            · rw [hinf] at hn; simp at hn
          · split_ifs at hn ⊢
            · rfl
            · rw [hinf] at hn; simp at hn
          · rw [hinf] at hn; simp at hn
        · cases h1 : ieee eb fb a <;> cases h2 : ieee eb fb b <;> simp only [h1, h2, div] at hn ⊢
          · split_ifs at hn ⊢
            · rfl
            · rw [hinf] at hn; simp at hn
            · exact absurd hn (hrn _)
          · rw [h0] at hn; simp at hn
          · rw [hinf] at hn; simp at hn
      rw [key]; exact hq

theorem quiet_nan (h : EmuFor eb fb neb nfb) (hs : o.Specials neb nfb) {p q w : ℕ} (hw : w ∈ [o.add p q, o.mul p q, o.div p q])
    (hn : ieee neb nfb w = .nan) :
    ∃ r, AnyFloat.ofNative (.any eb fb) (.any neb nfb) w = .ok r ∧ r < 2 ^ (eb + fb + 1) ∧ ieee eb fb r = .nan :=
  C57_ofNative_nan h hn (hs.quiet p q w hw hn)

/-- **C57**: NaN operands give NaN. -/
theorem C57_nan (h : EmuFor eb fb neb nfb) (ho : o.Correct neb nfb) (hs : o.Specials neb nfb) {a b : ℕ}
    (hn : ieee eb fb a = .nan ∨ ieee eb fb b = .nan) (ha : NotSub neb (ieee eb fb a)) (hb : NotSub neb (ieee eb fb b)) :
    (∃ r, AnyFloat.add (.any eb fb) (.any neb nfb) o a b = .ok r ∧ ieee eb fb r = .nan) ∧
    (∃ r, AnyFloat.mul (.any eb fb) (.any neb nfb) o a b = .ok r ∧ ieee eb fb r = .nan) ∧
    (∃ r, AnyFloat.div (.any eb fb) (.any neb nfb) o a b = .ok r ∧ ieee eb fb r = .nan) := by
  have h0 : ieee eb fb 0 ≠ .nan := by
    rcases ieee_zero (eb := eb) (fb := fb) with h' | h'
    · rw [h']; simp
    · have := h.heb; omega
  obtain ⟨p, hp, -, hp'⟩ := C57_toNative h ha
  obtain ⟨q, hq, -, hq'⟩ := C57_toNative h hb
  obtain ⟨n1, n2, n3⟩ := ho.nan (a := p) (b := q) (by rw [hp', hq']; exact hn)
  refine ⟨?_, ?_, ?_⟩
  · unfold AnyFloat.add AnyFloat.isZero
    by_cases ha0 : a = 0
    · exact ⟨b, by simp [ha0], hn.resolve_left (by rw [ha0]; exact h0)⟩
    · by_cases hb0 : b = 0
      · exact ⟨a, by simp [ha0, hb0], hn.resolve_right (by rw [hb0]; exact h0)⟩
      · rw [if_neg (by simpa using ha0), if_neg (by simpa using hb0), bind_ok _ hp, bind_ok _ hq]
        obtain ⟨r, h1, -, h2⟩ := quiet_nan h hs (p := p) (q := q) (by simp) n1
        exact ⟨r, h1, h2⟩
  · unfold AnyFloat.mul
    rw [bind_ok _ hp, bind_ok _ hq]
    obtain ⟨r, h1, -, h2⟩ := quiet_nan h hs (p := p) (q := q) (by simp) n2
    exact ⟨r, h1, h2⟩
  · unfold AnyFloat.div
    rw [bind_ok _ hp, bind_ok _ hq]
    obtain ⟨r, h1, -, h2⟩ := quiet_nan h hs (p := p) (q := q) (by simp) n3
    exact ⟨r, h1, h2⟩

example (ho : o.Correct 8 23) (hs : o.Specials 8 23) : ∃ r, AnyFloat.add (.any 5 2) (.any 8 23) o 0x7d 0x3e = .ok r ∧ ieee 5 2 r = .nan := by
  have n1 : ieee 5 2 0x7d = .nan := by norm_num [ieee]
  have n2 : ieee 5 2 0x3e = .num (3 / 2) := by norm_num [ieee]
  refine (C57_nan (by constructor <;> omega) ho hs (Or.inl n1) ?_ ?_).1
  · rw [n1]; trivial
  · rw [n2]; exact Or.inr (by norm_num [minNorm, abs_of_pos])

/-- **C57**: division by zero (of either sign) gives the infinity with the sign of the dividend, zero by zero gives NaN. -/
theorem C57_div_zero (h : EmuFor eb fb neb nfb) (ho : o.Correct neb nfb) (hs : o.Specials neb nfb) {a b : ℕ} {x : ℚ}
    (ha : ieee eb fb a = .num x) (hb : ieee eb fb b = .num 0) (hx : NotSub neb (.num x)) :
    ∃ r, AnyFloat.div (.any eb fb) (.any neb nfb) o a b = .ok r ∧ r < 2 ^ (eb + fb + 1) ∧
      ieee eb fb r = if x = 0 then .nan else .inf (decide (x < 0)) := by
  obtain ⟨p, hp, -, hp'⟩ := C57_toNative h (v := a) (by rw [ha]; exact hx)
  have hq := C57_toNative_zero h hb (by rw [abs_zero]; exact minNorm_pos)
  have h0 : ieee neb nfb 0 = .num 0 := by
    rcases ieee_zero (eb := neb) (fb := nfb) with h' | h'
    · exact h'
    · have := h.heb; have := h.he; omega
  unfold AnyFloat.div
  rw [bind_ok _ hp, bind_ok _ hq]
  split_ifs with hc
  · exact quiet_nan h hs (p := p) (q := 0) (by simp) (ho.zero_div_zero (by rw [hp', ha, hc]) h0)
  · exact C57_ofNative_inf h (hs.div_pzero (by rw [hp', ha]) hc)

/-- `-1.5 / 0` -/
example (ho : o.Correct 8 23) (hs : o.Specials 8 23) : ∃ r, AnyFloat.div (.any 5 2) (.any 8 23) o 0xbe 0 = .ok r ∧ ieee 5 2 r = .inf true := by
  obtain ⟨r, h1, -, h3⟩ := C57_div_zero (by constructor <;> omega : EmuFor 5 2 8 23) ho hs (a := 0xbe) (b := 0) (x := -3 / 2)
    (by norm_num [ieee]) (by norm_num [ieee]) (Or.inr (by norm_num [minNorm, abs_of_neg]))
  exact ⟨r, h1, by rw [h3]; norm_num⟩

/-- **C57**: infinite operands. -/
theorem C57_inf (h : EmuFor eb fb neb nfb) (hs : o.Specials neb nfb) {a b : ℕ} {s : Bool} {y : ℚ}
    (ha : ieee eb fb a = .inf s) (hb : ieee eb fb b = .num y) (hy : NotSub neb (.num y)) :
    (∃ r, AnyFloat.add (.any eb fb) (.any neb nfb) o a b = .ok r ∧ ieee eb fb r = .inf s) ∧
    (∃ r, AnyFloat.add (.any eb fb) (.any neb nfb) o b a = .ok r ∧ ieee eb fb r = .inf s) ∧
    (∃ r, AnyFloat.mul (.any eb fb) (.any neb nfb) o a b = .ok r ∧
      ieee eb fb r = if y = 0 then .nan else .inf (s ^^ decide (y < 0))) ∧
    (∃ r, AnyFloat.mul (.any eb fb) (.any neb nfb) o b a = .ok r ∧
      ieee eb fb r = if y = 0 then .nan else .inf (s ^^ decide (y < 0))) ∧
    (y ≠ 0 → ∃ r, AnyFloat.div (.any eb fb) (.any neb nfb) o a b = .ok r ∧ ieee eb fb r = .inf (s ^^ decide (y < 0))) ∧
    (∃ r, AnyFloat.div (.any eb fb) (.any neb nfb) o b a = .ok r ∧ ieee eb fb r = .num 0) := by
  obtain ⟨p, hp, -, hp'⟩ := C57_toNative h (v := a) (by rw [ha]; trivial)
  obtain ⟨q, hq, -, hq'⟩ := C57_toNative h (v := b) (by rw [hb]; exact hy)
  rw [ha] at hp'; rw [hb] at hq'
  have h0 : ieee eb fb 0 = .num 0 := by
    rcases ieee_zero (eb := eb) (fb := fb) with h' | h'
    · exact h'
    · have := h.heb; omega
  have ha0 : a ≠ 0 := by rintro rfl; rw [h0] at ha; simp at ha
  obtain ⟨i1, i2⟩ := hs.add_inf hp' (Or.inl ⟨y, hq'⟩)
  refine ⟨?_, ?_, ?_, ?_, fun hy0 => ?_, ?_⟩
  · unfold AnyFloat.add AnyFloat.isZero
    by_cases hb0 : b = 0
    · exact ⟨a, by simp [ha0, hb0], ha⟩
    · rw [if_neg (by simpa using ha0), if_neg (by simpa using hb0), bind_ok _ hp, bind_ok _ hq]
      obtain ⟨r, h1, -, h2⟩ := C57_ofNative_inf h i1
      exact ⟨r, h1, h2⟩
  · unfold AnyFloat.add AnyFloat.isZero
    by_cases hb0 : b = 0
    · exact ⟨a, by simp [hb0], ha⟩
    · rw [if_neg (by simpa using hb0), if_neg (by simpa using ha0), bind_ok _ hq, bind_ok _ hp]
      obtain ⟨r, h1, -, h2⟩ := C57_ofNative_inf h i2
      exact ⟨r, h1, h2⟩
  · unfold AnyFloat.mul
    rw [bind_ok _ hp, bind_ok _ hq]
    split_ifs with hy0
    · obtain ⟨r, h1, -, h2⟩ := quiet_nan h hs (p := p) (q := q) (w := o.mul p q) (by simp) (hs.mul_inf_zero hp' (by rw [hq', hy0])).1
      exact ⟨r, h1, h2⟩
    · obtain ⟨r, h1, -, h2⟩ := C57_ofNative_inf h (hs.mul_inf hp' hq' hy0).1
      exact ⟨r, h1, h2⟩
  · unfold AnyFloat.mul
    rw [bind_ok _ hq, bind_ok _ hp]
    split_ifs with hy0
    · obtain ⟨r, h1, -, h2⟩ := quiet_nan h hs (p := q) (q := p) (w := o.mul q p) (by simp) (hs.mul_inf_zero hp' (by rw [hq', hy0])).2
      exact ⟨r, h1, h2⟩
    · obtain ⟨r, h1, -, h2⟩ := C57_ofNative_inf h (hs.mul_inf hp' hq' hy0).2
      exact ⟨r, h1, h2⟩
  · unfold AnyFloat.div
    rw [bind_ok _ hp, bind_ok _ hq]
    obtain ⟨r, h1, -, h2⟩ := C57_ofNative_inf h (hs.inf_div hp' hq' hy0)
    exact ⟨r, h1, h2⟩
  · unfold AnyFloat.div
    rw [bind_ok _ hq, bind_ok _ hp]
    obtain ⟨r, h1, -, hc, -⟩ := C57_ofNative h (hs.div_inf hq' hp')
    obtain ⟨z, hz, h2, -⟩ := hc
    exact ⟨r, h1, by rw [hz, h2 (by rw [abs_zero]; exact minNorm_pos)]⟩

/-- `-infinity * -1.5` -/
example (hs : o.Specials 8 23) : ∃ r, AnyFloat.mul (.any 5 2) (.any 8 23) o 0xfc 0xbe = .ok r ∧ ieee 5 2 r = .inf false := by
  obtain ⟨r, h1, h2⟩ := (C57_inf (by constructor <;> omega : EmuFor 5 2 8 23) hs (a := 0xfc) (b := 0xbe) (s := true) (y := -3 / 2)
    (by norm_num [ieee]) (by norm_num [ieee]) (Or.inr (by norm_num [minNorm, abs_of_neg]))).2.2.1
  exact ⟨r, h1, by rw [h2]; norm_num⟩

/-- **C57**: two infinite operands. -/
theorem C57_inf_inf (h : EmuFor eb fb neb nfb) (hs : o.Specials neb nfb) {a b : ℕ} {s t : Bool}
    (ha : ieee eb fb a = .inf s) (hb : ieee eb fb b = .inf t) :
    (∃ r, AnyFloat.add (.any eb fb) (.any neb nfb) o a b = .ok r ∧ ieee eb fb r = if s = t then .inf s else .nan) ∧
    (∃ r, AnyFloat.mul (.any eb fb) (.any neb nfb) o a b = .ok r ∧ ieee eb fb r = .inf (s ^^ t)) ∧
    (∃ r, AnyFloat.div (.any eb fb) (.any neb nfb) o a b = .ok r ∧ ieee eb fb r = .nan) := by
  obtain ⟨p, hp, -, hp'⟩ := C57_toNative h (v := a) (by rw [ha]; trivial)
  obtain ⟨q, hq, -, hq'⟩ := C57_toNative h (v := b) (by rw [hb]; trivial)
  rw [ha] at hp'; rw [hb] at hq'
  have h0 : ieee eb fb 0 = .num 0 := by
    rcases ieee_zero (eb := eb) (fb := fb) with h' | h'
    · exact h'
    · have := h.heb; omega
  have ha0 : a ≠ 0 := by rintro rfl; rw [h0] at ha; simp at ha
  have hb0 : b ≠ 0 := by rintro rfl; rw [h0] at hb; simp at hb
  refine ⟨?_, ?_, ?_⟩
  · unfold AnyFloat.add AnyFloat.isZero
    rw [if_neg (by simpa using ha0), if_neg (by simpa using hb0), bind_ok _ hp, bind_ok _ hq]
    split_ifs with hc
    · obtain ⟨r, h1, -, h2⟩ := C57_ofNative_inf h (hs.add_inf hp' (Or.inr (by rw [hq', hc]))).1
      exact ⟨r, h1, h2⟩
    · obtain ⟨r, h1, -, h2⟩ := quiet_nan h hs (p := p) (q := q) (w := o.add p q) (by simp)
        (hs.add_inf_inf hp' (by rw [hq']; cases s <;> cases t <;> simp_all))
      exact ⟨r, h1, h2⟩
  · unfold AnyFloat.mul
    rw [bind_ok _ hp, bind_ok _ hq]
    obtain ⟨r, h1, -, h2⟩ := C57_ofNative_inf h (hs.mul_inf_inf hp' hq')
    exact ⟨r, h1, h2⟩
  · unfold AnyFloat.div
    rw [bind_ok _ hp, bind_ok _ hq]
    obtain ⟨r, h1, -, h2⟩ := quiet_nan h hs (p := p) (q := q) (by simp) (hs.inf_div_inf hp' hq')
    exact ⟨r, h1, h2⟩

example : ieee 5 2 0x7c = .inf false ∧ ieee 5 2 0xfc = .inf true ∧ ieee 5 2 0x7e = .nan ∧ ieee 5 2 0x80 = .num 0 := by norm_num [ieee]

/-! ## comparisons -/

theorem cmp_native (h : EmuFor eb fb neb nfb) (R : XNum → XNum → Bool) {a b : ℕ} (ha : NotSub neb (ieee eb fb a))
    (hb : NotSub neb (ieee eb fb b)) :
    AnyFloat.cmp (fun x y => R (ieee neb nfb x) (ieee neb nfb y)) (.any eb fb) (.any neb nfb) a b =
      .ok (R (ieee eb fb a) (ieee eb fb b)) := by
  obtain ⟨p, hp, -, hp'⟩ := C57_toNative h ha
  obtain ⟨q, hq, -, hq'⟩ := C57_toNative h hb
  unfold AnyFloat.cmp
  rw [bind_ok _ hp, bind_ok _ hq, ← hp', ← hq']; rfl

/-- the six comparisons through those of IEEE 754 -/
theorem cmp_all (h : EmuFor eb fb neb nfb) {a b : ℕ} (ha : NotSub neb (ieee eb fb a)) (hb : NotSub neb (ieee eb fb b)) {l g e : Bool}
    (hl : AnyFloat.xLt (ieee eb fb a) (ieee eb fb b) = l) (hg : AnyFloat.xLt (ieee eb fb b) (ieee eb fb a) = g)
    (he : AnyFloat.xEq (ieee eb fb a) (ieee eb fb b) = e) :
    AnyFloat.eq (.any eb fb) (.any neb nfb) a b = .ok e ∧ AnyFloat.ne (.any eb fb) (.any neb nfb) a b = .ok (!e) ∧
    AnyFloat.lt (.any eb fb) (.any neb nfb) a b = .ok l ∧ AnyFloat.le (.any eb fb) (.any neb nfb) a b = .ok (l || e) ∧
    AnyFloat.gt (.any eb fb) (.any neb nfb) a b = .ok g ∧ AnyFloat.ge (.any eb fb) (.any neb nfb) a b = .ok (g || e) := by
  subst hl hg he
  exact ⟨cmp_native h AnyFloat.xEq ha hb, cmp_native h (fun x y => !AnyFloat.xEq x y) ha hb, cmp_native h AnyFloat.xLt ha hb,
    cmp_native h (fun x y => AnyFloat.xLt x y || AnyFloat.xEq x y) ha hb, cmp_native h (fun x y => AnyFloat.xLt y x) ha hb,
    cmp_native h (fun x y => AnyFloat.xLt y x || AnyFloat.xEq x y) ha hb⟩

/-- **C57**: the comparisons of numbers are those of their values. -/
theorem C57_cmp (h : EmuFor eb fb neb nfb) {a b : ℕ} {x y : ℚ} (ha : ieee eb fb a = .num x) (hb : ieee eb fb b = .num y)
    (hx : NotSub neb (.num x)) (hy : NotSub neb (.num y)) :
    AnyFloat.eq (.any eb fb) (.any neb nfb) a b = .ok (decide (x = y)) ∧ AnyFloat.ne (.any eb fb) (.any neb nfb) a b = .ok (decide (x ≠ y)) ∧
    AnyFloat.lt (.any eb fb) (.any neb nfb) a b = .ok (decide (x < y)) ∧ AnyFloat.le (.any eb fb) (.any neb nfb) a b = .ok (decide (x ≤ y)) ∧
    AnyFloat.gt (.any eb fb) (.any neb nfb) a b = .ok (decide (y < x)) ∧ AnyFloat.ge (.any eb fb) (.any neb nfb) a b = .ok (decide (y ≤ x)) := by
  obtain ⟨h1, h2, h3, h4, h5, h6⟩ := cmp_all h (a := a) (b := b) (by rw [ha]; exact hx) (by rw [hb]; exact hy) (l := decide (x < y))
    (g := decide (y < x)) (e := decide (x = y)) (by simp [ha, hb, AnyFloat.xLt]) (by simp [ha, hb, AnyFloat.xLt]) (by simp [ha, hb, AnyFloat.xEq])
  refine ⟨h1, h2.trans ?_, h3, h4.trans ?_, h5, h6.trans ?_⟩
  · simp
  · congr 1; rw [← Bool.decide_or]; congr 1; rw [eq_iff_iff, le_iff_lt_or_eq]
  · congr 1; rw [← Bool.decide_or]; congr 1; rw [eq_iff_iff, le_iff_lt_or_eq, eq_comm (a := x)]

/-- `-1.5 < -1.25` and `0 = -0` -/
example : AnyFloat.lt (.any 5 2) (.any 8 23) 0xbe 0xbd = .ok true ∧ AnyFloat.eq (.any 5 2) (.any 8 23) 0 0x80 = .ok true := by
  have h : EmuFor 5 2 8 23 := by constructor <;> omega
  have h1 := (C57_cmp h (a := 0xbe) (b := 0xbd) (x := -3 / 2) (y := -5 / 4) (by norm_num [ieee]) (by norm_num [ieee])
    (Or.inr (by norm_num [minNorm, abs_of_neg])) (Or.inr (by norm_num [minNorm, abs_of_neg]))).2.2.1
  have h2 := (C57_cmp h (a := 0) (b := 0x80) (x := 0) (y := 0) (by norm_num [ieee]) (by norm_num [ieee]) (Or.inl rfl) (Or.inl rfl)).1
  norm_num at h1 h2
  exact ⟨h1, h2⟩

/-- **C57**: NaN is not equal to, less or greater than anything. -/
theorem C57_cmp_nan (h : EmuFor eb fb neb nfb) {a b : ℕ} (hn : ieee eb fb a = .nan ∨ ieee eb fb b = .nan)
    (ha : NotSub neb (ieee eb fb a)) (hb : NotSub neb (ieee eb fb b)) :
    AnyFloat.eq (.any eb fb) (.any neb nfb) a b = .ok false ∧ AnyFloat.ne (.any eb fb) (.any neb nfb) a b = .ok true ∧
    AnyFloat.lt (.any eb fb) (.any neb nfb) a b = .ok false ∧ AnyFloat.le (.any eb fb) (.any neb nfb) a b = .ok false ∧
    AnyFloat.gt (.any eb fb) (.any neb nfb) a b = .ok false ∧ AnyFloat.ge (.any eb fb) (.any neb nfb) a b = .ok false := by
  refine cmp_all h ha hb ?_ ?_ ?_ <;> rcases hn with hn | hn <;> rw [hn]
  · rfl
  · cases ieee eb fb a <;> rfl
  · cases ieee eb fb b <;> rfl
  · rfl
  · rfl
  · cases ieee eb fb a <;> rfl

example : AnyFloat.eq (.any 5 2) (.any 8 23) 0x7d 0x7d = .ok false ∧ AnyFloat.ne (.any 5 2) (.any 8 23) 0x7d 0x7d = .ok true := by
  have n1 : ieee 5 2 0x7d = .nan := by norm_num [ieee]
  have hn : NotSub 8 (ieee 5 2 0x7d) := by rw [n1]; trivial
  have h1 := C57_cmp_nan (by constructor <;> omega : EmuFor 5 2 8 23) (Or.inl n1) hn hn
  exact ⟨h1.1, h1.2.1⟩

/-- **C57**: infinities are beyond all numbers and equal to themselves only. -/
theorem C57_cmp_inf (h : EmuFor eb fb neb nfb) {a b : ℕ} {s : Bool} (ha : ieee eb fb a = .inf s) :
    ((∃ y, ieee eb fb b = .num y ∧ NotSub neb (.num y)) ∨ ieee eb fb b = .inf (!s) →
      AnyFloat.eq (.any eb fb) (.any neb nfb) a b = .ok false ∧ AnyFloat.ne (.any eb fb) (.any neb nfb) a b = .ok true ∧
      AnyFloat.lt (.any eb fb) (.any neb nfb) a b = .ok s ∧ AnyFloat.le (.any eb fb) (.any neb nfb) a b = .ok s ∧
      AnyFloat.gt (.any eb fb) (.any neb nfb) a b = .ok (!s) ∧ AnyFloat.ge (.any eb fb) (.any neb nfb) a b = .ok (!s)) ∧
    (ieee eb fb b = .inf s →
      AnyFloat.eq (.any eb fb) (.any neb nfb) a b = .ok true ∧ AnyFloat.ne (.any eb fb) (.any neb nfb) a b = .ok false ∧
      AnyFloat.lt (.any eb fb) (.any neb nfb) a b = .ok false ∧ AnyFloat.le (.any eb fb) (.any neb nfb) a b = .ok true ∧
      AnyFloat.gt (.any eb fb) (.any neb nfb) a b = .ok false ∧ AnyFloat.ge (.any eb fb) (.any neb nfb) a b = .ok true) := by
  refine ⟨fun hb => ?_, fun hb => ?_⟩
  · have hb' : NotSub neb (ieee eb fb b) := by
      rcases hb with ⟨y, hb, hy⟩ | hb
      · rw [hb]; exact hy
      · rw [hb]; trivial
    have := cmp_all h (a := a) (b := b) (by rw [ha]; trivial) hb' (l := s) (g := !s) (e := false)
    simp only [Bool.or_false, Bool.not_false] at this
    apply this
    · rcases hb with ⟨y, hb, hy⟩ | hb <;> rw [ha, hb]
      · rfl
      · cases s <;> rfl
    · rcases hb with ⟨y, hb, hy⟩ | hb <;> rw [ha, hb]
      · rfl
      · cases s <;> rfl
    · rcases hb with ⟨y, hb, hy⟩ | hb <;> rw [ha, hb]
      · rfl
      · cases s <;> rfl
  · refine cmp_all h (by rw [ha]; trivial) (by rw [hb]; trivial) ?_ ?_ ?_ <;> rw [ha, hb] <;> cases s <;> rfl

/-- -infinity is below -57344 -/
example : AnyFloat.lt (.any 5 2) (.any 8 23) 0xfc 0xfb = .ok true :=
  ((C57_cmp_inf (by constructor <;> omega) (by norm_num [ieee])).1 (Or.inl ⟨-57344, by norm_num [ieee],
    Or.inr (by norm_num [minNorm, abs_of_neg])⟩)).2.2.1

/-- **C57** does not hold for numbers that are subnormal in the native type (all subnormals of `binary16alt_emu`, `binary32_emu` and
`binary64_emu`): all of them compare equal. -/
theorem C57_eq_sub_wrong (h : EmuFor eb fb neb nfb) {a b : ℕ} {x y : ℚ} (ha : ieee eb fb a = .num x) (hb : ieee eb fb b = .num y)
    (hx : |x| < minNorm neb) (hy : |y| < minNorm neb) : AnyFloat.eq (.any eb fb) (.any neb nfb) a b = .ok true := by
  have h0 : ieee neb nfb 0 = .num 0 := by
    rcases ieee_zero (eb := neb) (fb := nfb) with h' | h'
    · exact h'
    · have := h.heb; have := h.he; omega
  have hcmp : AnyFloat.eq (.any eb fb) (.any neb nfb) a b = .ok (AnyFloat.xEq (ieee neb nfb 0) (ieee neb nfb 0)) := by
    unfold AnyFloat.eq AnyFloat.cmp
    rw [bind_ok _ (C57_toNative_zero h ha hx), bind_ok _ (C57_toNative_zero h hb hy)]; rfl
  rw [hcmp, h0]; rfl

example : ieee 8 23 1 = .num (2 ^ (-149 : ℤ)) ∧ |(2 ^ (-149 : ℤ) : ℚ)| < minNorm 8 ∧ (2 ^ (-149 : ℤ) : ℚ) ≠ 0 := by
  norm_num [ieee, minNorm, abs_of_pos]

/-- **C57**: `std::min` and `std::max` of numbers return an operand with the least or greatest value. -/
theorem C57_min_max (h : EmuFor eb fb neb nfb) {a b : ℕ} {x y : ℚ} (ha : ieee eb fb a = .num x) (hb : ieee eb fb b = .num y)
    (hx : NotSub neb (.num x)) (hy : NotSub neb (.num y)) :
    (∃ r, AnyFloat.min2 (.any eb fb) (.any neb nfb) a b = .ok r ∧ (r = a ∨ r = b) ∧ ieee eb fb r = .num (min x y)) ∧
    (∃ r, AnyFloat.max2 (.any eb fb) (.any neb nfb) a b = .ok r ∧ (r = a ∨ r = b) ∧ ieee eb fb r = .num (max x y)) := by
  obtain ⟨-, -, -, h4, -, h6⟩ := C57_cmp h ha hb hx hy
  constructor
  · unfold AnyFloat.min2
    rw [bind_ok _ h4]
    by_cases hc : x ≤ y
    · exact ⟨a, by simp [hc]; rfl, Or.inl rfl, by rw [ha, min_eq_left hc]⟩
    · exact ⟨b, by simp [hc]; rfl, Or.inr rfl, by rw [hb, min_eq_right (by linarith)]⟩
  · unfold AnyFloat.max2
    rw [bind_ok _ h6]
    by_cases hc : y ≤ x
    · exact ⟨a, by simp [hc]; rfl, Or.inl rfl, by rw [ha, max_eq_left hc]⟩
    · exact ⟨b, by simp [hc]; rfl, Or.inr rfl, by rw [hb, max_eq_right (by linarith)]⟩

example : ∃ r, AnyFloat.min2 (.any 5 2) (.any 8 23) 0x3e 0xbd = .ok r ∧ ieee 5 2 r = .num (-5 / 4) := by
  obtain ⟨r, h1, -, h3⟩ := (C57_min_max (by constructor <;> omega : EmuFor 5 2 8 23) (a := 0x3e) (b := 0xbd) (x := 3 / 2) (y := -5 / 4)
    (by norm_num [ieee]) (by norm_num [ieee]) (Or.inr (by norm_num [minNorm, abs_of_pos])) (Or.inr (by norm_num [minNorm, abs_of_neg]))).1
  exact ⟨r, h1, by rw [h3]; norm_num⟩

/-! ## sign operations -/

theorem xor_top {k v : ℕ} (hv : v < 2 ^ k) : v ^^^ 2 ^ k = 2 ^ k + v ∧ (2 ^ k + v) ^^^ 2 ^ k = v := by
  have h1 : 2 ^ k + v = 2 ^ k ||| v := by have := Nat.two_pow_add_eq_or_of_lt hv 1; rwa [mul_one] at this
  have h2 : v ^^^ 2 ^ k = 2 ^ k + v := by
    rw [h1]
    apply Nat.eq_of_testBit_eq
    intro i
    rw [Nat.testBit_xor, Nat.testBit_or, Nat.testBit_two_pow]
    by_cases hi : k = i
    · subst hi
      simp [Nat.testBit_lt_two_pow hv]
    · simp [hi]
  exact ⟨h2, by rw [← h2, Nat.xor_assoc, Nat.xor_self, Nat.xor_zero]⟩

theorem neg_join {s : Bool} {x m : ℕ} (hx : x < 2 ^ eb) (hm : m < 2 ^ fb) :
    AnyFloat.neg (.any eb fb) (fJoin eb fb s x m) = fJoin eb fb (!s) x m := by
  have hl := fJoin_low hx hm
  obtain ⟨h1, h2⟩ := xor_top hl
  show fJoin eb fb s x m ^^^ 2 ^ (eb + fb) = _
  unfold fJoin
  cases s
  · simp only [Bool.false_eq_true, if_false, zero_add, h1, Bool.not_false, if_true]; ring
  · simp only [if_true, Bool.not_true, Bool.false_eq_true, if_false, zero_add, add_assoc, h2]

/-- **C57**: negation changes the sign of every pattern, and is an involution. -/
theorem C57_neg {v : ℕ} (hv : v < 2 ^ (eb + fb + 1)) :
    AnyFloat.neg (.any eb fb) v < 2 ^ (eb + fb + 1) ∧ ieee eb fb (AnyFloat.neg (.any eb fb) v) = (ieee eb fb v).neg ∧
    AnyFloat.neg (.any eb fb) (AnyFloat.neg (.any eb fb) v) = v := by
  have hx := fExp_lt eb fb v
  have hm := fMan_lt fb v
  have e : AnyFloat.neg (.any eb fb) v = fJoin eb fb (!fSign eb fb v) (fExp eb fb v) (fMan fb v) := by
    conv_lhs => rw [← fJoin_fields hv]
    exact neg_join hx hm
  refine ⟨by rw [e]; exact fJoin_lt hx hm, ?_, ?_⟩
  · rw [e, ieee_eq, ieee_eq v, fJoin_sign hx hm, fJoin_exp hx hm, fJoin_man hm]
    split_ifs <;> simp_all [XNum.neg]
  · rw [e, neg_join hx hm, Bool.not_not, fJoin_fields hv]

example : AnyFloat.neg (.any 5 2) 0x3e = 0xbe ∧ ieee 5 2 0x3e = .num (3 / 2) ∧ ieee 5 2 0xbe = .num (-3 / 2) ∧
    AnyFloat.neg (.any 5 2) 0xfc = 0x7c := ⟨by decide +kernel, by norm_num [ieee], by norm_num [ieee], by decide +kernel⟩

/-- **C57**: `abs` clears the sign of every pattern; `isnegative` reads it. -/
theorem C57_abs {v : ℕ} (hv : v < 2 ^ (eb + fb + 1)) :
    ieee eb fb (AnyFloat.abs (.any eb fb) v) =
      (match ieee eb fb v with | .num x => .num |x| | .inf _ => .inf false | .nan => .nan) ∧
    AnyFloat.isNegative (.any eb fb) (AnyFloat.abs (.any eb fb) v) = false ∧
    (AnyFloat.isNegative (.any eb fb) v = true ↔ 2 ^ (eb + fb) ≤ v) := by
  have hx := fExp_lt eb fb v
  have hm := fMan_lt fb v
  have hl := fJoin_low hx hm
  have hneg : ∀ w : ℕ, AnyFloat.isNegative (.any eb fb) w = decide (w / 2 ^ (eb + fb) % 2 = 1) := by
    intro w
    unfold AnyFloat.isNegative
    have := and_two_pow_eq_zero_iff w (eb + fb)
    show decide (w &&& 2 ^ (eb + fb) ≠ 0) = _
    rcases Nat.mod_two_eq_zero_or_one (w / 2 ^ (eb + fb)) with h | h
    · simp [this.mpr h, h]
    · simp [h, this]
  have e : AnyFloat.abs (.any eb fb) v = fJoin eb fb false (fExp eb fb v) (fMan fb v) := by
    show v &&& (2 ^ (eb + fb + 1) - 1 - 2 ^ (eb + fb)) = _
    rw [show 2 ^ (eb + fb + 1) - 1 - 2 ^ (eb + fb) = 2 ^ (eb + fb) - 1 by rw [pow_succ]; omega, Nat.and_two_pow_sub_one_eq_mod]
    conv_lhs => rw [← fJoin_fields hv]
    unfold fJoin
    cases fSign eb fb v
    · simp [Nat.mod_eq_of_lt hl]
    · simp only [if_true, add_assoc, Nat.add_mod_left, Nat.mod_eq_of_lt hl, Bool.false_eq_true, if_false, zero_add]
  refine ⟨?_, ?_, ?_⟩
  · rw [e, ieee_eq, ieee_eq v, fJoin_sign hx hm, fJoin_exp hx hm, fJoin_man hm]
    split_ifs with h1 h2 h3 h4 h5 <;> simp [abs_mul, abs_sign_mul, abs_of_nonneg]
    all_goals first | contradiction | (left; rw [abs_of_nonneg (by positivity)]) | rw [abs_of_nonneg (by positivity)]
  · rw [hneg, e]
    have := fJoin_sign (s := false) hx hm
    unfold fSign at this
    exact this
  · rw [hneg, decide_eq_true_eq]
    have hd : v / 2 ^ (eb + fb) < 2 := by
      rw [Nat.div_lt_iff_lt_mul (by positivity)]; rw [pow_succ] at hv; omega
    rw [Nat.mod_eq_of_lt hd]
    constructor
    · intro h1
      by_contra hc
      rw [Nat.div_eq_of_lt (by omega)] at h1; omega
    · intro h1
      have := Nat.div_pos h1 (by positivity)
      omega

example : AnyFloat.abs (.any 5 2) 0xbe = 0x3e ∧ AnyFloat.abs (.any 5 2) 0xfc = 0x7c ∧ AnyFloat.isNegative (.any 5 2) 0xfc = true := by
  decide +kernel

/-- **C57**: a number is negative if `isnegative` says so, except -0; `iszero` recognises +0 only. -/
theorem C57_isNegative {v : ℕ} {x : ℚ} (hx : ieee eb fb v = .num x) (hv : v < 2 ^ (eb + fb + 1)) (h0 : x ≠ 0) :
    AnyFloat.isNegative (.any eb fb) v = decide (x < 0) := by
  have e : AnyFloat.isNegative (.any eb fb) v = fSign eb fb v := by
    unfold AnyFloat.isNegative fSign
    have := and_two_pow_eq_zero_iff v (eb + fb)
    show decide (v &&& 2 ^ (eb + fb) ≠ 0) = _
    rcases Nat.mod_two_eq_zero_or_one (v / 2 ^ (eb + fb)) with h | h
    · simp [this.mpr h, h]
    · simp [h, this]
  rw [e]
  have key : ∀ m : ℚ, 0 ≤ m → x = (if fSign eb fb v then -1 else 1 : ℚ) * m → fSign eb fb v = decide (x < 0) := by
    intro m hm hxe
    have hm0 : 0 < m := lt_of_le_of_ne hm (by rintro rfl; rw [mul_zero] at hxe; exact h0 hxe)
    cases hs : fSign eb fb v <;> rw [hs] at hxe <;> simp at hxe <;> symm
    · rw [decide_eq_false_iff_not]; linarith
    · rw [decide_eq_true_eq]; linarith
  obtain ⟨-, ⟨-, hx⟩ | ⟨-, hx⟩⟩ := ieee_num hx
  · exact key _ (by positivity) hx
  · exact key _ (by positivity) hx

example : ieee 5 2 0xbe = .num (-3 / 2) ∧ AnyFloat.isNegative (.any 5 2) 0xbe = true ∧ ieee 5 2 0x3e = .num (3 / 2) ∧
    AnyFloat.isNegative (.any 5 2) 0x3e = false := ⟨by norm_num [ieee], by decide +kernel, by norm_num [ieee], by decide +kernel⟩

/-- **C57** does not hold for -0: `iszero` is false, `isnegative` true, and dividing by it gives the wrong infinity. -/
theorem C57_negzero_wrong (h : EmuFor eb fb neb nfb) (ho : o.Correct neb nfb) (hs : o.Specials neb nfb) :
    ieee eb fb (2 ^ (eb + fb)) = .num 0 ∧ AnyFloat.isZero (2 ^ (eb + fb)) = false ∧
    AnyFloat.isNegative (.any eb fb) (2 ^ (eb + fb)) = true ∧
    ∃ r, AnyFloat.div (.any eb fb) (.any neb nfb) o (AnyFloat.one (.any eb fb)) (2 ^ (eb + fb)) = .ok r ∧ ieee eb fb r = .inf false := by
  have hz : ieee eb fb (2 ^ (eb + fb)) = .num 0 := by
    have hx : fExp eb fb (2 ^ (eb + fb)) = 0 := by
      unfold fExp; rw [pow_add, Nat.mul_div_cancel _ (by positivity), Nat.mod_self]
    have hm : fMan fb (2 ^ (eb + fb)) = 0 := by unfold fMan; rw [pow_add, Nat.mul_mod_left]
    rw [ieee_eq, hx, hm, if_neg, if_pos rfl]
    · simp
    · have := two_le_pow h.heb
      have := two_pow_pred_nat (w := eb) (by have := h.heb; omega)
      omega
  refine ⟨hz, ?_, ?_, ?_⟩
  · unfold AnyFloat.isZero; simp
  · exact (C57_abs (by rw [pow_succ]; have : 0 < 2 ^ (eb + fb) := by positivity
                       omega)).2.2.mpr le_rfl
  · obtain ⟨h1, -⟩ := C51_constants (eb := eb) (fb := fb) (dn := true) h.heb h.hfb
    have hone : minNorm neb ≤ |(1 : ℚ)| := by
      rw [abs_one]; unfold minNorm
      have : (2 : ℤ) ≤ 2 ^ (neb - 1) := by exact_mod_cast two_le_pow (by have := h.heb; have := h.he; omega)
      rw [← zpow_zero (2 : ℚ)]
      exact zpow_le_zpow_right₀ (by norm_num) (by omega)
    obtain ⟨r, h2, -, h3⟩ := C57_div_zero h ho hs h1 hz (Or.inr hone)
    exact ⟨r, h2, by rw [h3]; norm_num⟩

example (ho : o.Correct 8 23) (hs : o.Specials 8 23) : ∃ r, AnyFloat.div (.any 5 2) (.any 8 23) o 0x3c 0x80 = .ok r ∧ ieee 5 2 r = .inf false :=
  (C57_negzero_wrong (by constructor <;> omega) ho hs).2.2.2

/-- **C57**: subtraction adds the negated second operand, so it is cut like sums. -/
theorem C57_sub (h : EmuFor eb fb neb nfb) (ho : o.Correct neb nfb) {a b : ℕ} {x y : ℚ} (ha : ieee eb fb a = .num x)
    (hb : ieee eb fb b = .num y) (hb' : b < 2 ^ (eb + fb + 1)) (ha0 : a ≠ 0) (hb0 : b ≠ 2 ^ (eb + fb)) (hx : NotSub neb (.num x))
    (hy : NotSub neb (.num y)) (hm : |x - y| ≤ maxFin neb nfb) :
    ∃ r, AnyFloat.sub (.any eb fb) (.any neb nfb) o a b = .ok r ∧ r < 2 ^ (eb + fb + 1) ∧ IsCutRounded eb fb neb nfb (x - y) r := by
  obtain ⟨h1, h2, h3⟩ := C57_neg hb'
  rw [hb] at h2
  have hne : AnyFloat.neg (.any eb fb) b ≠ 0 := by
    intro hc
    rw [hc] at h3
    have : AnyFloat.neg (.any eb fb) 0 = 2 ^ (eb + fb) := by
      show 0 ^^^ 2 ^ (eb + fb) = _
      rw [Nat.zero_xor]
    rw [this] at h3; exact hb0 h3.symm
  unfold AnyFloat.sub
  rw [sub_eq_add_neg]
  exact C57_add h ho ha h2 ha0 hne hx (hy.imp (fun h => by rw [h, neg_zero]) (fun h => by rwa [abs_neg])) (by rwa [← sub_eq_add_neg])

/-- `7 - 1.5` in `binary8_emu` -/
example (ho : o.Correct 8 23) : ∃ r, AnyFloat.sub (.any 5 2) (.any 8 23) o 0x47 0x3e = .ok r ∧ r < 2 ^ 8 ∧
    IsCutRounded 5 2 8 23 (7 - 3 / 2) r :=
  C57_sub (by constructor <;> omega) ho (by norm_num [ieee]) (by norm_num [ieee]) (by norm_num) (by norm_num) (by norm_num)
    (Or.inr (by norm_num [minNorm, abs_of_pos])) (Or.inr (by norm_num [minNorm, abs_of_pos])) (by norm_num [maxFin, abs_of_pos])

/-! ## integers, constants -/

/-- **C57**: the constructor from `int` cuts every integer except the least; integers that are numbers of the format are exact. -/
theorem C57_ofInt (h : EmuFor eb fb neb nfb) {i : ℤ} (h1 : -2 ^ 31 < i) (h2 : i < 2 ^ 31) :
    ∃ r, AnyFloat.ofInt (.any eb fb) i = .ok r ∧ r < 2 ^ (eb + fb + 1) ∧ IsCut eb fb i r ∧
      ((∃ g, ieee eb fb g = .num i) → ieee eb fb r = .num i) := by
  have heb := h.heb
  have he := h.he
  have hneb := h.hneb
  have hfb := h.hfb
  by_cases h0 : i = 0
  · subst h0
    refine ⟨0, rfl, by positivity, ?_, fun _ => ?_⟩
    · exact isCut_zero heb (by simp [minNorm_pos])
    · rcases ieee_zero (eb := eb) (fb := fb) with h' | h'
      · rw [h']; simp
      · omega
  have hn0 : i.natAbs ≠ 0 := by omega
  have hL1 := Nat.log2_self_le hn0
  have hL2 := Nat.lt_log2_self (n := i.natAbs)
  have hL : i.natAbs.log2 < 31 := by
    have : i.natAbs < 2 ^ 31 := by omega
    exact (Nat.pow_lt_pow_iff_right (by norm_num : 1 < 2)).mp (lt_of_le_of_lt hL1 this)
  have hu : Unp.unpackFixed (eb + fb + 1) 32 32 0 i =
      .ok ⟨.regular, i < 0, -((0 : ℕ) : ℤ) + i.natAbs.log2, fracOf (eb + fb + 1) i.natAbs.log2 i.natAbs⟩ :=
    unpackFixed_eq (by omega) (by omega) (by omega) h0 (by unfold InS; norm_num; constructor <;> omega) (Or.inr (by norm_num; omega))
      (by unfold InS; norm_num; omega)
  have habs : |(i : ℚ)| = (i.natAbs : ℚ) * 2 ^ (-((0 : ℕ) : ℤ)) := by
    rw [← Int.cast_abs, Int.abs_eq_natAbs]; simp
  obtain ⟨g1, g2, g3⟩ := fracOf_unit (F := eb + fb + 1) hL1 (-((0 : ℕ) : ℤ))
  obtain ⟨r, k1, k2, k3, -⟩ := pack_cut (F := eb + fb + 1) (X := i) (s := i < 0) (e := -((0 : ℕ) : ℤ) + i.natAbs.log2) heb (by omega) hfb (by omega) (fracOf_lt (F := eb + fb + 1) hL2)
    (by rw [abs_lt]; norm_num; omega)
    (by
      rcases lt_or_gt_of_ne h0 with hc | hc
      · have : (i : ℚ) < 0 := by exact_mod_cast hc
        simp [hc, this]
      · have h4 : ¬ i < 0 := by omega
        have : (0 : ℚ) < i := by exact_mod_cast hc
        simp [h4, this])
    (by rw [g1, habs]; exact g2) (by rw [g1, habs, ← add_one_mul]; exact g3) (Or.inl (by omega))
  refine ⟨r, ?_, k2, k3, fun ⟨g, hg⟩ => k3.exact hg (Or.inr ?_)⟩
  · unfold AnyFloat.ofInt
    exact (bind_ok _ hu).trans k1
  · have h5 : (1 : ℚ) ≤ |(i : ℚ)| := by
      rw [← Int.cast_abs]; exact_mod_cast Int.one_le_abs h0
    refine le_trans ?_ h5
    unfold minNorm
    have : (2 : ℤ) ≤ 2 ^ (eb - 1) := by exact_mod_cast two_le_pow heb
    rw [← zpow_zero (2 : ℚ)]
    exact zpow_le_zpow_right₀ (by norm_num) (by omega)

/-- 11 is cut to 10, -100000 to the least number, -12 is exact -/
example : AnyFloat.ofInt (.any 5 2) 11 = .ok 0x49 ∧ ieee 5 2 0x49 = .num 10 ∧ AnyFloat.ofInt (.any 5 2) (-100000) = .ok 0xfb ∧
    AnyFloat.ofInt (.any 5 2) (-12) = .ok 0xca ∧ ieee 5 2 0xca = .num (-12) :=
  ⟨by decide +kernel, by norm_num [ieee], by decide +kernel, by decide +kernel, by norm_num [ieee]⟩

/-- **C57** does not hold for the least `int`: undefined behaviour. -/
theorem C57_ofInt_min_ub : AnyFloat.ofInt (.any eb fb) (-2 ^ 31) = .error .overflow := by
  have : ∀ f : Unp → M Nat, (Unp.unpackFixed (eb + fb + 1) 32 32 0 (-2 ^ 31) >>= f) = .error .overflow := by
    intro f
    unfold Unp.unpackFixed
    rw [if_pos (by norm_num), show Posit.pcabs 32 (-2 ^ 31) = .error .overflow by decide +kernel]
    rfl
  exact this _

/-- **C57**: the conversion to `int` truncates, outside `1 ≤ |x| < 2` and `2^31 ≤ |x| < 2^32`. -/
theorem C57_toInt_partial (h : EmuFor eb fb neb nfb) {v : ℕ} {x : ℚ} (hx : ieee eb fb v = .num x)
    (hr : |x| < 1 ∨ (2 ≤ |x| ∧ |x| < 2 ^ 31) ∨ 2 ^ 32 ≤ |x|) : AnyFloat.toInt (.any eb fb) v = .ok (satZ 32 (truncZ x)) := by
  obtain ⟨q1, q2, q3, q4, q5, q6, q7⟩ := h
  unfold AnyFloat.toInt
  rcases unpack_num (F := eb + fb + 1) q1 (by omega) q4 (by omega) (by omega) hx (Or.inr (Or.inr (by omega))) with
    ⟨rfl, e, f, hu⟩ | ⟨-, s, e, f, hu, k2, k3, k4, k5, k6, k7⟩
  · refine (bind_ok _ hu).trans ?_
    have : satZ 32 (truncZ 0) = 0 := by decide +kernel
    rw [this]; rfl
  · refine (bind_ok _ hu).trans ?_
    have hv : x = tripleVal (eb + fb + 1) s e f * 2 ^ 0 := by
      have h7 := k7 (by omega)
      have : tripleVal (eb + fb + 1) s e f = (if s then -1 else 1 : ℚ) * mag (eb + fb + 1) e f := by unfold tripleVal mag; ring
      rw [this, h7, pow_zero, mul_one]
      cases s
      · simp at k4 ⊢; rw [abs_of_pos k4]
      · simp at k4 ⊢; rw [abs_of_neg k4]; ring
    exact C21_packFixed_partial (by omega) (by omega) k2 hv (hr.imp_right (Or.imp_left fun h => ⟨Or.inl h.1, h.2⟩))

/-- -3.14…, and `2^40`, which saturates -/
example : ieee 8 23 0xc0490fdb = .num (-13176795 / 2 ^ 22) ∧ 2 ≤ |(-13176795 / 2 ^ 22 : ℚ)| ∧ |(-13176795 / 2 ^ 22 : ℚ)| < 2 ^ 31 ∧
    AnyFloat.toInt (.any 8 23) 0xc0490fdb = .ok (-3) ∧ ieee 8 23 0x53800000 = .num (2 ^ 40) ∧
    AnyFloat.toInt (.any 8 23) 0x53800000 = .ok (2 ^ 31 - 1) :=
  ⟨by norm_num [ieee], by norm_num [abs_of_neg], by norm_num [abs_of_neg], by decide +kernel, by norm_num [ieee], by decide +kernel⟩

/-- … where it is undefined behaviour for `1 ≤ |x| < 2`. -/
theorem C57_toInt_one_ub (h : EmuFor eb fb neb nfb) {v : ℕ} {x : ℚ} (hx : ieee eb fb v = .num x) (h1 : 1 ≤ |x|) (h2 : |x| < 2) :
    AnyFloat.toInt (.any eb fb) v = .error .shiftAmount := by
  obtain ⟨q1, q2, q3, q4, q5, q6, q7⟩ := h
  unfold AnyFloat.toInt
  rcases unpack_num (F := eb + fb + 1) q1 (by omega) q4 (by omega) (by omega) hx (Or.inr (Or.inr (by omega))) with
    ⟨rfl, e, f, hu⟩ | ⟨-, s, e, f, hu, k2, k3, k4, k5, k6, k7⟩
  · norm_num at h1
  · refine (bind_ok _ hu).trans (C21_one_ub (F := eb + fb + 1) (Or.inl rfl) (by omega) k2 ?_)
    have l1 := le_mag (eb + fb + 1) e f
    have l2 := mag_lt (F := eb + fb + 1) (e := e) k2
    rw [k7 (by omega)] at l1 l2
    have two : (1 : ℚ) < 2 := by norm_num
    have e1 : e < 1 := (zpow_lt_zpow_iff_right₀ two).mp (lt_of_le_of_lt l1 (by simpa using h2))
    have e2 : 0 < e + 1 := (zpow_lt_zpow_iff_right₀ two).mp (lt_of_le_of_lt (by simpa using h1) l2)
    push_cast; omega

example : AnyFloat.ofInt (.any 5 2) 11 = .ok 0x49 ∧ AnyFloat.ofInt (.any 5 2) (-100000) = .ok 0xfb ∧
    AnyFloat.toInt (.any 8 23) 0xc0490fdb = .ok (-3) ∧ AnyFloat.toInt (.any 8 23) 0x3fc00000 = .error .shiftAmount := by decide +kernel

/-- **C57**: the named constants. -/
theorem C57_constants (heb : 2 ≤ eb) (hfb : 1 ≤ fb) :
    ieee eb fb AnyFloat.zero = .num 0 ∧ ieee eb fb (AnyFloat.one (.any eb fb)) = .num 1 ∧ ieee eb fb (AnyFloat.two (.any eb fb)) = .num 2 ∧
    ieee eb fb (AnyFloat.max (.any eb fb)) = .num (maxFin eb fb) ∧ ieee eb fb (AnyFloat.lowest (.any eb fb)) = .num (-maxFin eb fb) ∧
    ieee eb fb (AnyFloat.min (.any eb fb)) = .num (minNorm eb) ∧ ieee eb fb (AnyFloat.inf (.any eb fb)) = .inf false ∧
    ieee eb fb (AnyFloat.ninf (.any eb fb)) = .inf true ∧ ieee eb fb (AnyFloat.nan (.any eb fb)) = .nan := by
  obtain ⟨c1, c2, c3, c4, c5, c6, c7, c8⟩ := C51_constants (dn := true) heb hfb
  refine ⟨?_, c1, c2, c4, c5, c3, c6, c7, c8⟩
  rcases ieee_zero (eb := eb) (fb := fb) with h' | h'
  · exact h'
  · omega

example : AnyFloat.max (.any 5 2) = 0x7b ∧ AnyFloat.min (.any 5 2) = 4 ∧ AnyFloat.one (.any 5 2) = 0x3c := by decide +kernel

end Verif
