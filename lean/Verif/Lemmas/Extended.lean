import Verif.Spec.Extended
import Verif.Props.Equiv

/-!
# The arithmetic on every pattern, NaN and infinities included: helper lemmas for C88
-/

namespace Verif
open Fmt

variable {c : Cfg}

/-- `r` is the outcome of encoding the extended number `X`: a number is rounded toward zero (or the shift is undefined, as
`Outcome` says), an infinity and NaN have their patterns -/
def EV.Outcome (c : Cfg) : EV → M ℤ → Prop
  | .num x, r => Verif.Outcome c x r
  | .inf s, r => r = .ok (c.infPat s)
  | .nan, r => r = .ok c.topPat

/-- an outcome is determined by the extended number -/
theorem EV.Outcome.unique {X : EV} {r s : M ℤ} (hr : EV.Outcome c X r) (hs : EV.Outcome c X s) : r = s := by
  cases X with
  | num x => exact Verif.Outcome.unique hr hs
  | inf t => exact Eq.trans hr (Eq.symm hs)
  | nan => exact Eq.trans hr (Eq.symm hs)

/-! ## Unpacked numbers -/

/-- the unpacked number `u` stands for the extended number -/
inductive EApp (F : ℕ) : EV → Unp → Prop
  | num {u : Unp} {x : ℚ} (h : App F u x) : EApp F (.num x) u
  | inf (s : Bool) : EApp F (.inf s) (Unp.ofTy .infinity s)
  | nan : EApp F .nan (Unp.ofTy .nan)

theorem ext_real {v : ℤ} (hv : c.fmt.IsReal v) : c.ext v = .num (c.fmt.val v) := by
  unfold Cfg.ext; rw [if_pos hv]

theorem ext_top (hs : c.spec ≠ .withInf) : c.ext c.topPat = .nan := by
  unfold Cfg.ext
  have hr : ¬ c.fmt.IsReal c.topPat := by
    intro hr
    have := Format.maxBody_lt c.fmt
    unfold Format.IsReal at hr
    have h1 := hr.1
    unfold Cfg.topPat at h1
    rw [fmt_N] at this
    zify at this
    omega
  rw [if_neg hr, if_pos ⟨rfl, hs⟩]

theorem ext_unpack (h : c.WF) {v : ℤ} (hv : c.fmt.IsCanonical v) :
    ∃ u, Posit.unpack c v = .ok u ∧ EApp c.F (c.ext v) u ∧ |u.exp| ≤ c.maxScale := by
  by_cases hr : c.fmt.IsReal v
  · obtain ⟨u, h1, h2, h3⟩ := app_unpack h hr
    exact ⟨u, h1, by rw [ext_real hr]; exact .num h2, h3⟩
  rcases unpack_cases h hv with rfl | ⟨-, hr', -⟩ | ⟨hi, hn, hu⟩ | ⟨hn, hu⟩
  · exact absurd (by unfold Format.IsReal; omega) hr
  · exact absurd hr' hr
  · refine ⟨_, hu, ?_, by simp [Unp.ofTy]⟩
    have : ¬ (v = c.topPat ∧ c.spec ≠ .withInf) := by
      rintro ⟨h1, h2⟩
      unfold Posit.isNaN at hn
      rw [h.nan_eq] at hn
      simp [h2] at hn
      exact hn h1
    unfold Cfg.ext
    rw [if_neg hr, if_neg this]; exact .inf _
  · refine ⟨_, hu, ?_, by simp [Unp.ofTy]⟩
    unfold Posit.isNaN at hn
    rw [h.nan_eq] at hn
    simp at hn
    unfold Cfg.ext
    rw [if_neg hr, if_pos ⟨hn.2, hn.1⟩]; exact .nan

theorem decide_eq_of_iff {p : Prop} [Decidable p] {b : Bool} (h : p ↔ b = true) : decide p = b := by
  cases b
  · exact decide_eq_false fun hp => by cases h.mp hp
  · exact decide_eq_true (h.mpr rfl)

/-- a product in which one factor is not a number -/
theorem eapp_mul_special {F E : ℕ} {A B : EV} {ua ub : Unp} (hA : EApp F A ua) (hB : EApp F B ub)
    (h : ∀ x y, ¬ (A = .num x ∧ B = .num y)) :
    ∃ u, Unp.mul F E ua ub = .ok u ∧ EApp F (EV.orFirst EV.mul A B) u ∧ (u = ua ∨ u.exp = 0) := by
  unfold EV.orFirst
  cases hA with
  | nan => exact ⟨Unp.ofTy .nan, by simp [Unp.mul, Unp.ofTy], by simp; exact .nan, Or.inl rfl⟩
  | inf s =>
    cases hB with
    | nan => exact ⟨Unp.ofTy .infinity s, by simp [Unp.mul, Unp.ofTy], by simp; exact .inf s, Or.inl rfl⟩
    | inf t => exact ⟨_, rfl, by simp [EV.mul]; exact .inf _, Or.inr rfl⟩
    | num hb =>
      cases hb with
      | zero => exact ⟨_, rfl, by simp [EV.mul]; exact .nan, Or.inr rfl⟩
      | reg hY hm =>
        refine ⟨_, rfl, ?_, Or.inr rfl⟩
        rw [← decide_eq_of_iff hY.sign]
        simp [EV.mul, hY.ne]; exact .inf _
  | @num _ x ha =>
    cases hB with
    | nan => exact ⟨ua, by cases ha <;> simp [Unp.mul, Unp.ofTy], by simp; exact .num ha, Or.inl rfl⟩
    | num hb => exact absurd ⟨rfl, rfl⟩ (h _ _)
    | inf t =>
      cases ha with
      | zero => exact ⟨_, rfl, by simp [EV.mul]; exact .nan, Or.inr rfl⟩
      | reg hX hm =>
        refine ⟨_, rfl, ?_, Or.inr rfl⟩
        rw [← decide_eq_of_iff hX.sign]
        simp [EV.mul, hX.ne]; exact .inf _

theorem ext_num_iff {v : ℤ} {x : ℚ} (hx : c.ext v = .num x) : c.fmt.IsReal v ∧ c.fmt.val v = x := by
  unfold Cfg.ext at hx
  by_cases hr : c.fmt.IsReal v
  · rw [if_pos hr] at hx
    exact ⟨hr, by injection hx⟩
  · rw [if_neg hr] at hx
    split at hx <;> cases hx

/-- the unpacked product of two patterns -/
theorem eapp_mul (h : c.WF) (hF : c.fb + 1 ≤ c.F) {a b : ℤ} (ha : c.fmt.IsCanonical a) (hb : c.fmt.IsCanonical b) :
    ∃ ua ub u, Posit.unpack c a = .ok ua ∧ Posit.unpack c b = .ok ub ∧ Unp.mul c.F c.E ua ub = .ok u ∧
      EApp c.F (EV.orFirst EV.mul (c.ext a) (c.ext b)) u ∧ |u.exp| ≤ 2 * c.maxScale + 1 := by
  by_cases hn : ∃ x y, c.ext a = .num x ∧ c.ext b = .num y
  · obtain ⟨x, y, hx, hy⟩ := hn
    obtain ⟨hra, rfl⟩ := ext_num_iff hx
    obtain ⟨hrb, rfl⟩ := ext_num_iff hy
    obtain ⟨ua, ub, u, h1, h2, h3, h4, h5⟩ := app_mul h hF hra hrb
    refine ⟨ua, ub, u, h1, h2, h3, ?_, h5⟩
    rw [hx, hy]
    simp [EV.orFirst, EV.mul]; exact .num h4
  · obtain ⟨ua, h1, h2, h3⟩ := ext_unpack h ha
    obtain ⟨ub, h4, h5, -⟩ := ext_unpack h hb
    obtain ⟨u, h7, h8, h9⟩ := eapp_mul_special (E := c.E) h2 h5 fun x y hxy => hn ⟨x, y, hxy⟩
    refine ⟨ua, ub, u, h1, h4, h7, h8, ?_⟩
    rcases h9 with rfl | h9
    · rw [abs_le] at *; omega
    · rw [h9, abs_zero]; omega

/-- the sum of two unpacked numbers -/
theorem eapp_add {F E : ℕ} (hF : F = 8 ∨ F = 16 ∨ F = 32 ∨ F = 64) (hE : 1 ≤ E) {A B : EV} {ua ub : Unp} (hA : EApp F A ua)
    (hB : EApp F B ub) (hr : AddRange E F ua.exp ub.exp) :
    (EV.AddOK F A B → ∃ r, Unp.add F E ua ub = .ok r ∧ EApp F (EV.orFirst (EV.add F) A B) r ∧
      (r = ua ∨ r = ub ∨ r.exp = 0 ∨ max ua.exp ub.exp + 1 - F < r.exp)) ∧
    (¬ EV.AddOK F A B → Unp.add F E ua ub = .error .shiftAmount) := by
  unfold EV.orFirst
  cases hA with
  | nan =>
    refine ⟨fun _ => ⟨Unp.ofTy .nan, by simp [Unp.add, Unp.ofTy], by simp; exact .nan, Or.inl rfl⟩, fun hn => absurd ?_ hn⟩
    cases B <;> trivial
  | inf s =>
    refine ⟨fun _ => ?_, fun hn => absurd (by cases B <;> trivial) hn⟩
    cases hB with
    | nan => exact ⟨Unp.ofTy .infinity s, by simp [Unp.add, Unp.ofTy], by simp; exact .inf s, Or.inl rfl⟩
    | inf t =>
      refine ⟨if s = t then Unp.ofTy .infinity s else Unp.ofTy .nan, rfl, ?_, ?_⟩
      · by_cases hst : s = t
        · simp [EV.add, hst]; exact .inf _
        · simp [EV.add, hst]; exact .nan
      · by_cases hst : s = t
        · left; simp [hst]
        · right; right; left; simp [hst, Unp.ofTy]
    | num hb => cases hb <;> exact ⟨_, rfl, by simp [EV.add]; exact .inf _, Or.inl rfl⟩
  | @num _ x ha =>
    cases hB with
    | nan =>
      exact ⟨fun _ => ⟨ua, by cases ha <;> simp [Unp.add, Unp.ofTy], by simp; exact .num ha, Or.inl rfl⟩,
        fun hn => absurd trivial hn⟩
    | inf t =>
      exact ⟨fun _ => ⟨Unp.ofTy .infinity t, by cases ha <;> rfl, by simp [EV.add]; exact .inf _, Or.inr (Or.inl rfl)⟩,
        fun hn => absurd trivial hn⟩
    | num hb =>
      obtain ⟨h1, h2⟩ := app_add hF hE ha hb hr
      refine ⟨fun ho => ?_, h2⟩
      obtain ⟨r, hr, hd, he⟩ := h1 ho
      exact ⟨r, hr, by simp [EV.add]; exact .num hd, he⟩

theorem eapp_pack (h : c.WF) (hF : c.fb + 2 ≤ c.F) {X : EV} {u : Unp} (hu : EApp c.F X u) : EV.Outcome c X (Posit.pack c u) := by
  cases hu with
  | num ha => exact app_pack h hF ha
  | inf s => exact pack_inf h s
  | nan => exact (C03_pack_special h false 0 0).2.1

theorem eapp_add_pack (h : c.WF) (hF : c.fb + 2 ≤ c.F) {A B : EV} {ua ub : Unp} (hA : EApp c.F A ua) (hB : EApp c.F B ub)
    (hr : AddRange c.E c.F ua.exp ub.exp) :
    (EV.AddOK c.F A B → EV.Outcome c (EV.orFirst (EV.add c.F) A B) (do let r ← Unp.add c.F c.E ua ub; Posit.pack c r)) ∧
    (¬ EV.AddOK c.F A B → (do let r ← Unp.add c.F c.E ua ub; Posit.pack c r) = .error .shiftAmount) := by
  have hE := E_ge h
  obtain ⟨h1, h2⟩ := eapp_add h.hF (by omega : 1 ≤ c.E) hA hB hr
  refine ⟨fun ho => ?_, fun hn => by rw [h2 hn]; rfl⟩
  obtain ⟨r, hr, hd, -⟩ := h1 ho
  rw [hr]
  exact eapp_pack h hF hd

/-- the size of a product -/
theorem eprod_le (h : c.WF) {a b : ℤ} {p : ℚ} (hp : EV.orFirst EV.mul (c.ext a) (c.ext b) = .num p) :
    |p| ≤ 2 ^ (2 * (c.maxScale : ℤ) + 2) := by
  unfold EV.orFirst at hp
  have key : ∀ {v : ℤ} {x : ℚ}, c.ext v = .num x → |x| ≤ 2 ^ ((c.maxScale : ℤ) + 1) := by
    intro v x hx
    obtain ⟨hv, rfl⟩ := ext_num_iff hx
    by_cases h0 : v = 0
    · subst h0; rw [Format.val_zero, abs_zero]; positivity
    · obtain ⟨e, f, hu⟩ := unpack_real h hv h0
      have := hu.e_abs h
      rw [abs_le] at this
      exact hu.upper.le.trans (zpow_le_zpow_right₀ (by norm_num) (by omega))
  split at hp
  · exact (key hp).trans (zpow_le_zpow_right₀ (by norm_num) (by omega))
  · cases hA : c.ext a with
    | nan => simp [hA, EV.mul] at hp
    | inf s =>
      cases hB : c.ext b with
      | num y => rw [hA, hB] at hp; simp only [EV.mul] at hp; split at hp <;> cases hp
      | _ => rw [hA, hB] at hp; cases hp
    | num x =>
      cases hB : c.ext b with
      | nan => simp [hA, hB, EV.mul] at hp
      | inf s => rw [hA, hB] at hp; simp only [EV.mul] at hp; split at hp <;> cases hp
      | num y =>
        obtain ⟨hra, rfl⟩ := ext_num_iff hA
        obtain ⟨hrb, rfl⟩ := ext_num_iff hB
        rw [hA, hB] at hp
        injection hp with hp
        rw [← hp]
        exact abs_product_le h hra hrb

/-- the accumulator of `dot` -/
theorem eapp_dotLoop (h : c.WF) (hF : c.fb + 1 ≤ c.F) : ∀ (l : List (ℤ × ℤ)) (acc : Unp) (S : EV) (n : ℕ),
    (∀ p ∈ l, c.fmt.IsCanonical p.1 ∧ c.fmt.IsCanonical p.2) → EApp c.F S acc → -(2 * c.maxScale + c.F : ℤ) < acc.exp →
    (∀ s, S = .num s → |s| ≤ n * 2 ^ (2 * (c.maxScale : ℤ) + 2)) → n + l.length < 2 ^ 60 →
    (EV.FoldOK c.F S (l.map fun p => EV.orFirst EV.mul (c.ext p.1) (c.ext p.2)) →
      ∃ r, Posit.dotLoop c acc l = .ok r ∧
        EApp c.F ((l.map fun p => EV.orFirst EV.mul (c.ext p.1) (c.ext p.2)).foldl (EV.orFirst (EV.add c.F)) S) r) ∧
    (¬ EV.FoldOK c.F S (l.map fun p => EV.orFirst EV.mul (c.ext p.1) (c.ext p.2)) →
      Posit.dotLoop c acc l = .error .shiftAmount)
  | [], acc, s, n, _, hd, _, _, _ => ⟨fun _ => ⟨acc, rfl, hd⟩, fun hn => absurd trivial hn⟩
  | (a, b) :: l, acc, S, n, hcan, hd, he, hs, hn => by
    obtain ⟨ha, hb⟩ := hcan (a, b) (by simp)
    obtain ⟨ua, ub, m, h1, h2, h3, h4, h5⟩ := eapp_mul h hF ha hb
    have hF64 := F_le h
    have hF8 := h.F_pos
    have hM := maxScale_bound h
    have hE := E_ge h
    have hE1 : (128 : ℤ) ≤ 2 ^ (c.E - 1) := by
      calc (128 : ℤ) = 2 ^ 7 := by norm_num
        _ ≤ 2 ^ (c.E - 1) := pow_le_pow_right₀ (by norm_num) (by omega)
    rw [List.length_cons] at hn
    have hhi : acc.exp ≤ 2 * c.maxScale + 62 := by
      cases hd with
      | nan => simp only [Unp.ofTy]; omega
      | inf s => simp only [Unp.ofTy]; omega
      | num hd =>
        cases hd with
        | zero => simp only []; omega
        | @reg s' e f _ hX _ =>
          have e1 : (2 : ℚ) ^ e < 2 ^ (2 * (c.maxScale : ℤ) + 62) := by
            have e2 : (n : ℚ) < 2 ^ 60 := by exact_mod_cast (by omega : n < 2 ^ 60)
            have e3 : (0 : ℚ) < 2 ^ (2 * (c.maxScale : ℤ) + 2) := by positivity
            refine lt_of_le_of_lt (hX.lo.trans (hs _ rfl)) ?_
            rw [show 2 * (c.maxScale : ℤ) + 62 = (60 : ℕ) + (2 * c.maxScale + 2) by push_cast; ring, zpow_add₀ (a := (2 : ℚ)) (by norm_num) ((60 : ℕ) : ℤ), zpow_natCast]
            exact mul_lt_mul_of_pos_right e2 e3
          have := (zpow_lt_zpow_iff_right₀ (by norm_num : (1 : ℚ) < 2)).mp e1
          simp only []; omega
    have h5' := abs_le.mp h5
    have hr : AddRange c.E c.F acc.exp m.exp := by
      refine ⟨?_, fun x k1 k2 => ?_⟩ <;> unfold InS <;> omega
    obtain ⟨g1, g2⟩ := eapp_add h.hF (by omega : 1 ≤ c.E) hd h4 hr
    have hstep : ∀ r, Unp.add c.F c.E acc m = r → Posit.dotLoop c acc ((a, b) :: l) = r.bind fun t => Posit.dotLoop c t l := by
      intro r hr
      rw [Posit.dotLoop, h1, h2]
      simp only [bind, Except.bind]
      rw [h3]
      simp only []
      rw [hr]
    by_cases ho : EV.AddOK c.F S (EV.orFirst EV.mul (c.ext a) (c.ext b))
    · obtain ⟨r, hr, hdr, her⟩ := g1 ho
      rw [hstep _ hr]
      have her' : -(2 * c.maxScale + c.F : ℤ) < r.exp := by
        rcases her with rfl | rfl | her | her
        · exact he
        · omega
        · omega
        · omega
      have hprod : ∀ p, EV.orFirst EV.mul (c.ext a) (c.ext b) = .num p → |p| ≤ 2 ^ (2 * (c.maxScale : ℤ) + 2) :=
        fun p hp => eprod_le h hp
      have hs' : ∀ s, EV.orFirst (EV.add c.F) S (EV.orFirst EV.mul (c.ext a) (c.ext b)) = .num s →
          |s| ≤ ((n + 1 : ℕ) : ℚ) * 2 ^ (2 * (c.maxScale : ℤ) + 2) := by
        intro s hsum
        generalize EV.orFirst EV.mul (c.ext a) (c.ext b) = P at hsum hprod
        have hp0 : (0 : ℚ) < 2 ^ (2 * (c.maxScale : ℤ) + 2) := by positivity
        cases S with
        | nan => simp [EV.orFirst] at hsum
        | inf t =>
          cases P with
          | inf t' => simp [EV.orFirst, EV.add] at hsum; split at hsum <;> cases hsum
          | _ => simp [EV.orFirst, EV.add] at hsum
        | num x =>
          have hx := hs x rfl
          cases P with
          | nan =>
            simp [EV.orFirst] at hsum
            subst hsum
            push_cast; linarith
          | inf t => simp [EV.orFirst, EV.add] at hsum
          | num y =>
            simp [EV.orFirst, EV.add] at hsum
            subst hsum
            have h1 := abs_alignedSum_le c.F x y
            have h2 := hprod y rfl
            push_cast
            linarith
      have := eapp_dotLoop h hF l r _ (n + 1) (fun p hp => hcan p (by simp [hp])) hdr her' hs' (by omega)
      refine ⟨fun hok => this.1 hok.2, fun hno => this.2 (fun hok => hno ⟨ho, hok⟩)⟩
    · rw [hstep _ (g2 ho)]
      exact ⟨fun hok => absurd hok.1 ho, fun _ => rfl⟩

/-- a quotient other than of a number by a nonzero number -/
theorem eapp_div_special {F E : ℕ} {A B : EV} {ua ub : Unp} (hA : EApp F A ua) (hB : EApp F B ub)
    (h : ∀ x y, A = .num x → B = .num y → y = 0) :
    ∃ u, Unp.div F E ua ub = .ok u ∧ EApp F (EV.orFirst EV.divBig A B) u := by
  unfold EV.orFirst
  cases hA with
  | nan => exact ⟨Unp.ofTy .nan, by simp [Unp.div, Unp.ofTy], by simp; exact .nan⟩
  | inf s =>
    cases hB with
    | nan => exact ⟨Unp.ofTy .infinity s, by simp [Unp.div, Unp.ofTy], by simp; exact .inf s⟩
    | inf t => exact ⟨_, rfl, by simp [EV.divBig, EV.div]; exact .nan⟩
    | num hb =>
      cases hb with
      | zero => exact ⟨_, rfl, by simp [EV.divBig, EV.div]; exact .inf _⟩
      | reg hY hm =>
        refine ⟨_, rfl, ?_⟩
        rw [← decide_eq_of_iff hY.sign]
        simp [EV.divBig, EV.div]; exact .inf _
  | @num _ x ha =>
    cases hB with
    | nan => exact ⟨ua, by cases ha <;> simp [Unp.div, Unp.ofTy], by simp; exact .num ha⟩
    | @num _ y hb =>
      have hy := h x y rfl rfl
      subst hy
      cases hb with
      | reg hY hm => exact absurd rfl hY.ne
      | zero =>
        cases ha with
        | zero => exact ⟨_, rfl, by simp [EV.divBig, EV.div]; exact .nan⟩
        | reg hX hm =>
          refine ⟨_, rfl, ?_⟩
          rw [← decide_eq_of_iff hX.sign]
          simp [EV.divBig, EV.div, hX.ne]; exact .inf _
    | inf t =>
      cases ha with
      | zero => exact ⟨_, rfl, by simp [EV.divBig]; exact .num .zero⟩
      | reg hX hm =>
        refine ⟨_, rfl, ?_⟩
        rw [← decide_eq_of_iff hX.sign]
        simp [EV.divBig, hX.ne]; exact .inf _

/-- the unary minus of `Unpacked` -/
theorem eapp_neg {F : ℕ} (hF : 2 ≤ F) {A : EV} {u : Unp} (hA : EApp F A u) :
    EApp F (EV.negAsRegular A) (Unp.neg' u) ∧ (Unp.neg' u).exp = u.exp := by
  cases hA with
  | num ha =>
    obtain ⟨h1, h2⟩ := App.neg hF ha
    exact ⟨.num h1, h2⟩
  | nan => exact ⟨.num (App.of_eq (s := true) (e := 0) hF (by positivity) (by simp [mag, Unp.ofTy])), rfl⟩
  | inf s =>
    refine ⟨.num (App.of_eq (s := !s) (e := 0) hF (by positivity) ?_), rfl⟩
    cases s <;> simp [mag, Unp.ofTy]

theorem neg_canonical {b : ℤ} (hb : c.fmt.IsCanonical b) (hn : b ≠ c.topPat) :
    b.natAbs < 2 ^ (c.N - 1) ∧ c.fmt.IsCanonical (-b) := by
  unfold Format.IsCanonical at *
  unfold Cfg.topPat at hn
  simp only [fmt_N] at *
  have : ((b.natAbs : ℕ) : ℤ) < ((2 ^ (c.N - 1) : ℕ) : ℤ) := by push_cast; rw [abs_lt]; omega
  exact ⟨by exact_mod_cast this, by omega⟩

theorem ext_neg {b : ℤ} (hb : c.fmt.IsCanonical b) (hn : b ≠ c.topPat) : c.ext (-b) = (c.ext b).neg := by
  by_cases hr : c.fmt.IsReal b
  · rw [ext_real hr, ext_real hr.neg, EV.neg, Format.val_neg]
  · have hr' : ¬ c.fmt.IsReal (-b) := fun hh => hr (by have := hh.neg; rwa [neg_neg] at this)
    have hb0 : b ≠ 0 := by rintro rfl; exact hr (by unfold Format.IsReal; omega)
    have hn' : -b ≠ c.topPat := by
      unfold Format.IsCanonical at hb
      unfold Cfg.topPat
      simp only [fmt_N] at hb
      omega
    unfold Cfg.ext
    rw [if_neg hr, if_neg hr', if_neg (fun hh => hn' hh.1), if_neg (fun hh => hn hh.1), EV.neg]
    congr 1
    by_cases hneg : b < 0
    · simp [hneg]; omega
    · simp [hneg]; omega

/-- the pattern `2^(N-1)`, which is not one of the format, cannot be decoded -/
theorem unpack_above (h : c.WF) (hlt : c.N < c.H) : Posit.unpack c (2 ^ (c.N - 1)) = .error .shiftValue := by
  have hg := h.pow_ge
  have hN := h.N_ge
  have hH := h.H_pos
  have hP : (2 : ℤ) * 2 ^ (c.N - 1) ≤ 2 ^ (c.H - 1) := by
    rw [← pow_succ']; exact pow_le_pow_right₀ (by norm_num) (by omega)
  have hi : Posit.isInfinity c (2 ^ (c.N - 1)) = false := by
    unfold Posit.isInfinity
    rw [h.pinf_eq, h.ninf_eq]
    split_ifs <;> simp <;> intros <;> omega
  have hn : Posit.isNaN c (2 ^ (c.N - 1)) = false := by
    unfold Posit.isNaN
    rw [h.nan_eq]
    simp; intros; omega
  have hs : decide (wrapU c.H (2 ^ (c.N - 1)) &&& c.signBit ≠ 0) = true := by
    have : wrapU c.H (2 ^ (c.N - 1)) = 2 ^ (c.N - 1) := by
      have := wrapU_natCast (w := c.H) (x := 2 ^ (c.N - 1)) (Nat.pow_lt_pow_right (by norm_num) (by omega))
      rw [← this]; push_cast; rfl
    rw [this, Cfg.signBit, Nat.and_self]
    simp
  have hneg : Posit.condNeg c.H true (2 ^ (c.N - 1)) = .ok (-(2 ^ (c.N - 1))) := by
    have hin : InS c.H (-(2 ^ (c.N - 1))) := by unfold InS; omega
    unfold Posit.condNeg
    rw [if_pos rfl, arithS_ok' hin]
    simp only [bind, Except.bind, pure, Except.pure]
    rw [wrapS_of_inS (by omega) hin]
  unfold Posit.unpack Posit.unpackLow
  rw [hi, hn, if_neg (by simp), if_neg (by simp), if_neg (by omega)]
  simp only [hs, hneg, bind, Except.bind]
  have hsh : ¬ ((c.extraBits + 1 : ℤ) < 0 ∨ (pw c.H : ℤ) ≤ (c.extraBits + 1 : ℤ)) := by
    unfold Cfg.extraBits pw; push_cast; omega
  unfold shlS
  rw [if_neg hsh, if_pos (Or.inl (by omega))]

end Verif
