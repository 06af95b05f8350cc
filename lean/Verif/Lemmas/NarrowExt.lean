import Verif.Lemmas.NarrowFrac
import Verif.Lemmas.Extended
import Verif.Spec.NarrowExt

/-!
# Fraction types of any width on every pattern: helper lemmas for C134
-/

namespace Verif
open Fmt

variable {c : Cfg} {F E : ℕ}

/-- the unpacked number `u` is the extended number -/
inductive ENum (F : ℕ) : EV → Unp → Prop
  | num {u : Unp} {x : ℚ} (h : IsNum F u x) : ENum F (.num x) u
  | inf (s : Bool) : ENum F (.inf s) (Unp.ofTy .infinity s)
  | nan : ENum F .nan (Unp.ofTy .nan)

theorem val_ne_zero {u : Unp} : u.val F ≠ 0 := by
  rw [val_eq]; exact mul_ne_zero (sq_ne _) (mag_pos _ _ _).ne'

theorem val_neg_iff' {u : Unp} : u.val F < 0 ↔ u.neg = true := by
  rw [val_eq]
  have := mag_pos F u.exp u.frac
  cases u.neg <;> simp [sq, this, this.le]

theorem enum_unpack (h : c.WF) {v : ℤ} (hv : c.fmt.IsCanonical v) :
    ∃ u, Posit.unpack c v = .ok u ∧ ENum c.F ((c.ext v).cut (c.F + 1)) u ∧ |u.exp| ≤ c.maxScale := by
  by_cases hr : c.fmt.IsReal v
  · obtain ⟨u, h1, h2, h3, -⟩ := isNum_unpack h hr
    exact ⟨u, h1, by rw [ext_real hr]; exact .num h2, h3⟩
  · obtain ⟨u, h1, h2, h3⟩ := ext_unpack h hv
    refine ⟨u, h1, ?_, h3⟩
    generalize hX : c.ext v = X at h2
    cases h2 with
    | num _ => exact absurd (ext_num_iff hX).1 hr
    | inf s => exact .inf s
    | nan => exact .nan

/-- a product in which one factor is not a number -/
theorem enum_mul_special {A B : EV} {ua ub : Unp} (hA : ENum F (A.cut (F + 1)) ua) (hB : ENum F (B.cut (F + 1)) ub)
    (hA0 : ∀ x, A = .num x → (cutSig (F + 1) x = 0 ↔ x = 0) ∧ (cutSig (F + 1) x < 0 ↔ x < 0))
    (hB0 : ∀ x, B = .num x → (cutSig (F + 1) x = 0 ↔ x = 0) ∧ (cutSig (F + 1) x < 0 ↔ x < 0))
    (h : ∀ x y, ¬ (A = .num x ∧ B = .num y)) :
    ∃ u, Unp.mul F E ua ub = .ok u ∧ ENum F (EV.narrowMul F A B) u ∧ (u = ua ∨ u.exp = 0) := by
  cases A with
  | nan =>
    simp only [EV.cut] at hA
    cases hA
    refine ⟨Unp.ofTy .nan, by simp [Unp.mul, Unp.ofTy], ?_, Or.inl rfl⟩
    cases B <;> exact .nan
  | inf s =>
    simp only [EV.cut] at hA
    cases hA
    cases B with
    | nan =>
      simp only [EV.cut] at hB
      cases hB
      exact ⟨Unp.ofTy .infinity s, by simp [Unp.mul, Unp.ofTy], .inf s, Or.inl rfl⟩
    | inf t =>
      simp only [EV.cut] at hB
      cases hB
      exact ⟨_, rfl, .inf _, Or.inr rfl⟩
    | num y =>
      obtain ⟨z1, z2⟩ := hB0 y rfl
      simp only [EV.cut] at hB
      generalize cutSig (F + 1) y = y' at hB z1 z2
      have : EV.narrowMul F (.inf s) (.num y) = if y' = 0 then .nan else .inf (xor s (y' < 0)) := by
        simp only [EV.narrowMul, EV.mul, z1, z2]
      rw [this]
      cases hB with
      | num hb =>
        cases hb with
        | zero => exact ⟨_, rfl, by rw [if_pos rfl]; exact .nan, Or.inr rfl⟩
        | reg hr =>
          rw [if_neg val_ne_zero, reg_eq hr]
          refine ⟨_, rfl, ?_, Or.inr rfl⟩
          rw [decide_eq_of_iff (val_neg_iff' (F := F))]; exact .inf _
  | num x =>
    obtain ⟨z1, z2⟩ := hA0 x rfl
    cases B with
    | num y => exact absurd ⟨rfl, rfl⟩ (h _ _)
    | nan =>
      simp only [EV.cut] at hB
      cases hB
      refine ⟨ua, ?_, hA, Or.inl rfl⟩
      simp only [EV.cut] at hA
      generalize cutSig (F + 1) x = x' at hA
      cases hA with
      | num ha =>
        cases ha with
        | zero => rfl
        | reg hr => rw [reg_eq hr]; simp [Unp.mul, Unp.ofTy]
    | inf t =>
      simp only [EV.cut] at hA hB
      cases hB
      generalize cutSig (F + 1) x = x' at hA z1 z2
      have : EV.narrowMul F (.num x) (.inf t) = if x' = 0 then .nan else .inf (xor (x' < 0) t) := by
        simp only [EV.narrowMul, EV.mul, z1, z2]
      rw [this]
      cases hA with
      | num ha =>
        cases ha with
        | zero => exact ⟨_, rfl, by rw [if_pos rfl]; exact .nan, Or.inr rfl⟩
        | reg hr =>
          rw [if_neg val_ne_zero, reg_eq hr]
          refine ⟨_, rfl, ?_, Or.inr rfl⟩
          rw [decide_eq_of_iff (val_neg_iff' (F := F))]; exact .inf _

/-- cutting a number of the format keeps its sign -/
theorem cut_sign (h : c.WF) {v : ℤ} {x : ℚ} (hx : c.ext v = .num x) :
    (cutSig (c.F + 1) x = 0 ↔ x = 0) ∧ (cutSig (c.F + 1) x < 0 ↔ x < 0) := by
  obtain ⟨hr, rfl⟩ := ext_num_iff hx
  by_cases h0 : v = 0
  · rw [h0, Format.val_zero, cutSig_zero]; simp
  · obtain ⟨e, f, hu⟩ := unpack_real h hr h0
    have hn := Format.val_neg_iff hr.inRange
    have hv0 : c.fmt.val v ≠ 0 := fun hh => h0 ((Format.val_eq_zero_iff hr.inRange).mp hh)
    have hreg : (⟨.regular, v < 0, e, f⟩ : Unp).IsReg c.F := ⟨rfl, hu.f_lt⟩
    obtain ⟨u, k1, k2, -⟩ := isNum_unpack h hr
    rw [hu.eq] at k1
    have := Except.ok.inj k1
    subst this
    rw [← k2.val hreg]
    refine ⟨iff_of_false val_ne_zero hv0, ?_⟩
    rw [val_neg_iff', hn]; simp

/-- the unpacked product of two patterns -/
theorem enum_mul (h : c.WF) {a b : ℤ} (ha : c.fmt.IsCanonical a) (hb : c.fmt.IsCanonical b) :
    ∃ ua ub u, Posit.unpack c a = .ok ua ∧ Posit.unpack c b = .ok ub ∧ Unp.mul c.F c.E ua ub = .ok u ∧
      ENum c.F (EV.narrowMul c.F (c.ext a) (c.ext b)) u ∧ |u.exp| ≤ 2 * c.maxScale + 1 := by
  by_cases hn : ∃ x y, c.ext a = .num x ∧ c.ext b = .num y
  · obtain ⟨x, y, hx, hy⟩ := hn
    obtain ⟨hra, rfl⟩ := ext_num_iff hx
    obtain ⟨hrb, rfl⟩ := ext_num_iff hy
    obtain ⟨ua, ub, u, h1, h2, h3, h4, h5, -⟩ := isNum_mul h hra hrb
    refine ⟨ua, ub, u, h1, h2, h3, ?_, h5⟩
    rw [hx, hy]; exact .num h4
  · obtain ⟨ua, h1, h2, h3⟩ := enum_unpack h ha
    obtain ⟨ub, h4, h5, -⟩ := enum_unpack h hb
    obtain ⟨u, h7, h8, h9⟩ := enum_mul_special (E := c.E) h2 h5 (fun x hx => cut_sign h hx) (fun x hx => cut_sign h hx)
      fun x y hxy => hn ⟨x, y, hxy⟩
    refine ⟨ua, ub, u, h1, h4, h7, h8, ?_⟩
    rcases h9 with rfl | h9
    · rw [abs_le] at *; omega
    · rw [h9, abs_zero]; omega

/-- the sum of two unpacked numbers -/
theorem enum_add (hF : F = 8 ∨ F = 16 ∨ F = 32 ∨ F = 64) (hE : 1 ≤ E) {A B : EV} {ua ub : Unp} (hA : ENum F A ua)
    (hB : ENum F B ub) (hr : AddRange E F ua.exp ub.exp) :
    (EV.AddOK F A B → ∃ r, Unp.add F E ua ub = .ok r ∧ ENum F (EV.orFirst (EV.add F) A B) r ∧
      (r = ua ∨ r = ub ∨ r.exp = 0 ∨ max ua.exp ub.exp + 1 - F < r.exp)) ∧
    (¬ EV.AddOK F A B → Unp.add F E ua ub = .error .shiftAmount) := by
  unfold EV.orFirst
  cases hA with
  | nan =>
    refine ⟨fun _ => ⟨Unp.ofTy .nan, by simp [Unp.add, Unp.ofTy], by simp; exact .nan, Or.inl rfl⟩, fun hn => absurd ?_ hn⟩
    cases B <;> trivial
  | inf s =>
    refine ⟨fun _ => ?_, fun hn => absurd (by cases B <;> trivial) hn⟩
    cases hB with
    | nan => exact ⟨Unp.ofTy .infinity s, by simp [Unp.add, Unp.ofTy], by simp; exact .inf s, Or.inl rfl⟩
    | inf t =>
      refine ⟨if s = t then Unp.ofTy .infinity s else Unp.ofTy .nan, rfl, ?_, ?_⟩
      · by_cases hst : s = t
        · simp [EV.add, hst]; exact .inf _
        · simp [EV.add, hst]; exact .nan
      · by_cases hst : s = t
        · left; simp [hst]
        · right; right; left; simp [hst, Unp.ofTy]
    | num hb =>
      refine ⟨Unp.ofTy .infinity s, ?_, by simp [EV.add]; exact .inf _, Or.inl rfl⟩
      cases hb with
      | zero => rfl
      | reg h => rw [reg_eq h]; rfl
  | @num _ x ha =>
    cases hB with
    | nan =>
      refine ⟨fun _ => ⟨ua, ?_, by simp; exact .num ha, Or.inl rfl⟩, fun hn => absurd trivial hn⟩
      cases ha with
      | zero => rfl
      | reg h => rw [reg_eq h]; simp [Unp.add, Unp.ofTy]
    | inf t =>
      refine ⟨fun _ => ⟨Unp.ofTy .infinity t, ?_, by simp [EV.add]; exact .inf _, Or.inr (Or.inl rfl)⟩, fun hn => absurd trivial hn⟩
      cases ha with
      | zero => rfl
      | reg h => rw [reg_eq h]; rfl
    | num hb =>
      obtain ⟨h1, h2⟩ := isNum_add hF hE ha hb hr
      refine ⟨fun ho => ?_, h2⟩
      obtain ⟨r, hr, hd, he⟩ := h1 ho
      exact ⟨r, hr, by simp [EV.add]; exact .num hd, he⟩

theorem enum_pack (h : c.WF) {X : EV} {u : Unp} (hu : ENum c.F X u) : EV.Outcome c X (Posit.pack c u) := by
  cases hu with
  | num ha => exact isNum_pack h ha
  | inf s => exact pack_inf h s
  | nan => exact (C03_pack_special h false 0 0).2.1

theorem enum_add_pack (h : c.WF) {A B : EV} {ua ub : Unp} (hA : ENum c.F A ua) (hB : ENum c.F B ub)
    (hr : AddRange c.E c.F ua.exp ub.exp) :
    (EV.AddOK c.F A B → EV.Outcome c (EV.orFirst (EV.add c.F) A B) (do let r ← Unp.add c.F c.E ua ub; Posit.pack c r)) ∧
    (¬ EV.AddOK c.F A B → (do let r ← Unp.add c.F c.E ua ub; Posit.pack c r) = .error .shiftAmount) := by
  have hE := E_ge h
  obtain ⟨h1, h2⟩ := enum_add h.hF (by omega : 1 ≤ c.E) hA hB hr
  refine ⟨fun ho => ?_, fun hn => by rw [h2 hn]; rfl⟩
  obtain ⟨r, hr, hd, -⟩ := h1 ho
  rw [hr]
  exact enum_pack h hd

/-- the size of a product -/
theorem nprod_le (h : c.WF) {a b : ℤ} {p : ℚ} (hp : EV.narrowMul c.F (c.ext a) (c.ext b) = .num p) :
    |p| ≤ 2 ^ (2 * (c.maxScale : ℤ) + 2) := by
  have key : ∀ {v : ℤ} {x : ℚ}, c.ext v = .num x → |x| ≤ 2 ^ ((c.maxScale : ℤ) + 1) := by
    intro v x hx
    obtain ⟨hv, rfl⟩ := ext_num_iff hx
    by_cases h0 : v = 0
    · subst h0; rw [Format.val_zero, abs_zero]; positivity
    · obtain ⟨e, f, hu⟩ := unpack_real h hv h0
      have := hu.e_abs h
      rw [abs_le] at this
      exact hu.upper.le.trans (zpow_le_zpow_right₀ (by norm_num) (by omega))
  cases hA : c.ext a with
  | nan => cases hB : c.ext b <;> rw [hA, hB] at hp <;> cases hp
  | inf s =>
    cases hB : c.ext b with
    | num y => rw [hA, hB] at hp; simp only [EV.narrowMul, EV.mul] at hp; split at hp <;> cases hp
    | _ => rw [hA, hB] at hp; cases hp
  | num x =>
    cases hB : c.ext b with
    | nan =>
      rw [hA, hB] at hp
      injection hp with hp
      rw [← hp]
      exact (abs_cutSig_le _ _).trans ((key hA).trans (zpow_le_zpow_right₀ (by norm_num) (by omega)))
    | inf s => rw [hA, hB] at hp; simp only [EV.narrowMul, EV.mul] at hp; split at hp <;> cases hp
    | num y =>
      obtain ⟨hra, rfl⟩ := ext_num_iff hA
      obtain ⟨hrb, rfl⟩ := ext_num_iff hB
      rw [hA, hB] at hp
      injection hp with hp
      rw [← hp]
      exact (abs_narrowProd_le _ _ _).trans (abs_product_le h hra hrb)

/-- the accumulator of `dot` -/
theorem enum_dotLoop (h : c.WF) : ∀ (l : List (ℤ × ℤ)) (acc : Unp) (S : EV) (n : ℕ),
    (∀ p ∈ l, c.fmt.IsCanonical p.1 ∧ c.fmt.IsCanonical p.2) → ENum c.F S acc → -(2 * c.maxScale + c.F : ℤ) < acc.exp →
    (∀ s, S = .num s → |s| ≤ n * 2 ^ (2 * (c.maxScale : ℤ) + 2)) → n + l.length < 2 ^ 60 →
    (EV.FoldOK c.F S (l.map fun p => EV.narrowMul c.F (c.ext p.1) (c.ext p.2)) →
      ∃ r, Posit.dotLoop c acc l = .ok r ∧
        ENum c.F ((l.map fun p => EV.narrowMul c.F (c.ext p.1) (c.ext p.2)).foldl (EV.orFirst (EV.add c.F)) S) r) ∧
    (¬ EV.FoldOK c.F S (l.map fun p => EV.narrowMul c.F (c.ext p.1) (c.ext p.2)) →
      Posit.dotLoop c acc l = .error .shiftAmount)
  | [], acc, s, n, _, hd, _, _, _ => ⟨fun _ => ⟨acc, rfl, hd⟩, fun hn => absurd trivial hn⟩
  | (a, b) :: l, acc, S, n, hcan, hd, he, hs, hn => by
    obtain ⟨ha, hb⟩ := hcan (a, b) (by simp)
    obtain ⟨ua, ub, m, h1, h2, h3, h4, h5⟩ := enum_mul h ha hb
    have hF64 := F_le h
    have hF8 := h.F_pos
    have hM := maxScale_bound h
    have hE := E_ge h
    have hE1 : (128 : ℤ) ≤ 2 ^ (c.E - 1) := by
      calc (128 : ℤ) = 2 ^ 7 := by norm_num
        _ ≤ 2 ^ (c.E - 1) := pow_le_pow_right₀ (by norm_num) (by omega)
    rw [List.length_cons] at hn
    have hhi : acc.exp ≤ 2 * c.maxScale + 62 := by
      cases hd with
      | nan => simp only [Unp.ofTy]; omega
      | inf s => simp only [Unp.ofTy]; omega
      | num hd =>
        cases hd.app (by omega) with
        | zero => simp only []; omega
        | @reg s' e f _ hX _ =>
          have e1 : (2 : ℚ) ^ e < 2 ^ (2 * (c.maxScale : ℤ) + 62) := by
            have e2 : (n : ℚ) < 2 ^ 60 := by exact_mod_cast (by omega : n < 2 ^ 60)
            have e3 : (0 : ℚ) < 2 ^ (2 * (c.maxScale : ℤ) + 2) := by positivity
            refine lt_of_le_of_lt (hX.lo.trans (hs _ rfl)) ?_
            rw [show 2 * (c.maxScale : ℤ) + 62 = (60 : ℕ) + (2 * c.maxScale + 2) by push_cast; ring, zpow_add₀ (a := (2 : ℚ)) (by norm_num) ((60 : ℕ) : ℤ), zpow_natCast]
            exact mul_lt_mul_of_pos_right e2 e3
          have := (zpow_lt_zpow_iff_right₀ (by norm_num : (1 : ℚ) < 2)).mp e1
          simp only []; omega
    have h5' := abs_le.mp h5
    have hr : AddRange c.E c.F acc.exp m.exp := by
      refine ⟨?_, fun x k1 k2 => ?_⟩ <;> unfold InS <;> omega
    obtain ⟨g1, g2⟩ := enum_add h.hF (by omega : 1 ≤ c.E) hd h4 hr
    have hstep : ∀ r, Unp.add c.F c.E acc m = r → Posit.dotLoop c acc ((a, b) :: l) = r.bind fun t => Posit.dotLoop c t l := by
      intro r hr
      rw [Posit.dotLoop, h1, h2]
      simp only [bind, Except.bind]
      rw [h3]
      simp only []
      rw [hr]
    by_cases ho : EV.AddOK c.F S (EV.narrowMul c.F (c.ext a) (c.ext b))
    · obtain ⟨r, hr, hdr, her⟩ := g1 ho
      rw [hstep _ hr]
      have her' : -(2 * c.maxScale + c.F : ℤ) < r.exp := by
        rcases her with rfl | rfl | her | her
        · exact he
        · omega
        · omega
        · omega
      have hprod : ∀ p, EV.narrowMul c.F (c.ext a) (c.ext b) = .num p → |p| ≤ 2 ^ (2 * (c.maxScale : ℤ) + 2) :=
        fun p hp => nprod_le h hp
      have hs' : ∀ s, EV.orFirst (EV.add c.F) S (EV.narrowMul c.F (c.ext a) (c.ext b)) = .num s →
          |s| ≤ ((n + 1 : ℕ) : ℚ) * 2 ^ (2 * (c.maxScale : ℤ) + 2) := by
        intro s hsum
        generalize EV.narrowMul c.F (c.ext a) (c.ext b) = P at hsum hprod
        have hp0 : (0 : ℚ) < 2 ^ (2 * (c.maxScale : ℤ) + 2) := by positivity
        cases S with
        | nan => simp [EV.orFirst] at hsum
        | inf t =>
          cases P with
          | inf t' => simp [EV.orFirst, EV.add] at hsum; split at hsum <;> cases hsum
          | _ => simp [EV.orFirst, EV.add] at hsum
        | num x =>
          have hx := hs x rfl
          cases P with
          | nan =>
            simp [EV.orFirst] at hsum
            subst hsum
            push_cast; linarith
          | inf t => simp [EV.orFirst, EV.add] at hsum
          | num y =>
            simp [EV.orFirst, EV.add] at hsum
            subst hsum
            have h1 := abs_alignedSum_le c.F x y
            have h2 := hprod y rfl
            push_cast
            linarith
      have := enum_dotLoop h l r _ (n + 1) (fun p hp => hcan p (by simp [hp])) hdr her' hs' (by omega)
      refine ⟨fun hok => this.1 hok.2, fun hno => this.2 (fun hok => hno ⟨ho, hok⟩)⟩
    · rw [hstep _ (g2 ho)]
      exact ⟨fun hok => absurd hok.1 ho, fun _ => rfl⟩

/-- the unary minus of `Unpacked` -/
theorem enum_neg {A : EV} {u : Unp} (hA : ENum F A u) :
    ENum F (EV.negAsRegular A) (Unp.neg' u) ∧ (Unp.neg' u).exp = u.exp := by
  have one : ∀ s : Bool, ENum F (.num (if s then -1 else 1)) ⟨.regular, s, 0, 0⟩ := by
    intro s
    have := IsNum.reg (F := F) (u := ⟨.regular, s, 0, 0⟩) ⟨rfl, by positivity⟩
    rw [show (⟨.regular, s, 0, 0⟩ : Unp).val F = if s then -1 else 1 by rw [val_eq]; cases s <;> simp [sq, mag]] at this
    exact .num this
  refine ⟨?_, rfl⟩
  cases hA with
  | num ha =>
    cases ha with
    | zero => simp only [EV.negAsRegular, if_true]; exact one true
    | reg hr =>
      simp only [EV.negAsRegular, if_neg (val_ne_zero (F := F))]
      have hr' : (Unp.neg' u).IsReg F := ⟨rfl, hr.2⟩
      have hv' : (Unp.neg' u).val F = -u.val F := by
        rw [val_eq, val_eq]
        unfold Unp.neg'
        cases u.neg <;> simp [sq]
      rw [← hv']
      exact .num (.reg hr')
  | nan => exact one true
  | inf s =>
    have := one (!s)
    cases s <;> exact this

/-- a quotient other than of a number by a nonzero number -/
theorem enum_div_special {A B : EV} {ua ub : Unp} (hA : ENum F (A.cut (F + 1)) ua) (hB : ENum F (B.cut (F + 1)) ub)
    (hA0 : ∀ x, A = .num x → (cutSig (F + 1) x = 0 ↔ x = 0) ∧ (cutSig (F + 1) x < 0 ↔ x < 0))
    (hB0 : ∀ x, B = .num x → (cutSig (F + 1) x = 0 ↔ x = 0) ∧ (cutSig (F + 1) x < 0 ↔ x < 0))
    (h : ∀ x y, A = .num x → B = .num y → x = 0 ∨ y = 0) :
    ∃ u, Unp.div F E ua ub = .ok u ∧ ENum F (EV.narrowDiv F A B) u := by
  cases A with
  | nan =>
    simp only [EV.cut] at hA
    cases hA
    refine ⟨Unp.ofTy .nan, by simp [Unp.div, Unp.ofTy], ?_⟩
    cases B <;> exact .nan
  | inf s =>
    simp only [EV.cut] at hA
    cases hA
    cases B with
    | nan =>
      simp only [EV.cut] at hB
      cases hB
      exact ⟨Unp.ofTy .infinity s, by simp [Unp.div, Unp.ofTy], .inf s⟩
    | inf t =>
      simp only [EV.cut] at hB
      cases hB
      exact ⟨_, rfl, .nan⟩
    | num y =>
      obtain ⟨z1, z2⟩ := hB0 y rfl
      simp only [EV.cut] at hB
      generalize cutSig (F + 1) y = y' at hB z1 z2
      have : EV.narrowDiv F (.inf s) (.num y) = .inf (xor s (y' < 0)) := by
        simp only [EV.narrowDiv, EV.divBig, EV.div, z2]
      rw [this]
      cases hB with
      | num hb =>
        cases hb with
        | zero => exact ⟨_, rfl, by simp; exact .inf _⟩
        | reg hr =>
          rw [reg_eq hr]
          refine ⟨_, rfl, ?_⟩
          rw [decide_eq_of_iff (val_neg_iff' (F := F))]; exact .inf _
  | num x =>
    obtain ⟨z1, z2⟩ := hA0 x rfl
    cases B with
    | nan =>
      simp only [EV.cut] at hB
      cases hB
      refine ⟨ua, ?_, hA⟩
      simp only [EV.cut] at hA
      generalize cutSig (F + 1) x = x' at hA
      cases hA with
      | num ha =>
        cases ha with
        | zero => rfl
        | reg hr => rw [reg_eq hr]; simp [Unp.div, Unp.ofTy]
    | inf t =>
      simp only [EV.cut] at hA hB
      cases hB
      generalize cutSig (F + 1) x = x' at hA z1 z2
      have : EV.narrowDiv F (.num x) (.inf t) = if x' = 0 then .num 0 else .inf (xor (x' < 0) t) := by
        simp only [EV.narrowDiv, EV.divBig, z1, z2]
      rw [this]
      cases hA with
      | num ha =>
        cases ha with
        | zero => exact ⟨_, rfl, by rw [if_pos rfl]; exact .num .zero⟩
        | reg hr =>
          rw [if_neg val_ne_zero, reg_eq hr]
          refine ⟨_, rfl, ?_⟩
          rw [decide_eq_of_iff (val_neg_iff' (F := F))]; exact .inf _
    | num y =>
      obtain ⟨w1, w2⟩ := hB0 y rfl
      have hxy := h x y rfl rfl
      have : EV.narrowDiv F (.num x) (.num y) = if cutSig (F + 1) y = 0 then
          (if cutSig (F + 1) x = 0 then .nan else .inf (cutSig (F + 1) x < 0)) else .num 0 := by
        simp only [EV.narrowDiv, if_pos hxy, EV.div, z1, z2, w1]
        by_cases hy : y = 0
        · rw [if_pos hy, if_pos hy]
        · rw [if_neg hy, if_neg hy, hxy.resolve_right hy, zero_div]
      rw [this]
      have hxy' : cutSig (F + 1) x = 0 ∨ cutSig (F + 1) y = 0 := by rwa [z1, w1]
      simp only [EV.cut] at hA hB
      generalize cutSig (F + 1) x = x' at *
      generalize cutSig (F + 1) y = y' at *
      cases hB with
      | num hb =>
        cases hb with
        | zero =>
          rw [if_pos rfl]
          cases hA with
          | num ha =>
            cases ha with
            | zero => exact ⟨_, rfl, by rw [if_pos rfl]; exact .nan⟩
            | reg hr =>
              rw [if_neg val_ne_zero, reg_eq hr]
              refine ⟨_, rfl, ?_⟩
              rw [decide_eq_of_iff (val_neg_iff' (F := F))]; exact .inf _
        | reg hr =>
          rw [if_neg val_ne_zero, reg_eq hr]
          have := hxy'.resolve_right val_ne_zero
          cases hA with
          | num ha =>
            cases ha with
            | zero => exact ⟨_, rfl, .num .zero⟩
            | reg hr' => exact absurd this val_ne_zero

end Verif
