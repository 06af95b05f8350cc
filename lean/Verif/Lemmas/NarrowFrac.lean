import Verif.Lemmas.Low
import Verif.Lemmas.Consts
import Verif.Props.SoftFloat
import Verif.Spec.NarrowFrac

/-! # Decoded posits when the fraction type is narrower than the longest fraction -/

namespace Verif
open Fmt

variable {c : Cfg} {F E : ℕ}

/-- cutting the decoded number is cutting the number -/
theorem Unpacks.cutSig_eq (h : c.WF) {v e : ℤ} {f : ℕ} (hv : c.fmt.IsReal v) (hu : Unpacks c v e f) {j : ℕ} (hj : 1 ≤ j)
    (hj' : j ≤ c.F + 1) : cutSig j ((⟨.regular, v < 0, e, f⟩ : Unp).val c.F) = cutSig j (c.fmt.val v) := by
  have hreg : (⟨.regular, v < 0, e, f⟩ : Unp).IsReg c.F := ⟨rfl, hu.f_lt⟩
  obtain ⟨k, hk⟩ : ∃ k, c.F + 1 - k = j ∧ k ≤ c.F := ⟨c.F + 1 - j, by omega, by omega⟩
  have key := cutSig_val hreg hk.2
  rw [hk.1] at key
  rw [key]
  have hx : c.fmt.val v = sq (decide (v < 0)) * |c.fmt.val v| := by
    by_cases hn : v < 0
    · rw [abs_of_neg ((Format.val_neg_iff hv.inRange).mpr hn)]; simp [sq, hn]
    · have : 0 ≤ c.fmt.val v := not_lt.mp fun hh => hn ((Format.val_neg_iff hv.inRange).mp hh)
      rw [abs_of_nonneg this]; simp [sq, hn]
  have hP : 2 ^ c.F = 2 ^ (c.F - k) * 2 ^ k := by rw [← pow_add]; congr 1; omega
  have hdiv : 2 ^ (c.F - k) + f / 2 ^ k = (2 ^ c.F + f) / 2 ^ k := by
    rw [hP, Nat.mul_comm, Nat.mul_add_div (by positivity)]
  have hflt := hu.f_lt
  set n := 2 ^ (c.F - k) + f / 2 ^ k with hn
  have hlt : f / 2 ^ k < 2 ^ (c.F - k) := by
    rw [Nat.div_lt_iff_lt_mul (by positivity), ← hP]; exact hflt
  have b1 : n * 2 ^ k ≤ 2 ^ c.F + f := by rw [hdiv]; exact Nat.div_mul_le_self _ _
  have b2 : 2 ^ c.F + f + 1 ≤ (n + 1) * 2 ^ k := by
    rw [hdiv, mul_comm]
    exact Nat.lt_mul_div_succ _ (by positivity)
  have hsc : ∀ t : ℚ, 2 ^ e * (1 + t / 2 ^ c.F) = (2 ^ c.F + t) * 2 ^ (e - c.F : ℤ) := by
    intro t
    rw [zpow_sub₀ (by norm_num), zpow_natCast]
    field_simp
  have hz : (2 : ℚ) ^ (e + k - c.F : ℤ) = 2 ^ k * 2 ^ (e - c.F : ℤ) := by
    rw [show e + (k : ℤ) - c.F = (k : ℤ) + (e - c.F) by ring, zpow_add₀ (by norm_num), zpow_natCast]
  have hpos : (0 : ℚ) < 2 ^ (e - c.F : ℤ) := by positivity
  have l : (n : ℚ) * 2 ^ (e + k - c.F : ℤ) ≤ |c.fmt.val v| := by
    refine le_trans ?_ hu.trunc
    rw [hsc, hz, ← mul_assoc]
    exact mul_le_mul_of_nonneg_right (by exact_mod_cast b1) hpos.le
  have r : |c.fmt.val v| < (n + 1 : ℚ) * 2 ^ (e + k - c.F : ℤ) := by
    refine lt_of_lt_of_le hu.close ?_
    rw [hsc, hz, ← mul_assoc]
    exact mul_le_mul_of_nonneg_right (by exact_mod_cast b2) hpos.le
  rw [hx]
  have := cutSig_of_bounds (decide (v < 0)) (m := c.F - k) (n := n) (Nat.le_add_right _ _)
    (by rw [pow_succ, mul_two]; exact Nat.add_lt_add_left hlt _) l r
  rw [show c.F - k + 1 = j by omega] at this
  rw [this]

/-- `u` is the number `x`: zero, or regular with the value `x` -/
inductive IsNum (F : ℕ) : Unp → ℚ → Prop
  | zero : IsNum F ⟨.zero, false, 0, 0⟩ 0
  | reg {u : Unp} (h : u.IsReg F) : IsNum F u (u.val F)

theorem IsNum.app (hF : 2 ≤ F) {u : Unp} {x : ℚ} (hu : IsNum F u x) : App F u x := by
  cases hu with
  | zero => exact .zero
  | reg h => rw [reg_eq h]; exact App.of_eq hF h.2 rfl

theorem IsNum.val {u : Unp} {x : ℚ} (hu : IsNum F u x) (hr : u.IsReg F) : u.val F = x := by
  cases hu with
  | zero => cases hr.1
  | reg _ => rfl

theorem isNum_pack (h : c.WF) {u : Unp} {x : ℚ} (hu : IsNum c.F u x) :
    (x = 0 ∨ c.SafeMag x → ∃ v, Posit.pack c u = .ok v ∧ c.fmt.IsCut0 x v) ∧
    (¬ (x = 0 ∨ c.SafeMag x) → Posit.pack c u = .error .shiftAmount) := by
  cases hu with
  | zero => exact ⟨fun _ => ⟨0, rfl, Or.inl ⟨rfl, rfl⟩⟩, fun hn => absurd (Or.inl rfl) hn⟩
  | reg hr =>
    have h0 : u.val c.F ≠ 0 := by rw [val_eq]; exact mul_ne_zero (sq_ne _) (mag_pos _ _ _).ne'
    obtain ⟨k1, k2⟩ := pack_exact h hr.2 (s := u.neg) (e := u.exp) (y := u.val c.F) rfl
    rw [← reg_eq hr] at k1 k2
    refine ⟨fun hh => ?_, fun hh => k2 fun hs => hh (Or.inr hs)⟩
    obtain ⟨v, p1, p2⟩ := k1 (hh.resolve_left h0)
    exact ⟨v, p1, Or.inr p2⟩

theorem cutSig_zero (m : ℕ) : cutSig m 0 = 0 := by simp [cutSig, cutTo]

theorem isNum_unpack (h : c.WF) {v : ℤ} (hv : c.fmt.IsReal v) :
    ∃ u, Posit.unpack c v = .ok u ∧ IsNum c.F u (cutSig (c.F + 1) (c.fmt.val v)) ∧ |u.exp| ≤ c.maxScale ∧
      (v = 0 → u = ⟨.zero, false, 0, 0⟩) ∧
      (v ≠ 0 → u.IsReg c.F ∧ u.exp = Int.log 2 |c.fmt.val v| ∧
        ∀ j, 1 ≤ j → j ≤ c.F + 1 → cutSig j (u.val c.F) = cutSig j (c.fmt.val v)) := by
  by_cases h0 : v = 0
  · subst h0
    refine ⟨_, unpack_zero h, ?_, by simp, fun _ => rfl, fun hh => absurd rfl hh⟩
    rw [Format.val_zero, cutSig_zero]; exact .zero
  · obtain ⟨e, f, hu⟩ := unpack_real h hv h0
    have hreg : (⟨.regular, v < 0, e, f⟩ : Unp).IsReg c.F := ⟨rfl, hu.f_lt⟩
    refine ⟨_, hu.eq, ?_, hu.e_abs h, fun hh => absurd hh h0, fun _ => ⟨hreg, hu.log.symm, fun j h1 h2 => hu.cutSig_eq h hv h1 h2⟩⟩
    rw [← hu.cutSig_eq h hv (by omega) le_rfl]
    have : cutSig (c.F + 1) ((⟨.regular, v < 0, e, f⟩ : Unp).val c.F) = (⟨.regular, v < 0, e, f⟩ : Unp).val c.F := by
      have := cutSig_val hreg (Nat.zero_le c.F)
      rw [Nat.sub_zero] at this
      rw [this, val_eq]
      congr 1
      have hm := mag_sub (F := c.F) (e := e) (x := 2 ^ c.F + f) (by omega)
      rw [show 2 ^ c.F + f - 2 ^ c.F = f by omega] at hm
      rw [hm]; simp
    rw [this]
    exact .reg hreg

theorem narrowProd_zero_left (F : ℕ) (y : ℚ) : narrowProd F 0 y = 0 := by
  unfold narrowProd; rw [cutSig_zero, zero_mul]; simp [cutTo]

theorem narrowProd_zero_right (F : ℕ) (x : ℚ) : narrowProd F x 0 = 0 := by
  unfold narrowProd; rw [cutSig_zero, mul_zero]; simp [cutTo]

/-- products of decoded posits -/
theorem isNum_mul (h : c.WF) {a b : ℤ} (ha : c.fmt.IsReal a) (hb : c.fmt.IsReal b) :
    ∃ ua ub u, Posit.unpack c a = .ok ua ∧ Posit.unpack c b = .ok ub ∧ Unp.mul c.F c.E ua ub = .ok u ∧
      IsNum c.F u (narrowProd c.F (c.fmt.val a) (c.fmt.val b)) ∧ |u.exp| ≤ 2 * c.maxScale + 1 ∧
      (a ≠ 0 → b ≠ 0 → u.IsReg c.F) := by
  obtain ⟨ua, a1, -, a3, a4, a5⟩ := isNum_unpack h ha
  obtain ⟨ub, b1, -, b3, b4, b5⟩ := isNum_unpack h hb
  by_cases ha0 : a = 0
  · rw [show c.fmt.val a = 0 by rw [ha0, Format.val_zero], narrowProd_zero_left]
    refine ⟨_, _, ⟨.zero, false, 0, 0⟩, a1, b1, ?_, .zero, by simp; omega, fun hh => absurd ha0 hh⟩
    rw [a4 ha0]
    by_cases hb0 : b = 0
    · rw [b4 hb0]; rfl
    · rw [reg_eq (b5 hb0).1]; rfl
  by_cases hb0 : b = 0
  · rw [show c.fmt.val b = 0 by rw [hb0, Format.val_zero], narrowProd_zero_right]
    refine ⟨_, _, ⟨.zero, false, 0, 0⟩, a1, b1, ?_, .zero, by simp; omega, fun _ hh => absurd hb0 hh⟩
    rw [b4 hb0, reg_eq (a5 ha0).1]; rfl
  obtain ⟨ra, ea, ca⟩ := a5 ha0
  obtain ⟨rb, eb, cb⟩ := b5 hb0
  have hE := E_ge h
  have hF8 := h.F_pos
  rw [abs_le] at a3 b3
  have i1 : InS c.E (ua.exp + ub.exp) := inS_wide h (by rw [abs_le]; omega)
  have i2 : InS c.E (ua.exp + ub.exp + 1) := inS_wide h (by rw [abs_le]; omega)
  obtain ⟨r, hr, hreg, hval⟩ := C68_mul (by omega) (by omega) ra rb i1 i2
  rw [ca _ (by omega) (by omega), cb _ (by omega) (by omega), ea, eb] at hval
  refine ⟨_, _, r, a1, b1, hr, ?_, ?_, fun _ _ => hreg⟩
  · have := IsNum.reg hreg
    rwa [hval] at this
  · obtain ⟨e, f, heq, -, -, -, he⟩ := mulRegular_eq (na := ua.neg) (nb := ub.neg) (by omega) (by omega) ra.2 rb.2 i1 i2 rfl
    rw [← reg_eq ra, ← reg_eq rb, ← mul_reg ra rb, hr] at heq
    rw [Except.ok.inj heq, abs_le]
    simp only
    omega

/-- quotients of decoded posits -/
theorem isNum_div (h : c.WF) {ua ub : Unp} {x y : ℚ} (ra : ua.IsReg c.F) (rb : ub.IsReg c.F)
    (ha : |ua.exp| ≤ c.maxScale) (hb : |ub.exp| ≤ c.maxScale)
    (ca : cutSig c.F (ua.val c.F) = cutSig c.F x)
    (cb : ∀ j, 1 ≤ j → j ≤ c.F + 1 → cutSig j (ub.val c.F) = cutSig j y) :
    ∃ r, Unp.div c.F c.E ua ub = .ok r ∧ r.IsReg c.F ∧ r.val c.F = narrowQuot c.F x y := by
  have hE := E_ge h
  have hF8 := h.F_pos
  rw [abs_le] at ha hb
  obtain ⟨r, hr, hreg, k1, k2, k3⟩ := C68_div (by omega) (by omega) ra rb
    (inS_wide h (x := ua.exp - ub.exp) (by rw [abs_le]; omega)) (inS_wide h (x := ua.exp - ub.exp - 1) (by rw [abs_le]; omega))
  rw [ca, cb _ (by omega) (by omega), cb _ (by omega) (by omega)] at *
  refine ⟨r, hr, hreg, ?_⟩
  unfold narrowQuot
  split_ifs with h1 h2
  · exact k1 h1
  · exact k2 h2
  · exact k3 (not_lt.mp h2) (not_le.mp h1)

/-- sums of decoded numbers -/
theorem isNum_add (hF : F = 8 ∨ F = 16 ∨ F = 32 ∨ F = 64) (hE : 1 ≤ E) {u w : Unp} {x y : ℚ} (hu : IsNum F u x) (hw : IsNum F w y)
    (hr : AddRange E F u.exp w.exp) :
    (SumOK F x y → ∃ r, Unp.add F E u w = .ok r ∧ IsNum F r (alignedSum F x y) ∧
      (r = u ∨ r = w ∨ r.exp = 0 ∨ max u.exp w.exp + 1 - F < r.exp)) ∧
    (¬ SumOK F x y → Unp.add F E u w = .error .shiftAmount) := by
  obtain ⟨k1, k2⟩ := app_add hF hE (hu.app (by omega)) (hw.app (by omega)) hr
  refine ⟨fun ho => ?_, k2⟩
  obtain ⟨r, hr1, -, hr3⟩ := k1 ho
  refine ⟨r, hr1, ?_, hr3⟩
  have vne : ∀ {u : Unp}, u.val F ≠ 0 := by
    intro u; rw [val_eq]; exact mul_ne_zero (sq_ne _) (mag_pos _ _ _).ne'
  cases hu with
  | zero =>
    have : r = w := by
      have : Unp.add F E ⟨.zero, false, 0, 0⟩ w = .ok w := by
        cases hw with
        | zero => rfl
        | reg h => rw [reg_eq h]; rfl
      rw [this] at hr1
      exact (Except.ok.inj hr1).symm
    unfold alignedSum
    rw [if_pos rfl, this]; exact hw
  | reg hx =>
    cases hw with
    | zero =>
      have : r = u := by
        have : Unp.add F E u ⟨.zero, false, 0, 0⟩ = .ok u := by rw [reg_eq hx]; rfl
        rw [this] at hr1
        exact (Except.ok.inj hr1).symm
      unfold alignedSum
      rw [if_neg vne, if_pos rfl, this]; exact .reg hx
    | reg hy =>
      obtain ⟨r', e1, e2⟩ := (C68_add hF hE hx hy hr.1 hr.2).1 ho
      rw [hr1] at e1
      have := Except.ok.inj e1
      subst this
      have hal : alignedSum F (u.val F) (w.val F) = cutSum F (u.val F) (w.val F) := by
        unfold alignedSum; rw [if_neg vne, if_neg vne]
      rw [hal]
      rcases e2 with ⟨e3, e4⟩ | ⟨e3, e4⟩
      · rw [e3, e4]; exact .zero
      · rw [← e4]; exact .reg e3

theorem isNum_add_pack (h : c.WF) {u w : Unp} {x y : ℚ} (hu : IsNum c.F u x) (hw : IsNum c.F w y)
    (hr : AddRange c.E c.F u.exp w.exp) :
    (SumOK c.F x y ∧ (alignedSum c.F x y = 0 ∨ c.SafeMag (alignedSum c.F x y)) →
      ∃ v, (do let r ← Unp.add c.F c.E u w; Posit.pack c r) = .ok v ∧ c.fmt.IsCut0 (alignedSum c.F x y) v) ∧
    (¬ (SumOK c.F x y ∧ (alignedSum c.F x y = 0 ∨ c.SafeMag (alignedSum c.F x y))) →
      (do let r ← Unp.add c.F c.E u w; Posit.pack c r) = .error .shiftAmount) := by
  have hE := E_ge h
  obtain ⟨h1, h2⟩ := isNum_add h.hF (by omega : 1 ≤ c.E) hu hw hr
  constructor
  · rintro ⟨ho, hs⟩
    obtain ⟨r, hr, hd, -⟩ := h1 ho
    rw [hr]
    exact (isNum_pack h hd).1 hs
  · intro hn
    by_cases ho : SumOK c.F x y
    · obtain ⟨r, hr, hd, -⟩ := h1 ho
      rw [hr]
      exact (isNum_pack h hd).2 fun hs => hn ⟨ho, hs⟩
    · rw [h2 ho]; rfl

theorem abs_cutSig_le (m : ℕ) (x : ℚ) : |cutSig m x| ≤ |x| := by unfold cutSig; exact abs_cutTo_le (by positivity)

theorem abs_narrowProd_le (F : ℕ) (x y : ℚ) : |narrowProd F x y| ≤ |x * y| := by
  unfold narrowProd
  refine (abs_cutTo_le (by positivity)).trans ?_
  rw [abs_mul, abs_mul]
  exact mul_le_mul (abs_cutSig_le _ _) (abs_cutSig_le _ _) (abs_nonneg _) (abs_nonneg _)

/-- the accumulator of `dot` after some terms -/
theorem isNum_dotLoop (h : c.WF) : ∀ (l : List (ℤ × ℤ)) (acc : Unp) (s : ℚ) (n : ℕ),
    (∀ p ∈ l, c.fmt.IsReal p.1 ∧ c.fmt.IsReal p.2) → IsNum c.F acc s → -(2 * c.maxScale + c.F : ℤ) < acc.exp →
    |s| ≤ n * 2 ^ (2 * (c.maxScale : ℤ) + 2) → n + l.length < 2 ^ 60 →
    (FoldOK c.F s (l.map fun p => narrowProd c.F (c.fmt.val p.1) (c.fmt.val p.2)) →
      ∃ r, Posit.dotLoop c acc l = .ok r ∧
        IsNum c.F r ((l.map fun p => narrowProd c.F (c.fmt.val p.1) (c.fmt.val p.2)).foldl (alignedSum c.F) s)) ∧
    (¬ FoldOK c.F s (l.map fun p => narrowProd c.F (c.fmt.val p.1) (c.fmt.val p.2)) → Posit.dotLoop c acc l = .error .shiftAmount)
  | [], acc, s, n, _, hd, _, _, _ => ⟨fun _ => ⟨acc, rfl, hd⟩, fun hn => absurd trivial hn⟩
  | (a, b) :: l, acc, s, n, hreal, hd, he, hs, hn => by
    obtain ⟨ha, hb⟩ := hreal (a, b) (by simp)
    obtain ⟨ua, ub, m, h1, h2, h3, h4, h5, -⟩ := isNum_mul h ha hb
    have hF64 := F_le h
    have hF8 := h.F_pos
    have hM := maxScale_bound h
    have hE := E_ge h
    have hE1 : (128 : ℤ) ≤ 2 ^ (c.E - 1) := by
      calc (128 : ℤ) = 2 ^ 7 := by norm_num
        _ ≤ 2 ^ (c.E - 1) := pow_le_pow_right₀ (by norm_num) (by omega)
    rw [List.length_cons] at hn
    have hhi : acc.exp ≤ 2 * c.maxScale + 62 := by
      cases hd.app (by omega) with
      | zero => simp only []; omega
      | @reg s' e f _ hX _ =>
        have e1 : (2 : ℚ) ^ e < 2 ^ (2 * (c.maxScale : ℤ) + 62) := by
          have e2 : (n : ℚ) < 2 ^ 60 := by exact_mod_cast (by omega : n < 2 ^ 60)
          have e3 : (0 : ℚ) < 2 ^ (2 * (c.maxScale : ℤ) + 2) := by positivity
          refine lt_of_le_of_lt (hX.lo.trans hs) ?_
          rw [show 2 * (c.maxScale : ℤ) + 62 = (60 : ℕ) + (2 * c.maxScale + 2) by push_cast; ring, zpow_add₀ (a := (2 : ℚ)) (by norm_num) ((60 : ℕ) : ℤ), zpow_natCast]
          exact mul_lt_mul_of_pos_right e2 e3
        have := (zpow_lt_zpow_iff_right₀ (by norm_num : (1 : ℚ) < 2)).mp e1
        simp only []; omega
    have h5' := abs_le.mp h5
    have hr : AddRange c.E c.F acc.exp m.exp := by
      refine ⟨?_, fun x k1 k2 => ?_⟩ <;> unfold InS <;> omega
    obtain ⟨g1, g2⟩ := isNum_add h.hF (by omega : 1 ≤ c.E) hd h4 hr
    have hstep : ∀ r, Unp.add c.F c.E acc m = r → Posit.dotLoop c acc ((a, b) :: l) = r.bind fun t => Posit.dotLoop c t l := by
      intro r hr
      rw [Posit.dotLoop, h1, h2]
      simp only [bind, Except.bind]
      rw [h3]
      simp only []
      rw [hr]
    by_cases ho : SumOK c.F s (narrowProd c.F (c.fmt.val a) (c.fmt.val b))
    · obtain ⟨r, hr, hdr, her⟩ := g1 ho
      rw [hstep _ hr]
      have her' : -(2 * c.maxScale + c.F : ℤ) < r.exp := by
        rcases her with rfl | rfl | her | her
        · exact he
        · omega
        · omega
        · omega
      have hs' : |alignedSum c.F s (narrowProd c.F (c.fmt.val a) (c.fmt.val b))| ≤ ((n + 1 : ℕ) : ℚ) * 2 ^ (2 * (c.maxScale : ℤ) + 2) := by
        have := abs_alignedSum_le c.F s (narrowProd c.F (c.fmt.val a) (c.fmt.val b))
        have := abs_narrowProd_le c.F (c.fmt.val a) (c.fmt.val b)
        have := abs_product_le h ha hb
        push_cast
        linarith
      have := isNum_dotLoop h l r _ (n + 1) (fun p hp => hreal p (by simp [hp])) hdr her' hs' (by omega)
      refine ⟨fun hok => this.1 hok.2, fun hno => this.2 (fun hok => hno ⟨ho, hok⟩)⟩
    · rw [hstep _ (g2 ho)]
      exact ⟨fun hok => absurd hok.1 ho, fun _ => rfl⟩

theorem le_abs_cutTo {u x : ℚ} (hu : 0 < u) : |x| - u ≤ |cutTo u x| := by
  unfold cutTo
  have h1 := Nat.lt_floor_add_one (|x| / u)
  rw [div_lt_iff₀ hu] at h1
  have h2 : (0 : ℚ) ≤ ⌊|x| / u⌋₊ * u := by positivity
  rw [abs_mul, abs_of_nonneg h2]
  have : |if x < 0 then (-1 : ℚ) else 1| = 1 := by split_ifs <;> simp
  rw [this, one_mul]
  linarith

theorem le_abs_cutSig {m : ℕ} {x : ℚ} (hx : x ≠ 0) : |x| * (1 - 2 ^ (1 - m : ℤ)) ≤ |cutSig m x| := by
  have h1 : |x| - 2 ^ (Int.log 2 |x| + 1 - m : ℤ) ≤ |cutSig m x| := le_abs_cutTo (by positivity)
  have h2 : (2 : ℚ) ^ (Int.log 2 |x|) ≤ |x| := by
    have := Int.zpow_log_le_self (b := 2) (by norm_num) (abs_pos.mpr hx)
    exact_mod_cast this
  rw [show Int.log 2 |x| + 1 - (m : ℤ) = Int.log 2 |x| + (1 - m) by ring, zpow_add₀ (by norm_num)] at h1
  have h3 : (0 : ℚ) < 2 ^ (1 - m : ℤ) := by positivity
  nlinarith

theorem cutTo_of_bounds {n : ℕ} {Y : ℤ} {x : ℚ} (hx : 0 < x) (l : (n : ℚ) * 2 ^ Y ≤ x) (r : x < (n + 1 : ℚ) * 2 ^ Y) :
    cutTo (2 ^ Y) x = n * 2 ^ Y := by
  have hY : (0 : ℚ) < 2 ^ Y := by positivity
  have := sign_of_cut false hx (2 ^ Y)
  simp only [sq, Bool.false_eq_true, if_false, one_mul] at this
  have hf : ⌊x / 2 ^ Y⌋₊ = n := by
    rw [Nat.floor_eq_iff (by positivity), le_div_iff₀ hY, div_lt_iff₀ hY]
    exact ⟨l, r⟩
  rw [this, hf]

/-! ## powers of two -/

theorem cutSig_pow {m : ℕ} (hm : 1 ≤ m) (s : Bool) (e : ℤ) : cutSig m (sq s * 2 ^ e) = sq s * 2 ^ e := by
  have hx : ((2 ^ (m - 1) : ℕ) : ℚ) * 2 ^ (e - (m - 1 : ℕ) : ℤ) = 2 ^ e := by
    push_cast
    rw [← zpow_natCast, ← zpow_add₀ (by norm_num)]; congr 1; ring
  have := cutSig_of_bounds (m := m - 1) (n := 2 ^ (m - 1)) (Y := e - (m - 1 : ℕ)) (x := 2 ^ e) s le_rfl
    (Nat.pow_lt_pow_right (by norm_num) (by omega)) hx.le (by rw [add_mul, hx]; linarith [show (0 : ℚ) < 1 * 2 ^ (e - (m - 1 : ℕ) : ℤ) by positivity])
  rw [hx, show m - 1 + 1 = m by omega] at this
  exact this

theorem signif_pow (s : Bool) (e : ℤ) : signif (sq s * 2 ^ e) = 1 := by
  have := signif_of_mul (n := 1) (m := 0) (Y := e) s (by norm_num) (by norm_num)
  simpa using this

theorem cutSig_one' {m : ℕ} (hm : 1 ≤ m) : cutSig m 1 = 1 := by
  have := cutSig_pow hm false 0
  simpa [sq] using this

theorem narrowQuot_pow {F : ℕ} (hF : 2 ≤ F) (s : Bool) (e : ℤ) : narrowQuot F 1 (sq s * 2 ^ e) = 1 / (sq s * 2 ^ e) := by
  unfold narrowQuot
  rw [cutSig_pow (by omega), signif_pow, cutSig_one' (by omega), signif_of_one, if_pos le_rfl]
  have : 1 / (sq s * (2 : ℚ) ^ e) = sq s * 2 ^ (-e) := by
    rw [zpow_neg]; cases s <;> simp [sq]
  rw [this]
  exact cutSig_pow (by omega) _ _

/-- the posits from one to two -/
theorem posVal_one_add (h : c.WF) {k : ℕ} (hk : k < 2 ^ c.fb) : posVal c.N c.es (2 ^ (c.N - 2) + k) = 1 + k * 2 ^ (-(c.fb : ℤ)) := by
  have hN3 := h.N_ge
  have hes := h.hes
  obtain ⟨e1, e2, -⟩ := pow_split h
  have h1 := Nat.one_le_two_pow (n := c.N - 3)
  have hle : 2 ^ c.fb ≤ 2 ^ (c.N - 3) := Nat.pow_le_pow_right (by norm_num) (by unfold Cfg.fb; omega)
  rw [posVal_mid hN3 (by omega) (by omega)]
  have e3 : (2 : ℚ) ^ (c.N - 2) = 2 * 2 ^ (c.N - 3) := by exact_mod_cast e2
  have e5 : (2 : ℚ) ^ (c.N - 3) = 2 ^ c.es * 2 ^ c.fb := by rw [← pow_add]; congr 1; unfold Cfg.fb; omega
  have key : ∀ t : ℚ, t = k * 2 ^ (-(c.fb : ℤ)) → L t = 1 + k * 2 ^ (-(c.fb : ℤ)) := by
    rintro t rfl
    have hlt : (k : ℚ) * 2 ^ (-(c.fb : ℤ)) < 1 := by
      rw [zpow_neg, zpow_natCast, ← div_eq_mul_inv, div_lt_one (by positivity)]
      exact_mod_cast hk
    have := L_int_add 0 (x := (k : ℚ) * 2 ^ (-(c.fb : ℤ))) (by positivity) hlt
    simpa using this
  apply key
  rw [zpow_neg, zpow_natCast]
  push_cast
  simp only [e3, e5]
  field_simp
  ring

theorem val_one_add (h : c.WF) {k : ℕ} (hk : k < 2 ^ c.fb) (h1 : 1 ≤ c.fb) :
    c.fmt.IsReal (c.one + k) ∧ c.one + (k : ℤ) ≠ 0 ∧ c.fmt.val (c.one + k) = 1 + k * 2 ^ (-(c.fb : ℤ)) := by
  have hone : c.one = ((2 ^ (c.N - 2) : ℕ) : ℤ) := by rw [one_eq h]; push_cast; rfl
  obtain ⟨e1, e2, -⟩ := pow_split h
  have hle : 2 ^ c.fb ≤ 2 ^ (c.N - 3) := Nat.pow_le_pow_right (by norm_num) (by unfold Cfg.fb; omega)
  have hpp : 0 < 2 ^ (c.N - 2) := by positivity
  have h2 : 2 ^ 1 ≤ 2 ^ (c.N - 3) := Nat.pow_le_pow_right (by norm_num) (by unfold Cfg.fb at h1; omega)
  have hmax : 2 ^ (c.N - 2) + k ≤ c.fmt.maxBody := by
    unfold Format.maxBody
    simp only [Cfg.fmt]
    by_cases hs : c.spec = .withNanInf
    · simp only [hs, decide_true, if_true]; omega
    · simp only [hs, decide_false, Bool.false_eq_true, if_false]; omega
  rw [hone, ← Nat.cast_add, Format.val_natCast (by omega)]
  refine ⟨?_, by omega, posVal_one_add h hk⟩
  rw [Format.isReal_iff]
  simp only [Int.natAbs_natCast]
  omega

end Verif
