import Verif.Lemmas.ExtConvert
import Verif.Props.FloatPack
import Verif.Model.Instances

/-!
# C89: the complete outcome of the conversions

Every input has exactly one outcome: a converted posit pattern of any kind to `int` and to a float, every `int`, every float
bit pattern and every pattern of another format to a posit.
-/

namespace Verif
open Fmt

variable {c c' : Cfg} {eb fb : ℕ}

/-- **C89**, `(int)p`: the outcome for every pattern, undefined behaviour and wrong values included. -/
theorem C89_toInt (h : c.WF) (hF : c.fb ≤ c.F) {v : ℤ} (hv : c.fmt.IsCanonical v) : Posit.toInt c v = (c.ext v).toInt := by
  by_cases hr : c.fmt.IsReal v
  · rw [ext_real hr]
    unfold EV.toInt
    simp only []
    by_cases c1 : |c.fmt.val v| < 1
    · rw [if_pos c1, C21_toInt_partial h hF hr (Or.inl c1)]
      have : truncZ (c.fmt.val v) = 0 := by
        rw [abs_lt] at c1
        unfold truncZ
        split_ifs with h0
        · exact Int.floor_eq_zero_iff.mpr ⟨h0, c1.2⟩
        · exact Int.ceil_eq_zero_iff.mpr ⟨by linarith [c1.1], by linarith⟩
      rw [this]; rfl
    rw [if_neg c1]
    by_cases c2 : |c.fmt.val v| < 2
    · rw [if_pos c2, C21_toInt_one_ub h hr (not_lt.mp c1) c2]
    rw [if_neg c2]
    have hpos : 0 < |c.fmt.val v| := by linarith
    have hne : c.fmt.val v ≠ 0 := abs_pos.mp hpos
    have hup : ∀ n : ℤ, |c.fmt.val v| < n → -n < c.fmt.val v ∧ c.fmt.val v < n := fun n hn => abs_lt.mp hn
    by_cases c3 : |c.fmt.val v| < 2 ^ 31
    · rw [if_pos c3, C21_toInt_partial h hF hr (Or.inr (Or.inl ⟨not_lt.mp c2, c3⟩))]
      congr 1
      apply satZ_id
      obtain ⟨g1, g2⟩ := abs_lt.mp c3
      unfold truncZ InS
      split_ifs with h0
      · have h1 : 0 ≤ ⌊c.fmt.val v⌋ := Int.floor_nonneg.mpr h0
        have h2 : ⌊c.fmt.val v⌋ < 2 ^ 31 := Int.floor_lt.mpr (by exact_mod_cast g2)
        constructor <;> norm_num at h2 ⊢ <;> omega
      · have h1 : -2 ^ 31 < ⌈c.fmt.val v⌉ := Int.lt_ceil.mpr (by exact_mod_cast g1)
        have h2 : ⌈c.fmt.val v⌉ ≤ 0 := Int.ceil_le.mpr (by push_cast; linarith)
        constructor <;> norm_num at h1 ⊢ <;> omega
    rw [if_neg c3]
    by_cases c4 : |c.fmt.val v| < 2 ^ 32
    · rw [if_pos c4]
      have h0 : v ≠ 0 := by
        rintro rfl
        exact hne Format.val_zero
      obtain ⟨e, f, hu⟩ := unpack_real h hr h0
      have he : e = 31 := by
        rw [← hu.log]
        apply le_antisymm
        · have := (Int.lt_zpow_iff_log_lt (b := 2) (by norm_num) hpos (x := 32)).mp (by exact_mod_cast c4)
          omega
        · exact (Int.zpow_le_iff_le_log (b := 2) (by norm_num) hpos (x := 31)).mp (by exact_mod_cast not_lt.mp c3)
      have hval : c.fmt.val v = tripleVal c.F (v < 0) e f * 2 ^ 0 := by
        have := hu.sign_val hF hr h0
        rw [this, pow_zero, mul_one]; unfold tripleVal mag; simp
      obtain ⟨a, b, d⟩ := C21_top_wrong (N := 32) (q := 0) (s := v < 0) (F := c.F) (e := e) (f := f) (by omega)
        (by have := h.hF; omega) hu.f_lt (by omega) hval
      unfold Posit.toInt
      rw [hu.eq]
      simp only [bind, Except.bind]
      by_cases hs : 0 < c.fmt.val v
      · have hv0 : ¬ v < 0 := by
          have := (Format.val_pos_iff hr.inRange).mp hs
          omega
        rw [if_pos hs]
        obtain ⟨r, -, hr, e⟩ := a (by simpa using hv0)
        rw [hr, e]
      · have hv0 : v < 0 := by
          have := mt (Format.val_pos_iff hr.inRange).mpr hs
          omega
        rw [if_neg hs]
        by_cases ht : truncZ (c.fmt.val v) = -2 ^ 31
        · rw [if_pos ht, b (by simpa using hv0) ht]
        · rw [if_neg ht]
          obtain ⟨r, -, hr, e⟩ := d (by simpa using hv0) ht
          rw [hr, e]
    · rw [if_neg c4, C21_toInt_partial h hF hr (Or.inr (Or.inr (not_lt.mp c4)))]
      congr 1
      by_cases hs : 0 < c.fmt.val v
      · rw [if_pos hs]
        have h1 : 2 ^ 32 ≤ truncZ (c.fmt.val v) := by
          unfold truncZ
          rw [if_pos hs.le, Int.le_floor]
          rw [abs_of_pos hs] at c4
          exact_mod_cast not_lt.mp c4
        unfold satZ
        norm_num at h1 ⊢
        omega
      · rw [if_neg hs]
        have hlt : c.fmt.val v < 0 := lt_of_le_of_ne (not_lt.mp hs) hne
        have h1 : truncZ (c.fmt.val v) ≤ -2 ^ 32 := by
          unfold truncZ
          rw [if_neg (not_le.mpr hlt), Int.ceil_le]
          rw [abs_of_neg hlt] at c4
          have := not_lt.mp c4
          push_cast
          linarith
        unfold satZ
        norm_num at h1 ⊢
        omega
  · rw [C21_special h hv hr]
    unfold Cfg.ext
    rw [if_neg hr]
    split_ifs <;> rfl

/-- one of each kind -/
example : [4000, 18000, -31234].map (Posit.toInt P16) = [.ok 0, .error .shiftAmount, .ok (-16512)] ∧
    [99614720, -99614720, -100030987, 104857600].map (Posit.toInt P28) =
      [.ok (-2 ^ 31), .error .overflow, .ok 1294968832, .ok (2 ^ 31 - 1)] := by
  decide +kernel

/-- **C89**, `Posit(i)`: `INT_MIN` is undefined, every other `int` has the outcome of rounding the number `i`. -/
theorem C89_ofInt (h : c.WF) (hF : c.fb ≤ c.F) {i : ℤ} (hi1 : -2 ^ 31 ≤ i) (hi2 : i < 2 ^ 31) :
    (i = -2 ^ 31 → Posit.ofInt c i = .error .overflow) ∧ (i ≠ -2 ^ 31 → EV.Outcome c (.num i) (Posit.ofInt c i)) := by
  refine ⟨fun h1 => by rw [h1]; exact C20_min_ub c, fun h1 => ?_⟩
  show Outcome c i _
  by_cases h0 : i = 0
  · subst h0
    rw [C20_zero h]; exact_mod_cast outcome_zero
  obtain ⟨hL1, hL2⟩ := intLog i h0
  have hL := natAbs_log_lt h0 (k := 31) (by rw [abs_lt]; omega)
  have hu := unpackFixed_eq (F := c.F) (E := c.E) (N := 32) (q := 0) (by omega) (by have := h.hF; omega)
    (by have := E_ge h; omega) h0
    ⟨by norm_num; omega, by norm_num; omega⟩ (Or.inr (by norm_num; omega)) (inS_log (E_ge h) (by omega))
  unfold Posit.ofInt
  rw [hu]
  simp only [bind, Except.bind]
  have := outcome_nat h (i < 0) hL1 hL2 0 (Or.inl hF)
  rw [zpow_zero, mul_one, sign_natAbs] at this
  simpa using this

example : P16.WF ∧ P16.fb ≤ P16.F ∧ Posit.ofInt P16 (-12345) = .ok (-31105) ∧
    Posit.ofInt P16 (2 ^ 31 - 1) = .ok 32687 ∧ Posit.ofInt P16 (-2 ^ 31) = .error .overflow := by decide +kernel

/-- **C89**, `Posit(x)` of a float with `eb`/`fb` exponent and fraction bits: the outcome for every bit pattern. A number has
the outcome of rounding it, after subnormal numbers have been cut to the digits that the fraction type keeps; a single digit
kept is undefined for fraction types of 32 bits and more; a NaN that loses its whole payload is an infinity. -/
theorem C89_ofFloat (h : c.WF) (heb : 2 ≤ eb) (heb30 : eb ≤ 30) (hfb : 1 ≤ fb) (hF : c.fb ≤ c.F) (hE : eb < c.E)
    (hE2 : 2 ^ (eb - 1) + fb ≤ 2 ^ (c.E - 1)) (b : ℕ) :
    match ieee eb fb b with
    | .num x =>
      (|x| < minNorm eb ∧ 32 ≤ c.F ∧ |readSub eb c.F x| = subUnit eb c.F →
        Posit.ofFloat c (.any eb fb true) b = .error .shiftAmount) ∧
      (¬ (|x| < minNorm eb ∧ 32 ≤ c.F ∧ |readSub eb c.F x| = subUnit eb c.F) →
        EV.Outcome c (.num (readSub eb c.F x)) (Posit.ofFloat c (.any eb fb true) b))
    | .inf s => EV.Outcome c (.inf s) (Posit.ofFloat c (.any eb fb true) b)
    | .nan =>
      EV.Outcome c (if c.F < fb ∧ fMan fb b < 2 ^ (fb - c.F) then .inf (fSign eb fb b) else .nan)
        (Posit.ofFloat c (.any eb fb true) b) := by
  have hF1 : 1 ≤ c.F := by have := h.hF; omega
  cases hy : ieee eb fb b with
  | inf s => exact C22_inf h heb hfb hE hy
  | nan =>
    simp only []
    split_ifs with hc
    · exact C22_nan_wrong h heb hfb hE hy hc.1 hc.2
    · exact C22_nan_partial h heb hfb hE hy (Or.inr (by omega))
  | num x =>
    simp only []
    obtain ⟨h1, ⟨h2, h3⟩ | ⟨h2, h3⟩⟩ := ieee_num hy
    · have hlt : |x| < minNorm eb := (sub_abs h3).2
      have hread : readSub eb c.F x =
          (if fSign eb fb b then -1 else 1 : ℚ) * ((fracOf c.F fb (2 ^ fb + fMan fb b) : ℕ) * subUnit eb c.F) := by
        unfold readSub
        rw [if_pos hlt, sub_digits h3]
      have hu0 : 0 < subUnit eb c.F := by unfold subUnit; positivity
      have habs : |readSub eb c.F x| = (fracOf c.F fb (2 ^ fb + fMan fb b) : ℕ) * subUnit eb c.F := by
        rw [hread]; exact abs_sign_mul _ (by positivity)
      have hone : |readSub eb c.F x| = subUnit eb c.F ↔ fracOf c.F fb (2 ^ fb + fMan fb b) = 1 := by
        rw [habs]
        constructor
        · intro he
          have : ((fracOf c.F fb (2 ^ fb + fMan fb b) : ℕ) : ℚ) = 1 := by
            field_simp at he; exact he
          exact_mod_cast this
        · intro he; rw [he]; simp
      have hmlt : fracOf c.F fb (2 ^ fb + fMan fb b) < 2 ^ c.F := by
        apply fracOf_lt
        have := fMan_lt fb b
        rw [pow_succ]; omega
      have hbig : fb < c.F → 2 ^ (c.F - fb) ≤ fracOf c.F fb (2 ^ fb + fMan fb b) ∨
          fracOf c.F fb (2 ^ fb + fMan fb b) = 0 := by
        intro hlt
        unfold fracOf
        rw [if_pos hlt.le, Nat.add_sub_cancel_left]
        rcases Nat.eq_zero_or_pos (fMan fb b) with hz | hz
        · right; rw [hz]; simp
        · exact Or.inl (Nat.le_mul_of_pos_left _ hz)
      obtain ⟨m, hm⟩ : ∃ m, m = fracOf c.F fb (2 ^ fb + fMan fb b) := ⟨_, rfl⟩
      rw [hone, hread]
      constructor
      · rintro ⟨-, h32, hz⟩
        have hFb : c.F ≤ fb := by
          by_contra hc
          have : 2 ^ 1 ≤ 2 ^ (c.F - fb) := Nat.pow_le_pow_right (by norm_num) (by omega)
          have := hbig (by omega)
          omega
        unfold Posit.ofFloat
        rw [unpackFloat_sub_ub heb hfb hE hE2 h2 hFb h32 hz]; rfl
      · intro hn
        replace hn : c.F < 32 ∨ m ≠ 1 := by
          by_contra hc
          exact hn ⟨hlt, by omega, by omega⟩
        show Outcome c _ _
        rw [← hm] at hbig hmlt ⊢
        by_cases hz : m = 0
        · obtain ⟨e, f, hu⟩ := unpackFloat_zero (F := c.F) (E := c.E) (dn := true) heb hfb hF1 hE h2 (Or.inr (hm ▸ hz))
          unfold Posit.ofFloat
          rw [hu, hz]
          simp only [Nat.cast_zero, zero_mul, mul_zero, bind, Except.bind]
          rw [(C03_pack_special h false e f).1]
          exact outcome_zero
        · have hL1 := Nat.log2_self_le hz
          have hL2 := Nat.lt_log2_self (n := m)
          have hLF : m.log2 ≤ c.F := le_of_lt ((Nat.pow_lt_pow_iff_right (by norm_num : 1 < 2)).mp (lt_of_le_of_lt hL1 hmlt))
          have hLge : c.F ≤ fb + m.log2 := by
            by_contra hc
            have h5 := (hbig (by omega)).resolve_right hz
            have : 2 ^ (m.log2 + 1) ≤ 2 ^ (c.F - fb) := Nat.pow_le_pow_right (by norm_num) (by omega)
            omega
          have hsh : c.F - m.log2 < pw c.F := by
            have hpw : c.F < 32 ∧ pw c.F = 32 ∨ 32 ≤ c.F ∧ pw c.F = c.F := by unfold pw; omega
            rcases hpw with ⟨ha, hb⟩ | ⟨ha, hb⟩
            · omega
            · have : m.log2 ≠ 0 := by
                intro h0
                rw [h0] at hL2
                omega
              omega
          have hu := unpackFloat_sub (F := c.F) (E := c.E) heb hfb hF1 hE hE2 h2 hm hL1 hL2 hsh hLge
          unfold Posit.ofFloat
          rw [hu]
          have := outcome_nat h (fSign eb fb b) hL1 hL2 ((1 : ℤ) - (2 ^ (eb - 1) - 1) - c.F) (Or.inr hLF)
          have hun : subUnit eb c.F = 2 ^ ((1 : ℤ) - (2 ^ (eb - 1) - 1) - c.F) := by
            unfold subUnit; congr 1; ring
          rw [hun]
          exact this
    · have hn1 : 2 ^ fb ≤ 2 ^ fb + fMan fb b := by omega
      have hn2 : 2 ^ fb + fMan fb b < 2 ^ (fb + 1) := by
        have := fMan_lt fb b
        rw [pow_succ]; omega
      have hge : ¬ |x| < minNorm eb := by
        rw [not_lt, h3, abs_sign_mul _ (by positivity)]
        unfold minNorm
        calc (2 : ℚ) ^ ((2 : ℤ) - 2 ^ (eb - 1)) ≤ 2 ^ (fb : ℤ) * 2 ^ ((fExp eb fb b : ℤ) - (2 ^ (eb - 1) - 1) - fb) := by
              rw [← zpow_add₀ (by norm_num)]
              exact zpow_le_zpow_right₀ (by norm_num) (by omega)
          _ ≤ _ := by
              apply mul_le_mul_of_nonneg_right _ (by positivity)
              rw [zpow_natCast]
              linarith [show (0 : ℚ) ≤ fMan fb b by positivity]
      refine ⟨fun hc => absurd hc.1 hge, fun _ => ?_⟩
      show Outcome c _ _
      have hu := unpackFloat_normal (F := c.F) (E := c.E) (dn := true) heb hfb hF1 hE.le heb30 h2 h1
      unfold Posit.ofFloat readSub
      rw [hu, if_neg hge]
      have := outcome_nat h (fSign eb fb b) hn1 hn2 ((fExp eb fb b : ℤ) - (2 ^ (eb - 1) - 1) - fb) (Or.inl hF)
      push_cast at this
      rw [h3]
      exact this

/-- a normal double, subnormal ones of which some, one and no digit is kept, an infinity -/
example : P28.WF ∧ P28.fb ≤ P28.F ∧ 11 < P28.E ∧ 2 ^ (11 - 1) + 52 ≤ 2 ^ (P28.E - 1) ∧
    [0x40490fdb00000000, 2 ^ 40 + 5, 2 ^ 20, 2 ^ 20 + 2 ^ 19, 1, 0x7ff0000000000000].map (Posit.ofFloat P28 .double) =
    [.ok 72945627, .ok 1, .error .shiftAmount, .error .shiftAmount, .ok 0, .ok (-2 ^ 27)] := by
  decide +kernel

/-- an infinity, a NaN that is kept and one that is not -/
example : P8i.WF ∧ P8i.fb ≤ P8i.F ∧ 11 < P8i.E ∧ 2 ^ (11 - 1) + 52 ≤ 2 ^ (P8i.E - 1) ∧
    [0xfff0000000000000, 0x7ff8000000000000, 0xfff0000000000001].map (Posit.ofFloat P8i .double) =
    [.ok (-127), .ok (-128), .ok (-127)] := by
  decide +kernel

/-- **C89**, `(float)p` and `(double)p`: the outcome for every pattern. A number is cut toward zero to a float, to zero below
the normal range and to the greatest float above it; infinities and NaN become infinities and NaN. -/
theorem C89_toFloat (h : c.WF) (hF : c.fb ≤ c.F) (heb : 2 ≤ eb) (heb30 : eb ≤ 30) (hfb : 1 ≤ fb)
    (hE : eb < max c.E (Unp.leastBits eb)) (hE2 : c.maxScale + 2 ^ (eb - 1) ≤ 2 ^ (max c.E (Unp.leastBits eb) - 1))
    {v : ℤ} (hv : c.fmt.IsCanonical v) :
    ∃ b, Posit.toFloat c (.any eb fb true) v = .ok b ∧
      match c.ext v with
      | .num x => b < 2 ^ (eb + fb + 1) ∧ IsCut eb fb x b ∧ (|x| < minNorm eb → b = 0)
      | .inf s => ieee eb fb b = .inf s
      | .nan => ieee eb fb b = .nan := by
  have hsp := C23_special (dn := true) (c := c) h heb hfb hv
  by_cases hr : c.fmt.IsReal v
  · rw [ext_real hr]
    by_cases h0 : v = 0
    · subst h0
      refine ⟨0, hsp.1 rfl, by positivity, ⟨0, ?_, fun _ => rfl, fun hc => ?_⟩, fun _ => rfl⟩
      · rcases ieee_zero (eb := eb) (fb := fb) with h | h
        · exact h
        · omega
      · rw [Format.val_zero, abs_zero] at hc
        have : (0 : ℚ) < minNorm eb := by unfold minNorm; positivity
        linarith
    · obtain ⟨e, f, hu⟩ := unpack_real h hr h0
      have hea := hu.e_abs h
      rw [abs_le] at hea
      have hB : (2 : ℤ) ≤ 2 ^ (eb - 1) := by exact_mod_cast two_le_pow heb
      have hE2z : (c.maxScale : ℤ) + 2 ^ (eb - 1) ≤ 2 ^ (max c.E (Unp.leastBits eb) - 1) := by exact_mod_cast hE2
      have hpp : 0 < mag c.F e f := mag_pos _ _ _
      have habs : |c.fmt.val v| = mag c.F e f := hu.abs_val hF
      have hsg : 0 < (if decide (v < 0) = true then -1 else 1 : ℚ) * c.fmt.val v := by
        rcases lt_or_gt_of_ne h0 with hc | hc
        · rw [decide_eq_true hc, if_pos rfl]
          have := (Format.val_neg_iff hr.inRange).mpr hc
          linarith
        · rw [decide_eq_false (by omega), if_neg (by simp)]
          have := (Format.val_pos_iff hr.inRange).mpr hc
          linarith
      have hup : |c.fmt.val v| < mag c.F e f + 2 ^ (e - (c.F : ℤ)) := by
        rw [habs]
        have : (0 : ℚ) < 2 ^ (e - (c.F : ℤ)) := by positivity
        linarith
      obtain ⟨b, hb⟩ := pack_cut_wide (F := c.F) (E := c.E) (eb := eb) (fb := fb) (s := v < 0) (e := e) (f := f)
        (X := c.fmt.val v) heb heb30 hE hfb (by have := h.hF; omega) hu.f_lt ⟨by omega, by omega⟩
        hsg habs.ge hup (Or.inr habs.symm)
      refine ⟨b, ?_, hb.2⟩
      unfold Posit.toFloat
      rw [hu.eq]; exact hb.1
  · obtain ⟨u, hu, hA, -⟩ := ext_unpack h hv
    obtain ⟨_, _, _, _, _, c6, c7, c8⟩ := C51_constants (eb := eb) (fb := fb) (dn := true) heb hfb
    generalize hX : c.ext v = X at *
    cases hA with
    | num hx => exact absurd (ext_num_iff hX).1 hr
    | inf s =>
      refine ⟨if s then (FTrait.any eb fb true).ninf else (FTrait.any eb fb true).pinf, ?_, ?_⟩
      · unfold Posit.toFloat; rw [hu]; rfl
      · cases s
        · exact c6
        · exact c7
    | nan =>
      refine ⟨(FTrait.any eb fb true).nan, ?_, c8⟩
      unfold Posit.toFloat; rw [hu]; rfl

/-- a 32-bit posit through half: a normal number, one below the range, one above, NaN -/
example : P32.WF ∧ P32.fb ≤ P32.F ∧ 5 < max P32.E (Unp.leastBits 5) ∧
    P32.maxScale + 2 ^ (5 - 1) ≤ 2 ^ (max P32.E (Unp.leastBits 5) - 1) ∧
    [1277729272, 100, -100, 0x7fffff00, -0x7fffff00, -2 ^ 31].map (Posit.toFloat P32 .half) =
      [.ok 0x4828, .ok 0, .ok 0, .ok 0x7bff, .ok 0xfbff, .ok 0x7e00] := by
  decide +kernel

/-- **C89**, a posit of another format with the same fraction type: the outcome of encoding what the pattern stands for. -/
theorem C89_convert (h : c.WF) (h' : c'.WF) (hF : c.fb ≤ c.F) (hFF : c.F = c'.F) {v : ℤ} (hv : c.fmt.IsCanonical v) :
    EV.Outcome c' (c.ext v) (do let u ← Posit.unpack c v; Posit.pack c' u) := by
  by_cases hr : c.fmt.IsReal v
  · rw [ext_real hr]
    show Outcome c' _ _
    by_cases h0 : v = 0
    · subst h0
      rw [unpack_zero h, Format.val_zero]
      have : Posit.pack c' (Unp.ofTy .zero) = .ok 0 := (C03_pack_special h' false 0 0).1
      simp only [bind, Except.bind]
      exact (this ▸ outcome_zero)
    · obtain ⟨e, f, hu, hf, ht⟩ := C01_unpack_value h hF hr h0
      rw [hu]
      simp only [bind, Except.bind]
      obtain ⟨a, b⟩ := pack_exact h' (s := v < 0) (e := e) (f := f) (by rw [← hFF]; exact hf) (y := c.fmt.val v) (by
        rw [← ht, hFF]; unfold tripleVal mag; ring)
      have hne : c.fmt.val v ≠ 0 := fun hc => h0 ((Format.val_eq_zero_iff hr.inRange).mp hc)
      refine ⟨fun hs => ?_, fun hs => b fun hc => hs (Or.inr hc)⟩
      obtain ⟨w, hw, hw2⟩ := a (hs.resolve_left hne)
      exact ⟨w, hw, Or.inr hw2⟩
  · obtain ⟨u, hu, hA, -⟩ := ext_unpack h hv
    rw [hu]
    simp only [bind, Except.bind]
    generalize hX : c.ext v = X at *
    cases hA with
    | num hx => exact absurd (ext_num_iff hX).1 hr
    | inf s => exact pack_inf h' s
    | nan => exact (C03_pack_special h' false 0 0).2.1

/-- a number, the infinity, one below the least number of the target, zero -/
example : P16.WF ∧ (⟨16, 9, 0, 16, .withNanInf⟩ : Cfg).WF ∧ P16.fb ≤ P16.F ∧
    [19600, -32768, 5, 0].map (fun v => do let u ← Posit.unpack P16 v; Posit.pack ⟨16, 9, 0, 16, .withNanInf⟩ u) =
      [.ok 210, .ok (-255), .ok 1, .ok 0] := by
  decide +kernel

end Verif
