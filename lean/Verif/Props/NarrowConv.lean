import Verif.Lemmas.NarrowConv
import Verif.Props.ExtConvert
import Verif.Props.NarrowFrac

/-!
# C128: conversions with a fraction type of any width

C89 describes the conversions of posits whose fractions fit into the fraction type. Nothing is asked of the fraction type here:
what is converted is the number cut to the `F+1` significant bits that the fraction type keeps.
-/

namespace Verif
open Fmt

variable {c c' : Cfg} {eb fb : ℕ}

/-- `Posit<int32_t,32,2,uint8_t>`: 27 fraction bits, of which 8 fit -/
def narrow32 : Cfg := ⟨32, 32, 2, 8, .withNan⟩

/-- **C128**: if the longest fraction fits nothing is cut. -/
theorem C128_exact (h : c.WF) (hF : c.fb ≤ c.F) (v : ℤ) : (c.ext v).cut (c.F + 1) = c.ext v := by
  by_cases hr : c.fmt.IsReal v
  · rw [ext_real hr]
    show EV.num _ = _
    congr 1
    by_cases h0 : v = 0
    · rw [h0, Format.val_zero, cutSig_zero]
    · obtain ⟨u, hu, hn, -, -, hreg⟩ := isNum_unpack h hr
      obtain ⟨e, f, hu', hf, ht⟩ := C01_unpack_value h hF hr h0
      rw [← hn.val (hreg h0).1]
      have := Except.ok.inj (hu.symm.trans hu')
      rw [this, ← ht, val_eq, sq_eq]
      unfold tripleVal mag
      ring
  · unfold Cfg.ext
    rw [if_neg hr]
    split_ifs <;> rfl

example : P16.WF ∧ P16.fb ≤ P16.F ∧ P16.fmt.IsReal 20001 := by decide +kernel

/-- **C128**: what is cut is less than one part in `2^F`. -/
theorem C128_error {m : ℕ} {x : ℚ} (hx : x ≠ 0) :
    |cutSig (m + 1) x| ≤ |x| ∧ |x| * (1 - 2 ^ (-(m : ℤ))) ≤ |cutSig (m + 1) x| := by
  refine ⟨abs_cutSig_le _ _, ?_⟩
  have := le_abs_cutSig (m := m + 1) hx
  rw [show (1 : ℤ) - ((m + 1 : ℕ) : ℤ) = -m by push_cast; ring] at this
  exact this

example : cutSig (8 + 1) (-12345 : ℚ) = -12320 ∧ (-12345 : ℚ) ≠ 0 := by decide +kernel

/-- **C128**, `(int)p` for every fraction type. -/
theorem C128_toInt (h : c.WF) {v : ℤ} (hv : c.fmt.IsCanonical v) : Posit.toInt c v = ((c.ext v).cut (c.F + 1)).toInt := by
  by_cases hr : c.fmt.IsReal v
  · rw [ext_real hr]
    obtain ⟨u, hu, hn, -, h0, hreg⟩ := isNum_unpack h hr
    by_cases hz : v = 0
    · subst hz
      unfold Posit.toInt
      rw [hu, h0 rfl, Format.val_zero]
      show _ = (EV.num (cutSig (c.F + 1) 0)).toInt
      rw [cutSig_zero]
      unfold EV.toInt
      simp only [abs_zero]
      rw [if_pos (by norm_num)]
      rfl
    · unfold Posit.toInt
      rw [hu]
      show Unp.packFixed c.F 32 0 u = (EV.num (cutSig (c.F + 1) (c.fmt.val v))).toInt
      rw [← hn.val (hreg hz).1]
      exact packFixed_toInt (by have := h.hF; omega) (hreg hz).1
  · rw [C21_special h hv hr]
    unfold Cfg.ext
    rw [if_neg hr]
    split_ifs <;> rfl

/-- the same patterns with a fraction type of 32 bits are converted to other numbers -/
example : narrow32.WF ∧ narrow32.F < narrow32.fb ∧
    [1950000001, -2080000001, 2099100001, -2 ^ 31, 1073741825].map (Posit.toInt narrow32) =
      [.ok 1140, .ok (-64768), .ok 322560, .ok 0, .error .shiftAmount] ∧
    [1950000001, -2080000001, 2099100001, -2 ^ 31, 1073741825].map (Posit.toInt { narrow32 with F := 32 }) =
      [.ok 1141, .ok (-64804), .ok 323019, .ok 0, .error .shiftAmount] := by
  decide +kernel

/-- **C128**, `Posit(i)` for every fraction type. -/
theorem C128_ofInt (h : c.WF) {i : ℤ} (hi1 : -2 ^ 31 ≤ i) (hi2 : i < 2 ^ 31) :
    (i = -2 ^ 31 → Posit.ofInt c i = .error .overflow) ∧
    (i ≠ -2 ^ 31 → EV.Outcome c ((EV.num i).cut (c.F + 1)) (Posit.ofInt c i)) := by
  refine ⟨fun h1 => by rw [h1]; exact C20_min_ub c, fun h1 => ?_⟩
  show Outcome c (cutSig (c.F + 1) i) _
  by_cases h0 : i = 0
  · subst h0
    rw [C20_zero h, Int.cast_zero, cutSig_zero]; exact outcome_zero
  obtain ⟨hL1, hL2⟩ := intLog i h0
  have hL := natAbs_log_lt h0 (k := 31) (by rw [abs_lt]; omega)
  have hu := unpackFixed_eq (F := c.F) (E := c.E) (N := 32) (q := 0) (by omega) (by have := h.hF; omega)
    (by have := E_ge h; omega) h0
    ⟨by norm_num; omega, by norm_num; omega⟩ (Or.inr (by norm_num; omega)) (inS_log (E_ge h) (by omega))
  unfold Posit.ofInt
  rw [hu]
  simp only [bind, Except.bind]
  have := outcome_cut h (i < 0) hL1 hL2 0
  rw [zpow_zero, mul_one, sign_natAbs] at this
  simpa using this

example : narrow32.WF ∧
    [12345, -777, 2 ^ 31 - 1, -2 ^ 31, 3].map (Posit.ofInt narrow32) =
      [.ok 2038497280, .ok (-1929904128), .ok 2142236672, .error .overflow, .ok 1275068416] ∧
    [12345, -777, 2 ^ 31 - 1, -2 ^ 31, 3].map (Posit.ofInt { narrow32 with F := 32 }) =
      [.ok 2038548480, .ok (-1929969664), .ok 2142240767, .error .overflow, .ok 1275068416] := by
  decide +kernel

/-- **C128**, `Posit(x)` of a float for every fraction type. -/
theorem C128_ofFloat (h : c.WF) (heb : 2 ≤ eb) (heb30 : eb ≤ 30) (hfb : 1 ≤ fb) (hE : eb < c.E)
    (hE2 : 2 ^ (eb - 1) + fb ≤ 2 ^ (c.E - 1)) (b : ℕ) :
    match ieee eb fb b with
    | .num x =>
      (|x| < minNorm eb ∧ 32 ≤ c.F ∧ |readSub eb c.F x| = subUnit eb c.F →
        Posit.ofFloat c (.any eb fb true) b = .error .shiftAmount) ∧
      (¬ (|x| < minNorm eb ∧ 32 ≤ c.F ∧ |readSub eb c.F x| = subUnit eb c.F) →
        EV.Outcome c ((EV.num (readSub eb c.F x)).cut (c.F + 1)) (Posit.ofFloat c (.any eb fb true) b))
    | .inf s => EV.Outcome c (.inf s) (Posit.ofFloat c (.any eb fb true) b)
    | .nan =>
      EV.Outcome c (if c.F < fb ∧ fMan fb b < 2 ^ (fb - c.F) then .inf (fSign eb fb b) else .nan)
        (Posit.ofFloat c (.any eb fb true) b) := by
  have hF1 : 1 ≤ c.F := by have := h.hF; omega
  cases hy : ieee eb fb b with
  | inf s => exact C22_inf h heb hfb hE hy
  | nan =>
    simp only []
    split_ifs with hc
    · exact C22_nan_wrong h heb hfb hE hy hc.1 hc.2
    · exact C22_nan_partial h heb hfb hE hy (Or.inr (by omega))
  | num x =>
    simp only []
    obtain ⟨h1, ⟨h2, h3⟩ | ⟨h2, h3⟩⟩ := ieee_num hy
    · have hlt : |x| < minNorm eb := (sub_abs h3).2
      have hread : readSub eb c.F x =
          (if fSign eb fb b then -1 else 1 : ℚ) * ((fracOf c.F fb (2 ^ fb + fMan fb b) : ℕ) * subUnit eb c.F) := by
        unfold readSub
        rw [if_pos hlt, sub_digits h3]
      have hu0 : 0 < subUnit eb c.F := by unfold subUnit; positivity
      have habs : |readSub eb c.F x| = (fracOf c.F fb (2 ^ fb + fMan fb b) : ℕ) * subUnit eb c.F := by
        rw [hread]; exact abs_sign_mul _ (by positivity)
      have hone : |readSub eb c.F x| = subUnit eb c.F ↔ fracOf c.F fb (2 ^ fb + fMan fb b) = 1 := by
        rw [habs]
        constructor
        · intro he
          have : ((fracOf c.F fb (2 ^ fb + fMan fb b) : ℕ) : ℚ) = 1 := by
            field_simp at he; exact he
          exact_mod_cast this
        · intro he; rw [he]; simp
      have hmlt : fracOf c.F fb (2 ^ fb + fMan fb b) < 2 ^ c.F := by
        apply fracOf_lt
        have := fMan_lt fb b
        rw [pow_succ]; omega
      have hbig : fb < c.F → 2 ^ (c.F - fb) ≤ fracOf c.F fb (2 ^ fb + fMan fb b) ∨
          fracOf c.F fb (2 ^ fb + fMan fb b) = 0 := by
        intro hlt
        unfold fracOf
        rw [if_pos hlt.le, Nat.add_sub_cancel_left]
        rcases Nat.eq_zero_or_pos (fMan fb b) with hz | hz
        · right; rw [hz]; simp
        · exact Or.inl (Nat.le_mul_of_pos_left _ hz)
      obtain ⟨m, hm⟩ : ∃ m, m = fracOf c.F fb (2 ^ fb + fMan fb b) := ⟨_, rfl⟩
      rw [hone, hread]
      constructor
      · rintro ⟨-, h32, hz⟩
        have hFb : c.F ≤ fb := by
          by_contra hc
          have : 2 ^ 1 ≤ 2 ^ (c.F - fb) := Nat.pow_le_pow_right (by norm_num) (by omega)
          have := hbig (by omega)
          omega
        unfold Posit.ofFloat
        rw [unpackFloat_sub_ub heb hfb hE hE2 h2 hFb h32 hz]; rfl
      · intro hn
        replace hn : c.F < 32 ∨ m ≠ 1 := by
          by_contra hc
          exact hn ⟨hlt, by omega, by omega⟩
        show Outcome c _ _
        rw [← hm] at hbig hmlt ⊢
        by_cases hz : m = 0
        · obtain ⟨e, f, hu⟩ := unpackFloat_zero (F := c.F) (E := c.E) (dn := true) heb hfb hF1 hE h2 (Or.inr (hm ▸ hz))
          unfold Posit.ofFloat
          rw [hu, hz]
          simp only [Nat.cast_zero, zero_mul, mul_zero, cutSig_zero, bind, Except.bind]
          rw [(C03_pack_special h false e f).1]
          exact outcome_zero
        · have hL1 := Nat.log2_self_le hz
          have hL2 := Nat.lt_log2_self (n := m)
          have hLge : c.F ≤ fb + m.log2 := by
            by_contra hc
            have h5 := (hbig (by omega)).resolve_right hz
            have : 2 ^ (m.log2 + 1) ≤ 2 ^ (c.F - fb) := Nat.pow_le_pow_right (by norm_num) (by omega)
            omega
          have hsh : c.F - m.log2 < pw c.F := by
            have hpw : c.F < 32 ∧ pw c.F = 32 ∨ 32 ≤ c.F ∧ pw c.F = c.F := by unfold pw; omega
            rcases hpw with ⟨ha, hb⟩ | ⟨ha, hb⟩
            · omega
            · have : m.log2 ≠ 0 := by
                intro h0
                rw [h0] at hL2
                omega
              omega
          have hu := unpackFloat_sub (F := c.F) (E := c.E) heb hfb hF1 hE hE2 h2 hm hL1 hL2 hsh hLge
          unfold Posit.ofFloat
          rw [hu]
          have := outcome_cut h (fSign eb fb b) hL1 hL2 ((1 : ℤ) - (2 ^ (eb - 1) - 1) - c.F)
          have hun : subUnit eb c.F = 2 ^ ((1 : ℤ) - (2 ^ (eb - 1) - 1) - c.F) := by
            unfold subUnit; congr 1; ring
          rw [hun]
          exact this
    · have hn1 : 2 ^ fb ≤ 2 ^ fb + fMan fb b := by omega
      have hn2 : 2 ^ fb + fMan fb b < 2 ^ (fb + 1) := by
        have := fMan_lt fb b
        rw [pow_succ]; omega
      have hge : ¬ |x| < minNorm eb := by
        rw [not_lt, h3, abs_sign_mul _ (by positivity)]
        unfold minNorm
        calc (2 : ℚ) ^ ((2 : ℤ) - 2 ^ (eb - 1)) ≤ 2 ^ (fb : ℤ) * 2 ^ ((fExp eb fb b : ℤ) - (2 ^ (eb - 1) - 1) - fb) := by
              rw [← zpow_add₀ (by norm_num)]
              exact zpow_le_zpow_right₀ (by norm_num) (by omega)
          _ ≤ _ := by
              apply mul_le_mul_of_nonneg_right _ (by positivity)
              rw [zpow_natCast]
              linarith [show (0 : ℚ) ≤ fMan fb b by positivity]
      refine ⟨fun hc => absurd hc.1 hge, fun _ => ?_⟩
      show Outcome c _ _
      have hu := unpackFloat_normal (F := c.F) (E := c.E) (dn := true) heb hfb hF1 hE.le heb30 h2 h1
      unfold Posit.ofFloat readSub
      rw [hu, if_neg hge]
      have := outcome_cut h (fSign eb fb b) hn1 hn2 ((fExp eb fb b : ℤ) - (2 ^ (eb - 1) - 1) - fb)
      push_cast at this
      rw [h3]
      exact this

/-- numbers, an infinity, a NaN, a subnormal number of which nothing is kept -/
example : narrowCfg.WF ∧ 11 < narrowCfg.E ∧ 2 ^ (11 - 1) + 52 ≤ 2 ^ (narrowCfg.E - 1) ∧
    [0x400921fb54442d18, 0x3ff0100000000000, 0x7ff0000000000000, 0x7ff8000000000000, 1].map (Posit.ofFloat narrowCfg .double) =
      [.ok 22816, .ok 16400, .ok (-32768), .ok (-32768), .ok 0] ∧
    Posit.ofFloat { narrowCfg with F := 32 } .double 0x400921fb54442d18 = .ok 22817 := by
  decide +kernel

/-- **C128**, `(float)p` and `(double)p` for every fraction type. -/
theorem C128_toFloat (h : c.WF) (heb : 2 ≤ eb) (heb30 : eb ≤ 30) (hfb : 1 ≤ fb)
    (hE : eb < max c.E (Unp.leastBits eb)) (hE2 : c.maxScale + 2 ^ (eb - 1) ≤ 2 ^ (max c.E (Unp.leastBits eb) - 1))
    {v : ℤ} (hv : c.fmt.IsCanonical v) :
    ∃ b, Posit.toFloat c (.any eb fb true) v = .ok b ∧
      match (c.ext v).cut (c.F + 1) with
      | .num x => b < 2 ^ (eb + fb + 1) ∧ IsCut eb fb x b ∧ (|x| < minNorm eb → b = 0)
      | .inf s => ieee eb fb b = .inf s
      | .nan => ieee eb fb b = .nan := by
  by_cases hr : c.fmt.IsReal v
  · have hsp := C23_special (dn := true) (c := c) h heb hfb hv
    rw [ext_real hr]
    by_cases h0 : v = 0
    · subst h0
      rw [Format.val_zero]
      show ∃ b, _ ∧ (_ ∧ IsCut eb fb (cutSig (c.F + 1) 0) b ∧ (|cutSig (c.F + 1) 0| < _ → b = 0))
      rw [cutSig_zero]
      refine ⟨0, hsp.1 rfl, by positivity, ⟨0, ?_, fun _ => rfl, fun hc => ?_⟩, fun _ => rfl⟩
      · rcases ieee_zero (eb := eb) (fb := fb) with h | h
        · exact h
        · omega
      · rw [abs_zero] at hc
        have : (0 : ℚ) < minNorm eb := by unfold minNorm; positivity
        linarith
    · obtain ⟨u, hu, hn, hea, -, hreg⟩ := isNum_unpack h hr
      have hur := (hreg h0).1
      show ∃ b, _ ∧ (_ ∧ IsCut eb fb (cutSig (c.F + 1) (c.fmt.val v)) b ∧ (|cutSig (c.F + 1) (c.fmt.val v)| < _ → b = 0))
      rw [← hn.val hur]
      rw [abs_le] at hea
      have hB : (2 : ℤ) ≤ 2 ^ (eb - 1) := by exact_mod_cast two_le_pow heb
      have hE2z : (c.maxScale : ℤ) + 2 ^ (eb - 1) ≤ 2 ^ (max c.E (Unp.leastBits eb) - 1) := by exact_mod_cast hE2
      have hpp : 0 < mag c.F u.exp u.frac := mag_pos _ _ _
      have habs : |u.val c.F| = mag c.F u.exp u.frac := by rw [val_eq, abs_sq _ hpp.le]
      have hsg : 0 < (if u.neg then -1 else 1 : ℚ) * u.val c.F := by
        rw [val_eq, sq_eq]
        cases u.neg <;> simp <;> exact hpp
      have hup : |u.val c.F| < mag c.F u.exp u.frac + 2 ^ (u.exp - (c.F : ℤ)) := by
        rw [habs]
        have : (0 : ℚ) < 2 ^ (u.exp - (c.F : ℤ)) := by positivity
        linarith
      obtain ⟨b, hb⟩ := pack_cut_wide (F := c.F) (E := c.E) (eb := eb) (fb := fb) (s := u.neg) (e := u.exp) (f := u.frac)
        (X := u.val c.F) heb heb30 hE hfb (by have := h.hF; omega) hur.2 ⟨by omega, by omega⟩
        hsg habs.ge hup (Or.inr habs.symm)
      rw [← reg_eq hur] at hb
      refine ⟨b, ?_, hb.2⟩
      unfold Posit.toFloat
      rw [hu]; exact hb.1
  · obtain ⟨u, hu, hA, -⟩ := ext_unpack h hv
    obtain ⟨_, _, _, _, _, c6, c7, c8⟩ := C51_constants (eb := eb) (fb := fb) (dn := true) heb hfb
    generalize hX : c.ext v = X at *
    cases hA with
    | num hx => exact absurd (ext_num_iff hX).1 hr
    | inf s =>
      refine ⟨if s then (FTrait.any eb fb true).ninf else (FTrait.any eb fb true).pinf, ?_, ?_⟩
      · unfold Posit.toFloat; rw [hu]; rfl
      · cases s
        · exact c6
        · exact c7
    | nan =>
      refine ⟨(FTrait.any eb fb true).nan, ?_, c8⟩
      unfold Posit.toFloat; rw [hu]; rfl

example : narrowCfg.WF ∧ 11 < max narrowCfg.E (Unp.leastBits 11) ∧
    narrowCfg.maxScale + 2 ^ (11 - 1) ≤ 2 ^ (max narrowCfg.E (Unp.leastBits 11) - 1) ∧
    [20001, -20001, 1, -32768].map (Posit.toFloat narrowCfg .double) =
      [.ok 4611158252846055424, .ok 13834530289700831232, .ok 4481081629233643520, .ok 9221120237041090560] ∧
    Posit.toFloat { narrowCfg with F := 32 } .double 20001 = .ok 4611159352357683200 := by
  decide +kernel

/-- **C128**, a posit of another format with the same fraction type, of any width. -/
theorem C128_convert (h : c.WF) (h' : c'.WF) (hFF : c.F = c'.F) {v : ℤ} (hv : c.fmt.IsCanonical v) :
    EV.Outcome c' ((c.ext v).cut (c.F + 1)) (do let u ← Posit.unpack c v; Posit.pack c' u) := by
  by_cases hr : c.fmt.IsReal v
  · rw [ext_real hr]
    show Outcome c' (cutSig (c.F + 1) (c.fmt.val v)) _
    obtain ⟨u, hu, hn, -⟩ := isNum_unpack h hr
    rw [hu]
    simp only [bind, Except.bind]
    exact isNum_pack h' (hFF ▸ hn)
  · obtain ⟨u, hu, hA, -⟩ := ext_unpack h hv
    rw [hu]
    simp only [bind, Except.bind]
    generalize hX : c.ext v = X at *
    cases hA with
    | num hx => exact absurd (ext_num_iff hX).1 hr
    | inf s => exact pack_inf h' s
    | nan => exact (C03_pack_special h' false 0 0).2.1

example : narrowCfg.WF ∧ (⟨16, 15, 0, 8, .withNanInf⟩ : Cfg).WF ∧
    [19600, 20001, -32768, 5, 0].map (fun v => do let u ← Posit.unpack narrowCfg v; Posit.pack ⟨16, 15, 0, 8, .withNanInf⟩ u) =
      [.ok 11408, .ok 11808, .ok (-16384), .ok 1, .ok 0] := by
  decide +kernel

/-- **C128**: with a fraction type narrower than the longest fraction, unpacking and packing is not the identity: the number
after one becomes one. -/
theorem C128_roundtrip_wrong (h : c.WF) (hF : c.F < c.fb) : c.fmt.IsReal (c.one + 1) ∧ c.one + 1 ≠ c.one ∧
    (do let u ← Posit.unpack c (c.one + 1); Posit.pack c u) = .ok c.one := by
  have hF8 := h.F_pos
  obtain ⟨r1, r2, r3⟩ := val_one_add h (k := 1) (one_lt_pow₀ (by norm_num) (by omega)) (by omega)
  simp only [Nat.cast_one, one_mul] at r1 r2 r3
  refine ⟨r1, by omega, ?_⟩
  have hp : cutSig (c.F + 1) (c.fmt.val (c.one + 1)) = 1 := by
    rw [r3]
    exact cutSig_after_one hF
  have hh := C128_convert h h rfl r1.canonical
  rw [ext_real r1] at hh
  change Outcome c (cutSig (c.F + 1) (c.fmt.val (c.one + 1))) _ at hh
  rw [hp] at hh
  obtain ⟨v, v1, v2⟩ := hh.1 (Or.inr (by
    refine safeMag_near_one h ?_ (by norm_num)
    rw [abs_one]
    exact zpow_le_one_of_nonpos₀ (by norm_num) (by omega)))
  rcases v2 with ⟨h1, -⟩ | v2
  · norm_num at h1
  rw [v1, v2.faithful.exact (one_real h).1 (val_one h)]

example : narrowCfg.WF ∧ narrowCfg.F < narrowCfg.fb ∧
    (do let u ← Posit.unpack narrowCfg 16385; Posit.pack narrowCfg u) = .ok 16384 := by
  decide +kernel

/-- **C128**: with a fraction type narrower than the longest fraction, the number after one is converted to the float one. -/
theorem C128_toFloat_wrong (h : c.WF) (hF : c.F < c.fb) (heb : 2 ≤ eb) (heb30 : eb ≤ 30) (hfb : 1 ≤ fb)
    (hE : eb < max c.E (Unp.leastBits eb)) (hE2 : c.maxScale + 2 ^ (eb - 1) ≤ 2 ^ (max c.E (Unp.leastBits eb) - 1)) :
    c.fmt.IsReal (c.one + 1) ∧ c.fmt.val (c.one + 1) ≠ 1 ∧
      ∃ b, Posit.toFloat c (.any eb fb true) (c.one + 1) = .ok b ∧ ieee eb fb b = .num 1 := by
  have hF8 := h.F_pos
  obtain ⟨r1, r2, r3⟩ := val_one_add h (k := 1) (one_lt_pow₀ (by norm_num) (by omega)) (by omega)
  simp only [Nat.cast_one, one_mul] at r1 r2 r3
  refine ⟨r1, by rw [r3]; have : (0 : ℚ) < 2 ^ (-(c.fb : ℤ)) := by positivity
                 intro hc; linarith, ?_⟩
  obtain ⟨b, hb, hm⟩ := C128_toFloat h heb heb30 hfb hE hE2 r1.canonical
  refine ⟨b, hb, ?_⟩
  rw [ext_real r1] at hm
  change _ ∧ IsCut eb fb (cutSig (c.F + 1) (c.fmt.val (c.one + 1))) b ∧ _ at hm
  rw [r3, cutSig_after_one hF] at hm
  have hone := (C51_constants (eb := eb) (fb := fb) (dn := true) heb hfb).1
  refine hm.2.1.exact hone (Or.inr ?_)
  rw [abs_one]
  unfold minNorm
  refine zpow_le_one_of_nonpos₀ (by norm_num) ?_
  have hB : (2 : ℤ) ≤ 2 ^ (eb - 1) := by exact_mod_cast two_le_pow heb
  omega

example : Posit.toFloat narrowCfg .double 16385 = Posit.toFloat narrowCfg .double 16384 := by decide +kernel

end Verif
