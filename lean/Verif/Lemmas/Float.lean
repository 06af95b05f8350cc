import Verif.Lemmas.FloatConv
import Verif.Spec.Ieee

/-! # The float conversions of `Unpacked`, on the fields of the bit pattern -/

namespace Verif

open Fmt

variable {F E eb fb : ℕ} {dn : Bool}

/-- fields of a bit pattern -/
def fSign (eb fb b : ℕ) : Bool := b / 2 ^ (eb + fb) % 2 = 1
def fExp (eb fb b : ℕ) : ℕ := b / 2 ^ fb % 2 ^ eb
def fMan (fb b : ℕ) : ℕ := b % 2 ^ fb

theorem fExp_lt (eb fb b : ℕ) : fExp eb fb b < 2 ^ eb := Nat.mod_lt _ (by positivity)
theorem fMan_lt (fb b : ℕ) : fMan fb b < 2 ^ fb := Nat.mod_lt _ (by positivity)

/-- a pattern from its fields -/
def fJoin (eb fb : ℕ) (s : Bool) (x m : ℕ) : ℕ := (if s then 2 ^ (eb + fb) else 0) + x * 2 ^ fb + m

theorem fJoin_low {eb fb x m : ℕ} (hx : x < 2 ^ eb) (hm : m < 2 ^ fb) : x * 2 ^ fb + m < 2 ^ (eb + fb) := by
  rw [pow_add]
  calc x * 2 ^ fb + m < x * 2 ^ fb + 2 ^ fb := by omega
    _ = (x + 1) * 2 ^ fb := by ring
    _ ≤ 2 ^ eb * 2 ^ fb := Nat.mul_le_mul_right _ hx

theorem fJoin_lt {s : Bool} {x m : ℕ} (hx : x < 2 ^ eb) (hm : m < 2 ^ fb) : fJoin eb fb s x m < 2 ^ (eb + fb + 1) := by
  have := fJoin_low hx hm
  unfold fJoin
  rw [pow_succ]
  cases s <;> simp <;> omega

theorem fJoin_sign {s : Bool} {x m : ℕ} (hx : x < 2 ^ eb) (hm : m < 2 ^ fb) : fSign eb fb (fJoin eb fb s x m) = s := by
  have h := fJoin_low hx hm
  unfold fSign fJoin
  cases s
  · simp only [Bool.false_eq_true, if_false, zero_add]
    rw [Nat.div_eq_of_lt h]; simp
  · simp only [if_true]
    rw [add_assoc, Nat.add_div_left _ (by positivity), Nat.div_eq_of_lt h]; simp

theorem fJoin_exp {s : Bool} {x m : ℕ} (hx : x < 2 ^ eb) (hm : m < 2 ^ fb) : fExp eb fb (fJoin eb fb s x m) = x := by
  unfold fExp fJoin
  have e : (if s then 2 ^ (eb + fb) else 0) + x * 2 ^ fb + m = 2 ^ fb * ((if s then 2 ^ eb else 0) + x) + m := by
    cases s
    · simp; ring
    · simp only [if_true]; rw [pow_add]; ring
  rw [e, Nat.mul_add_div (by positivity), Nat.div_eq_of_lt hm, add_zero]
  cases s
  · simp [Nat.mod_eq_of_lt hx]
  · simp [Nat.mod_eq_of_lt hx]

theorem fJoin_man {s : Bool} {x m : ℕ} (hm : m < 2 ^ fb) : fMan fb (fJoin eb fb s x m) = m := by
  unfold fMan fJoin
  have e : (if s then 2 ^ (eb + fb) else 0) + x * 2 ^ fb + m = 2 ^ fb * ((if s then 2 ^ eb else 0) + x) + m := by
    cases s
    · simp; ring
    · simp only [if_true]; rw [pow_add]; ring
  rw [e, Nat.mul_add_mod, Nat.mod_eq_of_lt hm]

theorem fJoin_fields {b : ℕ} (hb : b < 2 ^ (eb + fb + 1)) : fJoin eb fb (fSign eb fb b) (fExp eb fb b) (fMan fb b) = b := by
  unfold fJoin fSign fExp fMan
  have h1 : b = 2 ^ fb * (b / 2 ^ fb) + b % 2 ^ fb := (Nat.div_add_mod _ _).symm
  have h2 : b / 2 ^ fb = 2 ^ eb * (b / 2 ^ fb / 2 ^ eb) + b / 2 ^ fb % 2 ^ eb := (Nat.div_add_mod _ _).symm
  have h3 : b / 2 ^ fb / 2 ^ eb = b / 2 ^ (eb + fb) := by
    rw [Nat.div_div_eq_div_mul, ← pow_add, add_comm]
  have h4 : b / 2 ^ (eb + fb) < 2 := by
    clear h1 h2 h3
    rw [Nat.div_lt_iff_lt_mul (by positivity), ← pow_succ']
    exact hb
  rw [h3] at h2
  have h5 : b = 2 ^ (eb + fb) * (b / 2 ^ (eb + fb)) + (b / 2 ^ fb % 2 ^ eb) * 2 ^ fb + b % 2 ^ fb := by
    conv_lhs => rw [h1, h2]
    rw [pow_add]; ring
  clear h1 h2 h3
  rcases (by generalize b / 2 ^ (eb + fb) = z at h4; omega : b / 2 ^ (eb + fb) = 0 ∨ b / 2 ^ (eb + fb) = 1) with h7 | h7
  · rw [h7, mul_zero] at h5
    rw [h7, if_neg (by simp)]
    exact h5.symm
  · rw [h7, mul_one] at h5
    rw [h7, if_pos (by simp)]
    exact h5.symm

/-- the specification on the fields -/
theorem ieee_eq (b : ℕ) : ieee eb fb b =
    if fExp eb fb b = 2 ^ eb - 1 then (if fMan fb b = 0 then .inf (fSign eb fb b) else .nan)
    else if fExp eb fb b = 0 then
      .num ((if fSign eb fb b then -1 else 1 : ℚ) * (fMan fb b * 2 ^ ((2 : ℤ) - 2 ^ (eb - 1) - fb)))
    else .num ((if fSign eb fb b then -1 else 1 : ℚ) * ((2 ^ fb + fMan fb b) *
      2 ^ ((fExp eb fb b : ℤ) - (2 ^ (eb - 1) - 1) - fb))) := rfl

theorem pow_half (heb : 1 ≤ eb) : (2 : ℤ) ^ eb = 2 * 2 ^ (eb - 1) := two_pow_pred heb

/-- `unpackFloat` with the members of the trait spelled out -/
theorem unpackFloat_any (value : ℕ) : Unp.unpackFloat F E (.any eb fb dn) value = (do
  let re ← Posit.bitsetGet (eb + fb + 1) value fb eb
  let rawexp := wrapS E re
  let neg : Bool := (value &&& 2 ^ ((eb + fb + 1) - 1)) ≠ 0
  let e ← arithS E (rawexp - (2 ^ (eb - 1) - 1))
  let exponent := wrapS E e
  let fraction ← Bits.castRightToLeft (eb + fb + 1) fb F value
  if rawexp = 2 ^ eb - 1 then
    return { ty := if fraction = 0 then .infinity else .nan, neg := neg, exp := exponent, frac := fraction }
  else if rawexp = 0 then
    if !dn || fraction = 0 then
      return { ty := .zero, neg := false, exp := exponent, frac := fraction }
    else do
      let k ← Unp.findLeft F fraction
      let e2 ← arithS E (exponent - k)
      let f2 ← shlU F fraction (k + 1)
      return { ty := .regular, neg := neg, exp := wrapS E e2, frac := f2 % 2 ^ F }
  else return { ty := .regular, neg := neg, exp := exponent, frac := fraction } : M Unp) := rfl

/-- `packFloat` with the members of the trait spelled out -/
theorem packFloat_any (u : Unp) : Unp.packFloat F E (.any eb fb dn) u = ((
  match u.ty with
  | .infinity => .ok (if u.neg then (FTrait.any eb fb dn).ninf else (FTrait.any eb fb dn).pinf)
  | .zero => .ok 0
  | .nan => .ok (FTrait.any eb fb dn).nan
  | .regular => do
    let EX := max E (Unp.leastBits eb)
    let fe ← arithS EX (u.exp + (2 ^ (eb - 1) - 1))
    let fexp := wrapS EX fe
    if fexp > (2 ^ eb - 2) then return (if u.neg then (FTrait.any eb fb dn).lowest else (FTrait.any eb fb dn).max)
    else if fexp < 1 && dn then return 0
    else do
      let (fexpbits, ffracbits) ← (
        if fexp < 1 then do
          let d ← Unp.extractDenorm F fb (eb + fb + 1) u.frac
          let s ← shrU (eb + fb + 1) d (-fexp)
          return (0, s % 2 ^ (eb + fb + 1))
        else do
          let x ← shlU (eb + fb + 1) (wrapU 64 fexp &&& (2 ^ eb - 1)) fb
          let p ← Unp.extractPack F fb (eb + fb + 1) u.frac
          return (x % 2 ^ (eb + fb + 1), p) : M (Nat × Nat))
      let value := ffracbits ||| fexpbits ||| (if u.neg then (2 ^ (eb + fb)) else 0)
          let sh := if (eb + fb + 1) < 32 then value * 2 else value * 2 % 2 ^ (eb + fb + 1)
      if value ≠ 0 ∧ sh = 0 then return (value + 1) % 2 ^ (eb + fb + 1) else return value) : M ℕ) := rfl

theorem unpackFloat_fields (heb : 1 ≤ eb) (hfb : 1 ≤ fb) (hF : 1 ≤ F) (b : ℕ) :
    Posit.bitsetGet (eb + fb + 1) b fb eb = .ok (fExp eb fb b) ∧
    (∀ inst : Decidable (b &&& 2 ^ (eb + fb + 1 - 1) ≠ 0), @decide _ inst = fSign eb fb b) ∧
    Bits.castRightToLeft (eb + fb + 1) fb F b = .ok (fracOf F fb (2 ^ fb + fMan fb b)) := by
  refine ⟨bitsetGet_eq heb (by omega), ?_, ?_⟩
  · unfold fSign
    intro inst
    simp only [show eb + fb + 1 - 1 = eb + fb by omega]
    have := and_two_pow_eq_zero_iff b (eb + fb)
    rcases Nat.mod_two_eq_zero_or_one (b / 2 ^ (eb + fb)) with h | h
    · simp [this.mpr h, h]
    · have h2 : ¬ (b &&& 2 ^ (eb + fb) = 0) := fun hc => by have := this.mp hc; omega
      simp [h2, h]
  · rw [castRightToLeft_eq hfb (by omega) hF]
    congr 1
    unfold fracOf fMan
    rw [Nat.add_sub_cancel_left]
    split_ifs <;> first | rfl | omega

theorem wrapS_eq_of {E : ℕ} (hE : 1 ≤ E) {x y : ℤ} (k : ℤ) (h : x = y + k * 2 ^ E) (hy : InS E y) : wrapS E x = y :=
  wrapS_eq hE k (by linarith) hy

/-- normal numbers; the exponent type may be as narrow as the exponent field -/
theorem unpackFloat_normal (heb : 2 ≤ eb) (hfb : 1 ≤ fb) (hF : 1 ≤ F) (hE : eb ≤ E) (heb30 : eb ≤ 30) {b : ℕ}
    (h1 : fExp eb fb b ≠ 0) (h2 : fExp eb fb b ≠ 2 ^ eb - 1) :
    Unp.unpackFloat F E (.any eb fb dn) b =
      .ok ⟨.regular, fSign eb fb b, ((fExp eb fb b : ℤ) - (2 ^ (eb - 1) - 1) - fb) + fb,
        fracOf F fb (2 ^ fb + fMan fb b)⟩ := by
  obtain ⟨e1, e2, e3⟩ := unpackFloat_fields (F := F) (by omega : 1 ≤ eb) hfb hF b
  have hlt := fExp_lt eb fb b
  rw [unpackFloat_any]
  simp only [e1, e2, e3, bind, Except.bind, pure, Except.pure]
  generalize fExp eb fb b = x at *
  have hh := pow_half (eb := eb) (by omega)
  have hltz : (x : ℤ) < 2 ^ eb := by exact_mod_cast hlt
  have hE2 := two_pow_pred (w := E) (by omega)
  have hle : (2 : ℤ) ^ (eb - 1) ≤ 2 ^ (E - 1) := pow_le_pow_right₀ (by norm_num) (by omega)
  have h2p : (2 : ℤ) ≤ 2 ^ (eb - 1) := by
    calc (2 : ℤ) = 2 ^ 1 := by norm_num
      _ ≤ _ := pow_le_pow_right₀ (by norm_num) (by omega)
  have h29 : (2 : ℤ) ^ (eb - 1) ≤ 2 ^ 29 := pow_le_pow_right₀ (by norm_num) (by omega)
  have h31 : (2 : ℤ) ^ 31 ≤ 2 ^ (pw E - 1) := pow_le_pow_right₀ (by norm_num) (by have := le_pw32 E; omega)
  have h2z : (x : ℤ) ≠ 2 ^ eb - 1 := by
    intro hc
    apply h2
    have : (2 : ℤ) ^ eb - 1 = ((2 ^ eb - 1 : ℕ) : ℤ) := by
      have := Nat.one_le_two_pow (n := eb)
      push_cast [this]; ring
    rw [this] at hc
    exact_mod_cast hc
  -- raw exponent after conversion to the exponent type
  obtain ⟨raw, hraw, hraw2⟩ : ∃ raw, wrapS E x = raw ∧ ((raw = x ∧ (x : ℤ) < 2 ^ (E - 1)) ∨ (raw = x - 2 ^ E ∧ raw < 0 ∧
      -2 ^ (E - 1) ≤ raw)) := by
    by_cases hc : (x : ℤ) < 2 ^ (E - 1)
    · exact ⟨x, wrapS_of_inS (by omega) ⟨by omega, hc⟩, Or.inl ⟨rfl, hc⟩⟩
    · exact ⟨x - 2 ^ E, wrapS_eq_of (by omega) 1 (by ring) ⟨by omega, by omega⟩, Or.inr ⟨rfl, by omega, by omega⟩⟩
  rw [hraw]
  have har : arithS E (raw - (2 ^ (eb - 1) - 1)) = .ok (raw - (2 ^ (eb - 1) - 1)) := by
    apply arithS_ok
    have hp31 : (2 : ℤ) ^ (E - 1) ≤ 2 ^ (pw E - 1) := pow_le_pow_right₀ (by norm_num) (by have := le_pw E; omega)
    norm_num at h29 h31
    rcases hraw2 with ⟨r1, r2⟩ | ⟨r1, r2, r3⟩
    · constructor <;> omega
    · constructor
      · -- raw = x - 2^E with x ≥ 2^(E-1), so E = eb
        have : raw ≥ -2 ^ (eb - 1) := by
          by_contra hc
          have : E = eb ∨ eb < E := by omega
          rcases this with rfl | h
          · omega
          · have : (2 : ℤ) ^ eb ≤ 2 ^ (E - 1) := pow_le_pow_right₀ (by norm_num) (by omega)
            omega
        omega
      · omega
  rw [har]
  simp only []
  have hwr : wrapS E (raw - (2 ^ (eb - 1) - 1)) = x - (2 ^ (eb - 1) - 1) := by
    rcases hraw2 with ⟨r1, r2⟩ | ⟨r1, r2, r3⟩
    · rw [r1]; apply wrapS_of_inS (by omega); constructor <;> omega
    · rw [r1]; apply wrapS_eq_of (by omega) (-1) (by ring); constructor <;> omega
  rw [hwr]
  have c1 : ¬ raw = 2 ^ eb - 1 := by omega
  have c2 : ¬ raw = 0 := by omega
  rw [if_neg c1, if_neg c2]
  congr 2
  ring

theorem raw_small (hE : eb < E) {x : ℕ} (hx : x < 2 ^ eb) : wrapS E x = x := by
  have hle : (2 : ℤ) ^ eb ≤ 2 ^ (E - 1) := pow_le_pow_right₀ (by norm_num) (by omega)
  have hltz : (x : ℤ) < 2 ^ eb := by exact_mod_cast hx
  have : (0 : ℤ) < 2 ^ eb := by positivity
  exact wrapS_of_inS (by omega) ⟨by omega, by omega⟩

theorem exp_arith (heb : 1 ≤ eb) (hE : eb < E) {x : ℕ} (hx : x < 2 ^ eb) :
    InS E ((x : ℤ) - (2 ^ (eb - 1) - 1)) := by
  have hle : (2 : ℤ) ^ eb ≤ 2 ^ (E - 1) := pow_le_pow_right₀ (by norm_num) (by omega)
  have hltz : (x : ℤ) < 2 ^ eb := by exact_mod_cast hx
  have hh := pow_half heb
  have : (0 : ℤ) < 2 ^ (eb - 1) := by positivity
  constructor <;> omega

/-- the two branches for the greatest exponent -/
theorem unpackFloat_special (heb : 2 ≤ eb) (hfb : 1 ≤ fb) (hF : 1 ≤ F) (hE : eb < E) {b : ℕ}
    (h2 : fExp eb fb b = 2 ^ eb - 1) : ∃ e,
    Unp.unpackFloat F E (.any eb fb dn) b =
      .ok ⟨if fracOf F fb (2 ^ fb + fMan fb b) = 0 then .infinity else .nan, fSign eb fb b, e,
        fracOf F fb (2 ^ fb + fMan fb b)⟩ := by
  obtain ⟨e1, e2, e3⟩ := unpackFloat_fields (F := F) (by omega : 1 ≤ eb) hfb hF b
  have hlt := fExp_lt eb fb b
  rw [unpackFloat_any]
  simp only [e1, e2, e3, bind, Except.bind, pure, Except.pure]
  rw [raw_small hE hlt, arithS_ok' (exp_arith (by omega) hE hlt)]
  simp only []
  have hz : ((fExp eb fb b : ℕ) : ℤ) = 2 ^ eb - 1 := by
    rw [h2]
    have := Nat.one_le_two_pow (n := eb)
    push_cast [this]; ring
  rw [if_pos hz]
  exact ⟨_, rfl⟩

/-- zero, and everything with exponent zero that leaves no fraction or is not decoded -/
theorem unpackFloat_zero (heb : 2 ≤ eb) (hfb : 1 ≤ fb) (hF : 1 ≤ F) (hE : eb < E) {b : ℕ}
    (h1 : fExp eb fb b = 0) (h2 : dn = false ∨ fracOf F fb (2 ^ fb + fMan fb b) = 0) : ∃ e f, 
    Unp.unpackFloat F E (.any eb fb dn) b = .ok ⟨.zero, false, e, f⟩ := by
  obtain ⟨e1, e2, e3⟩ := unpackFloat_fields (F := F) (by omega : 1 ≤ eb) hfb hF b
  have hlt := fExp_lt eb fb b
  rw [unpackFloat_any]
  simp only [e1, e2, e3, bind, Except.bind, pure, Except.pure]
  rw [raw_small hE hlt, arithS_ok' (exp_arith (by omega) hE hlt), h1]
  simp only []
  have h3 : (1 : ℤ) < 2 ^ eb := one_lt_pow₀ (by norm_num) (by omega)
  rw [if_neg (by push_cast; omega), if_pos (by norm_num)]
  have : (!dn || decide (fracOf F fb (2 ^ fb + fMan fb b) = 0)) = true := by
    rcases h2 with h | h <;> simp [h]
  rw [if_pos this]
  exact ⟨_, _, rfl⟩

/-- the fraction of a subnormal, as found after the alignment -/
theorem unpackFloat_sub (heb : 2 ≤ eb) (hfb : 1 ≤ fb) (hF : 1 ≤ F) (hE : eb < E) (hE2 : 2 ^ (eb - 1) + fb ≤ 2 ^ (E - 1))
    {b m L : ℕ} (h1 : fExp eb fb b = 0) (hm : m = fracOf F fb (2 ^ fb + fMan fb b)) (hL1 : 2 ^ L ≤ m) (hL2 : m < 2 ^ (L + 1))
    (hsh : F - L < pw F) (hLfb : F ≤ fb + L) : 
    Unp.unpackFloat F E (.any eb fb true) b =
      .ok ⟨.regular, fSign eb fb b, 1 - (2 ^ (eb - 1) - 1) - F + L, fracOf F L m⟩ := by
  obtain ⟨e1, e2, e3⟩ := unpackFloat_fields (F := F) (by omega : 1 ≤ eb) hfb hF b
  have hlt := fExp_lt eb fb b
  have hmlt : m < 2 ^ F := by
    rw [hm]
    apply fracOf_lt
    have := fMan_lt fb b
    rw [pow_succ]; omega
  have hLF : L < F := (Nat.pow_lt_pow_iff_right (by norm_num : 1 < 2)).mp (lt_of_le_of_lt hL1 hmlt)
  have hm0 : 0 < m := lt_of_lt_of_le (by positivity) hL1
  rw [unpackFloat_any]
  simp only [e1, e2, e3, bind, Except.bind, pure, Except.pure]
  rw [raw_small hE hlt, arithS_ok' (exp_arith (by omega) hE hlt), h1, ← hm]
  simp only []
  have h3 : (1 : ℤ) < 2 ^ eb := one_lt_pow₀ (by norm_num) (by omega)
  rw [if_neg (by push_cast; omega), if_pos (by norm_num)]
  have : (!true || decide (m = 0)) = false := by simp; omega
  rw [this]
  simp only [Bool.false_eq_true, if_false]
  have hk : Unp.findLeft F m = .ok (F - 1 - L) := by
    unfold Unp.findLeft clz; rw [if_neg (by omega), log2_eq hL1 hL2]
  rw [hk]
  simp only []
  have hh := pow_half (eb := eb) (by omega)
  have hE2z : (2 : ℤ) ^ (eb - 1) + fb ≤ 2 ^ (E - 1) := by exact_mod_cast hE2
  have hx : wrapS E (((0 : ℕ) : ℤ) - (2 ^ (eb - 1) - 1)) = 1 - 2 ^ (eb - 1) := by
    rw [wrapS_of_inS (by omega) (exp_arith (by omega) hE (by positivity))]; push_cast; ring
  rw [hx]
  have hpos : (0 : ℤ) < 2 ^ (eb - 1) := by positivity
  have hin : InS E (1 - 2 ^ (eb - 1) - ((F - 1 - L : ℕ) : ℤ)) := by constructor <;> omega
  rw [arithS_ok' hin]
  simp only []
  obtain ⟨y, hy, hy2⟩ := shlU_ok_mod (w := F) (x := m) (n := ((F - 1 - L : ℕ) : ℤ) + 1) (k := F - L) (by omega) hsh
    (fun h32 => by
      calc m * 2 ^ (F - L) < 2 ^ (L + 1) * 2 ^ (F - L) := Nat.mul_lt_mul_of_pos_right hL2 (by positivity)
        _ = 2 ^ (F + 1) := by rw [← pow_add]; congr 1; omega
        _ ≤ 2 ^ 32 := Nat.pow_le_pow_right (by norm_num) (by omega))
  rw [hy]
  simp only []
  rw [wrapS_of_inS (by omega) hin, hy2]
  have e : m * 2 ^ (F - L) = (m - 2 ^ L) * 2 ^ (F - L) + 2 ^ F := by
    have : 2 ^ F = 2 ^ L * 2 ^ (F - L) := by rw [← pow_add]; congr 1; omega
    rw [this, ← add_mul]; congr 1; omega
  have hg : (m - 2 ^ L) * 2 ^ (F - L) < 2 ^ F := by
    rw [pow_succ] at hL2
    calc (m - 2 ^ L) * 2 ^ (F - L) < 2 ^ L * 2 ^ (F - L) := Nat.mul_lt_mul_of_pos_right (by omega) (by positivity)
      _ = 2 ^ F := by rw [← pow_add]; congr 1; omega
  rw [e, Nat.add_mod_right, Nat.mod_eq_of_lt hg]
  congr 2
  · omega
  · unfold fracOf; rw [if_pos (by omega)]

/-- `pack_xfloati` in the normal range -/
theorem packFloat_normal (heb : 2 ≤ eb) (hfb : 1 ≤ fb) (hF : 1 ≤ F) (heb30 : eb ≤ 30) {s : Bool} {e : ℤ} {f x : ℕ}
    (hf : f < 2 ^ F) (hx : e + (2 ^ (eb - 1) - 1) = x) (h1 : 1 ≤ x) (h2 : x + 2 ≤ 2 ^ eb) (hE : eb < max E (Unp.leastBits eb)) :
    Unp.packFloat F E (.any eb fb dn) ⟨.regular, s, e, f⟩ =
      .ok (fJoin eb fb s x (if fb < F then f / 2 ^ (F - fb) else f * 2 ^ (fb - F))) := by
  have hxlt : x < 2 ^ eb := by omega
  rw [packFloat_any]
  simp only []
  rw [hx]
  generalize max E (Unp.leastBits eb) = EX at *
  have hle : (2 : ℤ) ^ eb ≤ 2 ^ (EX - 1) := pow_le_pow_right₀ (by norm_num) (by omega)
  have hin : InS EX (x : ℤ) := by
    have : (x : ℤ) < 2 ^ eb := by exact_mod_cast hxlt
    constructor <;> omega
  rw [arithS_ok' hin]
  simp only [bind, Except.bind, pure, Except.pure]
  rw [wrapS_of_inS (by omega) hin]
  have h2z : (x : ℤ) + 2 ≤ 2 ^ eb := by exact_mod_cast h2
  have c1 : ¬ ((x : ℤ) > 2 ^ eb - 2) := by omega
  have c2 : ¬ ((decide ((x : ℤ) < 1) && dn) = true) := by simp; omega
  have c3 : ¬ ((x : ℤ) < 1) := by omega
  rw [if_neg c1, if_neg c2, if_neg c3]
  have h64 : x < 2 ^ 64 := lt_of_lt_of_le hxlt (Nat.pow_le_pow_right (by norm_num) (by omega))
  rw [wrapU_natCast h64, Nat.and_two_pow_sub_one_eq_mod, Nat.mod_eq_of_lt hxlt]
  have hxf : x * 2 ^ fb < 2 ^ (eb + fb) := by
    rw [pow_add]; exact Nat.mul_lt_mul_of_pos_right hxlt (by positivity)
  have hlt1 : (2 : ℕ) ^ (eb + fb) < 2 ^ (eb + fb + 1) := Nat.pow_lt_pow_right (by norm_num) (by omega)
  obtain ⟨y, hy, hy2⟩ := shlU_ok_mod (w := eb + fb + 1) (x := x) (n := (fb : ℤ)) (k := fb) rfl
    (by have := le_pw (eb + fb + 1); omega) (fun h32 => by have := pow_le_32 h32; omega)
  rw [hy]
  simp only []
  rw [extractPack_eq hfb (by omega) hF hf, hy2, Nat.mod_eq_of_lt (by omega : x * 2 ^ fb < 2 ^ (eb + fb + 1))]
  simp only []
  have hm : (if fb < F then f / 2 ^ (F - fb) else f * 2 ^ (fb - F)) < 2 ^ fb := by
    split_ifs with h
    · rw [Nat.div_lt_iff_lt_mul (by positivity), ← pow_add, show fb + (F - fb) = F by omega]; exact hf
    · calc f * 2 ^ (fb - F) < 2 ^ F * 2 ^ (fb - F) := Nat.mul_lt_mul_of_pos_right hf (by positivity)
        _ = 2 ^ fb := by rw [← pow_add]; congr 1; omega
  generalize (if fb < F then f / 2 ^ (F - fb) else f * 2 ^ (fb - F)) = m at *
  have hlow := fJoin_low hxlt hm
  have hor1 : m ||| x * 2 ^ fb = x * 2 ^ fb + m := by
    have := Nat.two_pow_add_eq_or_of_lt hm x
    rw [Nat.or_comm, mul_comm]; exact this.symm
  have hor : (m ||| x * 2 ^ fb) ||| (if s then 2 ^ (eb + fb) else 0) = fJoin eb fb s x m := by
    rw [hor1]
    unfold fJoin
    cases s
    · simp
    · simp only [if_true]
      have := Nat.two_pow_add_eq_or_of_lt hlow 1
      rw [mul_one] at this
      rw [Nat.or_comm, ← this]; ring
  rw [hor]
  have hxb : 1 ≤ x * 2 ^ fb := Nat.mul_pos h1 (by positivity)
  have hsh : (if eb + fb + 1 < 32 then fJoin eb fb s x m * 2 else fJoin eb fb s x m * 2 % 2 ^ (eb + fb + 1)) ≠ 0 := by
    split_ifs
    · unfold fJoin; omega
    · have : fJoin eb fb s x m * 2 % 2 ^ (eb + fb + 1) = 2 * (x * 2 ^ fb + m) := by
        have e1 : fJoin eb fb s x m * 2 = 2 * (x * 2 ^ fb + m) + 2 ^ (eb + fb + 1) * (if s then 1 else 0) := by
          unfold fJoin
          rw [pow_succ]
          cases s
          · simp; ring
          · simp; ring
        rw [e1, Nat.add_mul_mod_self_left]
        apply Nat.mod_eq_of_lt
        rw [pow_succ]; omega
      omega
  rw [if_neg (fun hc => hsh hc.2)]

end Verif
