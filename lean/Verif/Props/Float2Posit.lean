import Verif.Lemmas.Float2Posit
import Verif.Props.ExtConvert

/-!
# C92 — `float2posit`, the constant-expression conversion from a float

include/float2posit.hpp repeats the converting constructor in one function. It agrees with the constructor between the least
and the greatest posit, but it drops the result of its own `clamp`: numbers outside do not saturate.
-/

namespace Verif
open Fmt

variable {c : Cfg} {eb fb : ℕ} {dn : Bool}

/-- **C92**: `float2posit` gives what `Posit(x)` gives for zeros, infinities, NaN and every number between the least and the
greatest posit, undefined cases included. -/
theorem C92_same (h : c.WF) (heb : 2 ≤ eb) (heb30 : eb ≤ 30) (hfb : 1 ≤ fb) (hE : eb < c.E)
    (hE2 : 2 ^ (eb - 1) + fb ≤ 2 ^ (c.E - 1)) {b : ℕ}
    (hb : ∀ x, ieee eb fb b = .num x → readSub eb c.F x = 0 ∨
      (2 : ℚ) ^ (-(c.maxScale : ℤ)) ≤ |readSub eb c.F x| ∧ |readSub eb c.F x| < 2 ^ (c.maxScale : ℤ)) :
    Posit.float2posit c (.any eb fb dn) b = Posit.ofFloat c (.any eb fb true) b := by
  have hF1 : 1 ≤ c.F := by have := h.hF; omega
  rw [f2p_eq (by omega) hE.le]
  unfold Posit.ofFloat
  have hspec : fExp eb fb b = 2 ^ eb - 1 →
      (do let u ← Unp.unpackFloat c.F c.E (.any eb fb true) b; f2pOf c u) =
      (do let u ← Unp.unpackFloat c.F c.E (.any eb fb true) b; Posit.pack c u) := by
    intro h1
    obtain ⟨e, he⟩ := unpackFloat_special (F := c.F) (E := c.E) (dn := true) heb hfb hF1 hE h1
    obtain ⟨-, hn, hi⟩ := C03_pack_special h (fSign eb fb b) e (fracOf c.F fb (2 ^ fb + fMan fb b))
    rw [he]
    simp only [bind, Except.bind]
    split_ifs
    · rw [hi]
      unfold f2pOf
      simp only [h.ninf_eq, h.pinf_eq]
      split_ifs <;> rfl
    · rw [hn]
      unfold f2pOf
      simp only [h.nan_eq]
  cases hy : ieee eb fb b with
  | inf s =>
    rw [ieee_eq] at hy
    split_ifs at hy with h1
    exact hspec h1
  | nan =>
    rw [ieee_eq] at hy
    split_ifs at hy with h1
    exact hspec h1
  | num x =>
    by_cases hub : |x| < minNorm eb ∧ 32 ≤ c.F ∧ |readSub eb c.F x| = subUnit eb c.F
    · rw [unpackFloat_num_ub heb hfb hE hE2 hy hub.1 hub.2.1 hub.2.2]; rfl
    obtain ⟨hu0, hu⟩ := unpackFloat_num heb heb30 hfb hF1 hE hE2 hy
    by_cases h0 : readSub eb c.F x = 0
    · obtain ⟨e, f, he⟩ := hu0 h0
      rw [he]
      simp only [bind, Except.bind]
      rw [(C03_pack_special h false e f).1]
      rfl
    · obtain ⟨e, f, he, hf, hl, hr, -⟩ := hu h0 hub
      obtain ⟨h1, h2⟩ := (hb x hy).resolve_left h0
      rw [he]
      simp only [bind, Except.bind]
      have h3 : -(c.maxScale : ℤ) < e + 1 := (zpow_lt_zpow_iff_right₀ (by norm_num : (1 : ℚ) < 2)).mp (lt_of_le_of_lt h1 hr)
      have h4 : e < c.maxScale := (zpow_lt_zpow_iff_right₀ (by norm_num : (1 : ℚ) < 2)).mp (lt_of_le_of_lt hl h2)
      exact f2pPack_mid' (e := e) h _ hf (by omega) h4

/-- zeros, infinities, NaN, two numbers between, the least posit and the greatest one -/
example : P12.WF ∧ 8 < P12.E ∧ 2 ^ (8 - 1) + 23 ≤ 2 ^ (P12.E - 1) ∧
    [0, 0x80000000, 0x7f800000, 0xff800000, 0x7fc00000, 0x40490fdb, 0xc0490fdb, 0x35800000, 0x49ffffff].map
      (Posit.float2posit P12 .single) =
    [0, 0x80000000, 0x7f800000, 0xff800000, 0x7fc00000, 0x40490fdb, 0xc0490fdb, 0x35800000, 0x49ffffff].map
      (Posit.ofFloat P12 .single) ∧
    Posit.float2posit P12 .single 0xc0490fdb = .ok (-1426) := by decide +kernel

/-- **C92**, what that means: the outcome of rounding toward zero for numbers between the least and the greatest posit. -/
theorem C92_outcome (h : c.WF) (heb : 2 ≤ eb) (heb30 : eb ≤ 30) (hfb : 1 ≤ fb) (hF : c.fb ≤ c.F) (hE : eb < c.E)
    (hE2 : 2 ^ (eb - 1) + fb ≤ 2 ^ (c.E - 1)) {b : ℕ} {x : ℚ} (hx : ieee eb fb b = .num x) (hn : minNorm eb ≤ |x|)
    (h1 : (2 : ℚ) ^ (-(c.maxScale : ℤ)) ≤ |x|) (h2 : |x| < 2 ^ (c.maxScale : ℤ)) :
    Outcome c x (Posit.float2posit c (.any eb fb dn) b) := by
  have hread : readSub eb c.F x = x := by unfold readSub; rw [if_neg (not_lt.mpr hn)]
  rw [C92_same h heb heb30 hfb hE hE2 (by
    intro z hz
    rw [hx] at hz
    have hz : x = z := XNum.num.inj hz
    subst hz
    rw [hread]
    exact Or.inr ⟨h1, h2⟩)]
  have := C89_ofFloat h heb heb30 hfb hF hE hE2 b
  rw [hx] at this
  simp only [] at this
  rw [hread] at this
  exact this.2 (by intro hc; exact absurd hc.1 (not_lt.mpr hn))

/-- `π` in 32 bits -/
example : P12.WF ∧ P12.fb ≤ P12.F ∧ 8 < P12.E ∧ 2 ^ (8 - 1) + 23 ≤ 2 ^ (P12.E - 1) ∧ P12.maxScale = 20 ∧
    Posit.float2posit P12 .single 0x40490fdb = .ok 1426 := by decide +kernel

/-- **C92**, numbers above: nothing saturates. With the regime `r` of the number, the result is the all-ones pattern
`2^(N-1)-1` (an infinity of the formats that have two) for the two regimes after the greatest posit, then a pattern that loses
one bit with every further regime, and it is undefined once `r` reaches the holder (3 bits less for the wide holders). -/
theorem C92_above (h : c.WF) (heb : 2 ≤ eb) (heb30 : eb ≤ 30) (hfb : 1 ≤ fb) (hE : eb < c.E)
    (hE2 : 2 ^ (eb - 1) + fb ≤ 2 ^ (c.E - 1)) {b : ℕ} {x : ℚ} (hx : ieee eb fb b = .num x) (hn : minNorm eb ≤ |x|)
    {r : ℕ} (hr : c.N ≤ r + 2) (hrH : r < 2 ^ (c.H - 1)) (h1 : (2 : ℚ) ^ (2 ^ c.es * r) ≤ |x|)
    (h2 : |x| < 2 ^ (2 ^ c.es * (r + 1))) :
    Posit.float2posit c (.any eb fb dn) b =
      if r < c.H ∧ r + 3 < max 32 c.H then
        .ok ((if x < 0 then -1 else 1) * (2 ^ min (c.N - 1) (2 * c.N - 2 - r) - 1))
      else .error .shiftAmount := by
  have hF1 : 1 ≤ c.F := by have := h.hF; omega
  have hread : readSub eb c.F x = x := by unfold readSub; rw [if_neg (not_lt.mpr hn)]
  have hx0 : readSub eb c.F x ≠ 0 := by
    rw [hread]; intro h0
    rw [h0, abs_zero] at h1
    have : (0 : ℚ) < 2 ^ (2 ^ c.es * r) := by positivity
    linarith
  obtain ⟨-, hu⟩ := unpackFloat_num heb heb30 hfb hF1 hE hE2 hx
  obtain ⟨e, f, he, hf, hl, hh, hin⟩ := hu hx0 (fun hc => absurd hc.1 (not_lt.mpr hn))
  rw [hread] at he hl hh
  rw [f2p_eq (by omega) hE.le, he]
  have h3 : ((2 ^ c.es * r : ℕ) : ℤ) < e + 1 := (zpow_lt_zpow_iff_right₀ (by norm_num : (1 : ℚ) < 2)).mp
    (lt_of_le_of_lt (by rw [zpow_natCast]; exact h1) hh)
  have h4 : e < ((2 ^ c.es * (r + 1) : ℕ) : ℤ) := (zpow_lt_zpow_iff_right₀ (by norm_num : (1 : ℚ) < 2)).mp
    (lt_of_le_of_lt hl (by rw [zpow_natCast]; exact h2))
  push_cast at h3 h4
  have hp : (0 : ℤ) < 2 ^ c.es := by positivity
  have hreg : e / 2 ^ c.es = r := by
    rw [Int.ediv_eq_iff_of_pos hp]
    constructor <;> nlinarith
  show Posit.f2pPack c _ e f = _
  rw [f2pPack_high h _ hf hin hreg hr (by exact_mod_cast hrH)]
  have hone := Nat.one_le_two_pow (n := min (c.N - 1) (2 * c.N - 2 - r))
  have hpw : pw c.H = max 32 c.H := rfl
  rw [hpw]
  push_cast [Nat.cast_sub hone]
  split_ifs with ha hb hc hc
  · congr 1; ring
  · simp at hb; exact absurd hb (not_lt.mpr (not_lt.mp hc))
  · exact absurd hc (by simpa using hb)
  · congr 1; ring
  · rfl

/-- `2^20`, `2^22`, `2^24`, `-2^26`, `2^30`, `2^32` in a posit of 12 bits: the third is already below 1 (the pattern of 1 is
1024), the constructor gives 2047 for all of them -/
example : P12.WF ∧ 8 < P12.E ∧ 2 ^ (8 - 1) + 23 ≤ 2 ^ (P12.E - 1) ∧ P12.one = 1024 ∧
    [0x49800000, 0x4a800000, 0x4b800000, 0xcc800000, 0x4e800000, 0x4f800000].map (Posit.float2posit P12 .single) =
    [.ok 2047, .ok 2047, .ok 1023, .ok (-511), .ok 127, .error .shiftAmount] ∧
    [0x49800000, 0x4a800000, 0x4b800000, 0xcc800000, 0x4e800000, 0x4f800000].map (Posit.ofFloat P12 .single) =
    [.ok 2047, .ok 2047, .ok 2047, .ok (-2047), .ok 2047, .ok 2047] := by decide +kernel

/-- **C92**, numbers below: they become zero, which the constructor never does to a nonzero number, and from a regime of
`max(32, holder) - 2` on they are undefined. -/
theorem C92_below (h : c.WF) (heb : 2 ≤ eb) (heb30 : eb ≤ 30) (hfb : 1 ≤ fb) (hE : eb < c.E)
    (hE2 : 2 ^ (eb - 1) + fb ≤ 2 ^ (c.E - 1)) {b : ℕ} {x : ℚ} (hx : ieee eb fb b = .num x) (hn : minNorm eb ≤ |x|)
    {r : ℕ} (hr : c.N ≤ r + 1) (hrH : r ≤ 2 ^ (c.H - 1)) (h1 : (2 : ℚ) ^ (-(2 ^ c.es * r : ℤ)) ≤ |x|)
    (h2 : |x| < 2 ^ (-(2 ^ c.es * (r - 1) : ℤ))) :
    Posit.float2posit c (.any eb fb dn) b = if r + 2 < max 32 c.H then .ok 0 else .error .shiftAmount := by
  have hF1 : 1 ≤ c.F := by have := h.hF; omega
  have hread : readSub eb c.F x = x := by unfold readSub; rw [if_neg (not_lt.mpr hn)]
  have hx0 : readSub eb c.F x ≠ 0 := by
    rw [hread]; intro h0
    rw [h0, abs_zero] at h1
    have : (0 : ℚ) < 2 ^ (-(2 ^ c.es * r : ℤ)) := by positivity
    linarith
  obtain ⟨-, hu⟩ := unpackFloat_num heb heb30 hfb hF1 hE hE2 hx
  obtain ⟨e, f, he, hf, hl, hh, hin⟩ := hu hx0 (fun hc => absurd hc.1 (not_lt.mpr hn))
  rw [hread] at he hl hh
  rw [f2p_eq (by omega) hE.le, he]
  have h3 := (zpow_lt_zpow_iff_right₀ (by norm_num : (1 : ℚ) < 2)).mp (lt_of_le_of_lt h1 hh)
  have h4 := (zpow_lt_zpow_iff_right₀ (by norm_num : (1 : ℚ) < 2)).mp (lt_of_le_of_lt hl h2)
  have hp : (0 : ℤ) < 2 ^ c.es := by positivity
  have hreg : e / 2 ^ c.es = -(r : ℤ) := by
    rw [Int.ediv_eq_iff_of_pos hp]
    constructor <;> nlinarith
  show Posit.f2pPack c _ e f = _
  exact f2pPack_low h _ hf hin hreg hr (by exact_mod_cast hrH)

/-- `2^-21`, `-2^-58`, `2^-59`, `2^-61` in a posit of 12 bits -/
example : P12.WF ∧ 8 < P12.E ∧ 2 ^ (8 - 1) + 23 ≤ 2 ^ (P12.E - 1) ∧
    [0x35000000, 0xa2800000, 0x22000000, 0x21000000].map (Posit.float2posit P12 .single) =
    [.ok 0, .ok 0, .error .shiftAmount, .error .shiftAmount] ∧
    [0x35000000, 0xa2800000, 0x22000000, 0x21000000].map (Posit.ofFloat P12 .single) =
    [.ok 1, .ok (-1), .ok 1, .ok 1] := by decide +kernel

end Verif
