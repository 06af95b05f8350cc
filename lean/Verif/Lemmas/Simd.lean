import Verif.Model.Simd
import Verif.Lemmas.Cpp
import Mathlib.Tactic.Ring
import Mathlib.Tactic.IntervalCases
import Mathlib.Tactic.SplitIfs

/-! # Lanes of registers -/

namespace Verif
namespace Simd

/-- the number with the digits `g 0, …, g (b-1)` to base 256 -/
def horner (g : ℕ → ℕ) (b : ℕ) : ℕ := (List.range b).foldr (fun j a => g j + 256 * a) 0

theorem horner_succ (g : ℕ → ℕ) (b : ℕ) : horner g (b + 1) = g 0 + 256 * horner (fun j => g (j + 1)) b := by
  unfold horner
  rw [List.range_succ_eq_map, List.foldr_cons, List.foldr_map]

theorem horner_congr {g h : ℕ → ℕ} {b : ℕ} (e : ∀ j < b, g j = h j) : horner g b = horner h b := by
  induction b generalizing g h with
  | zero => rfl
  | succ b ih => rw [horner_succ, horner_succ, e 0 (by omega), ih fun j hj => e (j + 1) (by omega)]

theorem horner_lt {g : ℕ → ℕ} {b : ℕ} (e : ∀ j, g j < 256) : horner g b < 256 ^ b := by
  induction b generalizing g with
  | zero => simp [horner]
  | succ b ih =>
    rw [horner_succ, pow_succ]
    have := ih (g := fun j => g (j + 1)) fun j => e _
    have := e 0
    omega

theorem horner_digit {g : ℕ → ℕ} {b j : ℕ} (e : ∀ j, g j < 256) (hj : j < b) : horner g b / 256 ^ j % 256 = g j := by
  induction b generalizing g j with
  | zero => omega
  | succ b ih =>
    have h0 := e 0
    rw [horner_succ]
    cases j with
    | zero => rw [pow_zero, Nat.div_one]; omega
    | succ j =>
      rw [pow_succ', ← Nat.div_div_eq_div_mul, show (g 0 + 256 * horner (fun j => g (j + 1)) b) / 256 =
        horner (fun j => g (j + 1)) b by omega]
      exact ih (g := fun j => g (j + 1)) (fun j => e _) (by omega)

theorem horner_digits (x b : ℕ) : horner (fun j => x / 256 ^ j % 256) b = x % 256 ^ b := by
  induction b generalizing x with
  | zero => simp [horner, Nat.mod_one]
  | succ b ih =>
    rw [horner_succ, pow_succ', Nat.mod_mul, ← ih (x / 256)]
    simp only [pow_zero, Nat.div_one]
    congr 2
    apply horner_congr
    intro j _
    rw [Nat.div_div_eq_div_mul, pow_succ']

theorem lane_eq (b : ℕ) (r : Reg) (i : ℕ) : lane b r i = horner (fun j => (r (b * i + j)).toNat) b := by
  unfold lane horner; rfl

theorem lane_lt (b : ℕ) (r : Reg) (i : ℕ) : lane b r i < 256 ^ b := by
  rw [lane_eq]; exact horner_lt fun j => (r (b * i + j)).isLt

theorem lane_byte {b j : ℕ} (r : Reg) (i : ℕ) (hj : j < b) : lane b r i / 256 ^ j % 256 = (r (b * i + j)).toNat := by
  rw [lane_eq]; exact horner_digit (g := fun j => (r (b * i + j)).toNat) (fun j => (r (b * i + j)).isLt) hj

theorem lane_congr {b : ℕ} {r s : Reg} {i k : ℕ} (e : ∀ j < b, r (b * i + j) = s (b * k + j)) : lane b r i = lane b s k := by
  rw [lane_eq, lane_eq]
  exact horner_congr fun j hj => by rw [e j hj]

theorem byte_eq {b : ℕ} {r s : Reg} {i k : ℕ} (e : lane b r i = lane b s k) {j : ℕ} (hj : j < b) :
    r (b * i + j) = s (b * k + j) := by
  apply BitVec.eq_of_toNat_eq
  rw [← lane_byte r i hj, ← lane_byte s k hj, e]

theorem lane_ofLanes {b : ℕ} (hb : 0 < b) (f : ℕ → ℕ) (i : ℕ) : lane b (ofLanes b f) i = f i % 256 ^ b := by
  rw [lane_eq, ← horner_digits]
  apply horner_congr
  intro j hj
  unfold ofLanes
  rw [Nat.mul_add_div hb, Nat.div_eq_of_lt hj, Nat.add_zero, Nat.mul_add_mod, Nat.mod_eq_of_lt hj, BitVec.toNat_ofNat]

theorem lane_one (r : Reg) (i : ℕ) : lane 1 r i = (r i).toNat := by
  rw [lane_eq, horner_succ]; simp [horner]

theorem mask_lt (b : ℕ) (p : Bool) : mask b p < 256 ^ b := by
  unfold mask
  have : 0 < 256 ^ b := by positivity
  split <;> omega

theorem mask_inj {b : ℕ} (hb : 0 < b) {p q : Bool} : mask b p = mask b q ↔ p = q := by
  have : 256 ≤ 256 ^ b := by calc 256 = 256 ^ 1 := rfl
    _ ≤ 256 ^ b := Nat.pow_le_pow_right (by norm_num) hb
  unfold mask
  cases p <;> cases q <;> simp <;> omega

theorem mask_horner (b : ℕ) (p : Bool) : mask b p = horner (fun _ => if p then 255 else 0) b := by
  induction b with
  | zero => simp [mask, horner]
  | succ b ih =>
    rw [horner_succ, ← ih]
    have : 0 < 256 ^ b := by positivity
    unfold mask
    rw [pow_succ]
    cases p <;> simp <;> omega

/-- a mask lane has all bits or none -/
theorem mask_bytes {b i : ℕ} {r : Reg} {p : Bool} (h : lane b r i = mask b p) {j : ℕ} (hj : j < b) :
    r (b * i + j) = if p then 255 else 0 := by
  apply BitVec.eq_of_toNat_eq
  rw [← lane_byte r i hj, h, mask_horner, horner_digit (fun j => by split <;> omega) hj]
  cases p <;> rfl

theorem mask_of_bytes {b i : ℕ} {r : Reg} {p : Bool} (h : ∀ j < b, r (b * i + j) = if p then 255 else 0) :
    lane b r i = mask b p := by
  rw [lane_eq, mask_horner]
  apply horner_congr
  intro j hj
  rw [h j hj]
  cases p <;> rfl

theorem lane_mask {b : ℕ} (hb : 0 < b) (f : ℕ → Bool) (i : ℕ) : lane b (ofLanes b fun i => mask b (f i)) i = mask b (f i) := by
  rw [lane_ofLanes hb, Nat.mod_eq_of_lt (mask_lt _ _)]

theorem lane_cmpeq {b : ℕ} (hb : 0 < b) (x y : Reg) (i : ℕ) :
    lane b (cmpeq b x y) i = mask b (lane b x i = lane b y i) := lane_mask hb (fun i => lane b x i = lane b y i) i

theorem lane_cmpgtS {b : ℕ} (hb : 0 < b) (x y : Reg) (i : ℕ) :
    lane b (cmpgtS b x y) i = mask b (slane b y i < slane b x i) := lane_mask hb (fun i => slane b y i < slane b x i) i

theorem lane_cmpltF {b : ℕ} (hb : 0 < b) (lt : ℕ → ℕ → Bool) (x y : Reg) (i : ℕ) :
    lane b (cmpltF b lt x y) i = mask b (lt (lane b x i) (lane b y i)) := lane_mask hb (fun i => lt (lane b x i) (lane b y i)) i

theorem lane_andnot {b i : ℕ} {x y : Reg} {p q : Bool} (hx : lane b x i = mask b p) (hy : lane b y i = mask b q) :
    lane b (andnot x y) i = mask b (!p && q) := by
  apply mask_of_bytes
  intro j hj
  unfold andnot
  rw [mask_bytes hx hj, mask_bytes hy hj]
  cases p <;> cases q <;> rfl

theorem lane_maxU {b : ℕ} (hb : 0 < b) (x y : Reg) (i : ℕ) : lane b (maxU b x y) i = max (lane b x i) (lane b y i) := by
  unfold maxU
  rw [lane_ofLanes hb, Nat.mod_eq_of_lt (max_lt (lane_lt _ _ _) (lane_lt _ _ _))]

theorem pow256 (b : ℕ) : (256 : ℕ) ^ b = 2 ^ (8 * b) := by rw [pow_mul]; norm_num

theorem lane_maxS {b : ℕ} (hb : 0 < b) (x y : Reg) (i : ℕ) : slane b (maxS b x y) i = max (slane b x i) (slane b y i) := by
  have key : ∀ z : ℤ, wrapS (8 * b) ((wrapU (8 * b) (wrapS (8 * b) z) % 256 ^ b : ℕ) : ℤ) = wrapS (8 * b) z := by
    intro z
    unfold wrapS wrapU
    have hp : (0 : ℤ) < 2 ^ (8 * b) := by positivity
    have e : ((2 ^ (8 * b) : ℕ) : ℤ) = 2 ^ (8 * b) := by push_cast; rfl
    have e' : ((256 ^ b : ℕ) : ℤ) = 2 ^ (8 * b) := by rw [pow256]; exact e
    rw [Int.natCast_mod, e', Int.toNat_of_nonneg (Int.emod_nonneg _ hp.ne'), Int.emod_emod_of_dvd _ (dvd_refl _), ← e,
      Int.emod_bmod, Int.bmod_bmod]
  unfold slane at *
  unfold maxS
  rw [lane_ofLanes hb]
  rcases max_cases (slane b x i) (slane b y i) with ⟨h, _⟩ | ⟨h, _⟩
  · rw [h]; unfold slane at h; rw [h]; exact key _
  · rw [h]; unfold slane at h; rw [h]; exact key _

theorem lane_cmpgtU {b : ℕ} (hb : 0 < b) (x y : Reg) (i : ℕ) : lane b (cmpgtU b x y) i = mask b (lane b y i < lane b x i) := by
  unfold cmpgtU
  rw [lane_andnot (lane_cmpeq hb _ _ _) (lane_cmpeq hb _ _ _), mask_inj hb, lane_maxU hb]
  rw [Bool.eq_iff_iff]
  simp only [Bool.and_eq_true, Bool.not_eq_true', decide_eq_false_iff_not, decide_eq_true_eq]
  omega

theorem lane_zero (b i : ℕ) : lane b zero i = 0 := by
  rw [lane_eq]
  have : mask b false = 0 := rfl
  rw [← this, mask_horner]
  apply horner_congr
  intro j _
  rfl

theorem lane_cmpleU16 (x y : Reg) (i : ℕ) : lane 2 (cmpleU16 x y) i = mask 2 (lane 2 x i ≤ lane 2 y i) := by
  unfold cmpleU16
  rw [lane_cmpeq (by norm_num), mask_inj (by norm_num), lane_zero]
  unfold subsU
  rw [lane_ofLanes (by norm_num), Nat.mod_eq_of_lt (lt_of_le_of_lt (Nat.sub_le _ _) (lane_lt _ _ _))]
  rw [Bool.eq_iff_iff]
  simp only [decide_eq_true_eq]
  omega

theorem lane_cmpltU16 (x y : Reg) (i : ℕ) : lane 2 (cmpltU16 x y) i = mask 2 (lane 2 x i < lane 2 y i) := by
  unfold cmpltU16 cmpgtU16
  rw [lane_andnot (lane_cmpeq (by norm_num) _ _ _) (lane_cmpleU16 _ _ _), mask_inj (by norm_num)]
  rw [Bool.eq_iff_iff]
  simp only [Bool.and_eq_true, Bool.not_eq_true', decide_eq_false_iff_not, decide_eq_true_eq]
  omega

/-- blending byte by byte with a mask of whole lanes -/
theorem lane_blend1 {b i : ℕ} {m : Reg} {p : Bool} (h : lane b m i = mask b p) (x y : Reg) :
    lane b (blendv 1 x y m) i = if p then lane b y i else lane b x i := by
  have : ∀ j < b, blendv 1 x y m (b * i + j) = if p then y (b * i + j) else x (b * i + j) := by
    intro j hj
    unfold blendv
    rw [Nat.div_one, Nat.one_mul, Nat.sub_self, Nat.add_zero, mask_bytes h hj]
    cases p <;> rfl
  cases p
  · exact lane_congr fun j hj => this j hj
  · exact lane_congr fun j hj => this j hj

/-- blending lane by lane -/
theorem lane_blendv {b : ℕ} (hb : 0 < b) (x y m : Reg) (i : ℕ) :
    lane b (blendv b x y m) i = if 256 ^ b ≤ 2 * lane b m i then lane b y i else lane b x i := by
  have hm : (m (b * i + (b - 1))).msb = decide (256 ^ b ≤ 2 * lane b m i) := by
    rw [BitVec.msb_eq_decide, ← lane_byte m i (show b - 1 < b by omega)]
    obtain ⟨c, rfl⟩ : ∃ c, b = c + 1 := ⟨b - 1, by omega⟩
    have h := lane_lt (c + 1) m i
    rw [Nat.add_sub_cancel]
    have hp : 0 < 256 ^ c := by positivity
    have e1 : 256 ^ (c + 1) = 256 ^ c * 256 := pow_succ _ _
    rw [e1] at h ⊢
    have hq : lane (c + 1) m i / 256 ^ c < 256 := by rw [Nat.div_lt_iff_lt_mul hp, Nat.mul_comm]; exact h
    rw [Nat.mod_eq_of_lt hq, decide_eq_decide, show 2 ^ (8 - 1) = 128 from rfl, Nat.le_div_iff_mul_le hp]
    omega
  have : ∀ j < b, blendv b x y m (b * i + j) = if 256 ^ b ≤ 2 * lane b m i then y (b * i + j) else x (b * i + j) := by
    intro j hj
    unfold blendv
    rw [Nat.mul_add_div hb, Nat.div_eq_of_lt hj, Nat.add_zero, hm]
    simp only [decide_eq_true_eq]
  split_ifs with hc
  · exact lane_congr fun j hj => by rw [this j hj, if_pos hc]
  · exact lane_congr fun j hj => by rw [this j hj, if_neg hc]

theorem mask_top {b : ℕ} (hb : 0 < b) (p : Bool) : 256 ^ b ≤ 2 * mask b p ↔ p = true := by
  have : 256 ≤ 256 ^ b := by calc 256 = 256 ^ 1 := rfl
    _ ≤ 256 ^ b := Nat.pow_le_pow_right (by norm_num) hb
  unfold mask
  cases p <;> simp <;> omega

theorem lane_blendv_mask {b i : ℕ} (hb : 0 < b) {m : Reg} {p : Bool} (h : lane b m i = mask b p) (x y : Reg) :
    lane b (blendv b x y m) i = if p then lane b y i else lane b x i := by
  rw [lane_blendv hb, h]
  simp only [mask_top hb]

/-! ## Widening masks -/

theorem lane_merge (l h : Reg) {i : ℕ} (hi : i < 8) :
    lane 4 (mergelowhigh l h) i = if i < 4 then lane 4 l i else lane 4 h (i - 4) := by
  have e : ∀ k, mergelowhigh l h k = if k < 16 then l k else h (k - 16) := fun k => rfl
  split_ifs with hc
  · apply lane_congr; intro j hj
    rw [e, if_pos (by omega)]
  · apply lane_congr; intro j hj
    rw [e, if_neg (by omega)]
    congr 1; omega

theorem lane_srli {b : ℕ} (x : Reg) {n i : ℕ} (h : b * (i + n) + b ≤ 16) :
    lane b (srli128 x (b * n)) i = lane b x (i + n) := by
  apply lane_congr; intro j hj
  unfold srli128
  rw [Nat.mul_add] at h
  rw [if_pos (by omega)]
  congr 1
  rw [Nat.mul_add]; omega

theorem lane_low {b : ℕ} (x : Reg) {i : ℕ} (h : b * i + b ≤ 16) : lane b (low128 x) i = lane b x i := by
  apply lane_congr; intro j hj
  unfold low128
  rw [if_pos (by omega)]

theorem lane_high {b k : ℕ} (x : Reg) {i : ℕ} (h : b * i + b ≤ 16) (hk : b * k = 16) : lane b (gethigh x) i = lane b x (i + k) := by
  apply lane_congr; intro j hj
  unfold gethigh low128 permute2f128
  have : (b * i + j) % 16 = b * i + j := Nat.mod_eq_of_lt (by omega)
  simp only [show b * i + j < 16 by omega, if_true, this, show (1 % 16 / 8 % 2 = 1) = False by norm_num, if_false]
  congr 1
  rw [Nat.mul_add]; omega

/-- sign extension keeps the top bit -/
theorem lane_cvt {b : ℕ} (hb : 0 < b) (hb4 : b ≤ 4) (x : Reg) {i : ℕ} {p : Bool} (h : lane b x i = mask b p) :
    lane 4 (cvtTo32 b x) i = mask 4 p := by
  unfold cvtTo32
  rw [lane_ofLanes (by norm_num)]
  unfold slane
  rw [h]
  interval_cases b <;> cases p <;> decide

end Simd
end Verif
