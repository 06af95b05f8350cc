import Verif.Props.Sum
import Verif.Props.SoftFloat
import Verif.Props.ErrorBound

/-! # C104: how far a dot product can be from the exact one -/

namespace Verif
open Fmt

variable {c : Cfg}

theorem cutTo_dist {u x : ℚ} (hu : 0 < u) : |cutTo u x - x| ≤ u := by
  rcases le_total 0 x with hx | hx
  · have h1 := cutTo_le hu hx
    have h2 := (cutTo_err (x := x) hu).2
    rw [abs_of_nonneg hx, abs_of_nonneg (cutTo_nonneg hu hx)] at h2
    rw [abs_of_nonpos (by linarith)]; linarith
  · have h1 := cutTo_ge hu hx
    have h2 := (cutTo_err (x := x) hu).2
    rw [abs_of_nonpos hx, abs_of_nonpos (cutTo_nonpos hu hx)] at h2
    rw [abs_of_nonneg (by linarith)]; linarith

theorem sumUnit_le (F : ℕ) {x y : ℚ} (hx : x ≠ 0) (hy : y ≠ 0) : sumUnit F x y ≤ (|x| + |y|) * 2 ^ (2 - F : ℤ) := by
  have key : ∀ z : ℚ, z ≠ 0 → (2 : ℚ) ^ Int.log 2 |z| ≤ |z| := fun z hz => by
    have := Int.zpow_log_le_self (b := 2) (by norm_num) (abs_pos.mpr hz)
    exact_mod_cast this
  unfold sumUnit
  rw [show max (Int.log 2 |x|) (Int.log 2 |y|) + 2 - (F : ℤ) = max (Int.log 2 |x|) (Int.log 2 |y|) + (2 - F) by ring, zpow_add₀ (by norm_num)]
  refine mul_le_mul_of_nonneg_right ?_ (by positivity)
  rcases max_choice (Int.log 2 |x|) (Int.log 2 |y|) with h | h <;> rw [h]
  · exact (key x hx).trans (by linarith [abs_nonneg y])
  · exact (key y hy).trans (by linarith [abs_nonneg x])

theorem alignedSum_dist (F : ℕ) (x y : ℚ) : |alignedSum F x y - (x + y)| ≤ (|x| + |y|) * 2 ^ (3 - F : ℤ) := by
  have hpos : (0 : ℚ) ≤ (|x| + |y|) * 2 ^ (3 - F : ℤ) := by positivity
  unfold alignedSum
  split_ifs with hx hy
  · subst hx; simpa using hpos
  · subst hy; simpa using hpos
  · have hu : (0 : ℚ) < sumUnit F x y := by unfold sumUnit; positivity
    have h1 := cutTo_dist (x := x) hu
    have h2 := cutTo_dist (x := y) hu
    have h3 := sumUnit_le F hx hy
    have h4 : (2 : ℚ) ^ (3 - F : ℤ) = 2 * 2 ^ (2 - F : ℤ) := by
      rw [show (3 - F : ℤ) = 1 + (2 - F) by ring, zpow_add₀ (by norm_num), zpow_one]
    unfold cutSum
    calc |cutTo (sumUnit F x y) x + cutTo (sumUnit F x y) y - (x + y)|
        = |(cutTo (sumUnit F x y) x - x) + (cutTo (sumUnit F x y) y - y)| := by ring_nf
      _ ≤ _ + _ := abs_add_le _ _
      _ ≤ 2 * sumUnit F x y := by linarith
      _ ≤ _ := by rw [h4]; linarith

theorem alignedSum_size (F : ℕ) (x y : ℚ) : |alignedSum F x y| ≤ |x| + |y| := by
  unfold alignedSum
  split_ifs with hx hy
  · linarith [abs_nonneg x]
  · linarith [abs_nonneg y]
  · have hu : (0 : ℚ) < sumUnit F x y := by unfold sumUnit; positivity
    exact (abs_add_le _ _).trans (add_le_add (abs_cutTo_le hu) (abs_cutTo_le hu))

/-- adding the numbers of a list one after the other with aligned sums -/
theorem fold_dist (F : ℕ) (l : List ℚ) (s : ℚ) :
    |l.foldl (alignedSum F) s| ≤ |s| + (l.map fun x => |x|).sum ∧
    |l.foldl (alignedSum F) s - (s + l.sum)| ≤ l.length * ((|s| + (l.map fun x => |x|).sum) * 2 ^ (3 - F : ℤ)) := by
  induction l generalizing s with
  | nil => simp
  | cons p l ih =>
    obtain ⟨h1, h2⟩ := ih (alignedSum F s p)
    have h3 := alignedSum_size F s p
    have h4 := alignedSum_dist F s p
    have hs : 0 ≤ (l.map fun x => |x|).sum := List.sum_nonneg fun x hx => by
      obtain ⟨y, -, rfl⟩ := List.mem_map.mp hx; exact abs_nonneg y
    rw [List.foldl_cons, List.map_cons, List.sum_cons, List.sum_cons, List.length_cons]
    have hu : (0 : ℚ) < 2 ^ (3 - F : ℤ) := by positivity
    set u : ℚ := 2 ^ (3 - F : ℤ)
    set A := (l.map fun x => |x|).sum
    refine ⟨by linarith, ?_⟩
    have h5 : (|alignedSum F s p| + A) * u ≤ (|s| + (|p| + A)) * u := mul_le_mul_of_nonneg_right (by linarith) hu.le
    have h6 : (|s| + |p|) * u ≤ (|s| + (|p| + A)) * u := mul_le_mul_of_nonneg_right (by linarith) hu.le
    have h7 : (l.length : ℚ) * ((|alignedSum F s p| + A) * u) ≤ l.length * ((|s| + (|p| + A)) * u) :=
      mul_le_mul_of_nonneg_left h5 (Nat.cast_nonneg _)
    calc |l.foldl (alignedSum F) (alignedSum F s p) - (s + (p + l.sum))|
        = |(l.foldl (alignedSum F) (alignedSum F s p) - (alignedSum F s p + l.sum)) + (alignedSum F s p - (s + p))| := by ring_nf
      _ ≤ _ + _ := abs_add_le _ _
      _ ≤ l.length * ((|s| + (|p| + A)) * u) + (|s| + (|p| + A)) * u := by linarith
      _ = _ := by push_cast; ring

/-- **C104**: whenever the dot product of a nonempty list of fewer than `2^60` pairs of reals is defined, it is the rounding toward zero
of a number whose distance from the exact dot product is at most `(n-1) 2^(3-F)` times the sum of the magnitudes of the products. -/
theorem C104_dot (h : c.WF) (hF : c.fb + 2 ≤ c.F) {l : List (ℤ × ℤ)} (hl0 : l ≠ []) (hl : ∀ p ∈ l, c.fmt.IsReal p.1 ∧ c.fmt.IsReal p.2)
    (hlen : l.length < 2 ^ 60) {v : ℤ} (hv : Posit.dot c l = .ok v) {S T : ℚ}
    (hS : S = (l.map fun p => c.fmt.val p.1 * c.fmt.val p.2).sum) (hT : T = (l.map fun p => |c.fmt.val p.1 * c.fmt.val p.2|).sum) :
    ∃ x : ℚ, |x - S| ≤ (l.length - 1) * T * 2 ^ (3 - c.F : ℤ) ∧ ((x = 0 ∧ v = 0) ∨ c.fmt.IsTrunc x v) := by
  cases l with
  | nil => exact absurd rfl hl0
  | cons p l =>
    obtain ⟨a, b⟩ := p
    obtain ⟨ha, hb⟩ := hl (a, b) (by simp)
    obtain ⟨k1, k2⟩ := C63_dot h hF (l := l) ha hb (fun p hp => hl p (by simp [hp])) (by simpa using hlen) rfl rfl
    refine ⟨(l.map fun p => c.fmt.val p.1 * c.fmt.val p.2).foldl (alignedSum c.F) (c.fmt.val a * c.fmt.val b), ?_, ?_⟩
    · have := (fold_dist c.F (l.map fun p => c.fmt.val p.1 * c.fmt.val p.2) (c.fmt.val a * c.fmt.val b)).2
      rw [List.map_cons, List.sum_cons] at hS hT
      rw [List.length_map, List.map_map] at this
      dsimp only at hS hT
      rw [← hS] at this
      refine this.trans (le_of_eq ?_)
      rw [hT, List.length_cons]
      push_cast
      simp only [Function.comp_def]
      ring
    · by_cases ho : FoldOK c.F (c.fmt.val a * c.fmt.val b) (l.map fun p => c.fmt.val p.1 * c.fmt.val p.2) ∧
          ((l.map fun p => c.fmt.val p.1 * c.fmt.val p.2).foldl (alignedSum c.F) (c.fmt.val a * c.fmt.val b) = 0 ∨
            c.SafeMag ((l.map fun p => c.fmt.val p.1 * c.fmt.val p.2).foldl (alignedSum c.F) (c.fmt.val a * c.fmt.val b)))
      · obtain ⟨w, hw, hc⟩ := k1 ho
        rw [hv] at hw
        cases hw
        exact hc
      · have := k2 ho
        rw [hv] at this
        cases this

/-- the exact sum of two products, and the posit returned -/
example : P8.WF ∧ P8.fb + 2 ≤ P8.F ∧ (∀ p ∈ [((73 : ℤ), (100 : ℤ)), (-96, 72)], P8.fmt.IsReal p.1 ∧ P8.fmt.IsReal p.2) ∧
    ([((73 : ℤ), (100 : ℤ)), (-96, 72)].map fun p => P8.fmt.val p.1 * P8.fmt.val p.2).sum = 45 / 64 ∧
    Posit.dot P8 [(73, 100), (-96, 72)] = .ok 44 ∧ P8.fmt.val 44 = 11 / 16 := by decide +kernel

/-- **C104**, sign: a dot product that is greater in magnitude than the bound comes out with the right sign, in particular not as zero. -/
theorem C104_sign (h : c.WF) (hF : c.fb + 2 ≤ c.F) {l : List (ℤ × ℤ)} (hl0 : l ≠ []) (hl : ∀ p ∈ l, c.fmt.IsReal p.1 ∧ c.fmt.IsReal p.2)
    (hlen : l.length < 2 ^ 60) {v : ℤ} (hv : Posit.dot c l = .ok v) {S T : ℚ}
    (hS : S = (l.map fun p => c.fmt.val p.1 * c.fmt.val p.2).sum) (hT : T = (l.map fun p => |c.fmt.val p.1 * c.fmt.val p.2|).sum)
    (hbig : (l.length - 1) * T * 2 ^ (3 - c.F : ℤ) < |S|) : (0 < S → 0 < c.fmt.val v) ∧ (S < 0 → c.fmt.val v < 0) := by
  obtain ⟨x, hx, hc⟩ := C104_dot h hF hl0 hl hlen hv hS hT
  have hx' := lt_of_le_of_lt hx hbig
  constructor <;> intro hs
  · rw [abs_of_pos hs, abs_lt] at hx'
    have hx0 : 0 < x := by linarith
    rcases hc with ⟨h0, -⟩ | ht
    · linarith
    · have hv0 : 0 < v := by rcases ht.sign with h | h <;> linarith [h.1, h.2]
      have h0 : c.fmt.IsReal 0 := by unfold Format.IsReal; omega
      have := (Format.val_lt_iff h0.inRange ht.real.inRange).mpr hv0
      rwa [Format.val_zero] at this
  · rw [abs_of_neg hs, abs_lt] at hx'
    have hx0 : x < 0 := by linarith
    rcases hc with ⟨h0, -⟩ | ht
    · linarith
    · have hv0 : v < 0 := by rcases ht.sign with h | h <;> linarith [h.1, h.2]
      have h0 : c.fmt.IsReal 0 := by unfold Format.IsReal; omega
      have := (Format.val_lt_iff ht.real.inRange h0.inRange).mpr hv0
      rwa [Format.val_zero] at this

example : P8.WF ∧ P8.fb + 2 ≤ P8.F ∧ (∀ p ∈ [((73 : ℤ), (100 : ℤ)), (-96, 72), (81, 83)], P8.fmt.IsReal p.1 ∧ P8.fmt.IsReal p.2) ∧
    Posit.dot P8 [(73, 100), (-96, 72), (81, 83)] = .ok 105 ∧
    (([((73 : ℤ), (100 : ℤ)), (-96, 72), (81, 83)].length : ℚ) - 1) *
      ([((73 : ℤ), (100 : ℤ)), (-96, 72), (81, 83)].map fun p => |P8.fmt.val p.1 * P8.fmt.val p.2|).sum * 2 ^ (3 - P8.F : ℤ) <
    |([((73 : ℤ), (100 : ℤ)), (-96, 72), (81, 83)].map fun p => P8.fmt.val p.1 * P8.fmt.val p.2).sum| := by decide +kernel

/-- **C104**: below the bound the sign can be lost: (33/32)² - 1 · 34/32 = 1/1024 is computed as zero with an 8-bit fraction type. -/
theorem C104_cancel : P8.WF ∧ P8.fb + 2 ≤ P8.F ∧ Posit.dot P8 [(65, 65), (-64, 66)] = .ok 0 ∧
    P8.fmt.val 65 * P8.fmt.val 65 + P8.fmt.val (-64) * P8.fmt.val 66 = 1 / 1024 := by decide +kernel

/-- **C104**, error of the result: with `B` the bound of `C104_dot`, and at least `J` fraction bits in posits at every exponent of a number
between `|S| - B` and `|S| + B`, the result of the dot product is within `B + (|S| + B) 2^-J` of the exact dot product `S`. -/
theorem C104_error (h : c.WF) (hF : c.fb + 2 ≤ c.F) {l : List (ℤ × ℤ)} (hl0 : l ≠ []) (hl : ∀ p ∈ l, c.fmt.IsReal p.1 ∧ c.fmt.IsReal p.2)
    (hlen : l.length < 2 ^ 60) {v : ℤ} (hv : Posit.dot c l = .ok v) {S T B : ℚ}
    (hS : S = (l.map fun p => c.fmt.val p.1 * c.fmt.val p.2).sum) (hT : T = (l.map fun p => |c.fmt.val p.1 * c.fmt.val p.2|).sum)
    (hB : B = (l.length - 1) * T * 2 ^ (3 - c.F : ℤ)) {J : ℕ}
    (hJ : ∀ e : ℤ, 2 ^ e ≤ |S| + B → |S| - B < 2 ^ (e + 1) → J ≤ fracBits c.N c.es e) :
    |c.fmt.val v - S| ≤ B + (|S| + B) / 2 ^ J := by
  obtain ⟨x, hx, hc⟩ := C104_dot h hF hl0 hl hlen hv hS hT
  rw [← hB] at hx
  have hx1 : |x| ≤ |S| + B := by
    have := abs_sub_abs_le_abs_sub x S
    linarith
  have hx2 : |S| - B ≤ |x| := by
    have := abs_sub_abs_le_abs_sub S x
    rw [abs_sub_comm S x] at this
    linarith
  have hJ0 : (0 : ℚ) < 2 ^ J := by positivity
  rcases hc with ⟨rfl, rfl⟩ | ht
  · rw [Format.val_zero]
    have : 0 ≤ (|S| + B) / 2 ^ J := div_nonneg (by linarith [abs_nonneg (0 : ℚ)]) hJ0.le
    linarith
  · have hx0 : x ≠ 0 := by
      rcases ht.sign with hh | hh
      · exact hh.2.ne'
      · exact hh.2.ne
    have hp := abs_pos.mpr hx0
    have k1 : (2 : ℚ) ^ Int.log 2 |x| ≤ |x| := by exact_mod_cast Int.zpow_log_le_self (b := 2) (by norm_num) hp
    have k2 : |x| < (2 : ℚ) ^ (Int.log 2 |x| + 1) := by exact_mod_cast Int.lt_zpow_succ_log_self (b := 2) (by norm_num) |x|
    have hj := hJ _ (k1.trans hx1) (lt_of_le_of_lt hx2 k2)
    obtain ⟨J', hJ'⟩ := Int.eq_ofNat_of_zero_le (show 0 ≤ fracBits c.N c.es (Int.log 2 |x|) by omega)
    have he := (faithful_errors (J := J') ht.faithful hx0 hJ').2
    have h1 : |x| / 2 ^ J' ≤ |x| / 2 ^ J := div_le_div_of_nonneg_left hp.le hJ0 (pow_le_pow_right₀ (by norm_num) (by omega))
    have h2 : |x| / 2 ^ J ≤ (|S| + B) / 2 ^ J := div_le_div_of_nonneg_right hx1 hJ0.le
    have h3 := abs_sub_le (c.fmt.val v) x S
    linarith

example : P32.WF ∧ P32.fb + 2 ≤ P32.F ∧
    (∀ p ∈ [((1234567890 : ℤ), (1334567890 : ℤ)), (-1034567890, 1134567890), (1000000000, 1500000000)],
      P32.fmt.IsReal p.1 ∧ P32.fmt.IsReal p.2) ∧
    Posit.dot P32 [(1234567890, 1334567890), (-1034567890, 1134567890), (1000000000, 1500000000)] = .ok 1539389980 := by decide +kernel
example (S T B : ℚ) (hS : S = ([((1234567890 : ℤ), (1334567890 : ℤ)), (-1034567890, 1134567890), (1000000000, 1500000000)].map
      fun p => P32.fmt.val p.1 * P32.fmt.val p.2).sum)
    (hT : T = ([((1234567890 : ℤ), (1334567890 : ℤ)), (-1034567890, 1134567890), (1000000000, 1500000000)].map
      fun p => |P32.fmt.val p.1 * P32.fmt.val p.2|).sum)
    (hB : B = (3 - 1) * T * 2 ^ (3 - P32.F : ℤ)) (e : ℤ) (h1 : 2 ^ e ≤ |S| + B) (h2 : |S| - B < 2 ^ (e + 1)) :
    ((26 : ℕ) : ℤ) ≤ fracBits P32.N P32.es e := by
  subst hS hT hB
  have h3 := (zpow_lt_zpow_iff_right₀ (by norm_num : (1 : ℚ) < 2)).mp (lt_of_le_of_lt h1 (b := _) (c := 2 ^ (7 : ℤ)) (by decide +kernel))
  have h4 := (zpow_lt_zpow_iff_right₀ (by norm_num : (1 : ℚ) < 2)).mp (lt_of_le_of_lt (a := 2 ^ (6 : ℤ)) (by decide +kernel) h2)
  have : e = 6 := by omega
  subst this
  decide

end Verif
