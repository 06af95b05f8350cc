import Verif.Spec.PnumReal
import Verif.Props.PnumArith
import Mathlib.Topology.Instances.Real.Lemmas

/-!
# Real members of projective numbers and rational ones near them
-/

namespace Verif
namespace Pnum

open Topology

variable {A : Alphabet}

theorem memR_cast {v : ℤ} {x : ℚ} : MemR A v (some (x : ℝ)) ↔ Mem A v (some x) := by
  unfold MemR Mem
  by_cases he : steps A v % 2 = 0
  · simp only [if_pos he, Rat.cast_inj]
  · simp only [if_neg he, Rat.cast_lt]

/-- the members of an interval are all around its members -/
theorem memR_nhds {v : ℤ} {x : ℝ} (ho : v % 2 = 1) (hx : MemR A v (some x)) : {y : ℝ | MemR A v (some y)} ∈ 𝓝 x := by
  have hs : ¬ steps A v % 2 = 0 := by rw [steps_even]; omega
  obtain ⟨h4, hx⟩ := hx
  rw [if_neg hs] at hx
  have e : {y : ℝ | MemR A v (some y)} = {y | (steps A v = -(4 * A.k) + 1 ∨ (pt A (steps A v / 2) : ℝ) < y)} ∩
      {y | (steps A v = 4 * A.k - 1 ∨ y < (pt A (steps A v / 2 + 1) : ℝ))} := by
    ext y
    simp only [Set.mem_setOf_eq, Set.mem_inter_iff]
    unfold MemR
    simp only [if_neg hs]
    exact ⟨fun h => h.2, fun h => ⟨h4, h⟩⟩
  rw [e]
  refine Filter.inter_mem ?_ ?_
  · rcases hx.1 with h1 | h1
    · simp [h1]
    · exact Filter.mem_of_superset (Ioi_mem_nhds h1) fun y hy => Or.inr hy
  · rcases hx.2 with h1 | h1
    · simp [h1]
    · exact Filter.mem_of_superset (Iio_mem_nhds h1) fun y hy => Or.inr hy

/-- near a real member there is a rational one -/
theorem memR_near {v : ℤ} {x : ℝ} (hx : MemR A v (some x)) {U : Set ℝ} (hU : U ∈ 𝓝 x) : ∃ q : ℚ, (q : ℝ) ∈ U ∧ Mem A v (some q) := by
  rcases Int.emod_two_eq_zero_or_one v with he | ho
  · have hs : steps A v % 2 = 0 := by rw [steps_even]; exact he
    obtain ⟨h4, hx'⟩ := hx
    rw [if_pos hs] at hx'
    refine ⟨pt A (steps A v / 2), hx' ▸ mem_of_mem_nhds hU, h4, ?_⟩
    rw [if_pos hs]
  · have hm := Filter.inter_mem hU (memR_nhds ho hx)
    obtain ⟨y, ⟨q, rfl⟩, hy1, hy2⟩ := (Rat.denseRange_cast (𝕜 := ℝ)).inter_nhds_nonempty hm
    exact ⟨q, hy1, memR_cast.mp hy2⟩

theorem memR_even {v : ℤ} {x : ℝ} (he : v % 2 = 0) (hx : MemR A v (some x)) : ∃ q : ℚ, x = q := by
  have hs : steps A v % 2 = 0 := by rw [steps_even]; exact he
  obtain ⟨h4, hx⟩ := hx
  rw [if_pos hs] at hx
  exact ⟨_, hx⟩

/-- the pattern of a number of steps -/
theorem pat_of_steps (s : ℤ) (h1 : -(4 * A.k : ℤ) < s) (h2 : s < 4 * A.k) : ∃ v, IsPat A v ∧ steps A v = s ∧ v ≠ 4 * A.k := by
  by_cases h0 : 0 ≤ s
  · exact ⟨s, ⟨h0, by omega⟩, by unfold steps; rw [if_neg (by omega)], by omega⟩
  · exact ⟨s + 8 * A.k, ⟨by omega, by omega⟩, by unfold steps; rw [if_pos (by omega)]; omega, by omega⟩

theorem memR_exists (h : Table A) (x : Option ℝ) : ∃ v, IsPat A v ∧ MemR A v x := by
  have hk := h.kpos
  cases x with
  | none => exact ⟨4 * A.k, ⟨by omega, by omega⟩, rfl⟩
  | some x =>
    obtain ⟨i, ⟨i1, i2, i3⟩, hi⟩ := Int.exists_greatest_of_bdd
      (P := fun i => -(2 * A.k : ℤ) ≤ i ∧ i < 2 * A.k ∧ (i = -(2 * A.k : ℤ) ∨ (pt A i : ℝ) ≤ x))
      ⟨2 * A.k, fun z hz => hz.2.1.le⟩ ⟨-(2 * A.k : ℤ), le_rfl, by omega, Or.inl rfl⟩
    have hup : i + 1 = 2 * A.k ∨ x < (pt A (i + 1) : ℝ) := by
      by_contra hc
      push Not at hc
      have := hi (i + 1) ⟨by omega, by omega, Or.inr hc.2⟩
      omega
    by_cases hx : i ≠ -(2 * A.k : ℤ) ∧ (pt A i : ℝ) = x
    · obtain ⟨v, hv, hs, h4⟩ := pat_of_steps (A := A) (2 * i) (by omega) (by omega)
      refine ⟨v, hv, h4, ?_⟩
      rw [hs, if_pos (by omega), show 2 * i / 2 = i by omega]
      exact hx.2.symm
    · obtain ⟨v, hv, hs, h4⟩ := pat_of_steps (A := A) (2 * i + 1) (by omega) (by omega)
      refine ⟨v, hv, h4, ?_⟩
      rw [hs, if_neg (by omega), show (2 * i + 1) / 2 = i by omega]
      refine ⟨?_, ?_⟩
      · rcases i3 with i3 | i3
        · left; omega
        · by_cases h0 : i = -(2 * A.k : ℤ)
          · left; omega
          · exact Or.inr (lt_of_le_of_ne i3 fun e => hx ⟨h0, e⟩)
      · rcases hup with hu | hu
        · left; omega
        · exact Or.inr hu

theorem memR_unique (h : Table A) {v w : ℤ} (hv : IsPat A v) (hw : IsPat A w) {x : Option ℝ} (hx : MemR A v x) (hy : MemR A w x) :
    v = w := by
  cases x with
  | none => exact hx.trans hy.symm
  | some x =>
    rcases Int.emod_two_eq_zero_or_one v with he | ho
    · obtain ⟨q, rfl⟩ := memR_even he hx
      exact mem_unique h hv hw (memR_cast.mp hx) (memR_cast.mp hy)
    · obtain ⟨q, hq, hm⟩ := memR_near hy (memR_nhds ho hx)
      exact mem_unique h hv hw (memR_cast.mp hq) hm

/-- a bound that holds a rational member of a pattern holds its real ones -/
theorem hasR_of (h : Table A) {b : Pbound} {u : ℤ} (hu : IsPat A u) {q : Option ℚ} {x : Option ℝ} (hb : b.Has A q) (hq : Mem A u q)
    (hx : MemR A u x) : b.HasR A x := by
  obtain ⟨he, v, hv, ha, hm⟩ := hb
  obtain rfl := mem_unique h hv hu hm hq
  exact ⟨he, v, hv, ha, hx⟩

theorem memR_none {v : ℤ} : MemR A v none ↔ Mem A v none := Iff.rfl

/-- a rational sample of any member -/
theorem memR_sample {v : ℤ} {x : Option ℝ} (hx : MemR A v x) : ∃ q, Mem A v q ∧ (q = none ↔ x = none) := by
  cases x with
  | none => exact ⟨none, hx, by simp⟩
  | some x =>
    obtain ⟨q, -, hq⟩ := memR_near hx Filter.univ_mem
    exact ⟨some q, hq, by simp⟩

/-- rational members whose sum has the pattern of the sum -/
theorem near_add {v w u : ℤ} {x y : ℝ} (hx : MemR A v (some x)) (hy : MemR A w (some y)) (hz : MemR A u (some (x + y))) :
    ∃ p q : ℚ, Mem A v (some p) ∧ Mem A w (some q) ∧ Mem A u (some (p + q)) := by
  rcases Int.emod_two_eq_zero_or_one u with hu | hu
  · obtain ⟨z, ez⟩ := memR_even hu hz
    rcases Int.emod_two_eq_zero_or_one w with hw | hw
    · obtain ⟨q, rfl⟩ := memR_even hw hy
      have : x = ((z - q : ℚ) : ℝ) := by push_cast; linarith
      rw [this] at hx
      refine ⟨z - q, q, memR_cast.mp hx, memR_cast.mp hy, ?_⟩
      rw [sub_add_cancel, ← memR_cast, ← ez]; exact hz
    · have hc : Filter.Tendsto (fun t : ℝ => (z : ℝ) - t) (𝓝 x) (𝓝 y) := by
        have : y = (z : ℝ) - x := by linarith
        rw [this]; exact (continuous_const.sub continuous_id).tendsto x
      obtain ⟨p, hp, hm⟩ := memR_near hx (hc (memR_nhds hw hy))
      refine ⟨p, z - p, hm, ?_, ?_⟩
      · rw [← memR_cast]; push_cast; exact hp
      · rw [add_sub_cancel, ← memR_cast, ← ez]; exact hz
  · have hn := memR_nhds hu hz
    have hc := (continuous_add.tendsto (x, y)) hn
    obtain ⟨U, hU, V, hV, hUV⟩ := mem_nhds_prod_iff.mp hc
    obtain ⟨p, hp, hmp⟩ := memR_near hx hU
    obtain ⟨q, hq, hmq⟩ := memR_near hy hV
    refine ⟨p, q, hmp, hmq, ?_⟩
    have : ((p : ℝ), (q : ℝ)) ∈ U ×ˢ V := ⟨hp, hq⟩
    have := hUV this
    rw [← memR_cast]; push_cast; exact this

/-- rational members whose product has the pattern of the product -/
theorem near_mul {v w u : ℤ} {x y : ℝ} (hx : MemR A v (some x)) (hy : MemR A w (some y)) (hz : MemR A u (some (x * y))) :
    ∃ p q : ℚ, Mem A v (some p) ∧ Mem A w (some q) ∧ Mem A u (some (p * q)) := by
  rcases Int.emod_two_eq_zero_or_one u with hu | hu
  · obtain ⟨z, ez⟩ := memR_even hu hz
    by_cases x0 : x = 0
    · obtain ⟨q, -, hq⟩ := memR_near hy Filter.univ_mem
      subst x0
      refine ⟨0, q, memR_cast.mp (by simpa using hx), hq, ?_⟩
      rw [zero_mul, ← memR_cast]; simpa using hz
    · rcases Int.emod_two_eq_zero_or_one w with hw | hw
      · obtain ⟨q, rfl⟩ := memR_even hw hy
        by_cases q0 : q = 0
        · subst q0
          obtain ⟨p, -, hp⟩ := memR_near hx Filter.univ_mem
          refine ⟨p, 0, hp, memR_cast.mp hy, ?_⟩
          rw [mul_zero, ← memR_cast]; simpa using hz
        · have q0' : (q : ℝ) ≠ 0 := by exact_mod_cast q0
          have : x = ((z / q : ℚ) : ℝ) := by push_cast; field_simp; linarith
          rw [this] at hx
          refine ⟨z / q, q, memR_cast.mp hx, memR_cast.mp hy, ?_⟩
          rw [div_mul_cancel₀ _ q0, ← memR_cast, ← ez]; exact hz
      · have hc : Filter.Tendsto (fun t : ℝ => (z : ℝ) / t) (𝓝 x) (𝓝 y) := by
          have : y = (z : ℝ) / x := by field_simp; linarith
          rw [this]; exact tendsto_const_nhds.div Filter.tendsto_id x0
        obtain ⟨p, ⟨hp, hp0⟩, hm⟩ := memR_near hx (Filter.inter_mem (hc (memR_nhds hw hy)) (isOpen_ne.mem_nhds x0))
        have p0 : p ≠ 0 := by
          intro e; subst e; simp at hp0
        refine ⟨p, z / p, hm, ?_, ?_⟩
        · rw [← memR_cast]; push_cast; exact hp
        · rw [mul_div_cancel₀ _ p0, ← memR_cast, ← ez]; exact hz
  · have hn := memR_nhds hu hz
    have hc := (continuous_mul.tendsto (x, y)) hn
    obtain ⟨U, hU, V, hV, hUV⟩ := mem_nhds_prod_iff.mp hc
    obtain ⟨p, hp, hmp⟩ := memR_near hx hU
    obtain ⟨q, hq, hmq⟩ := memR_near hy hV
    refine ⟨p, q, hmp, hmq, ?_⟩
    have : ((p : ℝ), (q : ℝ)) ∈ U ×ˢ V := ⟨hp, hq⟩
    have := hUV this
    rw [← memR_cast]; push_cast; exact this

end Pnum
end Verif
