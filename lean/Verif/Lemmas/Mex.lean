import Verif.Spec.Mex
import Verif.Props.Safety
import Verif.Props.Special
import Verif.Props.FloatPack
import Verif.Props.Float

/-! # Loops over the elements of an array, and the posit type of the MATLAB functions -/

namespace Verif.Mex
open Fmt

theorem numel_prod (d : List ℕ) : d.foldl (· * ·) 1 = d.prod := by
  rw [List.prod_eq_foldl]

theorem fill_ok {f : ℕ → X ℤ} {g : ℕ → ℤ} : ∀ {k i : ℕ} {d : List (Option ℤ)}, (∀ j, i ≤ j → j < i + k → f j = .ok (g j)) →
    i + k ≤ d.length → ∃ r, fill f k i d = .ok r ∧ r.length = d.length ∧
      ∀ j, r[j]? = if i ≤ j ∧ j < i + k then some (some (g j)) else d[j]?
  | 0, i, d, _, _ => ⟨d, rfl, rfl, fun j => by rw [if_neg (by omega)]⟩
  | k + 1, i, d, hf, hl => by
    have h1 := hf i le_rfl (by omega)
    obtain ⟨r, hr, hrl, hv⟩ := fill_ok (f := f) (g := g) (k := k) (i := i + 1) (d := d.set i (some (g i)))
      (fun j a b => hf j (by omega) (by omega)) (by rw [List.length_set]; omega)
    refine ⟨r, ?_, by rw [hrl, List.length_set], fun j => ?_⟩
    · unfold fill
      simp only [h1, bind, Except.bind]
      rw [if_pos (by omega)]; exact hr
    · rw [hv j]
      by_cases hj : j = i
      · subst hj
        rw [if_neg (by omega), if_pos (by omega), List.getElem?_set_self (by omega)]
      · rw [List.getElem?_set_ne (Ne.symm hj)]
        by_cases h2 : i + 1 ≤ j ∧ j < i + 1 + k
        · rw [if_pos h2, if_pos (by omega)]
        · rw [if_neg h2, if_neg (by omega)]

theorem fill_over {f : ℕ → X ℤ} {g : ℕ → ℤ} : ∀ {k i : ℕ} {d : List (Option ℤ)}, (∀ j, i ≤ j → j < i + k → f j = .ok (g j)) →
    i ≤ d.length → d.length < i + k → fill f k i d = .error .outOfBounds
  | 0, i, d, _, h1, h2 => by omega
  | k + 1, i, d, hf, h1, h2 => by
    have h3 := hf i le_rfl (by omega)
    unfold fill
    simp only [h3, bind, Except.bind]
    by_cases h4 : i < d.length
    · rw [if_pos h4]
      exact fill_over (g := g) (fun j a b => hf j (by omega) (by omega)) (by rw [List.length_set]; omega)
        (by rw [List.length_set]; omega)
    · rw [if_neg h4]

theorem stored_eq (a : Arr) : a.numel * (if a.complex then 2 else 1) = stored a.dims a.complex := by
  unfold stored Arr.numel; rw [numel_prod]

theorem count_eq {a : Arr} (h : stored a.dims a.complex < 2 ^ 31) : count a = stored a.dims a.complex := by
  unfold count
  rw [stored_eq]
  unfold wrapS
  rw [Int.bmod_eq_of_le] <;> push_cast <;> omega

/-- the `int` is negative if there are 2³¹ values or more (and less than 2³²) -/
theorem count_neg {a : Arr} (h1 : 2 ^ 31 ≤ stored a.dims a.complex) (h2 : stored a.dims a.complex < 2 ^ 32) :
    count a = (stored a.dims a.complex : ℤ) - 2 ^ 32 := by
  unfold count
  rw [stored_eq]
  unfold wrapS Int.bmod
  push_cast
  rw [Int.emod_eq_of_lt (by positivity) (by omega)]
  split <;> omega

theorem uninit_len (dims : List ℕ) (cls : Cls) (b : Bool) : (uninit dims cls b).data.length = stored dims b := by
  unfold uninit stored; rw [List.length_replicate, numel_prod]

theorem get_ok {d : List ℤ} {i : ℕ} {x : ℤ} (h : d[i]? = some x) : get d i = .ok x := by unfold get; rw [h]

theorem z8_wf (s : PSpec) : (z8 s).WF := by cases s <;> decide

theorem z8_canonical (s : PSpec) {x : ℤ} : (z8 s).fmt.IsCanonical x ↔ -128 ≤ x ∧ x ≤ 127 := by
  unfold Format.IsCanonical
  rw [fmt_N]
  show -(2 ^ 7 : ℤ) ≤ x ∧ x < 2 ^ 7 ↔ _
  omega

theorem z8_cond (s : PSpec) : (z8 s).fb + 3 ≤ (z8 s).F ∧ (z8 s).N + 1 < pw (z8 s).H ∧
    (z8 s).topExp + (z8 s).maxScale < pw (z8 s).F ∧ (z8 s).F < 32 ∧ 16 ≤ (z8 s).E := by cases s <;> decide

theorem z8_neg (s : PSpec) {y : ℤ} (hy : (z8 s).fmt.IsCanonical y) : ∃ z, Posit.neg (z8 s) y = .ok z ∧ (z8 s).fmt.IsCanonical z := by
  rw [z8_canonical] at hy
  have key : ∀ k : Fin 256, ∃ z, Posit.neg (z8 s) ((k.val : ℤ) - 128) = .ok z ∧ -128 ≤ z ∧ z ≤ 127 := by
    intro k
    refine ⟨wrapS 8 (-((k.val : ℤ) - 128)), ?_⟩
    revert k
    cases s <;> decide +kernel
  obtain ⟨z, h1, h2⟩ := key ⟨(y + 128).toNat, by omega⟩
  refine ⟨z, ?_, by rw [z8_canonical]; exact h2⟩
  have : (((⟨(y + 128).toNat, by omega⟩ : Fin 256).val : ℕ) : ℤ) - 128 = y := by
    show (((y + 128).toNat : ℕ) : ℤ) - 128 = y
    omega
  rwa [this] at h1

/-- an operation of the library, by its sign -/
def opOf (op : ℕ) : Cfg → ℤ → ℤ → M ℤ :=
  if op = 43 then Posit.add else if op = 45 then Posit.sub else if op = 42 then Posit.mul else Posit.div

theorem op_total (s : PSpec) (op : ℕ) {x y : ℤ} (hx : -128 ≤ x ∧ x ≤ 127) (hy : -128 ≤ y ∧ y ≤ 127) :
    ∃ z, opOf op (z8 s) x y = .ok z := by
  obtain ⟨c1, c2, c3, c4, -⟩ := z8_cond s
  rw [← z8_canonical s] at hx hy
  unfold opOf
  split
  · exact C24_add (z8_wf s) c1 c2 c3 (Or.inl c4) hx hy
  split
  · obtain ⟨w, h1, h2⟩ := z8_neg s hy
    unfold Posit.sub
    rw [h1]
    exact C24_add (z8_wf s) c1 c2 c3 (Or.inl c4) hx h2
  split
  · exact C24_mul (z8_wf s) c2 hx hy
  · exact C24_div (z8_wf s) c2 hx hy

theorem op_computes (s : PSpec) {op : ℕ} (hop : op = 43 ∨ op = 45 ∨ op = 42 ∨ op = 47) {x y z : ℤ}
    (h : opOf op (z8 s) x y = .ok z) : Computes (z8 s).fmt op x y z := by
  obtain ⟨c1, c2, c3, c4, -⟩ := z8_cond s
  have w := z8_wf s
  have c1' : (z8 s).fb + 2 ≤ (z8 s).F := by omega
  intro hx hy
  rcases hop with rfl | rfl | rfl | rfl
  · refine ⟨fun _ => ?_, fun e => absurd e (by decide), fun e => absurd e (by decide), fun e => absurd e (by decide)⟩
    obtain ⟨v, h1, h2, -⟩ := C10_add w c1 c2 c3 (Or.inl c4) hx hy
    have e : opOf 43 (z8 s) x y = Posit.add (z8 s) x y := rfl
    rw [e, h1] at h; cases h; exact h2
  · refine ⟨fun e => absurd e (by decide), fun _ => ?_, fun e => absurd e (by decide), fun e => absurd e (by decide)⟩
    obtain ⟨v, h1, h2, -⟩ := C11_sub w c1 c2 c3 (Or.inl c4) hx hy
    have e : opOf 45 (z8 s) x y = Posit.sub (z8 s) x y := rfl
    rw [e, h1] at h; cases h; exact h2
  · refine ⟨fun e => absurd e (by decide), fun e => absurd e (by decide), fun _ => ⟨fun h0 => ?_, fun x0 y0 => ?_⟩,
      fun e => absurd e (by decide)⟩
    · have e : opOf 42 (z8 s) x y = Posit.mul (z8 s) x y := rfl
      rcases h0 with rfl | rfl
      · rw [e, (C13_mul_zero w hy).2.1] at h; cases h; rfl
      · rw [e, (C13_mul_zero w hx).1] at h; cases h; rfl
    · obtain ⟨v, h1, h2⟩ := C08_mul w c1' c2 hx x0 hy y0
      have e : opOf 42 (z8 s) x y = Posit.mul (z8 s) x y := rfl
      rw [e, h1] at h; cases h; exact h2
  · refine ⟨fun e => absurd e (by decide), fun e => absurd e (by decide), fun e => absurd e (by decide), fun _ y0 => ⟨fun h0 => ?_, fun x0 => ?_⟩⟩
    · have e : opOf 47 (z8 s) x y = Posit.div (z8 s) x y := rfl
      rw [h0] at e h
      rw [e, (C13_mul_zero w hy).2.2 y0] at h; cases h; rfl
    · obtain ⟨v, h1, h2⟩ := C09_div w c1' c2 hx x0 hy y0
      have e : opOf 47 (z8 s) x y = Posit.div (z8 s) x y := rfl
      rw [e, h1] at h; cases h; exact h2

/-- all 8-bit patterns, from their list -/
theorem all8 {P : ℤ → Prop} (h : ∀ k : Fin 256, P ((k.val : ℤ) - 128)) {x : ℤ} (hx : -128 ≤ x ∧ x ≤ 127) : P x := by
  have := h ⟨(x + 128).toNat, by omega⟩
  have e : (((⟨(x + 128).toNat, by omega⟩ : Fin 256).val : ℕ) : ℤ) - 128 = x := by
    show (((x + 128).toNat : ℕ) : ℤ) - 128 = x
    omega
  rwa [e] at this

theorem ok_of_isOk {α : Type} {m : M α} (h : m.isOk = true) : ∃ v, m = .ok v := by
  cases m with
  | ok v => exact ⟨v, rfl⟩
  | error e => cases h

theorem inv_total (s : PSpec) {x : ℤ} (hx : -128 ≤ x ∧ x ≤ 127) : ∃ z, Posit.inv (z8 s) x = .ok z := by
  apply ok_of_isOk
  refine all8 (P := fun x => (Posit.inv (z8 s) x).isOk = true) ?_ hx
  cases s <;> decide +kernel

theorem toFloat_total (s : PSpec) {t : FTrait} (ht : t = .half ∨ t = .single ∨ t = .double) {x : ℤ} (hx : -128 ≤ x ∧ x ≤ 127) :
    ∃ b, Posit.toFloat (z8 s) t x = .ok b ∧ Posit.ofFloat (z8 s) t b = .ok x := by
  have key : (do let b ← Posit.toFloat (z8 s) t x; Posit.ofFloat (z8 s) t b) = .ok x := by
    refine all8 (P := fun x => (do let b ← Posit.toFloat (z8 s) t x; Posit.ofFloat (z8 s) t b) = .ok x) ?_ hx
    rcases ht with rfl | rfl | rfl <;> cases s <;> decide +kernel
  cases h : Posit.toFloat (z8 s) t x with
  | error e => rw [h] at key; cases key
  | ok b => rw [h] at key; exact ⟨b, rfl, key⟩

end Verif.Mex
