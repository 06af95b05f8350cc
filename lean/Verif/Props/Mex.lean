import Verif.Lemmas.Mex

/-! # C109: the MATLAB functions on arrays of posits -/

namespace Verif.Mex
open Fmt
variable {s : PSpec}

/-- the four operations as `binop` runs them, once the arguments have been accepted -/
theorem binop_run {nlhs : ℕ} {a b o : Arr} {op : ℕ} (hop : op = 43 ∨ op = 45 ∨ op = 42 ∨ op = 47)
    (ha : a.cls = .int8) (hb : b.cls = .int8) (hc : count a = count b) (ho : o.cls = .char) (ht : o.text = [op]) :
    binop s nlhs [a, b, o] = binLoop s (opOf op) a b (uninit a.dims .int8 b.complex) := by
  rcases hop with rfl | rfl | rfl | rfl <;>
    simp [binop, arg, bind, Except.bind, ha, hb, hc, ho, ht, charAt, opOf]

/-- **C109**, `p8binop`: for two arrays of posits with equally many values, both complex or both not, with one of the four signs, the
call ends quietly, every access is inside its array, and the result has the shape of the first and in each place the result of the
operation, the one that the library computes, with the meaning given by `Computes`. Missing: arrays with 2³¹ values or more
(`C109_count_wrong`). -/
theorem C109_binop_partial (nlhs : ℕ) {a b : Arr} (ha : a.Valid) (hb : b.Valid) (hca : a.cls = .int8) (hcb : b.cls = .int8)
    (hx : a.complex = b.complex) (hn : a.data.length = b.data.length) (hs : a.data.length < 2 ^ 31) {o : Arr} {op : ℕ}
    (ho : o.cls = .char) (ht : o.text = [op]) (hop : op = 43 ∨ op = 45 ∨ op = 42 ∨ op = 47) :
    ∃ r, binop s nlhs [a, b, o] = .ok { how := .quiet, out := some r } ∧
      IsMap₂ (fun x y z => Computes (z8 s).fmt op x y z ∧ (op = 43 → Posit.add (z8 s) x y = .ok z) ∧
        (op = 45 → Posit.sub (z8 s) x y = .ok z) ∧ (op = 42 → Posit.mul (z8 s) x y = .ok z) ∧
        (op = 47 → Posit.div (z8 s) x y = .ok z)) a b r := by
  have ca : count a = a.data.length := by rw [count_eq (by rw [← ha.len]; exact hs), ha.len]
  have cb : count b = b.data.length := by rw [count_eq (by rw [← hb.len, ← hn]; exact hs), hb.len]
  rw [binop_run hop hca hcb (by rw [ca, cb, hn]) ho ht]
  unfold binLoop
  rw [ca]
  have ex : ∀ j : ℕ, ∃ z, j < a.data.length → ∃ x y, a.data[j]? = some x ∧ b.data[j]? = some y ∧ opOf op (z8 s) x y = .ok z := by
    intro j
    by_cases hj : j < a.data.length
    · have e1 := List.getElem?_eq_getElem hj
      have hj' : j < b.data.length := hn ▸ hj
      have e2 := List.getElem?_eq_getElem hj'
      obtain ⟨z, hz⟩ := op_total s op (ha.int8 hca _ (List.getElem_mem hj)) (hb.int8 hcb _ (List.getElem_mem hj'))
      exact ⟨z, fun _ => ⟨_, _, e1, e2, hz⟩⟩
    · exact ⟨0, fun h => absurd h hj⟩
  choose g hg using ex
  obtain ⟨r, hr, hl, hv⟩ := fill_ok (f := fun i => do let x ← get a.data i; let y ← get b.data i; lift (opOf op (z8 s) x y))
    (g := g) (k := a.data.length) (i := 0) (d := (uninit a.dims .int8 b.complex).data)
    (fun j _ hj => by
      obtain ⟨x, y, e1, e2, e3⟩ := hg j (by omega)
      simp only [get_ok e1, get_ok e2, bind, Except.bind, e3, lift])
    (by rw [uninit_len, ← hx, ha.len]; omega)
  refine ⟨{ uninit a.dims .int8 b.complex with data := r }, ?_, rfl, hx.symm, rfl, ?_, ?_⟩
  · unfold loop
    rw [Int.toNat_natCast, hr]; rfl
  · show r.length = _
    rw [hl, uninit_len, ← hx, ha.len]
  · intro i x y h1 h2
    have hi : i < a.data.length := by
      by_contra hc
      rw [List.getElem?_eq_none (by omega)] at h1; cases h1
    obtain ⟨x', y', e1, e2, e3⟩ := hg i hi
    rw [h1] at e1; rw [h2] at e2; cases e1; cases e2
    refine ⟨g i, ?_, op_computes s hop e3, ?_, ?_, ?_, ?_⟩
    · show r[i]? = _
      rw [hv i, if_pos (by omega)]
    all_goals (rintro rfl; exact e3)

/-- 1, -2 and NaN divided by 2, 1/2 and 3 in a row -/
example : ∃ a b : Arr, a.cls = .int8 ∧ b.cls = .int8 ∧ a.complex = b.complex ∧ a.data.length = b.data.length ∧
    a.data.length < 2 ^ 31 ∧ stored a.dims a.complex = a.data.length ∧ (∀ x ∈ a.data, -128 ≤ x ∧ x ≤ 127) ∧
    binop .withNan 1 [a, b, { cls := .char, dims := [1, 1], text := [47] }] =
      .ok { how := .quiet, out := some ⟨.int8, false, [1, 3], [some 32, some (-112), some (-128)]⟩ } :=
  ⟨⟨.int8, false, [1, 3], [64, -96, -128], []⟩, ⟨.int8, false, [1, 3], [96, 32, 104], []⟩, by decide +kernel⟩

/-- **C109** fails: with a complex first and a real second operand of twice as many elements, which pass the test on the number of
values, the result is created for as many real numbers as the first has elements, and the loop writes past its end. -/
theorem C109_binop_overflow (nlhs : ℕ) {a b : Arr} (ha : a.Valid) (hb : b.Valid) (hca : a.cls = .int8) (hcb : b.cls = .int8)
    (hxa : a.complex = true) (hxb : b.complex = false) (hn : a.data.length = b.data.length) (h0 : a.data ≠ [])
    (hs : a.data.length < 2 ^ 31) {o : Arr} {op : ℕ}
    (ho : o.cls = .char) (ht : o.text = [op]) (hop : op = 43 ∨ op = 45 ∨ op = 42 ∨ op = 47) :
    binop s nlhs [a, b, o] = .error .outOfBounds := by
  have ca : count a = a.data.length := by rw [count_eq (by rw [← ha.len]; exact hs), ha.len]
  have cb : count b = b.data.length := by rw [count_eq (by rw [← hb.len, ← hn]; exact hs), hb.len]
  rw [binop_run hop hca hcb (by rw [ca, cb, hn]) ho ht]
  unfold binLoop
  rw [ca]
  have ex : ∀ j : ℕ, ∃ z, j < a.data.length → ∃ x y, a.data[j]? = some x ∧ b.data[j]? = some y ∧ opOf op (z8 s) x y = .ok z := by
    intro j
    by_cases hj : j < a.data.length
    · have e1 := List.getElem?_eq_getElem hj
      have hj' : j < b.data.length := hn ▸ hj
      have e2 := List.getElem?_eq_getElem hj'
      obtain ⟨z, hz⟩ := op_total s op (ha.int8 hca _ (List.getElem_mem hj)) (hb.int8 hcb _ (List.getElem_mem hj'))
      exact ⟨z, fun _ => ⟨_, _, e1, e2, hz⟩⟩
    · exact ⟨0, fun h => absurd h hj⟩
  choose g hg using ex
  have hp : 0 < a.data.length := List.length_pos_iff.mpr h0
  have hl : a.data.length = a.dims.prod * 2 := by rw [ha.len, hxa]; rfl
  have := fill_over (f := fun i => do let x ← get a.data i; let y ← get b.data i; lift (opOf op (z8 s) x y))
    (g := g) (k := a.data.length) (i := 0) (d := (uninit a.dims .int8 b.complex).data)
    (fun j _ hj => by
      obtain ⟨x, y, e1, e2, e3⟩ := hg j (by omega)
      simp only [get_ok e1, get_ok e2, bind, Except.bind, e3, lift])
    (Nat.zero_le _)
    (by
      rw [uninit_len, hxb, hl]
      unfold stored
      rw [hl] at hp
      simp
      omega)
  unfold loop
  rw [Int.toNat_natCast, this]; rfl

/-- `1+2i` plus the row `1, 1` -/
example : binop .withNan 1 [⟨.int8, true, [1, 1], [64, 96], []⟩, ⟨.int8, false, [1, 2], [64, 64], []⟩,
    { cls := .char, dims := [1, 1], text := [43] }] = .error .outOfBounds := by decide +kernel

/-- **C109** fails: the other way round, with a real first and a complex second operand, half of the values of the result are never
written. -/
theorem C109_binop_hole (nlhs : ℕ) {a b : Arr} (ha : a.Valid) (hb : b.Valid) (hca : a.cls = .int8) (hcb : b.cls = .int8)
    (hxa : a.complex = false) (hxb : b.complex = true) (hn : a.data.length = b.data.length)
    (hs : a.data.length < 2 ^ 31) {o : Arr} {op : ℕ}
    (ho : o.cls = .char) (ht : o.text = [op]) (hop : op = 43 ∨ op = 45 ∨ op = 42 ∨ op = 47) :
    ∃ r, binop s nlhs [a, b, o] = .ok { how := .quiet, out := some r } ∧
      r.data.length = 2 * a.data.length ∧ ∀ i, a.data.length ≤ i → i < 2 * a.data.length → r.data[i]? = some none := by
  have ca : count a = a.data.length := by rw [count_eq (by rw [← ha.len]; exact hs), ha.len]
  have cb : count b = b.data.length := by rw [count_eq (by rw [← hb.len, ← hn]; exact hs), hb.len]
  rw [binop_run hop hca hcb (by rw [ca, cb, hn]) ho ht]
  unfold binLoop
  rw [ca]
  have ex : ∀ j : ℕ, ∃ z, j < a.data.length → ∃ x y, a.data[j]? = some x ∧ b.data[j]? = some y ∧ opOf op (z8 s) x y = .ok z := by
    intro j
    by_cases hj : j < a.data.length
    · have e1 := List.getElem?_eq_getElem hj
      have hj' : j < b.data.length := hn ▸ hj
      have e2 := List.getElem?_eq_getElem hj'
      obtain ⟨z, hz⟩ := op_total s op (ha.int8 hca _ (List.getElem_mem hj)) (hb.int8 hcb _ (List.getElem_mem hj'))
      exact ⟨z, fun _ => ⟨_, _, e1, e2, hz⟩⟩
    · exact ⟨0, fun h => absurd h hj⟩
  choose g hg using ex
  have hl : a.data.length = a.dims.prod := by rw [ha.len, hxa]; unfold stored; simp
  have hul : (uninit a.dims .int8 b.complex).data.length = 2 * a.data.length := by
    rw [uninit_len, hxb, hl]; unfold stored; simp; omega
  obtain ⟨r, hr, hrl, hv⟩ := fill_ok (f := fun i => do let x ← get a.data i; let y ← get b.data i; lift (opOf op (z8 s) x y))
    (g := g) (k := a.data.length) (i := 0) (d := (uninit a.dims .int8 b.complex).data)
    (fun j _ hj => by
      obtain ⟨x, y, e1, e2, e3⟩ := hg j (by omega)
      simp only [get_ok e1, get_ok e2, bind, Except.bind, e3, lift])
    (by rw [hul]; omega)
  refine ⟨{ uninit a.dims .int8 b.complex with data := r }, ?_, ?_, fun i h1 h2 => ?_⟩
  · unfold loop
    rw [Int.toNat_natCast, hr]; rfl
  · show r.length = _
    rw [hrl, hul]
  · show r[i]? = _
    rw [hv i, if_neg (by omega)]
    have : i < (uninit a.dims .int8 b.complex).data.length := by rw [hul]; exact h2
    rw [List.getElem?_eq_getElem this]
    simp [uninit]

example : binop .withNan 1 [⟨.int8, false, [1, 2], [64, 64], []⟩, ⟨.int8, true, [1, 1], [64, 96], []⟩,
    { cls := .char, dims := [1, 1], text := [43] }] =
      .ok { how := .quiet, out := some ⟨.int8, true, [1, 2], [some 96, some 104, none, none]⟩ } := by decide +kernel

/-- **C109** fails: a call with too few arguments reads past the end of `prhs` if it has one result (the tests say "and" for "or"):
`p8binop` with none or one, or with two arrays of posits; `p8unop` with none or with an array of posits alone; `p8Tofloat` likewise;
`floatTop8` with none. Without a result they print their usage. An empty sign is read past its end. -/
theorem C109_arguments_wrong (s : PSpec) {a b : Arr} (ha : a.cls = .int8) (hb : b.cls = .int8) :
    (binop s 1 [] = .error .outOfBounds ∧ binop s 1 [a] = .error .outOfBounds ∧ binop s 1 [a, b] = .error .outOfBounds) ∧
    (unop s 1 [] = .error .outOfBounds ∧ unop s 1 [a] = .error .outOfBounds) ∧
    (tofloat s 1 [] = .error .outOfBounds ∧ tofloat s 1 [a] = .error .outOfBounds) ∧
    offloat s 1 [] = .error .outOfBounds ∧
    (binop s 0 [a, b] = .ok { how := .message } ∧ unop s 0 [a] = .ok { how := .message } ∧
      tofloat s 0 [a] = .ok { how := .message } ∧ offloat s 0 [] = .ok { how := .message }) ∧
    (∀ nlhs (o : Arr), count a = count b → o.cls = .char → o.text = [] → binop s nlhs [a, b, o] = .error .outOfBounds) := by
  refine ⟨⟨rfl, rfl, ?_⟩, ⟨rfl, ?_⟩, ⟨rfl, ?_⟩, rfl, ⟨rfl, rfl, rfl, rfl⟩, fun nlhs o hc ho ht => ?_⟩
  · simp [binop, arg, bind, Except.bind, ha, hb]
  · simp [unop, arg, bind, Except.bind, ha]
  · simp [tofloat, arg, bind, Except.bind, ha]
  · simp [binop, arg, bind, Except.bind, pure, Except.pure, ha, hb, hc, ho, ht, charAt]

example : ∃ a b : Arr, a.cls = .int8 ∧ b.cls = .int8 ∧ count a = count b ∧ count a = 1 :=
  ⟨⟨.int8, false, [1, 1], [64], []⟩, ⟨.int8, false, [1, 1], [96], []⟩, by decide +kernel⟩

/-- **C109**, what is rejected with a message and no result: arrays that are not of posits, a sign that is not a text, different
numbers of values, and a sign of several characters. -/
theorem C109_rejected (nlhs : ℕ) (a b o : Arr) :
    (a.cls ≠ .int8 ∨ b.cls ≠ .int8 → binop s nlhs [a, b, o] = .ok { how := .message }) ∧
    (o.cls ≠ .char → binop s nlhs [a, b, o] = .ok { how := .message } ∧ unop s nlhs [a, o] = .ok { how := .message }) ∧
    (a.Valid → b.Valid → a.data.length ≠ b.data.length → a.data.length < 2 ^ 31 → b.data.length < 2 ^ 31 →
      binop s nlhs [a, b, o] = .ok { how := .message }) ∧
    (∀ c d t, d ≠ 0 → o.text = c :: d :: t → binop s nlhs [a, b, o] = .ok { how := .message }) ∧
    (a.cls ≠ .int8 → unop s nlhs [a, o] = .ok { how := .message } ∧ tofloat s nlhs [a, o] = .ok { how := .message }) ∧
    (o.cls = .int8 ∨ o.cls = .char ∨ o.cls = .other → tofloat s nlhs [a, o] = .ok { how := .message }) := by
  have step1 : a.cls ≠ .int8 ∨ b.cls ≠ .int8 → binop s nlhs [a, b, o] = .ok { how := .message } := by
    intro h
    have : a.cls ≠ b.cls ∨ a.cls ≠ .int8 := by
      by_cases h1 : a.cls = .int8
      · rcases h with h | h
        · exact absurd h1 h
        · exact Or.inl (fun e => h (e ▸ h1))
      · exact Or.inr h1
    simp [binop, arg, bind, Except.bind, pure, Except.pure]
    exact fun h1 h2 => absurd this (by rw [h1] at h2 ⊢; simp [h2])
  have step2 : o.cls ≠ .char → binop s nlhs [a, b, o] = .ok { how := .message } := by
    intro h
    by_cases h1 : a.cls ≠ .int8 ∨ b.cls ≠ .int8
    · exact step1 h1
    · push Not at h1
      simp [binop, arg, bind, Except.bind, pure, Except.pure, h, h1.1, h1.2]
  have step3 : count a ≠ count b → binop s nlhs [a, b, o] = .ok { how := .message } := by
    intro h
    by_cases h1 : a.cls ≠ .int8 ∨ b.cls ≠ .int8
    · exact step1 h1
    by_cases h2 : o.cls ≠ .char
    · exact step2 h2
    · push Not at h1 h2
      simp [binop, arg, bind, Except.bind, pure, Except.pure, h, h2, h1.1, h1.2]
  have unop1 : a.cls ≠ .int8 → unop s nlhs [a, o] = .ok { how := .message } := by
    intro h; simp [unop, arg, bind, Except.bind, pure, Except.pure, h]
  have tof1 : a.cls ≠ .int8 → tofloat s nlhs [a, o] = .ok { how := .message } := by
    intro h; simp [tofloat, arg, bind, Except.bind, pure, Except.pure, h]
  refine ⟨step1, fun h => ⟨step2 h, ?_⟩, fun va vb hl h1 h2 => step3 ?_, fun c d t hd ht => ?_, fun h => ⟨unop1 h, tof1 h⟩, fun h => ?_⟩
  · by_cases h1 : a.cls = .int8
    · simp [unop, arg, bind, Except.bind, pure, Except.pure, h, h1]
    · exact unop1 h1
  · rw [count_eq (by rw [← va.len]; exact h1), count_eq (by rw [← vb.len]; exact h2), ← va.len, ← vb.len]
    exact_mod_cast hl
  · by_cases h1 : a.cls ≠ .int8 ∨ b.cls ≠ .int8
    · exact step1 h1
    by_cases h2 : o.cls ≠ .char
    · exact step2 h2
    by_cases h3 : count a ≠ count b
    · exact step3 h3
    · push Not at h1 h2 h3
      have hd' : ¬ d = 0 := hd
      simp [binop, arg, bind, Except.bind, pure, Except.pure, h3, h2, h1.1, h1.2, charAt, ht, hd']
  · by_cases h1 : a.cls = .int8
    · rcases h with h | h | h <;> simp [tofloat, arg, bind, Except.bind, pure, Except.pure, h, h1]
    · exact tof1 h1

/-- a sign of two characters, and two numbers of values -/
example : binop .withNan 1 [⟨.int8, false, [1, 1], [64], []⟩, ⟨.int8, false, [1, 1], [64], []⟩,
      { cls := .char, dims := [1, 2], text := [43, 43] }] = .ok { how := .message } ∧
    binop .withNan 1 [⟨.int8, false, [1, 1], [64], []⟩, ⟨.int8, false, [1, 2], [64, 64], []⟩,
      { cls := .char, dims := [1, 1], text := [43] }] = .ok { how := .message } ∧
    tofloat .withNan 1 [⟨.int8, false, [1, 1], [64], []⟩, { cls := .int8, dims := [1, 1] }] = .ok { how := .message } := by decide +kernel

/-- **C109** fails: with an unknown sign, or an unknown name for `p8unop`, or an unknown class for `floatTop8`, the result is an array
with nothing written in it, after a message or an error. -/
theorem C109_unknown_wrong (nlhs : ℕ) {a b : Arr} (hca : a.cls = .int8) (hcb : b.cls = .int8) (hc : count a = count b)
    {o : Arr} (ho : o.cls = .char) :
    (∀ op, o.text = [op] → op ≠ 43 → op ≠ 45 → op ≠ 42 → op ≠ 47 → binop s nlhs [a, b, o] =
      .ok { how := .message, out := some ⟨.int8, b.complex, a.dims, List.replicate (stored a.dims b.complex) none⟩ }) ∧
    (o.text ≠ [105, 110, 118] → unop s nlhs [a, o] =
      .ok { how := .message, out := some ⟨.int8, a.complex, a.dims, List.replicate (stored a.dims a.complex) none⟩ }) ∧
    offloat s nlhs [a] =
      .ok { how := .error, out := some ⟨.int8, a.complex, a.dims, List.replicate (stored a.dims a.complex) none⟩ } := by
  refine ⟨fun op ht h1 h2 h3 h4 => ?_, fun ht => ?_, ?_⟩
  · simp [binop, arg, bind, Except.bind, pure, Except.pure, hca, hcb, hc, ho, ht, charAt, h1, h2, h3, h4, uninit, numel_prod, stored]
  · simp [unop, arg, bind, Except.bind, pure, Except.pure, hca, ho, ht, uninit, numel_prod, stored]
  · simp [offloat, arg, bind, Except.bind, pure, Except.pure, hca, uninit, numel_prod, stored]

example : binop .withNan 1 [⟨.int8, false, [1, 2], [64, 64], []⟩, ⟨.int8, false, [1, 2], [64, 96], []⟩,
    { cls := .char, dims := [1, 1], text := [94] }] =
      .ok { how := .message, out := some ⟨.int8, false, [1, 2], [none, none]⟩ } := by decide +kernel

/-- **C109** fails for 2³¹ values or more (and less than 2³²): the number becomes a negative `int`, the loop does nothing, and the
call ends quietly with nothing written. -/
theorem C109_count_wrong (nlhs : ℕ) {a b : Arr} (ha : a.Valid) (hb : b.Valid) (hca : a.cls = .int8) (hcb : b.cls = .int8)
    (hn : a.data.length = b.data.length) (h1 : 2 ^ 31 ≤ a.data.length) (h2 : a.data.length < 2 ^ 32) {o : Arr} {op : ℕ}
    (ho : o.cls = .char) (ht : o.text = [op]) (hop : op = 43 ∨ op = 45 ∨ op = 42 ∨ op = 47) :
    binop s nlhs [a, b, o] =
      .ok { how := .quiet, out := some ⟨.int8, b.complex, a.dims, List.replicate (stored a.dims b.complex) none⟩ } := by
  have ca : count a = (a.data.length : ℤ) - 2 ^ 32 := by
    rw [count_neg (by rw [← ha.len]; exact h1) (by rw [← ha.len]; exact h2), ha.len]
  have cb : count b = (b.data.length : ℤ) - 2 ^ 32 := by
    rw [count_neg (by rw [← hb.len, ← hn]; exact h1) (by rw [← hb.len, ← hn]; exact h2), hb.len]
  rw [binop_run hop hca hcb (by rw [ca, cb, hn]) ho ht]
  unfold binLoop
  rw [ca]
  unfold loop
  have hz : ((a.data.length : ℤ) - 2 ^ 32).toNat = 0 := by omega
  rw [hz]
  simp [fill, uninit, bind, Except.bind, pure, Except.pure, numel_prod, stored]

/-- a column of 2³¹ ones -/
example : ∃ a : Arr, a.Valid ∧ a.cls = .int8 ∧ 2 ^ 31 ≤ a.data.length ∧ a.data.length < 2 ^ 32 :=
  ⟨⟨.int8, false, [2 ^ 31, 1], List.replicate (2 ^ 31) 64, []⟩,
    ⟨by rw [List.length_replicate]; simp [stored], fun _ x hx => by rw [List.eq_of_mem_replicate hx]; norm_num,
      fun h => absurd rfl h⟩, rfl, by rw [List.length_replicate], by rw [List.length_replicate]; norm_num⟩

/-- one function of all values, as the other programs run it -/
theorem map_run {P : ℤ → ℤ → Prop} {f : ℤ → X ℤ} {a : Arr} {cls : Cls} (ha : a.Valid) (hs : a.data.length < 2 ^ 31)
    (hf : ∀ x ∈ a.data, ∃ z, f x = .ok z ∧ P x z) :
    ∃ r, loop (count a) (fun i => do let x ← get a.data i; f x) (uninit a.dims cls a.complex) = .ok r ∧ IsMap P cls a r := by
  have ca : count a = a.data.length := by rw [count_eq (by rw [← ha.len]; exact hs), ha.len]
  have ex : ∀ j : ℕ, ∃ z, j < a.data.length → ∃ x, a.data[j]? = some x ∧ f x = .ok z ∧ P x z := by
    intro j
    by_cases hj : j < a.data.length
    · obtain ⟨z, hz⟩ := hf _ (List.getElem_mem hj)
      exact ⟨z, fun _ => ⟨_, List.getElem?_eq_getElem hj, hz⟩⟩
    · exact ⟨0, fun h => absurd h hj⟩
  choose g hg using ex
  obtain ⟨r, hr, hl, hv⟩ := fill_ok (f := fun i => do let x ← get a.data i; f x)
    (g := g) (k := a.data.length) (i := 0) (d := (uninit a.dims cls a.complex).data)
    (fun j _ hj => by
      obtain ⟨x, e1, e2, -⟩ := hg j (by omega)
      simp only [get_ok e1, bind, Except.bind, e2])
    (by rw [uninit_len, ha.len]; omega)
  refine ⟨{ uninit a.dims cls a.complex with data := r }, ?_, rfl, rfl, rfl, ?_, ?_⟩
  · unfold loop
    rw [ca, Int.toNat_natCast, hr]; rfl
  · show r.length = _
    rw [hl, uninit_len, ha.len]
  · intro i x h1
    have hi : i < a.data.length := by
      by_contra hc
      rw [List.getElem?_eq_none (by omega)] at h1; cases h1
    obtain ⟨x', e1, -, e3⟩ := hg i hi
    rw [h1] at e1; cases e1
    refine ⟨g i, ?_, e3⟩
    show r[i]? = _
    rw [hv i, if_pos (by omega)]

/-- **C109**, `p8unop`: with the name `inv`, in each place the reciprocal that the library computes, for a number other than zero (and
other than the least ones if there are two infinities) `1/x` rounded toward zero; every access is inside its array. Missing as above. -/
theorem C109_unop_partial (nlhs : ℕ) {a : Arr} (ha : a.Valid) (hca : a.cls = .int8) (hs : a.data.length < 2 ^ 31)
    {o : Arr} (ho : o.cls = .char) (ht : o.text = [105, 110, 118]) :
    ∃ r, unop s nlhs [a, o] = .ok { how := .quiet, out := some r } ∧
      IsMap (fun x z => Posit.inv (z8 s) x = .ok z ∧
        ((z8 s).fmt.IsReal x → x ≠ 0 → (s = .withNanInf → x ≠ 1 ∧ x ≠ -1) →
          (z8 s).fmt.IsTrunc (1 / (z8 s).fmt.val x) z)) .int8 a r := by
  obtain ⟨r, hr, hm⟩ := map_run (P := fun x z => Posit.inv (z8 s) x = .ok z ∧
        ((z8 s).fmt.IsReal x → x ≠ 0 → (s = .withNanInf → x ≠ 1 ∧ x ≠ -1) →
          (z8 s).fmt.IsTrunc (1 / (z8 s).fmt.val x) z))
    (f := fun x => lift (Posit.inv (z8 s) x)) (cls := .int8) ha hs (fun x hx => by
      obtain ⟨z, hz⟩ := inv_total s (ha.int8 hca x hx)
      refine ⟨z, by rw [hz]; rfl, hz, fun h1 h2 h3 => ?_⟩
      obtain ⟨c1, c2, -⟩ := z8_cond s
      obtain ⟨v, e1, e2⟩ := C16_inv_partial (z8_wf s) (by omega) h1 h2 h3 (safeMag_of_narrow (z8_wf s) c2 _)
      rw [hz] at e1; cases e1; exact e2)
  refine ⟨r, ?_, hm⟩
  have e : unop s nlhs [a, o] = unLoop s a (uninit a.dims .int8 a.complex) := by
    simp [unop, arg, bind, Except.bind, hca, ho, ht]
  rw [e]; unfold unLoop; rw [hr]; rfl

example : unop .withNan 1 [⟨.int8, false, [2, 1], [96, -80], []⟩, { cls := .char, dims := [1, 3], text := [105, 110, 118] }] =
    .ok { how := .quiet, out := some ⟨.int8, false, [2, 1], [some 32, some (-42)]⟩ } := by decide +kernel

/-- the float type of a class -/
def traitOf : Cls → Option FTrait
  | .double => some .double
  | .single => some .single
  | .int16 => some .half
  | .uint16 => some .half
  | _ => none

/-- the number of an 8-bit posit is exact in all three float types -/
theorem toFloat_value {t : FTrait} (ht : t = .half ∨ t = .single ∨ t = .double) {x : ℤ} (hx : (z8 s).fmt.IsReal x) {b : ℕ}
    (hb : Posit.toFloat (z8 s) t x = .ok b) : ieee t.eb t.fb b = .num ((z8 s).fmt.val x) := by
  have w := z8_wf s
  obtain ⟨-, -, -, -, hE⟩ := z8_cond s
  have hF : (z8 s).fb ≤ (z8 s).F := by cases s <;> decide
  have hms : (z8 s).maxScale + 2 ≤ 2 ^ (5 - 1) := by cases s <;> decide
  have hms8 : (z8 s).maxScale + 2 ≤ 2 ^ (8 - 1) := by cases s <;> decide
  have hms11 : (z8 s).maxScale + 2 ≤ 2 ^ (11 - 1) := by cases s <;> decide
  by_cases h0 : x = 0
  · subst h0
    have e : Posit.toFloat (z8 s) t 0 = .ok 0 := by
      rcases ht with rfl | rfl | rfl <;> cases s <;> decide +kernel
    rw [e] at hb; cases hb
    rw [Format.val_zero]
    rcases ht with rfl | rfl | rfl <;> simp [ieee, FTrait.half, FTrait.single, FTrait.double]
  rcases ht with rfl | rfl | rfl
  · obtain ⟨r1, r2⟩ := val_range w hx h0 hms
    rw [C51_traits.1] at hb
    obtain ⟨b', e1, -, e2⟩ := C23_toFloat_partial (eb := 5) (fb := 10) (dn := true) w hF (by norm_num) (by norm_num) (by norm_num)
      (by cases s <;> decide) (leastBits_max (by omega)) hx h0 (by exact_mod_cast r1) (by exact_mod_cast r2)
    rw [hb] at e1; cases e1; exact e2
  · obtain ⟨r1, r2⟩ := val_range w hx h0 hms8
    rw [C51_traits.2.1] at hb
    obtain ⟨b', e1, -, e2⟩ := C23_toFloat_partial (eb := 8) (fb := 23) (dn := true) w hF (by norm_num) (by norm_num) (by norm_num)
      (by cases s <;> decide) (leastBits_max (by omega)) hx h0 (by exact_mod_cast r1) (by exact_mod_cast r2)
    rw [hb] at e1; cases e1; exact e2
  · obtain ⟨r1, r2⟩ := val_range w hx h0 hms11
    rw [C51_traits.2.2] at hb
    obtain ⟨b', e1, -, e2⟩ := C23_toFloat_partial (eb := 11) (fb := 52) (dn := true) w hF (by norm_num) (by norm_num) (by norm_num)
      (by cases s <;> decide) (leastBits_max (by omega)) hx h0 (by exact_mod_cast r1) (by exact_mod_cast r2)
    rw [hb] at e1; cases e1; exact e2

theorem traitOf_cases {k : Cls} {t : FTrait} (h : traitOf k = some t) : t = .half ∨ t = .single ∨ t = .double := by
  cases k <;> simp [traitOf] at h <;> simp [← h]

theorem tofloat_run {nlhs : ℕ} {a o : Arr} (ha : a.cls = .int8) {t : FTrait} (ht : traitOf o.cls = some t) :
    tofloat s nlhs [a, o] = toLoop s t a (uninit a.dims o.cls a.complex) := by
  cases hk : o.cls <;> rw [hk] at ht <;> simp [traitOf] at ht <;> subst ht <;>
    simp [tofloat, arg, bind, Except.bind, pure, Except.pure, ha, hk]

theorem offloat_run {nlhs : ℕ} {a : Arr} {t : FTrait} (ht : traitOf a.cls = some t) :
    offloat s nlhs [a] = ofLoop s t a (uninit a.dims .int8 a.complex) := by
  cases hk : a.cls <;> rw [hk] at ht <;> simp [traitOf] at ht <;> subst ht <;>
    simp [offloat, arg, bind, Except.bind, pure, Except.pure, hk]

/-- **C109**, `p8Tofloat`: into the class of the second argument (`double`, `single`, or half floats as 16-bit integers), every number
exactly; every access is inside its array. Missing as above. -/
theorem C109_tofloat_partial (nlhs : ℕ) {a o : Arr} (ha : a.Valid) (hca : a.cls = .int8) (hs : a.data.length < 2 ^ 31) {t : FTrait}
    (ht : traitOf o.cls = some t) :
    ∃ r, tofloat s nlhs [a, o] = .ok { how := .quiet, out := some r } ∧
      IsMap (fun x z => ∃ b : ℕ, z = b ∧ Posit.toFloat (z8 s) t x = .ok b ∧
        ((z8 s).fmt.IsReal x → ieee t.eb t.fb b = .num ((z8 s).fmt.val x))) o.cls a r := by
  obtain ⟨r, hr, hm⟩ := map_run (P := fun x z => ∃ b : ℕ, z = b ∧ Posit.toFloat (z8 s) t x = .ok b ∧
        ((z8 s).fmt.IsReal x → ieee t.eb t.fb b = .num ((z8 s).fmt.val x)))
    (f := fun x => do let b ← lift (Posit.toFloat (z8 s) t x); return (b : ℤ)) (cls := o.cls) ha hs (fun x hx => by
      obtain ⟨b, hb, -⟩ := toFloat_total s (traitOf_cases ht) (ha.int8 hca x hx)
      exact ⟨b, by rw [hb]; rfl, b, rfl, hb, fun h => toFloat_value (traitOf_cases ht) h hb⟩)
  refine ⟨r, ?_, hm⟩
  rw [tofloat_run hca ht]; unfold toLoop; rw [hr]; rfl

/-- 3 and -1/2 as half floats -/
example : tofloat .withNan 1 [⟨.int8, false, [2, 1], [104, -32], []⟩, { cls := .uint16, dims := [0, 0] }] =
    .ok { how := .quiet, out := some ⟨.uint16, false, [2, 1], [some 0x4200, some 0xb800]⟩ } := by decide +kernel

/-- **C109**, `floatTop8`: whenever no conversion is undefined, in each place the posit that the library converts to, which for a
number not zero (and for `float` and `double` a normal one) is the number rounded toward zero; every access is inside its array.
Missing as above, and what the conversions of C22 miss. -/
theorem C109_offloat_partial (nlhs : ℕ) {a : Arr} (ha : a.Valid) (hs : a.data.length < 2 ^ 31) {t : FTrait}
    (ht : traitOf a.cls = some t) (hd : ∀ x ∈ a.data, ∃ z, Posit.ofFloat (z8 s) t x.toNat = .ok z) :
    ∃ r, offloat s nlhs [a] = .ok { how := .quiet, out := some r } ∧
      IsMap (fun x z => Posit.ofFloat (z8 s) t x.toNat = .ok z ∧
        ∀ y : ℚ, ieee t.eb t.fb x.toNat = .num y → y ≠ 0 → (t.fb = 10 ∨ 2 ^ ((2 : ℤ) - 2 ^ (t.eb - 1)) ≤ |y|) →
          (z8 s).fmt.IsTrunc y z) .int8 a r := by
  obtain ⟨r, hr, hm⟩ := map_run (P := fun x z => Posit.ofFloat (z8 s) t x.toNat = .ok z ∧
        ∀ y : ℚ, ieee t.eb t.fb x.toNat = .num y → y ≠ 0 → (t.fb = 10 ∨ 2 ^ ((2 : ℤ) - 2 ^ (t.eb - 1)) ≤ |y|) →
          (z8 s).fmt.IsTrunc y z)
    (f := fun x => lift (Posit.ofFloat (z8 s) t x.toNat)) (cls := .int8) ha hs (fun x hx => by
      obtain ⟨z, hz⟩ := hd x hx
      refine ⟨z, by rw [hz]; rfl, hz, fun y h1 h2 h3 => ?_⟩
      obtain ⟨c1, c2, -, -, hE⟩ := z8_cond s
      have hF : (z8 s).F = 16 := rfl
      obtain ⟨v, e1, e2⟩ := C22_ieee_partial (z8_wf s) c2 hE t (traitOf_cases ht) h1 h2
        (by rcases h3 with h3 | h3
            · left; rw [h3, hF]; norm_num
            · right; exact ⟨by omega, h3⟩)
      rw [hz] at e1; cases e1; exact e2)
  refine ⟨r, ?_, hm⟩
  rw [offloat_run ht]; unfold ofLoop; rw [hr]; rfl

/-- 3.14159274f and -1e30f -/
example : (∀ x ∈ [0x40490fdb, 0xf149f2ca], ∃ z, Posit.ofFloat (z8 .withNan) .single x = .ok z) ∧
    offloat .withNan 1 [⟨.single, false, [1, 2], [0x40490fdb, 0xf149f2ca], []⟩] =
      .ok { how := .quiet, out := some ⟨.int8, false, [1, 2], [some 105, some (-127)]⟩ } := by
  refine ⟨?_, by decide +kernel⟩
  intro x hx
  apply ok_of_isOk
  rcases List.mem_cons.mp hx with rfl | hx
  · decide +kernel
  · rw [List.mem_singleton.mp hx]; decide +kernel

/-- **C109**, there and back: what `p8Tofloat` makes of an array, whatever its patterns and whichever of the float types, `floatTop8`
turns back into the same array. -/
theorem C109_round_trip (n m : ℕ) {a o : Arr} (ha : a.Valid) (hca : a.cls = .int8) (hs : a.data.length < 2 ^ 31) {t : FTrait}
    (ht : traitOf o.cls = some t) :
    ∃ d : List ℤ, tofloat s n [a, o] = .ok { how := .quiet, out := some ⟨o.cls, a.complex, a.dims, d.map some⟩ } ∧
      offloat s m [⟨o.cls, a.complex, a.dims, d, []⟩] =
        .ok { how := .quiet, out := some ⟨.int8, a.complex, a.dims, a.data.map some⟩ } := by
  have hex : ∀ x : ℤ, ∃ b : ℕ, -128 ≤ x ∧ x ≤ 127 → Posit.toFloat (z8 s) t x = .ok b ∧ Posit.ofFloat (z8 s) t b = .ok x := by
    intro x
    by_cases h : -128 ≤ x ∧ x ≤ 127
    · obtain ⟨b, hb⟩ := toFloat_total s (traitOf_cases ht) h
      exact ⟨b, fun _ => hb⟩
    · exact ⟨0, fun h' => absurd h' h⟩
  choose g hg using hex
  have eqOf : ∀ {l : List (Option ℤ)} {k : List ℤ}, l.length = k.length → (∀ (i : ℕ) x, k[i]? = some x → l[i]? = some (some x)) →
      l = k.map some := by
    intro l k h1 h2
    apply List.ext_getElem?
    intro i
    rw [List.getElem?_map]
    by_cases hi : i < k.length
    · have := List.getElem?_eq_getElem hi
      rw [h2 i _ this, this]; rfl
    · rw [List.getElem?_eq_none (by omega), List.getElem?_eq_none (by omega)]; rfl
  have hb : (⟨o.cls, a.complex, a.dims, a.data.map (fun x => (g x : ℤ)), []⟩ : Arr).Valid := by
    refine ⟨by rw [List.length_map]; exact ha.len, fun h => ?_, fun _ x hx => ?_⟩
    · change o.cls = .int8 at h
      rw [h] at ht; cases ht
    · obtain ⟨y, -, rfl⟩ := List.mem_map.mp hx
      positivity
  refine ⟨a.data.map (fun x => (g x : ℤ)), ?_, ?_⟩
  · obtain ⟨r, hr, hm⟩ := C109_tofloat_partial (s := s) n ha hca hs ht
    rw [hr]
    have : r.data = (a.data.map (fun x => (g x : ℤ))).map some := by
      apply eqOf (by rw [List.length_map]; exact hm.len)
      intro i x hx
      rw [List.getElem?_map] at hx
      obtain ⟨y, hy, rfl⟩ := Option.map_eq_some_iff.mp hx
      obtain ⟨z, h1, b, rfl, h2, -⟩ := hm.val i y hy
      rw [(hg y (ha.int8 hca y (List.mem_of_getElem? hy))).1] at h2
      cases h2; exact h1
    rw [← this]
    congr 3
    obtain ⟨e1, e2, e3, -, -⟩ := hm
    cases r; simp only at e1 e2 e3; subst e1; subst e2; subst e3; rfl
  · obtain ⟨r, hr, hm⟩ := C109_offloat_partial (s := s) m (a := ⟨o.cls, a.complex, a.dims, a.data.map (fun x => (g x : ℤ)), []⟩)
      hb (by simpa using hs) ht (fun x hx => by
        obtain ⟨y, hy, rfl⟩ := List.mem_map.mp hx
        exact ⟨y, by rw [Int.toNat_natCast]; exact (hg y (ha.int8 hca y hy)).2⟩)
    rw [hr]
    have : r.data = a.data.map some := by
      apply eqOf (by rw [hm.len]; simp)
      intro i x hx
      obtain ⟨z, h1, h2, -⟩ := hm.val i (g x) (by show (a.data.map _)[i]? = _; rw [List.getElem?_map, hx]; rfl)
      rw [Int.toNat_natCast, (hg x (ha.int8 hca x (List.mem_of_getElem? hx))).2] at h2
      cases h2; exact h1
    rw [← this]
    congr 3
    obtain ⟨e1, e2, e3, -, -⟩ := hm
    cases r; simp only at e1 e2 e3; subst e1; subst e2; subst e3; rfl

/-- NaN, 3 and the least number, complex with one more, through `double` -/
example : (⟨.int8, true, [2, 1], [-128, 104, 1, -77], []⟩ : Arr).Valid ∧ traitOf .double = some .double := by
  refine ⟨⟨by decide, fun _ => by decide, fun h => absurd rfl h⟩, rfl⟩

end Verif.Mex
