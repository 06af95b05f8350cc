import Verif.Model.Float2Bin
import Verif.Spec.Float2Bin
import Verif.Props.FloatLimits
import Verif.Lemmas.SoftWrap

/-!
# C140: the constants printed by scripts/float2bin.py
-/

namespace Verif
open Float2Bin

theorem hexDigit_spec {d : ℕ} (h : d < 16) : hexDigits[d]? = some (hexDigit d) := by
  have : ∀ d < (16 : ℕ), hexDigits[d]? = some (hexDigit d) := by decide +kernel
  exact this d h

theorem hexlify_append (a b : List ℕ) : hexlify (a ++ b) = hexlify a ++ hexlify b := by
  unfold hexlify; rw [List.flatMap_append]

theorem bytes_reverse (w b : ℕ) : (bytes (w + 1) b).reverse = (bytes w (b / 256)).reverse ++ [b % 256] := by
  unfold bytes
  rw [List.range_succ_eq_map, List.map_cons, List.map_map, List.reverse_cons]
  congr 2
  · congr 1
    funext i
    simp only [Function.comp, Nat.succ_eq_add_one]
    rw [pow_succ', Nat.div_div_eq_div_mul]
  · simp

/-- **C140**, one number: the text is `0x` and the hexadecimal numeral, of `2w` digits, of the memory read as a number. -/
theorem C140_literal (w : ℕ) {b : ℕ} (hb : b < 256 ^ w) :
    ∃ s, literal w b = '0' :: 'x' :: s ∧ s.length = 2 * w ∧ IsHex s b := by
  refine ⟨hexlify (bytes w b).reverse, rfl, ?_, ?_⟩
  · unfold hexlify
    rw [List.length_flatMap]
    simp [bytes, mul_comm, Function.comp_def]
  · induction w generalizing b with
    | zero =>
      obtain rfl : b = 0 := by simpa using hb
      exact .nil
    | succ w ih =>
      have h1 := ih (b := b / 256) (by rw [Nat.div_lt_iff_lt_mul (by norm_num)]; rwa [pow_succ] at hb)
      rw [bytes_reverse, hexlify_append]
      have h2 := IsHex.snoc (IsHex.snoc h1 (hexDigit_spec (d := b % 256 / 16) (by omega))) (hexDigit_spec (d := b % 256 % 16) (by omega))
      have e : 16 * (16 * (b / 256) + b % 256 / 16) + b % 256 % 16 = b := by omega
      rw [e] at h2
      simpa [hexlify] using h2

example : (0x3c00 : ℕ) < 256 ^ 2 ∧ literal 2 0x3c00 = "0x3c00".toList := by decide +kernel

/-- a numeral denotes one number -/
theorem IsHex.unique {s : List Char} {n n' : ℕ} (h : IsHex s n) (h' : IsHex s n') : n = n' := by
  have inj : ∀ {d d' : ℕ} {ch : Char}, hexDigits[d]? = some ch → hexDigits[d']? = some ch → d = d' := by
    intro d d' ch h1 h2
    have l1 : d < 16 := (List.getElem?_eq_some_iff.mp h1).1
    have key : ∀ d < (16 : ℕ), ∀ d' < (16 : ℕ), hexDigits[d]? = hexDigits[d']? → d = d' := by decide +kernel
    exact key d l1 d' (List.getElem?_eq_some_iff.mp h2).1 (h1.trans h2.symm)
  induction h generalizing n' with
  | nil =>
    generalize hs : ([] : List Char) = t at h'
    cases h' with
    | nil => rfl
    | snoc _ _ => simp at hs
  | @snoc s n d ch h1 h2 ih =>
    generalize hs : s ++ [ch] = t at h'
    cases h' with
    | nil => simp at hs
    | @snoc s' m d' ch' h3 h4 =>
      obtain ⟨rfl, e⟩ := List.append_inj' hs rfl
      obtain rfl : ch = ch' := by simpa using e
      rw [ih h3, inj h2 h4]

example : IsHex ['1', 'f'] 31 := .snoc (.snoc .nil (d := 1) (by decide)) (d := 15) (by decide)

theorem pattern_unique {eb fb a b : ℕ} {X : XNum} (ha : a < 2 ^ (eb + fb + 1)) (hb : b < 2 ^ (eb + fb + 1)) (h1 : ieee eb fb a = X)
    (h2 : ieee eb fb b = X) (hX : X = .inf true ∨ X = .inf false ∨ X = .num 1 ∨ X = .num 2) : a = b := by
  have sign : ∀ {a : ℕ}, a < 2 ^ (eb + fb + 1) → ieee eb fb a = X → (signBit eb fb a = true ↔ X = .inf true) := by
    intro a ha h1
    obtain ⟨s, k, hs, hk, rfl⟩ := NearGen.split_word ha
    rw [NearGen.signBit_join hs hk, decide_eq_true_eq]
    rw [NearGen.ieee_gen s k hs hk] at h1
    have hg := NearGen.g_nonneg (eb := eb) (fb := fb) k
    split_ifs at h1 with c1 c2 c3 c4
    · rcases hX with rfl | rfl | rfl | rfl <;> simp at h1 <;> linarith
    · rcases hX with rfl | rfl | rfl | rfl <;> simp_all
    · rcases hX with rfl | rfl | rfl | rfl <;> simp_all
    · rcases hX with rfl | rfl | rfl | rfl <;> simp_all
  refine NearGen.ieee_inj ha hb (h1.trans h2.symm) ?_ (Bool.eq_iff_iff.mpr ((sign ha h1).trans (sign hb h2).symm))
  rw [h1]; rcases hX with rfl | rfl | rfl | rfl <;> simp

/-- **C140**, the types of 16, 32 and 64 bits: if numpy stores the infinities, 1 and 2 as IEEE numbers and NaN as the positive
quiet NaN, the text of each of them is the hexadecimal numeral of the constant of the trait. -/
theorem C140_traits {t : FTrait} {w : ℕ} (ht : t = .half ∧ w = 2 ∨ t = .single ∧ w = 4 ∨ t = .double ∧ w = 8) {b : ℕ}
    (hb : b < 256 ^ w) :
    (ieee t.eb t.fb b = .inf true → ∃ s, literal w b = '0' :: 'x' :: s ∧ IsHex s t.ninf) ∧
    (ieee t.eb t.fb b = .inf false → ∃ s, literal w b = '0' :: 'x' :: s ∧ IsHex s t.pinf) ∧
    (b = (2 ^ t.eb - 1) * 2 ^ t.fb + 2 ^ (t.fb - 1) → ∃ s, literal w b = '0' :: 'x' :: s ∧ IsHex s t.nan) ∧
    (ieee t.eb t.fb b = .num 1 → ∃ s, literal w b = '0' :: 'x' :: s ∧ IsHex s t.one) ∧
    (ieee t.eb t.fb b = .num 2 → ∃ s, literal w b = '0' :: 'x' :: s ∧ IsHex s t.two) := by
  obtain ⟨s, hs, -, hh⟩ := C140_literal w hb
  obtain ⟨hw, hc, hn, h1, h2, h3, h4⟩ : 256 ^ w = 2 ^ (t.eb + t.fb + 1) ∧ t = .any t.eb t.fb true ∧
      t.nan = (2 ^ t.eb - 1) * 2 ^ t.fb + 2 ^ (t.fb - 1) ∧ t.ninf < 256 ^ w ∧ t.pinf < 256 ^ w ∧ t.one < 256 ^ w ∧ t.two < 256 ^ w := by
    rcases ht with ⟨rfl, rfl⟩ | ⟨rfl, rfl⟩ | ⟨rfl, rfl⟩ <;> decide +kernel
  have heb : 2 ≤ t.eb ∧ 1 ≤ t.fb := by rcases ht with ⟨rfl, rfl⟩ | ⟨rfl, rfl⟩ | ⟨rfl, rfl⟩ <;> decide
  obtain ⟨c1, c2, -, -, -, c3, c4, -⟩ := C51_constants (dn := true) heb.1 heb.2
  rw [← hc] at c1 c2 c3 c4
  rw [hw] at hb h1 h2 h3 h4
  refine ⟨fun h => ⟨s, hs, ?_⟩, fun h => ⟨s, hs, ?_⟩, fun h => ⟨s, hs, ?_⟩, fun h => ⟨s, hs, ?_⟩, fun h => ⟨s, hs, ?_⟩⟩
  · rwa [pattern_unique hb h1 h c4 (by simp)] at hh
  · rwa [pattern_unique hb h2 h c3 (by simp)] at hh
  · rwa [h, ← hn] at hh
  · rwa [pattern_unique hb h3 h c1 (by simp)] at hh
  · rwa [pattern_unique hb h4 h c2 (by simp)] at hh

example : (0xfc00 : ℕ) < 256 ^ 2 ∧ ieee FTrait.half.eb FTrait.half.fb 0xfc00 = .inf true ∧
    ieee FTrait.double.eb FTrait.double.fb 0x3ff0000000000000 = .num 1 := by
  refine ⟨by norm_num, by norm_num [ieee, FTrait.half], by norm_num [ieee, FTrait.double]⟩

theorem bytes_split (m n p b : ℕ) (hb : b < 256 ^ n) :
    (bytes (m + n) (p * 256 ^ n + b)).reverse = (bytes m p).reverse ++ (bytes n b).reverse := by
  induction n generalizing b with
  | zero =>
    obtain rfl : b = 0 := by simpa using hb
    simp [bytes]
  | succ n ih =>
    have e : p * 256 ^ (n + 1) + b = 256 * (p * 256 ^ n) + b := by rw [pow_succ]; ring
    rw [← add_assoc, bytes_reverse, bytes_reverse, e, Nat.mul_add_div (by norm_num), Nat.mul_add_mod,
      ih (b / 256) (by rw [Nat.div_lt_iff_lt_mul (by norm_num)]; rwa [pow_succ] at hb), List.append_assoc]

/-- **C140**, the type `float128` of numpy, if it is the 80-bit type of the x87 in 16 bytes, six of them of any content: the text
ends with the 80 bits, after twelve digits of that content. -/
theorem C140_x87 {p b : ℕ} (hp : p < 2 ^ 48) (hb : b < 2 ^ 80) :
    ∃ s, literal 16 (p * 2 ^ 80 + b) = '0' :: 'x' :: s ∧ IsHex (s.take 12) p ∧ IsHex (s.drop 12) b := by
  obtain ⟨s, hs, hl, hh⟩ := C140_literal 6 (b := p) (by norm_num at hp ⊢; exact hp)
  obtain ⟨s', hs', hl', hh'⟩ := C140_literal 10 (b := b) (by norm_num at hb ⊢; exact hb)
  have e : literal 16 (p * 2 ^ 80 + b) = '0' :: 'x' :: (s ++ s') := by
    have h1 : s = hexlify (bytes 6 p).reverse := by unfold literal at hs; simpa using hs.symm
    have h2 : s' = hexlify (bytes 10 b).reverse := by unfold literal at hs'; simpa using hs'.symm
    have h3 := bytes_split 6 10 p b (by norm_num at hb ⊢; exact hb)
    have h4 : (256 : ℕ) ^ 10 = 2 ^ 80 := by norm_num
    rw [h4] at h3
    unfold literal
    rw [show (16 : ℕ) = 6 + 10 by norm_num, h3, hexlify_append, ← h1, ← h2]
    rfl
  refine ⟨s ++ s', e, ?_, ?_⟩
  · rwa [List.take_left' (by omega)]
  · rwa [List.drop_left' (by omega)]

example : (0x7f97524 : ℕ) < 2 ^ 48 ∧ (0x3fff8000000000000000 : ℕ) < 2 ^ 80 ∧ x87 0x3fff8000000000000000 = .num 1 := by
  refine ⟨by norm_num, by norm_num, by norm_num [x87]⟩

/-- **C140**, `float128_trait`: its infinities, NaN and one are what the script prints for the x87, with some content of the six
bytes; `two_h` is not, whatever they contain. -/
theorem C140_quad (sb : ℕ) :
    let q := FTrait.quad id sb
    (∃ p b, p < 2 ^ 48 ∧ b < 2 ^ 80 ∧ q.ninf = p * 2 ^ 80 + b ∧ x87 b = .inf true) ∧
    (∃ p b, p < 2 ^ 48 ∧ b < 2 ^ 80 ∧ q.pinf = p * 2 ^ 80 + b ∧ x87 b = .inf false) ∧
    (∃ p b, p < 2 ^ 48 ∧ b < 2 ^ 80 ∧ q.nan = p * 2 ^ 80 + b ∧ x87 b = .nan) ∧
    (∃ p b, p < 2 ^ 48 ∧ b < 2 ^ 80 ∧ q.one = p * 2 ^ 80 + b ∧ x87 b = .num 1) ∧
    ¬ ∃ p b, b < 2 ^ 80 ∧ q.two = p * 2 ^ 80 + b ∧ x87 b = .num 2 := by
  intro q
  refine ⟨⟨0xb00000000000, 0xffff8000000000000000, by norm_num, by norm_num, rfl, by norm_num [x87]⟩,
    ⟨0x900007f97524, 0x7fff8000000000000000, by norm_num, by norm_num, rfl, by norm_num [x87]⟩,
    ⟨0xb00000000000, 0x7fffc000000000000000, by norm_num, by norm_num, rfl, by norm_num [x87]⟩,
    ⟨0xd00007f97524, 0x3fff8000000000000000, by norm_num, by norm_num, rfl, by norm_num [x87]⟩, ?_⟩
  rintro ⟨p, b, hb, he, hx⟩
  have h2 : q.two = 0x40000000000000000000000000000000 := rfl
  obtain rfl : b = 0 := by
    rw [h2] at he
    norm_num at hb he
    omega
  norm_num [x87] at hx

/-- **C140**, the output: four groups of five lines, each with the name of the type in 30 columns, the name of the value in 10, and
the text of the number. -/
theorem C140_output (mem : ℕ → ℕ → ℕ) :
    (output mem).length = 20 ∧ ∀ t v, t < 4 → v < 5 → ∃ i j,
      (output mem)[5 * t + v]? = some (List.replicate i ' ' ++ ("<type 'numpy.float" ++ toString (16 * 2 ^ t) ++ "'>").toList ++
        List.replicate (j + 1) ' ' ++ (["-inf", "inf", "nan", "one", "two"].getD v "").toList ++ [' '] ++
        literal (2 * 2 ^ t) (mem t v)) ∧
      i + ("<type 'numpy.float" ++ toString (16 * 2 ^ t) ++ "'>").toList.length = 30 ∧
      j + (["-inf", "inf", "nan", "one", "two"].getD v "").toList.length = 10 := by
  refine ⟨rfl, fun t v ht hv => ⟨if t = 3 then 7 else 8, if v = 0 then 6 else 7, ?_, ?_, ?_⟩⟩
  · have hl : (output mem)[5 * t + v]? =
        some (line (types.getD t ([], 0)).1 (names.getD v []) (types.getD t ([], 0)).2 (mem t v)) := by
      interval_cases t <;> interval_cases v <;> rfl
    have hw : (types.getD t ([], 0)).2 = 2 * 2 ^ t := by interval_cases t <;> rfl
    have hp : ∀ t < (4 : ℕ), ∀ v < (5 : ℕ), padLeft 30 (types.getD t ([], 0)).1 ++ [' '] ++ padLeft 10 (names.getD v []) ++ [' '] =
        List.replicate (if t = 3 then 7 else 8) ' ' ++ ("<type 'numpy.float" ++ toString (16 * 2 ^ t) ++ "'>").toList ++
        List.replicate ((if v = 0 then 6 else 7) + 1) ' ' ++ (["-inf", "inf", "nan", "one", "two"].getD v "").toList ++ [' '] := by
      decide +kernel
    rw [hl, hw]
    unfold line
    rw [hp t ht v hv]
  · have : ∀ t < (4 : ℕ), (if t = 3 then 7 else 8) + ("<type 'numpy.float" ++ toString (16 * 2 ^ t) ++ "'>").toList.length = 30 := by
      decide +kernel
    exact this t ht
  · have : ∀ v < (5 : ℕ), (if v = 0 then 6 else 7) + (["-inf", "inf", "nan", "one", "two"].getD v "").toList.length = 10 := by
      decide +kernel
    exact this v hv

example : (output fun _ _ => 0x3c00).getD 3 [] = "        <type 'numpy.float16'>        one 0x3c00".toList := by decide +kernel

end Verif
