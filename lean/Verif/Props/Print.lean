import Mathlib.Data.Nat.Digits.Lemmas
import Verif.Model.Print
import Verif.Lemmas.Extended

/-! # C105: what is written to a stream determines the number -/

namespace Verif
namespace Print
open Fmt

variable {c : Cfg}

/-! ## Digits (specification): reading them -/

/-- the value of a character as a digit, at most 15 -/
def digitVal (ch : Char) : ℕ := if '0' ≤ ch ∧ ch ≤ '9' then ch.toNat - 48 else ch.toNat - 87

/-- the number written with the digits `l` in base `b` -/
def readNat (b : ℕ) (l : List Char) : ℕ := l.foldl (fun a ch => a * b + digitVal ch) 0

theorem digitVal_digitChar {d : ℕ} (h : d < 16) : digitVal (Nat.digitChar d) = d := by
  have : ∀ d : Fin 16, digitVal (Nat.digitChar d.val) = d.val := by decide
  exact this ⟨d, h⟩

theorem readNat_map (b : ℕ) (l : List ℕ) (hl : ∀ d ∈ l, d < 16) : readNat b (l.reverse.map Nat.digitChar) = Nat.ofDigits b l := by
  unfold readNat
  rw [List.foldl_map, List.foldl_reverse]
  induction l with
  | nil => rfl
  | cons d l ih =>
    rw [List.foldr_cons, ih (fun e he => hl e (by simp [he])), digitVal_digitChar (hl d (by simp)), Nat.ofDigits_cons]
    push_cast; ring

theorem digits_lt {b n : ℕ} (hb : 1 < b) (hb16 : b ≤ 16) : ∀ d ∈ Nat.digits b n, d < 16 :=
  fun _ hd => lt_of_lt_of_le (Nat.digits_lt_base hb hd) hb16

theorem readNat_natText {b : ℕ} (hb : 1 < b) (hb16 : b ≤ 16) (n : ℕ) : readNat b (natText b n) = n := by
  unfold natText
  split_ifs with h
  · subst h; simp [readNat, digitVal]
  · rw [readNat_map b _ (digits_lt hb hb16), Nat.ofDigits_digits]

/-- digits: characters that are none of those used around numbers -/
def IsDigit (ch : Char) : Prop := ch ≠ ' ' ∧ ch ≠ ')' ∧ ch ≠ '-'

theorem isDigit_digitChar {d : ℕ} (h : d < 16) : IsDigit (Nat.digitChar d) := by
  have : ∀ d : Fin 16, Nat.digitChar d.val ≠ ' ' ∧ Nat.digitChar d.val ≠ ')' ∧ Nat.digitChar d.val ≠ '-' := by decide
  exact this ⟨d, h⟩

theorem natText_digits {b : ℕ} (hb : 1 < b) (hb16 : b ≤ 16) (n : ℕ) : ∀ ch ∈ natText b n, IsDigit ch := by
  unfold natText
  split_ifs with h
  · intro ch hc
    simp at hc; subst hc
    unfold IsDigit; decide
  · intro ch hc
    obtain ⟨d, hd, rfl⟩ := List.mem_map.mp hc
    exact isDigit_digitChar (digits_lt hb hb16 d (List.mem_reverse.mp hd))

theorem natText_inj {b : ℕ} (hb : 1 < b) (hb16 : b ≤ 16) {m n : ℕ} (h : natText b m = natText b n) : m = n := by
  rw [← readNat_natText hb hb16 m, h, readNat_natText hb hb16]

/-- **C105**, natural numbers: reading back what is written gives the number, every character is a digit of the base, and there is no
leading zero except for zero itself. -/
theorem C105_digits {b : ℕ} (hb : b = 8 ∨ b = 10 ∨ b = 16) (n : ℕ) :
    readNat b (natText b n) = n ∧ (∀ ch ∈ natText b n, digitVal ch < b) ∧ (n ≠ 0 → (natText b n).head? ≠ some '0') := by
  have h1 : 1 < b := by omega
  have h2 : b ≤ 16 := by omega
  refine ⟨readNat_natText h1 h2 n, ?_, ?_⟩
  · intro ch hc
    unfold natText at hc
    split_ifs at hc with h
    · simp at hc; subst hc
      have : digitVal '0' = 0 := by decide
      omega
    · obtain ⟨d, hd, rfl⟩ := List.mem_map.mp hc
      have hd' := List.mem_reverse.mp hd
      rw [digitVal_digitChar (digits_lt h1 h2 d hd')]
      exact Nat.digits_lt_base h1 hd'
  · intro h0 hh
    unfold natText at hh
    rw [if_neg h0, List.head?_map, List.head?_reverse, Option.map_eq_some_iff] at hh
    obtain ⟨d, hd, he⟩ := hh
    have hne : Nat.digits b n ≠ [] := Nat.digits_ne_nil_iff_ne_zero.mpr h0
    rw [List.getLast?_eq_some_getLast hne] at hd
    have hd0 := Nat.getLast_digit_ne_zero b h0
    have hdm := List.getLast_mem hne
    injection hd with hd
    rw [hd] at hd0 hdm
    have : digitVal (Nat.digitChar d) = d := digitVal_digitChar (digits_lt h1 h2 d hdm)
    rw [he] at this
    have h00 : digitVal '0' = 0 := by decide
    omega

example : natText 16 48879 = ['b', 'e', 'e', 'f'] ∧ natText 10 0 = ['0'] ∧ natText 8 64 = ['1', '0', '0'] := by decide +kernel

theorem decText_inj {v w : ℤ} (h : decText v = decText w) : v = w := by
  have key : ∀ n m, natText 10 n ≠ '-' :: natText 10 m := by
    intro n m hh
    have := natText_digits (b := 10) (by norm_num) (by norm_num) n '-' (by rw [hh]; simp)
    exact this.2.2 rfl
  unfold decText at h
  split_ifs at h with h1 h2 h2
  · have := natText_inj (by norm_num) (by norm_num) (List.cons.inj h).2
    omega
  · exact absurd h.symm (key _ _)
  · exact absurd h (key _ _)
  · have := natText_inj (by norm_num) (by norm_num) h
    omega

theorem decText_nospace (v : ℤ) : ' ' ∉ decText v := by
  intro hm
  unfold decText at hm
  split_ifs at hm
  · rcases List.mem_cons.mp hm with h | h
    · exact absurd h (by decide)
    · exact (natText_digits (by norm_num) (by norm_num) _ _ h).1 rfl
  · exact (natText_digits (by norm_num) (by norm_num) _ _ hm).1 rfl

/-- texts up to a separator that they do not contain -/
theorem split_at {α : Type} {x : α} {a b r s : List α} (ha : x ∉ a) (hb : x ∉ b) (h : a ++ x :: r = b ++ x :: s) : a = b ∧ r = s := by
  induction a generalizing b with
  | nil =>
    cases b with
    | nil => simpa using h
    | cons y b => simp at h; exact absurd (by simp [h.1]) hb
  | cons y a ih =>
    cases b with
    | nil => simp at h; exact absurd (by simp [h.1]) ha
    | cons z b =>
      simp only [List.cons_append, List.cons.injEq] at h
      obtain ⟨h1, h2⟩ := ih (by simp at ha; exact ha.2) (by simp at hb; exact hb.2) h.2
      exact ⟨by rw [h.1, h1], h2⟩

/-! ## Unpacked numbers -/

/-- **C105**, unpacked numbers: the texts of two of them are equal only if both are regular and agree in sign, exponent and fraction, or both are infinite of the
same sign, or both are NaN, or both are zero. -/
theorem C105_unpacked (F F' : ℕ) (s s' : Base) {u w : Unp} (h : (unp F s u).1 = (unp F' s' w).1) :
    u.ty = w.ty ∧ (u.ty = .regular → u = w) ∧ (u.ty = .infinity → u.neg = w.neg) := by
  obtain ⟨t, n, e, f⟩ := u
  obtain ⟨t', n', e', f'⟩ := w
  have hreg : ∀ {n n' : Bool} {e e' : ℤ} {f f' : ℕ}, (unp F s ⟨.regular, n, e, f⟩).1 = (unp F' s' ⟨.regular, n', e', f'⟩).1 →
      n = n' ∧ e = e' ∧ f = f' := by
    intro n n' e e' f f' h
    have h1 : ∀ (F : ℕ) (s : Base) (n : Bool) (e : ℤ) (f : ℕ), (unp F s ⟨.regular, n, e, f⟩).1 = 'u' :: 'p' :: '(' :: (if n then '-' else '+') ::
        (" exp (dec) = ".toList ++ (decText e ++ (' ' :: ("fraction (hex) = ".toList ++ (natText 16 f ++ (' ' :: ("(bin) = ".toList ++ (bitsText F f ++ [')'])))))))) := by
      intro F s n e f
      have e0 : "up(".toList = ['u', 'p', '('] := by decide
      have e1 : " fraction (hex) = ".toList = ' ' :: "fraction (hex) = ".toList := by decide
      have e2 : " (bin) = ".toList = ' ' :: "(bin) = ".toList := by decide
      unfold unp
      dsimp only
      rw [e0, e1, e2]
      generalize " exp (dec) = ".toList = x1
      generalize "fraction (hex) = ".toList = x2
      generalize "(bin) = ".toList = x3
      cases n <;> simp
    rw [h1, h1] at h
    simp only [List.cons.injEq, true_and] at h
    obtain ⟨hs, h⟩ := h
    have h := List.append_cancel_left h
    obtain ⟨he, h⟩ := split_at (decText_nospace e) (decText_nospace e') h
    have h := List.append_cancel_left h
    obtain ⟨hf, -⟩ := split_at (fun hm => (natText_digits (b := 16) (by norm_num) (by norm_num) f _ hm).1 rfl)
      (fun hm => (natText_digits (b := 16) (by norm_num) (by norm_num) f' _ hm).1 rfl) h
    refine ⟨?_, decText_inj he, natText_inj (by norm_num) (by norm_num) hf⟩
    cases n <;> cases n' <;> first | rfl | exact absurd hs (by decide)
  cases t <;> cases t'
  case regular.regular =>
    obtain ⟨rfl, rfl, rfl⟩ := hreg h
    exact ⟨rfl, fun _ => rfl, fun _ => rfl⟩
  case infinity.infinity =>
    refine ⟨rfl, (fun hh => by cases hh), fun _ => ?_⟩
    cases n <;> cases n'
    · rfl
    · exfalso; revert h; simp [unp]
    · exfalso; revert h; simp [unp]
    · rfl
  all_goals
    first
    | exact ⟨rfl, (fun h => by cases h), (fun h => by cases h)⟩
    | (exfalso; revert h; cases n <;> cases n' <;> simp [unp])

/-- fields of a number of type zero are not printed -/
example : (unp 8 .hex ⟨.zero, true, 5, 3⟩).1 = (unp 16 .dec ⟨.zero, false, 0, 0⟩).1 ∧
    (unp 8 .hex ⟨.regular, true, -3, 0xa0⟩).1 ≠ (unp 8 .hex ⟨.regular, true, -3, 0xa1⟩).1 := by decide +kernel

/-- the integer written in decimal -/
def readInt : List Char → ℤ
  | '-' :: l => -(readNat 10 l : ℤ)
  | l => readNat 10 l

theorem readInt_decText (v : ℤ) : readInt (decText v) = v := by
  unfold decText
  split_ifs with h
  · show -(readNat 10 (natText 10 v.natAbs) : ℤ) = v
    rw [readNat_natText (by norm_num) (by norm_num)]; omega
  · have h1 : readInt (natText 10 v.natAbs) = readNat 10 (natText 10 v.natAbs) := by
      cases ht : natText 10 v.natAbs with
      | nil => rfl
      | cons ch l =>
        have := (natText_digits (b := 10) (by norm_num) (by norm_num) v.natAbs ch (by rw [ht]; simp)).2.2
        unfold readInt
        split
        · rename_i heq; injection heq with h1 h2; exact absurd h1 this
        · rfl
    rw [h1, readNat_natText (by norm_num) (by norm_num)]; omega

theorem readNat_append (b : ℕ) (l : List Char) (ch : Char) : readNat b (l ++ [ch]) = readNat b l * b + digitVal ch := by
  unfold readNat; rw [List.foldl_append]; rfl

theorem readNat_bitsText {w n : ℕ} (h : n < 2 ^ w) : readNat 2 (bitsText w n) = n := by
  induction w generalizing n with
  | zero => simp [bitsText, readNat] at *; omega
  | succ w ih =>
    have h1 : bitsText (w + 1) n = bitsText w (n / 2) ++ [if n.testBit 0 then '1' else '0'] := by
      unfold bitsText
      rw [List.range_succ, List.map_append, List.map_singleton]
      congr 1
      · apply List.map_congr_left
        intro i hi
        have hi := List.mem_range.mp hi
        rw [show w + 1 - 1 - i = (w - 1 - i) + 1 by omega, Nat.testBit_succ]
      · simp
    rw [h1, readNat_append, ih (by rw [pow_succ] at h; omega)]
    have h2 : digitVal (if n.testBit 0 then '1' else '0') = n % 2 := by
      rw [Nat.testBit_zero]
      rcases Nat.mod_two_eq_zero_or_one n with h | h <;> rw [h] <;> decide
    rw [h2]; omega

/-- no leading zeros -/
def Plain (l : List Char) : Prop := l = ['0'] ∨ (l ≠ [] ∧ l.head? ≠ some '0')

theorem natText_plain {b : ℕ} (hb : 2 ≤ b) (hb2 : b ≤ 16) (n : ℕ) : Plain (natText b n) := by
  unfold natText
  split_ifs with h
  · exact .inl rfl
  · have hne : Nat.digits b n ≠ [] := Nat.digits_ne_nil_iff_ne_zero.mpr h
    refine .inr ⟨by simpa using hne, ?_⟩
    rw [List.head?_map, List.head?_reverse, List.getLast?_eq_getLast_of_ne_nil hne]
    have h1 := Nat.getLast_digit_ne_zero b h
    have h2 : (Nat.digits b n).getLast hne < 16 := lt_of_lt_of_le (Nat.digits_lt_base (by omega) (List.getLast_mem hne)) hb2
    have key : ∀ d < (16 : ℕ), d ≠ 0 → Nat.digitChar d ≠ '0' := by decide
    simpa using key _ h2 h1

theorem decText_plain (v : ℤ) : (v < 0 → ∃ l, decText v = '-' :: l ∧ Plain l) ∧ (0 ≤ v → Plain (decText v) ∧ '-' ∉ decText v) := by
  unfold decText
  refine ⟨fun h => ⟨_, if_pos h, natText_plain (by norm_num) (by norm_num) _⟩, fun h => ?_⟩
  rw [if_neg (by omega)]
  exact ⟨natText_plain (by norm_num) (by norm_num) _,
    fun hm => (natText_digits (b := 10) (by norm_num) (by norm_num) v.natAbs _ hm).2.2 rfl⟩

/-- **C105**: the text of a regular number consists of its sign, and of its exponent in decimal, its fraction in hexadecimal, and the fraction
as `F` bits, each preceded by what it is, the integers without leading zeros and with a sign only if they are negative; the specials are named. -/
theorem C105_text {F : ℕ} (s : Base) {n : Bool} {e : ℤ} {f : ℕ} (hf : f < 2 ^ F) :
    (∃ ds hs bs, (unp F s ⟨.regular, n, e, f⟩).1 = (if n then "up(-" else "up(+").toList ++ " exp (dec) = ".toList ++ ds ++
      " fraction (hex) = ".toList ++ hs ++ " (bin) = ".toList ++ bs ++ ")".toList ∧
      readInt ds = e ∧ readNat 16 hs = f ∧ readNat 2 bs = f ∧ bs.length = F ∧
      (e < 0 → ∃ l, ds = '-' :: l ∧ Plain l) ∧ (0 ≤ e → Plain ds ∧ '-' ∉ ds) ∧ Plain hs) ∧
    (unp F s ⟨.infinity, n, e, f⟩).1 = (if n then "up(-infinity)" else "up(+infinity)").toList ∧
    (unp F s ⟨.nan, n, e, f⟩).1 = "up(nan)".toList ∧ (unp F s ⟨.zero, n, e, f⟩).1 = "up(0)".toList := by
  refine ⟨⟨decText e, natText 16 f, bitsText F f, ?_, readInt_decText e, readNat_natText (by norm_num) (by norm_num) f, readNat_bitsText hf, ?_,
    (decText_plain e).1, (decText_plain e).2, natText_plain (by norm_num) (by norm_num) f⟩, ?_, rfl, rfl⟩
  · cases n
    · show _ = "up(+".toList ++ _ ++ _ ++ _ ++ _ ++ _ ++ _ ++ _
      rw [show "up(+".toList = "up(".toList ++ ['+'] by decide]; rfl
    · show _ = "up(-".toList ++ _ ++ _ ++ _ ++ _ ++ _ ++ _ ++ _
      rw [show "up(-".toList = "up(".toList ++ ['-'] by decide]; rfl
  · simp [bitsText]
  · cases n <;> rfl

example : (5 : ℕ) < 2 ^ 8 ∧ readInt "-12".toList = -12 ∧ readNat 16 "a0".toList = 160 := by decide +kernel

/-- **C105**: the flags are left alone except by a regular number, which leaves the stream in decimal mode. -/
theorem C105_flags (F : ℕ) (s : Base) (u : Unp) : (unp F s u).2 = if u.ty = .regular then .dec else s := by
  obtain ⟨t, n, e, f⟩ := u
  cases t <;> rfl

example : (unp 8 .hex ⟨.regular, true, -3, 0xa0⟩) = ("up(- exp (dec) = -3 fraction (hex) = a0 (bin) = 10100000)".toList, .dec) ∧
    (unp 8 .hex ⟨.infinity, true, 0, 0⟩) = ("up(-infinity)".toList, .hex) := by decide +kernel

/-! ## Posits -/

/-- patterns of the format are decoded to different unpacked numbers -/
theorem unpack_inj (h : c.WF) (hF : c.fb ≤ c.F) {v w : ℤ} (hv : c.fmt.IsCanonical v) (hw : c.fmt.IsCanonical w) {u t : Unp}
    (hu : Posit.unpack c v = .ok u) (ht : Posit.unpack c w = .ok t) (hty : u.ty = t.ty) (hreg : u.ty = .regular → u = t)
    (hinf : u.ty = .infinity → u.neg = t.neg) : v = w := by
  have key : ∀ {v : ℤ} {u : Unp}, c.fmt.IsCanonical v → Posit.unpack c v = .ok u →
      (c.fmt.IsReal v ∧ Den c.F 0 u (c.fmt.val v)) ∨ (u.ty = .infinity ∧ u.neg = decide (v < 0) ∧ ¬ c.fmt.IsReal v ∧ Posit.isNaN c v = false) ∨
        (u.ty = .nan ∧ Posit.isNaN c v = true) := by
    intro v u hv hu
    by_cases hr : c.fmt.IsReal v
    · obtain ⟨u', h1, h2, -⟩ := den_unpack h (k := 0) (by omega) hr
      rw [hu] at h1; cases h1
      exact Or.inl ⟨hr, h2⟩
    · rcases unpack_cases h hv with rfl | ⟨-, hr', -⟩ | ⟨-, hn, hu'⟩ | ⟨hn, hu'⟩
      · exact absurd (by unfold Format.IsReal; omega) hr
      · exact absurd hr' hr
      · rw [hu] at hu'; cases hu'
        exact Or.inr (Or.inl ⟨rfl, rfl, hr, hn⟩)
      · rw [hu] at hu'; cases hu'
        exact Or.inr (Or.inr ⟨rfl, hn⟩)
  have hnan : ∀ {v : ℤ}, Posit.isNaN c v = true ↔ c.spec ≠ .withInf ∧ v = c.topPat := by
    intro v
    unfold Posit.isNaN
    rw [h.nan_eq]
    simp [Cfg.topPat]
  rcases key hv hu with ⟨h1, d1⟩ | ⟨h1, n1, r1, a1⟩ | ⟨h1, a1⟩ <;> rcases key hw ht with ⟨h2, d2⟩ | ⟨h2, n2, r2, a2⟩ | ⟨h2, a2⟩
  · rw [← Format.val_inj h1.inRange h2.inRange]
    generalize c.fmt.val v = x at d1 ⊢
    generalize c.fmt.val w = y at d2 ⊢
    cases d1 with
    | zero => cases d2 with
      | zero => rfl
      | reg => cases hty
    | reg => cases d2 with
      | zero => cases hty
      | reg => have := hreg rfl; cases this; rfl
  · generalize c.fmt.val v = x at d1; cases d1 <;> rw [h2] at hty <;> cases hty
  · generalize c.fmt.val v = x at d1; cases d1 <;> rw [h2] at hty <;> cases hty
  · generalize c.fmt.val w = x at d2; cases d2 <;> rw [h1] at hty <;> cases hty
  · have hs := hinf h1
    rw [n1, n2] at hs
    have hs' : v < 0 ↔ w < 0 := by simpa using hs
    have hg := h.pow_ge
    have ht1 : ¬ (c.spec ≠ .withInf ∧ v = c.topPat) := fun hh => by rw [hnan.mpr hh] at a1; cases a1
    have ht2 : ¬ (c.spec ≠ .withInf ∧ w = c.topPat) := fun hh => by rw [hnan.mpr hh] at a2; cases a2
    unfold Cfg.topPat at ht1 ht2
    rcases canonical_cases h hv with g1 | g1 | ⟨s1, g1⟩ <;> rcases canonical_cases h hw with g2 | g2 | ⟨s2, g2⟩
    · exact absurd g1 r1
    · exact absurd g1 r1
    · exact absurd g1 r1
    · exact absurd g2 r2
    · rw [g1, g2]
    · exact absurd ⟨by rw [s2]; decide, g1⟩ ht1
    · exact absurd g2 r2
    · exact absurd ⟨by rw [s1]; decide, g2⟩ ht2
    · rcases g1 with g1 | g1 <;> rcases g2 with g2 | g2 <;> omega
  · rw [h1, h2] at hty; cases hty
  · generalize c.fmt.val w = x at d2; cases d2 <;> rw [h1] at hty <;> cases hty
  · rw [h1, h2] at hty; cases hty
  · rw [(hnan.mp a1).2, (hnan.mp a2).2]

/-- **C105**, posits: writing one leaves the base flags as they were. In hexadecimal mode the integer itself is written, in decimal, and as
a character if it has 8 bits; in decimal mode the float; in octal mode the decoded posit; without base flag nothing. -/
theorem C105_posit (c : Cfg) (ftext : ℕ → List Char) (s : Base) (v : ℤ) :
    (∀ r, posit c ftext s v = .ok r → r.2 = s) ∧
    (c.H ≠ 8 → posit c ftext .hex v = .ok (decText v, .hex)) ∧
    (c.H = 8 → posit c ftext .hex v = .ok ([Char.ofNat (v % 256).toNat], .hex)) ∧
    (∀ f, Posit.toFloat c .single v = .ok f → posit c ftext .dec v = .ok (ftext f, .dec)) ∧
    (∀ u, Posit.unpack c v = .ok u → posit c ftext .oct v = .ok ((unp c.F .dec u).1, .oct)) ∧
    posit c ftext .none v = .ok ([], .none) := by
  refine ⟨?_, ?_, ?_, ?_, ?_, rfl⟩
  · intro r hr
    unfold posit at hr
    cases s
    · cases hf : Posit.toFloat c .single v with
      | error e => simp [bind, Except.bind, hf] at hr
      | ok f => simp [bind, Except.bind, hf, pure, Except.pure] at hr; rw [← hr]
    · cases hr; rfl
    · cases hf : Posit.unpack c v with
      | error e => simp [bind, Except.bind, hf] at hr
      | ok f => simp [bind, Except.bind, hf, pure, Except.pure] at hr; rw [← hr]
    · cases hr; rfl
  · intro h
    unfold posit holderText
    simp [h, bind, Except.bind, pure, Except.pure]
  · intro h
    unfold posit holderText wrapU
    simp [h, bind, Except.bind, pure, Except.pure]
  · intro f hf
    simp [posit, bind, Except.bind, hf, pure, Except.pure]
  · intro u hu
    simp [posit, bind, Except.bind, hu, pure, Except.pure]

example : posit P8 (fun _ => []) .hex 65 = .ok (['A'], .hex) ∧ posit P16h (fun _ => []) .hex (-65) = .ok (['-', '6', '5'], .hex) ∧
    posit P8 (fun f => natText 10 f) .dec 64 = .ok (natText 10 0x3f800000, .dec) := by decide +kernel

/-- **C105**: two posits written alike in hexadecimal mode, or in octal mode, are the same; the latter always succeeds. So are two posits
computed by native floats, in any mode. -/
theorem C105_injective (h : c.WF) (hF : c.fb ≤ c.F) (ftext : ℕ → List Char) {v w : ℤ} (hv : c.fmt.IsCanonical v) (hw : c.fmt.IsCanonical w) :
    (posit c ftext .hex v = posit c ftext .hex w → v = w) ∧
    (∃ r, posit c ftext .oct v = .ok r) ∧ (posit c ftext .oct v = posit c ftext .oct w → v = w) ∧
    (∀ s s' r r', positF c s v = .ok r → positF c s' w = .ok r' → r.1 = r'.1 → v = w) := by
  obtain ⟨u, hu, -, -⟩ := ext_unpack h hv
  obtain ⟨t, ht, -, -⟩ := ext_unpack h hw
  refine ⟨fun he => ?_, ⟨_, (C105_posit c ftext .oct v).2.2.2.2.1 u hu⟩, fun he => ?_, fun s s' r r' hr hr' he => ?_⟩
  · by_cases h8 : c.H = 8
    · rw [(C105_posit c ftext .hex v).2.2.1 h8, (C105_posit c ftext .hex w).2.2.1 h8] at he
      simp only [Except.ok.injEq, Prod.mk.injEq, List.cons.injEq, and_true] at he
      have key : ∀ n m : Fin 256, Char.ofNat n.val = Char.ofNat m.val → n = m := by
        intro n m hnm
        have h1 : ∀ n : Fin 256, (Char.ofNat n.val).toNat = n.val := by decide +kernel
        apply Fin.ext
        rw [← h1 n, hnm, h1 m]
      have := key ⟨(v % 256).toNat, by omega⟩ ⟨(w % 256).toNat, by omega⟩ he
      rw [Fin.mk.injEq] at this
      have hN : c.N ≤ 8 := by have := h.hN; omega
      have hp : (2 : ℤ) ^ (c.N - 1) ≤ 128 := by
        calc (2 : ℤ) ^ (c.N - 1) ≤ 2 ^ 7 := pow_le_pow_right₀ (by norm_num) (by omega)
          _ = 128 := by norm_num
      unfold Format.IsCanonical at hv hw
      rw [fmt_N] at hv hw
      omega
    · rw [(C105_posit c ftext .hex v).2.1 h8, (C105_posit c ftext .hex w).2.1 h8] at he
      simp only [Except.ok.injEq, Prod.mk.injEq, and_true] at he
      exact decText_inj he
  · rw [(C105_posit c ftext .oct v).2.2.2.2.1 u hu, (C105_posit c ftext .oct w).2.2.2.2.1 t ht] at he
    simp only [Except.ok.injEq, Prod.mk.injEq, and_true] at he
    obtain ⟨h1, h2, h3⟩ := C105_unpacked _ _ _ _ he
    exact unpack_inj h hF hv hw hu ht h1 h2 h3
  · unfold positF at hr hr'
    rw [hu] at hr
    rw [ht] at hr'
    cases hr; cases hr'
    obtain ⟨h1, h2, h3⟩ := C105_unpacked _ _ _ _ he
    exact unpack_inj h hF hv hw hu ht h1 h2 h3

example : P8.WF ∧ P8.fb ≤ P8.F ∧ P8.fmt.IsCanonical 65 ∧ posit P8 (fun _ => []) .hex 65 = .ok (['A'], .hex) ∧
    posit P16h (fun _ => []) .hex (-65) = .ok (['-', '6', '5'], .hex) ∧
    (positF P8 .hex 64).toOption.map (·.2) = some .dec := by decide +kernel

/-! ## Tabulated numbers -/

theorem intText_inj {s : Base} {m n : ℕ} (hm : m < 2 ^ 32) (hn : n < 2 ^ 32) (h : intText 32 s m = intText 32 s n) : m = n := by
  have key : ∀ {k : ℕ}, k < 2 ^ 32 → wrapU 32 (k : ℤ) = k := by
    intro k hk
    unfold wrapU
    omega
  unfold intText at h
  cases s
  · have := decText_inj h; omega
  · rw [key hm, key hn] at h
    exact natText_inj (by norm_num) (by norm_num) h
  · rw [key hm, key hn] at h
    exact natText_inj (by norm_num) (by norm_num) h
  · have := decText_inj h; omega

/-- **C105**, `posit8`, `posit10`, `posit12`, `binary8tab`: written alike with the same flags, they are the same; the flags stay. -/
theorem C105_tab (s : Base) :
    (∀ v w : ℤ, -128 ≤ v → v < 128 → -128 ≤ w → w < 128 → tab s (Posit8.uu v) = tab s (Posit8.uu w) → v = w) ∧
    (∀ v w : ℤ, -512 ≤ v → v < 512 → -512 ≤ w → w < 512 → tab s (Posit10.uu v) = tab s (Posit10.uu w) → v = w) ∧
    (∀ v w : ℤ, -2048 ≤ v → v < 2048 → -2048 ≤ w → w < 2048 → tab s (Posit12.uu v) = tab s (Posit12.uu w) → v = w) ∧
    (∀ v w : ℤ, -128 ≤ v → v < 128 → -128 ≤ w → w < 128 → binary8 s v = binary8 s w → v = w) ∧
    (∀ u, (tab s u).2 = s) ∧ (∀ v, (binary8 s v).2 = s) := by
  have key : ∀ {m n : ℕ}, m < 2 ^ 32 → n < 2 ^ 32 → tab s m = tab s n → m = n := by
    intro m n hm hn he
    unfold tab at he
    have := (Prod.mk.inj he).1
    rw [List.append_assoc, List.append_assoc] at this
    exact intText_inj hm hn (List.append_cancel_right (List.append_cancel_left this))
  refine ⟨fun v w h1 h2 h3 h4 he => ?_, fun v w h1 h2 h3 h4 he => ?_, fun v w h1 h2 h3 h4 he => ?_, fun v w h1 h2 h3 h4 he => ?_,
    fun _ => rfl, fun _ => rfl⟩
  · have := key (by unfold Posit8.uu; omega) (by unfold Posit8.uu; omega) he
    unfold Posit8.uu at this; omega
  · have := key (by unfold Posit10.uu; omega) (by unfold Posit10.uu; omega) he
    unfold Posit10.uu at this; omega
  · have := key (by unfold Posit12.uu; omega) (by unfold Posit12.uu; omega) he
    unfold Posit12.uu at this; omega
  · unfold binary8 at he
    have := (Prod.mk.inj he).1
    rw [List.append_assoc, List.append_assoc] at this
    have := List.append_cancel_right (List.append_cancel_left this)
    simp only [List.cons.injEq, and_true] at this
    have h1 : ∀ n : Fin 256, (Char.ofNat n.val).toNat = n.val := by decide +kernel
    have key : ∀ n m : Fin 256, Char.ofNat n.val = Char.ofNat m.val → n = m := by
      intro n m hnm
      apply Fin.ext
      rw [← h1 n, hnm, h1 m]
    have := key ⟨(v % 256).toNat, by omega⟩ ⟨(w % 256).toNat, by omega⟩ this
    rw [Fin.mk.injEq] at this
    omega

example : tab .hex (Posit10.uu (-1)) = ("posit(3ff)".toList, .hex) ∧ tab .dec (Posit8.uu (-1)) = ("posit(255)".toList, .dec) ∧
    binary8 .dec 65 = ("binary8tab(A)".toList, .dec) := by decide +kernel

end Print
end Verif
