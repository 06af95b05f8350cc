import Verif.Lemmas.AnyFloat

/-!
# C56, C57: conversions between float formats, emulated floats

include/unpacked.h:763-771, include/anyfloat.hpp. Formats have `eb` exponent and `fb` fraction bits and are `with_denorm`.
-/

namespace Verif
open Fmt

variable {eb fb eb1 fb1 eb2 fb2 neb nfb : ℕ} {o : FloatOps}

/-! ## C56: `convertfloats` -/

/-- **C56**: a number is cut down to the destination format (numbers below the normal range become +0). -/
theorem C56_num (heb1 : 2 ≤ eb1) (heb1' : eb1 ≤ 16) (hfb1 : 1 ≤ fb1) (h64 : eb1 + fb1 + 1 ≤ 64) (heb2 : 2 ≤ eb2) (heb2' : eb2 ≤ 16)
    (hfb2 : 1 ≤ fb2) {b : ℕ} {x : ℚ} (hx : ieee eb1 fb1 b = .num x) :
    ∃ r, convertFloats (.any eb1 fb1) (.any eb2 fb2) b = .ok r ∧ r < 2 ^ (eb2 + fb2 + 1) ∧ IsCut eb2 fb2 x r ∧
      (|x| < minNorm eb2 → r = 0) :=
  conv_num heb1 heb1' hfb1 (by omega) heb2 heb2' hfb2 (le_trans (by omega : 1 ≤ eb1 + fb1 + 1) (le_max_left _ _))
    (Or.inl (le_trans (by omega : fb2 ≤ eb2 + fb2 + 1) (le_max_right _ _))) hx
    (Or.inr (Or.inr (Or.inl (lt_of_lt_of_le (by omega : fb1 < eb1 + fb1 + 1) (le_max_left _ _)))))

/-- 100000 of `float` to half is 65504, the greatest half -/
example : ieee 8 23 0x47c35000 = .num 100000 ∧ convertFloats (.any 8 23) (.any 5 10) 0x47c35000 = .ok 0x7bff ∧
    ieee 5 10 0x7bff = .num 65504 :=
  ⟨by norm_num [ieee], by decide +kernel, by norm_num [ieee]⟩

/-- **C56**: infinities keep their sign. -/
theorem C56_inf (heb1 : 2 ≤ eb1) (heb1' : eb1 ≤ 16) (hfb1 : 1 ≤ fb1) (heb2 : 2 ≤ eb2) (hfb2 : 1 ≤ fb2) {b : ℕ} {s : Bool}
    (hx : ieee eb1 fb1 b = .inf s) :
    ∃ r, convertFloats (.any eb1 fb1) (.any eb2 fb2) b = .ok r ∧ r < 2 ^ (eb2 + fb2 + 1) ∧ ieee eb2 fb2 r = .inf s :=
  conv_inf heb1 heb1' hfb1 heb2 hfb2 (le_trans (by omega : 1 ≤ eb1 + fb1 + 1) (le_max_left _ _)) hx

example : ieee 8 23 0xff800000 = .inf true ∧ convertFloats (.any 8 23) (.any 5 10) 0xff800000 = .ok 0xfc00 ∧ ieee 5 10 0xfc00 = .inf true :=
  ⟨by norm_num [ieee], by decide +kernel, by norm_num [ieee]⟩

/-- **C56**: NaN stays NaN. -/
theorem C56_nan (heb1 : 2 ≤ eb1) (heb1' : eb1 ≤ 16) (hfb1 : 1 ≤ fb1) (heb2 : 2 ≤ eb2) (hfb2 : 1 ≤ fb2) {b : ℕ}
    (hx : ieee eb1 fb1 b = .nan) :
    ∃ r, convertFloats (.any eb1 fb1) (.any eb2 fb2) b = .ok r ∧ r < 2 ^ (eb2 + fb2 + 1) ∧ ieee eb2 fb2 r = .nan :=
  conv_nan heb1 heb1' hfb1 heb2 hfb2 (le_trans (by omega : 1 ≤ eb1 + fb1 + 1) (le_max_left _ _)) hx
    (Or.inl (le_trans (by omega : fb1 ≤ eb1 + fb1 + 1) (le_max_left _ _)))

/-- a NaN whose payload is lost -/
example : ieee 8 23 0x7f800001 = .nan ∧ convertFloats (.any 8 23) (.any 5 10) 0x7f800001 = .ok 0x7e00 ∧ ieee 5 10 0x7e00 = .nan :=
  ⟨by norm_num [ieee], by decide +kernel, by norm_num [ieee]⟩

/-- **C56**: the conversion is defined for every pattern. -/
theorem C56_total (heb1 : 2 ≤ eb1) (heb1' : eb1 ≤ 16) (hfb1 : 1 ≤ fb1) (h64 : eb1 + fb1 + 1 ≤ 64) (heb2 : 2 ≤ eb2) (heb2' : eb2 ≤ 16)
    (hfb2 : 1 ≤ fb2) (b : ℕ) :
    ∃ r, convertFloats (.any eb1 fb1) (.any eb2 fb2) b = .ok r ∧ r < 2 ^ (eb2 + fb2 + 1) := by
  cases hb : ieee eb1 fb1 b with
  | num x => obtain ⟨r, h1, h2, -⟩ := C56_num heb1 heb1' hfb1 h64 heb2 heb2' hfb2 hb; exact ⟨r, h1, h2⟩
  | inf s => obtain ⟨r, h1, h2, -⟩ := C56_inf heb1 heb1' hfb1 heb2 hfb2 hb; exact ⟨r, h1, h2⟩
  | nan => obtain ⟨r, h1, h2, -⟩ := C56_nan heb1 heb1' hfb1 heb2 hfb2 hb; exact ⟨r, h1, h2⟩

/-- bits above the format are ignored: 3 of a half, with bit 16 set -/
example : convertFloats (.any 5 10) (.any 8 23) 0x14200 = .ok 0x40400000 ∧ ieee 5 10 0x14200 = .num 3 :=
  ⟨by decide +kernel, by norm_num [ieee]⟩

/-- **C56**: the conversion is exact for zero and for numbers that are normal numbers of the destination format, in particular
for every normal number when the destination has at least as many exponent and fraction bits. -/
theorem C56_exact (heb1 : 2 ≤ eb1) (heb1' : eb1 ≤ 16) (hfb1 : 1 ≤ fb1) (h64 : eb1 + fb1 + 1 ≤ 64) (heb2 : 2 ≤ eb2) (heb2' : eb2 ≤ 16)
    (hfb2 : 1 ≤ fb2) {b : ℕ} {x : ℚ} (hx : ieee eb1 fb1 b = .num x) (hn : x = 0 ∨ minNorm eb2 ≤ |x|)
    (hd : (eb1 ≤ eb2 ∧ fb1 ≤ fb2) ∨ ∃ g, ieee eb2 fb2 g = .num x) :
    ∃ r, convertFloats (.any eb1 fb1) (.any eb2 fb2) b = .ok r ∧ ieee eb2 fb2 r = .num x := by
  obtain ⟨r, h1, -, h2, -⟩ := C56_num heb1 heb1' hfb1 h64 heb2 heb2' hfb2 hx
  obtain ⟨g, hg⟩ : ∃ g, ieee eb2 fb2 g = .num x := by
    rcases hd with ⟨h3, h4⟩ | h
    · exact ieee_widen heb1 h3 h4 hx hn
    · exact h
  exact ⟨r, h1, h2.exact hg hn⟩

/-- 2049 and 2048 of `float`: only the second is a half -/
example : ieee 8 23 0x45000000 = .num 2048 ∧ minNorm 5 ≤ |(2048 : ℚ)| ∧ ieee 5 10 0x6800 = .num 2048 ∧
    convertFloats (.any 8 23) (.any 5 10) 0x45000000 = .ok 0x6800 ∧ convertFloats (.any 8 23) (.any 5 10) 0x45001000 = .ok 0x6800 :=
  ⟨by norm_num [ieee], by norm_num [minNorm], by norm_num [ieee], by decide +kernel, by decide +kernel⟩

/-- **C56**: in the normal range of the destination the relative error is less than one unit in the last place. -/
theorem C56_error (heb1 : 2 ≤ eb1) (heb1' : eb1 ≤ 16) (hfb1 : 1 ≤ fb1) (h64 : eb1 + fb1 + 1 ≤ 64) (heb2 : 2 ≤ eb2) (heb2' : eb2 ≤ 16)
    (hfb2 : 1 ≤ fb2) {b : ℕ} {x : ℚ} (hx : ieee eb1 fb1 b = .num x) (h1 : minNorm eb2 ≤ |x|) (h2 : |x| ≤ maxFin eb2 fb2) :
    ∃ r y, convertFloats (.any eb1 fb1) (.any eb2 fb2) b = .ok r ∧ ieee eb2 fb2 r = .num y ∧ |x - y| < |x| / 2 ^ fb2 := by
  obtain ⟨r, h3, -, h4, -⟩ := C56_num heb1 heb1' hfb1 h64 heb2 heb2' hfb2 hx
  obtain ⟨y, hy, -⟩ := id h4
  exact ⟨r, y, h3, hy, h4.error heb2 hy h1 h2⟩

/-- 2049 becomes 2048, off by 1 < 2049 / 1024 -/
example : ieee 8 23 0x45001000 = .num 2049 ∧ minNorm 5 ≤ |(2049 : ℚ)| ∧ |(2049 : ℚ)| ≤ maxFin 5 10 ∧
    convertFloats (.any 8 23) (.any 5 10) 0x45001000 = .ok 0x6800 ∧ |(2049 : ℚ) - 2048| < |2049| / 2 ^ 10 :=
  ⟨by norm_num [ieee], by norm_num [minNorm], by norm_num [maxFin], by decide +kernel, by norm_num⟩

/-- **C56**: the conversion is monotone. -/
theorem C56_mono (heb1 : 2 ≤ eb1) (heb1' : eb1 ≤ 16) (hfb1 : 1 ≤ fb1) (h64 : eb1 + fb1 + 1 ≤ 64) (heb2 : 2 ≤ eb2) (heb2' : eb2 ≤ 16)
    (hfb2 : 1 ≤ fb2) {b b' : ℕ} {x x' : ℚ} (hx : ieee eb1 fb1 b = .num x) (hx' : ieee eb1 fb1 b' = .num x') (hle : x ≤ x') :
    ∃ r r' y y', convertFloats (.any eb1 fb1) (.any eb2 fb2) b = .ok r ∧ convertFloats (.any eb1 fb1) (.any eb2 fb2) b' = .ok r' ∧
      ieee eb2 fb2 r = .num y ∧ ieee eb2 fb2 r' = .num y' ∧ y ≤ y' := by
  obtain ⟨r, h3, -, h4, -⟩ := C56_num heb1 heb1' hfb1 h64 heb2 heb2' hfb2 hx
  obtain ⟨r', h3', -, h4', -⟩ := C56_num heb1 heb1' hfb1 h64 heb2 heb2' hfb2 hx'
  obtain ⟨y, hy, -⟩ := id h4
  obtain ⟨y', hy', -⟩ := id h4'
  exact ⟨r, r', y, y', h3, h3', hy, hy', h4.mono h4' hy hy' hle⟩

example : ieee 8 23 0xc5001000 = .num (-2049) ∧ ieee 8 23 0x45001000 = .num 2049 ∧
    convertFloats (.any 8 23) (.any 5 10) 0xc5001000 = .ok 0xe800 ∧ ieee 5 10 0xe800 = .num (-2048) ∧
    convertFloats (.any 8 23) (.any 5 10) 0x45001000 = .ok 0x6800 :=
  ⟨by norm_num [ieee], by norm_num [ieee], by decide +kernel, by norm_num [ieee], by decide +kernel⟩

/-- **C56**: converting to a wider format and back gives a normal number back. -/
theorem C56_roundtrip (heb1 : 2 ≤ eb1) (hfb1 : 1 ≤ fb1) (he : eb1 ≤ eb2) (hf : fb1 ≤ fb2) (heb2' : eb2 ≤ 16)
    (h64 : eb2 + fb2 + 1 ≤ 64) {b : ℕ} {x : ℚ} (hx : ieee eb1 fb1 b = .num x) (hn : x = 0 ∨ minNorm eb1 ≤ |x|) :
    ∃ r r', convertFloats (.any eb1 fb1) (.any eb2 fb2) b = .ok r ∧ convertFloats (.any eb2 fb2) (.any eb1 fb1) r = .ok r' ∧
      ieee eb1 fb1 r' = .num x := by
  obtain ⟨r, h1, h2⟩ := C56_exact (eb2 := eb2) (fb2 := fb2) heb1 (by omega) hfb1 (by omega) (by omega) heb2' (by omega) hx
    (hn.imp_right (le_trans (minNorm_anti he))) (Or.inl ⟨he, hf⟩)
  obtain ⟨r', h3, h4⟩ := C56_exact (eb2 := eb1) (fb2 := fb1) (by omega) heb2' (by omega) h64 heb1 (by omega) hfb1 h2 hn (Or.inr ⟨b, hx⟩)
  exact ⟨r, r', h1, h3, h4⟩

example : ieee 5 10 0xc233 = .num (-1587 / 512) ∧ minNorm 5 ≤ |(-1587 / 512 : ℚ)| ∧
    convertFloats (.any 5 10) (.any 8 23) 0xc233 = .ok 0xc0466000 ∧ convertFloats (.any 8 23) (.any 5 10) 0xc0466000 = .ok 0xc233 :=
  ⟨by norm_num [ieee], by norm_num [minNorm], by decide +kernel, by decide +kernel⟩

/-- **C56** does not hold beyond the range of the destination: such numbers become its greatest number, not infinity. -/
theorem C56_overflow_wrong (heb1 : 2 ≤ eb1) (heb1' : eb1 ≤ 16) (hfb1 : 1 ≤ fb1) (h64 : eb1 + fb1 + 1 ≤ 64) (heb2 : 2 ≤ eb2)
    (heb2' : eb2 ≤ 16) (hfb2 : 1 ≤ fb2) {b : ℕ} {x : ℚ} (hx : ieee eb1 fb1 b = .num x) (h1 : maxFin eb2 fb2 ≤ |x|) :
    ∃ r y, convertFloats (.any eb1 fb1) (.any eb2 fb2) b = .ok r ∧ ieee eb2 fb2 r = .num y ∧ |y| = maxFin eb2 fb2 := by
  obtain ⟨r, h3, -, h4, -⟩ := C56_num heb1 heb1' hfb1 h64 heb2 heb2' hfb2 hx
  obtain ⟨y, hy, -⟩ := id h4
  exact ⟨r, y, h3, hy, h4.saturates heb2 hfb2 hy h1⟩

/-- C56 on pi from double to float and to half, +infinity, the identity conversion of a subnormal float and of -0 (both become
+0), 2^100 to half (65504), a half subnormal to float (exact) -/
example : convertFloats (.any 11 52) (.any 8 23) 0x400921fb54442d18 = .ok 0x40490fda ∧
    convertFloats (.any 11 52) (.any 5 10) 0x400921fb54442d18 = .ok 0x4248 ∧
    convertFloats (.any 8 23) (.any 5 10) 0xff800000 = .ok 0xfc00 ∧ convertFloats (.any 8 23) (.any 5 10) 0x7f800001 = .ok 0x7e00 ∧
    convertFloats (.any 8 23) (.any 8 23) 0x00400000 = .ok 0 ∧ convertFloats (.any 8 23) (.any 8 23) 0x80000000 = .ok 0 ∧
    convertFloats (.any 8 23) (.any 5 10) 0x71800000 = .ok 0x7bff ∧ convertFloats (.any 5 10) (.any 8 23) 0x8001 = .ok 0xb3800000 := by
  decide +kernel

example : ieee 8 23 0x71800000 = .num (2 ^ (100 : ℤ)) ∧ minNorm 5 ≤ |(3.140625 : ℚ)| ∧ |(3.140625 : ℚ)| ≤ maxFin 5 10 := by
  norm_num [ieee, minNorm, maxFin, abs_of_pos]

end Verif
