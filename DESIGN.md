# Formal model of cppPosit

Machine-checked Lean 4 model of the header-only posit library in `/repo`
(`include/posit.h`, `include/unpacked.h`, `include/bithippop.hpp`,
`include/typehelpers.hpp`, `include/floattraits.hpp`, the tabulated classes).
The properties are listed in `properties.jsonl`; `MANIFEST.json` maps each one to theorems.

## 1. Layout

| Path | Content |
|---|---|
| `lean/Verif/Cpp.lean` | C++ integer semantics: widths, promotion, wraparound, undefined behaviour |
| `lean/Verif/Model/*.lean` | the code, function by function, each definition citing file and lines |
| `lean/Verif/Spec/*.lean` | what the properties mean (posit format, truncation, IEEE value, undefined-behaviour ranges); imports at most the data types of the model (`Cfg`, `Unp`, widths), never its operations |
| `lean/Verif/Lemmas/*.lean` | helper lemmas |
| `lean/Verif/Props/*.lean` | the property theorems and one concrete `example` beside each |

## 2. Conventions of the model

* **Configuration.** `Cfg` holds `H` (bits of the holder type `T`), `N` (`totalbits`), `es`
  (`esbits`), `F` (bits of `FT`) and the `PositSpec`. `Cfg.WF` is what the compiler enforces:
  `H, F ∈ {8,16,32,64}`, `N ≤ H`, `es ≤ N-3` (so `3 ≤ N`), no 128-bit exponent type
  (`H = 64 → N+es < 64`), the scale constants representable
  (`1<<es` and `2^es·(N-2)` computed in `int`).
* **Integers.** Signed C++ values are Lean `Int`, unsigned ones are `Nat`; each operation states
  the width and does the wraparound explicitly. Types narrower than `int` are promoted to a
  32-bit `int` (`pw w = max 32 w`), as on every platform the library supports.
  Conversions to a narrower or signed type wrap (GCC/Clang/MSVC behaviour; C++20 rule).
  `nextinttype<uint64_t>` is the 128-bit integer of the compiler, except in Model/No128.lean.
* **Undefined behaviour** is an outcome: model functions that can hit it return `Except UB _`.
  Counted as UB: shift amount negative or ≥ promoted width; left shift of a negative
  signed value or with a result not representable in the unsigned counterpart (C++14 rule);
  signed overflow of `+ - *` and unary minus in the promoted type; `__builtin_clz(0)`;
  division by zero. A theorem of the form `f x = .ok y` therefore includes "no UB".
* **Python** (`scripts/punum.py`): integers are unbounded, fractions exact, exceptions an outcome; `float()` is a parameter. The
  remaining functions of that file raise when called (§6, 42) or call the C library (`exp`).
* **Values.** The real numbers involved are dyadic/rational, so values live in `ℚ`.
* **Not modelled** (trusted or out of scope): native `float`/`double` arithmetic (only the bit-level
  conversions are modelled; a `float` is its bit pattern), the text of native floats, Eigen glue (but the order of operations of a dot product, Model/EigenDot.lean),
  the OSTREAM/`FPGAHLS` variants, the MATLAB files other than the ones named in a property, the scripts other than the ones named, AVX intrinsics other than the ones named in a property,
  headers that do not compile as committed (`exp2.hpp`; of `float2posit.hpp`, `float12.hpp`, `tposit.hpp` and `tvalids.hpp`, which do
  not compile either, the functions are modelled with the repairs stated in Model/Float2Posit, Model/Float12 and Model/TPosit), the `__BMI__` `bextr` variants of `bitset_get` (same result on
  in-range fields), template machinery/`constexpr`, the operation tables of `binary8` and `posit10`
  as files (they are generated at build time and not part of the repository; the generators are modelled), the `binary8` constructors that leave the
  member uninitialised, compile-time failures (`convertfloats` names a member `largest_type<…>::type` that does not
  exist; `_MSVC_VER` branches are never compiled).

## 3. Mathematical backbone

`L(t) = 2^⌊t⌋·(1 + fract t)` maps a "log-scale" coordinate to a value;
`G(s) = L(s)/2` for `s<0`, `1 - L(-s)/2` for `s ≥ 0` maps the regime coordinate to a position in
`(0,1)`. A positive posit body `p` (of `M = N-1` bits) with `p/2^M = G(s)` has value `L(2^es·s)`.
Both maps are strictly increasing, which gives the order theorem; packing computes
`⌊2^M·G(t/2^es)⌋`, which gives the truncation theorem; each arithmetic operation computes a
number that no posit separates from the exact result, which transfers the truncation theorem.

## 4. Plan per property

"N+P" means: the literal claim is false for the code; the negation is proved with a concrete witness and the true part
is proved as `…_partial`.

| Id | Model | Plan |
|---|---|---|
| C01 | `unpackLow`, `decodeRs`, `low2full` | closed form of the decode, compared with a bit-list specification of the format |
| C02 | + `full2low`, `packLow` | closed forms compose to the identity; UB when `N ≥ H-1`, `H ≥ 32` → N+P |
| C03 | `packPosit` | floor of `2^M·G`; specification `IsTrunc` (order-theoretic, no bits) |
| C04 | comparisons | strict monotonicity of `L`,`G` |
| C05 | comparisons | case analysis |
| C06 | `neg` | pattern symmetry; NaN: N+P (false for `N<H`, UB for `N=H≥32`) |
| C07 | `abs` | as C06, N+P |
| C08 | `Unp.mul` | product of mantissas, truncated; no posit between → `IsTrunc` of the exact product |
| C09 | `Unp.div` | likewise with Euclidean division |
| C10 | `Unp.add`, `normalized` | aligned sum; same sign → `IsTrunc`; opposite sign → faithful; UB for far-apart exponents → N+P |
| C11 | `sub` | via C10 and C06 |
| C12 | `add`,`mul` | symmetric closed form; NaN breaks it → N+P |
| C13 | | via C02/C08/C09 |
| C14 | | N+P: NaN on the right is dropped |
| C15 | | N+P: finite/inf returns inf |
| C16 | `inv` | power-of-two branch and division branch; inv(0) → N+P |
| C17 | `next`,`prev` | N+P: stuck at lowest, escapes at max |
| C18 | `half`,`twice` | regime coordinate shift by `2^-es`; half(minpos)=0 → N+P |
| C19 | trait constants | computed from C01; onehalf wrong for `N<H` → N+P |
| C20 | `unpackFixed` | INT_MIN UB → N+P |
| C21 | `packFixed` | N+P: UB for `1≤|x|<2`, wrong sign for `2^31≤|x|<2^32` |
| C22 | `unpackFloat` | specification `ieeeValue` |
| C23 | `packFloat` | normal range exact; round trip via C03 |
| C24 | all | collected UB-freedom theorem and UB witnesses, N+P |
| C25 | | linear on the unit range for `es=0`; false for `es>0` → N+P |
| C26 | | N+P: promotion breaks it for 8/16-bit holders |
| C27 | `stdSqrt` | negation only |
| C28 | `stdMin/stdMax` | via C04 |
| C29 | `dot` | fold model; induction over the vectors |
| C30 | `fma` | via C08/C10 closed forms |
| C31 | `Unp.ne` | N+P |
| C32 | `Unp.neg` | N+P |
| C33 | float conversions | N+P: subnormals are flushed |
| C34 | `clz`, `countLeadingZeroes` | bit smearing + all 64 table cases |
| C35 | `bitsetPart` | N+P |
| C36 | `pabs` | two's complement identity |
| C37 | `U128` | N+P: `<` wrong; shift by 0 UB |
| C38 | tables of `src/posit8_tbl.cpp` | the whole table is checked in the kernel against the exact rational result |
| C39 | | N+P |
| C40 | | via C17/C19/C11 |
| C41 | | corollary of `IsTrunc` |
| C42 | | corollary of C08/C09 |
| C43 | | closed forms are sign symmetric |
| C44 | | corollaries |
| C45 | `floordiv` | integer arithmetic |
| C46 | `splitRegExp`,`joinRegExp` | integer arithmetic |
| C47 | `binary8` | N+P |
| C48 | | C01 + C03 |
| C49 | | N+P: subtraction goes through C32 |
| C50 | `analyze` | closed form of the decode; `esbits=0` reads a field at offset `H` → UB for `H≥32` |
| C51 | `FTrait` | constants evaluated with the IEEE value of `Spec/Ieee` |
| C52 | tables of `src/posit12_tbl.cpp` | whole-table kernel check as C38; N+P |
| C53 | `pseudosoftplus` | closed form of the pattern, read as a regime coordinate; N+P |
| C54 | `PositF` | operands are floats, result is a correct rounding; no float between a quotient and the next posit; P+N |
| C55 | `posit10`, `posit12` operations | posit10: C54 with the tables' index map; posit12: C08-C10, C20; P+N |
| C56 | `convertfloats` | `IsCut`: the result is the number of greatest magnitude not above the argument (0 below the normal range); C22/C23 on both sides; P+N |
| C57 | `anyfloat_emu` | C56 into the native type (exact), one native operation, C56 back; `IsCutRounded`; P+N |
| C58 | `binary8tab` with generated tables | the tables are C57 on `anyfloat_emu<5,2>` over `float`; `IsCut`, `IsCutRounded`; P+N |
| C59 | `float2bits` | the scaling multiplications are exact, invariant `value = |x| * 2^(41 k)`; P+N |
| C60 | `float16n32` without F16C | C56 both ways; the bits of a nonzero half are a multiple of 2^13 as a float, so their conversion to float is exact; N+P |
| C61 | `simd_posit8_32` | a register is a function from lanes to patterns; lanes reduce to C38; N+P |
| C62 | table generators | C54 for `float`, C38/C52 for the tables, both are the unique truncation; conversion and reciprocal tables by a whole-table kernel check |
| C63 | sums, `fma`, `PositMul`, `dot` | the mantissas the adder sees are floors of the exact operands at its unit (`Holds`), so the unpacked sum is `alignedSum`; packing truncates; UB iff |
| C64 | monotonicity of sums | `alignedSum` is monotone when the fixed operand is exact at its own unit; truncation is monotone; N for narrow F |
| C65 | operations compared with each other, `PositMul` | both sides are the truncation of the same number (`Outcome`), which is unique and says when it is undefined; N for `fma` with a rounded product and for a zero second product |
| C66 | `operator-` | a positive posit is n·2^(e-J) with J from the regime; J changes more slowly than e, so the difference fits; the adder's unit is below both last places |
| C67 | spacing, error of `* / + fma` | the pattern after n·2^(e-J) denotes (n+1)·2^(e-J); a faithful rounding is one of the two neighbours; N where exponent bits are missing |
| C68 | `Unpacked` operators on arbitrary fractions | mantissas are operands cut to F or F-1 bits (`cutSig`), quotient fields by `Nat.div` bounds; N+P for the last two bits of a divisor |
| C69 | chained `*`, `/`, `inv`, `+` | rounding toward zero is monotone and idempotent; each step is the greatest posit below the exact result; N for products below the least posit |
| C70 | `conv` (unpack, pack) between formats of equal es and fraction type | truncating twice is truncating once when every narrow posit is a wide one (`trunc_trunc`, `cut_cut`) |
| C71 | operators on `ofInt` | integers below 2^(m+1) are posits (`int_real`), aligned sums of integers below 2^(F-2) are exact (`alignedSum_int`); P for the conversion of quotients in [1,2) |
| C72 | `Alphabet`, `Pnum` of scripts/punum.py | patterns as signed steps along the sorted exact points (`pt`, strictly monotone); binary search by its loop invariant; N for points on whose reciprocals `float()` rounds |
| C73 | `slowplus`, `slowtimes` | the ends of the operands are exact (`ends`); the result arc starts at or below and ends at or above the pattern of the sum; N+P for opposite signs and outermost intervals |
| C74 | `Pbound` | arcs as integer inequalities (`inArc_iff`); N+P for everything and empty |
| C75 | `validsgentable.py` | case analysis on the two indices; N+P for one missing pair |
| C76 | comparisons, min/max, constants of `posit8/10/12` (`TabulatedMore`) | patterns are ordered like values (`val_lt_iff`), NaN as bottom of `WithBot ℚ`; N+P for the infinite constants |
| C77 | `operator int`, `operator double` of the tabulated classes | the C++ rule for `float` to `int` on bit patterns (`f32ToInt_num`) composed with the exact conversion to `float` |
| C78 | the members of `PositF` not calling the float (`PositFMore`), `epsilon`, `urDeltaPs` | `place`: patterns into `Lex (ℤ × ℚ)`, strictly monotone; the float results by C24; N+P for `isinfinity` |
| C79 | `numeric_limits<Posit>::digits10` | spacing of the posits against the spacing of the decimals (`trunc_separate`), `10^d ≤ 2^(N-3)` by `10^3 < 2^10`; N for four exponent bits and outside the middle range |
| C80 | lane operations of the classes in include/simd (`Simd`) | registers as bytes, lanes as base-256 numbers (`horner`); masks as lanes of equal bytes |
| C81 | `blendindex` | what each shuffle does to a mask lane (`lane_srli`, `lane_merge`, `lane_cvt`); N+P for 16-bit integers and pairs of doubles |
| C82 | the loop body of `argmax_along_fit` | induction over the sequence from the end (`fold_argmax`), C80 and C81 as hypotheses; N for 16-bit integers |
| C83 | `loadstrided`, `initgather`, `initincrement`, `load`, `store` | addresses as integers, products with the conversions of `size_t` and `int32_t`; N for wide strides |
| C84 | halfprecision.c, the loop bodies of `singles2halfp`, `doubles2halfp` | a half is `g k`, `g` strictly monotone in the pattern; every branch is shown to give the `k` with `near k v`, from which nearest-ness follows; N for NaNs with an empty upper word |
| C85 | the loop bodies of `halfp2singles`, `halfp2doubles` | fields, invariant of the normalization loop |
| C86 | the four routines, the platform check | induction over the copy loop, uniqueness of the nearest half; N: lower words not written, 8-byte `long` |
| C87 | `packFloat`, `unpackFloat` with `denorm = false` | floor in units of the least subnormal; N: written as subnormals and read back as zero, undefined below the shift width |
| C88 | `Posit` mul, div, add, sub, neg, fma, mulAddMul, mulSubMul, dot on all patterns | extended numbers `EV` (Spec/Extended): number, signed infinity or NaN, with the usual rules and the named departures |
| C89 | `Posit` toInt, ofInt, ofFloat, toFloat, unpack then pack to another format, on all inputs | `EV.toInt`, `readSub`, `subUnit` (Spec/ExtConvert), `IsCut`, `EV.Outcome` |
| C90 | `Posit` abs, stdSqrt, inv, half, twice, next, prev on all patterns | `EV.abs` (Spec/ExtUnary), `EV.Outcome`, `IsSucc` |
| C91 | `Posit` pseudosigmoid, pseudosoftplus | `sigmoidPL`, `logistic` (Spec/Sigmoid): the curve by its points, the real function |
| C92 | `float2posit` (include/float2posit.hpp) | `Outcome`, powers of two of the regime |
| C93 | identities of the tests (tests/itest_constexpr.cpp, tests/testsposit.hpp) | equations between the model's results; `ieee`, `Format.val` |
| C94 | `Posit(float)`, `Posit(double)`, `operator float/double` with an 8-bit exponent type | `ieee`, `Format.IsTrunc`, `cutTo`, `readSub` |
| C95 | `make_fixed`, `pack_xfixed`, `fixedtrait` | `truncZ`, `Int.bmod`, `tripleVal` |
| C96 | `urOneMinus`, `urDeltaPs` | `Format.val`, `Outcome`, `infPat` |
| C97 | constructors from `int` and floats, conversions between formats and to floats and `int` | `Format.val`, `ieee`, order of ℚ |
| C98 | `listpositsT`, `SIGNEX` (src/listposits.cpp) | `IsReal`, `IsCanonical`, order of ℚ, `EV.Outcome` |
| C99 | `anyfloat_emu`, every pattern | `XNum.flush`, IEEE results `plus`/`times`/`over`, `EmuResult` |
| C100 | `PositF`, every pattern | `FloatOf`, `RoundsTo`, `XNum.toEV`, `EV.Outcome` |
| C101 | `float16n32` with F16C | `NearestTo` (nearest, ties to even), `quotientOf`; numbers halfway between halves have 12 bits and no sum or quotient of halves that is not one comes within 2^-12 of their unit; N+P |
| C102 | `rem`, `sqrt` of `float16n32` with F16C | `IsRemainder`, the real square root (`Real.sqrt`); the square of a number halfway between halves differs from every half by its squared unit, so double rounding is harmless; N+P |
| C103 | the 512-bit classes and `simd_x_a` (`Simd512`) | mask registers as numbers (`kmask`), the search of C82 for any step that takes over the greater element (`fold_argmax'`), elements of arrays through `e / n`, `e % n` |
| C104 | `dot` | C63 gives the accumulated number; every aligned sum is off by at most two units of the greater operand (`alignedSum_dist`), induction over the list (`fold_dist`); the last rounding from C67; N for cancellation |
| C105 | `operator<<` of `Unpacked`, `Posit`, `PositF`, the tabulated classes (`Print`) | reading digits (`readNat`, `readInt`); a text is split at the first space; decoding is injective (`unpack_inj`) |
| C106 | `operator+=`, `operator*=` repeated (`List.foldlM`) | induction over the list: a step between numbers of equal sign rounds toward zero (`add_step`, `mul_trunc`); spacing from C67; N for mixed factors |
| C107 | `softfloat16`, `softfloat32` (`SoftWrap`), SoftFloat as a parameter (`SoftLib.Correct`) | rounding to nearest even in any format (`NearGen`): patterns in order of magnitude, existence, uniqueness, error, monotonicity; N+P for `min_exponent`, `max_exponent` |
| C108 | the exp2 table of `softfloat_gen` (`Soft16.exp2t`), `exp2` as a parameter (`IsExp2`) | C107; monotone steps between integers; powers of two |
| C109 | the four MEX functions (`Mex`), arrays with bounds | induction over the loop; C08-C11, C16, C22-C24; N+P for mixed complex operands, missing arguments, unknown operations, 2³¹ values |
| C110 | `Posit8/10/12.genExp2`, `Binary8.genExp2` with `exp2` as a parameter (`IsExp2Close`), the committed tables | brackets of 2^x by 64th powers of rationals checked by the kernel over the whole table, real powers by monotonicity; N+P for posit10 and posit12 |
| C111 | `Posit.exp2t` with `exp2` as a parameter (`IsExp2D`) | C23 and C22, monotonicity and exactness at integers of `exp2`; N+P |
| C112 | `Unp.unpackFloat`, `inv`, `mul`, `div`, `add`, `eq`, `packFloat`, `Unp.dotLoop`, `Unp.dotTest` | C68 and C33 on floats with three spare bits; induction over the list of products; P |
| C113 | `Posit.convTest`, `Posit.specialConv`, `Posit.checkfloat` | C22, C23, C03 and uniqueness of the truncated posit; cases for the special values; P |
| C114 | `MTab.meandiff`, `dump2table`, `print1`, `loadpositdump`, `describetab`, `limittab`, `toindex`, `fromindex`, `halfinrange` | invariant of the search for an extreme element; stability of merge sort; C23 for the values of posits; P |
| C115 | `MTab.morton` | the whole list for n = 2; two equal elements and a missing index for n > 2; P |
| C116 | `PositF.itestPass`, `itest` (with `PositF.add`, `Posit.add`) | sums on a common grid are not cut by the alignment; both results are the truncated exact sum; for neighbours both are faithful; P |
| C117 | `AnyFloat.itestPass`, `itest`, `rawexp` | C99 and C57 composed; P |
| C118 | `TestRegime.extract`, `Bits.bitsetGethw` | leading zeros of the flipped word (C34); bit by bit; P |
| C119 | the `lt` of every class (spec `StrictWeak`, `SortedBy` in Spec/Sort.lean) | order of a key; P |
| C120 | `tabMain`, `tabBinary`, `tabRow`, `tabAll`, `floatLines`, `sixDec` (Model/PnumTab.lean; `Mem` of Spec/Pnum.lean) | C72, C75; P |
| C121 | `ofF32`, `roundPack`, `roundTail`, `toF32`, `normSubnormal` (Model/Float12.lean; spec Spec/NearestEven, Spec/Half, Spec/TowardZero, Spec/Directed) | last bit as sticky bit (`jam`), then magnitudes of halves; P |
| C122 | `TPosit.op1`, `op2`, `sub`, `neg`, `abs`, `ofInt`, `toFloat`, comparisons, constants (Model/TPosit.lean) | `Posit.*`, `val`, `ieee`; the tables are parameters; P |
| C123 | `TValid.inv`, `neg`, `op1`, `op2`, `sub`, `div`, `half` (Model/TPosit.lean) | points of a circle (`Point`, `Same`, `recip` in Props/TValid); the tables are parameters; P |
| C124 | `Cfg.nan`, `pinf`, `ninf`, `one`, `two`, `half` (Model/Posit.lean) | patterns written bit by bit (`pat` in Props/Readme); P |
| C125 | `Eigen.dot`, `Eigen.loop` (Model/EigenDot.lean), `Posit.dot` | `Steps` in Props/EigenDot (all products and partial sums are posits); Eigen is modelled after its documentation; P |
| C126 | `Posit.mul`, `div`, `inv`, `fma`, `mulAddMul`, `mulSubMul`, `dot` (Model/Posit.lean) | `narrowProd`, `narrowQuot` (Spec/NarrowFrac.lean): operands and results cut by arithmetic of rationals, no condition on the fraction type; P |
| C127 | `Generic.extramul`, `extradiv`, `No128.mul`, `div`, `inv`, `fma`, `dot` (Model/No128.lean) | `lead` (Spec/No128.lean): sign and leading power of two of a rational; N+P |
| C128 | `Posit.toInt`, `ofInt`, `toFloat`, `ofFloat`, `unpack` and `pack` | `EV.cut` (Spec/NarrowConv.lean): an extended number cut to some significant bits; the conversions of Spec/ExtConvert.lean applied to it; N+P |
| C129 | `Posit.via` (Model/ViaFloat.lean) | `floatCut`, `EV.float` (Spec/ViaFloat.lean): a number cut toward zero to a float format; with `EV.cut` and `EV.Outcome`; N+P |
| C130 | `ListPosits.ptBits`, `Cells`, `cells`, `shown`, `Samples`, `samples` (Model/Overview.lean) | `Format.val`, `Int.log`, `floatCut` and `cutSig` (a number cut to a double), `ieee`; N+P |
| C131 | `Pnum.applied`, `stepUp`, `stepDown`, `sqrt`, `expLow`, `expHigh`, `exp` (Model/PnumFun.lean) | `Pnum.Mem`, `Pbound.Has` (C72, C73), `Sided` (roots on the right side of every point); rational members; `math.sqrt` and `math.exp` are parameters; N+P |
| C132 | `Pnum.Text`, `Pbound.pre`, `Pbound.post`, `Pbound.text`, `Alphabet.text` (Model/PnumText.lean) | `Between` (arcs of the projective line), `Text.Reads`, `Pbound.Has`, `Mem`; brackets and numbers, not characters; N+P |
| C133 | the models of C72, C73, C74 and C131 | `MemR`, `Pbound.HasR`, `RAdd`, `RMul`, `rneg`, `rinv` (Spec/PnumReal.lean): the same sets with real members, stated over ℝ; proved from the rational theorems by density; P |
| C134 | `Posit.mul`, `div`, `add`, `sub`, `fma`, `mulAddMul`, `mulSubMul`, `dot` (Model/Posit.lean) | `EV.narrowMul`, `EV.narrowDiv` (Spec/NarrowExt.lean), `EV.add`, `EV.Outcome`: the extended numbers of C88 with the cut products and quotients of C126; P |
| C135 | `Posit.mul`, `div`, `add`, `sub`, `ofInt`, `ofFloat`, `unpack`/`pack` (Model/Posit.lean) | `Format.mid`, `Format.IsStd`, `Format.Near` (Spec/Standard.lean): the rounding of the posit standard, on the numbers denoted; P |
| C136 | `testfloat11`, `found`, `halfprecisionmax`, `halfprecisionmin` (Model/MatlabSum.lean), `toindex` (Model/MatlabTab.lean) | distances between rational numbers, `ieee`, `Format.val` (Spec); the arithmetic of the doubles is a parameter meeting `FloatOps.Ieee`; P |
| C137 | `Posit.add`, `sub`, `fma`, `mulAddMul`, `mulSubMul` (Model/Posit.lean) | `Format.IsFaithful`, `Format.IsTrunc` (Spec/Format.lean): relations on the numbers denoted; P |
| C138 | `FTrait.any`, `single` (Model/FloatConv.lean), `afterone`, `singleEpsilon`, `singleDenormMin`, `quad`, `quadSignbit`, `sameAsAny`, `lowlimits` (Model/FloatLimits.lean) | `ieee` (Spec/Ieee.lean): least and greatest elements among all patterns; P, N for `float128_trait` and for printing 128-bit formats |
| C139 | `testEps` (Model/TestEps.lean), `Posit10.add/sub/ofDouble` (Model/Posit10Gen.lean) | `ieee`, `IsRounded`, `IsNearestEven`, `Format.IsTrunc`; P for the script and sums, N for differences with numbers below 2^-25 |
| C140 | `Float2Bin.bytes/hexlify/literal/line/output` (Model/Float2Bin.lean), `FTrait.quad` (Model/FloatLimits.lean) | `IsHex`, `x87` (Spec/Float2Bin.lean), `ieee`; what numpy stores is a parameter; P |
| C141 | `Posit.add`, `sub`, `fma` (Model/Posit.lean), `addTimes` (Props/Absorb.lean: repeated `operator+`) | `Format.val` (Spec/Format.lean): distances of neighbouring posits; P |

## 5. Trusted base

* The Lean 4 kernel. Every theorem depends on at most `propext`, `Classical.choice`, `Quot.sound`
  (no own axioms, no `sorry`, no `native_decide`, no `bv_decide`).
* The reading of the C++ code recorded in `lean/Verif/Model` and of the C++ integer rules in `lean/Verif/Cpp.lean`.
* The specifications in `lean/Verif/Spec`.
* The access of floats through integer pointers in the half precision routines is taken to give their bits; source and target do not overlap.
* The meaning of the vector instructions, written down from their documentation in `lean/Verif/Model/Simd.lean` and `SimdPosit8.lean`.
* The transcription of the lookup tables of `src/posit8_tbl.cpp` and `src/posit12_tbl.cpp` into
  `lean/Verif/Model/Posit8Tbl.lean` and `Posit12Tbl.lean`, done by `tools/tables.py OUTDIR`; running the script again
  and comparing the files checks it. Each row of a table is stored as one number, least significant entry first.

* For C54, C57, C58, C59, C60, C62, C99, C100, C101 and the posit10 part of C55 only: the native `float`/`double` arithmetic is a parameter, assumed to round correctly in some mode
  (`FloatOps.Correct`, `DoubleConv.Correct` in `Spec/FloatArith.lean`), and in the theorems of C57 and C58 on NaN and infinities to treat them as
  IEEE 754 does (`FloatOps.Specials`), in C99 `FloatOps.Ieee` of `Spec/EmuFloat.lean`; all are shown to be satisfiable, as is the correct
  rounding of the conversion of `unsigned` to `float` in C60 (`CorrectU`). For C101 the F16C conversions are parameters (`F16C.Correct`, met by some conversions: `f16c_exists`). For C102 `remainder` and `sqrt` of the C library are parameters too (`FloatLib.Correct`: exact remainders, roots rounded to nearest float directly or through double; met by some functions: `floatLib_exists`). Native comparisons are those of IEEE 754 (`AnyFloat.natLt`, `natEq`).
* For C107 and C108: Berkeley SoftFloat, which is not part of the repository, is a parameter (`SoftLib.Correct`, met by some functions: `C107_exists`); for C108 the C function `exp2` too (`IsExp2`, `C108_exists`). For C110 as well, with an error of at most 0.51 units in the last place between 1/2 and 1 for posit10 and posit12 (`IsExp2Close`, `C110_exists`). For C111 the function `exp2` of `double` (`IsExp2D`, `C111_exists`): monotone, exact at integers, within a relative 2^-51 elsewhere.

## 6. Disagreements between the code and the properties

Each is backed by the theorems named. "H" is the holder width, "N" the posit width.

Posit (`include/posit.h`)

1. *Shift past the width in `pack_low`* (lines 716-732). For N ≥ max(32,H)-1 the largest regimes shift by the whole
   promoted width: undefined for 31/32-bit posits in `int32_t` and 63-bit ones in `int64_t`, exactly outside of
   `PackSafe` (C02_roundtrip_ub, C03_pack_ub, C08_mul_ub, C09_div_ub, C13_one_ub, C18_half_not_always).
2. *-NaN and |NaN|* (338, 341). For N < H they are the pattern 2^(N-1), which is not a posit; for N = H ≥ 32 signed
   overflow (C06_neg_nan, C07_abs_nan). `x - NaN` then unpacks the bad pattern and shifts a negative value
   (C24_not_always).
3. *NaN on the right is dropped* by `+ * /` and by the addend of `fma` (unpacked.h 327, 391, 434)
   (C14_nan_right, C14_not_always, C12_not_always, C30_fma_nan_ignored).
4. *finite/infinity is infinity* (unpacked.h 466) (C15_div_inf).
5. *`inv(0) = 0` and `inv(inf) = inf`*: the branch on a zero fraction does not look at the type (598-618); `inv(minpos)`
   of a WithNanInf posit is +infinity (C16_inv_zero_inf, C16_not_always).
6. *`next()`* does not leave `minneg` and steps from `maxpos` onto NaN or infinity (353-354) (C17_next_ends).
7. *`half(minpos) = 0`*, although packing never rounds to zero (C18_half_least).
8. *`onehalf()`* uses the holder width instead of N: right only if N = H (C19_half). `two()` of the 3-bit WithNanInf
   posit is infinity (C19_not_always).
9. *`Posit(INT_MIN)`* negates `INT_MIN` (C20_min_ub).
10. *`(int)p`*: 1 ≤ |p| < 2 shifts by 32 (C21_toInt_one_ub); 2^31 ≤ |p| < 2^32 does not saturate (C21_top_wrong).
11. *Conversion from float*: with an 8-bit exponent type NaN, infinity and large numbers are wrong
    (C22_special_wrong, C22_double_two_wrong); a NaN payload or a subnormal that does not fit FT becomes infinity or zero
    (C22_nan_wrong, C22_subnormal_lost).
12. *Conversion to float*: subnormal results are flushed to +0 because the `with_denorm` test is inverted, overflow gives
    the largest number instead of infinity, and with an 8-bit exponent type every |p| ≥ 2 becomes 0
    (C23_underflow_zero, C23_saturates, C23_float_wrong, C33_subnormal_wrong, C33_negzero_wrong).
13. *Addition of far-apart operands* shifts by the exponent difference, undefined from max(32,F) on
    (C10_add_ub_far, C10_add_ub_range, C30_fma_ub_far); `normalized()` shifts by the whole width when only the last
    bit is left and F ≥ 32 (C10_not_always). C63 says exactly when. With a fraction type narrower than the posit's
    fraction plus two bits a sum can decrease when an operand grows (C64_narrow_wrong).
14. *`urOneMinus`* is wrong at 1/2 whenever es > 0 (C25_urOneMinus_wrong).
15. *`pseudosigmoid`* of negative operands is wrong for 8/16-bit holders (promotion to `int` before the xor) and for
    N < H (C26_negative_wrong). What they give instead: C91_pattern, C91_value, C91_logistic_wrong. *`pseudosoftplus`* likewise (C53_negative_wrong); it multiplies by 2^(2^es) instead of
    approaching the identity (C53_large_partial, C53_not_softplus), and maps `maxpos` of a WithNanInf format to infinity
    (C53_maxpos_inf).
16. *`std::sqrt`* returns |x| (C27_sqrt_wrong).
17. *`numeric_limits`*: `has_infinity` is true for WithNan, `max_exponent` wraps for wide formats (C40_infinity,
    C40_not_always).
18. *`PositMul - PositMul`* with a zero second product subtracts 1 because of 20 (C49_sub_zero_wrong).
19. *`analyze()`* shifts by the holder width for es = 0 and H ≥ 32 (C50_ub_es0), and by at least it for a 64-bit fraction type
    over a shorter holder (C50_ub_frac_all); these are the only undefined cases (C50_defined_iff).

Unpacked (`include/unpacked.h`)

20. *Unary minus* always returns a `Regular` object (C32_neg_iff); *`!=`* returns `==` for non-NaN operands
    (C31_ne_wrong, C31_ne_iff).
21. *Division and inverse*: when the divisor fraction is odd, halving it before dividing can overflow the quotient, which
    then loses its top bit and the result is halved; the operand then has more than F-2 fraction bits, which C09/C16 exclude
    by the condition `fb + 2 ≤ F`. C68_div and C68_inv say exactly when; `(2*u)/u` is 1 for every u with the second last
    fraction bit set (C68_div_two), and `u.inv().inv()` is about 2u or u/2 for six fractions (C68_inv_inv). Exponents wrap
    (C68_wrap_wrong).

22. `PositF` inherits the conversions: with an 8-bit exponent type (N + es < 8) `2 * 1` is 0 (C54_narrow_wrong); its `fma`
    and `operator*=` (positf.h 114-123) do not compile when instantiated.

Helpers

23. `bitset_part` clears the wrong bits for offsets other than 0 (C35_part_wrong).
24. `unsigned128`: `<` compares both words, shift by 0 shifts a word by 64 (C37_lt_wrong, C37_shift_ub).

Tabulated classes

25. posit8: `two()` is 5/4, `is_infinity` and `has_neg_exponent` are wrong; posit10/12: `onehalf()` is 1/16,
    `pinfinity()` is a real posit, `has_neg_exponent` is inverted for negatives; NaN compares as a number
    (C39_posit8_wrong, C39_posit10_wrong, C39_posit12_wrong, C39_nan_ordered).
26. The reciprocal tables map 0 to 0; the posit12 power-of-two table overflows to NaN and underflows to 0; posit12
    addition inherits 13 (C38_inv_zero_wrong, C52_wrong, C52_add_ub).
27. `binary8`: unary minus negates the pattern as an integer, `<` is reversed for two negative numbers
    (C47_neg_wrong, C47_lt_wrong).
28. posit10/12: -NaN is the pattern 2^(N-1), which `is_nan` rejects; posit12 then subtracts NaN with undefined behaviour;
    the posit10 reciprocal table maps 0 to 0 (C55_neg_nan_wrong, C55_posit10_inv_zero_wrong).

Conversions between float formats and emulated floats

29. `convertfloats` and `anyfloat_emu` saturate at the greatest number instead of overflowing to infinity, flush everything below the
    normal range to +0 and turn -0 into +0 (C56_overflow_wrong, C56_num).
30. `anyfloat_emu`: numbers that are subnormal in the native type compare equal and count as 0 in arithmetic; `iszero(-0)` is false,
    1/-0 is +infinity, -0 plus a subnormal number is 0; a NaN whose payload is in the low bits
    becomes infinity in a narrow holder; `int` conversions inherit 10 and the negation of the least `int`; `binary32_emu(double)` of a
    subnormal double is undefined behaviour (C57_eq_sub_wrong, C57_negzero_wrong, C57_add_negzero_wrong, C57_ofNative_nan_wrong,
    C57_ofInt_min_ub, C57_toInt_one_ub, C57_ofDouble_ub).
31. `binary8tab`: `a - b` adds the wrong negation of item 27, so 1 - 1 = -3 and `epsilon()` is -5/2 (C58_sub_wrong); 0 + x = 0 when x is
    subnormal in `binary8` and the result is cut (C58_subnormal_wrong); 57344 - 2^-16 depends on the rounding mode in which the
    generator ran (C58_add_far).
32. `float2bits(-0.0f)` is 0 and every NaN gives 0x7fc00000 (C59_zero_wrong, C59_special).
33. `float16n32` without F16C: `float16nto32` returns `pack_xfloati`, the bits as `uint32_t`, which become a `float` as a number: 1 becomes
    1065353216. Every nonzero number, infinity and NaN is converted to the wrong, finite, number (C60_toFloat_wrong); `-1 < 1` is false
    (C60_lt_wrong); every sum or product of nonzero numbers is 65504 (C60_arith_wrong), every difference 0 or at least 8192
    (C60_sub_wrong), every quotient between 1/8 and 8 (C60_div_wrong).
34. `simd_posit8_32`: `_mm256_sign_epi8(v, v)` is the absolute value, not the negative (C61_neg_wrong, C61_gauss2_wrong); the header sets
    `POSIT8_ES` to 2, the tables are for 0, so that `half` and `twice` scale by 5/4 (C61_scale_wrong) and 2.0f comes back as 1.25f
    (C61_convert_wrong).

Chained operations

35. *Undoing an underflow*: a product or quotient below the least posit is rounded up to it, so that multiplying or dividing
    back exceeds the start (C69_least_wrong).
36. *Converting infinities*: the only infinity of a `WithInf` format becomes the negative infinity of a format with two
    (C70_special).
37. *Integers*: `(int)posit(1)` and `(int)posit(-1)` execute an out-of-range shift in every instantiation, hence so do
    quotients in [1,2) converted to int (C71_toInt, C71_tdiv_partial).

Projective numbers (`scripts/punum.py`, `scripts/validsgentable.py`)

38. `p8a()` and `p16a()` raise an exception because their tables are not increasing (C72_tables_wrong). A reciprocal on which
    `float()` rounds is not found by `convert` (C72_convert_wrong).
39. *Sums*: the two outermost intervals add up to the lower one of them (C73_plus_wrong). The upper end moves up instead of down
    when it is exact, so that bounds are wider than needed (C73_plus_tight_wrong). `x + 0` is a `Pnum`, all other sums are `Pbound`s.
40. *Products* of an interval and a number of the other sign leave out products of members: the ends are swapped as for two
    negative operands (C73_times_wrong). Such a product holds no exact number that is a product of members, and all products only if
    they have one pattern (C73_times_mixed_wrong).
41. *Bounds*: `iseverything()` is always false (it compares identities), so that the complement of everything is everything
    (C74_complement_wrong); the reciprocal of the empty bound is infinity (C74_invert_wrong); `-b` raises `NameError`.
42. `slowsquare` and `slowtwice` use undefined names and raise (for `sqrt` see item 86), as do the functions `exp` and `sqrt` registered
    for `Pnum` (626-634 read `self`); `/` is defined by `__div__`, which Python 3 does not
    call; `Pnum.fromindex` and `fromexactsindex` use attributes that `Pnum` does not have. They are not modelled.
43. *Generated tables* leave out the pair of 1/a and -1/a for points a > 1 (C75_pairs_wrong).

Tabulated classes, continued

44. `ninfinity()` is NaN in `posit8` and the least real in `posit10` and `posit12` (C76_ninfinity_wrong). Converting NaN, or a
    `posit10`/`posit12` of magnitude 2^31 or more, to `int` is undefined (C77).
45. `PositF::isinfinity()` does not look at the format: without infinities it reports NaN as infinite (C78_infinity_nan). NaN is
    ordered and equal to itself in `PositF`, unordered in `Posit` (C78_order_posit).
46. `digits10` ignores the exponent bits: with four of them the last digits are lost even next to one; outside the middle of
    the range they are lost without exponent bits as well (C79_not_always).

Vector wrappers (nothing in the repository includes them; `asimd_base.h` is rejected by a compiler that checks templates, because
`argmax_along_fit` uses undeclared names; the functions below are modelled as written)

47. `blendindex` of `simd_i16_16` and `simd_u16_16` shifts the mask by 6 instead of 8 bytes: elements 4-7 and 12-15 get the index
    decision of the element before (C81_index16_wrong, C82_argmax16_wrong).
48. `blendindex` of `simd_d_2` uses the shuffle constant 0x44 where its comment asks for 0x88: the second index follows the first
    element (C81_indexD2_wrong).
49. `initgather` passes the stride in bytes as an `int32_t`: wide strides read the wrong elements (C83_gather_wrong) or overflow
    (C83_increment_ub).

Half precision routines

50. `doubles2halfp` looks at the upper word only: a NaN whose payload lies in the lower word becomes an infinity
    (C84_double_nan_wrong). Ties round away from zero, not to even as IEEE 754 does (C84 states what the code does).
51. `halfp2doubles` does not write the lower word of the doubles (its comment relies on memory cleared by Matlab); a lower word
    that is not zero gives another number for every half but NaN (C86_halfp2doubles_wrong).
52. `ieeehalfprecision.c` uses `long` for 32-bit words. Where `long` has 8 bytes its check fails, so that every routine returns 1
    and leaves the target as it was (C86_long64_wrong).
53. `pack_xfloati` applies `with_denorm` the wrong way round: formats with subnormals (half, float, double) have everything below
    the normal range flushed to zero (C23_underflow_zero), while `bfloat16`, declared without, gets subnormals, which reading
    then takes for zero (C87_roundtrip_wrong). Numbers further below shift by the width of the type or more
    (C87_bfloat16_double_ub). The "don't underflow to zero?" step, where it acts, makes a vanishing negative number the least
    negative one (C87_write) while a positive one becomes zero.
54. `float2posit` computes a clamped exponent and then splits the unclamped one: numbers above the greatest posit give ones,
    smaller and smaller posits or undefined behaviour (C92_above), nonzero numbers below the least posit give zero or undefined
    behaviour (C92_below). It does not compile: it names a member that `Unpacked` does not have.
55. Posits of at most seven bits in an `int8_t` have an 8-bit exponent type. The `double` constructor then computes with the
    exponent modulo 256 and takes every number with exponent 1 modulo 256 for a subnormal: `Posit(2.0)` is zero, `Posit(2.5)` one,
    `Posit(3.0)` two (C94_double_normal), infinities are `±1` (C94_double_special). The `float` constructor maps infinities and NaN
    to the least posit and the smallest subnormals to the greatest (C94_single_special, C94_single_sub); `operator float` maps
    numbers of magnitude two or more to zero (C94_toSingle).
56. The assertion of `fixedtrait` is reversed (`sizeof(T)*8 <= N`): it rejects integers with bits to spare and admits those too
    narrow, for which reading is undefined (C95_wide_ub). Numbers in `[2^(N-1), 2^N)` are not saturated but reduced modulo `2^N`
    (C95_pack).
57. `urOneMinus()` is `1 - x` only at 0 and 1 when there are exponent bits (C96_iff); for a 16-bit posit with two exponent bits
    `urDeltaPs(3/4)` is 3/262144 instead of 3/16.
58. The conversion to `int` does not preserve the order: it gives numbers of magnitude in `[2^31, 2^32)` the wrong sign
    (C97_toInt, C97_toInt_wrong). Larger magnitudes saturate.
59. The listing tool says it scans all `2^totalbits` values, but in signed order it leaves out the infinities and NaN
    (C98_signed); for 32-bit posits its loop counter overflows (C98_signed_ub, C98_unsigned_wide). The overview of a format
    without infinities reports NaN as `+infinity` and `-infinity` (C98_overview).
60. `anyfloat_emu` treats numbers below the normal range of the native type as zero in every operation except a sum with the
    pattern of +0 (C99_toNative, C99_add); its infinities and NaN convert to the int 0, and numbers from `2^31` to `2^32` wrap
    (C99_toInt). `std::min` and `std::max` return their second operand if either is NaN (C99_min_max).
61. `PositF` over a float narrower than the format (the check at positf.h:20 is commented out) is not faithful: in
    `PositF<int32_t,28,5,float>` the least positive posit is read as zero, so its reciprocal is NaN and its product with one
    is zero (C100_wide_wrong).
62. `float16n32` with F16C: `mulAdd` rounds the sum to float and then to half, so `3 * (683/2^11) + 2^-24` gives 1 where
    `1 + 2^-10` is closer (C101_mulAdd_wrong). All other operations are correctly rounded.
63. Writing a posit in hexadecimal mode writes the integer in decimal, and as a character if it has 8 bits (`Posit<int8_t,…>`), like
    `binary8tab` in every mode; without base flag nothing is written. A regular unpacked number, and hence a `PositF`, leaves the stream in
    decimal mode, the specials leave it as it was (C105_posit, C105_flags).
64. `std::numeric_limits<softfloat32>::min_exponent` and `max_exponent` are -126 and 127, the exponents themselves; the standard counts
    them one higher (-125 and 128, as for `float`) (C107_limits_exponents_wrong).
65. The MATLAB functions: the tests on the number of arguments say `nrhs != 3 && nlhs != 1` for `||`, so that a call with too few arguments
    and one result reads past `prhs` (C109_arguments_wrong). `p8binop` compares the numbers of values, not the shapes: with a complex first and a
    real second operand it writes past the end of the result, the other way round half of the result is never written (C109_binop_overflow,
    C109_binop_hole). An unknown operation returns an array with nothing written in it (C109_unknown_wrong), as do 2³¹ values or more, the
    number of which does not fit the `int` (C109_count_wrong). The type names a template argument `true` that no longer exists.
66. The exp2 tables of posit12 and posit10 (C110_posit12_wrong, C110_posit10_wrong): since they go through `float`, `2^x` overflows to
    infinity and so to NaN from 128 on, where the greatest posit is meant; up to -143 it becomes 0 - also where `2^x` is a subnormal
    `float` - where the least positive posit is meant; and for -2^-25 and closer to zero it becomes 1, which is above `2^x`, where every
    other entry is rounded toward zero.
67. `exp2t` of posits goes through `double` (C111_range_wrong): from 1024 on the result is infinity (NaN if the format has none) where
    the greatest posit is meant, up to -1075 it is 0 where the least positive posit is meant. Below -1022 with a fraction type of 32 bits
    the subnormal double is not unpacked correctly and the conversion can be undefined (C111_subnormal_ub). Where posits as great or small as
    `2^x` cannot be packed it is undefined (C111_pack_ub; 256 with `Posit<int32_t,32,3,uint32_t>`). With an exponent type of 8
    bits exp2t(1) is 0 (C111_narrow_wrong).
68. The checks of tests/testunpacked.cpp (C112) hold for every float they could be made on, with these exceptions: `signbit` of minus
    zero (C112_signbit_wrong), and floats in fraction types with fewer than three spare bits, for instance `float` in
    `Unpacked<uint16_t>`, where `2*u/u` can be 1 and `u.inv()` half of what it should be (C112_narrow_wrong).
69. The test "Conversions" (tests/testsposit.hpp:35-70) has `INFINITY` in its list and is instantiated with a `WithNan` posit
    (tests/testposit.cpp:14), for which infinity becomes NaN and `fp == fup` is false: it cannot pass (C113_infinity). `checkfloat`
    (src/main.cpp:11-52) tests `fupu != fu` with the `!=` of C31, so that it prints an error for every normal float,
    and "ERROR fupu != fu" exactly for the ones that are equal (C113_checkfloat_wrong). It also converts to `float` where `T` is
    meant (line 24). A subnormal float that is a posit is not returned by the conversion back (C113_subnormal_wrong).
70. The comment of matlab/loadpositdump.m gives the columns of the dump as `iIv`, but for the listing tool `I` asks for the inverse
    of each posit and writes no column (src/listposits.cpp:142-165, 226); such a dump is loaded with values and patterns mixed up
    (C114_load_iIv_wrong). The columns must be `iov` (C114_load). `toindex` in mode `float` compares squared differences, which
    underflow: a table whose first value is within `2^-538` of the argument always gives 1 (C114_nearest_wrong), and closer
    values than `2^-537` cannot be told apart; the commented-out line 16 has no such problem.
71. matlab/morton.m uses the first two base-4 digits only: it fails for n < 2 and for n > 2 is not a permutation
    (C115_morton_wrong), although its comment promises an array of any size `2^N`.
72. tests/itest_positf.cpp passes `true` for a `PositSpec` and does not compile; we read it as `WithNan`. Its claim, that `PositF` and
    its `Posit` add alike, holds for the 255 sums it tries (C116_itest) and fails elsewhere: in the same format the greatest posit
    minus `2^-14` is the greatest posit in one and the posit below in the other (C116_add_wrong), because doubles round to nearest;
    with a NaN on the right `Posit` returns the left operand (C116_nan_wrong, cf. C14).
73. tests/itest_anyfloat.cpp notes as a TODO that two subnormal numbers of `binary8_emu` become zero; so do all subnormal numbers of
    every emulated format (C117_pass). Its `rawexp` assumes five exponent bits (C117_rawexp_wrong).
74. `extract` of tests/testregime.cpp takes words without a stop bit for runs of 32 bits, `decode_posit_rs` for runs of `N-1` bits
    (C118_noStop). The disabled loop of its `main` has the bound `1 << 32`, which is undefined. tests/testbit.cpp uses `bitset_get` in
    an enumerator, which with `__BMI__` calls a function that is not `constexpr`: it does not compile there.
75. NaN makes `<` of `Posit` unusable for sorting: 1, NaN, 0 passes for sorted (C119_nan_wrong); `PositF` and the tabulated classes
    compare patterns and do not have the problem (C119_patterns). `unsigned128` cannot be sorted at all, its `<` compares both words
    (C119_u128_wrong, cf. C37_lt_wrong).
76. `scripts/validsgentable.py` stops with an exception for every `--op1` but `float`: `Pnum` has no `__truediv__`, a `Pbound` has no
    `v`, `math` is not imported (C120_op1_wrong). With `--op1 float` it writes the tables and then stops at the list of exact points,
    whose elements are not dictionaries (C120_main); `--pickle` uses the names `inv` and `pickle`, which do not exist. The table `float`
    is written with six decimals, 0.007812 for 1/128 (C120_float_wrong). `--p3` and `--p5` name alphabets that do not exist, `--p8a` and
    `--p16a` ones that are rejected (C72_tables_wrong).
77. `include/float12.hpp` does not compile (missing declarators, types and macros). Repaired with 16-bit words it is the half precision
    format of SoftFloat, not a 12-bit format "1 5 6 or 1 4 7" (C121_not12); with 12-bit words every sign and the hidden bit would be lost
    (C121_width_wrong). Its template parameter `exponentbits` is not used and `mantissabits` has to be 9: with 6, the number of fraction
    bits in the comment, 1.5 becomes 1 or 16 (C121_params_wrong). The comment "f16 is 1 6 9" is wrong, too: half precision is 1 5 10.
78. `include/tposit.hpp` does not compile, and is announced as "a generalized tabled posit". Repaired it is right for 8-bit holders only: every
    result goes through an `int8_t` (62), so that `one()` is right exactly up to 8 bits and from 10 bits on is zero (C122_wide_wrong), and the tables
    are indexed with stride 256 (97-100), so that wider operands share places (C122_stride_wrong). `operator float` converts the `float` of
    its table to an integer and reinterprets that: only zero is converted rightly (C122_float_wrong). NaN counts as infinite
    (C122_infinity_wrong).
79. `include/tvalids.hpp` does not compile. Repaired, `inv()` is `-(v+4N)`, on the circle of `4N` points the negation and never the
    reciprocal (C123_inv_wrong). The tables have `4N` and `(4N)²` entries, but are indexed with the unsigned value of the whole
    holder, out of bounds for negative points (C123_unary_partial, C123_binary_partial, C123_binary_wrong); quotients are undefined for
    all operands of 8- and 16-bit holders (C123_div_wrong).
80. README.md gives `001(0)+` as the pattern of one (137), which is that of `2^(-2^es)` (C124_one_wrong); one is `01(0)+`. Its pattern of two
    (138) needs an exponent bit; in formats without, every pattern `010…` is below two (C124_two_wrong). Fractions have inversion bit 0 only
    if they are positive; for negative numbers the bit is 1 exactly from minus one on (C124_inversion_wrong).
81. src/maineigen.cpp says of `ap.dot(bp)`: "SHOULD PRODUCE 2 and not ZERO". Its type has 64 bits and cannot be instantiated (there is no
    128-bit exponent type), nor is `true` a `PositSpec`. In every format that can be instantiated and has the elements of the vectors
    the result is zero (C125_main_wrong): posits from 2^53 on are even numbers, so that each 1 is lost. `Posit::dot` of the same
    vectors, which rounds once, is 2 (C125_posit_dot).
82. The fraction type is not checked against the format: `static_assert` only asks that it is unsigned (unpacked.h:50; that of posit.h:226 is
    a comment). With a type of at most one bit more than the longest fraction, one is not neutral, `(1+ε)·1 = 1` (C126_one_wrong), and the
    reciprocal of `1+2^(1-F)` is 1/2 (C126_inv_wrong). With a type narrower than the longest fraction, unpacking and packing is not the
    identity and different posits become the same double (C128_roundtrip_wrong, C128_toFloat_wrong), and `x·NaN`, which otherwise is `x`
    (C88), loses bits of `x` (C134_nan_wrong). No type of the repository is that narrow. README.md:42-43 allows 2 to 63 bits and up
    to `totalbits-1` exponent bits; posit.h:48 asks for `totalbits-3` at most, which leaves no format of 2 bits.
83. Where the compiler has no 128-bit integer (`__SIZEOF_INT128__` not defined: 32-bit targets, Visual C++), `nextinttype<uint64_t>` is
    `struct unsigned128`, which has neither `*` nor `/`. Its implicit conversion to `uint64_t` (typehelpers.hpp:93) lets `extramul` and
    `extradiv` compile with the lower words, so that every product loses the fractions of both factors and every quotient its fraction:
    `1.5 * 1.5 = 1`, `1.5 * 1 = 1`, `3 / 2 = 1` (C127_mul_wrong, C127_one_wrong, C127_div_wrong). The specialisation meant for it
    (typehelpers.hpp:296-377) asks for `_MSVC_VER`; the macro of Visual C++ is `_MSC_VER`. With that macro it would not compile
    (`typename` outside of a template; `dividend < divisor` is ambiguous).
84. A posit type can only be made from another one with the same fraction and exponent types (posit.h:325); others go through
    `float` or `double`, where nothing tells that the float type is too small: the least posits of a type with a wider range become
    zero, which no conversion between posits does (C129_zero_wrong, `Posit<int32_t,28,5>` through `float`), and longer fractions are
    cut before the rounding to the other format (C129_lost_wrong, `Posit<int32_t,32,1>` through `float`).
85. The overview of `listposits` and main.cpp makes posits from the constants with `X(X::PT::POSIT_HALF)` etc. (listposits.cpp:261-262,
    main.cpp:91-92). That is the constructor from `int`: it reads the pattern as an integer. So `half=` shows at least 1
    (C130_half_wrong), `twice=` at least 4 in every format that has a 4 (C130_twice_wrong), and `min=`/`max=` fall short of the ends
    of every format with exponent bits (C130_ends_wrong); without exponent bits the integers exceed the format, and the ends are
    right (C130_ends_partial). Column `o` is converted to the *signed* printable type and is unsigned for 8-bit holders only
    (C130_unsigned); column `e` wraps for 16-bit holders with more than 11 exponent bits (C130_exponent_wrong).
86. `sqrt` and `exp` of punum.py fail for every exact number with `NameError` (line 377/427 read `x`; C131_exact_wrong). `exp`
    takes the *square root* of the upper end of an interval (line 431), so it fails for intervals of negative numbers and is too
    small for the others (C131_exp_fails_wrong, C131_exp_wrong); line 451 calls `Pboun`. `sqrt` of an interval moves an end that is
    an exact number inwards although `math.sqrt` may have rounded to it: members are lost (C131_sqrt_wrong). It contains all
    roots if the computed roots lie on the right side of every point (C131_sqrt_partial).
87. No bound shows as `[all]`, as `iseverything` compares identities; the bound of all numbers shows as `[0,0)` (C132_all_wrong).
    The intervals on both sides of 1 have the same text `pnum?(1)`, and those of -1 too: an inexact number shows the end of its
    interval nearer to ±1 (C132_num, C132_same). `slowsquare` and `slowtwice` (247-268, 298-315) always fail with `NameError`.
88. The library rounds toward zero, the posit standard to nearest with ties to the even pattern. Already `(1+ε)·(3/2)` differs
    in every format with two fraction bits at 1 (C135_mul_wrong); the results are never more than one pattern apart (C135).
89. The sum that matlab/testfloat11.m looks up in the table of a format is the nearest posit, the first in the table if two are
    equally near; the library rounds the same sum otherwise: 2 + 3/2 in four bits gives 4 in the table and 2 in the library
    (C136_library_wrong). They are never more than one pattern apart (C136_library).
90. With two bits more than the longest fraction in the fraction type the sums are not faithful: with `H=16, N=9, es=0, F=8`
    the sum of 1/128 and -1 is -1, although -127/128 is a posit (C137_narrow_wrong). Three bits more are enough (C137_add).
    For operands of the same sign two are enough (C137_same_sign) and one is not (C137_same_sign_wrong).
91. `float128_trait` (floattraits.hpp:181-215, only where `FLT128_MAX` is defined) holds the memory of x87 numbers instead of
    quadruple patterns: its infinities, NaN and one are other numbers, `max_h`, `lowest_h` and `min_h` are one subnormal number;
    only `two_h` is right, if the compiler reads literals of 128 bits at all. `1<<(data_bits-1)` shifts an int by 127
    (C138_quad_wrong). itest_lowlimits.cpp prints the last 64 bits of the constants, that is zeros for 128-bit formats
    (C138_printed_wrong).
92. `posit10` computes its table of sums with `float`, so 1 - a is 1 for every positive a up to 2^-25 although the difference rounded
    toward zero is the posit below one, which larger numbers give (C139_diff). tests/testeps.cpp uses 0.00001, where posits and
    doubles agree (C139_script); it prints two names it does not declare (lines 23 and 25).
93. scripts/float2bin.py prints the memory of the numpy type `float128`, which on the x86 is the 80-bit type of the x87 with six
    bytes of arbitrary content. Four constants of `float128_trait` (quadruple precision!) are such dumps (C140_quad); this explains
    item 91.
94. Differences x - y of positive posits are rounded toward zero for a y within one step of x, except that a y below the last place
    of the aligned operands is lost and x is returned (C141_sub). So differences have no one rounding mode; sums of equal sign do.
