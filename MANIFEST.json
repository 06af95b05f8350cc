{
 "claims": [
  {
   "property": "C01",
   "status": "proved",
   "theorems": [
    "Verif.C01_unpack_value",
    "Verif.C01_unpack_truncated",
    "Verif.C01_unpack_zero",
    "Verif.C01_unpack_nan",
    "Verif.C01_unpack_inf"
   ],
   "note": "Exact value when FT holds the N-3-es fraction bits; C01_unpack_truncated covers narrower FT."
  },
  {
   "property": "C02",
   "status": "partial",
   "theorems": [
    "Verif.C02_roundtrip_partial",
    "Verif.C02_roundtrip",
    "Verif.C02_roundtrip_ub",
    "Verif.C02_not_always"
   ],
   "note": "Proved for every canonical pattern when N+1 < max(32,H), and for every pattern of safe magnitude otherwise; C02_roundtrip_ub proves that the remaining patterns (32-bit and 31-bit posits in int32_t, 63-bit posits in int64_t) hit an out-of-range shift."
  },
  {
   "property": "C03",
   "status": "partial",
   "theorems": [
    "Verif.C03_pack_truncates_partial",
    "Verif.C03_pack_truncates",
    "Verif.C03_pack_ub",
    "Verif.C03_not_always",
    "Verif.C03_pack_special"
   ],
   "note": "Proved on all inputs when N+1 < max(32,H); otherwise on the exponents PackSafe, outside of which C03_pack_ub proves undefined behaviour."
  },
  {
   "property": "C04",
   "status": "proved",
   "theorems": [
    "Verif.C04_compare"
   ],
   "note": ""
  },
  {
   "property": "C05",
   "status": "proved",
   "theorems": [
    "Verif.C05_nan_unordered",
    "Verif.C05_no_nan_total",
    "Verif.C05_trichotomy"
   ],
   "note": ""
  },
  {
   "property": "C06",
   "status": "partial",
   "theorems": [
    "Verif.C06_neg_partial",
    "Verif.C06_neg_inf",
    "Verif.C06_neg_nan",
    "Verif.C06_not_always"
   ],
   "note": "True for real posits and the infinities; C06_neg_nan determines -NaN for every instantiation: it is NaN only when N=H<32. The complete outcome on every pattern is proved as C90."
  },
  {
   "property": "C07",
   "status": "partial",
   "theorems": [
    "Verif.C07_abs_partial",
    "Verif.C07_abs_nan",
    "Verif.C07_not_always"
   ],
   "note": "True for real posits; abs(NaN) is NaN only when N=H<32 (C07_abs_nan). The complete outcome on every pattern is proved as C90."
  },
  {
   "property": "C08",
   "status": "partial",
   "theorems": [
    "Verif.C08_mul_partial",
    "Verif.C08_mul",
    "Verif.C08_mul_exact",
    "Verif.C08_mul_ub",
    "Verif.C08_not_always"
   ],
   "note": "Proved for all nonzero reals when N+1 < max(32,H) (C08_mul), and otherwise for every product in the safe range; C08_mul_ub proves undefined behaviour for all the others. The complete outcome on every pattern, undefined cases included, is proved as C88."
  },
  {
   "property": "C09",
   "status": "partial",
   "theorems": [
    "Verif.C09_div_partial",
    "Verif.C09_div",
    "Verif.C09_div_exact",
    "Verif.C09_div_ub",
    "Verif.C09_not_always"
   ],
   "note": "Proved for all nonzero reals when N+1 < max(32,H) (C09_div), and otherwise for every quotient in the safe range; C09_div_ub proves undefined behaviour for all the others. The complete outcome on every pattern, undefined cases included, is proved as C88."
  },
  {
   "property": "C10",
   "status": "partial",
   "theorems": [
    "Verif.C10_add_partial",
    "Verif.C10_add",
    "Verif.C10_add_ub_far",
    "Verif.C10_add_ub_range",
    "Verif.C10_not_always"
   ],
   "note": "Proved for all reals of formats with a small dynamic range (C10_add) and for all AddSafe operands otherwise; C10_add_ub_far, C10_add_ub_range and C10_not_always prove undefined behaviour outside. The complete outcome on every pattern, undefined cases included, is proved as C88. Faithful whenever defined, without AddSafe: C137_add."
  },
  {
   "property": "C11",
   "status": "partial",
   "theorems": [
    "Verif.C11_sub_self",
    "Verif.C11_sub_partial",
    "Verif.C11_sub",
    "Verif.C11_not_always"
   ],
   "note": "x-x = 0 without any condition (C11_sub_self); differences are faithful for AddSafe operands, C11_not_always gives undefined behaviour outside. The complete outcome on every pattern, undefined cases included, is proved as C88. Faithful whenever defined, without AddSafe: C137_sub."
  },
  {
   "property": "C12",
   "status": "partial",
   "theorems": [
    "Verif.C12_mul_comm_partial",
    "Verif.C12_add_comm_partial",
    "Verif.C12_not_always"
   ],
   "note": "Sums and products commute, also in whether they are undefined, for all canonical operands that are not NaN; C12_not_always gives NaN operands where they differ."
  },
  {
   "property": "C13",
   "status": "partial",
   "theorems": [
    "Verif.C13_add_zero",
    "Verif.C13_mul_zero",
    "Verif.C13_one_partial",
    "Verif.C13_one",
    "Verif.C13_one_ub"
   ],
   "note": "Sums with zero and products with zero without condition; the unit laws for N+1 < max(32,H) or safe magnitudes, C13_one_ub proves undefined behaviour for the others."
  },
  {
   "property": "C14",
   "status": "partial",
   "theorems": [
    "Verif.C14_nan_left_partial",
    "Verif.C14_nan_right",
    "Verif.C14_not_always"
   ],
   "note": "Proved for NaN as first operand; C14_nan_right proves that a NaN second operand is dropped for every real nonzero first operand, C14_not_always gives fma and difference counterexamples. The complete outcome on every pattern, undefined cases included, is proved as C88."
  },
  {
   "property": "C15",
   "status": "partial",
   "theorems": [
    "Verif.C15_inf_partial",
    "Verif.C15_sub_inf",
    "Verif.C15_div_zero",
    "Verif.C15_div_inf",
    "Verif.C15_not_always"
   ],
   "note": "All rules proved except real/infinity, for which C15_div_inf proves that the result is infinity instead of zero, for all operands. The complete outcome on every pattern, undefined cases included, is proved as C88."
  },
  {
   "property": "C16",
   "status": "partial",
   "theorems": [
    "Verif.C16_inv_partial",
    "Verif.C16_inv_eq_div",
    "Verif.C16_inv_pow2",
    "Verif.C16_inv_zero_inf",
    "Verif.C16_not_always"
   ],
   "note": "Proved for nonzero reals in the safe range, equal in outcome to one()/x; false for 0, infinity (C16_inv_zero_inf) and minpos of WithNanInf formats (C16_not_always). The complete outcome on every pattern is proved as C90."
  },
  {
   "property": "C17",
   "status": "partial",
   "theorems": [
    "Verif.C17_next_partial",
    "Verif.C17_prev",
    "Verif.C17_walk_down",
    "Verif.C17_walk_up_partial",
    "Verif.C17_next_ends",
    "Verif.C17_not_always"
   ],
   "note": "prev() on all reals, next() on all reals except the two ends: C17_next_ends proves that next(minneg) does not move and next(maxpos) leaves the real posits. The complete outcome on every pattern is proved as C90."
  },
  {
   "property": "C18",
   "status": "partial",
   "theorems": [
    "Verif.C18_half_partial",
    "Verif.C18_half_exact",
    "Verif.C18_half_least",
    "Verif.C18_half_not_always",
    "Verif.C18_twice_partial",
    "Verif.C18_twice_exact",
    "Verif.C18_twice_max",
    "Verif.C18_special"
   ],
   "note": "half(x)/twice(x) are x/2 and 2x rounded toward zero, exact when representable; half(+-minpos) is zero (C18_half_least) and undefined for the widest formats (C18_half_not_always). The complete outcome on every pattern is proved as C90."
  },
  {
   "property": "C19",
   "status": "partial",
   "theorems": [
    "Verif.C19_zero_one",
    "Verif.C19_predicates",
    "Verif.C19_two_partial",
    "Verif.C19_half",
    "Verif.C19_limits",
    "Verif.C19_special",
    "Verif.C19_not_always"
   ],
   "note": "All constants except onehalf(), which is 1/2 exactly when N=H (C19_half), and two() of the 3-bit WithNanInf format, which is infinity."
  },
  {
   "property": "C20",
   "status": "partial",
   "theorems": [
    "Verif.C20_ofInt_partial",
    "Verif.C20_exact_partial",
    "Verif.C20_zero",
    "Verif.C20_min_ub",
    "Verif.C20_narrow_wrong",
    "Verif.C20_unpackFixed_partial"
   ],
   "note": "Every int except INT_MIN (C20_min_ub: undefined) when the fraction type is wide enough; C20_narrow_wrong gives a value lost by an 8-bit fraction type. The complete outcome on every pattern is proved as C89 (exponent types of 8 bits: C94). The complete outcome for fixed point numbers is proved as C95."
  },
  {
   "property": "C21",
   "status": "partial",
   "theorems": [
    "Verif.C21_packFixed_partial",
    "Verif.C21_one_ub",
    "Verif.C21_top_wrong",
    "Verif.C21_toInt_partial",
    "Verif.C21_special",
    "Verif.C21_toInt_one_ub",
    "Verif.C21_toInt_top_wrong"
   ],
   "note": "Proved for 2 <= |p| < 2^31 and |p| < 1; 1 <= |p| < 2 is undefined (C21_one_ub, C21_toInt_one_ub), values from 2^31 on do not saturate (C21_top_wrong). The complete outcome on every pattern is proved as C89 (exponent types of 8 bits: C94). The complete outcome for fixed point numbers is proved as C95."
  },
  {
   "property": "C22",
   "status": "partial",
   "theorems": [
    "Verif.C22_ofFloat_partial",
    "Verif.C22_ieee_partial",
    "Verif.C22_zero",
    "Verif.C22_inf",
    "Verif.C22_nan_partial",
    "Verif.C22_nan_wrong",
    "Verif.C22_subnormal_lost",
    "Verif.C22_subnormal_ub",
    "Verif.C22_double_two_wrong",
    "Verif.C22_special_wrong",
    "Verif.C22_ofFloat_ub"
   ],
   "note": "Normal floats, and subnormals when the fraction type is wide, for exponent types wider than the exponent field; narrow exponent types are wrong (C22_double_two_wrong, C22_special_wrong); NaN payloads and subnormals lost by narrow fraction types (C22_nan_wrong, C22_subnormal_lost, C22_subnormal_ub). The complete outcome on every pattern is proved as C89 (exponent types of 8 bits: C94)."
  },
  {
   "property": "C23",
   "status": "partial",
   "theorems": [
    "Verif.C23_packFloat_partial",
    "Verif.C23_packFloat_trunc",
    "Verif.C23_saturates",
    "Verif.C23_underflow_zero",
    "Verif.C23_toFloat_partial",
    "Verif.C23_roundtrip_partial",
    "Verif.C23_all_partial",
    "Verif.C23_special",
    "Verif.C23_float_wrong"
   ],
   "note": "Exact and reversible in the normal range; saturation and truncation outside the exact case characterised; C23_float_wrong: with an 8-bit exponent type every |p| >= 2 becomes 0.0f; C23_underflow_zero: subnormal results are flushed to +0. The complete outcome on every pattern is proved as C89 (exponent types of 8 bits: C94)."
  },
  {
   "property": "C24",
   "status": "partial",
   "theorems": [
    "Verif.C24_unpack",
    "Verif.C24_pack",
    "Verif.C24_mul",
    "Verif.C24_div",
    "Verif.C24_add",
    "Verif.C24_sub_partial",
    "Verif.C24_not_always"
   ],
   "note": "unpack on all canonical patterns; pack, mul, div for N+1 < max(32,H); add (sub with a real right operand) also needs a small dynamic range; C24_not_always gives undefined behaviour in each case outside."
  },
  {
   "property": "C25",
   "status": "partial",
   "theorems": [
    "Verif.C25_isUnitRange",
    "Verif.C25_urOneMinus_partial",
    "Verif.C25_urDeltaPs_partial",
    "Verif.C25_urOneMinus_wrong"
   ],
   "note": "isUnitRange for all formats; urOneMinus and urDeltaPs for es=0; C25_urOneMinus_wrong proves that they are wrong at 1/2 for every format with es>0. What urOneMinus and urDeltaPs compute in every format is proved as C96."
  },
  {
   "property": "C26",
   "status": "partial",
   "theorems": [
    "Verif.C26_tangent_partial",
    "Verif.C26_pseudosigmoid_partial",
    "Verif.C26_negative_wrong"
   ],
   "note": "For nonnegative operands, and all operands when N=H is 32 or 64; C26_negative_wrong proves that every negative operand gives a result outside [0,1) otherwise. What the member computes on every operand is proved as C91."
  },
  {
   "property": "C27",
   "status": "partial",
   "theorems": [
    "Verif.C27_sqrt_wrong",
    "Verif.C27_sqrt_partial"
   ],
   "note": "The code returns |x|: C27_sqrt_wrong; right only for 0 and 1 (C27_sqrt_partial is an equivalence). The complete outcome on every pattern is proved as C90."
  },
  {
   "property": "C28",
   "status": "proved",
   "theorems": [
    "Verif.C28_min_max"
   ],
   "note": ""
  },
  {
   "property": "C29",
   "status": "partial",
   "theorems": [
    "Verif.C29_dot_nil",
    "Verif.C29_dot_single",
    "Verif.C29_dot_exact_partial",
    "Verif.C29_dot_same_sign_partial",
    "Verif.C29_not_always"
   ],
   "note": "Exact when all partial sums fit the fraction type, truncation bounds when all terms have the same sign; C29_not_always gives cancellation where the result is wrong. The complete outcome on real posits is proved as C63, on every pattern as C88; an error bound for vectors of any length and signs as C104."
  },
  {
   "property": "C30",
   "status": "partial",
   "theorems": [
    "Verif.C30_fma_partial",
    "Verif.C30_fma",
    "Verif.C30_fma_exact",
    "Verif.C30_fma_zero",
    "Verif.C30_fma_ub_far",
    "Verif.C30_not_always",
    "Verif.C30_fma_nan_ignored"
   ],
   "note": "Faithful for FmaSafe operands; undefined behaviour for all far-apart operands (C30_fma_ub_far); NaN addend ignored (C30_fma_nan_ignored). The complete outcome on every pattern, undefined cases included, is proved as C88. Faithful whenever defined, without FmaSafe: C137_fma."
  },
  {
   "property": "C31",
   "status": "partial",
   "theorems": [
    "Verif.C31_nan",
    "Verif.C31_eq",
    "Verif.C31_eq_inf",
    "Verif.C31_ne_iff",
    "Verif.C31_ne_wrong"
   ],
   "note": "== proved; != is wrong for every pair of non-NaN objects (C31_ne_wrong, C31_ne_iff)."
  },
  {
   "property": "C32",
   "status": "partial",
   "theorems": [
    "Verif.C32_neg_iff",
    "Verif.C32_neg_neg",
    "Verif.C32_neg_wrong",
    "Verif.C32_sub_partial",
    "Verif.C32_sub_zero_zero",
    "Verif.C32_sub_inf_inf",
    "Verif.C32_sub_nan_zero",
    "Verif.C32_sub_type",
    "Verif.C32_sub_nan_iff",
    "Verif.C32_sub_zero_regular"
   ],
   "note": "Negation right exactly on regular objects (C32_neg_iff); difference proved for regular operands, wrong ones identified; with operands that are not regular the difference is that of the fields (C32_sub_type) and NaN exactly for a NaN minuend (C32_sub_nan_iff)."
  },
  {
   "property": "C33",
   "status": "partial",
   "theorems": [
    "Verif.C33_normal",
    "Verif.C33_inf_zero",
    "Verif.C33_nan",
    "Verif.C33_negzero_wrong",
    "Verif.C33_subnormal_wrong"
   ],
   "note": "Normal numbers, infinities, +0; NaN is canonicalised; every subnormal and -0 become +0 (C33_subnormal_wrong, C33_negzero_wrong)."
  },
  {
   "property": "C34",
   "status": "proved",
   "theorems": [
    "Verif.C34_findbitleftmost",
    "Verif.C34_zero",
    "Verif.C34_model",
    "Verif.C34_count_leading_zeroes"
   ],
   "note": "All four overloads for every nonzero value, undefined at zero (C34_zero); count_leading_zeroes for every nonzero 64-bit value."
  },
  {
   "property": "C35",
   "status": "partial",
   "theorems": [
    "Verif.C35_get",
    "Verif.C35_empty_ub",
    "Verif.C35_part_bits",
    "Verif.C35_part_partial",
    "Verif.C35_part_wrong"
   ],
   "note": "bitset_get proved with undefined behaviour for empty fields; bitset_part only for a field at offset 0: C35_part_wrong shows that otherwise the low bits are cleared instead of the field."
  },
  {
   "property": "C36",
   "status": "proved",
   "theorems": [
    "Verif.C36_abs",
    "Verif.C36_min"
   ],
   "note": "For every value except the minimum, whose outcome C36_min gives."
  },
  {
   "property": "C37",
   "status": "partial",
   "theorems": [
    "Verif.C37_toU64",
    "Verif.C37_add",
    "Verif.C37_sub",
    "Verif.C37_lt_partial",
    "Verif.C37_lt_iff",
    "Verif.C37_lt_wrong",
    "Verif.C37_shl_partial",
    "Verif.C37_shr_partial",
    "Verif.C37_shift_ub"
   ],
   "note": "+ and - proved; shifts for amounts 1..127 (C37_shift_ub: shift by 0 undefined); < is wrong (C37_lt_wrong) and C37_lt_iff says exactly what it computes."
  },
  {
   "property": "C38",
   "status": "partial",
   "theorems": [
    "Verif.C38_exp2",
    "Verif.C38_mul",
    "Verif.C38_div",
    "Verif.C38_add",
    "Verif.C38_sub",
    "Verif.C38_inv_partial",
    "Verif.C38_inv_zero_wrong",
    "Verif.C38_half_square",
    "Verif.C38_toFloat",
    "Verif.C38_agrees",
    "Verif.C38_twice",
    "Verif.C38_constructors"
   ],
   "note": "Every pair of patterns of +, -, *, / and every pattern of half, square, exp2 (against the real power), float; reciprocals except of zero: C38_inv_zero_wrong."
  },
  {
   "property": "C39",
   "status": "partial",
   "theorems": [
    "Verif.C39_posit8_partial",
    "Verif.C39_posit8_wrong",
    "Verif.C39_posit8_isNegative",
    "Verif.C39_order_partial",
    "Verif.C39_nan_ordered",
    "Verif.C39_posit10_partial",
    "Verif.C39_posit10_wrong",
    "Verif.C39_posit12_partial",
    "Verif.C39_posit12_wrong"
   ],
   "note": "posit8: two(), is_infinity, has_neg_exponent wrong; posit10/posit12: onehalf(), is_infinity, has_neg_exponent of negatives wrong; NaN is ordered in all of them. The rest proved."
  },
  {
   "property": "C40",
   "status": "partial",
   "theorems": [
    "Verif.C40_epsilon_partial",
    "Verif.C40_exponents",
    "Verif.C40_nan",
    "Verif.C40_infinity",
    "Verif.C40_not_always"
   ],
   "note": "epsilon, exponents, min/max; has_infinity is wrong for WithNan (C40_infinity), max_exponent wraps for wide formats (C40_not_always)."
  },
  {
   "property": "C41",
   "status": "partial",
   "theorems": [
    "Verif.C41_pack_partial",
    "Verif.C41_int_partial",
    "Verif.C41_float_partial"
   ],
   "note": "Unpacked numbers for N+1 < max(32,H), ints, and floats in the range where C22 is proved. Order preservation for every defined conversion is proved as C97."
  },
  {
   "property": "C42",
   "status": "partial",
   "theorems": [
    "Verif.C42_mul_mono_partial",
    "Verif.C42_div_mono_partial",
    "Verif.C42_mono"
   ],
   "note": "Proved for all real operands whose two products / quotients are defined, which is always the case when N+1 < max(32,H) (C42_mono); C08_mul_ub/C09_div_ub give the undefined ones."
  },
  {
   "property": "C43",
   "status": "proved",
   "theorems": [
    "Verif.C43_mul_sign",
    "Verif.C43_div_sign",
    "Verif.C43_add_sign"
   ],
   "note": "Equality of outcomes, so undefined behaviour also occurs on both sides or on neither."
  },
  {
   "property": "C44",
   "status": "partial",
   "theorems": [
    "Verif.C44_mul_closed_partial",
    "Verif.C44_div_closed_partial",
    "Verif.C44_add_closed_partial",
    "Verif.C44_closed"
   ],
   "note": "Proved for every defined result; C44_closed gives definedness for N+1 < max(32,H) (sums: also a small dynamic range)."
  },
  {
   "property": "C45",
   "status": "proved",
   "theorems": [
    "Verif.C45_floordiv",
    "Verif.C45_negative_divisor"
   ],
   "note": "For positive divisors, the only ones used; C45_negative_divisor shows the restriction is needed."
  },
  {
   "property": "C46",
   "status": "proved",
   "theorems": [
    "Verif.C46_split_join",
    "Verif.C46_join_split",
    "Verif.C46_decode_run"
   ],
   "note": ""
  },
  {
   "property": "C47",
   "status": "partial",
   "theorems": [
    "Verif.C47_lt_partial",
    "Verif.C47_lt_wrong",
    "Verif.C47_isNegative",
    "Verif.C47_min_max_partial",
    "Verif.C47_min_max_wrong",
    "Verif.C47_zero_nan_wrong",
    "Verif.C47_neg_iff",
    "Verif.C47_neg_wrong",
    "Verif.C47_abs",
    "Verif.C47_constants"
   ],
   "note": "Order right unless both numbers are negative, always reversed then (C47_lt_wrong), and so are min and max (C47_min_max_wrong); negation right only for the zeros and +-2 (C47_neg_iff); absolute value and constants proved."
  },
  {
   "property": "C48",
   "status": "partial",
   "theorems": [
    "Verif.C48_convert",
    "Verif.C48_widen_partial",
    "Verif.C48_widen",
    "Verif.C48_roundtrip",
    "Verif.C48_not_always",
    "Verif.C48_narrow_fraction_wrong"
   ],
   "note": "Widening is exact and narrowing back restores the pattern for N+1 < max(32,H) and FT wide enough; counterexamples otherwise. The complete outcome on every pattern is proved as C89 (exponent types of 8 bits: C94)."
  },
  {
   "property": "C49",
   "status": "partial",
   "theorems": [
    "Verif.C49_add_partial",
    "Verif.C49_sub_partial",
    "Verif.C49_sub_zero_wrong",
    "Verif.C49_not_always"
   ],
   "note": "Sum and difference of two products faithful in the safe range; difference with a zero second product is wrong (C49_sub_zero_wrong). The complete outcome on every pattern, undefined cases included, is proved as C88. Whenever defined, without the safe range: C137_mulAddMul, C137_mulSubMul_partial."
  },
  {
   "property": "C50",
   "status": "partial",
   "theorems": [
    "Verif.C50_analyze",
    "Verif.C50_analyze_partial",
    "Verif.C50_special",
    "Verif.C50_ub_es0",
    "Verif.C50_ub_frac",
    "Verif.C50_ub_frac_all",
    "Verif.C50_defined_iff"
   ],
   "note": "All real patterns of the instantiations without undefined behaviour (C50_analyze); C50_defined_iff proves that the others are undefined for every nonzero number. The exponent field wraps when it does not fit an int."
  },
  {
   "property": "C51",
   "status": "proved",
   "theorems": [
    "Verif.C51_traits",
    "Verif.C51_constants",
    "Verif.C51_small"
   ],
   "note": "Field sizes of half/float/double and meaning of every constant of any_floattrait."
  },
  {
   "property": "C52",
   "status": "partial",
   "theorems": [
    "Verif.C52_tables_partial",
    "Verif.C52_special_partial",
    "Verif.C52_wrong",
    "Verif.C52_add_ub"
   ],
   "note": "Reciprocals, squares, floats of every nonzero real; C52_wrong: reciprocal of zero, large and small powers of two; C52_add_ub."
  },
  {
   "property": "C53",
   "status": "partial",
   "theorems": [
    "Verif.C53_monotone_partial",
    "Verif.C53_large_partial",
    "Verif.C53_maxpos_inf",
    "Verif.C53_unit_partial",
    "Verif.C53_negative_wrong",
    "Verif.C53_not_softplus"
   ],
   "note": "Monotone, nonnegative, 1 at 0; 2^(2^es)*x from one upwards; 1+x and 1+x/2 on the unit interval for es=0. C53_negative_wrong: negatives in 8/16-bit holders or N<H; C53_not_softplus; C53_maxpos_inf. What the member computes on every operand is proved as C91."
  },
  {
   "property": "C54",
   "status": "partial",
   "theorems": [
    "Verif.C54_mul_partial",
    "Verif.C54_mul_agrees_partial",
    "Verif.C54_mul_zero_partial",
    "Verif.C54_add_partial",
    "Verif.C54_add_trunc_partial",
    "Verif.C54_sub_partial",
    "Verif.C54_div_partial",
    "Verif.C54_div_agrees_partial",
    "Verif.C54_div_zero_partial",
    "Verif.C54_inv_partial",
    "Verif.C54_twice_partial",
    "Verif.C54_half_partial",
    "Verif.C54_ofInt_partial",
    "Verif.C54_nan_partial",
    "Verif.C54_narrow_wrong"
   ],
   "note": "Formats whose reals are normal numbers of the native float, N+1 < max(32,H), exponent type of at least 16 bits; native arithmetic assumed correctly rounding (any mode; such arithmetics exist: floatOps_exists). C54_narrow_wrong: with an 8-bit exponent type 2*1 = 0. fma and *= of PositF do not compile. The complete outcome on every pattern is proved as C100."
  },
  {
   "property": "C55",
   "status": "partial",
   "theorems": [
    "Verif.C55_posit10_mul",
    "Verif.C55_posit10_div",
    "Verif.C55_posit10_add",
    "Verif.C55_posit10_sub",
    "Verif.C55_posit10_nan",
    "Verif.C55_posit10_unary",
    "Verif.C55_posit10_inv_zero_wrong",
    "Verif.C55_posit10_constructors",
    "Verif.C55_ofInt_partial",
    "Verif.C55_twice",
    "Verif.C55_posit12_mul_div",
    "Verif.C55_posit12_add_sub_partial",
    "Verif.C55_neg_abs_partial",
    "Verif.C55_posit10_min",
    "Verif.C55_neg_nan_wrong"
   ],
   "note": "posit10 * / half square inv truncate for all reals, + and - are faithful; posit12 + and - only for exponents less than 32 apart (C52_add_ub otherwise). exp2 is C110. C55_neg_nan_wrong, C55_posit10_inv_zero_wrong: -NaN and inv(0)."
  },
  {
   "property": "C56",
   "status": "partial",
   "theorems": [
    "Verif.C56_num",
    "Verif.C56_inf",
    "Verif.C56_nan",
    "Verif.C56_total",
    "Verif.C56_exact",
    "Verif.C56_error",
    "Verif.C56_mono",
    "Verif.C56_roundtrip",
    "Verif.C56_overflow_wrong"
   ],
   "note": "Formats with subnormals (with_denorm). C56_overflow_wrong: numbers beyond the range become the greatest number instead of infinity; numbers below the normal range and -0 become +0."
  },
  {
   "property": "C57",
   "status": "partial",
   "theorems": [
    "Verif.C57_toNative",
    "Verif.C57_toNative_zero",
    "Verif.C57_notSub",
    "Verif.C57_ofNative",
    "Verif.C57_ofNative_inf",
    "Verif.C57_ofNative_nan",
    "Verif.C57_ofNative_nan_wrong",
    "Verif.C57_ofDouble_ub",
    "Verif.C57_mul",
    "Verif.C57_mul_exact",
    "Verif.C57_mul_small",
    "Verif.C57_add",
    "Verif.C57_add_exact",
    "Verif.C57_add_near",
    "Verif.C57_add_zero",
    "Verif.C57_add_negzero_wrong",
    "Verif.C57_div",
    "Verif.C57_div_small",
    "Verif.C57_inv",
    "Verif.C57_fma",
    "Verif.C57_twice",
    "Verif.C57_half",
    "Verif.C57_nan",
    "Verif.C57_div_zero",
    "Verif.C57_inf",
    "Verif.C57_inf_inf",
    "Verif.C57_cmp",
    "Verif.C57_cmp_nan",
    "Verif.C57_cmp_inf",
    "Verif.C57_eq_sub_wrong",
    "Verif.C57_min_max",
    "Verif.C57_neg",
    "Verif.C57_abs",
    "Verif.C57_isNegative",
    "Verif.C57_negzero_wrong",
    "Verif.C57_sub",
    "Verif.C57_ofInt",
    "Verif.C57_ofInt_min_ub",
    "Verif.C57_toInt_partial",
    "Verif.C57_toInt_one_ub",
    "Verif.C57_constants"
   ],
   "note": "Operands that are zero or normal in the native type (all of binary8_emu and binary16_emu); results are cut, not rounded. Wrong: C57_eq_sub_wrong (native subnormals compare equal), C57_negzero_wrong, C57_add_negzero_wrong (-0), C57_ofNative_nan_wrong, C57_ofInt_min_ub, C57_toInt_one_ub, C57_ofDouble_ub. Native arithmetic is a parameter (FloatOps.Correct, FloatOps.Specials). The complete outcome on every pattern is proved as C99."
  },
  {
   "property": "C58",
   "status": "partial",
   "theorems": [
    "Verif.C58_toFloat",
    "Verif.C58_add",
    "Verif.C58_add_near",
    "Verif.C58_add_far",
    "Verif.C58_mul",
    "Verif.C58_square",
    "Verif.C58_div",
    "Verif.C58_inv",
    "Verif.C58_half",
    "Verif.C58_nan",
    "Verif.C58_inf",
    "Verif.C58_undefined",
    "Verif.C58_div_zero",
    "Verif.C58_subnormal_wrong",
    "Verif.C58_sub_partial",
    "Verif.C58_sub_wrong"
   ],
   "note": "Sums are rounded to float first; this matters only for operands more than 2^20 apart (C58_add_near, C58_add_far). C58_sub_wrong: 1-1 = -3 and epsilon() = -5/2, since negation is wrong (C47). C58_subnormal_wrong: subnormal operands become 0 in 0+x and 1*x. exp2 is C110. Native arithmetic is a parameter (FloatOps.Correct, FloatOps.Specials)."
  },
  {
   "property": "C59",
   "status": "partial",
   "theorems": [
    "Verif.Float2Bits.C59_num",
    "Verif.Float2Bits.C59_special",
    "Verif.Float2Bits.C59_zero_wrong",
    "Verif.Float2Bits.C59_toU64"
   ],
   "note": "C59_zero_wrong: -0 gives the bits of +0; every NaN gives the same quiet NaN (C59_special). The native multiplication is a parameter (FloatOps.Correct). The version for double is disabled in the source."
  },
  {
   "property": "C60",
   "status": "partial",
   "theorems": [
    "Verif.Float16n32.C60_ofFloat",
    "Verif.Float16n32.C60_sign",
    "Verif.Float16n32.C60_toFloat",
    "Verif.Float16n32.C60_toFloat_wrong",
    "Verif.Float16n32.C60_order_partial",
    "Verif.Float16n32.C60_lt_wrong",
    "Verif.Float16n32.C60_arith_wrong",
    "Verif.Float16n32.C60_sub_wrong",
    "Verif.Float16n32.C60_div_wrong",
    "Verif.Float16n32.C60_derived_wrong",
    "Verif.Float16n32.C60_compare",
    "Verif.Float16n32.C60_zero"
   ],
   "note": "Variant without F16C instructions. Conversion from float, sign operations, constants and == of nonzero numbers proved; conversion to float is wrong for everything but zero (C60_toFloat_wrong: the bits are converted as a number), hence < is wrong for negative operands (C60_order_partial, C60_lt_wrong; C60_compare for the other comparisons), sums, products, squares and mulAdd are 65504 (C60_arith_wrong, C60_derived_wrong), differences are 0 or at least 8192 (C60_sub_wrong), quotients, half and inv lie between 1/8 and 8 (C60_div_wrong, C60_derived_wrong). Native arithmetic is a parameter."
  },
  {
   "property": "C61",
   "status": "partial",
   "theorems": [
    "Verif.SimdPosit8.C61_lanes",
    "Verif.SimdPosit8.C61_closed",
    "Verif.SimdPosit8.C61_arith",
    "Verif.SimdPosit8.C61_unary_partial",
    "Verif.SimdPosit8.C61_neg_wrong",
    "Verif.SimdPosit8.C61_scale_wrong",
    "Verif.SimdPosit8.C61_gauss2_wrong",
    "Verif.SimdPosit8.C61_predicates",
    "Verif.SimdPosit8.C61_predicates_wrong",
    "Verif.SimdPosit8.C61_convert_partial",
    "Verif.SimdPosit8.C61_convert_wrong"
   ],
   "note": "C61_neg_wrong: negation gives the absolute value, so a-b is a+|b| and gauss2 is never below 1 (C61_gauss2_wrong); C61_scale_wrong: half and twice scale by 5/4; C61_predicates_wrong: +-maxpos count as infinite, exponent test of negative lanes. inv(0) is 0 as in C38. Everything else proved lane by lane."
  },
  {
   "property": "C62",
   "status": "proved",
   "theorems": [
    "Verif.C62_posit8_float",
    "Verif.C62_posit8_inv",
    "Verif.C62_posit8_tables",
    "Verif.C62_posit8_unary",
    "Verif.C62_posit12_tables"
   ],
   "note": "Native arithmetic is a parameter (FloatOps.Correct). opexp2 is C110."
  },
  {
   "property": "C63",
   "status": "proved",
   "theorems": [
    "Verif.C63_add",
    "Verif.C63_sub",
    "Verif.C63_fma",
    "Verif.C63_mulAddMul",
    "Verif.C63_mulSubMul",
    "Verif.C63_dot"
   ],
   "note": "The operations with products need fb+2 <= F (the library instantiations have it); C63_add/C63_sub need nothing."
  },
  {
   "property": "C64",
   "status": "partial",
   "theorems": [
    "Verif.C64_add_mono_partial",
    "Verif.C64_add_mono_right_partial",
    "Verif.C64_sub_mono_partial",
    "Verif.C64_add_mono",
    "Verif.C64_fma_mono_product_partial",
    "Verif.C64_fma_mono_partial",
    "Verif.C64_narrow_wrong"
   ],
   "note": "Holds whenever the results are defined; undefined results are characterized by C63. Fails for F < fb+2 (C64_narrow_wrong)."
  },
  {
   "property": "C65",
   "status": "partial",
   "theorems": [
    "Verif.C65_double",
    "Verif.C65_twice_partial",
    "Verif.C65_half",
    "Verif.C65_div_reciprocal",
    "Verif.C65_signs",
    "Verif.C65_fma_product",
    "Verif.C65_fma_not_always",
    "Verif.C65_fma_one",
    "Verif.C65_mulAddMul_products",
    "Verif.C65_mulAddMul",
    "Verif.C65_mulSubMul_partial",
    "Verif.C65_mulSubMul_wrong",
    "Verif.C65_dot_two",
    "Verif.C65_assign",
    "Verif.C65_minmax"
   ],
   "note": "C65_twice_partial under the conditions of C18. C65_fma_not_always: fma differs from a*b+d when the product is rounded. C65_mulSubMul_wrong: a zero second product counts as 1 (C49)."
  },
  {
   "property": "C66",
   "status": "proved",
   "theorems": [
    "Verif.C66_format",
    "Verif.C66_sub",
    "Verif.C66_sub_narrow",
    "Verif.C66_sharp"
   ],
   "note": "C66_sharp shows that the factor two cannot be relaxed. Undefined exactly when the difference cannot be packed; never for holders with two spare bits (C66_sub_narrow)."
  },
  {
   "property": "C67",
   "status": "proved",
   "theorems": [
    "Verif.C67_spacing",
    "Verif.C67_mul",
    "Verif.C67_div",
    "Verif.C67_add_partial",
    "Verif.C67_fma_partial",
    "Verif.C67_long_regime",
    "Verif.C67_add_sub",
    "Verif.C67_fma"
   ],
   "note": "C67_add_sub and C67_fma cover every operand with a defined result; C67_add_partial and C67_fma_partial also show that the results of AddSafe/FmaSafe operands are defined. C67_long_regime: where exponent bits are missing the error can be a factor of eight."
  },
  {
   "property": "C68",
   "status": "partial",
   "theorems": [
    "Verif.C68_mul",
    "Verif.C68_wrap_wrong",
    "Verif.C68_div",
    "Verif.C68_div_wrong",
    "Verif.C68_inv_eq",
    "Verif.C68_inv",
    "Verif.C68_inv_wrong",
    "Verif.C68_double",
    "Verif.C68_double_nan",
    "Verif.C68_div_two",
    "Verif.C68_div_two_wrong",
    "Verif.C68_inv_inv",
    "Verif.C68_add",
    "Verif.C68_add_exact",
    "Verif.C68_mul_exact",
    "Verif.C68_sub_self",
    "Verif.C68_mul_error",
    "Verif.C68_div_error",
    "Verif.C68_mul_inv"
   ],
   "note": "Complete outcomes of + * / inv (C68_add, C68_mul, C68_div, C68_inv). Wrong where the last two fraction bits of a divisor matter: C68_div_wrong, C68_inv_wrong, C68_div_two ((2u)/u = 1 for half of all fractions), C68_inv_inv (six fractions); exponents wrap (C68_wrap_wrong); 2*NaN is 2 (C68_double_nan)."
  },
  {
   "property": "C69",
   "status": "proved",
   "theorems": [
    "Verif.C69_div_self",
    "Verif.C69_zero_iff",
    "Verif.C69_mul_div",
    "Verif.C69_div_mul",
    "Verif.C69_least_wrong",
    "Verif.C69_div_div",
    "Verif.C69_inv_inv",
    "Verif.C69_factor",
    "Verif.C69_add_ge"
   ],
   "note": "The undo laws need a first result not below the least posit: C69_least_wrong shows why (such results are rounded up)."
  },
  {
   "property": "C70",
   "status": "proved",
   "theorems": [
    "Verif.C70_mul_div",
    "Verif.C70_add_sub",
    "Verif.C70_fused",
    "Verif.C70_dot",
    "Verif.C70_observe",
    "Verif.C70_convert",
    "Verif.C70_special",
    "Verif.C70_pack",
    "Verif.C70_ofInt",
    "Verif.C70_ofFloat"
   ],
   "note": "Same es, fraction type and exponent type, holders with spare bits (Wider). C70_special: the single infinity of a format becomes the negative one of two."
  },
  {
   "property": "C71",
   "status": "partial",
   "theorems": [
    "Verif.C71_ofInt",
    "Verif.C71_arith",
    "Verif.C71_div_exact",
    "Verif.C71_fused",
    "Verif.C71_dot",
    "Verif.C71_compare",
    "Verif.C71_toInt",
    "Verif.C71_tdiv_partial"
   ],
   "note": "C71_tdiv_partial: quotients in [1,2) converted to int execute an out-of-range shift, as do +-1 (C71_toInt). Everything else holds for all integers in range."
  },
  {
   "property": "C72",
   "status": "partial",
   "theorems": [
    "Verif.Pnum.C72_make",
    "Verif.Pnum.C72_alphabets",
    "Verif.Pnum.C72_tables_wrong",
    "Verif.Pnum.C72_neg_inv",
    "Verif.Pnum.C72_next_prev",
    "Verif.Pnum.C72_exactValue",
    "Verif.Pnum.C72_partition",
    "Verif.Pnum.C72_order",
    "Verif.Pnum.C72_convert",
    "Verif.Pnum.C72_convert_exactValue",
    "Verif.Pnum.C72_convert_wrong"
   ],
   "note": "C72_tables_wrong: the tables of p8a and p16a are rejected. C72_convert finds the pattern of what float() returns; C72_convert_wrong where float() rounds. Tables of fractions only."
  },
  {
   "property": "C73",
   "status": "partial",
   "theorems": [
    "Verif.Pnum.C73_plus_partial",
    "Verif.Pnum.C73_plus_wrong",
    "Verif.Pnum.C73_plus_tight_wrong",
    "Verif.Pnum.C73_sub_partial",
    "Verif.Pnum.C73_p8_exact",
    "Verif.Pnum.C73_times_neg_neg",
    "Verif.Pnum.C73_times_partial",
    "Verif.Pnum.C73_times_wrong",
    "Verif.Pnum.C73_times_mixed_wrong"
   ],
   "note": "C73_plus_partial, C73_sub_partial and C73_times_partial give containment where it holds; C73_plus_wrong, C73_times_wrong refute it elsewhere for every alphabet; C73_times_mixed_wrong says exactly when a product of different signs holds all products; C73_plus_tight_wrong refutes tightness."
  },
  {
   "property": "C74",
   "status": "partial",
   "theorems": [
    "Verif.Pnum.C74_named",
    "Verif.Pnum.C74_complement_partial",
    "Verif.Pnum.C74_complement_wrong",
    "Verif.Pnum.C74_invert_partial",
    "Verif.Pnum.C74_invert_wrong",
    "Verif.Pnum.C74_iter"
   ],
   "note": "C74_complement_wrong (everything) and C74_invert_wrong (empty) for every alphabet; all other bounds proved."
  },
  {
   "property": "C75",
   "status": "partial",
   "theorems": [
    "Verif.Pnum.C75_pairs_partial",
    "Verif.Pnum.C75_pairs_wrong",
    "Verif.Pnum.C75_pairs_once"
   ],
   "note": "C75_pairs_wrong: the pair (1/a,-1/a), a > 1, is missing in every alphabet; all others are listed (C75_pairs_partial), once (C75_pairs_once)."
  },
  {
   "property": "C76",
   "status": "partial",
   "theorems": [
    "Verif.C76_posit8_order",
    "Verif.C76_posit10_order",
    "Verif.C76_posit12_order",
    "Verif.C76_epsilon",
    "Verif.C76_ninfinity_wrong"
   ],
   "note": "C76_ninfinity_wrong: ninfinity() is NaN (posit8) or the least real (posit10, posit12). The rest is proved for all patterns."
  },
  {
   "property": "C77",
   "status": "proved",
   "theorems": [
    "Verif.C77_posit8_int",
    "Verif.C77_posit12_int",
    "Verif.C77_posit10_int",
    "Verif.C77_binary8_int",
    "Verif.C77_double"
   ],
   "note": "The undefined patterns are NaN, the infinities of binary8tab, and the numbers of posit10 and posit12 from 2^31 on."
  },
  {
   "property": "C78",
   "status": "partial",
   "theorems": [
    "Verif.C78_order",
    "Verif.C78_order_posit",
    "Verif.C78_infinity_partial",
    "Verif.C78_infinity_nan",
    "Verif.C78_abs",
    "Verif.C78_epsilon_partial",
    "Verif.C78_urDeltaPs_partial"
   ],
   "note": "C78_infinity_nan: without infinities isinfinity() reports NaN. C78_epsilon_partial excludes the three-bit format with two infinities; C78_urDeltaPs_partial needs es = 0 (C25_urOneMinus_wrong otherwise)."
  },
  {
   "property": "C79",
   "status": "partial",
   "theorems": [
    "Verif.C79_digits10_partial",
    "Verif.C79_digits10_unit_partial",
    "Verif.C79_digits10_range_partial",
    "Verif.C79_not_always"
   ],
   "note": "C79_digits10_partial (es = 0, between 1/2 and 2), C79_digits10_unit_partial (es <= 3, between 1 and 2), C79_digits10_range_partial (one digit less, everywhere the fraction is complete). C79_not_always: false with four exponent bits and outside the middle range."
  },
  {
   "property": "C80",
   "status": "proved",
   "theorems": [
    "Verif.Simd.C80_unsigned",
    "Verif.Simd.C80_signed",
    "Verif.Simd.C80_float"
   ],
   "note": "Floating point classes on finite numbers, with any comparison right on them. The variants without AVX-512."
  },
  {
   "property": "C81",
   "status": "partial",
   "theorems": [
    "Verif.Simd.C81_index8",
    "Verif.Simd.C81_index32",
    "Verif.Simd.C81_indexD4",
    "Verif.Simd.C81_index16_partial",
    "Verif.Simd.C81_index16_wrong",
    "Verif.Simd.C81_indexD2_wrong",
    "Verif.Simd.C81_indexD2_partial"
   ],
   "note": "C81_index8, C81_index32, C81_indexD4 proved; C81_index16_wrong (elements 4-7 and 12-15 of 16-bit integers) and C81_indexD2_wrong (second double) refute the rest."
  },
  {
   "property": "C82",
   "status": "partial",
   "theorems": [
    "Verif.Simd.C82_argmax8",
    "Verif.Simd.C82_argmax32",
    "Verif.Simd.C82_argmaxF",
    "Verif.Simd.C82_argmax16_wrong"
   ],
   "note": "Bytes, 32-bit integers, floats and four doubles; C82_argmax16_wrong for 16-bit integers."
  },
  {
   "property": "C83",
   "status": "partial",
   "theorems": [
    "Verif.Simd.C83_load",
    "Verif.Simd.C83_strided",
    "Verif.Simd.C83_increment",
    "Verif.Simd.C83_increment_narrow",
    "Verif.Simd.C83_increment_ub",
    "Verif.Simd.C83_gather",
    "Verif.Simd.C83_gather_wrong",
    "Verif.Simd.C83_store",
    "Verif.Simd.C83_store_load",
    "Verif.Simd.C83_add"
   ],
   "note": "C83_gather needs offsets that fit an int32_t; C83_gather_wrong and C83_increment_ub otherwise. Validity of the addresses is not modelled."
  },
  {
   "property": "C84",
   "status": "partial",
   "theorems": [
    "Verif.HalfPrec.C84_single",
    "Verif.HalfPrec.C84_double_partial",
    "Verif.HalfPrec.C84_double_nan_wrong",
    "Verif.HalfPrec.C84_mono",
    "Verif.HalfPrec.C84_unique",
    "Verif.HalfPrec.C84_agree"
   ],
   "note": "C84_single proved for all floats; C84_double_partial for all doubles but NaNs whose upper 20 fraction bits are 0, which become infinities (C84_double_nan_wrong). C84_unique: the specification determines the half."
  },
  {
   "property": "C85",
   "status": "proved",
   "theorems": [
    "Verif.HalfPrec.C85_single",
    "Verif.HalfPrec.C85_double"
   ],
   "note": "Doubles: the upper word, which is all the code computes (see C86 for the lower one). Termination of the normalization loop and definedness of its shifts included."
  },
  {
   "property": "C86",
   "status": "partial",
   "theorems": [
    "Verif.HalfPrec.C86_roundtrip_single",
    "Verif.HalfPrec.C86_roundtrip_double",
    "Verif.HalfPrec.C86_singles2halfp",
    "Verif.HalfPrec.C86_doubles2halfp_partial",
    "Verif.HalfPrec.C86_halfp2singles",
    "Verif.HalfPrec.C86_halfp2doubles_partial",
    "Verif.HalfPrec.C86_halfp2doubles_wrong",
    "Verif.HalfPrec.C86_check",
    "Verif.HalfPrec.C86_ieee",
    "Verif.HalfPrec.C86_long64_wrong"
   ],
   "note": "C86_halfp2doubles_partial needs a target cleared before: the lower words are not written (C86_halfp2doubles_wrong). C86_long64_wrong: ieeehalfprecision.c converts nothing where long has 8 bytes. C86_doubles2halfp_partial: NaNs as in C84."
  },
  {
   "property": "C87",
   "status": "partial",
   "theorems": [
    "Verif.C87_read_subnormal",
    "Verif.C87_read",
    "Verif.C87_write",
    "Verif.C87_roundtrip_wrong",
    "Verif.C87_bfloat16",
    "Verif.C87_bfloat16_double_ub"
   ],
   "note": "Reading: C87_read, C87_read_subnormal as claimed. Writing: C87_write gives the complete outcome; numbers below the normal range are written as subnormals (the flag is applied the wrong way round), read back as zero (C87_roundtrip_wrong), and are undefined behaviour far below it (C87_bfloat16_double_ub)."
  },
  {
   "property": "C88",
   "status": "proved",
   "theorems": [
    "Verif.C88_mul",
    "Verif.C88_div",
    "Verif.C88_add",
    "Verif.C88_neg",
    "Verif.C88_sub",
    "Verif.C88_fma",
    "Verif.C88_mulAddMul",
    "Verif.C88_mulSubMul",
    "Verif.C88_dot",
    "Verif.C88_usual"
   ],
   "note": "Complete outcome, undefined behaviour included; C88_usual says exactly where the rules depart from the usual ones. Patterns outside the format are not covered."
  },
  {
   "property": "C89",
   "status": "proved",
   "theorems": [
    "Verif.C89_toInt",
    "Verif.C89_ofInt",
    "Verif.C89_ofFloat",
    "Verif.C89_toFloat",
    "Verif.C89_convert"
   ],
   "note": "Complete outcome, undefined behaviour and wrong values included. Requires exponent types wide enough for the float (C22/C23 show what happens otherwise) and a fraction type that holds the fraction."
  },
  {
   "property": "C90",
   "status": "proved",
   "theorems": [
    "Verif.C90_abs",
    "Verif.C90_inv",
    "Verif.C90_half",
    "Verif.C90_twice",
    "Verif.C90_next_prev"
   ],
   "note": "Complete outcome, undefined behaviour and wrong values included; patterns outside the format are not covered. inv requires a fraction type with two spare bits."
  },
  {
   "property": "C91",
   "status": "proved",
   "theorems": [
    "Verif.C91_pattern",
    "Verif.C91_value",
    "Verif.C91_curve",
    "Verif.C91_logistic",
    "Verif.C91_logistic_wrong",
    "Verif.C91_exponent_wrong",
    "Verif.C91_softplus_negative"
   ],
   "note": "The error bound is claimed where the pattern is right (C91_logistic); the two departures are C91_logistic_wrong (negative operands in 8/16-bit holders) and C91_exponent_wrong (exponent bits)."
  },
  {
   "property": "C92",
   "status": "proved",
   "theorems": [
    "Verif.C92_same",
    "Verif.C92_outcome",
    "Verif.C92_above",
    "Verif.C92_below"
   ],
   "note": "Equality with the constructor in range (C92_same, C92_outcome), exact results outside (C92_above, C92_below). The regime is assumed to fit the holder type, which fails only for 8-bit holders and double."
  },
  {
   "property": "C93",
   "status": "proved",
   "theorems": [
    "Verif.C93_one",
    "Verif.C93_two",
    "Verif.C93_half",
    "Verif.C93_roundtrip",
    "Verif.C93_unpacked"
   ],
   "note": ""
  },
  {
   "property": "C94",
   "status": "proved",
   "theorems": [
    "Verif.C94_single_normal",
    "Verif.C94_single_sub",
    "Verif.C94_single_special",
    "Verif.C94_double_normal",
    "Verif.C94_double_sub",
    "Verif.C94_double_special",
    "Verif.C94_toSingle",
    "Verif.C94_toDouble"
   ],
   "note": ""
  },
  {
   "property": "C95",
   "status": "proved",
   "theorems": [
    "Verif.C95_pack",
    "Verif.C95_pack_special",
    "Verif.C95_unpack",
    "Verif.C95_roundtrip",
    "Verif.C95_wide_ub",
    "Verif.C95_accepted"
   ],
   "note": ""
  },
  {
   "property": "C96",
   "status": "proved",
   "theorems": [
    "Verif.C96_involution",
    "Verif.C96_below",
    "Verif.C96_above",
    "Verif.C96_negative",
    "Verif.C96_low",
    "Verif.C96_iff",
    "Verif.C96_urDeltaPs"
   ],
   "note": ""
  },
  {
   "property": "C97",
   "status": "proved",
   "theorems": [
    "Verif.C97_ofInt",
    "Verif.C97_ofFloat",
    "Verif.C97_ofFloat_inf",
    "Verif.C97_convert",
    "Verif.C97_toFloat",
    "Verif.C97_toInt",
    "Verif.C97_toInt_wrong"
   ],
   "note": ""
  },
  {
   "property": "C98",
   "status": "proved",
   "theorems": [
    "Verif.C98_signed",
    "Verif.C98_signed_ub",
    "Verif.C98_unsigned",
    "Verif.C98_unsigned_wide",
    "Verif.C98_row",
    "Verif.C98_defined",
    "Verif.C98_overview"
   ],
   "note": ""
  },
  {
   "property": "C99",
   "status": "proved",
   "theorems": [
    "Verif.C99_toNative",
    "Verif.C99_mul",
    "Verif.C99_add",
    "Verif.C99_sub",
    "Verif.C99_div",
    "Verif.C99_inv",
    "Verif.C99_twice",
    "Verif.C99_fma",
    "Verif.C99_half",
    "Verif.C99_cmp",
    "Verif.C99_min_max",
    "Verif.C99_toInt"
   ],
   "note": "The native arithmetic is a parameter (FloatOps.Ieee, any rounding mode; floatOps_ieee_exists)."
  },
  {
   "property": "C100",
   "status": "proved",
   "theorems": [
    "Verif.C100_mul",
    "Verif.C100_add",
    "Verif.C100_div",
    "Verif.C100_inv",
    "Verif.C100_twice",
    "Verif.C100_sub",
    "Verif.C100_half",
    "Verif.C100_ofInt",
    "Verif.C100_wide_wrong"
   ],
   "note": "The native arithmetic is a parameter (FloatOps.Ieee, any rounding mode). Exponent types of 8 bits are excluded: there the conversion to the float wraps (C54_narrow_wrong)."
  },
  {
   "property": "C101",
   "status": "partial",
   "theorems": [
    "Verif.Float16c.C101_toFloat",
    "Verif.Float16c.C101_ofFloat",
    "Verif.Float16c.C101_roundtrip",
    "Verif.Float16c.C101_add",
    "Verif.Float16c.C101_sub",
    "Verif.Float16c.C101_mul",
    "Verif.Float16c.C101_div",
    "Verif.Float16c.C101_unary",
    "Verif.Float16c.C101_mulAdd_partial",
    "Verif.Float16c.C101_mulAdd_wrong",
    "Verif.Float16c.C101_cmp"
   ],
   "note": "Everything is proved except that mulAdd is correctly rounded, which it is not (C101_mulAdd_partial, C101_mulAdd_wrong). The native arithmetic (FloatOps.IeeeZ) and the conversion instructions (F16C.Correct) are parameters; f16c_exists and floatOps_ieeeZ_exists show that they can be met."
  },
  {
   "property": "C102",
   "status": "proved",
   "theorems": [
    "Verif.Float16c.C102_rem",
    "Verif.Float16c.C102_rem_special",
    "Verif.Float16c.C102_sqrt",
    "Verif.Float16c.C102_sqrt_special"
   ],
   "note": "The C library functions remainder and sqrt (FloatLib.Correct) and the conversion instructions (F16C.Correct) are parameters; floatLib_exists and f16c_exists show that they can be met."
  },
  {
   "property": "C103",
   "status": "proved",
   "theorems": [
    "Verif.Simd.C103_int",
    "Verif.Simd.C103_float",
    "Verif.Simd.C103_argmax",
    "Verif.Simd.C103_argmaxF",
    "Verif.Simd.C103_array",
    "Verif.Simd.C103_load",
    "Verif.Simd.C103_gather",
    "Verif.Simd.C103_increment"
   ],
   "note": "The vendor intrinsics are modelled after their documentation; the native comparison of floats is a parameter. argmax_along_fit of simd_x_a does not compile (undeclared names) and is not modelled."
  },
  {
   "property": "C104",
   "status": "proved",
   "theorems": [
    "Verif.C104_dot",
    "Verif.C104_sign",
    "Verif.C104_cancel",
    "Verif.C104_error"
   ],
   "note": "C104_dot, C104_sign for every defined dot product (where it is defined: C63, C88); C104_cancel shows that the sign can be lost below the bound."
  },
  {
   "property": "C105",
   "status": "proved",
   "theorems": [
    "Verif.Print.C105_digits",
    "Verif.Print.C105_unpacked",
    "Verif.Print.C105_text",
    "Verif.Print.C105_flags",
    "Verif.Print.C105_posit",
    "Verif.Print.C105_injective",
    "Verif.Print.C105_tab"
   ],
   "note": "The text of a native float (decimal mode) is a parameter; stream flags other than the base have their initial values."
  },
  {
   "property": "C106",
   "status": "proved",
   "theorems": [
    "Verif.C106_sum",
    "Verif.C106_sum_error",
    "Verif.C106_prod_sign",
    "Verif.C106_prod_large",
    "Verif.C106_prod_small",
    "Verif.C106_prod_not_below",
    "Verif.C106_stagnate",
    "Verif.C106_counter"
   ],
   "note": "For every defined loop. C106_prod_not_below shows that products of mixed factors can exceed the exact product."
  },
  {
   "property": "C107",
   "status": "partial",
   "theorems": [
    "Verif.C107_exists",
    "Verif.C107_arith16",
    "Verif.C107_const16",
    "Verif.C107_unary16",
    "Verif.C107_half_exact16",
    "Verif.C107_neg16",
    "Verif.C107_error16",
    "Verif.C107_sub_zero16",
    "Verif.C107_sterbenz16",
    "Verif.C107_order16",
    "Verif.C107_symm16",
    "Verif.C107_mulAdd16",
    "Verif.C107_compare16",
    "Verif.C107_int16",
    "Verif.C107_rem16",
    "Verif.C107_sqrt16",
    "Verif.C107_arith32",
    "Verif.C107_const32",
    "Verif.C107_unary32",
    "Verif.C107_half_exact32",
    "Verif.C107_neg32",
    "Verif.C107_error32",
    "Verif.C107_sub_zero32",
    "Verif.C107_sterbenz32",
    "Verif.C107_order32",
    "Verif.C107_symm32",
    "Verif.C107_mulAdd32",
    "Verif.C107_compare32",
    "Verif.C107_int32",
    "Verif.C107_rem32",
    "Verif.C107_sqrt32",
    "Verif.C107_widen",
    "Verif.C107_narrow",
    "Verif.C107_round_trip",
    "Verif.C107_through32",
    "Verif.C107_limits_partial",
    "Verif.C107_limits_exponents_wrong",
    "Verif.C107_bits"
   ],
   "note": "Everything is proved except that min_exponent and max_exponent are as the standard wants, which they are not (C107_limits_partial, C107_limits_exponents_wrong). SoftFloat is a parameter (SoftLib.Correct); C107_exists shows that it can be met. What the operators << write is not modelled."
  },
  {
   "property": "C108",
   "status": "proved",
   "theorems": [
    "Verif.C108_exists",
    "Verif.C108_entry",
    "Verif.C108_int",
    "Verif.C108_mono",
    "Verif.C108_error",
    "Verif.C108_special"
   ],
   "note": "SoftFloat and exp2 are parameters; C107_exists and C108_exists show that they can be met."
  },
  {
   "property": "C109",
   "status": "partial",
   "theorems": [
    "Verif.Mex.C109_binop_partial",
    "Verif.Mex.C109_binop_overflow",
    "Verif.Mex.C109_binop_hole",
    "Verif.Mex.C109_arguments_wrong",
    "Verif.Mex.C109_rejected",
    "Verif.Mex.C109_unknown_wrong",
    "Verif.Mex.C109_count_wrong",
    "Verif.Mex.C109_unop_partial",
    "Verif.Mex.C109_tofloat_partial",
    "Verif.Mex.C109_offloat_partial",
    "Verif.Mex.C109_round_trip"
   ],
   "note": "Proved for the arguments that the functions ask for and fewer than 2^31 values; false otherwise: C109_binop_overflow, C109_binop_hole, C109_arguments_wrong, C109_unknown_wrong, C109_count_wrong. floatTop8 on the inputs on which C22 says the conversion is undefined or wrong is left to that property. MATLAB arrays are modelled with interleaved complex values."
  },
  {
   "property": "C110",
   "status": "partial",
   "theorems": [
    "Verif.C110_posit8",
    "Verif.C110_posit12_partial",
    "Verif.C110_posit12_wrong",
    "Verif.C110_posit12_gen",
    "Verif.C110_posit10_partial",
    "Verif.C110_posit10_wrong",
    "Verif.C110_posit10_nan",
    "Verif.C110_binary8",
    "Verif.C110_binary8_special",
    "Verif.C110_exists"
   ],
   "note": "posit8 and binary8 completely; posit12 and posit10 between -143 and 128 except for the numbers between -2^-25 and 0, where the entries are not truncated powers: C110_posit12_wrong, C110_posit10_wrong. The C function exp2 is a parameter (IsExp2, IsExp2Close); C110_exists shows that it can be met."
  },
  {
   "property": "C111",
   "status": "partial",
   "theorems": [
    "Verif.C111_exists",
    "Verif.C111_near_partial",
    "Verif.C111_int_partial",
    "Verif.C111_mono_partial",
    "Verif.C111_special",
    "Verif.C111_range_wrong",
    "Verif.C111_low_partial",
    "Verif.C111_subnormal_ub",
    "Verif.C111_pack_ub",
    "Verif.C111_narrow_wrong"
   ],
   "note": "Proved for operands from -1022 to below 1024 whose results can be packed, an exponent type of at least 16 bits and formats whose numbers are normal doubles with a fraction that fits the fraction type; below -1022 with a fraction type of 64 bits. False otherwise: C111_range_wrong, C111_subnormal_ub, C111_pack_ub, C111_narrow_wrong. The C function exp2 is a parameter (IsExp2D); C111_exists shows that it can be met."
  },
  {
   "property": "C112",
   "status": "partial",
   "theorems": [
    "Verif.C112_read",
    "Verif.C112_checks",
    "Verif.C112_packed",
    "Verif.C112_sum",
    "Verif.C112_dot",
    "Verif.C112_special",
    "Verif.C112_signbit_wrong",
    "Verif.C112_narrow_wrong"
   ],
   "note": "Everything except signbit of minus zero, which is read as plus zero (C112_signbit_wrong). The conversions back are proved for floats whose reciprocal and double are normal (C112_packed). With fewer than three spare fraction bits the checks fail (C112_narrow_wrong)."
  },
  {
   "property": "C113",
   "status": "partial",
   "theorems": [
    "Verif.C113_conversions_partial",
    "Verif.C113_special_conversion_partial",
    "Verif.C113_checkfloat_wrong",
    "Verif.C113_zero",
    "Verif.C113_infinity",
    "Verif.C113_nan",
    "Verif.C113_subnormal_wrong"
   ],
   "note": "Both tests for normal floats (C113_conversions_partial, C113_special_conversion_partial), zeros, infinities and NaNs. The last sentence is false: checkfloat uses the != of Unpacked that is == on numbers, and so reports an error for every normal float, and for exactly the surviving ones that the unpacked numbers differ (C113_checkfloat_wrong). Subnormal floats do not survive even if they are posits (C113_subnormal_wrong)."
  },
  {
   "property": "C114",
   "status": "partial",
   "theorems": [
    "Verif.C114_meandiff",
    "Verif.C114_meandiff_exact",
    "Verif.C114_load",
    "Verif.C114_load_iIv_wrong",
    "Verif.C114_describetab",
    "Verif.C114_describetab_error",
    "Verif.C114_posits",
    "Verif.C114_dump",
    "Verif.C114_limittab",
    "Verif.C114_limittab_inf",
    "Verif.C114_toindex",
    "Verif.C114_fromindex",
    "Verif.C114_index_inverse",
    "Verif.C114_nearest_partial",
    "Verif.C114_nearest_wrong",
    "Verif.C114_halfinrange"
   ],
   "note": "Everything except toindex on values, which is proved where no other value is closer than 2^-537 to the argument (C114_nearest_partial) and false otherwise (C114_nearest_wrong). The comment of loadpositdump.m gives wrong columns (C114_load_iIv_wrong). The native arithmetic is a parameter (FloatOps.Ieee, any rounding mode); floatOps_underflows shows that it can be met. min, max, find and sort of MATLAB are modelled after their documentation."
  },
  {
   "property": "C115",
   "status": "partial",
   "theorems": [
    "Verif.C115_morton_partial",
    "Verif.C115_morton_wrong"
   ],
   "note": "Proved for n = 2; false for every other n (C115_morton_wrong)."
  },
  {
   "property": "C116",
   "status": "partial",
   "theorems": [
    "Verif.C116_add",
    "Verif.C116_add_close",
    "Verif.C116_itest",
    "Verif.C116_add_neighbours",
    "Verif.C116_add_wrong",
    "Verif.C116_nan_wrong"
   ],
   "note": "Equality is proved where the exact sum is a native float (C116_add, C116_add_close) and for the test (C116_itest), a difference of at most one unit where the integer sum is defined (C116_add_neighbours). Equality is false beyond (C116_add_wrong) and for a NaN on the right (C116_nan_wrong). The native arithmetic is a parameter; floatOps_exists shows that it can be met."
  },
  {
   "property": "C117",
   "status": "partial",
   "theorems": [
    "Verif.C117_pass",
    "Verif.C117_itest",
    "Verif.C117_binary8",
    "Verif.C117_rawexp",
    "Verif.C117_rawexp_wrong"
   ],
   "note": "Everything except rawexp, which is the exponent field only in formats with five exponent bits (C117_rawexp, C117_rawexp_wrong)."
  },
  {
   "property": "C118",
   "status": "partial",
   "theorems": [
    "Verif.C118_extract",
    "Verif.C118_decodeRs",
    "Verif.C118_noStop",
    "Verif.C118_gethw",
    "Verif.C118_gethw_get",
    "Verif.C118_gethw_empty",
    "Verif.C118_gethw_wraps"
   ],
   "note": "Everything except that extract agrees with decode_posit_rs on the two words without a stop bit (C118_noStop). The BMI instruction is modelled after its documentation; only the last eight bits of offset and size count (C118_gethw_wraps)."
  },
  {
   "property": "C119",
   "status": "partial",
   "theorems": [
    "Verif.C119_neighbours",
    "Verif.C119_posit",
    "Verif.C119_sorted_unique",
    "Verif.C119_sorted_values",
    "Verif.C119_nan_wrong",
    "Verif.C119_patterns",
    "Verif.C119_anyfloat",
    "Verif.C119_anyfloat_nan_wrong",
    "Verif.C119_float16c",
    "Verif.C119_soft",
    "Verif.C119_float16n32",
    "Verif.C119_u128_partial",
    "Verif.C119_u128_wrong"
   ],
   "note": "Proved for all objects that are not NaN of Posit, anyfloat_emu, float16n32 with F16C, softfloat16/32 and for all objects of PositF, posit8/10/12, binary8tab and float16n32 without F16C. False with NaN (C119_nan_wrong, C119_anyfloat_nan_wrong, second parts of C119_float16c and C119_soft) and for unsigned128 (C119_u128_wrong)."
  },
  {
   "property": "C120",
   "status": "partial",
   "theorems": [
    "Verif.Pnum.C120_table",
    "Verif.Pnum.C120_written",
    "Verif.Pnum.C120_lookup_partial",
    "Verif.Pnum.C120_float",
    "Verif.Pnum.C120_float_wrong",
    "Verif.Pnum.C120_op1_wrong",
    "Verif.Pnum.C120_main"
   ],
   "note": "The tables are proved right for --op1 float. The pair of the reciprocal of a point above 1 and its negative is missing from them (C75_pairs_wrong); the values of the table float are printed with six decimals (C120_float_wrong); every other choice of --op1, the default included, makes the script stop with an exception (C120_op1_wrong), and with --op1 float it does so after the tables (C120_main)."
  },
  {
   "property": "C121",
   "status": "partial",
   "theorems": [
    "Verif.Float12.C121_narrow",
    "Verif.Float12.C121_widen",
    "Verif.Float12.C121_widen_nan",
    "Verif.Float12.C121_back",
    "Verif.Float12.C121_width_wrong",
    "Verif.Float12.C121_params_wrong",
    "Verif.Float12.C121_not12"
   ],
   "note": "The header does not compile; the model states the repairs (Model/Float12.lean). The rounding claims are proved for words of 16 bits or more and the constants 9 and 0x1FF. The last sentence is false: the format has 16 bits (C121_not12). With 12-bit words or other constants the conversions are wrong (C121_width_wrong, C121_params_wrong). Functions of SoftFloat are modelled after its documentation; its treatment of NaN payloads is a parameter."
  },
  {
   "property": "C122",
   "status": "partial",
   "theorems": [
    "Verif.TPosit.C122_holds",
    "Verif.TPosit.C122_matches_partial",
    "Verif.TPosit.C122_order",
    "Verif.TPosit.C122_neg",
    "Verif.TPosit.C122_ofInt",
    "Verif.TPosit.C122_wide_wrong",
    "Verif.TPosit.C122_stride_wrong",
    "Verif.TPosit.C122_special",
    "Verif.TPosit.C122_infinity_wrong",
    "Verif.TPosit.C122_float_wrong"
   ],
   "note": "The header does not compile; the model states the repairs (Model/TPosit.lean). The operators, negation and abs are proved for 8-bit holders and false for wider ones (C122_wide_wrong, C122_stride_wrong). The conversion to float is false except for zero (C122_float_wrong); is_infinity is false for NaN (C122_infinity_wrong). POSIT_MAX and POSIT_MIN do not exist, so max() and min() are left out."
  },
  {
   "property": "C123",
   "status": "partial",
   "theorems": [
    "Verif.TValid.C123_inv_wrong",
    "Verif.TValid.C123_unary_partial",
    "Verif.TValid.C123_binary_partial",
    "Verif.TValid.C123_binary_wrong",
    "Verif.TValid.C123_sub_wrong",
    "Verif.TValid.C123_div_wrong"
   ],
   "note": "The header does not compile; the model states the repairs (Model/TPosit.lean). inv() is never the reciprocal (C123_inv_wrong). The tables are read within bounds for points from zero on (C123_unary_partial, C123_binary_partial) and out of bounds or at another entry otherwise (C123_binary_wrong, C123_sub_wrong, C123_div_wrong)."
  },
  {
   "property": "C124",
   "status": "partial",
   "theorems": [
    "Verif.Readme.C124_special",
    "Verif.Readme.C124_one_half",
    "Verif.Readme.C124_one_wrong",
    "Verif.Readme.C124_two_partial",
    "Verif.Readme.C124_two_wrong",
    "Verif.Readme.C124_inversion_partial",
    "Verif.Readme.C124_inversion_wrong"
   ],
   "note": "Everything except the pattern of one, which is 01(0)+ (C124_one_wrong), that of two in formats without exponent bits (C124_two_wrong), and the inversion bit of negative numbers (C124_inversion_wrong)."
  },
  {
   "property": "C125",
   "status": "partial",
   "theorems": [
    "Verif.C125_exact_partial",
    "Verif.C125_lost",
    "Verif.C125_main_wrong",
    "Verif.C125_posit_dot"
   ],
   "note": "Exactness is proved where every product and partial sum is a posit (C125_exact_partial), and the result 2 for Posit::dot (C125_posit_dot). For the vectors of the program the dot product of Eigen is zero in every format (C125_main_wrong), and in general any number of products can be lost (C125_lost). Eigen is not part of the repository and modelled after its documentation."
  },
  {
   "property": "C126",
   "status": "partial",
   "theorems": [
    "Verif.C126_mul",
    "Verif.C126_div",
    "Verif.C126_inv",
    "Verif.C126_fma",
    "Verif.C126_mulAddMul",
    "Verif.C126_mulSubMul",
    "Verif.C126_dot",
    "Verif.C126_mul_error",
    "Verif.C126_one_wrong",
    "Verif.C126_inv_wrong"
   ],
   "note": "Everything except the last sentence, which is false for fraction types of at most one bit more than the longest fraction (C126_one_wrong, C126_inv_wrong)."
  },
  {
   "property": "C127",
   "status": "partial",
   "theorems": [
    "Verif.C127_extramul",
    "Verif.C127_extradiv",
    "Verif.C127_mul",
    "Verif.C127_div",
    "Verif.C127_inv",
    "Verif.C127_fma",
    "Verif.C127_dot",
    "Verif.C127_pow_partial",
    "Verif.C127_mul_wrong",
    "Verif.C127_div_wrong",
    "Verif.C127_error",
    "Verif.C127_one_wrong",
    "Verif.C127_unpacked_special",
    "Verif.C127_special"
   ],
   "note": "Everything except the last sentence, which is false for products whose factors are not both powers of two (C127_mul_wrong), for quotients that are posits but not powers of two (C127_div_wrong), and even for products with one (C127_one_wrong); it is proved for powers of two (C127_pow_partial)."
  },
  {
   "property": "C128",
   "status": "partial",
   "theorems": [
    "Verif.C128_exact",
    "Verif.C128_error",
    "Verif.C128_toInt",
    "Verif.C128_ofInt",
    "Verif.C128_ofFloat",
    "Verif.C128_toFloat",
    "Verif.C128_convert",
    "Verif.C128_roundtrip_wrong",
    "Verif.C128_toFloat_wrong"
   ],
   "note": "Everything except the last sentence, which is false for every fraction type narrower than the longest fraction (C128_roundtrip_wrong, C128_toFloat_wrong)."
  },
  {
   "property": "C129",
   "status": "partial",
   "theorems": [
    "Verif.C129_via",
    "Verif.C129_float",
    "Verif.C129_exact",
    "Verif.C129_same",
    "Verif.C129_roundtrip",
    "Verif.C129_zero_wrong",
    "Verif.C129_lost_wrong"
   ],
   "note": "Everything except the last sentence, which is false whenever the range or the fraction of the float type is too small (C129_zero_wrong, C129_lost_wrong). Asked of the exponent types: eb < E, 2^(eb-1)+fb <= 2^(E-1) for the target and maxScale+2^(eb-1) <= 2^(EX-1) for the source."
  },
  {
   "property": "C130",
   "status": "partial",
   "theorems": [
    "Verif.C130_row",
    "Verif.C130_special",
    "Verif.C130_exponent",
    "Verif.C130_exponent_wrong",
    "Verif.C130_value",
    "Verif.C130_unsigned",
    "Verif.C130_shown",
    "Verif.C130_half_wrong",
    "Verif.C130_twice_wrong",
    "Verif.C130_ends_partial",
    "Verif.C130_ends_wrong"
   ],
   "note": "The rows are as stated except that column o is signed for holders wider than 8 bits (C130_unsigned) and column e wraps when the exponents do not fit (C130_exponent_wrong; C130_exponent where they do). The overview is wrong: C130_half_wrong, C130_twice_wrong, C130_ends_wrong; C130_ends_partial holds without exponent bits."
  },
  {
   "property": "C131",
   "status": "partial",
   "theorems": [
    "Verif.Pnum.C131_sqrt_partial",
    "Verif.Pnum.C131_sqrt_wrong",
    "Verif.Pnum.C131_sqrt_negative",
    "Verif.Pnum.C131_exact_wrong",
    "Verif.Pnum.C131_exp_inf",
    "Verif.Pnum.C131_exp_fails_wrong",
    "Verif.Pnum.C131_exp_wrong"
   ],
   "note": "Square roots of intervals contain the roots of all rational members whose root is rational (of all real members: C133_sqrt_partial), if the computed roots lie on the right side of every point (C131_sqrt_partial); otherwise members can be lost (C131_sqrt_wrong). Exact numbers fail (C131_exact_wrong), exponentials of intervals fail or are wrong (C131_exp_fails_wrong, C131_exp_wrong); only the exponential of infinity and the roots of negative numbers are as stated (C131_exp_inf, C131_sqrt_negative)."
  },
  {
   "property": "C132",
   "status": "partial",
   "theorems": [
    "Verif.Pnum.C132_bound",
    "Verif.Pnum.C132_all_wrong",
    "Verif.Pnum.C132_num",
    "Verif.Pnum.C132_same",
    "Verif.Pnum.C132_text_wrong"
   ],
   "note": "Everything except that no bound shows as [all] (C132_all_wrong) and that the two intervals next to 1, and the two next to -1, have the same text (C132_text_wrong; C132_same: these are the only ones)."
  },
  {
   "property": "C133",
   "status": "partial",
   "theorems": [
    "Verif.Pnum.C133_partition",
    "Verif.Pnum.C133_neg_inv",
    "Verif.Pnum.C133_plus_partial",
    "Verif.Pnum.C133_sub_partial",
    "Verif.Pnum.C133_times_partial",
    "Verif.Pnum.C133_complement_partial",
    "Verif.Pnum.C133_invert_partial",
    "Verif.Pnum.C133_sqrt_partial",
    "Verif.Pnum.C133_sqrt_negative"
   ],
   "note": "Partition, negation and reciprocal for all patterns (C133_partition, C133_neg_inv). Sums, differences and products except for the operands for which C73 shows the script wrong (opposite infinite intervals; products of different signs with an interval), complements except of bounds that are everything, reciprocals of bounds that are not empty, and square roots of intervals if the computed roots lie on the right side of every point (see C131)."
  },
  {
   "property": "C134",
   "status": "partial",
   "theorems": [
    "Verif.C134_mul",
    "Verif.C134_div",
    "Verif.C134_add",
    "Verif.C134_sub",
    "Verif.C134_sub_top",
    "Verif.C134_inv",
    "Verif.C134_fma",
    "Verif.C134_mulAddMul",
    "Verif.C134_mulSubMul",
    "Verif.C134_dot",
    "Verif.C134_wide",
    "Verif.C134_nan_wrong"
   ],
   "note": "Everything except the last sentence: C134_mul, C134_div, C134_add, C134_sub, C134_sub_top, C134_inv, C134_fma, C134_mulAddMul, C134_mulSubMul, C134_dot. With a fraction type narrower than the longest fraction the operand given back loses bits (C134_nan_wrong)."
  },
  {
   "property": "C135",
   "status": "proved",
   "theorems": [
    "Verif.C135_exists",
    "Verif.C135_exact",
    "Verif.C135_mid",
    "Verif.C135_trunc",
    "Verif.C135_faithful",
    "Verif.C135_mul",
    "Verif.C135_div",
    "Verif.C135_ofInt",
    "Verif.C135_ofFloat",
    "Verif.C135_convert",
    "Verif.C135_add",
    "Verif.C135_sub",
    "Verif.C135_inv",
    "Verif.C135_fma",
    "Verif.C135_half_twice",
    "Verif.C135_mul_wrong"
   ],
   "note": "Existence and uniqueness C135_exists, posits kept C135_exact, separating numbers C135_mid; C135_mul, C135_div, C135_ofInt, C135_ofFloat, C135_convert, C135_add, C135_sub; C135_mul_wrong: the results do differ in every format with two fraction bits at 1. Further: C135_inv, C135_half_twice, C135_fma."
  },
  {
   "property": "C136",
   "status": "proved",
   "theorems": [
    "Verif.C136_nearest",
    "Verif.C136_sum",
    "Verif.C136_empty",
    "Verif.C136_library",
    "Verif.C136_library_wrong",
    "Verif.C136_half"
   ],
   "note": "C136_nearest, C136_sum, C136_empty, C136_library, C136_half. The sum of the library can be another posit than the entry found: C136_library_wrong."
  },
  {
   "property": "C137",
   "status": "partial",
   "theorems": [
    "Verif.C137_add",
    "Verif.C137_sub",
    "Verif.C137_narrow_wrong",
    "Verif.C137_same_sign",
    "Verif.C137_same_sign_wrong",
    "Verif.C137_fma",
    "Verif.C137_mulAddMul",
    "Verif.C137_mulSubMul_partial"
   ],
   "note": "C137_add, C137_sub, C137_fma, C137_mulAddMul; the distance to the standard C135_add, C135_sub, C135_fma. Differences of two products only for a second product that is not zero (C137_mulSubMul_partial); for zero the code subtracts 1 (C65_mulSubMul_wrong). The condition on the fraction type is needed: C137_narrow_wrong; for operands of the same sign C137_same_sign and C137_same_sign_wrong."
  },
  {
   "property": "C138",
   "status": "partial",
   "theorems": [
    "Verif.C138_ends",
    "Verif.C138_min",
    "Verif.C138_afterone",
    "Verif.C138_signbit",
    "Verif.C138_exponents",
    "Verif.C138_single",
    "Verif.C138_same",
    "Verif.C138_quad_wrong",
    "Verif.C138_printed",
    "Verif.C138_printed_wrong"
   ],
   "note": "Everything except the last sentence, which is false (C138_quad_wrong), and that the constants of formats of more than 64 bits are printed, which they are not (C138_printed, C138_printed_wrong)."
  },
  {
   "property": "C139",
   "status": "proved",
   "theorems": [
    "Verif.C139_sum",
    "Verif.C139_diff_any",
    "Verif.C139_diff",
    "Verif.C139_script"
   ],
   "note": ""
  },
  {
   "property": "C140",
   "status": "proved",
   "theorems": [
    "Verif.C140_literal",
    "Verif.C140_traits",
    "Verif.C140_x87",
    "Verif.C140_quad",
    "Verif.C140_output"
   ],
   "note": ""
  },
  {
   "property": "C141",
   "status": "proved",
   "theorems": [
    "Verif.C141_add",
    "Verif.C141_fma",
    "Verif.C141_max",
    "Verif.C141_sub",
    "Verif.C141_many"
   ],
   "note": ""
  }
 ]
}