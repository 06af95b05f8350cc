{"id": "C01", "title": "Decoding a posit gives the value the posit format assigns to its bits", "statement": "For every stored pattern that is not zero/NaN/infinity, unpack() returns a Regular number whose sign, exponent and fraction denote exactly the real number that the posit format (sign, regime run, es exponent bits padded with zeros, fraction) assigns to that bit string; zero, NaN and infinity patterns are reported as such.", "quantifier": "all N-bit patterns of every instantiation Posit<T,N,es,FT,spec> that the static_asserts accept (T = int8..int64, 3<=N<=bits(T), 0<=es<=N-3, FT = uint8..uint64, three specs) whose fraction type holds the N-3-es fraction bits", "why_tests_cant": "A test can only enumerate one small instantiation; the claim ranges over all widths, exponent sizes and 2^N patterns, including 64-bit posits.", "anchors": ["include/posit.h: Posit::unpack, unpack_low, unpacked_low2full, PositTrait::decode_posit_rs, join_reg_exp"]}
{"id": "C02", "title": "Unpack followed by repack is the identity on bits", "statement": "Posit(p.unpack()) has the same stored bits as p, for regular values, zero, NaN and the infinities.", "quantifier": "all canonical patterns of every instantiation Posit<T,N,es,FT,spec> that the static_asserts accept (T = int8..int64, 3<=N<=bits(T), 0<=es<=N-3, FT = uint8..uint64, three specs)", "why_tests_cant": "2^32 or 2^64 patterns times all template arguments cannot be enumerated, and the shift amounts used only go wrong at the extremes of the range.", "anchors": ["include/posit.h: pack_posit, unpack_posit, pack_low, unpack_low, unpacked_full2low, unpacked_low2full"]}
{"id": "C03", "title": "Packing rounds toward zero and saturates", "statement": "Constructing a posit from any nonzero finite unpacked number returns the posit of the same sign with the largest magnitude not above the number's magnitude; if the number is smaller than the least positive posit the least one is returned, if larger than the greatest finite posit the greatest is returned. It never returns zero, NaN or infinity.", "quantifier": "all unpacked (sign, exponent, fraction) triples, all template arguments", "why_tests_cant": "The input space (exponent x 2^64 fractions) is far beyond enumeration and the property is about optimality among all posits.", "anchors": ["include/posit.h: pack_posit, unpacked_full2low, pack_low", "include/unpacked.h: clamp"]}
{"id": "C04", "title": "The comparison operators order posits by real value", "statement": "For two posits that are real numbers, a<b, a<=b, a>b, a>=b, a==b, a!=b hold exactly when the same relation holds between the represented real numbers.", "quantifier": "all pairs of real-valued patterns, all template arguments", "why_tests_cant": "Strict monotonicity of the encoding over all pairs and all widths is a universally quantified order statement.", "anchors": ["include/posit.h: operator==, operator!=, operator<, operator<=, operator>, operator>="]}
{"id": "C05", "title": "NaN is unordered", "statement": "If the format has NaN, every comparison ==,<,<=,>,>= with a NaN operand is false and != is true; without NaN the comparison is a total order on patterns.", "quantifier": "all pairs with at least one NaN operand; all pairs when spec is WithInf", "why_tests_cant": "Requires all partner values.", "anchors": ["include/posit.h: operator==..operator>=, isNaN"]}
{"id": "C06", "title": "Negation negates", "statement": "-p represents the negated real number, -(-p) has the same bits as p, -0 = 0, and -NaN is NaN.", "quantifier": "all canonical patterns, all template arguments", "why_tests_cant": "Depends on holder width versus N and on integer promotion/overflow rules that a test on one type does not see.", "anchors": ["include/posit.h: Posit::neg, operator-"]}
{"id": "C07", "title": "abs is the absolute value", "statement": "p.abs() and std::abs(p) represent |p|, are never negative for real p, and leave NaN a NaN.", "quantifier": "all canonical patterns, all template arguments", "why_tests_cant": "Same as negation.", "anchors": ["include/posit.h: Posit::abs, std::abs", "include/bithippop.hpp: pcabs"]}
{"id": "C08", "title": "Multiplication is the exact product rounded toward zero", "statement": "a*b for nonzero reals a,b is the exact product rounded toward zero to the posit grid (saturating at the least/greatest magnitudes), for a fraction type wide enough for the operands.", "quantifier": "all pairs of nonzero real patterns, all template arguments with N-1-es <= bits(FT)", "why_tests_cant": "Correct rounding over all operand pairs and widths is beyond enumeration; intermediate truncation could double-round.", "anchors": ["include/posit.h: operator*", "include/unpacked.h: Unpacked operator*", "include/typehelpers.hpp: nextintop::extramul"]}
{"id": "C09", "title": "Division is the exact quotient rounded toward zero", "statement": "a/b for nonzero reals a,b is the exact quotient rounded toward zero to the posit grid with saturation.", "quantifier": "all pairs of nonzero real patterns, all template arguments with N-1-es <= bits(FT)", "why_tests_cant": "Same as multiplication.", "anchors": ["include/posit.h: operator/", "include/unpacked.h: Unpacked operator/", "include/typehelpers.hpp: nextintop::extradiv"]}
{"id": "C10", "title": "Addition is faithful and exact when it can be", "statement": "a+b for reals a,b is one of the two posits enclosing the exact sum (saturating at the ends); for operands of equal sign it is the sum rounded toward zero; if the exact sum is a posit it is returned exactly.", "quantifier": "all pairs of real patterns whose alignment shift stays below the width of the fraction arithmetic, all template arguments", "why_tests_cant": "Universal rounding statement over all pairs.", "anchors": ["include/posit.h: operator+", "include/unpacked.h: Unpacked operator+, normalized"]}
{"id": "C11", "title": "Subtraction: x-x is zero and differences are faithful", "statement": "x-x is zero for every real x; a-b is faithful in the sense of C10; a-b is zero only if a equals b.", "quantifier": "all pairs of real patterns", "why_tests_cant": "Universal statement over pairs and widths.", "anchors": ["include/posit.h: operator-", "include/unpacked.h: Unpacked operator+"]}
{"id": "C12", "title": "Addition and multiplication commute", "statement": "a+b and b+a have identical bits, a*b and b*a have identical bits.", "quantifier": "all pairs of canonical patterns including the special ones, all template arguments", "why_tests_cant": "Bit-identity over all pairs; special-value cases are asymmetric in code.", "anchors": ["include/unpacked.h: Unpacked operator+, operator*"]}
{"id": "C13", "title": "Neutral and absorbing elements", "statement": "x+0 = 0+x = x, x*1 = 1*x = x, x/1 = x, x*0 = 0*x = 0 for real x, 0/x = 0 for real nonzero x, bit for bit.", "quantifier": "all canonical real patterns, all template arguments", "why_tests_cant": "Universal over patterns and widths.", "anchors": ["include/posit.h: operator+, operator*, operator/"]}
{"id": "C14", "title": "NaN propagates", "statement": "An arithmetic operation with a NaN operand on either side returns NaN.", "quantifier": "all partner operands on either side, +,-,*,/,fma", "why_tests_cant": "Requires all partner operands.", "anchors": ["include/unpacked.h: Unpacked operator+, operator*, operator/"]}
{"id": "C15", "title": "Infinity and division by zero follow the extended-real rules", "statement": "finite+inf = inf, finite/inf = 0, nonzero/0 = inf (NaN when the format has no infinity), 0/0 and inf/inf and inf-inf are NaN-like, nonzero*inf = inf.", "quantifier": "all finite operands, the specs with infinity", "why_tests_cant": "Requires all finite partners.", "anchors": ["include/unpacked.h: Unpacked operator+, operator*, operator/"]}
{"id": "C16", "title": "Reciprocal", "statement": "inv(x) is 1/x rounded toward zero for nonzero real x; it agrees with one()/x; inverting twice returns a power of two unchanged; inv(0) agrees with 1/0.", "quantifier": "all nonzero real patterns, all template arguments", "why_tests_cant": "Universal over patterns.", "anchors": ["include/posit.h: Posit::inv", "include/unpacked.h: Unpacked::inv"]}
{"id": "C17", "title": "next and prev step through adjacent values", "statement": "next() returns the least representable value above x and prev() the greatest below x; prev(next(x)) = x; stepping from the least to the greatest finite value visits all.", "quantifier": "all real patterns, all template arguments", "why_tests_cant": "Adjacency is a statement about all other posits.", "anchors": ["include/posit.h: Posit::next, Posit::prev"]}
{"id": "C18", "title": "half and twice scale by two", "statement": "half() is x/2 and twice() is 2x, exactly whenever the result is representable and rounded toward zero with saturation otherwise.", "quantifier": "all canonical patterns, all template arguments", "why_tests_cant": "Universal over patterns.", "anchors": ["include/posit.h: Posit::half, Posit::twice"]}
{"id": "C19", "title": "Named constants have their named values", "statement": "zero(), one(), mone(), two(), onehalf() represent 0, 1, -1, 2, 1/2; max(), min(), lowest() are the greatest, least positive and least finite values.", "quantifier": "all template arguments", "why_tests_cant": "The constants are template expressions; tests see finitely many instantiations.", "anchors": ["include/posit.h: PositTrait constants, Posit::zero/one/mone/two/onehalf/max/min/lowest"]}
{"id": "C20", "title": "Conversion from int rounds toward zero", "statement": "Posit(i) is the integer i rounded toward zero to the posit grid with saturation; 0 maps to zero; integers that are posits convert exactly.", "quantifier": "all 2^32 int values, all template arguments", "why_tests_cant": "2^32 inputs for each of many instantiations.", "anchors": ["include/posit.h: Posit(int)", "include/unpacked.h: unpack_int, unpack_xfixed"]}
{"id": "C21", "title": "Conversion to int truncates and saturates", "statement": "(int)p is the represented number truncated toward zero, saturated to the int range; NaN and infinity give 0.", "quantifier": "all patterns, all template arguments", "why_tests_cant": "Universal over patterns and widths; out-of-range shifts are undefined behaviour which tests cannot rule out.", "anchors": ["include/unpacked.h: pack_xfixed, operator int"]}
{"id": "C22", "title": "Conversion from float/double rounds toward zero", "statement": "Posit(f) for a finite nonzero float or double f is f rounded toward zero to the posit grid with saturation; both signed zeros give 0; NaN gives NaN and infinities give infinity (or the format's only special value).", "quantifier": "all 2^32 / 2^64 float bit patterns, all template arguments", "why_tests_cant": "Input space.", "anchors": ["include/unpacked.h: unpack_xfloati, unpack_float, unpack_double", "include/floattraits.hpp: single_trait, double_trait, half_trait"]}
{"id": "C23", "title": "Conversion to float/double is exact when the value fits", "statement": "(float)p / (double)p equals the represented number whenever its exponent is in the normal range and its fraction fits; Posit((double)p) then gives back p.", "quantifier": "all patterns, all template arguments whose range fits the target's normal range", "why_tests_cant": "Input space.", "anchors": ["include/unpacked.h: pack_xfloati", "include/posit.h: operator float, operator double"]}
{"id": "C24", "title": "No undefined behaviour on valid operands", "statement": "Decoding, packing, +,-,*,/ on canonical posits execute no out-of-range shift, signed overflow, or count-leading-zeros of zero.", "quantifier": "all canonical operand patterns, all template arguments", "why_tests_cant": "UB is invisible to ordinary tests and depends on extreme operands.", "anchors": ["include/posit.h: pack_low, unpack_low", "include/unpacked.h: Unpacked operator+, normalized"]}
{"id": "C25", "title": "Unit-range helpers", "statement": "isUnitRange() holds exactly for 0<=x<=1; urOneMinus() is 1-x for x in the unit range; urDeltaPs() is x(1-x) rounded toward zero.", "quantifier": "all patterns, all template arguments", "why_tests_cant": "Universal over patterns.", "anchors": ["include/posit.h: isUnitRange, urOneMinus, urDeltaPs"]}
{"id": "C26", "title": "pseudosigmoid is a monotone map into [0,1] with sigmoid(0)=1/2", "statement": "For es=0 pseudosigmoid() maps every real posit into the unit range, is monotone, and maps 0 to 1/2.", "quantifier": "all real patterns, es=0, all holder widths", "why_tests_cant": "Universal over patterns; integer promotion rules differ by type.", "anchors": ["include/posit.h: pseudosigmoid, pseudosoftplus"]}
{"id": "C27", "title": "sqrt returns the square root", "statement": "std::sqrt(x)^2 does not exceed x and the next posit's square does, for x >= 0.", "quantifier": "all non-negative patterns", "why_tests_cant": "Universal over patterns.", "anchors": ["include/posit.h: std::sqrt"]}
{"id": "C28", "title": "min and max select by value", "statement": "std::min(a,b) / std::max(a,b) return one of the operands, and it is the smaller / greater one in real value.", "quantifier": "all pairs of real patterns", "why_tests_cant": "Universal over pairs.", "anchors": ["include/posit.h: std::min, std::max"]}
{"id": "C29", "title": "dot product", "statement": "dot over zero elements is zero; over one element it is the product a0*b0; a sum of products of equal sign is never above the exact dot product in magnitude, and dot with one rounding at the end is exact when every partial sum is representable in the fraction type.", "quantifier": "all vectors of any length", "why_tests_cant": "Unbounded vector length and all operands.", "anchors": ["include/posit.h: Posit::dot"]}
{"id": "C30", "title": "fma rounds once", "statement": "fma(a,b,c) is a faithful rounding of the exact a*b+c when the fraction type holds the full product; fma(a,b,0) = a*b.", "quantifier": "all triples of real patterns", "why_tests_cant": "Triples of patterns.", "anchors": ["include/posit.h: fma"]}
{"id": "C31", "title": "Unpacked equality and inequality are complementary", "statement": "For unpacked numbers u != v is the negation of u == v, and NaN is unequal to everything.", "quantifier": "all pairs of unpacked numbers", "why_tests_cant": "Universal over pairs.", "anchors": ["include/unpacked.h: Unpacked::operator==, operator!="]}
{"id": "C32", "title": "Unpacked negation and subtraction", "statement": "-u denotes the negated value for every unpacked u (zero stays zero, infinity becomes the opposite infinity, NaN stays NaN), and u-v denotes the difference.", "quantifier": "all unpacked numbers", "why_tests_cant": "Universal.", "anchors": ["include/unpacked.h: Unpacked::operator-"]}
{"id": "C33", "title": "Float to Unpacked to float is the identity", "statement": "Converting a float/double/half bit pattern to Unpacked and back returns the same bits for normal and subnormal numbers, infinities and +0, when the fraction type holds the fraction.", "quantifier": "all bit patterns of each IEEE format, all fraction types at least as wide as the fraction", "why_tests_cant": "Input space 2^32/2^64.", "anchors": ["include/unpacked.h: unpack_xfloati, pack_xfloati, fraction_bit_extract"]}
{"id": "C34", "title": "Leading-zero counts are right", "statement": "findbitleftmostC (8/16/32/64 bit) and the table-based count_leading_zeroes return the number of leading zero bits of any nonzero argument.", "quantifier": "all nonzero arguments of each width", "why_tests_cant": "2^64 arguments.", "anchors": ["include/bithippop.hpp: findbitleftmostC, __builtin_clz64", "include/floatconst2bits.hpp: count_leading_zeroes"]}
{"id": "C35", "title": "Bit-field extract and insert are inverse", "statement": "Reading a field after inserting a value into it returns that value, and inserting leaves all other bits alone.", "quantifier": "all words, values, offsets and sizes that fit", "why_tests_cant": "Universal over words and fields.", "anchors": ["include/bithippop.hpp: bitset_get, bitset_part, bitmask"]}
{"id": "C36", "title": "Branch-free absolute value", "statement": "pabs(x) equals pcabs(x) equals |x| for every x except the most negative one.", "quantifier": "all values of int8..int64", "why_tests_cant": "2^64 arguments.", "anchors": ["include/bithippop.hpp: pabs, pcabs"]}
{"id": "C37", "title": "128-bit fallback arithmetic", "statement": "The two-word unsigned128 +, -, <<, >>, < agree with arithmetic modulo 2^128 / the order of 128-bit numbers.", "quantifier": "all 2^256 operand pairs, all shift counts below 128", "why_tests_cant": "Input space.", "anchors": ["include/typehelpers.hpp: struct unsigned128"]}
{"id": "C38", "title": "posit8 lookup tables agree with exact arithmetic", "statement": "The posit8 +,*,/,inv,half tables hold the exact result rounded toward zero for every operand pair, and NaN for NaN operands and division by zero.", "quantifier": "all 65536 operand pairs and all 256 operands", "why_tests_cant": "Nothing ties the committed table to the format; the library's own tests compare only a few entries.", "anchors": ["src/posit8_tbl.cpp", "include/posit8.hpp"]}
{"id": "C39", "title": "posit8/posit10/posit12 constants and predicates mean what they say", "statement": "two() is 2, onehalf() is 1/2, one() is 1, is_infinity()/is_nan()/has_neg_exponent() agree with the represented value, and the comparisons treat NaN as unordered.", "quantifier": "all 2^8/2^10/2^12 patterns", "why_tests_cant": "The constants are literals independent of the configured es.", "anchors": ["include/posit8.hpp: class posit8", "include/posit10.hpp: class posit10", "include/posit12.hpp: class posit12"]}
{"id": "C40", "title": "numeric_limits", "statement": "epsilon() is the distance from 1 to the next posit, min() is the least positive value, max()/lowest() bound all finite values, min_exponent/max_exponent are the exponents of min()/max().", "quantifier": "all template arguments", "why_tests_cant": "Infinitely many instantiations.", "anchors": ["include/posit.h: std::numeric_limits<Posit>"]}
{"id": "C41", "title": "Conversions are monotone", "statement": "If x <= y (as unpacked numbers, ints or floats) then Posit(x) <= Posit(y).", "quantifier": "all pairs of finite inputs", "why_tests_cant": "Pairs of 64-bit inputs.", "anchors": ["include/posit.h: pack_posit, Posit(int), Posit(float), Posit(double)"]}
{"id": "C42", "title": "Multiplication is monotone", "statement": "If a <= b and c > 0 then a*c <= b*c; division by a positive number is monotone likewise.", "quantifier": "all triples of real patterns", "why_tests_cant": "Triples.", "anchors": ["include/posit.h: operator*, operator/"]}
{"id": "C43", "title": "Sign symmetry of arithmetic", "statement": "(-a)*b = -(a*b) = a*(-b), (-a)+(-b) = -(a+b), (-a)/b = -(a/b), bit for bit, for reals.", "quantifier": "all pairs of real patterns", "why_tests_cant": "Universal over pairs and widths.", "anchors": ["include/posit.h: operator+, operator*, operator/, neg"]}
{"id": "C44", "title": "Closure: results are canonical and finite", "statement": "+,-,* of reals, and / by a nonzero real, return a sign-extended N-bit pattern that is a real number (never NaN or infinity, zero only when the exact result is zero).", "quantifier": "all pairs of real patterns", "why_tests_cant": "Universal over pairs and widths.", "anchors": ["include/posit.h: pack_low, operator+, operator*, operator/"]}
{"id": "C45", "title": "FLOORDIV is floor division", "statement": "FLOORDIV(a,b) is the floor of a/b for b > 0.", "quantifier": "all a, all b > 0", "why_tests_cant": "Input space.", "anchors": ["include/unpacked.h: FLOORDIV"]}
{"id": "C46", "title": "Regime/exponent split and join are inverse", "statement": "Splitting a scale into regime and exponent bits and joining gives the scale back; the exponent part is in [0,2^es).", "quantifier": "all scales, all es", "why_tests_cant": "Universal.", "anchors": ["include/posit.h: split_reg_exp, join_reg_exp"]}
{"id": "C47", "title": "binary8 sign and order", "statement": "Negating a binary8 number flips its sign; < orders binary8 numbers by value.", "quantifier": "all 256 patterns", "why_tests_cant": "The class compares and negates its stored integer.", "anchors": ["include/binary8.hpp: class binary8tab"]}
{"id": "C48", "title": "Widening a posit is exact", "statement": "Converting a real posit to a posit with more bits, same es, via unpack() preserves the value.", "quantifier": "all patterns, all pairs of instantiations with N <= N'", "why_tests_cant": "Pairs of template arguments times 2^N.", "anchors": ["include/posit.h: Posit(UnpackedT), unpack"]}
{"id": "C49", "title": "Sum and difference of products with deferred rounding", "statement": "With POSITMUL, a*b + c*d rounds the exact sum of the unpacked products once, and a*b - c*d likewise.", "quantifier": "all quadruples", "why_tests_cant": "Quadruples.", "anchors": ["include/posit.h: PositMul::operator+, PositMul::operator-"]}
{"id": "C50", "title": "analyze() reports consistent field sizes", "statement": "The reported regime, exponent and fraction sizes plus the sign bit add up to N, and the reported exponent equals that of unpack().", "quantifier": "all real patterns, all template arguments", "why_tests_cant": "Universal.", "anchors": ["include/posit.h: Posit::analyze"]}
{"id": "C51", "title": "Float trait constants mean what they are named", "statement": "For any_floattrait<eb,fb,...> the min, max, lowest, infinity, NaN and one patterns denote exactly those IEEE numbers, and half/single/double traits have the IEEE field sizes.", "quantifier": "all exponent and fraction field sizes", "why_tests_cant": "Universal over template arguments.", "anchors": ["include/floattraits.hpp: any_floattrait, half_trait, single_trait, double_trait"]}
{"id": "C52", "title": "posit12 lookup tables agree with exact arithmetic", "statement": "The posit12 tables of reciprocals, squares, powers of two and floats hold the exact result rounded toward zero, NaN for NaN.", "quantifier": "all 4096 patterns", "why_tests_cant": "Nothing ties the committed table to the format; the generator may round or overflow differently from the format.", "anchors": ["src/posit12_tbl.cpp", "include/posit12.hpp: class posit12"]}
{"id": "C53", "title": "pseudosoftplus approximates softplus", "statement": "pseudosoftplus() is monotone and nonnegative on all reals and approximates ln(1+e^x) (for es=0).", "quantifier": "all real patterns, all template arguments", "why_tests_cant": "No test calls it; what the bit trick computes depends on promotion, padding and es.", "anchors": ["include/posit.h: Posit::pseudosoftplus"]}
{"id": "C54", "title": "Float-backed posits compute correctly rounded posit arithmetic", "statement": "The operations of PositF (+, -, *, /, inv, half, twice, construction from int) return a neighbouring posit of the exact result for all real operands and every correctly rounding native arithmetic, agree with Posit when the native float has enough fraction bits, and propagate NaN from either side.", "quantifier": "all real patterns, all template arguments, all correctly rounding float arithmetics in any rounding mode", "why_tests_cant": "Whether double rounding through float can change the result needs a gap argument over all operand pairs and rounding modes.", "anchors": ["include/positf.h: PositF operators, half, twice, inv, PositF(int)"]}
{"id": "C55", "title": "posit10 and posit12 operations", "statement": "posit10 (tables computed by its generator with native floats) and posit12 compute +, -, *, /, half, twice, square, inv, negation, absolute value and construction from numbers with a neighbouring posit (truncation for *, /, half, twice, square, inv), zero only when exact, and propagate NaN.", "quantifier": "all patterns of the 10- and 12-bit formats, all correctly rounding float arithmetics", "why_tests_cant": "The posit10 tables have a million entries per operation and are not in the repository; tests sample a few.", "anchors": ["include/posit10.hpp: posit10 operators", "include/posit12.hpp: posit12 operators", "src/posit10_gen.cpp", "src/posit10.cpp", "src/posit12.cpp"]}
{"id": "C56", "title": "Conversion between float formats", "statement": "convertfloats<Src,Dst> is defined for every pattern, keeps infinities (with sign) and NaN, and rounds numbers towards zero to a number of the destination format: exact where representable as a normal number, monotone, and with less than one unit in the last place of error; a round trip through a wider format is the identity on normal numbers.", "quantifier": "all patterns, all pairs of IEEE-like formats with up to 16 exponent bits and sources of up to 64 bits", "why_tests_cant": "Double to float alone has 2^64 inputs and the formats are template parameters.", "anchors": ["include/unpacked.h: convertfloats, unpack_xfloat, pack_xfloati"]}
{"id": "C57", "title": "anyfloat_emu emulates small floats", "statement": "anyfloat_emu computes +, -, *, /, fma, inv, half, twice by one native operation and truncation to the format; results representable as normal numbers are exact; NaN and infinities follow IEEE 754; comparisons, min, max, abs, negation, conversions from and to int, and the constants agree with the values.", "quantifier": "all patterns of all formats no wider than the native type, all correctly rounding native arithmetics in any rounding mode", "why_tests_cant": "The format is a template parameter, operand pairs of 16-bit formats are 2^32, and the native rounding mode is a run-time state.", "anchors": ["include/anyfloat.hpp: anyfloat_emu"]}
{"id": "C58", "title": "Arithmetic of the tabulated 8-bit float", "statement": "With the tables written by binary8_gen, binary8tab's +, *, /, square, half and inv are defined for every pair of patterns and give the exact result cut towards zero to the format (sums up to the rounding of float); NaN and infinities follow IEEE 754; conversion to float is exact; a - b is the difference of the values.", "quantifier": "all patterns, all correctly rounding native float arithmetics in any rounding mode", "why_tests_cant": "The tables do not exist in the repository and depend on the rounding mode in force when the generator runs.", "anchors": ["src/binary8_gen.cpp: main", "include/binary8.hpp: operator+, operator*, operator-, operator/, inv, half, square, epsilon"]}
{"id": "C59", "title": "float2bits returns the bits of a float", "statement": "float2bits, which uses arithmetic only, ends and returns the bit pattern of its argument for every nonzero number, normal or subnormal, and for the infinities, and a NaN for NaN.", "quantifier": "all 2^32 float patterns, all correctly rounding native multiplications in any rounding mode", "why_tests_cant": "2^32 patterns times the rounding modes; termination of the scaling loop for subnormal arguments depends on exact multiplications.", "anchors": ["include/floatconst2bits.hpp: float2bits"]}
{"id": "C60", "title": "Half floats computed with float", "statement": "float16n32 converts from float by cutting to half precision, converts to float exactly, orders numbers by their values and adds and multiplies by one native operation; negation, absolute value and constants are those of IEEE half precision.", "quantifier": "all half and float patterns, all correctly rounding native arithmetics and conversions in any rounding mode", "why_tests_cant": "Pairs of half floats are 2^32; which conversion is compiled depends on the F16C instructions of the test machine.", "anchors": ["include/float16native32.hpp: float16nto32, float32to16n, float16n32"]}
{"id": "C61", "title": "32 posits in a vector register", "statement": "Each lane of simd_posit8_32's +, -, *, /, negation, inv, half, twice, square, exp2, predicates and conversion to float is the operation on that lane of the operands: exact results rounded toward zero, NaN for NaN, and no influence of other lanes.", "quantifier": "all registers of 32 8-bit patterns", "why_tests_cant": "Registers have 2^256 values, operand pairs 2^512; the test program is disabled in the build.", "anchors": ["include/simdposit8.hpp: simd_posit8_32", "src/simdposit8.cpp"]}
{"id": "C62", "title": "The committed tables are reproducible", "statement": "The tables opadd, opmul, opdiv, opinv, opsquare, ophalf, op2float of src/posit8_tbl.cpp and opinv, opsquare, op2float of src/posit12_tbl.cpp hold exactly what src/posit8_gen.cpp and src/posit12_gen.cpp compute, whatever the native rounding mode; the generators run without undefined behaviour.", "quantifier": "all indices, all correctly rounding native float arithmetics in any rounding mode", "why_tests_cant": "A rerun checks one machine in one rounding mode; the committed tables are never compared with the generators.", "anchors": ["src/posit8_gen.cpp: main", "src/posit12_gen.cpp: main", "src/posit8_tbl.cpp", "src/posit12_tbl.cpp"]}
{"id": "C63", "title": "Complete outcome of sums, fused operations and dot products", "statement": "For all real operands, a+b, a-b, fma(a,b,d), the sum and difference of two products and dot return the sum of the exact operands (products) aligned on the exponent of the greater one and cut below the last of F-1 bits, rounded once toward zero; they have undefined behaviour exactly when two exponents are max(32,F) or more apart, when F>=32 and the aligned sum is a single unit, or when packing is out of range. In a difference of products -1 takes the place of a zero second product.", "quantifier": "all instantiations (fb+2<=F for the operations with products), all real operands, all lists of fewer than 2^60 pairs", "why_tests_cant": "A test compares with an exact sum and tolerates errors; the exact outcome including every undefined case ranges over all pairs of 8- to 64-bit patterns and all lists.", "anchors": ["include/posit.h: operator+, operator-, fma, dot, PositMul", "include/unpacked.h: operator+, operator*, normalized"]}
{"id": "C64", "title": "Addition, subtraction and fma preserve order", "statement": "If a <= b then a+d <= b+d, d+a <= d+b, a-d <= b-d and d-b <= d-a; fma is monotone in the product and, when the fraction type holds the product, in the addend, all compared with the library's own comparison.", "quantifier": "all instantiations with fb+2<=F, all real operands whose results are defined; unconditionally for formats with a small range", "why_tests_cant": "Monotonicity quantifies over all triples of patterns; the sum is rounded twice (alignment and packing), which breaks monotonicity for narrow fraction types.", "anchors": ["include/posit.h: operator+, operator-, fma, operator<=", "include/unpacked.h: operator+"]}
{"id": "C65", "title": "Equal expressions have equal outcomes", "statement": "For all real operands: x+x, x*2 and twice() agree; x/2, x*0.5 and half() agree; dividing by a power of two is multiplying by its reciprocal; signs move freely in products and quotients; fma(a,b,d) is a*b+d when the product is a posit; delayed products ('+' of PositMul) give the same as fma and dot; compound assignments are the plain operations; min(a,b)+max(a,b) and min*max are a+b and a*b. Agreement includes undefined behaviour.", "quantifier": "all instantiations with fb+2<=F, all real operands", "why_tests_cant": "The two sides run through different code (shift, table-free fast path, unpack/pack, fused path); agreement on all patterns of all formats, including undefined cases, cannot be enumerated.", "anchors": ["include/posit.h: operator*, operator/, operator+, half, twice, fma, PositMul, operator+=", "include/unpacked.h"]}
{"id": "C66", "title": "Differences of close posits are exact", "statement": "If a and b are real, of equal sign and within a factor of two of each other, then a-b is a posit and operator- returns it exactly; it is undefined exactly if the difference is nonzero and outside the packable range. Already slightly above the factor two the difference need not be a posit.", "quantifier": "all instantiations with fb+3<=F (fb+4<=F from 32 bits on), all such pairs", "why_tests_cant": "The property (Sterbenz) is about every pair of neighbouring magnitudes in every format, including those where the tapered fraction changes length between the operands and the difference.", "anchors": ["include/posit.h: operator-", "include/unpacked.h: operator+"]}
{"id": "C67", "title": "Spacing and relative error", "statement": "Where a posit of exponent e has J>=0 fraction bits, the next pattern is 2^(e-J) further; *, /, + and fma are off by less than one such unit of the exact result, a relative error below 2^-J.", "quantifier": "all instantiations with the fraction type of C08-C10/C30, all real operands with defined results whose exact result has J>=0", "why_tests_cant": "The bound depends on the regime of the exact result and is quantified over all operand pairs.", "anchors": ["include/posit.h: operator*, operator/, operator+, fma, pack_posit"]}
{"id": "C68", "title": "Unpacked as a number type of its own", "statement": "For regular Unpacked numbers with arbitrary fraction bits: + is the aligned sum, * and / are cut toward zero with a relative error of a few units of 2^-F, integer sums and products that fit are exact, u-u is zero, u+u == 2*u, (2*u)/u is 2, u*u.inv() is close to 1 and u.inv().inv() is close to u.", "quantifier": "all fraction widths, exponent widths and regular operands whose result exponents fit the exponent type", "why_tests_cant": "The test suite checks 16 float values, which leave the low fraction bits clear; the failures need the last two bits.", "anchors": ["include/unpacked.h:239-281 inv", "include/unpacked.h:325-384 operator+", "include/unpacked.h:389-425 operator*", "include/unpacked.h:432-469 operator/", "tests/testunpacked.cpp"]}
{"id": "C69", "title": "Undoing multiplication and division", "statement": "x/x is one; products and quotients are zero only if an operand is; (a*b)/b and (a/b)*b never exceed a in magnitude and equal a when the first step was exact; a/(a/(a/y)) = a/y; inv(inv(inv x)) = inv x; factors and divisors at most/at least one move a positive number in the right direction; adding a nonnegative number never decreases.", "quantifier": "all instantiations with fb+2<=F and all real operands for which the operations are defined; for the undo laws the first result must not lie below the least posit", "why_tests_cant": "Relations between chained operations over all operand pairs of every format; the tests check single operations on a few 8-bit formats.", "anchors": ["include/posit.h: operator*, operator/, operator+, inv", "include/unpacked.h:239-281 inv, 325-469 operators"]}
{"id": "C70", "title": "Computing in a wider format and converting back", "statement": "Widening the operands, computing +, -, *, /, fma, the sum or difference of two products or a dot product in a wider posit format, and converting the result back gives the result of the narrow format, including which operations are undefined. Comparisons and conversions to int, float and double agree in both formats, conversions may go through the wider format, and special values are kept.", "quantifier": "all pairs of formats where the second has more bits, the same es and fraction type, and all real operands", "why_tests_cant": "Quantified over pairs of formats and all operands; truncation being composable is exactly what a double-rounding test could miss.", "anchors": ["include/posit.h: unpack, pack, converting constructor, operators", "include/unpacked.h: pack_posit, unpack_posit"]}
{"id": "C71", "title": "Exact integer arithmetic", "statement": "If a posit of exponent m has at least m fraction bits, all integers below 2^(m+1) convert exactly from int, their sums, differences, products, exact quotients, fused multiply-adds and dot products are exact whenever the result is below 2^(m+1), comparisons agree, and converting back to int, also of a rounded quotient, is C++ integer arithmetic.", "quantifier": "all instantiations, all m and all integers in range; intermediate products below 2^(F-2)", "why_tests_cant": "Integer ranges grow with the format (2^24 for 32 bits); the tests try single digits.", "anchors": ["include/posit.h: Posit(int), operator int, operators, fma, dot product", "include/unpacked.h:325-469"]}
{"id": "C72", "title": "Projective numbers: lattice and conversion", "statement": "An alphabet accepts exactly the increasing tables of 2^j points starting with 1. Its patterns partition the numbers and infinity into exact numbers and the open intervals between them, in increasing order. -p stands for the negatives and ~p for the reciprocals of what p stands for; both are involutions. next and prev are inverse. exactvalue returns the number an exact pattern stands for, and convert returns the pattern of a number.", "quantifier": "all alphabets, all patterns and all rational numbers", "why_tests_cant": "The script has no tests; the alphabets and the numbers converted are unbounded.", "anchors": ["scripts/punum.py:63-165 Alphabet", "scripts/punum.py:203-237, 341-355 Pnum"]}
{"id": "C73", "title": "Projective numbers: sums and products contain the exact results", "statement": "The bound returned by + and * contains every sum and product of members of the operands, with infinity plus infinity and zero times infinity holding everything, and no pattern that is not needed.", "quantifier": "all alphabets on whose sums and products float() is exact, all patterns and all members", "why_tests_cant": "Containment quantifies over all members of intervals.", "anchors": ["scripts/punum.py:238-340 slowtimes, slowplus"]}
{"id": "C74", "title": "Bounds of projective numbers", "statement": "empty, finite, nonzero and everything hold what their names say; complement holds exactly the other numbers; ~b holds exactly the reciprocals; iter yields every pattern of the bound once, in order.", "quantifier": "all alphabets, all bounds and all numbers", "why_tests_cant": "Sets of rational numbers cannot be enumerated.", "anchors": ["scripts/punum.py:455-539 Pbound"]}
{"id": "C75", "title": "Pairs of the generated tables of valids", "statement": "Up to order and common sign, the tables list every pair of finite exact numbers other than 0 once.", "quantifier": "all alphabets and all pairs", "why_tests_cant": "The size of the alphabet is a parameter.", "anchors": ["scripts/validsgentable.py:146-172"]}
{"id": "C76", "title": "Order and constants of the tabulated classes", "statement": "In posit8, posit10 and posit12 the six comparisons, minimum, maximum and the sign test agree with the values for every pair of patterns, NaN lying below every number; afterone() is the least number above one, epsilon() its distance from one, and ninfinity() is an infinity.", "quantifier": "all pairs of patterns of the three classes; all correct float arithmetics for the tables of posit10", "why_tests_cant": "There are 16.7 million pairs of posit12 patterns, and the tables of posit10 exist only after a build.", "anchors": ["include/posit8.hpp:80-98, 163-171", "include/posit10.hpp:72-93, 151-176", "include/posit12.hpp:65-90, 129-156"]}
{"id": "C77", "title": "Conversion of the tabulated classes to int and double", "statement": "Conversion to int drops the fraction of every number whose integer part fits an int, and is undefined for all other patterns; conversion to double is exact for every pattern.", "quantifier": "all patterns of posit8, posit10, posit12 and binary8tab", "why_tests_cant": "Undefined conversions return some number when tested.", "anchors": ["include/posit8.hpp:113-115", "include/posit10.hpp:126-128", "include/posit12.hpp:109-111", "include/binary8.hpp:113-115"]}
{"id": "C78", "title": "Comparisons and derived members of float-backed posits", "statement": "In PositF the six comparisons, std::min and std::max are those of one total order of all patterns (1000...0 first, then minus infinity, the numbers by value, plus infinity); away from NaN they agree with Posit. isinfinity() holds of the infinities only, abs is that of Posit, epsilon() is the distance from one to the next posit, and urDeltaPs() without exponent bits is x(1-x) rounded to a neighbouring posit.", "quantifier": "all formats, all pairs of patterns; all correct float arithmetics for epsilon and urDeltaPs", "why_tests_cant": "The patterns on which PositF and Posit disagree are few and the results still look like numbers.", "anchors": ["include/positf.h:69-75, 88-100, 173, 226-261"]}
{"id": "C79", "title": "digits10 of posits", "statement": "Different decimals of numeric_limits::digits10 significant digits become different posits in the same order when converted, near one.", "quantifier": "all formats, all pairs of decimals", "why_tests_cant": "digits10 is a constant that no code checks against the format.", "anchors": ["include/posit.h:936"]}
{"id": "C80", "title": "Comparison, maximum and selection of vector lanes", "statement": "In every vector wrapper class cmplt sets exactly the lanes in which the first number is less than the second (unsigned, signed or floating), max takes the greater number in every lane, and blend selects lanes by a mask.", "quantifier": "all registers and lanes of simd_u8_32, u8_16, i8_32, i8_16, u16_8, u16_16, i16_8, i16_16, u32_8, i32_4, i32_8, f_4, f_8, d_2, d_4", "why_tests_cant": "The unsigned comparisons are composed of other instructions; a pair of 32-bit lanes alone has 2^64 contents.", "anchors": ["include/simd/asimd_base.h:43-115", "include/simd/asimd_8.h:155-254, 335-448", "include/simd/asimd_16.h:26-282", "include/simd/asimd_32.h:28-196", "include/simd/asimd_f.h:25-131", "include/simd/asimd_d.h:24-141"]}
{"id": "C81", "title": "Selection of indices by a mask of lanes", "statement": "blendindex replaces the 32-bit index of element i exactly where lane i of the mask is set.", "quantifier": "all masks of whole lanes, all index registers, all elements, of every class that defines blendindex", "why_tests_cant": "An index taken from the neighbouring lane is right whenever neighbouring lanes agree.", "anchors": ["include/simd/asimd_8.h:259-322", "include/simd/asimd_16.h:194-309", "include/simd/asimd_32.h:321-335", "include/simd/asimd_f.h:77-137", "include/simd/asimd_d.h:68-76, 130-138"]}
{"id": "C82", "title": "Search for the greatest element and its index", "statement": "After any number of compare-and-blend steps every lane holds the greatest of the elements seen in it, and its index lane the index that came with the first of them.", "quantifier": "all sequences of registers and indices, all lanes", "why_tests_cant": "The number of sequences is unbounded.", "anchors": ["include/simd/asimd_base.h:281-287"]}
{"id": "C83", "title": "Loading, gathering and storing registers", "statement": "loadstrided, with or without gather instructions, puts element i*stride of an array into lane i; initincrement(x) puts i*x into lane i; arrays of registers are stored and loaded without change and add lane by lane.", "quantifier": "all memories, addresses and strides, all lanes", "why_tests_cant": "Whether the offsets of the gather instructions fit depends on the stride.", "anchors": ["include/simd/asimd_base.h:125-177, 307-317", "include/simd/asimd_32.h:69-75, 290-315"]}
{"id": "C84", "title": "Floats and doubles round to the nearest half", "statement": "The float to half and double to half conversions give the half nearest to the number, away from zero on ties, infinity from 65520 on, zero for what is below half the least subnormal; sign, infinities and NaN are kept. No shift is out of range. The conversion is monotone, and a float and a double of the same number agree.", "quantifier": "all 2^32 floats, all 2^64 doubles", "why_tests_cant": "2^64 doubles; the rounding carry across the exponent field and the shift amounts of subnormals are boundary cases.", "anchors": ["matlab/halfprecision/halfprecision.c:385-497", "matlab/halfprecision/ieeehalfprecision.c:93-264"]}
{"id": "C85", "title": "Halfs widen exactly", "statement": "The half to float and half to double conversions keep the number, the sign of zeros, infinities and NaN; the loop that normalizes subnormals ends.", "quantifier": "all 2^16 halfs", "why_tests_cant": "The property speaks about the represented numbers, not about another routine.", "anchors": ["matlab/halfprecision/halfprecision.c:501-598", "matlab/halfprecision/ieeehalfprecision.c:281-437"]}
{"id": "C86", "title": "Array conversions and round trips of halfs", "statement": "The array routines convert every element, whatever the byte order, and write nothing outside the target elements; converting halfs to floats or doubles and back restores the bits of every half that is not NaN.", "quantifier": "all arrays and lengths, both byte orders, all halfs, both sizes of long", "why_tests_cant": "The number of elements is unbounded; the outcome depends on what was in the target memory and on the platform.", "anchors": ["matlab/halfprecision/halfprecision.c:385-598", "matlab/halfprecision/ieeehalfprecision.c:93-437"]}
{"id": "C87", "title": "Float formats declared without subnormals", "statement": "A format declared without subnormals (bfloat16) is read with subnormals taken as zero and written without creating any: a number below the least normal one becomes zero, any other is rounded toward zero; a value that was written is read back.", "quantifier": "all source and destination formats with 2 to 16 exponent bits, all patterns", "why_tests_cant": "The outcome depends on a compile-time flag, the widths of both formats and the exponent; the shift by the negated exponent is undefined only for numbers far below the range.", "anchors": ["include/unpacked.h:600-630", "include/unpacked.h:686-771", "include/floattraits.hpp:45-88"]}
{"id": "C88", "title": "Complete outcome of the arithmetic on every pattern", "statement": "For any two patterns of a format, NaN and infinities included, the outcome of +, -, *, /, fma, dot and of sums and differences of delayed products is determined by the extended numbers they denote: the usual rules for infinities and NaN followed by rounding toward zero, except that a NaN second operand gives the first operand back, a nonzero number over an infinity is an infinity, subtracting NaN or the single infinity depends on the width of the integer, and a subtracted product that is zero, infinite or NaN counts as plus or minus one; shifts out of range occur exactly when two finite numbers are too far apart, cancel to a single unit, or the result is too far from one.", "quantifier": "all instantiations whose fraction type holds the fraction and two more bits, all canonical patterns, dot products of any length below 2^60", "why_tests_cant": "The special cases combine over three formats of NaN and infinities, any width and exponent size; each must be checked against every finite operand.", "anchors": ["include/posit.h:256-265", "include/posit.h:364-438", "include/unpacked.h:307-470"]}
{"id": "C89", "title": "Complete outcome of the conversions on every input", "statement": "Every pattern of a format, NaN and infinities included, has one outcome when converted to int, to a float format and to another posit format, and so has every int and every float bit pattern when converted to a posit. To int: truncation below 1 and from 2 to 2^31, undefined in [1,2), the top bit lost from 2^31 to 2^32 with undefined behaviour for -2^31, saturation above, zero for NaN and infinity. From int: rounding toward zero, undefined for INT_MIN. From a float: rounding toward zero of the number, subnormal numbers first cut to the digits the fraction type holds (undefined when one digit is left in 32 bits or more), a NaN whose payload is lost is an infinity. To a float: cut toward zero, zero below the normal range, the greatest float above it. Between posit formats: rounding toward zero, NaN and infinities by their patterns.", "quantifier": "all instantiations whose fraction type holds the fraction, all float formats whose exponents the exponent type holds, all patterns and integers", "why_tests_cant": "Each conversion has a handful of narrow ranges with their own outcome, in terms of widths that are template parameters.", "anchors": ["include/posit.h:316-331", "include/posit.h:464-475", "include/unpacked.h:560-761"]}
{"id": "C90", "title": "Complete outcome of the one-operand members on every pattern", "statement": "Every pattern of a format, NaN and infinities included, has one outcome under abs (std::abs, std::sqrt), inv, half, twice, next and prev. abs drops the sign, except that 100...0 gives itself, overflows or leaves the format depending on the integer. inv, half and twice return zero, NaN and infinities unchanged and otherwise round 1/x, x/2, 2x toward zero, except: inv of the least magnitude is an infinity in a format with two infinities; a half below every nonzero posit is zero; twice the greatest magnitude without exponent bits is an infinity or itself; and shifts out of range occur exactly for stated widths. next and prev step to the adjacent number, except at the least and greatest number and on NaN and infinities.", "quantifier": "all instantiations (for inv: whose fraction type holds the fraction and two more bits), all canonical patterns", "why_tests_cant": "The exceptions sit at one or two patterns of each format and depend on widths, exponent size and kind of NaN or infinity.", "anchors": ["include/posit.h:338", "include/posit.h:353-354", "include/posit.h:598-618", "include/posit.h:736-791", "include/posit.h:902-913"]}
{"id": "C91", "title": "pseudosigmoid is a piecewise linear sigmoid within 0.05 of the logistic function", "statement": "Without exponent bits pseudosigmoid(x) is the piecewise linear curve through (0,1/2), (2^k, 1-1/2^(k+2)) and its mirror image 1-s(-x), rounded down to a multiple of 1/2^(N-2); hence it is within 1/20+1/2^(N-2) of 1/(exp(-x)+1). This holds for nonnegative posits and for all posits that fill a 32 or 64-bit holder. For negative posits in an 8 or 16-bit holder the curve at |x| is negated, more than 1/2 away; with exponent bits the value at 0 is 1/2^(2^es). The pattern of pseudosigmoid and pseudosoftplus is given for every pattern of every format.", "quantifier": "all instantiations, all patterns (values: es = 0, all reals)", "why_tests_cant": "A real-analytic error bound over all posits of all widths; no test calls the function on negative operands of narrow holders.", "anchors": ["include/posit.h:477-482"]}
{"id": "C92", "title": "float2posit agrees with the constructor in range and does not saturate outside", "statement": "float2posit gives the same result as the converting constructor for zeros, infinities, NaN and every number from the least posit up to the first power of the regime base that the format cannot hold. Outside that range it does not saturate, because the result of its clamp is never used: above, it gives the all-ones pattern for two regimes, then a pattern that loses one bit with every further regime (so large numbers give posits below 1), then undefined behaviour; below, it gives zero, then undefined behaviour. The exact regimes are stated.", "quantifier": "all instantiations whose exponent type holds the exponents of the float format, all float formats, all bit patterns; outside the posit range: all normal numbers whose regime fits the holder", "why_tests_cant": "The header does not compile when instantiated, and its own test converts only 3.5; the errors are at the ends of the float range.", "anchors": ["include/float2posit.hpp:18-83", "include/posit.h:158-164", "include/posit.h:809-830"]}
{"id": "C93", "title": "The identities asserted by the project's tests hold in every format", "statement": "In every format with a fraction type two bits wider than the longest fraction: 1*1=1, 1-1=0, 1/1=1, 1+0=1, minexponent()<maxexponent(), Posit(1)=one(), 1+1=two(), two().half()=one(), one().twice()=two(), fma(1,1,1)=two(), Posit(2)=two(), two().inv().inv()=two(); 1/2 is exactly one half, but equals onehalf() if and only if the posit fills its holder. Every normal float whose value is a posit passes unchanged through float -> Unpacked -> posit -> Unpacked -> float, with the same Unpacked and the same bits. inv().inv() is the identity on the Unpacked powers of two, and Unpacked(1) is one().", "quantifier": "all instantiations (those with two asserted need a format that contains 2: not the three-bit one with two infinities); all float formats with a narrower exponent field than the exponent type, all float bit patterns", "why_tests_cant": "The static assertions are for one 32-bit format, the conversion test for eleven numbers of a few formats; onehalf() is wrong in exactly the formats not asserted.", "anchors": ["tests/itest_constexpr.cpp:13-26", "tests/testsposit.hpp:18-70", "tests/itest_unpackfixed.cpp:6", "include/posit.h:100-111", "include/posit.h:312-335"]}
{"id": "C94", "title": "What float and double become in posits with an 8-bit exponent type", "statement": "For posits whose exponent type has 8 bits. From float: normal numbers are truncated toward zero; subnormals from 2^-128 on become the least posit of their sign, those below become the greatest one unless the fraction type loses all their digits (then zero); infinities and NaN become the least posit of their sign. From double: the exponent counts modulo 256, so with z = y*2^(256j) in [2^-128, 2^128) the result is z truncated, except for |z| in [2,4), where the leading bit is lost and the result is 2(|z|-2) with the sign of z, cut to the fraction type and truncated (2.0 gives zero), or undefined when one unit of a fraction type of at least 32 bits is left; subnormals are multiplied by 2^1024; infinities become 1 or -1 and NaN a number of magnitude in [1,2). To float: numbers of magnitude below 2 exactly, all others become zero. To double: always exact.", "quantifier": "all instantiations with an 8-bit exponent type, all float and double bit patterns, all posit values", "why_tests_cant": "The tests use no format of fewer than eight bits in an 8-bit holder except through tables; the losses concern single binades ([2,4) of every 256) and subnormals.", "anchors": ["include/posit.h:54", "include/posit.h:312-335", "include/unpacked.h:536-608", "include/unpacked.h:686-761", "include/unpacked.h:290-305"]}
{"id": "C95", "title": "Fixed-point conversions: complete outcome and round trip", "statement": "An integer of N bits standing for i/2^q becomes exactly that number when read, its digits after the first F+1 cut off (F the bits of the fraction type); the least integer of 32 or 64 bits overflows. Written back, a number counted in units of 2^-q is truncated toward zero and taken modulo 2^N; from 2^N on it saturates; for 32 and 64 bits numbers in [1,2) shift out of range and those that truncate to the least integer overflow; zero, infinity and NaN give 0. Hence reading and writing restores every integer the fraction type holds, except +-1 (undefined) and the least integer in 32 and 64 bits. Traits wider than their integer type, which the reversed static_assert admits, are undefined for every nonzero integer.", "quantifier": "all N in {8,16,32,64}, all q up to 64, all fraction types, exponent types of at least 8 bits, all integers and all Unpacked objects", "why_tests_cant": "The test prints four conversions of two numbers; the errors are at 1, at the least integer and between 2^(N-1) and 2^N.", "anchors": ["include/unpacked.h:499-533", "include/unpacked.h:599-684", "include/fixedtraits.hpp:12-22", "include/unpacked.h:153-163", "tests/itest_unpackfixed.cpp:10-16"]}
{"id": "C96", "title": "Unit-range helpers on every posit", "statement": "urOneMinus() maps the unit range onto itself, decreasing and self-inverse, exchanging 0 and 1, in every format. It is the number 1-x exactly at 0, at 1 and, without exponent bits, in between. With exponent bits it is less than 1-x everywhere strictly inside the unit range; above one it lies strictly between -1 and 0 and is greater than 1-x; between -1 and 0 it is greater than 1-x, or infinity for the posit next to -1 in a format with two infinities; at and below -1 the pattern wraps to one below that of -1 if the format fills its holder, and leaves the format otherwise. urDeltaPs() in the unit range is x times that number rounded toward zero, zero at the ends, and with exponent bits the product is less than x(1-x).", "quantifier": "all instantiations, all real posits", "why_tests_cant": "No test calls these members; the statement is an equivalence over all patterns of all formats.", "anchors": ["include/posit.h:485-491", "include/posit.h:488"]}
{"id": "C97", "title": "Conversions preserve the order", "statement": "For every two inputs whose conversions are defined, the greater number never gets the smaller result: from int, from an IEEE float (subnormals included), from one posit format to another with the same fraction type, and from a posit to an IEEE float. In a format with two infinities the infinite floats become posits below and above all real posits. From a posit to int the order is kept for numbers whose magnitude is outside of [2^31, 2^32); inside, the result has the wrong sign, so 2^31 becomes less than 783876096.", "quantifier": "all instantiations, all pairs of inputs whose conversions are defined", "why_tests_cant": "Monotonicity is a statement about pairs of inputs; the tests compare single values, and never a conversion to int at or above 2^31.", "anchors": ["include/posit.h:328-331", "include/posit.h:472-475", "include/unpacked.h:137-175"]}
{"id": "C98", "title": "The listing tool lists every posit once", "statement": "The signed order of the listing tool prints the real posits, each one once and in increasing order of value, and ends; the infinities and NaN are left out, although the source says that all 2^totalbits values are scanned. For 32-bit posits without a positive infinity the loop counter overflows after the last row. The unsigned order prints all patterns, each one once and by the unsigned number of their bits, for up to 30 bits; with 31 bits it prints nothing or overflows, with 32 bits the shift is undefined. The additional columns are the inverse, and twice and half the posit rounded toward zero; all are defined when a bit is to spare. The overview reports the infinities and NaN of the format, except that a format without infinities is said to have two, which are NaN.", "quantifier": "all instantiations with at most 32-bit holders, all option switches", "why_tests_cant": "The tool is run by hand for one format; termination and completeness of the loops are statements about all formats, and the overflow has no visible effect in the output.", "anchors": ["src/listposits.cpp:57", "src/listposits.cpp:249-260", "src/listposits.cpp:282-289", "src/listposits.cpp:324-383"]}
{"id": "C99", "title": "Complete outcome of the emulated floats on every pattern", "statement": "For an emulated float format (anyfloat_emu) and every pattern: each operand is read as its number, except that numbers below the normal range of the native type count as +0, as does -0. Products, quotients, sums of operands other than the pattern of +0, reciprocals, doubles, halves (computed in double) and fma (two roundings) are the native IEEE result of these operands, in any rounding mode, cut down to the format: infinities and NaN are kept, numbers beyond the greatest native number become that number cut or infinity, a zero result is always +0. The comparisons, min and max compare the operands read so; NaN is unordered. Conversion to int truncates, gives 0 for infinities and NaN, saturates from 2^32 on, wraps between 2^31 and 2^32, and is undefined for 1 <= |x| < 2 and at -2^31. None of the other operations is undefined on any pattern.", "quantifier": "all exponent and fraction sizes no wider than the native type, all patterns, any IEEE native arithmetic", "why_tests_cant": "The tests multiply a few normal numbers; subnormal and special operands and all pairs of patterns of a 16- or 32-bit format are out of reach.", "anchors": ["include/anyfloat.hpp:41-61", "include/anyfloat.hpp:68-107", "include/anyfloat.hpp:128-137", "include/anyfloat.hpp:169-179"]}
{"id": "C100", "title": "Complete outcome of posits computed by native floats on every pattern", "statement": "For PositF over float or double and every pattern of the format, NaN and the infinities included: each operand is cut down toward zero to a native float (the nearest one in magnitude beyond its range, +0 below the normal range, infinity and NaN kept), the native IEEE result is formed in any rounding mode, and the result, subnormal or not, is rounded toward zero to a posit as in the conversion from that float, undefined exactly where that conversion is. This holds for products, sums of nonzero operands (a zero pattern gives the other operand back), quotients, reciprocals, doubles, halves (computed in double) and for construction from every int. A difference is the sum with the negated second operand unless that is the pattern 100...0, for which it is a + b in formats that fill an 8 or 16-bit integer, signed overflow in formats that fill a wider one, and otherwise an undefined shift, or for a = 0 a pattern outside of the format. In a format wider than its float the least positive posit therefore has the reciprocal NaN, and multiplied by one it is zero.", "quantifier": "float with 32-bit and double with 64-bit fractions, all formats whose exponent type has at least 16 bits and can hold the biased exponents, all pairs of canonical patterns, any IEEE native arithmetic", "why_tests_cant": "The tests compare PositF with Posit on a few numbers inside of the range of float; numbers out of that range, special values and all pairs of patterns of a 16- or 32-bit format are out of reach.", "anchors": ["include/positf.h:33-34", "include/positf.h:81", "include/positf.h:90", "include/positf.h:109-127", "include/positf.h:150-151"]}
{"id": "C101", "title": "With F16C instructions, half float arithmetic through float is correctly rounded", "statement": "For float16n32 compiled with F16C: every half float is converted to float exactly (sign of zero included), every float is rounded to the nearest half, ties to even, with infinity from 65520 on, and every half that is not a NaN comes back from float unchanged. The sum, difference, product and quotient of any two half floats, zeros of either sign, subnormals, infinities and NaN included, and half, square and inverse, are the exact result rounded once to nearest, ties to even: rounding to float first does no harm, in whichever rounding mode the native float arithmetic runs. The comparisons are those of the numbers. mulAdd rounds twice and is not always correct: 3 * (683/2^11) + 2^-24 gives 1 although 1 + 2^-10 is closer.", "quantifier": "all pairs of 16-bit patterns, all floats, any IEEE native arithmetic, any conversion instructions that convert as specified", "why_tests_cant": "There are 2^32 pairs of halves per operation, and the results have to be compared with exact rational arithmetic, for any native rounding mode; the tests contain no half arithmetic at all.", "anchors": ["include/float16native32.hpp:23-46", "include/float16native32.hpp:69-113"]}
{"id": "C102", "title": "Remainders of half floats are exact and square roots are the nearest half float", "statement": "For float16n32 compiled with F16C: the remainder of two finite half floats with nonzero divisor y is exactly x - n y, where n is the integer nearest to x/y (the even one if there are two); it is NaN if the divisor is zero, the dividend infinite or one operand NaN, and equals the dividend if the divisor is infinite. The square root of a half float x >= 0 is the one half float nearest to the real square root, every other one is strictly farther away, although the root is rounded to float (or to double and then to float) before it is rounded to half. The root of a negative number, of -infinity and of NaN is NaN, that of infinity is infinity.", "quantifier": "all 16-bit patterns (all pairs for the remainder), any library functions that are correct for float or double, any conversion instructions that convert as specified", "why_tests_cant": "The tests contain no half arithmetic; comparing with the real square root needs an argument that no root of a half comes too close to a number halfway between two halves, and there are 2^32 pairs for the remainder.", "anchors": ["include/float16native32.hpp:101-102", "include/float16native32.hpp:23-46"]}
{"id": "C103", "title": "512-bit registers compare, select and search lane by lane; arrays of registers behave as one long register", "statement": "For the AVX-512 classes simd_i32_16, simd_f_16 and simd_d_8: bit i of the mask given by cmplt is set exactly if lane i of the first register is less than lane i of the second, and no bit beyond the number of lanes is set; max takes the greater number of every lane; blend and blendindex take lane i of the other register exactly if bit i of the mask is set (the eight 32-bit indices of the eight doubles included). Repeating compare, blend, blendindex over any sequence leaves in every lane the greatest of the elements seen and the index of the first of them. For arrays of registers (simd_x_a) over the integer classes, max, cmplt and blend act on every element of the array, load with its default stride reads element e of memory into element e, gather adds the register's stride and the element's own offset in bytes, and initincrement(x) puts e*x (modulo the type) into element e if no int product overflows.", "quantifier": "all register contents, lanes, masks, memories, strides, array lengths and sequences; for floating point all finite lanes and any comparison that is right on finite numbers", "why_tests_cant": "There are 2^1024 pairs of registers and no test of these classes runs without AVX-512 hardware; sequences and array lengths are unbounded.", "anchors": ["include/simd/asimd_32.h:200-259", "include/simd/asimd_f.h:143-193", "include/simd/asimd_d.h:148-198", "include/simd/asimd_base.h:221-346"]}
{"id": "C104", "title": "Error bound of the dot product, and when its sign is right", "statement": "Whenever the dot product of n >= 1 pairs of real posits is defined, it is the rounding toward zero of a number that differs from the exact dot product by at most (n-1) * 2^(3-F) * sum |a_i b_i|, F being the number of bits of the fraction type; the signs of the products and the order of their magnitudes do not matter. With posits of at least J fraction bits around the exact value S and B the bound, the result is within B + (|S|+B) 2^-J of S. The result has the sign of the exact dot product whenever the latter exceeds that bound in magnitude. Below the bound the sign can be lost: with an 8-bit fraction type (33/32)^2 - 34/32 is computed as 0.", "quantifier": "all vectors of fewer than 2^60 pairs of real posits, all instantiations with at least two spare fraction bits", "why_tests_cant": "Vectors of any length with any cancellation; the bound has to be compared with exact rational sums.", "anchors": ["include/posit.h:426-438", "include/unpacked.h:325-384"]}
{"id": "C105", "title": "Numbers written to a stream can be told apart", "statement": "The text written for an unpacked number names its sign, its exponent in decimal, its fraction in hexadecimal and in binary (reading them back gives exactly these numbers), or the special it is; two texts are equal only for numbers equal in all of these. Posits written in hexadecimal mode (the integer, in decimal, or one character if it has 8 bits) and in octal mode (the decoded posit), posits computed by native floats in every mode, and posit8, posit10, posit12 and binary8tab with the same flags are written alike only if they are the same. Writing a posit leaves the base flags of the stream as they were; an unpacked number that is regular leaves the stream in decimal mode; a posit written to a stream without base flag writes nothing.", "quantifier": "all numbers, all patterns of all instantiations with room for the fraction, all base flags", "why_tests_cant": "The tests only print and nobody compares; that no two of the 2^64 patterns print alike is a statement about pairs.", "anchors": ["include/unpacked.h:472-496", "include/posit.h:566-591", "include/positf.h:208-213", "src/posit8.cpp:9-13", "include/binary8.hpp:169-173", "include/typehelpers.hpp:195-218"]}
{"id": "C106", "title": "Accumulating in a loop with += and *=", "statement": "A loop s += x over posits that are not negative, of any length, when no step is undefined, ends with a posit that is at most the exact sum, at least the start and at least every element, and zero only if all are zero; if the numbers are at least 2^lo, the exact sum is below 2^(hi+1) and posits have J fraction bits at the exponents from lo to hi, it is at least (1-2^-J)^n times the exact sum. A loop s *= x over nonzero posits never ends with zero and has the right sign; for factors of magnitude at least 1 the result is at most the exact product in magnitude, at least 1 and every factor, and at least (1-2^-J)^n times the exact product; for factors of magnitude at most 1 it is at most every factor. With mixed factors it can exceed the exact product. Adding a positive posit smaller than the distance to the next posit leaves the sum unchanged, however often it is repeated; in particular counting on by ones does not change a posit whose exponent exceeds its number of fraction bits.", "quantifier": "all lists of real posits, all starts, all instantiations with at least two spare fraction bits", "why_tests_cant": "Loops of any length over any numbers; tests add and multiply pairs.", "anchors": ["include/posit.h:391-401", "include/posit.h:808-885", "include/unpacked.h:325-425"]}
{"id": "C107", "title": "softfloat16 and softfloat32 do IEEE 754 arithmetic", "statement": "If SoftFloat implements IEEE 754 (round to nearest, ties to even), the classes softfloat16 and softfloat32 do too: + - * /, += (and *= of softfloat16), mulAdd, rem and sqrt give the exact result rounded to nearest even, with the specials of IEEE 754; half, square and inv are a/2, a*a and 1/a so rounded, half exactly (exponent field less one) from twice the least normal number on; unary minus flips sign and value of everything; == < > <= >= compare values, NaN with nothing; two, one and zero are that. Hence: relative errors of at most half a unit in the last place (sums at any size), a-b is zero only if a equals b, differences within a factor of two are exact, the operations keep the order, are commutative and symmetric in sign bit for bit, sums and products of small integers are exact; integers, float and double are converted to the nearest, widening is exact, and a number comes back from any wider type. numeric_limits<softfloat32> describes that format.", "quantifier": "all patterns of both classes, all implementations of IEEE 754", "why_tests_cant": "2^32 pairs of halves and 2^64 of singles; the test program prints two numbers. That errors are bounded and order is kept concerns pairs and triples of operands.", "anchors": ["include/softfloat.hpp:22-120", "include/softfloat.hpp:122-178", "include/softfloat.hpp:180-227", "include/floattraits.hpp:129-138"]}
{"id": "C108", "title": "The table of exp2 for half floats", "statement": "If SoftFloat implements IEEE 754 and the C function exp2 is monotone, exact for integers and accurate to 2^-22, the table that softfloat_gen writes and exp2t<softfloat16> reads has an entry for every half float: exactly 2^n for the integers from -24 to 15, infinity from 16 on, zero up to -25, monotone, with a relative error of at most half a unit in the last place and that of exp2 from -14 to below 16, and infinity, zero and NaN for infinity, -infinity and NaN.", "quantifier": "all 65536 half floats, all functions exp2 and libraries as described", "why_tests_cant": "The test program looks up one entry; that the table is monotone concerns all pairs of entries, whichever exp2 was used.", "anchors": ["src/softfloat_gen.cpp:5-25", "tests/testsoftfloat.cpp:5-16", "include/softfloat.hpp:63-78"]}
{"id": "C109", "title": "The MATLAB functions work on every element of an array and stay inside it", "statement": "p8binop, p8unop, p8Tofloat and floatTop8, called with arrays of posits (floats) and with the other arguments they ask for, return an array of the same shape in which each value is the result of the operation on the values in its place - sums and differences with no posit in between, products, quotients and reciprocals rounded toward zero, conversions exact or rounded toward zero - and never access memory outside an array; p8Tofloat followed by floatTop8 gives back the array, whatever its patterns. Calls with other arguments are rejected.", "quantifier": "all arrays of all shapes, real and complex, all operations and classes", "why_tests_cant": "Arrays have any size and contents; the accesses outside arrays need operands of which only one is complex, missing arguments, or 2^31 values.", "anchors": ["matlab/p8binop.cpp:8-85", "matlab/p8unop.cpp:8-49", "matlab/p8Tofloat.cpp:8-71", "src/floatTop8.cpp:8-56"]}
{"id": "C110", "title": "The tables of powers of two", "statement": "The entry for a number x in the exp2 table of posit8, posit10, posit12 and binary8 is the real number 2^x rounded toward zero (for binary8 zero below the normal numbers), and NaN for NaN; for binary8 also infinity for infinity and from 128 on, and zero for minus infinity. The committed tables of posit8 and posit12 are those that the generators write, whichever sufficiently accurate exp2 of the C library they were built with.", "quantifier": "all patterns of the four types, all functions exp2 as described", "why_tests_cant": "The entries are to be compared with real powers, not with the same float function that made them; which exp2 was used is not known.", "anchors": ["src/posit8_gen.cpp:37", "src/posit10_gen.cpp:38", "src/posit12_gen.cpp:36", "src/binary8_gen.cpp:38", "src/posit8_tbl.cpp", "src/posit12_tbl.cpp"]}
{"id": "C111", "title": "exp2t of posits", "statement": "exp2t of a posit x is the real number 2^x rounded toward zero to a posit (the greatest posit above the range, the least positive one below it) unless a posit lies within a relative 2^-51 of 2^x, exactly so for integers x; it does not decrease as x grows; it is NaN for NaN, infinity for infinity and zero for minus infinity.", "quantifier": "all posit formats whose numbers are normal doubles, all posits of them, all functions exp2 as described", "why_tests_cant": "The result is to be compared with a real power, over all formats; the operands from 1024 on, below -1022 and those whose results cannot be packed are met only in wide formats.", "anchors": ["include/exp2t.hpp:11", "include/posit.h:473", "include/posit.h:329"]}
{"id": "C112", "title": "The checks of the test of Unpacked hold for every float", "statement": "For every float f other than zero in a fraction type with three bits more than the float's fraction: the unpacked number is regular with the sign, the exponent frexp(f)-1 and exactly the value of f; inv() is 1/f truncated to one bit more than the fraction type; inv() twice differs from f by at most 2^(3-F)|f|; the product with the inverse is between 1-2^(3-F) and 1; 2*u/u is exactly 2 and u+u is the same object as 2*u; converted back to the float type these are f itself, 2, 2f, and within 3*2^-fb (relatively) of 1/f, f and 1. Sums and differences of two floats that are floats equal the unpacked sum and differences under ==. A sum of any number of products of integers is exact whatever the order and cancellation while products and partial sums stay below 2^(F-2).", "quantifier": "all float formats with fewer fraction bits than the fraction type minus two, all their finite nonzero numbers, all lists of integer products", "why_tests_cant": "The test has 16 values, three pairs and one sum of four products; floats are too many to enumerate and sums of products have no bound on their length.", "anchors": ["tests/testunpacked.cpp:15", "tests/testunpacked.cpp:73", "tests/testunpacked.cpp:132", "tests/testunpacked.cpp:177", "include/unpacked.h:239", "include/unpacked.h:536"]}
{"id": "C113", "title": "A float survives the conversion to a posit and back exactly if it is a posit", "statement": "For a posit format whose fraction bits fit the fraction type and the float and whose exponents are exponents of normal floats, and for every normal float f at whose magnitude packing is defined: converting f through an unpacked number to a posit gives the same posit as converting it directly; f is what it was after unpacking and packing exactly if it has at most F+1 significant bits; the posit unpacks to the same unpacked number exactly if f cut to F+1 bits is a posit; converting the posit back to the float type gives f exactly if f is a posit. These are the conditions of the tests Conversions and Special Conversion. Zeros pass; NaNs do not; infinities pass exactly in formats with two infinities, and the negative one also in formats with one. The function checkfloat reports no error exactly for the floats that survive.", "quantifier": "all well-formed formats, all float formats with at least as many fraction bits and wide enough exponents, all their values", "why_tests_cant": "The tests have eleven values and one value in one format each; double has 2^64 values.", "anchors": ["tests/testsposit.hpp:35", "tests/testposit.cpp:35", "src/main.cpp:11", "include/unpacked.h:228", "include/posit.h:302"]}
{"id": "C114", "title": "The MATLAB tables of posits describe the posits", "statement": "A binary dump of the listing tool with the columns iov loads as a table with one row per posit in the same order; its resolution column has NaN at both ends and in between half the difference of the neighbouring values, rounded twice. describetab gives the greatest and the least value that is a number, the least magnitude of the nonzero ones, and the least and greatest resolution; it fails exactly without a nonzero number or without a resolution. For the dump of all posits of a format it succeeds and gives the greatest posit, its negative and the least positive posit. limittab keeps exactly the entries whose value lies in the range, in order. toindex and fromindex on the pattern columns are inverse to each other in a table without repetitions, toindex giving the first match. toindex on the value column finds the entry with the given value. halfinrange lists every half in the range exactly once, by ascending value, equal values by pattern.", "quantifier": "all tables, all doubles, all posit formats whose numbers are normal doubles, all correctly rounding native arithmetics", "why_tests_cant": "There are no tests of the MATLAB code; tables have any length and doubles 2^64 values.", "anchors": ["matlab/loadpositdump.m:1", "matlab/dump2table.m:1", "matlab/describetab.m:1", "matlab/limittab.m:1", "matlab/toindex.m:2", "matlab/fromindex.m:2", "matlab/meandiff.m:1", "matlab/halfinrange.m:1", "src/listposits.cpp:142"]}
{"id": "C115", "title": "morton.m gives the Z-order of a square matrix", "statement": "morton(n) is the list of the 4^n column-major indices of a matrix of 2^n rows and columns in Z-order, hence a permutation.", "quantifier": "all n", "why_tests_cant": "There is no test; the comment of the function tries n = 2 only, the only size for which it works.", "anchors": ["matlab/morton.m:1"]}
{"id": "C116", "title": "PositF and Posit add alike", "statement": "The sum of two posits computed with native floats (PositF) is the sum computed by the Posit of the same format: the exact sum rounded toward zero, whenever the exact sum is a native float and the exponents are not further apart than the fraction type allows; in particular if they differ by no more than the spare bits of the native fraction. Wherever the integer sum is defined the two differ by one unit at most. The test tests/itest_positf.cpp, which compares the 255 sums with the posit 50, never prints a difference.", "quantifier": "all posit formats that fit the native type, all pairs of real posits, every correctly rounding native arithmetic (any rounding mode)", "why_tests_cant": "The test compares the sums with one posit only, in one format; the sums that differ (greatest posit minus a small one) are not among them.", "anchors": ["tests/itest_positf.cpp:11", "include/positf.h:124", "include/posit.h:396"]}
{"id": "C117", "title": "Which emulated floats survive the conversion to double and back", "statement": "In the loop of tests/itest_anyfloat.cpp over the patterns of an emulated float the double d of a pattern and the double of the emulated float of d differ exactly for NaN and for the subnormal numbers of the emulated format (unless these are subnormal doubles, which are read as zero). rawexp is the exponent field of the pattern.", "quantifier": "all emulated formats within double, all patterns", "why_tests_cant": "The test prints the differences of one format and checks nothing.", "anchors": ["tests/itest_anyfloat.cpp:39", "include/anyfloat.hpp:60", "include/anyfloat.hpp:135"]}
{"id": "C118", "title": "The regime extraction of testregime.cpp and the BMI bit fields", "statement": "extract(x) of a 32-bit word whose leading run of equal bits has length n returns the regime n-1 (ones) or -n (zeros) and the length min(n+1,32); this agrees with decode_posit_rs of every posit format with a holder of 32 bits, up to the limit on the length, for every word. bitset_gethw of a field returns its bits, with zeros beyond the word, hence what bitset_get returns wherever that is defined.", "quantifier": "all 32-bit words, all posit formats with a 32-bit holder; all words of 8, 16, 32 and 64 bits, all offsets and sizes below 256", "why_tests_cant": "The test extracts from one word (the loop over all words is disabled and would shift by 32); testbit.cpp prints a few fields and checks nothing.", "anchors": ["tests/testregime.cpp:18", "include/posit.h:119", "include/bithippop.hpp:185", "tests/testbit.cpp:9"]}
{"id": "C119", "title": "The comparison < can be used for sorting", "statement": "operator< of Posit, PositF, posit8, posit10, posit12, binary8tab, anyfloat_emu, float16n32, softfloat16, softfloat32 and unsigned128 is a strict weak ordering (irreflexive, transitive, with transitive incomparability, what std::sort requires) of all objects; for a strict weak ordering a list whose neighbours are in order is sorted. For posits that are not NaN the sorted arrangement of a list is unique, and real posits are sorted exactly if their values ascend.", "quantifier": "all formats, all patterns, all lists; all correct conversion instructions and SoftFloat libraries", "why_tests_cant": "Transitivity is about triples of objects, sorting about lists of any length.", "anchors": ["include/posit.h:304", "include/positf.h:71", "include/posit8.hpp:93", "include/posit10.hpp:88", "include/posit12.hpp:85", "include/binary8.hpp:95", "include/anyfloat.hpp:52", "include/float16native32.hpp:110", "include/softfloat.hpp:107", "include/softfloat.hpp:164", "include/typehelpers.hpp:95"]}
{"id": "C120", "title": "The sum and product tables written by validsgentable.py", "statement": "With --sparsetab the script writes, for each requested binary operation, one line per tabulated pair of exact numbers with the pattern of the number that contains the sum or product rounded to binary64; the sum and product of any two finite nonzero exact numbers can be read off the tables, swapping operands or changing both signs. The table float holds every positive exact number with its value.", "quantifier": "all alphabets of fractions, all requested operations, every conversion float() (odd where signs are changed)", "why_tests_cant": "The script has no tests, and the alphabet is a parameter.", "anchors": ["scripts/validsgentable.py:85", "scripts/validsgentable.py:129", "scripts/validsgentable.py:173", "scripts/validsgentable.py:185"]}
{"id": "C121", "title": "The conversions of float12.hpp are correctly rounded", "statement": "f32_to_f12, with the constants of the SoftFloat library it was copied from, turns NaN into NaN, infinities into infinities and every number into the number of the narrow format (1 sign, 5 exponent, 10 fraction bits) that the rounding mode asks for (nearest even, nearest away from zero, toward zero, up, down), overflow and subnormal results included, keeping the sign bit. f12_to_f32 is exact, and narrowing undoes it in every mode. The result is a 12-bit format, as the comments say.", "quantifier": "all float patterns, all rounding modes, all word widths of at least 16 bits, all treatments of NaN payloads by the library", "why_tests_cant": "The header does not compile and has no tests; 2^32 patterns times five rounding modes.", "anchors": ["include/float12.hpp:22", "include/float12.hpp:33", "include/float12.hpp:81", "include/float12.hpp:151", "include/float12.hpp:175"]}
{"id": "C122", "title": "The tabulated template tposit computes as Posit", "statement": "With tables filled with the results of Posit, the operators of tposit return what Posit returns; the comparisons, min and max order by value, negation and abs are exact, the constructor from int and the special values are those of Posit, and the conversion to float returns the entry of its table.", "quantifier": "all instantiations, all real operands, all tables", "why_tests_cant": "The header does not compile and nothing instantiates it; the claims quantify over instantiations and tables.", "anchors": ["include/tposit.hpp:62", "include/tposit.hpp:74", "include/tposit.hpp:83", "include/tposit.hpp:97", "include/tposit.hpp:105", "include/tposit.hpp:109", "include/tposit.hpp:154", "include/tposit.hpp:206"]}
{"id": "C123", "title": "The tabulated template tvalid: reciprocals and table bounds", "statement": "inv() of tvalid is the reciprocal, the reflection of the circle of 4N points that exchanges zero and infinity and fixes one; the operators and functions read their tables within bounds at the entry of their operands.", "quantifier": "all instantiations, all points of the circle, all tables of the declared size", "why_tests_cant": "The header does not compile and nothing instantiates it; the claims quantify over instantiations and tables.", "anchors": ["include/tvalids.hpp:40", "include/tvalids.hpp:47", "include/tvalids.hpp:87", "include/tvalids.hpp:92", "include/tvalids.hpp:94", "include/tvalids.hpp:97", "include/tvalids.hpp:104"]}
{"id": "C124", "title": "The bit patterns given in the README are those of the numbers", "statement": "As README.md says: infinity, or NaN where there is one, is 1(0)+; with NaN and two infinities, plus infinity is 0(1)+ and minus infinity 1(0)+1, each is the negation of the other, they respect the order of values, and only the maximum value is given away for them; one is 001(0)+, two is 010(E=1)0+, one half is 001(Emax)0+; the second bit is 0 for the numbers below one and 1 for those above.", "quantifier": "all formats, all patterns", "why_tests_cant": "The claims are about every format and every pattern with a given beginning; no test looks at them.", "anchors": ["README.md:57", "README.md:58", "README.md:59", "README.md:60", "README.md:132", "README.md:135", "README.md:136", "README.md:137", "README.md:138", "README.md:139", "README.md:140"]}
{"id": "C125", "title": "The dot product of Eigen vectors of posits", "statement": "The dot product of two Eigen vectors of posits is the exact sum of the products where every product and partial sum is a posit; for the vectors of src/maineigen.cpp, (3.2e8, 1, -1, 8e7) and (4e7, 1, -1, -1.6e8), it is 2 and not zero, as the comment in line 54 asks, and so is Posit::dot.", "quantifier": "all formats that have the elements, all vectors", "why_tests_cant": "The program prints the result for one format, which cannot be instantiated; the claim is about all formats and about arbitrarily long vectors.", "anchors": ["src/maineigen.cpp:24", "src/maineigen.cpp:25", "src/maineigen.cpp:37", "src/maineigen.cpp:53", "src/maineigen.cpp:54", "include/positeigen.h:19", "include/posit.h:426"]}
{"id": "C126", "title": "Products and quotients with a fraction type of any width", "statement": "Posit accepts every unsigned type FT as fraction type. For every FT, of F bits, the product, quotient, reciprocal, fma, sum and difference of two products and dot product are one explicit number rounded toward zero, computed from operands cut to F significant bits (the product of numbers with exponents p and q being cut at the place 2^(p+q+2-F)), and undefined exactly if it is out of range. The relative error of such a product before rounding is below 2^(3-F). One is neutral for the product, and the reciprocal of a number just above one is just below one.", "quantifier": "all formats, all fraction types, all operands", "why_tests_cant": "The tests use fraction types that are wide enough for their formats; with a narrow type the results are off by a number of bits that depends on the operands, and for nearly all operands of a large format no test compares them.", "anchors": ["include/posit.h:218", "include/posit.h:226", "include/posit.h:380", "include/posit.h:386", "include/posit.h:423", "include/posit.h:598", "include/unpacked.h:50", "include/unpacked.h:389", "include/unpacked.h:432"]}
{"id": "C127", "title": "64-bit fractions where the compiler has no 128-bit integer", "statement": "Without a 128-bit integer type of the compiler (32-bit targets, Visual C++), products and quotients of 64-bit fractions go through struct unsigned128. Then the product of two posits is that of their leading powers of two rounded toward zero, the quotient is the leading power of two of the quotient rounded toward zero, and likewise for reciprocal, fma and dot product; each is undefined exactly if that number is out of range. Less than three quarters of a product and less than half of a quotient is lost; zero, infinity and NaN are treated as usual. Products, quotients and reciprocals are the same as with a 128-bit integer type of the compiler.", "quantifier": "all formats with a 64-bit fraction type, all operands", "why_tests_cant": "The tests are run on 64-bit targets where the compiler provides the 128-bit type; elsewhere the library compiles without a warning, and which results are wrong depends on the operands.", "anchors": ["include/typehelpers.hpp:19", "include/typehelpers.hpp:81", "include/typehelpers.hpp:93", "include/typehelpers.hpp:231", "include/typehelpers.hpp:285", "include/typehelpers.hpp:290", "include/typehelpers.hpp:296", "include/unpacked.h:267", "include/unpacked.h:400", "include/unpacked.h:453"]}
{"id": "C128", "title": "Conversions with a fraction type of any width", "statement": "For every fraction type, of F bits, the conversions of a posit to int, float, double and to another posit format with the same fraction type convert its number cut to F+1 significant bits, and those from int and from a float encode the number cut to F+1 significant bits (subnormal floats as far as the fraction type keeps their digits). Infinities and NaN are unaffected, undefined behaviour occurs exactly for the cut numbers for which C89 has it, and less than one part in 2^F is lost; nothing is if the longest fraction fits. Unpacking a posit and packing it again gives the posit, and different posits become different doubles.", "quantifier": "all formats, all fraction types, all patterns, all ints, all float patterns", "why_tests_cant": "The tests use fraction types that are wide enough for their formats. With a narrow type only the patterns with long fractions are affected, by bits that a printed comparison does not show.", "anchors": ["include/posit.h:218", "include/posit.h:226", "include/posit.h:316-331", "include/posit.h:464-475", "include/unpacked.h:50", "include/unpacked.h:560-761"]}
{"id": "C129", "title": "From one posit format to another through a float type", "statement": "Q((float)p) and Q((double)p) turn a posit of any type into one of any other type. What arrives is the number of p cut to p's fraction type, then to the float type (zero below its normal range, its greatest number above it, otherwise its significant bits), then to Q's fraction type and rounded toward zero to Q; infinities become Q's infinities and NaN becomes NaN. If the numbers of P are normal floats and no fraction type is too narrow, the number itself is rounded; between types with the same fraction type the result is then that of the constructor from Unpacked, and a number that both formats have comes back. A posit that is not zero never becomes zero and the number after one is told from one.", "quantifier": "all pairs of posit types with exponent types wide enough for the float type, all float types, all patterns", "why_tests_cant": "The tests convert single values of single types; pairs of types with all patterns are too many, and the losses only occur for types with a wider range or longer fractions than the float type.", "anchors": ["include/posit.h:328-329", "include/posit.h:472-473", "include/unpacked.h:536-761"]}
{"id": "C130", "title": "What the listing tool and main.cpp print about a format and its posits", "statement": "A row of listposits shows the pattern of a posit signed (i) and as N bits (b), the regime k with 2^(k*2^es) <= |x| < 2^((k+1)*2^es), its factor 2^(k*2^es) (r), the exponent of the number (e) and the number cut to the fraction type and to a double (v), which is the number itself if the fraction type and the range of double suffice; zero, NaN and infinities have k = e = 0 and r = 1. Column o shows the unsigned pattern. No row is undefined behaviour. The overview of listposits and main.cpp shows 1/2 as half, 2 as twice and the least and greatest posit as min and max.", "quantifier": "all formats with holders of at most 32 bits, all canonical patterns", "why_tests_cant": "No test runs the tool or compares its output; the formats and patterns it can list are too many to check by eye, and the wrong numbers of the overview look like plausible ones.", "anchors": ["src/listposits.cpp:108-167", "src/listposits.cpp:261-262", "src/main.cpp:91-92", "include/typehelpers.hpp:195-218", "include/posit.h:93"]}
{"id": "C131", "title": "Square root and exponential of projective numbers", "statement": "The square root of a projective number is a bound that contains the square root of every one of its members, and is empty for negative numbers; the exponential of a projective number is a bound that contains the exponential of every one of its members. Neither fails.", "quantifier": "all tables of exact points, all patterns, all computed roots (and exponentials) of the points", "why_tests_cant": "The script has no tests of these functions; which members are lost depends on the points of the table and on the rounding of math.sqrt, so samples with small points show nothing.", "anchors": ["scripts/punum.py:371-394", "scripts/punum.py:420-453"]}
{"id": "C132", "title": "Texts of projective numbers and bounds", "statement": "Read as an arc of the projective line, the text of a bound stands for exactly the numbers of the bound; the bound of all numbers shows as [all]. The text of an exact projective number is the number it stands for; that of an inexact one is, with a question mark, an end of its interval. Different projective numbers have different texts.", "quantifier": "all tables of exact points, all bounds and patterns", "why_tests_cant": "The script has no tests; which of the many shapes of bounds (open, closed, through infinity, all but a point) print correctly cannot be seen from the few texts in the examples.", "anchors": ["scripts/punum.py:357-370", "scripts/punum.py:510-529", "scripts/punum.py:341-356"]}
{"id": "C133", "title": "Projective numbers and bounds hold the real results", "statement": "Every real number belongs to exactly one pattern. Negation of patterns and reciprocal of patterns and of bounds hold exactly the negatives and reciprocals of their real members, the complement of a bound exactly the other real numbers; sums, differences, products and square roots are bounds that hold every sum, difference, product and square root of real members of the operands.", "quantifier": "all tables of exact points, all patterns and bounds, all real members, irrational ones included", "why_tests_cant": "The script computes with fractions only; almost all members of an interval are irrational, so no run of the script ever meets one.", "anchors": ["scripts/punum.py:195-202", "scripts/punum.py:269-340", "scripts/punum.py:371-394", "scripts/punum.py:470-509"]}
{"id": "C134", "title": "Complete outcome of the arithmetic on every pattern for every fraction type", "statement": "For any patterns, NaN and infinities included, and any unsigned fraction type of F bits, the outcome of +, -, *, /, inv, fma, sums and differences of delayed products and dot is determined by the extended numbers denoted: the rules of C88 and C90 for infinities and NaN, the numbers of C126 for finite operands cut to the fraction type, followed by rounding toward zero; undefined exactly when shifts are out of range. A NaN second operand gives the first operand back unchanged.", "quantifier": "all instantiations, all fraction types, all canonical patterns, dot products of any length below 2^60", "why_tests_cant": "Template arguments and pairs of patterns are unbounded; the special operands with a narrow fraction type are in no test.", "anchors": ["include/posit.h: Posit::operator+, operator-, operator*, operator/, fma, dot", "include/unpacked.h: Unpacked::operator+, operator-, operator*, operator/"]}
{"id": "C135", "title": "Distance to the rounding of the posit standard", "statement": "Every nonzero number has exactly one rounding in the sense of the posit standard (decided by a further bit of the body, ties to the pattern ending in 0, saturating at both ends), which keeps posits unchanged. Products, quotients, reciprocals, halves, doubles, sums of operands with the same sign and conversions from integers, floats and other posits return the standard rounding if the exact result is not beyond the number that separates the returned posit from the next one away from zero, and otherwise the neighbour toward zero of the standard rounding; other sums, differences and fused products and sums return the standard rounding or a neighbour of it.", "quantifier": "all instantiations with enough fraction bits, all real operands for which the operation is defined (halves and doubles: not at the ends of the range)", "why_tests_cant": "The distance to the standard must be known for every pair of operands of every format; a test can only compare with another implementation on samples.", "anchors": ["include/posit.h: Posit::pack (pack_low)", "include/posit.h: Posit::operator*, operator/, operator+, operator-, Posit(int), Posit(float), Posit(double), inv, half, twice, fma"]}
{"id": "C136", "title": "Sums looked up in a table of posits; the extreme halves", "statement": "If the differences between the numbers of the table and the argument, and their squares, are doubles, toindex in mode float gives the first of the nearest entries, passing over infinities and NaN. testfloat11.m then describes the two entries, their sum, the first entry nearest to the sum and the exact error; it returns the partial structure if an argument is not in the table. In the table of all posits of a format the entry found is the library's sum or a neighbour of it. halfprecisionmax is the greatest half, halfprecisionmin the least positive one.", "quantifier": "all tables, all modes, all arguments; every IEEE arithmetic of doubles in whichever rounding mode; all formats with enough fraction bits, all operands whose sum is defined", "why_tests_cant": "The script is itself a check on chosen operands of one table; the claim covers every table, every pair of entries and every rounding mode.", "anchors": ["matlab/testfloat11.m: testfloatt11", "matlab/toindex.m: toindex", "matlab/halfprecision/halfprecisionmax.m", "matlab/halfprecision/halfprecisionmin.m"]}
{"id": "C137", "title": "Sums are faithful wherever they are defined", "statement": "Whenever a sum, a difference, a fused product and sum or a sum of two products is defined, its result is a faithful rounding of the exact number: the number itself if it is a posit, one of the two neighbouring posits otherwise, zero only if the exact number is zero, and rounded toward zero if both summands have the same sign; so it is at most one pattern from the rounding of the posit standard. The same holds for differences of two products.", "quantifier": "all instantiations whose fraction type has three bits more than the longest fraction (two for operands of the same sign; four more than twice that for products), all real operands", "why_tests_cant": "Tests of the sums stop at the operands for which the authors expect the sum to be defined and compare with floats; the claim covers every format and every pair of operands without a condition on the operands.", "anchors": ["include/posit.h: Posit::operator+, operator-, fma", "include/unpacked.h: Unpacked::operator+"]}
{"id": "C138", "title": "The constants of the float traits among all floats", "statement": "max_h and lowest_h are the greatest and the least number of the format, min_h the least positive number with an exponent field other than zero, afterone_h the least number above one, signbit changes the sign, exponent_mask takes out the exponent field, which is at most exponent_max exactly for numbers and gives their binary logarithm when exponent_bias is subtracted; epsilon_h and denorm_min_h of single_trait are the distance from one to the next float and the least positive float. The members of single_trait, double_trait, half_trait and half_traitalt are those of any_floattrait, as tests/itest_anyvsreallimit.cpp asserts, and tests/itest_lowlimits.cpp prints the constants. The same holds for float128_trait.", "quantifier": "all exponent and fraction field sizes, all patterns", "why_tests_cant": "That a constant is the greatest or least of its kind is a claim about all patterns, and the sizes are template arguments without a bound.", "anchors": ["include/floattraits.hpp:45-215", "tests/itest_anyvsreallimit.cpp:19-31", "tests/itest_lowlimits.cpp:9-17"]}
{"id": "C139", "title": "One plus and minus a small number in posit10", "statement": "In posit10 adding a positive number below 1/32, the distance from one to the next posit, gives one. Subtracting a number from 2^-24 to 1/64 gives the posit below one in whichever rounding mode of the floats; with rounding to nearest, ties to even, the posit below one is the result exactly for the numbers above 2^-25 and one for the smaller ones, although the difference rounded toward zero is always the posit below one. So in tests/testeps.cpp the sum and the difference of the posits are the posits of the sum and the difference of the doubles, for all constants in these ranges.", "quantifier": "all positive posits below the bounds, all doubles in the ranges, all correctly rounding float additions", "why_tests_cant": "The script prints the values for one constant and checks nothing; it does not reach the numbers that are lost.", "anchors": ["tests/testeps.cpp:13-25", "src/posit10_gen.cpp:41-57", "src/posit10.cpp:34-43", "include/posit10.hpp:109-111"]}
{"id": "C140", "title": "The constants printed by float2bin.py", "statement": "scripts/float2bin.py prints four groups of five lines, each with the name of the type, the name of the value and the memory of the number as a hexadecimal literal, whose value is the memory read as a number. For the types of 16, 32 and 64 bits the literals of -inf, inf, nan, one and two are the constants of half_trait, single_trait and double_trait. If the type float128 is the 80-bit type of the x87 in 16 bytes, the literal is twelve digits of arbitrary content followed by the 80 bits; the infinities, NaN and one of float128_trait are such literals of these values, its two_h is not.", "quantifier": "all contents of memory, all sizes of numbers, all patterns of the values", "why_tests_cant": "The script is run by hand; nothing compares its output with the header, and the content of the unused bytes differs from run to run.", "anchors": ["scripts/float2bin.py:5-14", "include/floattraits.hpp:84-215"]}
{"id": "C141", "title": "Operands too small to change a sum", "statement": "Whenever it is defined, the sum of a positive posit x and a positive number below the distance from x to the next posit is x, in either order; so a sum of many such terms does not grow any more, however many are added. The same holds for a fused product and sum with a positive product below the distance, and for sums of the greatest posit and any positive number. Whenever it is defined, the difference of x and a positive number up to the distance from x to the posit below is that posit if the number reaches the last place of the aligned operands, 2^(e+2-F) for an x from 2^e to below 2^(e+1) and a fraction type of F bits, and x if it is smaller, although the difference rounded toward zero is the posit below.", "quantifier": "all instantiations whose fraction type has two bits more than the longest fraction (four more than twice that for products), all positive real operands within the distance, all numbers of terms", "why_tests_cant": "Tests compare single sums with floats for chosen operands; where terms get lost depends on every pair of neighbouring posits and on the width of the fraction type.", "anchors": ["include/posit.h: Posit::operator+, operator-", "include/unpacked.h: Unpacked::operator+"]}
