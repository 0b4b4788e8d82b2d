{"id": "C01", "title": "Classification is a partition", "statement": "Every float/double value is exactly one of NaN, infinite, zero, subnormal, normal; ccm::isnan, isinf, isfinite, isnormal and fpclassify all agree with that one class, where the class is defined by the numerical value (subnormal = non-zero and smaller than the least normal number).", "quantifier": "every bit pattern of every IEEE interchange format (binary32, binary64 as instances)", "why_tests_cant": "2^64 bit patterns; tests sample boundaries only, and agreement between five independently written predicates is a relation over all of them", "anchors": ["include/ccmath/math/compare/fpclassify.hpp: fpclassify", "include/ccmath/math/compare/isnan.hpp: isnan", "include/ccmath/math/compare/isinf.hpp: isinf", "include/ccmath/math/compare/isfinite.hpp: isfinite", "include/ccmath/math/compare/isnormal.hpp: isnormal", "include/ccmath/internal/support/fp/fp_bits.hpp: FPBits"]}
{"id": "C02", "title": "Quiet comparisons follow the real order", "statement": "isgreater/isgreaterequal/isless/islessequal/islessgreater return exactly the comparison of the two numerical values (with -0 = +0 and infinities at the ends) when neither argument is NaN and false otherwise; isunordered is true exactly when an argument is NaN.", "quantifier": "every pair of bit patterns", "why_tests_cant": "pairs of 64-bit patterns; trichotomy and transitivity are universally quantified", "anchors": ["include/ccmath/math/compare/isgreater.hpp", "include/ccmath/math/compare/isless.hpp", "include/ccmath/math/compare/isunordered.hpp", "include/ccmath/math/compare/islessgreater.hpp"]}
{"id": "C03", "title": "Sign operations touch only the sign", "statement": "signbit reports the sign bit of any value including -0 and NaN; fabs clears it and changes nothing else; copysign(x,y) has the magnitude of x and the sign of y and is idempotent.", "quantifier": "every bit pattern (pair of bit patterns for copysign)", "why_tests_cant": "must hold for NaN payloads, zeros and every magnitude", "anchors": ["include/ccmath/math/basic/fabs.hpp: fabs", "include/ccmath/math/fmanip/copysign.hpp: copysign", "include/ccmath/math/compare/signbit.hpp: signbit"]}
{"id": "C04", "title": "fmin/fmax select the right operand", "statement": "fmin/fmax return one of their arguments, the numerically smallest/largest; if exactly one argument is NaN the other is returned; fmax(+0,-0) in either order is +0 and fmin is -0; result is NaN only if both arguments are.", "quantifier": "every pair of bit patterns", "why_tests_cant": "order, NaN and signed zero interact over all pairs", "anchors": ["include/ccmath/math/basic/min.hpp: fmin", "include/ccmath/math/basic/max.hpp: fmax", "include/ccmath/internal/math/generic/func/basic/max_gen.hpp"]}
{"id": "C05", "title": "fdim is the correctly rounded positive difference", "statement": "fdim(x,y) is +0 when x <= y, NaN if an argument is NaN, and otherwise x-y rounded once in the current mode (overflowing to infinity only if the rounded difference does).", "quantifier": "every pair of bit patterns", "why_tests_cant": "the failing inputs sit in a narrow overflow band that random tests never hit", "anchors": ["include/ccmath/math/basic/fdim.hpp: fdim", "include/ccmath/internal/math/generic/func/basic/fdim_gen.hpp"]}
{"id": "C06", "title": "trunc rounds toward zero exactly", "statement": "trunc(x) is the integer obtained by discarding the fractional part of x: |trunc x| is the largest integer <= |x|, the sign (also of zero) is kept, infinities and NaN stay infinities and NaN.", "quantifier": "every bit pattern of every format", "why_tests_cant": "each exponent has its own fraction mask; 2^52 fractions per exponent", "anchors": ["include/ccmath/math/nearest/trunc.hpp: trunc", "include/ccmath/internal/support/fp/directional_rounding_utils.hpp: directional_round"]}
{"id": "C07", "title": "floor and ceil are exact", "statement": "floor(x) is the greatest integer <= x and ceil(x) the least integer >= x, always representable, with the sign of zero results that of x.", "quantifier": "every bit pattern of every format", "why_tests_cant": "carry into the exponent happens for unboundedly many fractions; tests sample", "anchors": ["include/ccmath/math/nearest/floor.hpp: floor", "include/ccmath/math/nearest/ceil.hpp: ceil"]}
{"id": "C08", "title": "round is nearest, ties away from zero", "statement": "round(x) is an integer with |round x - x| <= 1/2 and when x is half way the one of larger magnitude, independent of the rounding mode; sign preserved.", "quantifier": "every bit pattern of every format", "why_tests_cant": "ties and values just below one half at every exponent", "anchors": ["include/ccmath/math/nearest/round.hpp: round"]}
{"id": "C09", "title": "rint/nearbyint honour the mode", "statement": "rint(x) and nearbyint(x) return the integer that the current rounding mode selects (nearest-even, up, down, toward zero) for every x.", "quantifier": "every bit pattern and each of the four rounding modes", "why_tests_cant": "mode x exponent x fraction product is far beyond enumeration", "anchors": ["include/ccmath/math/nearest/rint.hpp: rint", "include/ccmath/math/nearest/nearbyint.hpp: nearbyint"]}
{"id": "C10", "title": "rounding functions are idempotent and monotone", "statement": "trunc, floor, ceil, round and rint are monotone (x <= y implies f(x) <= f(y)), idempotent, and fix every integer-valued argument bit for bit.", "quantifier": "every pair of non-NaN bit patterns, every mode", "why_tests_cant": "relations between two runs over all pairs", "anchors": ["include/ccmath/math/nearest/trunc.hpp", "include/ccmath/math/nearest/floor.hpp", "include/ccmath/math/nearest/ceil.hpp", "include/ccmath/math/nearest/round.hpp", "include/ccmath/internal/support/fp/directional_rounding_utils.hpp: directional_round"]}
{"id": "C11", "title": "modf splits exactly", "statement": "modf(x,&i): i is the truncation of x, i + frac = x exactly, |frac| < 1, both carry the sign of x (also for zeros and infinities).", "quantifier": "every bit pattern of every format", "why_tests_cant": "exactness for all 2^64 inputs", "anchors": ["include/ccmath/math/fmanip/modf.hpp: modf"]}
{"id": "C12", "title": "frexp normalises exactly", "statement": "for finite non-zero x, frexp(x,&e) returns m with 1/2 <= |m| < 1 and m*2^e = x exactly, including subnormal x; zero gives m = x, e = 0.", "quantifier": "every finite bit pattern", "why_tests_cant": "subnormal normalisation loop depends on every leading-zero count", "anchors": ["include/ccmath/math/fmanip/frexp.hpp: frexp"]}
{"id": "C13", "title": "ldexp is a single correct rounding", "statement": "ldexp(x,n) is x*2^n rounded once (nearest-even), with overflow to infinity and gradual underflow, for every int n; ldexp undoes frexp.", "quantifier": "every bit pattern and every int n", "why_tests_cant": "double rounding on the subnormal boundary concerns specific fractions only", "anchors": ["include/ccmath/math/fmanip/ldexp.hpp: ldexp", "include/ccmath/internal/support/helpers/internal_ldexp.hpp", "include/ccmath/internal/types/normalized_float.hpp"]}
{"id": "C14", "title": "scalbn/scalbln scale by 2^n with one rounding", "statement": "scalbn(x,n) equals x*2^n rounded once for every n, although it is computed by up to three multiplications.", "quantifier": "every finite x, every int n", "why_tests_cant": "double rounding would only show on rare subnormal inputs", "anchors": ["include/ccmath/math/fmanip/scalbn.hpp: scalbn"]}
{"id": "C15", "title": "ilogb/logb extract the binary exponent", "statement": "for finite non-zero x, ilogb(x) = logb(x) = the unique e with 2^e <= |x| < 2^(e+1), including subnormals; zeros, infinities and NaN give the documented sentinels.", "quantifier": "every bit pattern", "why_tests_cant": "every subnormal leading-zero count", "anchors": ["include/ccmath/math/fmanip/ilogb.hpp: ilogb", "include/ccmath/math/fmanip/logb.hpp: logb"]}
{"id": "C16", "title": "nextafter returns the adjacent value", "statement": "for finite x != y, nextafter(x,y) is the representable value closest to x strictly in the direction of y: nothing representable lies strictly between; x = y gives y; stepping across zero goes through the least subnormal; stepping beyond the largest finite gives infinity.", "quantifier": "every pair of bit patterns", "why_tests_cant": "adjacency is a statement about all representable numbers", "anchors": ["include/ccmath/math/fmanip/nextafter.hpp: nextafter", "include/ccmath/math/fmanip/nexttoward.hpp: nexttoward"]}
{"id": "C17", "title": "fma is correctly rounded in every mode", "statement": "for finite x,y,z the software fma(x,y,z) returns x*y+z, computed exactly and rounded once in the active rounding mode, including subnormal and overflowing results; exact cancellation gives +0 (-0 in downward mode) unless both addends are zeros of the same sign.", "quantifier": "all triples of finite binary32/binary64 values, all four rounding modes", "why_tests_cant": "2^192 triples; alignment, sticky and cancellation corner cases", "anchors": ["include/ccmath/internal/support/fp/fma.hpp: fixed_fma, round_normalized", "include/ccmath/math/basic/fma.hpp: fma"]}
{"id": "C18", "title": "fma special operands follow IEEE 754", "statement": "fma with NaN, infinity or zero operands returns: NaN if any operand is NaN, NaN for 0*inf and for inf + (-inf), otherwise the infinity of the right sign; the sign of exact zero results follows the rounding mode.", "quantifier": "all triples with a special operand", "why_tests_cant": "cross product of classes x signs x modes", "anchors": ["include/ccmath/internal/support/fp/fma.hpp: special_case_fma"]}
{"id": "C19", "title": "sqrt is correctly rounded in every mode", "statement": "for every finite x >= 0 sqrt(x) is the correctly rounded real square root in the active rounding mode, sqrt(-0) = -0, sqrt(+inf)=+inf and negative arguments give NaN.", "quantifier": "every bit pattern, four modes", "why_tests_cant": "digit recurrence correctness for every significand/exponent parity", "anchors": ["include/ccmath/internal/math/generic/func/power/sqrt_gen.hpp: sqrt_calc_bits, sqrt_impl", "include/ccmath/math/power/sqrt.hpp"]}
{"id": "C20", "title": "fmod is the exact truncated remainder", "statement": "for finite x and finite non-zero y, fmod(x,y) = x - n*y exactly, n = trunc(x/y), result has the sign of x and |result| < |y|.", "quantifier": "every pair of finite values", "why_tests_cant": "failure depends on rounding of the quotient, only for unusual ratios", "anchors": ["include/ccmath/math/basic/fmod.hpp: fmod", "include/ccmath/internal/math/generic/func/basic/fmod_gen.hpp"]}
{"id": "C21", "title": "remainder is the IEEE remainder", "statement": "for finite x and finite non-zero y, remainder(x,y) = x - n*y exactly where n is the integer nearest x/y (ties to even), so |result| <= |y|/2.", "quantifier": "every pair of finite values", "why_tests_cant": "needs all quotients", "anchors": ["include/ccmath/math/basic/remainder.hpp: remainder", "include/ccmath/internal/math/generic/func/basic/remainder_gen.hpp"]}
{"id": "C22", "title": "remquo returns remainder and quotient bits", "statement": "remquo(x,y,&q) returns the same value as the IEEE remainder and q has the sign of x/y and is congruent to the magnitude of the integral quotient modulo 2^3.", "quantifier": "every pair of finite values", "why_tests_cant": "as above plus low quotient bits", "anchors": ["include/ccmath/math/basic/remquo.hpp: remquo"]}
{"id": "C23", "title": "nan(tag) always yields a quiet NaN", "statement": "ccm::nan(str), nanf(str) return a quiet NaN for every tag string (any length, any characters), never an infinity and never a signalling NaN, and a decimal/hex/octal tag is placed in the payload modulo its width.", "quantifier": "every byte string", "why_tests_cant": "strings are unbounded", "anchors": ["include/ccmath/math/basic/nan.hpp: nan, nanf"]}
{"id": "C24", "title": "hypot bounds and specials", "statement": "hypot(x,y)=hypot(y,x)=hypot(|x|,|y|); +inf if an argument is infinite even if the other is NaN; NaN if an argument is NaN otherwise; for finite arguments the result is not less than max(|x|,|y|) and never NaN.", "quantifier": "every pair of bit patterns, every rounding mode", "why_tests_cant": "no-spurious-underflow/NaN is universally quantified", "anchors": ["include/ccmath/internal/math/generic/func/power/impl/hypot_impl.hpp: hypot_impl"]}
{"id": "C25", "title": "pow special-case table", "statement": "pow(x,\u00b10)=1 and pow(1,y)=1 even for NaN; pow(-1,\u00b1inf)=1; pow(\u00b10,y) is 0/inf with the sign chosen by odd-integer y; pow(\u00b1inf,y) likewise; an infinite exponent gives 0 or inf by comparing |x| with 1; finite negative base with non-integer exponent is NaN with EDOM and FE_INVALID; a negative base with an even integer exponent gives exactly pow(|x|,y).", "quantifier": "every pair of bit patterns (the transcendental kernel taken as an arbitrary function)", "why_tests_cant": "mixes 5 classes x 5 classes x integer/odd-integer predicates", "anchors": ["include/ccmath/internal/math/generic/func/power/pow_impl/pow_impl.hpp: pow_impl"]}
{"id": "C26", "title": "integer and odd-integer detection", "statement": "the bit test used by pow to decide whether an exponent is an integer / an odd integer is true exactly when the numerical value is an integer / an odd integer.", "quantifier": "every finite bit pattern", "why_tests_cant": "every exponent has its own ulp; tests sample", "anchors": ["include/ccmath/internal/math/generic/func/power/pow_impl/pow_impl.hpp: is_odd_integer, is_integer", "include/ccmath/math/misc/impl/gamma_double_impl.hpp: is_integer"]}
{"id": "C27", "title": "wide integers add and subtract modulo 2^N", "statement": "BigInt addition, subtraction, negation, increment and decrement compute the integer result modulo 2^N for every width N and report the carry/borrow exactly.", "quantifier": "every width (number of limbs), every limb size, every pair of values", "why_tests_cant": "carry chains of arbitrary length, including the early exit", "anchors": ["include/ccmath/internal/types/big_int.hpp: inplace_binop, add_with_carry, sub_with_borrow, BigInt::operator+, negate"]}
{"id": "C28", "title": "wide integers multiply exactly", "statement": "BigInt multiplication: the full product of an m-limb and n-limb number is exact; the truncated product is the product modulo 2^N; the 64x64->128 primitive is exact also in its portable form; the quick high product is at most the true high part and short of it by less than the number of limbs.", "quantifier": "every number of limbs and all limb values", "why_tests_cant": "carry patterns between partial products", "anchors": ["include/ccmath/internal/types/big_int.hpp: mul2, scalar_multiply_with_carry, multiply_with_carry, quick_mul_hi, ful_mul"]}
{"id": "C29", "title": "wide integers divide with exact quotient and remainder", "statement": "for divisor != 0 the quotient q and remainder r satisfy a = q*d + r, r < d; division by zero is reported, signed division truncates toward zero.", "quantifier": "every width, every pair of values", "why_tests_cant": "long division state space unbounded in width", "anchors": ["include/ccmath/internal/types/big_int.hpp: div, divide_unsigned, divide_signed, div_uint_half_times_pow_2"]}
{"id": "C30", "title": "wide integer shifts, bitwise operations and comparisons", "statement": "<<, >> (logical and arithmetic), &, |, ^, ~, ordering, leading/trailing-zero counts agree with the same operation on the represented integer for every in-range shift amount.", "quantifier": "every width, value and shift amount < N", "why_tests_cant": "shift crossing limb boundaries at every offset", "anchors": ["include/ccmath/internal/types/big_int.hpp: shift, cmp, countl_zero, countr_zero, rotl"]}
{"id": "C31", "title": "dyadic floats round once when converted", "statement": "converting an arbitrary-precision dyadic value to float/double gives the correctly rounded value in nearest mode including the subnormal and overflow ranges.", "quantifier": "every mantissa width and value, every exponent", "why_tests_cant": "double rounding at the subnormal boundary", "anchors": ["include/ccmath/internal/types/dyadic_float.hpp: as, generic_as, fast_as"]}
{"id": "C32", "title": "dyadic float arithmetic error bounds", "statement": "quick_mul and quick_add/quick_sub return the exact result up to the documented truncation in the last place.", "quantifier": "every mantissa and exponent", "why_tests_cant": "alignment shift at or beyond the mantissa width", "anchors": ["include/ccmath/internal/types/dyadic_float.hpp: quick_add, quick_mul, pow_n"]}
{"id": "C33", "title": "error-free transformations are error free", "statement": "exact_add/fast_two_sum/two_sum return hi+lo equal to the exact sum with hi the rounded sum; split and exact_mult return hi+lo equal to the exact product, in nearest mode and absent overflow/underflow.", "quantifier": "every pair of finite values meeting the documented precondition", "why_tests_cant": "depends on all significand alignments", "anchors": ["include/ccmath/internal/support/math_support.hpp: two_sum, fast_two_sum", "include/ccmath/internal/types/double_double.hpp: exact_add, split, exact_mult"]}
{"id": "C34", "title": "bit utilities", "statement": "countl_zero, countr_zero, bit_width, popcount, bit_ceil, has_single_bit, rotl, rotr agree with their mathematical definition for every unsigned width.", "quantifier": "every width and value", "why_tests_cant": "bisection loops over all values", "anchors": ["include/ccmath/internal/support/bits.hpp", "include/ccmath/internal/support/ctz.hpp"]}
{"id": "C35", "title": "checked addition and subtraction", "statement": "add_overflow/sub_overflow report overflow exactly when the mathematical result does not fit and otherwise store it; add_with_carry/sub_with_borrow satisfy a+b+c = sum + 2^N*carry.", "quantifier": "every width, every pair of values and carry", "why_tests_cant": "sign-bit trick must hold for all operands", "anchors": ["include/ccmath/internal/support/math_support.hpp: add_overflow, sub_overflow, add_with_carry, sub_with_borrow"]}
{"id": "C36", "title": "alignment helpers", "statement": "for a power-of-two alignment, align_up is the least multiple >= value, align_down the greatest multiple <= value, whenever that multiple is a value of the type; otherwise unsigned align_up returns 0 and signed align_up is undefined.", "quantifier": "every width, value, alignment", "why_tests_cant": "wrap-around near the top of the range", "anchors": ["include/ccmath/ext/align.hpp: align, align_up, align_down"]}
{"id": "C37", "title": "ceil_div is the ceiling of the quotient", "statement": "ceil_div(a,b) is the least integer q with q*b >= a for all representable a and b > 0.", "quantifier": "every width, all values", "why_tests_cant": "overflow of a+b-1", "anchors": ["include/ccmath/ext/ceil_div.hpp: ceil_div"]}
{"id": "C38", "title": "is_power_of_two decides powers of two", "statement": "is_power_of_two(n) holds exactly when n = 2^k for some k, for every integer n of every width including negative ones and zero, with no undefined behaviour.", "quantifier": "every width, value", "why_tests_cant": "bit trick over all values; the undefined case is invisible", "anchors": ["include/ccmath/ext/is_power_of_two.hpp"]}
{"id": "C39", "title": "abs_diff is the distance", "statement": "abs_diff(a,b) = |a-b| for all unsigned arguments, and for signed arguments whenever the distance is representable; otherwise the behaviour is undefined.", "quantifier": "every width, pairs of values", "why_tests_cant": "overflow", "anchors": ["include/ccmath/ext/abs_diff.hpp"]}
{"id": "C40", "title": "clamp/saturate/sign/step stay in range", "statement": "for lo <= hi and non-NaN arguments clamp returns v if lo <= v <= hi and otherwise the violated bound; saturate is clamp to [0,1]; sign returns -1,0,1 according to the order with 0; step is 0 below the edge and 1 otherwise.", "quantifier": "all non-NaN bit patterns", "why_tests_cant": "order over all pairs", "anchors": ["include/ccmath/ext/clamp.hpp", "include/ccmath/ext/saturate.hpp", "include/ccmath/ext/sign.hpp", "include/ccmath/ext/step.hpp"]}
{"id": "C41", "title": "move_towards never overshoots", "statement": "move_towards(cur,target,delta) with delta >= 0 returns a value between cur and target, reaches target when |target-cur| <= delta, and iterating it keeps every later value in the same interval.", "quantifier": "all finite values, any number of steps", "why_tests_cant": "rounding could overshoot; histories unbounded", "anchors": ["include/ccmath/ext/move_towards.hpp"]}
{"id": "C42", "title": "lerp endpoints are exact", "statement": "lerp(a,b,0) = a and lerp(a,b,1) = b for finite a,b; if a and b are equal the result is that value.", "quantifier": "all finite pairs", "why_tests_cant": "rounding of a + t*(b-a) would violate this only for some pairs", "anchors": ["include/ccmath/math/misc/lerp.hpp"]}
{"id": "C43", "title": "signed zero, range of fract, repeat and ping_pong", "statement": "fract(x) lies in [0,1), repeat(t,len) in [0,len], ping_pong in [0,len].", "quantifier": "all finite arguments", "why_tests_cant": "rounding at tiny negative arguments", "anchors": ["include/ccmath/ext/fract.hpp", "include/ccmath/ext/repeat.hpp", "include/ccmath/ext/ping_pong.hpp"]}
{"id": "C44", "title": "nearest_integer used by argument reduction", "statement": "nearest_integer(x) is an integer nearest to x for every |x| in the supported range and never differs from x by more than 1/2.", "quantifier": "all values in the documented range", "why_tests_cant": "magic-number addition at every exponent", "anchors": ["include/ccmath/internal/support/fp/nearest_integer.hpp"]}
{"id": "C45", "title": "narrowing cast rounds once", "statement": "fp::cast<Out>(x) converts any double to float with a single rounding in the active mode, preserving NaN-ness, infinities and signed zeros; widening is exact.", "quantifier": "every bit pattern", "why_tests_cant": "double rounding / subnormal results", "anchors": ["include/ccmath/internal/support/fp/cast.hpp"]}
{"id": "C46", "title": "software add/sub/mul agree with IEEE", "statement": "fp::op::add, sub and mul return the correctly rounded result for all operands.", "quantifier": "all pairs", "why_tests_cant": "zero, subnormal and sign cases", "anchors": ["include/ccmath/internal/support/fp/ops/add_or_sub.hpp", "include/ccmath/internal/support/fp/ops/mul.hpp"]}
{"id": "C47", "title": "exact sign of a sum of doubles and correctly rounded reciprocal square root", "statement": "exact_sign_of_sum returns the sign of the exact real sum of its terms, and cr_rsqrt(x), built on it, terminates and returns 1/sqrt(x) correctly rounded in the active mode.", "quantifier": "every list of finite doubles in the supported exponent window; every positive finite x, four modes", "why_tests_cant": "cancellation to the last bit", "anchors": ["include/ccmath/internal/math/generic/func/power/pow_impl/pow_impl.hpp: exact_sign_of_sum, cr_rsqrt"]}
{"id": "C48", "title": "large-argument reduction accumulates the exact product", "statement": "Payne-Hanek reduction for sin/cos/tan: the 256-bit accumulator equals the exact product of the significand with the stored bits of 8/pi modulo 16 up to a bounded truncation of its last places, for every exponent.", "quantifier": "every finite double >= 2^20", "why_tests_cant": "every exponent uses a different slice of the table", "anchors": ["include/ccmath/math/trig/impl/sincos_payne_hanek.hpp: mul64, add_at_word, add_word_at, payne_hanek_reduce"]}
{"id": "C49", "title": "exceptional-argument lookup", "statement": "the exceptional value table lookup returns the tabulated result exactly for listed arguments (adjusted to the rounding mode) and nothing for all others; the odd variant is odd.", "quantifier": "every table and every argument", "why_tests_cant": "tables are arbitrary", "anchors": ["include/ccmath/internal/support/fp/except_value_utils.hpp"]}
{"id": "C50", "title": "gamma special cases", "statement": "tgamma at \u00b10, negative integers, infinities and NaN returns the documented special value for every such argument without undefined conversion.", "quantifier": "every negative integer representable as double", "why_tests_cant": "integers beyond the 32-bit range", "anchors": ["include/ccmath/math/misc/impl/gamma_double_impl.hpp", "include/ccmath/math/misc/impl/lgamma_double_impl.hpp"]}
{"id": "C51", "title": "hypot accuracy", "statement": "For all finite x, y whose length does not overflow, hypot(x,y) differs from sqrt(x^2+y^2) by at most 6*2^-F of it plus one least subnormal, in every rounding mode: no intermediate overflow, underflow or loss of accuracy.", "quantifier": "every pair of finite bit patterns, every rounding mode, every format", "why_tests_cant": "an error bound over all pairs of doubles cannot be sampled", "anchors": ["include/ccmath/internal/math/generic/func/power/impl/hypot_impl.hpp: hypot_impl"]}
{"id": "C52", "title": "pow with exponent one half and minus one half", "statement": "pow(x,0.5) is the correctly rounded square root and pow(x,-0.5) the correctly rounded reciprocal square root of x in the active rounding mode.", "quantifier": "every positive finite double x, four modes, any kernel", "why_tests_cant": "a wrong last bit appears only for inputs next to a rounding boundary", "anchors": ["include/ccmath/internal/math/generic/func/power/pow_impl/pow_impl.hpp: pow_impl, cr_rsqrt"]}
{"id": "C53", "title": "interpolation end points of unlerp, mix and remap", "statement": "unlerp(start,end,start)=0 and unlerp(start,end,end)=1; mix(x,y,0)=x and mix(x,y,1)=y; remap sends src_start exactly to dst_start; safe variants agree with the plain ones on non-empty intervals and return the documented constant on empty ones.", "quantifier": "all finite arguments whose differences are in range, every rounding mode", "why_tests_cant": "the end points must hold for every pair of bounds; a test samples a few pairs and cannot see rounding or overflow of the differences elsewhere", "anchors": ["include/ccmath/ext/unlerp.hpp", "include/ccmath/ext/mix.hpp", "include/ccmath/ext/remap.hpp"]}
{"id": "C54", "title": "normalize and smoothstep stay in [0,1]", "statement": "normalize returns a number in [0,1] for every bit pattern of every argument and saturates outside the interval; smoothstep returns a number in [0,1], 0 at or below edge0 and 1 at or above edge1.", "quantifier": "every bit pattern (range), all finite arguments (saturation)", "why_tests_cant": "the range claim needs the rounding error of x*x*(3-2x) near 1 for every x; 2^192 argument triples", "anchors": ["include/ccmath/ext/normalize.hpp", "include/ccmath/ext/smoothstep.hpp"]}
{"id": "C55", "title": "delta_angle is exact on whole degrees", "statement": "for integer angles delta_angle is the representative of target-current modulo 360 in (-180,180].", "quantifier": "all integer angles with |target-current|+360 <= 2^F, every rounding mode", "why_tests_cant": "about 2^104 pairs of integer doubles; failure needs the rounded quotient to land on the wrong side of an integer", "anchors": ["include/ccmath/ext/delta_angle.hpp", "include/ccmath/ext/repeat.hpp"]}
{"id": "C56", "title": "chgsign and approximately", "statement": "chgsign(x,y) has the bits of x with the sign bit of y; approximately accepts whenever the exact distance is within epsilon, rejects negative epsilon and is symmetric.", "quantifier": "all non-NaN x and all y; all finite triples", "why_tests_cant": "quantifies over all bit patterns of two or three arguments", "anchors": ["include/ccmath/ext/chgsign.hpp", "include/ccmath/ext/approximately.hpp"]}
{"id": "C57", "title": "one-ulp nudges follow the rounding mode", "statement": "at run time round_result_slightly_down/up leave a value unchanged in the default mode and move it to the adjacent floating-point number below/above in downward/upward mode.", "quantifier": "all finite values with 2^(F+4-bias) <= |v| < 2^bias", "why_tests_cant": "adjacency across every binade boundary and in two directed modes, for every value", "anchors": ["include/ccmath/internal/support/fp/except_value_utils.hpp"]}
{"id": "C58", "title": "double sin and cos: accuracy and special values", "statement": "For every finite double, sin and cos return a finite value within 5.5 u of the mathematical value (u = 2^-53 to nearest, 2^-52 otherwise), within 30 u relative to the value up to an absolute 2^-95, and within 600 u relative to the value up to 12 least subnormals; zeros keep their sign, infinities and NaNs give a quiet NaN, and no input is undefined behaviour.", "quantifier": "all 2^64 bit patterns, four rounding modes, fused or unfused multiply_add, run time and constant evaluation", "why_tests_cant": "the reduction depends on the distance of the argument to multiples of pi/8, whose worst cases are isolated arguments; 2^64 inputs times modes", "anchors": ["include/ccmath/math/trig/impl/sincos_double_impl.hpp", "include/ccmath/math/trig/impl/sincos_double_data.hpp", "include/ccmath/math/trig/impl/sincos_payne_hanek.hpp"]}
{"id": "C59", "title": "double tan: accuracy and special values", "statement": "tan of every finite double is finite with error at most 1202 u relative to tan(x) plus 30 least subnormals; zeros keep their sign; infinities and NaNs give a quiet NaN.", "quantifier": "all finite doubles, all rounding modes, fused or not", "why_tests_cant": "error of a quotient of two approximations near zeros and poles for all arguments", "anchors": ["include/ccmath/internal/math/generic/func/trig/tan_gen.hpp", "include/ccmath/math/trig/impl/sincos_double_impl.hpp"]}
{"id": "C60", "title": "float sin and cos: accuracy and special values", "statement": "For every finite float, sin and cos return a finite value within 7.2 u of the mathematical value (u = 2^-24 to nearest, 2^-23 otherwise) and within 49 u of it relative to the value (plus 12 least subnormals); zeros keep their sign, infinities and NaNs give a quiet NaN, and no input is undefined behaviour.", "quantifier": "all 2^32 bit patterns, four rounding modes, fused or unfused multiply_add, run time and constant evaluation", "why_tests_cant": "2^32 inputs times four modes times build configurations, against a transcendental reference; the relative claim depends on how close a float can be to a multiple of pi/2", "anchors": ["include/ccmath/math/trig/impl/sincos_float_impl.hpp", "include/ccmath/math/trig/impl/sincos_float_data.hpp", "include/ccmath/math/trig/impl/sincos_payne_hanek.hpp", "include/ccmath/internal/support/multiply_add.hpp"]}
{"id": "C61", "title": "float tan: accuracy and special values", "statement": "tan of every finite float is finite, with error at most 100 u relative to tan(x) plus 30 least subnormals; zeros keep their sign; infinities and NaNs give a quiet NaN.", "quantifier": "all finite floats, all rounding modes, fused or not", "why_tests_cant": "the error of a quotient of two approximations near zeros and poles; needs a lower bound on |cos x| over all floats", "anchors": ["include/ccmath/internal/math/generic/func/trig/tan_gen.hpp", "include/ccmath/math/trig/impl/sincos_float_impl.hpp"]}
{"id": "C62", "title": "double exp: accuracy, overflow, special values", "statement": "For every finite double x up to 709.782712893384 exp(x) is finite, not negative and within a relative error of 1.06*2^-53 (round to nearest; 1.3*2^-52 in the directed modes) of e^x, plus 0.51 (1.01) of the least subnormal; for every greater finite x the result is the overflow result of the rounding mode; exp(+-0)=1, exp(+inf)=+inf, exp(-inf)=+0, NaN gives NaN.", "quantifier": "all doubles, all four rounding modes", "why_tests_cant": "2^64 arguments in four modes; a wrong bit in one of 256 table words or a lost low part shows up only for some arguments in the last place", "anchors": ["include/ccmath/math/expo/impl/exp_double_impl.hpp", "include/ccmath/math/expo/impl/exp_data.hpp"]}
{"id": "C63", "title": "double expm1: accuracy, overflow, special values", "statement": "For every finite double x up to 709.782712893384 expm1(x) is finite and within 8*2^-53 relative (8*2^-52 in directed modes) of e^x-1, plus 2^-1072; above, the overflow result of the rounding mode; expm1(+-0)=+-0, expm1(+inf)=+inf, expm1(-inf)=-1, NaN gives NaN.", "quantifier": "all doubles, all four rounding modes", "why_tests_cant": "2^64 arguments in four modes; the failing interval (-1024,-512] is never hit by tests that stop at moderate arguments", "anchors": ["include/ccmath/math/expo/impl/exp_double_impl.hpp", "include/ccmath/internal/math/generic/func/expo/expm1_gen.hpp"]}
{"id": "C64", "title": "double exp2: accuracy, exact powers, overflow, special values", "statement": "For every finite double x below 1024 exp2(x) is finite, not negative and within a relative error of 1.07*2^-53 (round to nearest; 1.32*2^-52 in the directed modes) of 2^x, plus 0.51 (1.01) of the least subnormal; for every integer -1074 <= n <= 1023 exp2(n) is exactly 2^n in every mode; from 1024 on the result is the overflow result of the mode; exp2(+-0)=1, exp2(+inf)=+inf, exp2(-inf)=+0, NaN gives NaN.", "quantifier": "all doubles, all four rounding modes", "why_tests_cant": "2^64 arguments in four modes; double rounding of subnormal results and the switch of scaling at |x|=928 affect few arguments", "anchors": ["include/ccmath/math/expo/impl/exp2_double_impl.hpp", "include/ccmath/math/expo/impl/exp_data.hpp"]}
{"id": "C65", "title": "float exp: accuracy, overflow, underflow, special values", "statement": "For every finite float x up to 88.72283172607422 exp(x) is finite, not negative and within a relative error of 1.02*2^-24 (round to nearest; 1.1*2^-23 in the directed modes) of e^x, plus half (once) the least subnormal; above, the overflow result of the rounding mode; exp(+-0)=1, exp(+inf)=+inf, exp(-inf)=+0, NaN gives NaN.", "quantifier": "all floats, all four rounding modes", "why_tests_cant": "2^32 arguments in four modes against a reference of higher precision; a wrong table word shows up in the last place only", "anchors": ["include/ccmath/math/expo/impl/exp_float_impl.hpp", "include/ccmath/math/expo/impl/exp_data.hpp"]}
{"id": "C66", "title": "float exp2: accuracy, exact powers, overflow, underflow, special values", "statement": "For every finite float x below 128 exp2(x) is finite, not negative and within a relative error of 1.02*2^-24 (round to nearest; 1.1*2^-23 in the directed modes) of 2^x, plus half (once) the least subnormal; for every integer -149 <= n <= 127 exp2(n) is exactly 2^n in every mode; from 128 on the overflow result of the mode; exp2(+-0)=1, exp2(+inf)=+inf, exp2(-inf)=+0, NaN gives NaN.", "quantifier": "all floats, all four rounding modes", "why_tests_cant": "2^32 arguments in four modes; the failing interval (-150,-149) lies below the smallest subnormal result", "anchors": ["include/ccmath/math/expo/impl/exp2_float_impl.hpp", "include/ccmath/math/expo/impl/exp2_data.hpp"]}
{"id": "C67", "title": "float expm1: accuracy, overflow, special values", "statement": "For every finite float x up to 88.72283172607422 expm1(x) is finite and within a relative error of 1.45*ru of e^x-1 where |x|<=1/16 or |x|>=1/4, and of 4*ru in between (ru = 2^-24 in round to nearest, 2^-23 in the directed modes), plus four times the least subnormal; above, the overflow result of the rounding mode; expm1(+-0)=+-0, expm1(+inf)=+inf, expm1(-inf)=-1, NaN gives NaN.", "quantifier": "all floats, all four rounding modes", "why_tests_cant": "2^32 arguments in four modes against a reference of higher precision; the seams at 1/16, 1/4, 88.7 and -103.97 touch few arguments", "anchors": ["include/ccmath/math/expo/impl/exp_float_impl.hpp"]}
{"id": "C68", "title": "tgamma: positive integers and the neighbourhood of zero", "statement": "For every integer k from 1 to 171 double tgamma(k) is finite and within a relative error of 1.01*(k-23)*ru of (k-1)! (exact up to 23; ru = 2^-53 in round to nearest, 2^-52 in the directed modes); for every x with 2^-1023 <= |x| <= 2^-53 it is finite and within 5*ru of Gamma(x); float tgamma(k) is within 1.01*2^-24 (2^-23 directed) of (k-1)! for every integer k with (k-1)! representable.", "quantifier": "all such arguments, all four rounding modes, with or without fused multiply-add", "why_tests_cant": "about 10^18 tiny arguments; errors of a few units in the last place; directed modes", "anchors": ["include/ccmath/math/misc/impl/gamma_double_impl.hpp", "include/ccmath/math/misc/impl/gamma_float_impl.hpp"]}
{"id": "C69", "title": "double asin and acos: accuracy and special values", "statement": "For every double x with |x| <= 1, acos(x) is finite, not negative and within 2.81 rounding units (relative) of arccos x; asin(x) is within 1.55 units for |x| <= 1/2, 8 units above 1/2 and 14 units below -1/2; NaN, infinities and |x| > 1 give NaN; zeros and +-1 give the prescribed values. asin is not odd.", "quantifier": "all doubles, four rounding modes, with or without fused multiply-add", "why_tests_cant": "2^63 arguments; the reference is a real function", "anchors": ["include/ccmath/math/trig/impl/inv_trig_impl.hpp", "include/ccmath/math/trig/impl/inv_trig_data.hpp"]}
{"id": "C70", "title": "double atan: accuracy, special values, recursion depth", "statement": "For every finite double x, atan(x) is finite and within 18 rounding units (plus 3 least subnormals) of arctan x; zeros are returned unchanged, infinities give +-pi/2, NaN gives NaN; the recursive call never recurses again.", "quantifier": "all doubles, four rounding modes, with or without fused multiply-add", "why_tests_cant": "2^64 arguments; termination for all inputs", "anchors": ["include/ccmath/math/trig/impl/inv_trig_impl.hpp"]}
{"id": "C71", "title": "double atan2: accuracy and special values", "statement": "For all finite doubles y, x not both zero, atan2(y, x) is finite and within 22 rounding units (plus 5 least subnormals) of the angle of the point (x, y) in (-pi, pi], also when y/x over- or underflows; zeros, infinities and NaN give the values of C annex F.10.1.4 (atan2(-0, x<0) should be -pi).", "quantifier": "all pairs of doubles, four rounding modes, with or without fused multiply-add", "why_tests_cant": "2^128 pairs of arguments", "anchors": ["include/ccmath/math/trig/impl/inv_trig_impl.hpp"]}
{"id": "C72", "title": "double log: accuracy, sign and special values", "statement": "For every positive finite double x and every rounding mode, log(x) is finite and its relative error is at most 1.25 rounding units (2^-53 to nearest, 2^-52 directed); it is positive exactly when x > 1 and negative exactly when x < 1; log(+-0) = -inf, log(1) = +0, log(+inf) = +inf, negative and NaN arguments give NaN.", "quantifier": "all positive finite arguments, four rounding modes", "why_tests_cant": "2^63 arguments; the reference is a real function", "anchors": ["include/ccmath/math/expo/log.hpp", "include/ccmath/math/expo/impl/log_double_impl.hpp", "include/ccmath/math/expo/impl/log_data.hpp"]}
{"id": "C73", "title": "double log2: accuracy, sign and special values", "statement": "For every positive finite double x and every rounding mode, log2(x) is finite and its relative error is at most 1.8 rounding units; its sign is that of x - 1; special values as for log, a NaN is returned unchanged.", "quantifier": "all positive finite arguments, four rounding modes", "why_tests_cant": "2^63 arguments; the reference is a real function", "anchors": ["include/ccmath/math/expo/log2.hpp", "include/ccmath/math/expo/impl/log2_double_impl.hpp", "include/ccmath/math/expo/impl/log2_data.hpp"]}
{"id": "C74", "title": "log2 of powers of two is exact", "statement": "log2 of every power of two (subnormal ones included) is the exponent, in float and double and in every rounding mode.", "quantifier": "all powers of two of both formats, four rounding modes", "why_tests_cant": "exhaustive over 2098 doubles in four modes; a test suite runs in one mode only", "anchors": ["include/ccmath/math/expo/impl/log2_double_impl.hpp", "include/ccmath/math/expo/impl/log2_float_impl.hpp"]}
{"id": "C75", "title": "float log: accuracy, sign and special values", "statement": "For every positive finite float x and every rounding mode, log(x) is finite and its relative error is at most 1.625 rounding units (2^-24 to nearest, 2^-23 directed); its sign is that of x - 1; special values as for the double function.", "quantifier": "all positive finite arguments, four rounding modes", "why_tests_cant": "the reference is a real function; four rounding modes", "anchors": ["include/ccmath/math/expo/log.hpp", "include/ccmath/math/expo/impl/log_float_impl.hpp", "include/ccmath/math/expo/impl/log_data.hpp"]}
{"id": "C76", "title": "float log2: accuracy, sign and special values", "statement": "For every positive finite float x and every rounding mode, log2(x) is finite and its relative error is at most 1.625 rounding units; its sign is that of x - 1; special values as for the double function.", "quantifier": "all positive finite arguments, four rounding modes", "why_tests_cant": "the reference is a real function; four rounding modes", "anchors": ["include/ccmath/math/expo/log2.hpp", "include/ccmath/math/expo/impl/log2_float_impl.hpp", "include/ccmath/math/expo/impl/log2_data.hpp"]}
{"id": "C77", "title": "log10: accuracy, sign and special values", "statement": "For every positive finite argument and every rounding mode, log10(x) is finite and its relative error is at most 2.5 rounding units in double and 3.1 in float; its sign is that of x - 1; special values as for log.", "quantifier": "all positive finite arguments, four rounding modes", "why_tests_cant": "2^63 arguments; the reference is a real function", "anchors": ["include/ccmath/math/expo/log10.hpp", "include/ccmath/math/expo/impl/log10_impl.hpp"]}
{"id": "C78", "title": "log10 of powers of ten is exact", "statement": "If a finite argument is 10^k, log10 returns exactly k.", "quantifier": "all powers of ten representable in float or double, four rounding modes", "why_tests_cant": "the set of representable powers must itself be established; four rounding modes", "anchors": ["include/ccmath/math/expo/log10.hpp", "include/ccmath/math/expo/impl/log10_impl.hpp"]}
{"id": "C79", "title": "cbrt: accuracy, sign, oddness and special values", "statement": "For every finite argument x, in float and double and in every rounding mode, cbrt(x) is finite and within 2.7 rounding units (relative) of the real c with c^3 = x; it has the sign of x and is zero only for a zero; cbrt(-x) = -cbrt(x) bit for bit; NaNs, infinities and zeros are returned unchanged.", "quantifier": "all arguments of both formats, four rounding modes", "why_tests_cant": "2^64 arguments, four rounding modes; the reference is a real function", "anchors": ["include/ccmath/internal/math/generic/func/power/impl/cbrt_impl.hpp", "include/ccmath/internal/math/generic/func/power/cbrt_gen.hpp"]}
{"id": "C80", "title": "cbrt of a perfect cube is exact", "statement": "If the real cube root of a finite non-zero double (float) is itself a double (float) r, cbrt returns exactly r, in every rounding mode.", "quantifier": "all finite arguments of both formats with a representable cube root, four rounding modes", "why_tests_cant": "about 2^17 significands times 700 exponents times four rounding modes; a starting value one unit different can change the last rounding", "anchors": ["include/ccmath/internal/math/generic/func/power/impl/cbrt_impl.hpp"]}
{"id": "C81", "title": "log1p of double is accurate", "statement": "For every finite double above -1 log1p is within a few roundings of log(1+x), has the sign of its argument, and has the documented special values.", "quantifier": "all doubles, four rounding modes", "why_tests_cant": "2^64 arguments times four rounding modes; the code switches between three evaluation schemes at arbitrary thresholds and its worst error sits in narrow intervals near them", "anchors": ["include/ccmath/math/expo/log1p.hpp", "include/ccmath/math/expo/impl/log1p_impl.hpp", "include/ccmath/internal/math/runtime/func/expo/log1p_rt.hpp", "include/ccmath/internal/math/common/expo/log1p.hpp", "include/ccmath/internal/math/generic/builtins/expo/log1p.hpp", "include/ccmath/internal/math/generic/func/expo/log1p_gen.hpp"]}
{"id": "C82", "title": "log1p of float is accurate", "statement": "For every finite float above -1 log1p is within 4.52 roundings of log(1+x) (1.34 roundings near 0), has the sign of its argument, and has the documented special values.", "quantifier": "all floats, four rounding modes", "why_tests_cant": "2^32 arguments times four rounding modes against a real-valued reference", "anchors": ["include/ccmath/math/expo/log1p.hpp", "include/ccmath/math/expo/impl/log1p_impl.hpp", "include/ccmath/internal/math/runtime/func/expo/log1p_rt.hpp", "include/ccmath/internal/math/common/expo/log1p.hpp", "include/ccmath/internal/math/generic/builtins/expo/log1p.hpp", "include/ccmath/internal/math/generic/func/expo/log1p_gen.hpp"]}
{"id": "C83", "title": "lgamma: special values, definedness, integers and tiny arguments", "statement": "lgamma has the documented special values, is defined for every argument, is accurate at the integers from 1 to 170 (exact at 1 and 2) and for |x| <= 2^-53.", "quantifier": "all doubles and floats, four rounding modes, constant and run-time evaluation", "why_tests_cant": "undefined behaviour and accuracy over 2^64 arguments and four modes; the reference is the real function log|Gamma|", "anchors": ["include/ccmath/math/misc/lgamma.hpp", "include/ccmath/math/misc/impl/lgamma_double_impl.hpp", "include/ccmath/math/misc/impl/lgamma_impl.hpp", "include/ccmath/internal/math/runtime/func/misc/lgamma_rt.hpp", "include/ccmath/internal/math/common/misc/lgamma.hpp", "include/ccmath/internal/math/generic/builtins/misc/lgamma.hpp"]}
{"id": "C84", "title": "lgamma for large arguments", "statement": "From 8 on lgamma is within a few roundings of log Gamma(x).", "quantifier": "all doubles from 8 on, four rounding modes", "why_tests_cant": "an enclosure of log Gamma over all reals (Stirling with an explicit remainder) is needed as the reference", "anchors": ["include/ccmath/math/misc/lgamma.hpp", "include/ccmath/math/misc/impl/lgamma_double_impl.hpp", "include/ccmath/math/misc/impl/lgamma_impl.hpp", "include/ccmath/internal/math/runtime/func/misc/lgamma_rt.hpp", "include/ccmath/internal/math/common/misc/lgamma.hpp", "include/ccmath/internal/math/generic/builtins/misc/lgamma.hpp"]}
{"id": "C85", "title": "pow with integer exponents: accuracy", "statement": "For a normal x and a non-zero integer n with |n| <= 1024 whose power is between 2^-1021 and (1-2^-50)*2^1024 in magnitude, pow(x,n) is the correctly rounded value of a number within one part in 2^83 of x^n, in the current mode, and errno and the explicit flags are untouched.", "quantifier": "all normal doubles, all integers up to 1024 in magnitude, four rounding modes, any logarithm/exponential kernel", "why_tests_cant": "the bound is over 2^63 bases and 2048 exponents in four modes; the error of repeated double-double multiplication has to be followed through the loop", "anchors": ["include/ccmath/internal/math/generic/func/power/pow_impl/pow_impl.hpp"]}
{"id": "C86", "title": "pow with integer exponents: exact and correctly rounded cases", "statement": "pow(x,n) is exactly x^n when |x| = o*2^g with o^n <= 2^53; pow(x,2) is the correctly rounded square, pow(x,1) is x and pow(x,-1) is the correctly rounded reciprocal, in every mode.", "quantifier": "all normal doubles, all integers up to 1024 in magnitude, four rounding modes, any logarithm/exponential kernel", "why_tests_cant": "exactness for all bases and exponents and modes at once", "anchors": ["include/ccmath/internal/math/generic/func/power/pow_impl/pow_impl.hpp"]}
{"id": "C87", "title": "pow with half-integer exponents: accuracy", "statement": "For a positive finite x and an odd n with 3 <= |n| <= 2047 whose power x^(n/2) is between 2^-1021 and (1-2^-50)*2^1024, pow(x, n/2) is the correctly rounded value of a number within one part in 2^83 of x^(n/2), in the current mode, and errno and the explicit flags are untouched.", "quantifier": "all positive finite doubles, all odd n up to 2047 in magnitude, four rounding modes, any logarithm/exponential kernel", "why_tests_cant": "the bound is over 2^63 bases, 2046 exponents and four modes; the error of the double-double square root is followed through the multiplication loop", "anchors": ["include/ccmath/internal/math/generic/func/power/pow_impl/pow_impl.hpp"]}
{"id": "C88", "title": "pow: accuracy for every exponent, through the logarithm/exponential kernel", "statement": "For every positive finite double x and finite double y with 2^-1021 <= x^y <= (1-2^-50)*2^1024, pow(x, y) is the correctly rounded value (in the current mode) of a number within one part in 2^58 of x^y, hence within 2^-53+2^-57 relative of x^y to nearest; errno and explicit flags are untouched. The same for negative x other than -1 and integer-valued y of any size. An overflow that reaches the clamped fast path does not set errno.", "quantifier": "all positive finite x (subnormals included), all finite y, four rounding modes at run time, constant evaluation in round-to-nearest, with and without fused multiply-add", "why_tests_cant": "2^127 argument pairs and four rounding modes; worst cases of the double-double kernel cannot be enumerated", "anchors": ["include/ccmath/internal/math/generic/func/power/pow_impl/pow_impl.hpp"]}
{"id": "C89", "title": "pow: faithful to nearest, exact when the power is a double; not so in the directed modes", "statement": "To nearest, pow(x, y) lies between the same two doubles as x^y (every double bound of the power is a bound of the result), and is exact whenever x^y is a double, for all positive finite x and finite y with the power in [2^-1021, (1-2^-50)*2^1024]. In the directed modes, where the source relies on pow being correctly rounded, it is not even faithful: pow(81, 0.25) misses the exact result 3.", "quantifier": "all positive finite x, all finite y with normal power, with and without fused multiply-add, run time and constant evaluation", "why_tests_cant": "exactness and faithfulness over 2^127 argument pairs; the failing directed cases are exact powers that random sampling does not hit", "anchors": ["include/ccmath/internal/math/generic/func/power/pow_impl/pow_impl.hpp", "include/ccmath/internal/math/runtime/func/power/pow_rt.hpp"]}
{"id": "C90", "title": "float pow: special-case table", "statement": "powf(x,+-0)=1 and powf(1,y)=1 even for NaN; other NaN arguments give NaN; powf(+-0,y) and powf(+-inf,y) are 0 or inf with the sign chosen by odd-integer y; an infinite exponent gives 1, 0 or inf by comparing |x| with 1; a negative finite base with a non-integer exponent is NaN with EDOM and FE_INVALID. The pole is reported as EDOM.", "quantifier": "every pair of floats, four rounding modes, run time and constant evaluation, with and without fused multiply-add", "why_tests_cant": "the special cases interact with a bit filter on the exponent, a loop for small integer powers, a replaced exponent and a second filter on the base; 2^64 pairs", "anchors": ["include/ccmath/internal/math/generic/func/power/pow_impl/powf_impl.hpp"]}
{"id": "C91", "title": "float pow: accuracy for every base except 2 and 10", "statement": "For every finite non-zero float x other than 2 and 10 and every finite y (integer-valued for negative x) with 2^-200 <= |x^y| <= 2^200, powf(x, y) is the correctly rounded value, in the current mode, of a number within one part in 2^31 of x^y, overflow and subnormal results included; to nearest an exactly representable power is returned exactly. For the bases 2 and 10 results just above half the least subnormal are flushed to zero, and toward zero or downward exact powers are missed.", "quantifier": "all finite x and y with the power in range, four rounding modes at run time, constant evaluation to nearest, with and without fused multiply-add", "why_tests_cant": "2^64 argument pairs times modes; the fast path, the rounding test and the double-double path each need their error bounded for all arguments", "anchors": ["include/ccmath/internal/math/generic/func/power/pow_impl/powf_impl.hpp", "include/ccmath/internal/support/helpers/exp10.hpp"]}
{"id": "C92", "title": "integer literal parser", "statement": "A string of binary, decimal or hexadecimal digits (either case, separators anywhere) with at most bits/1, bits/3, bits/4 digits parses to the number it writes modulo 2^bits, for built-in types and for wide integers with the chunked and the arithmetic path; every number that fits is read back from its printed digits in each base. Octal literals, upper-case prefixes, letters beyond f and over-long decimals are not handled as in C++.", "quantifier": "every string, every word size and count, both multiplication back ends", "why_tests_cant": "strings of every length with separators at every place; chunk boundaries depend on length and word size", "anchors": ["include/ccmath/internal/support/integer_literals.hpp"]}
{"id": "C93", "title": "conversion between wide integers with different word sizes", "statement": "Converting to larger or smaller words reduces modulo 2^bits when narrowing and keeps the value when widening; for a negative source that fills whole larger words the sign extension is lost.", "quantifier": "every word size, ratio, length and value, signed and unsigned", "why_tests_cant": "unbounded lengths and ratios; the defect needs one residue of the length", "anchors": ["include/ccmath/internal/types/big_int.hpp"]}
{"id": "C94", "title": "division of a wide integer by a half word times a power of two", "statement": "div_uint_half_times_pow_2(x, e) leaves the quotient by x*2^e and returns the remainder for every unsigned value, every non-zero half word x and every e; zero is reported.", "quantifier": "every word size 2^k, every length, value, x and e", "why_tests_cant": "state space unbounded in width; four cases of the last partial word for each bit offset", "anchors": ["include/ccmath/internal/types/big_int.hpp"]}
{"id": "C95", "title": "masks of wide integers and conversion to built-in integers", "statement": "mask_trailing_ones and mask_leading_ones have exactly the count low or high bits; to<T>() gives the value modulo 2^bits(T), signed and unsigned.", "quantifier": "every width, count and value", "why_tests_cant": "every count at every word boundary", "anchors": ["include/ccmath/internal/types/big_int.hpp", "include/ccmath/internal/support/math_support.hpp"]}
{"id": "C96", "title": "float acos, asin, atan and atan2", "statement": "Float acos is within 3 rounding units of the arccosine on [-1,1] and never negative; float asin is within 1.02 units up to 1/2, 9 above and 15 below -1/2; float atan is the correctly rounded value of a number within 2^-47 of the arctangent; float atan2 is within 5 units of the angle of (x,y), also when y/x overflows or underflows; NaN, infinity, zero and out-of-domain arguments as in the C standard except atan2(-0, x<0), which is +pi.", "quantifier": "every float (pair), four rounding modes, with and without fused multiply-add", "why_tests_cant": "2^64 pairs for atan2 times modes and contraction; the error bound composes three roundings with the polynomial error", "anchors": ["include/ccmath/math/trig/impl/inv_trig_impl.hpp", "include/ccmath/math/trig/impl/inv_trig_data.hpp"]}
{"id": "C97", "title": "loop version of floor", "statement": "The bracketing floor (double from one, then step by one) ends with the greatest integer not above x. Proved for every finite x >= -2^(F+1); below, every number that is not a power of two makes the second loop run forever in the default rounding mode.", "quantifier": "every float and double, every rounding mode, any number of iterations", "why_tests_cant": "the loop takes up to 2^52 steps and the defect is non-termination, which no finite run shows", "anchors": ["include/ccmath/internal/math/generic/func/nearest/floor_gen.hpp", "include/ccmath/internal/math/common/nearest/floor.hpp"]}
{"id": "C98", "title": "mathematical constants", "statement": "Each of the thirteen constants of ccm::numbers (e, log2 e, log10 e, pi, 1/pi, 1/sqrt pi, ln 2, ln 10, sqrt 2, sqrt 3, 1/sqrt 3, the Euler-Mascheroni constant, the golden ratio) is the real constant rounded to nearest, for float and double whatever the format of long double, and for the x87 long double; the double rounding through long double does no harm.", "quantifier": "thirteen real constants; three formats of long double; float, double and x87 long double", "why_tests_cant": "the expected value is a real number; a test compares with another literal of the same origin", "anchors": ["include/ccmath/math/numbers.hpp"]}
{"id": "C99", "title": "NormalizedFloat", "statement": "A NormalizedFloat made from a finite number other than zero has its value and converts back to it; the constructor from fields normalises without changing the value; cmp is the comparison of the values; mul2 multiplies by a power of two and the conversion back rounds once to nearest. Zero, infinities and NaN come back as one; zero compares greater than one half; a mantissa with too many bits loses them.", "quantifier": "every format, every finite number and every pair of them, every exponent that fits an int32_t", "why_tests_cant": "the type is only reached through ldexp, and cmp is called nowhere", "anchors": ["include/ccmath/internal/types/normalized_float.hpp"]}
{"id": "C100", "title": "radians and degrees", "statement": "radians(x) is pi*x/180 and degrees(x) is 180*x/pi with a relative error of at most 3.01 roundings (three roundings: the constant, the product, the quotient), as long as the product and the result stay in the normal range; NaN, infinities and zeros are kept with their sign. The product is formed first: radians of the largest number and degrees of 2^(emax-6) are infinite although the angle is representable.", "quantifier": "float and double, every format of long double, every rounding mode, every number with 60*minNormal <= |x| <= max/4 (radians) or minNormal <= |x| <= max/180 (degrees)", "why_tests_cant": "an error bound against an irrational number over all inputs; tests compare a handful of angles with a tolerance and no large ones", "anchors": ["include/ccmath/ext/radians.hpp:25-27", "include/ccmath/ext/degrees.hpp:25-27", "include/ccmath/math/numbers.hpp"]}
{"id": "C101", "title": "lerp_smooth", "statement": "For a non-negative time and a positive half-life, lerp_smooth(a,b,t,h) is finite and stays on the side of the target b on which a is; after n half-lives (t = n*h) it is b + (a-b)/2^n rounded once, if the difference and its part are representable. With no time elapsed the result need not be a: lerp_smooth(1, 2^60, 0, 1) is 0; at the target a large negative time gives NaN, and so does t = h = 0.", "quantifier": "float and double, every rounding mode, all finite a, b of at most a quarter of the largest power of two, all finite t >= 0 and h > 0", "why_tests_cant": "the claim is an inequality through exp2 and four roundings for all quadruples of numbers", "anchors": ["include/ccmath/ext/lerp_smooth.hpp:26-31", "include/ccmath/math/expo/exp2.hpp:36-45"]}
{"id": "C102", "title": "Bit searches of wide integers", "statement": "For unsigned wide integers first_trailing_zero, first_leading_zero and first_leading_one return the position (counted from one, from the bottom resp. the top) of the lowest zero, highest zero and highest one bit, and 0 if there is none. For signed types they are wrong for -1, max() and 0, because max() is not the all-ones value.", "quantifier": "every number of words and every power-of-two word size, every value", "why_tests_cant": "unbounded width; a test fixes a width and a few values", "anchors": ["include/ccmath/internal/types/big_int.hpp:1691-1705", "include/ccmath/internal/types/big_int.hpp:779-784"]}
{"id": "C103", "title": "approx_reciprocal of dyadic floats", "statement": "For a positive normalized dyadic float of at least 64 bits approx_reciprocal terminates and returns a normalized positive dyadic float x with |a*x - 1| <= 7*N*2^(2-Bits), N the number of words. For a negative number the iteration diverges (the start value is positive) and with 32 bits the start value does not fit the mantissa.", "quantifier": "every word size and number of words with at least 64 bits, every normalized positive dyadic float", "why_tests_cant": "convergence of an iteration with three truncated operations per step, for every precision; the function has no test in the repository", "anchors": ["include/ccmath/internal/types/dyadic_float.hpp:764-780"]}
{"id": "C104", "title": "Addition of double-double numbers", "statement": "In round-to-nearest, for double-double numbers whose high parts have the same sign with |a.hi| >= |b.hi| and low parts below one unit of the high parts, add(a, b) returns a normalized pair whose value is the exact sum up to 5.2 u^2 |a.hi + b.hi| (u the rounding unit), add(a, double) up to 3 u^2. The documented assumption |a.hi| >= |b.hi| alone is not enough: with opposite signs the result can be zero although the sum is not.", "quantifier": "every finite operands within the hypotheses, subnormal numbers included, every format of at least 4 significant bits", "why_tests_cant": "a second-order error bound for all pairs of doubles, including the underflow range; the failing inputs need exact cancellation of high and low parts", "anchors": ["include/ccmath/internal/types/double_double.hpp:40-64"]}
{"id": "C105", "title": "lerp_angle and move_towards_angle go the short way round", "statement": "For angles of whole degrees within the exact integer range, with D the angle from start to end in (-180, 180]: lerp_angle(start, end, t) for 0 <= t <= 1 lies between start and start + D, is start for t = 0 and exactly start + D (congruent to end) for t = 1; move_towards_angle never overshoots, arrives exactly at current + D with a step of at least |D| and otherwise moves by exactly S degrees for a step of S whole degrees. The safe variants return the same bits.", "quantifier": "every format of sufficient width, every rounding mode, every pair of whole-degree angles in range, every t in [0,1], every non-negative step", "why_tests_cant": "all pairs of angles, all interpolation parameters and all rounding modes; overshoot by one ulp shows only for special t", "anchors": ["include/ccmath/ext/lerp_angle.hpp:30-49", "include/ccmath/ext/move_towards_angle.hpp:28-50", "include/ccmath/ext/delta_angle.hpp"]}
{"id": "C106", "title": "Cubic interpolation of whole numbers is exact", "statement": "For whole numbers Y0..Y3 and T with |Yi| <= M, |T| <= K and 13 M K^3 <= 2^F, cubic(Y0,Y1,Y2,Y3,T) is in every rounding mode exactly the interpolation polynomial; it runs from Y1 at 0 to Y2 at 1. For all finite points of magnitude at most maxFin/26 the value at 0 is y1. For all doubles the end point is not reached: cubic(0, 2^60, 1, 0, 1) = 0.", "quantifier": "every format of sufficient width, every rounding mode, every whole-number points and parameter within the bound", "why_tests_cant": "thirteen rounded operations for all points, parameters and rounding modes", "anchors": ["include/ccmath/ext/cubic.hpp:26-38"]}
{"id": "C107", "title": "Integer overloads of abs and fabs", "statement": "abs of a signed integer is its absolute value except for the least value of the type (undefined from int upward, the argument itself for narrower types). abs of an unsigned integer goes through int and returns its argument exactly when it is below 2^31; larger arguments are truncated or undefined. fabs of an integer of magnitude at most 2^53 is exact in every rounding mode; beyond 53 bits it is rounded and depends on the mode.", "quantifier": "every integer type, every value of the type, every rounding mode", "why_tests_cant": "the failures depend on the width of the type and on values above 2^31; all values of all types", "anchors": ["include/ccmath/math/basic/fabs.hpp:43-127"]}
{"id": "C108", "title": "min of an int and a double", "statement": "min(x, y) for int x and finite double y is the smaller of the two rounded toward zero (undefined if that is below INT_MIN), because the overload returns the type of its first argument; the result may be neither argument and larger than the minimum. max returns the common type.", "quantifier": "every int, every finite double, every rounding mode", "why_tests_cant": "the unit tests compare equal types; the failing inputs are all non-integral minima", "anchors": ["include/ccmath/math/basic/min.hpp:56-64"]}
{"id": "C109", "title": "rcp is the correctly rounded reciprocal", "statement": "For every finite non-zero x, rcp(x) is 1/x correctly rounded in the current mode and has the sign of x; for powers of two whose reciprocal is representable it is exact and rcp(rcp(x)) is x bit for bit; zeros and infinities are exchanged; the reciprocal of the least subnormal overflows.", "quantifier": "every finite non-zero bit pattern, every format, every rounding mode", "why_tests_cant": "correct rounding for all inputs and modes", "anchors": ["include/ccmath/ext/rcp.hpp:23-25"]}
