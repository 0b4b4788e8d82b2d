# Formal model of ccmath in Lean 4

Source: `/repo` (Rinzii/ccmath, header-only C++17, pinned commit), read as text only.
Lean project: `/verif/lean` (`lake build`), modules in `lean/Verif/`.

## 1. Trusted base

* Lean 4.33 kernel; Mathlib (installed copy) as a library of checked proofs.
* Axioms: at most `propext`, `Classical.choice`, `Quot.sound` (section 6 says how this is checked).
  No `sorry`, `native_decide`, `bv_decide`, own axioms.
* Faithfulness of the hand translation C++ -> Lean. Each Lean definition cites file and lines.
* The C++ built-in operators `+ - * /`, comparisons and conversions on `float`/`double` are *not* ccmath
  code. They are modelled as IEEE 754 operations: exact result, one rounding in the active mode
  (`Verif/Hw.lean`, proved to meet the independent rounding specification of `Verif/Fmt.lean`).
  NaN payloads produced by the hardware are not modelled (canonical quiet NaN).
* The compiler builtins (`__builtin_*`) that ccmath selects on compilers that have them, and the SIMD
  back ends, are outside the model: the model is the portable branch in each function.
* No contraction of `a*b+c` into a fused operation by the compiler (`-ffp-contract=off`); each built-in operation rounds to its own type
  (`FLT_EVAL_METHOD == 0`).
* C++ integer arithmetic: `int` is 32 bits, two's complement; undefined behaviour (signed overflow,
  out-of-range float->int conversion, shift >= width) is a distinct outcome (`none`) where it can occur.

## 2. Modelling approach

* `Fmt` = (E exponent bits, F fraction bits). A floating-point value is its bit pattern, a natural number
  `< 2^(1+E+F)`; binary32 = (8,23), binary64 = (11,52). Theorems are about every format with
  `E >= 2, F >= 1` (or a stated side condition which binary32/64 satisfy), hence all inputs of float and double.
* Masks, shifts and merges of `fp_bits.hpp` are modelled literally with `Nat` bit operations.
* `val : Fmt -> Nat -> Real` gives the numerical value; the *specification* (`RoundsTo` in Fmt.lean) defines
  classification, order and "b is v rounded in mode m" only from `val` by quantifying over all
  representable values - independent of any algorithm.
* Rounding modes: nearest-even, toward zero, downward, upward.
* Wide integers are lists of limbs (little endian) of any length and any limb width.

## 3. Plan per property

| id | model | proof |
|----|-------|-------|
| C01 | FPBits observers, isnan.. fpclassify | bit fields <-> value |
| C02 | is* comparison functions over hardware order | order on patterns = order on values |
| C03 | fabs, signbit, copysign | bit algebra; copysign's multiplication by +-1 is exact |
| C04 | gen::min / gen::max | case analysis over order |
| C05 | gen::fdim | negation at a witness; partial outside the overflow band |
| C06-C10 | trunc, directional_round (floor, ceil, round, rint, nearbyint) | value of masked mantissa; exactness of truncated +- 1 |
| C11 | modf | truncation + exact subtraction |
| C12 | frexp | normalisation |
| C13 | ldexp, NormalizedFloat, internal_ldexp | round-bit/sticky lemma |
| C14 | scalbn float/double | exactness of all but the last multiplication |
| C15 | ilogb, logb | leading bit |
| C16 | nextafter, nextup, nextdown | adjacency of successive patterns |
| C17, C18 | fma.hpp fixed-point fma | alignment + sticky invariants, one rounding lemma, all modes |
| C19 | sqrt_gen.hpp | digit recurrence invariant |
| C20-C22 | fmod/remainder/remquo | negation at witnesses + partial; remquo refinement |
| C23 | nan_*_impl | induction on the tag string |
| C24 | hypot_impl | monotonicity of rounding |
| C25,C26 | pow_impl special cases, integer tests | case analysis; kernel is an arbitrary function parameter |
| C27-C30 | big_int.hpp | induction on limb lists |
| C31,C32 | dyadic_float.hpp | rounding lemma, truncation error |
| C33 | exact_add, two_sum, split, exact_mult | classical Dekker/Knuth proofs over the rounding spec |
| C34,C35 | bits.hpp, ctz.hpp, math_support.hpp | induction on bisection loops |
| C36-C39 | ext integer helpers | Nat/Int arithmetic with wrap-around |
| C40-C43 | ext float helpers, lerp | monotonicity/exactness of rounding |
| C44 | nearest_integer | magic-number lemma |
| C45 | cast | rounding lemma |
| C46 | fp::op add/sub/mul | negations at witnesses, partial where right |
| C47 | exact_sign_of_sum, cr_rsqrt | fixed-point sum = real sum |
| C48 | Payne-Hanek accumulator | sum invariant modulo 2^256 |
| C49 | ExceptValues | list induction |
| C50 | gamma special cases | case analysis with undefined conversions as outcome |
| C51-C57 | hypot accuracy, pow(x,+-0.5), further ext helpers, one-ulp nudges | rounding lemmas |
| C58, C59 | sin, cos, tan of doubles | distance of doubles to multiples of pi/2 (continued fractions, as C60), reduction error (exact products), Taylor remainder of the polynomials, rounding error of each step, recombination |
| C60, C61 | sin, cos, tan of floats | as C58; relative error from the distance of floats to multiples of pi/2 (continued fractions of 2^k * 2/pi, checked per exponent by kernel evaluation) |
| C62 | exp of doubles | bounds on log 2 (series), table entries against the 128th roots of 2 (128th powers, kernel evaluation), Taylor remainder, rounding error of each step, second rounding of subnormal results |
| C63 | expm1 of doubles | Taylor remainder of the nine-term series and its rounding error; C62's kernel bounds with cancellation at 1/4 handled by |e^x-1| >= c e^x; negations on (-1024,-512] and at -1/4 |
| C64 | exp2 of doubles | as C62 with the reduction exact up to one rounding; integers: every step of the polynomial is exactly zero, so the scale is returned unrounded |
| C65 | exp of floats | the 32 table entries are those of C62; cubic against Taylor with fifth-order remainder; one final rounding to float; negation below -103.97 |
| C66 | exp2 of floats | the same core with the exact reduction; integers as in C64; negation between -150 and -149 |
| C67 | expm1 of floats | series against Taylor with the seventh-order remainder; doubling formula between 1/16 and 1/4; the core of C65 minus 1 elsewhere |
| C68 | tgamma at integers and near zero | rounding error of the factorial loop by induction; |Gamma(1+x)-1| <= 1.546|x| from log-convexity for the reciprocal branch; negations at 171 and (float) 35 |
| C69 | double asin, acos | Taylor remainder of arcsin and a kernel-checked bound of the coefficient polynomial (PolyBound); running error analysis (Ap); arccos x = 2 arcsin sqrt((1-x)/2) |
| C70 | double atan | arctan x = arcsin(x/sqrt(1+x^2)) with Lipschitz bounds; reciprocal for x > 1; the recursion is proved to stop at depth two |
| C71 | double atan2 | error of the rounded quotient through arctan, overflow and underflow included; reference Complex.arg; negation for y = -0, x < 0 |
| C72, C73 | double log, log2 | bit-level argument reduction; every table row checked against the real logarithm in exact integer arithmetic (logChk); polynomial remainders by kernel-checked bounds (PolyBound); exactness of the head terms and running error analysis (Ap) |
| C74 | log2 of powers of two | the last rounding has an argument within 2^-56 of the integer; the float path is exact step by step; negation for double in directed modes |
| C75, C76 | float log, log2 | as C72 in double arithmetic, then one rounding to float; the lower bound of the logarithm near 1 from the patterns next to 1 |
| C77 | log10 | error of log times the rounded constant 1/log 10; log 10 = 3 log 2 + log(5/4) bounded in exact arithmetic |
| C78 | log10 of powers of ten | 5^k must fit the significand, so k <= 22 (10 in float); every remaining power evaluated by the kernel; negations for 1e15, 1e9 and directed modes |
| C79 | cbrt | the starting value exp(log(x)/3) has relative error below 563 (float: 93) units by C62/C72 (C65/C75); one Newton step leaves the four roundings of the step; sign removed and restored exactly |
| C80 | perfect cubes | a cube root that is a floating-point number has at most 18 (8) significant bits; the Newton step is then followed on the grid of the format: the quotient lands within one or two units of 3c-2y, and the sum rounds to 3c (tie to even, or the directed rounding of the square has the right sign) |
| C81 | log1p of double (partial: 2^-44 instead of a few roundings) | the series is the truncated atanh series at s = x/(2+x); its remainder and the rounding errors are bounded separately; outside the middle interval the error of 1+x is pushed through the logarithm |
| C82 | log1p of float (partial: not the greatest float in upward mode) | the same with the kernel evaluated in double |
| C83 | lgamma: special values, exactly where it is undefined, integers, tiny arguments | case analysis of the code; the sum of logarithms by induction; the recursive call is removed by lgammaDouble_step |
| C84 | lgamma from 8 on (partial: the formula has a wrong term) | Stirling's formula with remainder between 0 and 1/(12x) is proved in Lemmas/Stirling; rounding errors by the Ap calculus |
| C85 | pow(x, n) for integers: correctly rounded value of a number within 2^-83 of the power | relative error of every double-double product, carried through the square-and-multiply loop as a multiple of 2^-96 (Lemmas/Ipow1..3); the last rounding is a correct one (RoundsTo.scale moves it through ldexp) |
| C86 | pow(x, n): exact when the power is representable with a small odd part, x^2 and 1/x correctly rounded | the low words stay zero (Lemmas/Ipow4), respectively the product of a number with itself is exact as a pair (Lemmas/Ipow5) |
| C87 | pow(x, n/2) for odd n: correctly rounded value of a number within 2^-83 of the power | dd_sqrt is accurate to 14*2^-104 (Lemmas/Ipow6); the rest as C85 |
| C88 | pow(x, y) for every exponent: correctly rounded value of a number within 2^-58 of the power | table rows checked against the real logarithm and 2^(k/64) by verified rational enclosures (PowK3, PowK8), exact argument reductions, double-double error calculus in every rounding mode (PowK1..K7), exponent shift on the bit pattern (PowK8), last rounding moved through the scaling (PowK9); the fast logarithm only has to choose the scale (PowK10) |
| C89 | pow to nearest is faithful and exact on representable powers; directed modes refuted | C88 leaves an error of 2^-58 before the last rounding, less than half the relative gap between doubles (double_gap) |
| C90 | special cases of the float pow | case analysis over the two filters of handle_exceptional_cases; signs through the small-integer loop by induction (powfInt_sign) |
| C91 | float pow is the rounding of a number within 2^-31 of x^y; exact powers exact to nearest; bases 2 and 10 refuted near underflow | error of the 2^-6 table reduction, of the polynomials and of the double-double path (PowF1-PowF5), exact scaling of subnormal bases, induction for the small-integer loop, a large exponent forces base +-1 |
| C92 | digit strings parse to the number they write, modulo 2^bits; printed numbers are read back | fold over the characters, Horner sums split at chunk boundaries, `Nat.toDigits` from Lean's library as the printer |
| C93 | conversions between word sizes; sign extension refuted for sources that fill whole words | loop invariant `done + 2^(..) cur = first i words`, bitwise proof for the splitting direction |
| C94 | quotient and remainder by x*2^e | induction over the words for the half-word long division, case analysis of the last partial word |
| C95 | masks and conversions to built-in integers | bit by bit, and a fold invariant |
| C96 | accuracy and special cases of the float inverse trigonometric functions | running error analysis in float units (ApF), the double results rounded once, arctan is 1-Lipschitz for the rounded quotient |
| C97 | the loop version of floor ends with the floor; it does not end below -2^(F+1) | loops on fuel with a decreasing measure; the stuck state -2^k + 1 = -2^k for every k |
| C98 | the constants of `ccm::numbers` are correctly rounded | rational bounds of each constant (series of log, Euler–Maclaurin bounds of the harmonic numbers for the Euler–Mascheroni constant), monotonicity of rounding |
| C99 | `NormalizedFloat` represents, compares and scales exactly | lexicographic comparison of (exponent, mantissa) against the real values; reuse of the ldexp lemmas |
| C100 | `radians`, `degrees` within 3.01 roundings of the real angle, every rounding mode | C98 for the constant, relative error of one operation in the normal range, three times |
| C101 | `lerp_smooth` never passes the target and halves the distance per half-life | accuracy and integer cases of `exp2` (C64, C66), monotonicity of rounding |
| C102 | `first_trailing_zero`, `first_leading_zero`, `first_leading_one` of wide integers | bit counts of C30 and the complement |
| C103 | `approx_reciprocal` converges for positive numbers | start value from the integer quotient; Newton step with the error bounds of C32; the number of correct bits of the loop as invariant |
| C104 | `add` of double-double numbers has an error of `5.2 u²` (`3 u²` for a double) for high parts of one sign | C33 for both exact additions; every rounded addition has a relative error `u`, also among the subnormals (sums of multiples of the least number are exact there) |
| C105 | `lerp_angle` and `move_towards_angle` take the short way, do not overshoot and arrive at an angle congruent to the target | C55 and C41; products and sums between representable bounds stay between them |
| C106 | `cubic` of whole numbers is exactly the polynomial (partial: fractional points have no error bound) | every intermediate value is a whole number of at most `2^F` |
| C107 | integer `abs`, `labs`, `llabs`, `fabs`: exact characterization of where they are right | case analysis on the promoted type |
| C108 | `min(int, double)` is the minimum rounded toward zero | C04 and the conversion to `int` as floor or ceiling |
| C109 | `rcp` is correctly rounded, exact and involutive on powers of two | IEEE division; representability of powers of two |

Not expressed: accuracy of pow when the result is subnormal or overflows, accuracy of the float pow outside 2^-200..2^200 and for the bases 2 and 10, SIMD back ends
(compiler builtins), x87 80-bit paths except where stated.

## 4. Disagreements between code and property (proved as negations)

Each line names the theorem that proves the failure with a concrete input (`decide +kernel`: evaluation by the kernel, no compiler).
The corresponding property is then `partial` in the manifest unless its statement already excludes the case.

| theorem | what the code does |
|---|---|
| C01_nvidia_ambiguous | the NVIDIA macro configuration gives two classes of `fpclassify` the same number |
| C03_fabs_nan_payload_lost, C03_copysign_nan_sign_wrong | `fabs` replaces a NaN by the canonical one; `copysign(x, NaN)` returns NaN |
| C05_fdim_wrong_overflow | `fdim(1, -DBL_MAX) = +inf` although the rounded difference is finite |
| C13_ldexp_directed_wrong | `ldexp` rounds to nearest in directed modes |
| C20_fmod_wrong, C20_fmod_zero_sign_wrong, C20_fmod_zero_nan_wrong | inexact quotient makes `fmod` wrong; `fmod(-6,3) = +0`; `fmod(0,NaN) = 0` |
| C21_remainder_wrong, C21_remainder_inf_wrong | `remainder` truncates the quotient; `remainder(1,inf)` is NaN |
| C22_remquo_constexpr_wrong | constant-evaluated `remquo` is wrong for large quotients; NaN cases leave `*quo` unset |
| C23_nan_payload_wrong | long tags and octal tags give the wrong payload |
| C26_is_integer_zero_wrong | `is_integer(0) = false` |
| C27-C30 | negative signed values are zero-extended when widened; `mul(word)` always returns carry 0; `rotl` by a negative count for widths not dividing 2^32; `first_trailing_one` of 0 and of all ones |
| C32_quick_add_documented_wrong, C32_quick_add_far_wrong, C32_quick_mul_documented_wrong, C32_as_mantissa_rounded_wrong | documented error bounds of `quick_add`, `quick_mul` fail; exponent lost for far operands; upward rounding of 1/2 gives 0 |
| C34_popcount_fallback_wrong, C34_rotl_undefined | 16/32-bit popcount fallbacks; `rotl(t, INT_MIN)` is undefined |
| C36_align_up_wraps, C36_align_up_undefined, C37_ceil_div_wrong, C38_signed_undefined, C39_abs_diff_undefined | wrap-around and signed overflow in the integer helpers |
| C43 | `fract(-2^-60) = 1`, `repeat(61.9, 0.1) < 0`, `repeat(1793205730701976832, 3) = 256` |
| C44_directed_wrong, C44_constexpr_wrong | `nearest_integer` in upward mode and in constant evaluation above 2^52 |
| C46_sign_wrong, C46_zero_inf_wrong, C46_subnormal_wrong | `fp::op::add/sub`: wrong sign when the second operand dominates, `x + 0 = 0`, `1 - inf = +inf`, subnormal operands |
| C54 | `smoothstep` exceeds 1 in upward mode |
| C58_relative_attained | the double sine of `0x1.39c6fd67805a7p+19` is off by about 40 units in the last place with a fused multiply-add and about 63 without: the three-part constant of the small reduction is too short for arguments near 2^20 |
| C60_unfused_wrong | without a fused multiply-add (also in constant evaluation without a builtin) float `sin(230014.84375f)` is off by 0.0078: the product of the quotient and the first part of pi/8 no longer is exact above 32 |
| C63_expm1_negative_wrong | double `expm1(x)` for every x in (-1024, -512] returns `e^x` (positive) instead of about -1 |
| C63_expm1_series_wrong | between 1/16 and 1/4 in magnitude `expm1` loses up to 1290 units in the last place: the series is too short for half the argument |
| C65_expf_underflow_wrong | float `exp(x)` for every finite x < -103.97207641601562 returns the least subnormal `2^-149` in round-to-nearest, where zero is the nearest float (the constant of the "may underflow" product is used for certain underflow) |
| C66_exp2f_underflow_wrong | float `exp2(x)` for every x in (-150,-149) returns 0 in round-to-nearest, where `2^-149` is the nearest float |
| C50_negative_integer_wrong, C50_float_negative_integer_wrong | `tgamma` of every negative integer below -2^31 converts it to `int32` (undefined) before testing the sign |
| C68_tgamma_wrong | double `tgamma(171)` is wrong in the ninth digit (relative error above 2^-28): the polynomial of the general branch is good to eight digits only |
| C68_tgammaf_wrong | float `tgamma(35)` returns infinity although 34! is below FLT_MAX (threshold 34.8 instead of 35.04) |
| C69_asin_not_odd, C70_atan_not_odd | `asin(-x)` and `-asin(x)` (and the same for `atan`) differ by two units in the last place for some x, because negative arguments go through `pi/2 - acos(x)` with acos near 2 |
| C71_negative_zero_wrong | `atan2(-0, x)` for every finite x < 0 returns +pi instead of -pi (`y >= 0` holds for -0) |
| C74_log2_pow2_directed_wrong | `log2(8)` is `3 + 2^-51` upwards and `3 - 2^-51` downwards; the same happens at nearly every power of two in the directed modes |
| C78_log10_1e15_wrong, C78_log10f_1e9_wrong, C78_log10_directed_wrong | `log10(1e15) != 15` and `log10(1e9f) != 9` to nearest; `log10(1000) != 3` in the directed modes |
| C81_log1p_few_roundings_wrong | log1p of double is off by more than 200 roundings at 0.41: the kernel uses seven Taylor coefficients 2/3, 2/5, ..., 2/15 of the atanh series (not a minimax polynomial) and is used up to s = 0.17, where its remainder is s^16/16 relative |
| C81_log1p_max_up_wrong, C82_log1pf_max_up_wrong | log1p of the greatest finite number in upward mode: 1+x overflows to infinity and the kernel of log is called with it; the result is 673.7 instead of 709.8 (72.8 instead of 88.7) |
| C84_stirling_wrong | lgamma is too large by at least 1/(13x) at every argument from 8 to 2^19 that takes the branch of Stirling's formula, e.g. an error of 0.0098 at 8.5: the first correction coefficient is 1/6 (`0x1.5555555555555p-3`) instead of 1/12 |
| C83_defined_partial | lgamma of an integer from 2^31 on (so of every finite double from 2^52 on) converts an out-of-range double to int32: undefined behaviour |
| C86_square_subnormal_wrong | pow(x, 2) with a subnormal result is not always correctly rounded to nearest: reconstruct_scaled rounds the fraction of the last unit before comparing it with one half, e.g. x = 0x1FF0000000000001 gives 2^50 units although x^2 is 2^50 + 1/2 + 2^-54 units |
| C88_pow_overflow_no_errno | pow overflows to infinity without errno when 64 y log2 x is beyond the clamp of the kernel, e.g. (1+2^-52)^(2^62+2^10); an overflow just above the range sets ERANGE |
| C89_pow_directed_wrong | pow_rt falls back to the generic pow outside round-to-nearest because it is "correctly-rounded"; in the directed modes 81^(1/4) = 3 is returned one unit too low or too high |
| C91_powf_directed_wrong | powf(81, 0.25) toward zero and downward is the float below 3 |
| C91_powf_base2_wrong, C91_powf_base10_wrong | powf(2, -149.5) and powf(10, -45) are 0 to nearest although the least subnormal 2^-149 is nearer (exp2/exp10 flush below -149 and -150) |
| C91_powf_overflow_no_errno | overflow through the small-integer path of powf sets neither errno nor flags, through the fast path it does |
| C90_powf_zero_base | the pole powf(+-0, negative) sets EDOM where C specifies ERANGE |
| C92_octal_wrong, C92_upper_prefix_rejected | `0777_u128` is 777 (511 in C++); `0XFF_u128` and `0B1_u128` are rejected |
| C92_invalid_digits_accepted, C92_decimal_wraps, C92_too_many_digits | the parser takes g..z in base 16 and 2..9 in base 2, wraps over-large decimals silently, counts leading zeros, and has room for two decimal digits of an 8-bit number |
| C93_up_sign_extension_lost | widening a negative number of 2n half-size words: the next word is zero, so -1 becomes 2^64 - 1 in 128 bits (all sizes) |
| C94_signed_wrong | div_uint_half_times_pow_2 on a negative signed number divides its unsigned bits |
| C96_asinf_not_odd, C96_atan2f_negative_zero_wrong | float versions of the two findings above for asin and atan2 |
| C97_floor_gen_diverges, C97_floor_gen_diverges_float | the loop version of floor never ends for any finite x < -2^53 (double) or -2^24 (float) that is not a power of two: `++result` no longer changes the result |
| C99_zero_becomes_one, C99_cmp_zero_wrong, C99_wide_mantissa_wrong | `NormalizedFloat` turns zero, the infinities and NaN into one, compares zero as greater than one half, and drops the top bits of a mantissa with more than F+1 bits (documented as not represented for the first; `ldexp` filters these cases) |
| C100_radians_overflow, C100_degrees_overflow | `radians(DBL_MAX)` and `degrees(2^1017)` are infinite although the angle is representable: the product is formed before the quotient |
| C101_no_time_wrong, C101_nan | `lerp_smooth(1, 2^60, 0, 1)` is 0 although no time has passed (`b + (a - b)`); `lerp_smooth(1, 1, -2000, 1)` and `lerp_smooth(a, b, 0, 0)` are NaN |
| C102_signed_wrong | for signed wide integers `first_leading_zero(-1)` is width + 1, `first_leading_zero(max())` is 0 and `first_leading_one(0)` is width + 1: the functions compare with `max()` where all ones is meant |
| C103_approx_reciprocal_wrong | `approx_reciprocal` of a negative number starts from a positive value and diverges; with 32 bits the start value loses its top bits |
| C104_cancel_wrong | `add` of normalized double-double numbers of opposite sign: result 0, sum 2^-107 (the documented assumption holds) |
| C106_cubic_end_wrong | `cubic(0, 2^60, 1, 0, 1) = 0`: the polynomial in monomial form does not reach its end point |
| C42_lerp_zero_wrong | `lerp(0, 0, -DBL_MAX)` is NaN when rounding upward (`1 - t` overflows, times zero) |
| C107_abs_unsigned, C107_abs_unsigned_wrong | `abs` of an unsigned integer goes through `int`: `abs(4294967301ul) = 5`; the guard against such types is always true |
| C107_abs | `abs(INT_MIN)` is undefined; `abs` of the least value of a narrow type is negative |
| C107_fabs_wrong | `fabs` of an integer beyond 53 bits is rounded and depends on the rounding mode, against its documentation |
| C108_min_mixed_wrong | `min(1, 0.5) = 0`, `min(5, -0.5) = 0`, `min(0, -1e10)` undefined: the mixed overload returns the type of its first argument |

## 5. What is modelled, what is not

All paths relative to `/repo/include/ccmath/`. Unless stated, float and double; the branch without compiler builtins.

| Lean module | source |
|---|---|
| Model/FPBits | `internal/support/fp/fp_bits.hpp` (hidden-bit formats) |
| Model/Basic | `math/compare/*`, `math/basic/{fabs,min,max,fdim}`, `math/fmanip/copysign` |
| Model/Nearest | `math/nearest/*` with `internal/support/fp/directional_rounding_utils.hpp` |
| Model/Manip | `math/fmanip/*` (modf, frexp, ldexp, scalbn, ilogb, logb, nextafter...) |
| Model/Fma | `internal/support/fp/fma.hpp` special cases, `fixed_fma`, `round_normalized`, exception flags (not `wide_fma`, which float/double never reach) |
| Model/Sqrt, Model/Rem, Model/NanHypot | `sqrt_gen.hpp`, fmod/remainder/remquo, `nan`, `hypot` |
| Model/IntUtil | `internal/support/bits.hpp`, `math_support.hpp`, integer `ext/*` |
| Model/EFT | `internal/types/double_double.hpp`, `fast_two_sum`, `two_sum`, `exact_sign_of_sum`, `cr_rsqrt` |
| Model/Pow | `pow_impl.hpp`: dispatch, integer and half-integer paths; the log/exp kernel is a function parameter of `powImpl` |
| Model/PowKernel | `pow_impl.hpp`: `pow_kernel` and `pow_double_double` for double with every table and coefficient they read; an index out of range, an `int` cast out of range and a software fma that does not return are the distinct outcome `none` |
| Model/PowF | `powf_impl.hpp`: `powf_impl` with its special cases, small-integer loop, fast path, rounding test and double-double path, every table it reads; `exp10.hpp`: `exp10_double_impl`, `exp10_float_impl`; an index out of range and an integer cast out of range are the distinct outcome `none` |
| Model/IntLiterals | `integer_literals.hpp`: `accumulate`, `DigitBuffer`, both `Parser`s, `parse_with_prefix` (not `parse_bigint`, which passes a string_view as a pointer and cannot be instantiated); `big_int.hpp`: converting constructor for different word sizes, `div_uint_half_times_pow_2`; `unreachable()` is the distinct outcome `none` |
| Model/InvTrigF | `inv_trig_impl.hpp`: the float instances of acos, asin, atan, atan2 |
| Model/FloorGen | `floor_gen.hpp`: `floor_pos_impl`, `floor_neg_impl`, `floor`; the while loops run on fuel, `none` = fuel exhausted |
| Model/Numbers | `numbers.hpp`: the thirteen variable templates; decimal literals are rounded to nearest in the format of `long double` (implementation-defined in the standard, so in GCC and Clang) |
| Model/NormFloat | `normalized_float.hpp`: the constructor from fields, `cmp`, `mul2` (the rest is in Model/Manip); the 80-bit format is not modelled |
| Model/Angle | `ext/radians.hpp`, `ext/degrees.hpp` for float and double |
| Model/LerpSmooth | `ext/lerp_smooth.hpp` for float and double, with the generic `exp2` |
| Model/BigIntBits | `big_int.hpp` l.1691-1701 for signed types |
| Model/IntAbs | `math/basic/fabs.hpp`: the integer overloads of `abs`, `labs`, `llabs`, `fabs` |
| Model/MinMixed | `math/basic/min.hpp` l.56-64 for `int` and `double` |
| Model/BigInt | `internal/types/big_int.hpp` word arrays of any length and word size |
| Model/Ext | floating-point `ext/*`, `lerp` |
| Model/FpSupport | `nearest_integer.hpp`, `except_value_utils.hpp`, one-ulp nudges |
| Model/Dyadic | `internal/types/dyadic_float.hpp`, `fp/cast.hpp`, `fp/ops/{add_or_sub,mul}.hpp` |
| Model/Trig | `math/trig/impl/sincos_payne_hanek.hpp`, `sincos_double_impl.hpp`, `sincos_double_data.hpp`, `tan_gen.hpp` for double (no errno, no flags) |
| Model/TrigF | `math/trig/impl/sincos_float_impl.hpp`, `sincos_float_data.hpp`, `tan_gen.hpp` for float |
| Model/Exp | `math/expo/impl/exp_double_impl.hpp`, `exp_float_impl.hpp`, `exp2_double_impl.hpp`, `exp2_float_impl.hpp`, `exp_data.hpp`, `exp2_data.hpp` (exp, expm1, exp2) |
| Model/Gamma | `math/misc/impl/gamma_double_impl.hpp`, `gamma_float_impl.hpp` |
| Model/InvTrig | `math/trig/impl/inv_trig_impl.hpp`, `inv_trig_data.hpp` (double functions) |
| Model/Log | `math/expo/log.hpp`, `log2.hpp`, `log10.hpp`, `impl/log_double_impl.hpp`, `log_float_impl.hpp`, `log2_double_impl.hpp`, `log2_float_impl.hpp`, `log10_impl.hpp`, tables of `log_data.hpp`, `log2_data.hpp` (branches without FMA) |
| Model/Cbrt | `internal/math/generic/func/power/impl/cbrt_impl.hpp`, `cbrt_gen.hpp` (float and double; long double not modelled) |
| Model/Log1p | log1p.hpp, log1p_impl.hpp (double and float; the long double overload, which casts to double, is not modelled) |
| Model/Lgamma | lgamma_double_impl.hpp, lgamma_impl.hpp (double and float; the long double overload, which casts to double, exceptions and errno are not modelled); accuracy between 2^-53 and 8 and for negative non-integers is not claimed |

Simplifications (also stated at the definitions): dyadic exponents are unbounded integers; `errno` is modelled only for `pow`'s report table and
exception flags only for `fma`; NaN payloads of hardware operations are canonical; word-array operations inside `fma`, `sqrt` and dyadic floats are
natural-number operations modulo the width (the word-level code is proved to compute these in C27-C30).

Not modelled: SIMD, `long double`
(80-bit and 128-bit) branches, `std::complex`-like and statistics wrappers.

## 6. Checks

* `lake build` in `lean/`; the module `Verif/Axioms.lean`-style check is done with `#print axioms` on every manifest theorem (see `vcheck`): only
  `propext`, `Classical.choice`, `Quot.sound`.
* `seeded/LOG.jsonl`: model edits in a scratch copy and the theorems that rejected them.
* Every theorem has an `example` beside it showing a concrete instance that meets its hypotheses.
