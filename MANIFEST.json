{
 "claims": [
  {
   "property": "C01",
   "status": "proved",
   "theorems": [
    "Verif.C01_class_unique",
    "Verif.C01_codes_distinct",
    "Verif.C01_fpclassify",
    "Verif.C01_nvidia_ambiguous",
    "Verif.C01_predicates"
   ],
   "note": "Five macro configurations; the NVIDIA one is proved ambiguous."
  },
  {
   "property": "C02",
   "status": "proved",
   "theorems": [
    "Verif.C02_comparisons",
    "Verif.C02_isunordered",
    "Verif.C02_xval_meaning"
   ],
   "note": ""
  },
  {
   "property": "C03",
   "status": "partial",
   "theorems": [
    "Verif.C03_copysign_nan",
    "Verif.C03_copysign_nan_sign_wrong",
    "Verif.C03_copysign_partial",
    "Verif.C03_fabs_nan",
    "Verif.C03_fabs_nan_payload_lost",
    "Verif.C03_fabs_partial",
    "Verif.C03_fabs_value",
    "Verif.C03_signbit"
   ],
   "note": "Holds for every non-NaN argument; fabs loses NaN payloads and copysign returns NaN for a NaN sign argument (both proved with witnesses)."
  },
  {
   "property": "C04",
   "status": "proved",
   "theorems": [
    "Verif.C04_fmax",
    "Verif.C04_fmin",
    "Verif.C04_nan"
   ],
   "note": ""
  },
  {
   "property": "C05",
   "status": "partial",
   "theorems": [
    "Verif.C05_fdim_infinite",
    "Verif.C05_fdim_partial",
    "Verif.C05_fdim_special",
    "Verif.C05_fdim_wrong_overflow"
   ],
   "note": "fdim is correct unless the exact difference exceeds the largest finite number while the correctly rounded difference is still finite (the code tests x > MAX + y and returns infinity); C05_fdim_wrong_overflow is the witness."
  },
  {
   "property": "C06",
   "status": "proved",
   "theorems": [
    "Verif.C06_trunc",
    "Verif.C06_trunc_mag"
   ],
   "note": ""
  },
  {
   "property": "C07",
   "status": "proved",
   "theorems": [
    "Verif.C07_ceil",
    "Verif.C07_floor"
   ],
   "note": ""
  },
  {
   "property": "C08",
   "status": "proved",
   "theorems": [
    "Verif.C08_round"
   ],
   "note": ""
  },
  {
   "property": "C09",
   "status": "proved",
   "theorems": [
    "Verif.C09_rint"
   ],
   "note": ""
  },
  {
   "property": "C10",
   "status": "proved",
   "theorems": [
    "Verif.C10_monotone_idempotent"
   ],
   "note": ""
  },
  {
   "property": "C11",
   "status": "proved",
   "theorems": [
    "Verif.C11_modf",
    "Verif.C11_modf_special"
   ],
   "note": ""
  },
  {
   "property": "C12",
   "status": "proved",
   "theorems": [
    "Verif.C12_frexp",
    "Verif.C12_frexp_special"
   ],
   "note": "For infinities and NaN the exponent output is left unset, as the source does."
  },
  {
   "property": "C13",
   "status": "partial",
   "theorems": [
    "Verif.C13_ldexp_directed",
    "Verif.C13_ldexp_directed_wrong",
    "Verif.C13_ldexp_exact",
    "Verif.C13_ldexp_frexp",
    "Verif.C13_ldexp_nearest_partial",
    "Verif.C13_ldexp_special"
   ],
   "note": "Correct in round-to-nearest for every x and n; inside |n| <= 2^E+F the directed modes are ignored (C13_ldexp_directed_wrong)."
  },
  {
   "property": "C14",
   "status": "proved",
   "theorems": [
    "Verif.C14_scalbn",
    "Verif.C14_scalbn_eq_ldexp",
    "Verif.C14_scalbn_special"
   ],
   "note": ""
  },
  {
   "property": "C15",
   "status": "proved",
   "theorems": [
    "Verif.C15_exponent_unique",
    "Verif.C15_ilogb",
    "Verif.C15_ilogb_special",
    "Verif.C15_logb",
    "Verif.C15_logb_special"
   ],
   "note": ""
  },
  {
   "property": "C16",
   "status": "proved",
   "theorems": [
    "Verif.C16_nextafter",
    "Verif.C16_nextafter_nan",
    "Verif.C16_nextup_nextdown",
    "Verif.C16_up_down"
   ],
   "note": ""
  },
  {
   "property": "C17",
   "status": "proved",
   "theorems": [
    "Verif.C17_fma",
    "Verif.C17_fma_exact",
    "Verif.C17_fmaf"
   ],
   "note": ""
  },
  {
   "property": "C18",
   "status": "proved",
   "theorems": [
    "Verif.C18_fma_addend_inf",
    "Verif.C18_fma_inf",
    "Verif.C18_fma_inf_zero",
    "Verif.C18_fma_nan"
   ],
   "note": ""
  },
  {
   "property": "C19",
   "status": "proved",
   "theorems": [
    "Verif.C19_sqrt",
    "Verif.C19_sqrt_exact",
    "Verif.C19_sqrt_monotone",
    "Verif.C19_sqrt_special"
   ],
   "note": ""
  },
  {
   "property": "C20",
   "status": "partial",
   "theorems": [
    "Verif.C20_fmod_partial",
    "Verif.C20_fmod_small",
    "Verif.C20_fmod_special",
    "Verif.C20_fmod_wrong",
    "Verif.C20_fmod_zero_nan_wrong",
    "Verif.C20_fmod_zero_sign_wrong"
   ],
   "note": "Exact in every mode when both operands lie on a common grid on which the dividend has at most 52 (23) bits; small dividends and special operands. Missing: operands further apart, where the code is proved wrong (C20_fmod_wrong); the sign of a zero result is wrong for negative dividends (C20_fmod_zero_sign_wrong)."
  },
  {
   "property": "C21",
   "status": "partial",
   "theorems": [
    "Verif.C21_remainder_inf_wrong",
    "Verif.C21_remainder_partial",
    "Verif.C21_remainder_special",
    "Verif.C21_remainder_wrong"
   ],
   "note": "On a common grid the code returns x - trunc(x/y)*y, which is the IEEE remainder when it is less than |y|/2. Missing: all other operands, where the code is proved wrong (C21_remainder_wrong, C21_remainder_inf_wrong)."
  },
  {
   "property": "C22",
   "status": "partial",
   "theorems": [
    "Verif.C22_remquo_constexpr_partial",
    "Verif.C22_remquo_constexpr_wrong",
    "Verif.C22_remquo_partial",
    "Verif.C22_remquo_special"
   ],
   "note": "IEEE remainder and three quotient bits for all finite operands when the fmod called is exact (as the run-time builtin is required to be). Missing: constant evaluation uses ccmath's own fmod; proved on a common grid, proved wrong in general (C22_remquo_constexpr_wrong)."
  },
  {
   "property": "C23",
   "status": "partial",
   "theorems": [
    "Verif.C23_nan_decimal_partial",
    "Verif.C23_nan_hex_partial",
    "Verif.C23_nan_payload_wrong",
    "Verif.C23_nan_quiet",
    "Verif.C23_nanf_null",
    "Verif.C23_nanf_quiet"
   ],
   "note": "Always a quiet NaN. Payload: tags longer than 15 (7) digits are reduced modulo 10^18 (10^8) instead of the payload width, octal tags are read as decimal (C23_nan_payload_wrong)."
  },
  {
   "property": "C24",
   "status": "proved",
   "theorems": [
    "Verif.C24_hypot3_bounds",
    "Verif.C24_hypot_bounds",
    "Verif.C24_hypot_special",
    "Verif.C24_hypot_symmetric"
   ],
   "note": ""
  },
  {
   "property": "C25",
   "status": "proved",
   "theorems": [
    "Verif.C25_pow_domain",
    "Verif.C25_pow_inf_base",
    "Verif.C25_pow_inf_exp",
    "Verif.C25_pow_nan",
    "Verif.C25_pow_neg_even",
    "Verif.C25_pow_one_base",
    "Verif.C25_pow_zero",
    "Verif.C25_pow_zero_base"
   ],
   "note": "The kernel pow_kernel is an arbitrary function. The pole pow(0, negative) is reported as EDOM by the code."
  },
  {
   "property": "C26",
   "status": "partial",
   "theorems": [
    "Verif.C26_is_integer_partial",
    "Verif.C26_is_integer_zero_wrong",
    "Verif.C26_is_odd_integer"
   ],
   "note": "is_odd_integer: every finite bit pattern. is_integer: every non-zero finite pattern; it answers false for zero (C26_is_integer_zero_wrong), which pow never asks."
  },
  {
   "property": "C27",
   "status": "partial",
   "theorems": [
    "Verif.C27_add",
    "Verif.C27_carry",
    "Verif.C27_of_int",
    "Verif.C27_operators",
    "Verif.C27_resize_negative_to_unsigned",
    "Verif.C27_resize_partial",
    "Verif.C27_sub"
   ],
   "note": "All widths and word sizes; also conversion from built-in integers. Widening a negative signed value into an unsigned type zero-extends (C27_resize_negative_to_unsigned). Conversions between different word sizes are not modelled."
  },
  {
   "property": "C28",
   "status": "partial",
   "theorems": [
    "Verif.C28_full_product",
    "Verif.C28_mul",
    "Verif.C28_mul2",
    "Verif.C28_pow",
    "Verif.C28_quick_mul_hi",
    "Verif.C28_scalar_mul_carry_lost",
    "Verif.C28_scalar_mul_partial"
   ],
   "note": "All widths with fewer than 2^w words of w bits; both the double-width and the portable word product. The carry returned by the one-word product is always 0 (C28_scalar_mul_carry_lost)."
  },
  {
   "property": "C29",
   "status": "proved",
   "theorems": [
    "Verif.C29_div_signed",
    "Verif.C29_div_signed_exact",
    "Verif.C29_div_unsigned",
    "Verif.C29_div_zero"
   ],
   "note": "All widths with word sizes 2^k. min / -1 wraps to min. div_uint_half_times_pow_2 not modelled."
  },
  {
   "property": "C30",
   "status": "partial",
   "theorems": [
    "Verif.C30_bit_width",
    "Verif.C30_bits",
    "Verif.C30_bitwise",
    "Verif.C30_cmp",
    "Verif.C30_countl_one",
    "Verif.C30_countl_zero",
    "Verif.C30_countr_one",
    "Verif.C30_countr_zero",
    "Verif.C30_first_trailing_one_partial",
    "Verif.C30_first_trailing_one_wrong",
    "Verif.C30_popcount",
    "Verif.C30_rotl_negative_wrong",
    "Verif.C30_rotl_partial",
    "Verif.C30_rotr_partial",
    "Verif.C30_sar",
    "Verif.C30_shl",
    "Verif.C30_shr"
   ],
   "note": "All widths and all shift amounts. Rotations: unsigned types; negative counts only if the width divides 2^32 (C30_rotl_negative_wrong). first_trailing_one is wrong for 0 and all ones."
  },
  {
   "property": "C31",
   "status": "proved",
   "theorems": [
    "Verif.C31_construct_as",
    "Verif.C31_fast_as",
    "Verif.C31_fast_eq_generic",
    "Verif.C31_generic_as",
    "Verif.C31_of_float",
    "Verif.C31_unnormalized"
   ],
   "note": "Every mantissa width, every exponent within the int range, every rounding mode, for both the generic and the fast path and their agreement; unnormalised mantissas are characterised separately. The rounding-mode-flag instantiation as<T,true> does not compile in the source and is only noted."
  },
  {
   "property": "C32",
   "status": "partial",
   "theorems": [
    "Verif.C32_as_mantissa",
    "Verif.C32_as_mantissa_rounded_partial",
    "Verif.C32_as_mantissa_rounded_wrong",
    "Verif.C32_construct",
    "Verif.C32_mul_pow_2",
    "Verif.C32_neg",
    "Verif.C32_pow_n",
    "Verif.C32_quick_add_documented_partial",
    "Verif.C32_quick_add_documented_wrong",
    "Verif.C32_quick_add_far_wrong",
    "Verif.C32_quick_add_opposite_sign",
    "Verif.C32_quick_add_same_sign_partial",
    "Verif.C32_quick_add_zero",
    "Verif.C32_quick_mul",
    "Verif.C32_quick_mul_documented_wrong",
    "Verif.C32_quick_mul_exact",
    "Verif.C32_quick_mul_relative",
    "Verif.C32_quick_sub_opposite",
    "Verif.C32_rounded_div",
    "Verif.C32_rounded_mul",
    "Verif.C32_shift_left",
    "Verif.C32_shift_right",
    "Verif.C32_shift_right_all"
   ],
   "note": "quick_mul: absolute and relative bound 2N ulps, exact when the low words vanish (the documented 2(N-1) fails, witness). quick_add: bounds proved while the exponent difference is below the width; beyond it the code keeps the wrong exponent (witness), and the documented bound fails at difference 1 (witness)."
  },
  {
   "property": "C33",
   "status": "proved",
   "theorems": [
    "Verif.C33_exact_mult",
    "Verif.C33_fast_two_sum",
    "Verif.C33_fast_two_sum_precondition",
    "Verif.C33_split",
    "Verif.C33_two_prod",
    "Verif.C33_two_sum"
   ],
   "note": "fast two-sum and two-sum: every finite operand without overflow (nearest mode for the exactness of the error term); split/exact_mult: normal operands, no floating-point contraction by the compiler; two_prod: every mode, product zero or at least 2^-969. The |a| >= |b| precondition is shown necessary."
  },
  {
   "property": "C34",
   "status": "partial",
   "theorems": [
    "Verif.C34_bit_ceil",
    "Verif.C34_bit_width",
    "Verif.C34_countl_one",
    "Verif.C34_countl_zero",
    "Verif.C34_countr_one",
    "Verif.C34_countr_zero",
    "Verif.C34_has_single_bit",
    "Verif.C34_popcount",
    "Verif.C34_popcount64",
    "Verif.C34_popcount8",
    "Verif.C34_popcount_fallback_wrong",
    "Verif.C34_rotl",
    "Verif.C34_rotl_undefined",
    "Verif.C34_rotr"
   ],
   "note": "All widths 2^k. Two failures proved: the 16/32-bit popcount fallbacks (used only without compiler builtins) are wrong, and rotl(t, INT_MIN) is undefined."
  },
  {
   "property": "C35",
   "status": "proved",
   "theorems": [
    "Verif.C35_add_overflow",
    "Verif.C35_add_with_carry",
    "Verif.C35_sub_overflow",
    "Verif.C35_sub_with_borrow"
   ],
   "note": ""
  },
  {
   "property": "C36",
   "status": "proved",
   "theorems": [
    "Verif.C36_align_down",
    "Verif.C36_align_up",
    "Verif.C36_align_up_undefined",
    "Verif.C36_align_up_wraps"
   ],
   "note": "Correct whenever the multiple is representable; the other cases are characterised by C36_align_up_wraps / C36_align_up_undefined."
  },
  {
   "property": "C37",
   "status": "partial",
   "theorems": [
    "Verif.C37_ceil_div_narrow",
    "Verif.C37_ceil_div_partial",
    "Verif.C37_ceil_div_wrong",
    "Verif.C37_safe_partial"
   ],
   "note": "Nonnegative dividend and no overflow of a+b in the promoted type; C37_ceil_div_wrong gives the failures, also for safe::ceil_div."
  },
  {
   "property": "C38",
   "status": "partial",
   "theorems": [
    "Verif.C38_safe",
    "Verif.C38_signed_partial",
    "Verif.C38_signed_undefined",
    "Verif.C38_unsigned"
   ],
   "note": "Unsigned and safe variants: all values. Signed variant: INT_MIN is undefined (C38_signed_undefined)."
  },
  {
   "property": "C39",
   "status": "proved",
   "theorems": [
    "Verif.C39_abs_diff",
    "Verif.C39_abs_diff_undefined",
    "Verif.C39_abs_diff_unsigned"
   ],
   "note": ""
  },
  {
   "property": "C40",
   "status": "proved",
   "theorems": [
    "Verif.C40_clamp",
    "Verif.C40_clamp_range",
    "Verif.C40_saturate",
    "Verif.C40_sign",
    "Verif.C40_step"
   ],
   "note": "Floating-point instances; clamp is additionally shown to stay in range for a NaN argument."
  },
  {
   "property": "C41",
   "status": "proved",
   "theorems": [
    "Verif.C41_iterate",
    "Verif.C41_move_towards"
   ],
   "note": "Every rounding mode; also for infinite max_delta and for any sequence of steps."
  },
  {
   "property": "C42",
   "status": "partial",
   "theorems": [
    "Verif.C42_lerp_bounded",
    "Verif.C42_lerp_equal",
    "Verif.C42_lerp_monotone",
    "Verif.C42_lerp_one",
    "Verif.C42_lerp_zero",
    "Verif.C42_lerp_zero_wrong"
   ],
   "note": "End points, boundedness and monotonicity in t on [0,1], every rounding mode. Equal end points: proved unless both are 0 and 1 - t exceeds the largest finite number; in that corner (upward rounding, t = -DBL_MAX) the claim is false, C42_lerp_zero_wrong."
  },
  {
   "property": "C43",
   "status": "partial",
   "theorems": [
    "Verif.C43_fract_one",
    "Verif.C43_fract_partial",
    "Verif.C43_ping_pong",
    "Verif.C43_ping_pong_zero",
    "Verif.C43_repeat_far",
    "Verif.C43_repeat_negative",
    "Verif.C43_repeat_partial"
   ],
   "note": "fract is in [0,1] for every finite x and below 1 for x >= 0; fract(-2^-60)=1 is a witness against [0,1). repeat is exact for integers with |v|+len <= 2^F; witnesses show it leaves [0,len] otherwise. ping_pong proved in [0,b] (double instance)."
  },
  {
   "property": "C44",
   "status": "partial",
   "theorems": [
    "Verif.C44_constexpr_wrong",
    "Verif.C44_directed_partial",
    "Verif.C44_directed_wrong",
    "Verif.C44_nearest_even",
    "Verif.C44_runtime",
    "Verif.C44_special"
   ],
   "note": "Exact nearest-even for |x|<2^F in the default mode, both forms; run-time form within 1/2 for all finite x. Directed modes: bound 1/2+2^(-F-1) (partial), negation C44_directed_wrong; constant evaluation wrong for odd integers in [2^F,2^(F+1)): C44_constexpr_wrong."
  },
  {
   "property": "C45",
   "status": "proved",
   "theorems": [
    "Verif.C45_cast_finite",
    "Verif.C45_cast_inf",
    "Verif.C45_cast_nan",
    "Verif.C45_widening"
   ],
   "note": "Finite, infinite and NaN arguments, all modes; widening exact."
  },
  {
   "property": "C46",
   "status": "partial",
   "theorems": [
    "Verif.C46_add_sub_partial",
    "Verif.C46_add_sub_special",
    "Verif.C46_add_sub_zero_left",
    "Verif.C46_mul_finite",
    "Verif.C46_mul_special",
    "Verif.C46_sign_wrong",
    "Verif.C46_subnormal_wrong",
    "Verif.C46_zero_inf_wrong"
   ],
   "note": "mul is fully proved (finite operands correctly rounded in every mode, special cases). add/sub hold for two normal operands with equal signs or |y| <= |x|, for x = 0, and for NaN/infinite operands; the remaining cases fail in the source (C46_sign_wrong, C46_zero_inf_wrong, C46_subnormal_wrong)."
  },
  {
   "property": "C47",
   "status": "proved",
   "theorems": [
    "Verif.C47_exact_sign_of_sum",
    "Verif.C47_rsqrt"
   ],
   "note": ""
  },
  {
   "property": "C48",
   "status": "proved",
   "theorems": [
    "Verif.C48_accumulator",
    "Verif.C48_mul64",
    "Verif.C48_reduce",
    "Verif.C48_table"
   ],
   "note": "Table, mul64, accumulator for every finite double of magnitude at least 2^-201 (the code's domain starts at 2^20), and the reduced argument in every rounding mode with fused or unfused multiply_add; Model/Trig.lean."
  },
  {
   "property": "C49",
   "status": "proved",
   "theorems": [
    "Verif.C49_lookup_correct",
    "Verif.C49_lookup_first",
    "Verif.C49_lookup_none",
    "Verif.C49_lookup_odd_correct",
    "Verif.C49_lookup_odd_odd"
   ],
   "note": "Lookup complete/first match, correct rounding from a correct table in all modes, odd variant for odd functions."
  },
  {
   "property": "C50",
   "status": "partial",
   "theorems": [
    "Verif.C50_float_negative_integer_partial",
    "Verif.C50_float_negative_integer_wrong",
    "Verif.C50_float_special",
    "Verif.C50_negative_integer_partial",
    "Verif.C50_negative_integer_wrong",
    "Verif.C50_special"
   ],
   "note": "Zeros, infinities, NaNs and negative integers down to -2^31 (double and float); below, the code is proved undefined (C50_negative_integer_wrong). lgamma is covered by C83."
  },
  {
   "property": "C51",
   "status": "proved",
   "theorems": [
    "Verif.C51_hypot_error"
   ],
   "note": ""
  },
  {
   "property": "C52",
   "status": "proved",
   "theorems": [
    "Verif.C52_pow_half",
    "Verif.C52_pow_neg_half"
   ],
   "note": ""
  },
  {
   "property": "C53",
   "status": "proved",
   "theorems": [
    "Verif.C53_mix",
    "Verif.C53_mix_not_bounded",
    "Verif.C53_remap_end_inexact",
    "Verif.C53_remap_start",
    "Verif.C53_unlerp"
   ],
   "note": "remap's other end point and mix's boundedness are false; witnesses given."
  },
  {
   "property": "C54",
   "status": "partial",
   "theorems": [
    "Verif.C54_normalize_ends",
    "Verif.C54_normalize_range",
    "Verif.C54_smoothstep_partial",
    "Verif.C54_smoothstep_up_above_one"
   ],
   "note": "normalize: every bit pattern and mode. smoothstep: default rounding mode; C54_smoothstep_up_above_one shows the range fails in upward mode."
  },
  {
   "property": "C55",
   "status": "proved",
   "theorems": [
    "Verif.C55_delta_angle"
   ],
   "note": ""
  },
  {
   "property": "C56",
   "status": "proved",
   "theorems": [
    "Verif.C56_approximately",
    "Verif.C56_chgsign"
   ],
   "note": ""
  },
  {
   "property": "C57",
   "status": "proved",
   "theorems": [
    "Verif.C57_slightly_directed",
    "Verif.C57_slightly_nearest"
   ],
   "note": "Default mode unchanged; directed modes step to the adjacent datum."
  },
  {
   "property": "C58",
   "status": "proved",
   "theorems": [
    "Verif.C58_cos_absolute",
    "Verif.C58_cos_mixed",
    "Verif.C58_cos_relative",
    "Verif.C58_defined",
    "Verif.C58_nonfinite",
    "Verif.C58_relative_attained",
    "Verif.C58_sin_absolute",
    "Verif.C58_sin_mixed",
    "Verif.C58_sin_relative",
    "Verif.C58_sin_small",
    "Verif.C58_zero"
   ],
   "note": "All claims for all inputs. C58_relative_attained: the relative error does exceed 48u (fused) and 78u (unfused)."
  },
  {
   "property": "C59",
   "status": "proved",
   "theorems": [
    "Verif.C59_special",
    "Verif.C59_tan"
   ],
   "note": "All finite doubles; the cosine of no double is below 2^-62 in magnitude."
  },
  {
   "property": "C60",
   "status": "partial",
   "theorems": [
    "Verif.C60_cos_absolute_partial",
    "Verif.C60_cos_relative_partial",
    "Verif.C60_defined",
    "Verif.C60_nonfinite",
    "Verif.C60_sin_absolute_partial",
    "Verif.C60_sin_relative_partial",
    "Verif.C60_unfused_wrong",
    "Verif.C60_zero"
   ],
   "note": "All finite floats except 31 < |x| < 2^18 without a fused multiply-add, where the claim is false (C60_unfused_wrong). Special values and definedness for all."
  },
  {
   "property": "C61",
   "status": "partial",
   "theorems": [
    "Verif.C61_special",
    "Verif.C61_tan_partial"
   ],
   "note": "Restricted like C60; special values for all."
  },
  {
   "property": "C62",
   "status": "proved",
   "theorems": [
    "Verif.C62_exp_accuracy",
    "Verif.C62_exp_overflow",
    "Verif.C62_exp_special"
   ],
   "note": ""
  },
  {
   "property": "C63",
   "status": "partial",
   "theorems": [
    "Verif.C63_expm1_accuracy_partial",
    "Verif.C63_expm1_negative_wrong",
    "Verif.C63_expm1_overflow",
    "Verif.C63_expm1_series_wrong",
    "Verif.C63_expm1_special"
   ],
   "note": "Proved outside (-1024,-512] (there the code forgets to subtract 1: C63_expm1_negative_wrong, universally quantified) and with the weaker factor 2000 between 1/16 and 1/4 (C63_expm1_series_wrong shows 1400 is exceeded)."
  },
  {
   "property": "C64",
   "status": "proved",
   "theorems": [
    "Verif.C64_exp2_accuracy",
    "Verif.C64_exp2_integer",
    "Verif.C64_exp2_overflow",
    "Verif.C64_exp2_special"
   ],
   "note": ""
  },
  {
   "property": "C65",
   "status": "partial",
   "theorems": [
    "Verif.C65_expf_accuracy_partial",
    "Verif.C65_expf_overflow",
    "Verif.C65_expf_special",
    "Verif.C65_expf_underflow",
    "Verif.C65_expf_underflow_wrong"
   ],
   "note": "The accuracy bound is proved from -103.97207641601562 up; below, the results are given exactly (C65_expf_underflow) and proved wrong in round-to-nearest (C65_expf_underflow_wrong)."
  },
  {
   "property": "C66",
   "status": "partial",
   "theorems": [
    "Verif.C66_exp2f_accuracy_partial",
    "Verif.C66_exp2f_integer",
    "Verif.C66_exp2f_overflow",
    "Verif.C66_exp2f_special",
    "Verif.C66_exp2f_underflow",
    "Verif.C66_exp2f_underflow_wrong"
   ],
   "note": "The accuracy bound is proved from -149 up; up to -150 the result is proved correctly rounded; in between it is proved wrong in round-to-nearest (C66_exp2f_underflow_wrong)."
  },
  {
   "property": "C67",
   "status": "proved",
   "theorems": [
    "Verif.C67_expm1f_accuracy",
    "Verif.C67_expm1f_overflow",
    "Verif.C67_expm1f_special"
   ],
   "note": "all finite floats in four rounding modes, plus overflow and special values"
  },
  {
   "property": "C68",
   "status": "partial",
   "theorems": [
    "Verif.C68_tgamma_half",
    "Verif.C68_tgamma_integer_partial",
    "Verif.C68_tgamma_tiny",
    "Verif.C68_tgamma_wrong",
    "Verif.C68_tgammaf_integer_partial",
    "Verif.C68_tgammaf_wrong"
   ],
   "note": "Integers up to 170 (double) and 34 (float) and the neighbourhood of zero are proved; at 171 (double) and 35 (float) the claim is proved false (C68_tgamma_wrong, C68_tgammaf_wrong)."
  },
  {
   "property": "C69",
   "status": "proved",
   "theorems": [
    "Verif.C69_acos",
    "Verif.C69_acos_special",
    "Verif.C69_asin",
    "Verif.C69_asin_not_odd",
    "Verif.C69_asin_special"
   ],
   "note": "Accuracy on the whole domain and all special values; the failure of odd symmetry is proved (C69_asin_not_odd)."
  },
  {
   "property": "C70",
   "status": "proved",
   "theorems": [
    "Verif.C70_atan",
    "Verif.C70_atan_depth",
    "Verif.C70_atan_not_odd",
    "Verif.C70_atan_special"
   ],
   "note": "Every finite double; recursion depth proved."
  },
  {
   "property": "C71",
   "status": "partial",
   "theorems": [
    "Verif.C71_atan2",
    "Verif.C71_nan",
    "Verif.C71_negative_zero_wrong",
    "Verif.C71_x_inf",
    "Verif.C71_y_inf",
    "Verif.C71_y_zero_partial",
    "Verif.C71_zero_inf"
   ],
   "note": "Accuracy and the special-value table are proved except atan2(-0, x<0), which is proved wrong (C71_negative_zero_wrong)."
  },
  {
   "property": "C72",
   "status": "proved",
   "theorems": [
    "Verif.C72_log_accuracy",
    "Verif.C72_log_sign",
    "Verif.C72_log_special"
   ],
   "note": "double log, branches without fused multiply-add; every positive finite argument and rounding mode"
  },
  {
   "property": "C73",
   "status": "proved",
   "theorems": [
    "Verif.C73_log2_accuracy",
    "Verif.C73_log2_sign",
    "Verif.C73_log2_special"
   ],
   "note": "double log2, branches without fused multiply-add"
  },
  {
   "property": "C74",
   "status": "partial",
   "theorems": [
    "Verif.C74_log2_pow2_directed_wrong",
    "Verif.C74_log2_pow2_partial",
    "Verif.C74_log2f_pow2"
   ],
   "note": "double function proved in round-to-nearest; false in the directed modes (C74_log2_pow2_directed_wrong); float proved in all modes"
  },
  {
   "property": "C75",
   "status": "proved",
   "theorems": [
    "Verif.C75_logf_accuracy",
    "Verif.C75_logf_sign",
    "Verif.C75_logf_special"
   ],
   "note": "float log"
  },
  {
   "property": "C76",
   "status": "proved",
   "theorems": [
    "Verif.C76_log2f_accuracy",
    "Verif.C76_log2f_sign",
    "Verif.C76_log2f_special"
   ],
   "note": "float log2"
  },
  {
   "property": "C77",
   "status": "proved",
   "theorems": [
    "Verif.C77_log10_accuracy",
    "Verif.C77_log10_sign",
    "Verif.C77_log10_special",
    "Verif.C77_log10f_accuracy",
    "Verif.C77_log10f_sign"
   ],
   "note": "double and float log10"
  },
  {
   "property": "C78",
   "status": "partial",
   "theorems": [
    "Verif.C78_log10_1e15_wrong",
    "Verif.C78_log10_directed_wrong",
    "Verif.C78_log10_pow10_partial",
    "Verif.C78_log10f_1e9_wrong",
    "Verif.C78_log10f_pow10_partial"
   ],
   "note": "proved to nearest except 1e15 (double) and 1e9 (float), where it is false (negations proved); false in directed modes"
  },
  {
   "property": "C79",
   "status": "proved",
   "theorems": [
    "Verif.C79_cbrt_accuracy",
    "Verif.C79_cbrt_odd",
    "Verif.C79_cbrt_sign",
    "Verif.C79_cbrt_special",
    "Verif.C79_cbrtf_accuracy"
   ],
   "note": "Error bound 2.7 rounding units for every finite argument in both formats and all four rounding modes; sign, oddness and special values exact."
  },
  {
   "property": "C80",
   "status": "proved",
   "theorems": [
    "Verif.C80_cbrt_exact",
    "Verif.C80_cbrtf_exact"
   ],
   "note": "Exactness for every representable cube root, both formats, all four rounding modes."
  },
  {
   "property": "C81",
   "status": "partial",
   "theorems": [
    "Verif.C81_log1p_accuracy_inner",
    "Verif.C81_log1p_accuracy_outer",
    "Verif.C81_log1p_accuracy_partial",
    "Verif.C81_log1p_few_roundings_wrong",
    "Verif.C81_log1p_max_up_wrong",
    "Verif.C81_log1p_sign",
    "Verif.C81_log1p_special"
   ],
   "note": "accuracy 2^-44 relative for every finite argument above -1; 4.14 roundings outside [-0.292893, 0.414284], 2.05 roundings plus s^16/16 inside. The few-roundings claim is refuted at 0.41, and the greatest double in upward mode is refuted separately."
  },
  {
   "property": "C82",
   "status": "partial",
   "theorems": [
    "Verif.C82_log1pf_accuracy_inner",
    "Verif.C82_log1pf_accuracy_partial",
    "Verif.C82_log1pf_max_up_wrong",
    "Verif.C82_log1pf_sign",
    "Verif.C82_log1pf_special"
   ],
   "note": "every finite float above -1 in every mode except the greatest float in upward mode, where the claim is refuted."
  },
  {
   "property": "C83",
   "status": "partial",
   "theorems": [
    "Verif.C83_defined_partial",
    "Verif.C83_float_defined_partial",
    "Verif.C83_float_special",
    "Verif.C83_integer",
    "Verif.C83_special",
    "Verif.C83_tiny"
   ],
   "note": "Undefined exactly for integers from 2^31 on (conversion to int32); accuracy proved at integers 1..170 and for tiny arguments."
  },
  {
   "property": "C84",
   "status": "partial",
   "theorems": [
    "Verif.C84_stirling_large",
    "Verif.C84_stirling_partial",
    "Verif.C84_stirling_wrong"
   ],
   "note": "The code uses 1/6 instead of 1/12 in the Stirling correction; the resulting bias is enclosed from both sides and refutes the accuracy; from 2^26 on 8 roundings are proved."
  },
  {
   "property": "C85",
   "status": "proved",
   "theorems": [
    "Verif.C85_pow_int",
    "Verif.C85_pow_int_error"
   ],
   "note": "Normal bases, integer exponents up to 1024 in magnitude, results in [2^-1021, (1-2^-50)*2^1024]; the kernel is an arbitrary function."
  },
  {
   "property": "C86",
   "status": "proved",
   "theorems": [
    "Verif.C86_pow_exact",
    "Verif.C86_pow_one",
    "Verif.C86_pow_rounded",
    "Verif.C86_pow_square",
    "Verif.C86_square_subnormal_wrong"
   ],
   "note": "Same range as C85. With subnormal results the square is proved not to be correctly rounded (C86_square_subnormal_wrong)."
  },
  {
   "property": "C87",
   "status": "proved",
   "theorems": [
    "Verif.C87_pow_half_integer",
    "Verif.C87_pow_half_integer_error"
   ],
   "note": "Odd n with 3 <= |n| <= 2047 and results in [2^-1021, (1-2^-50)*2^1024]; n = 1, -1 are C52. The kernel is an arbitrary function."
  },
  {
   "property": "C88",
   "status": "proved",
   "theorems": [
    "Verif.C88_pow",
    "Verif.C88_pow_error",
    "Verif.C88_pow_negative_base",
    "Verif.C88_pow_overflow_no_errno"
   ],
   "note": "Results in [2^-1021, (1-2^-50)*2^1024]; base -1 with integer exponents beyond 1024 is not covered. The overflow without errno is proved with a witness."
  },
  {
   "property": "C89",
   "status": "proved",
   "theorems": [
    "Verif.C89_pow_directed_wrong",
    "Verif.C89_pow_nearest_exact",
    "Verif.C89_pow_nearest_faithful"
   ],
   "note": "Faithfulness and exactness to nearest proved; refuted in the three directed modes (C89_pow_directed_wrong)."
  },
  {
   "property": "C90",
   "status": "proved",
   "theorems": [
    "Verif.C90_powf_domain",
    "Verif.C90_powf_inf_base",
    "Verif.C90_powf_inf_exp",
    "Verif.C90_powf_nan",
    "Verif.C90_powf_one_base",
    "Verif.C90_powf_zero",
    "Verif.C90_powf_zero_base"
   ],
   "note": "full table; the pole is reported as EDOM, as stated in the theorem"
  },
  {
   "property": "C91",
   "status": "proved",
   "theorems": [
    "Verif.C91_powf",
    "Verif.C91_powf_base10_wrong",
    "Verif.C91_powf_base2_wrong",
    "Verif.C91_powf_directed_wrong",
    "Verif.C91_powf_nearest_exact",
    "Verif.C91_powf_negative_base",
    "Verif.C91_powf_overflow_no_errno"
   ],
   "note": "bases 2 and 10 are outside the theorem; for them and for the directed modes negations are proved"
  },
  {
   "property": "C92",
   "status": "proved",
   "theorems": [
    "Verif.C92_binary_round_trip",
    "Verif.C92_decimal_rejects",
    "Verif.C92_decimal_round_trip",
    "Verif.C92_decimal_wraps",
    "Verif.C92_hex_round_trip",
    "Verif.C92_invalid_digits_accepted",
    "Verif.C92_native",
    "Verif.C92_octal_wrong",
    "Verif.C92_too_many_digits",
    "Verif.C92_upper_prefix_rejected",
    "Verif.C92_wide"
   ],
   "note": ""
  },
  {
   "property": "C93",
   "status": "partial",
   "theorems": [
    "Verif.C93_down",
    "Verif.C93_up_narrowing",
    "Verif.C93_up_sign_extension_lost",
    "Verif.C93_up_widening_partial"
   ],
   "note": "Widening of negative numbers fails when the source fills whole words of the target (C93_up_sign_extension_lost holds for all sizes); the rest is proved."
  },
  {
   "property": "C94",
   "status": "proved",
   "theorems": [
    "Verif.C94_div_half_pow2",
    "Verif.C94_div_half_zero",
    "Verif.C94_signed_wrong"
   ],
   "note": ""
  },
  {
   "property": "C95",
   "status": "proved",
   "theorems": [
    "Verif.C95_mask_leading_ones",
    "Verif.C95_mask_trailing_ones",
    "Verif.C95_mask_word",
    "Verif.C95_to_builtin"
   ],
   "note": ""
  },
  {
   "property": "C96",
   "status": "partial",
   "theorems": [
    "Verif.C96_acosf",
    "Verif.C96_acosf_special",
    "Verif.C96_asinf",
    "Verif.C96_asinf_not_odd",
    "Verif.C96_asinf_special",
    "Verif.C96_atan2f",
    "Verif.C96_atan2f_nan",
    "Verif.C96_atan2f_negative_zero_wrong",
    "Verif.C96_atan2f_x_inf",
    "Verif.C96_atan2f_y_inf",
    "Verif.C96_atan2f_y_zero_partial",
    "Verif.C96_atan2f_zero_inf",
    "Verif.C96_atanf",
    "Verif.C96_atanf_special"
   ],
   "note": "everything except atan2(-0, x<0), which is refuted (C96_atan2f_negative_zero_wrong)"
  },
  {
   "property": "C97",
   "status": "partial",
   "theorems": [
    "Verif.C97_floor_gen_diverges",
    "Verif.C97_floor_gen_diverges_float",
    "Verif.C97_floor_gen_partial",
    "Verif.C97_floor_gen_special"
   ],
   "note": "proved from -2^(F+1) up; below, non-termination is proved for every number that is not a power of two"
  },
  {
   "property": "C98",
   "status": "proved",
   "theorems": [
    "Verif.C98_e",
    "Verif.C98_egamma",
    "Verif.C98_inv_pi",
    "Verif.C98_inv_sqrt3",
    "Verif.C98_inv_sqrtpi",
    "Verif.C98_ln10",
    "Verif.C98_ln2",
    "Verif.C98_log10e",
    "Verif.C98_log2e",
    "Verif.C98_phi",
    "Verif.C98_pi",
    "Verif.C98_sqrt2",
    "Verif.C98_sqrt3"
   ],
   "note": "all thirteen constants; the value of the x87 long double itself is covered, that of binary128 is not"
  },
  {
   "property": "C99",
   "status": "proved",
   "theorems": [
    "Verif.C99_cmp",
    "Verif.C99_cmp_numbers",
    "Verif.C99_cmp_zero_wrong",
    "Verif.C99_mul2",
    "Verif.C99_mul2_defined",
    "Verif.C99_of_fields",
    "Verif.C99_round_trip",
    "Verif.C99_wide_mantissa_wrong",
    "Verif.C99_zero_becomes_one"
   ],
   "note": ""
  },
  {
   "property": "C100",
   "status": "proved",
   "theorems": [
    "Verif.C100_degrees",
    "Verif.C100_degrees_overflow",
    "Verif.C100_radians",
    "Verif.C100_radians_overflow",
    "Verif.C100_special"
   ],
   "note": "float and double; the normal range is a hypothesis on x; the overflow outside it is proved as a finding."
  },
  {
   "property": "C101",
   "status": "proved",
   "theorems": [
    "Verif.C101_half_life_double",
    "Verif.C101_half_life_float",
    "Verif.C101_nan",
    "Verif.C101_no_overshoot_double",
    "Verif.C101_no_overshoot_float",
    "Verif.C101_no_time_wrong"
   ],
   "note": "the generic exp2 only; |a|, |b| at most 2^1021 (2^125)."
  },
  {
   "property": "C102",
   "status": "proved",
   "theorems": [
    "Verif.C102_first_leading_one",
    "Verif.C102_first_leading_zero",
    "Verif.C102_first_trailing_zero",
    "Verif.C102_signed_wrong"
   ],
   "note": "unsigned types; signed types are refuted (C102_signed_wrong)."
  },
  {
   "property": "C103",
   "status": "proved",
   "theorems": [
    "Verif.C103_approx_reciprocal",
    "Verif.C103_approx_reciprocal_wrong"
   ],
   "note": "positive numbers, at least 64 bits; the other cases are refuted."
  },
  {
   "property": "C104",
   "status": "proved",
   "theorems": [
    "Verif.C104_add",
    "Verif.C104_add_double",
    "Verif.C104_cancel_wrong"
   ],
   "note": "Nearest mode; high parts of the same sign. Opposite signs: finding C104_cancel_wrong."
  },
  {
   "property": "C105",
   "status": "proved",
   "theorems": [
    "Verif.C105_lerp_angle",
    "Verif.C105_move_towards_angle"
   ],
   "note": "Whole-degree angles; delta_angle of fractional angles inherits the failures of repeat (C43)."
  },
  {
   "property": "C106",
   "status": "partial",
   "theorems": [
    "Verif.C106_cubic_end_wrong",
    "Verif.C106_cubic_partial",
    "Verif.C106_cubic_start"
   ],
   "note": "Whole numbers, and the start point for all points; missing: an error bound for fractional points and parameters."
  },
  {
   "property": "C107",
   "status": "proved",
   "theorems": [
    "Verif.C107_abs",
    "Verif.C107_abs_unsigned",
    "Verif.C107_abs_unsigned_wrong",
    "Verif.C107_fabs",
    "Verif.C107_fabs_wrong"
   ],
   "note": "Characterizations with the failing inputs; the bound 2^53 of fabs is sharp."
  },
  {
   "property": "C108",
   "status": "proved",
   "theorems": [
    "Verif.C108_min_mixed",
    "Verif.C108_min_mixed_special",
    "Verif.C108_min_mixed_wrong"
   ],
   "note": "int with double, all doubles."
  },
  {
   "property": "C109",
   "status": "proved",
   "theorems": [
    "Verif.C109_rcp",
    "Verif.C109_rcp_pow2",
    "Verif.C109_rcp_special"
   ],
   "note": "Special values for double in the default mode; the rest for every format and mode."
  }
 ]
}