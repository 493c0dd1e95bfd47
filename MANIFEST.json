{
 "claims": [
  {
   "property": "C01",
   "status": "proved",
   "theorems": [
    "Gcem.Props.C01_gcd_correct",
    "Gcem.Props.C01_gcd_undefined"
   ],
   "note": "True as stated."
  },
  {
   "property": "C02",
   "status": "proved",
   "theorems": [
    "Gcem.Props.C02_lcm_correct",
    "Gcem.Props.C02_lcm_overflow",
    "Gcem.Props.C02_lcm_unsigned",
    "Gcem.Props.C02_lcm_zero_zero"
   ],
   "note": ""
  },
  {
   "property": "C03",
   "status": "proved",
   "theorems": [
    "Gcem.Props.C03_lcm_mixed",
    "Gcem.Props.C03_lcm_mixed_wrong",
    "Gcem.Props.C03_lcm_mixed_nonneg"
   ],
   "note": ""
  },
  {
   "property": "C04",
   "status": "proved",
   "theorems": [
    "Gcem.Props.C04_factorial_unsigned",
    "Gcem.Props.C04_factorial_exact",
    "Gcem.Props.C04_factorial_signed_overflow",
    "Gcem.Props.C04_factorial_int_wraps"
   ],
   "note": ""
  },
  {
   "property": "C05",
   "status": "proved",
   "theorems": [
    "Gcem.Props.C05_factorial_negative"
   ],
   "note": ""
  },
  {
   "property": "C06",
   "status": "proved",
   "theorems": [
    "Gcem.Props.C06_binomial_signed",
    "Gcem.Props.C06_binomial_unsigned",
    "Gcem.Props.C06_binomial_negative_k"
   ],
   "note": ""
  },
  {
   "property": "C07",
   "status": "proved",
   "theorems": [
    "Gcem.Props.C07_binomial_negative_n"
   ],
   "note": ""
  },
  {
   "property": "C08",
   "status": "proved",
   "theorems": [
    "Gcem.Props.C08_pow_int_signed",
    "Gcem.Props.C08_pow_int_same_type",
    "Gcem.Props.C08_pow_int_unsigned"
   ],
   "note": ""
  },
  {
   "property": "C09",
   "status": "proved",
   "theorems": [
    "Gcem.Props.C09_pow_exp_max",
    "Gcem.Props.C09_pow_one_max_wrong",
    "Gcem.Props.C09_pow_exp_min",
    "Gcem.Props.C09_pow_zero_neg",
    "Gcem.Props.C09_pow_neg_max"
   ],
   "note": ""
  },
  {
   "property": "C10",
   "status": "proved",
   "theorems": [
    "Gcem.Props.C10_pow_int_negative"
   ],
   "note": ""
  },
  {
   "property": "C11",
   "status": "proved",
   "theorems": [
    "Gcem.Props.C11_zero_one",
    "Gcem.Props.C11_base_one",
    "Gcem.Props.C11_sign",
    "Gcem.Props.C11_base_two",
    "Gcem.Props.C11_limits"
   ],
   "note": ""
  },
  {
   "property": "C12",
   "status": "proved",
   "theorems": [
    "Gcem.Props.C12_error_bound",
    "Gcem.Props.C12_error_bound_neg_exponent",
    "Gcem.Props.C12_finite",
    "Gcem.Props.C12_exact_integers"
   ],
   "note": ""
  },
  {
   "property": "C13",
   "status": "proved",
   "theorems": [
    "Gcem.Props.C13_abs_int",
    "Gcem.Props.C13_sgn_int",
    "Gcem.Props.C13_abs_float",
    "Gcem.Props.C13_sgn_float",
    "Gcem.Props.C13_signbit",
    "Gcem.Props.C13_copysign",
    "Gcem.Props.C13_neg_zero"
   ],
   "note": ""
  },
  {
   "property": "C14",
   "status": "proved",
   "theorems": [
    "Gcem.Props.C14_max_min_int",
    "Gcem.Props.C14_max_min_mixed_wrong",
    "Gcem.Props.C14_max_min_float",
    "Gcem.Props.C14_max_min_complementary",
    "Gcem.Props.C14_max_min_nan"
   ],
   "note": ""
  },
  {
   "property": "C15",
   "status": "proved",
   "theorems": [
    "Gcem.Props.C15_floor_exact",
    "Gcem.Props.C15_floor_special"
   ],
   "note": ""
  },
  {
   "property": "C16",
   "status": "proved",
   "theorems": [
    "Gcem.Props.C16_ceil_exact",
    "Gcem.Props.C16_ceil_special"
   ],
   "note": ""
  },
  {
   "property": "C17",
   "status": "proved",
   "theorems": [
    "Gcem.Props.C17_trunc_exact",
    "Gcem.Props.C17_trunc_special"
   ],
   "note": ""
  },
  {
   "property": "C18",
   "status": "proved",
   "theorems": [
    "Gcem.Props.C18_round_exact",
    "Gcem.Props.C18_round_special"
   ],
   "note": ""
  },
  {
   "property": "C19",
   "status": "proved",
   "theorems": [
    "Gcem.Props.C19_subnormal_unchanged",
    "Gcem.Props.C19_subnormal_not_integer"
   ],
   "note": ""
  },
  {
   "property": "C20",
   "status": "proved",
   "theorems": [
    "Gcem.Props.C20_total",
    "Gcem.Props.C20_ordering",
    "Gcem.Props.C20_idempotent",
    "Gcem.Props.C20_reflection",
    "Gcem.Props.C20_monotone",
    "Gcem.Props.C20_not_monotone_subnormal"
   ],
   "note": ""
  },
  {
   "property": "C21",
   "status": "proved",
   "theorems": [
    "Gcem.Props.C21_integral_value",
    "Gcem.Props.C21_integral_exact",
    "Gcem.Props.C21_integral_inexact"
   ],
   "note": ""
  },
  {
   "property": "C22",
   "status": "proved",
   "theorems": [
    "Gcem.Props.C22_fmod_integers",
    "Gcem.Props.C22_remainder_bounds"
   ],
   "note": ""
  },
  {
   "property": "C23",
   "status": "proved",
   "theorems": [
    "Gcem.Props.C23_fmod_special"
   ],
   "note": ""
  },
  {
   "property": "C24",
   "status": "proved",
   "theorems": [
    "Gcem.Props.C24_fmod_small",
    "Gcem.Props.C24_not_a_remainder",
    "Gcem.Props.C24_subnormal_quotient"
   ],
   "note": ""
  },
  {
   "property": "C25",
   "status": "proved",
   "theorems": [
    "Gcem.Props.C25_special",
    "Gcem.Props.C25_total"
   ],
   "note": ""
  },
  {
   "property": "C26",
   "status": "proved",
   "theorems": [
    "Gcem.Props.C26_float",
    "Gcem.Props.C26_double",
    "Gcem.Props.C26_long_double",
    "Gcem.Props.C26_upto4"
   ],
   "note": "True with the constants given; below 2^-180 (double, long double) the 100-step Newton iteration does not converge and nothing is claimed."
  },
  {
   "property": "C27",
   "status": "proved",
   "theorems": [
    "Gcem.Props.C27_lower_bound",
    "Gcem.Props.C27_wrong_by_factor"
   ],
   "note": ""
  },
  {
   "property": "C28",
   "status": "proved",
   "theorems": [
    "Gcem.Props.C28_special",
    "Gcem.Props.C28_accurate",
    "Gcem.Props.C28_lower_bound",
    "Gcem.Props.C28_wrong_by_factor",
    "Gcem.Props.C28_small_overflow"
   ],
   "note": "Accurate only on [2^-60,2^60]; outside, the negative result is proved (lower bound for every x>=1)."
  },
  {
   "property": "C29",
   "status": "proved",
   "theorems": [
    "Gcem.Props.C29_special",
    "Gcem.Props.C29_sign",
    "Gcem.Props.C29_not_symmetric",
    "Gcem.Props.C29_float",
    "Gcem.Props.C29_double",
    "Gcem.Props.C29_long_double",
    "Gcem.Props.C29_total"
   ],
   "note": "Symmetry in the arguments is FALSE (C29_not_symmetric); the accuracy theorems carry the hypothesis |y| <= 2^k|x|."
  },
  {
   "property": "C30",
   "status": "proved",
   "theorems": [
    "Gcem.Props.C30_special",
    "Gcem.Props.C30_undefined",
    "Gcem.Props.C30_undefined_long_double"
   ],
   "note": "The undefined set is characterised exactly."
  },
  {
   "property": "C31",
   "status": "proved",
   "theorems": [
    "Gcem.Props.C31_split",
    "Gcem.Props.C31_negative_not_nearest",
    "Gcem.Props.C31_undefined"
   ],
   "note": "The documented range of the fraction is FALSE for negative arguments (C31_negative_not_nearest)."
  },
  {
   "property": "C32",
   "status": "proved",
   "theorems": [
    "Gcem.Props.C32_truncation"
   ],
   "note": ""
  },
  {
   "property": "C33",
   "status": "proved",
   "theorems": [
    "Gcem.Props.C33_direct_range",
    "Gcem.Props.C33_accuracy"
   ],
   "note": ""
  },
  {
   "property": "C34",
   "status": "proved",
   "theorems": [
    "Gcem.Props.C34_large",
    "Gcem.Props.C34_inaccurate",
    "Gcem.Props.C34_special",
    "Gcem.Props.C34_branches",
    "Gcem.Props.C34_accuracy"
   ],
   "note": "The 2u bound holds up to 1e-4; the same bound above 1e-4 is FALSE (C34_inaccurate)."
  },
  {
   "property": "C35",
   "status": "proved",
   "theorems": [
    "Gcem.Props.C35_special",
    "Gcem.Props.C35_total",
    "Gcem.Props.C35_depth"
   ],
   "note": ""
  },
  {
   "property": "C36",
   "status": "proved",
   "theorems": [
    "Gcem.Props.C36_consistent",
    "Gcem.Props.C36_inconsistent"
   ],
   "note": "FALSE for small arguments (C36_inconsistent); proved for x >= 1."
  },
  {
   "property": "C37",
   "status": "proved",
   "theorems": [
    "Gcem.Props.C37_direct_range",
    "Gcem.Props.C37_ge_one",
    "Gcem.Props.C37_small"
   ],
   "note": ""
  },
  {
   "property": "C38",
   "status": "proved",
   "theorems": [
    "Gcem.Props.C38_log",
    "Gcem.Props.C38_log2_log10"
   ],
   "note": ""
  },
  {
   "property": "C39",
   "status": "proved",
   "theorems": [
    "Gcem.Props.C39_large",
    "Gcem.Props.C39_inaccurate",
    "Gcem.Props.C39_special",
    "Gcem.Props.C39_branches",
    "Gcem.Props.C39_accuracy"
   ],
   "note": "The 2u bound holds up to 1e-4; the same bound above 1e-4 is FALSE (C39_inaccurate)."
  },
  {
   "property": "C40",
   "status": "proved",
   "theorems": [
    "Gcem.Props.C40_domain",
    "Gcem.Props.C40_zero_base",
    "Gcem.Props.C40_one_base",
    "Gcem.Props.C40_inf_base",
    "Gcem.Props.C40_witnesses"
   ],
   "note": "pow(2.0,2.0)=4 and definedness of pow(2.0,1e300) are FALSE (C40_witnesses)."
  },
  {
   "property": "C41",
   "status": "proved",
   "theorems": [
    "Gcem.Props.C41_total",
    "Gcem.Props.C41_symmetry",
    "Gcem.Props.C41_bit_exact",
    "Gcem.Props.C41_special",
    "Gcem.Props.C41_large_argument"
   ],
   "note": "Accuracy for large arguments is FALSE (C41_large_argument)."
  },
  {
   "property": "C42",
   "status": "proved",
   "theorems": [
    "Gcem.Props.C42_range"
   ],
   "note": ""
  },
  {
   "property": "C43",
   "status": "proved",
   "theorems": [
    "Gcem.Props.C43_tan",
    "Gcem.Props.C43_sin",
    "Gcem.Props.C43_cos",
    "Gcem.Props.C43_float_double",
    "Gcem.Props.C43_tan_unit",
    "Gcem.Props.C43_sin_flush"
   ],
   "note": ""
  },
  {
   "property": "C44",
   "status": "proved",
   "theorems": [
    "Gcem.Props.C44_odd",
    "Gcem.Props.C44_special",
    "Gcem.Props.C44_range"
   ],
   "note": ""
  },
  {
   "property": "C45",
   "status": "proved",
   "theorems": [
    "Gcem.Props.C45_accuracy",
    "Gcem.Props.C45_small",
    "Gcem.Props.C45_ranges"
   ],
   "note": ""
  },
  {
   "property": "C46",
   "status": "proved",
   "theorems": [
    "Gcem.Props.C46_table",
    "Gcem.Props.C46_axis",
    "Gcem.Props.C46_nan",
    "Gcem.Props.C46_antisymmetric",
    "Gcem.Props.C46_deviations"
   ],
   "note": "Agreement with the C library at signed zeros / infinities is FALSE (C46_deviations)."
  },
  {
   "property": "C47",
   "status": "proved",
   "theorems": [
    "Gcem.Props.C47_asin_odd",
    "Gcem.Props.C47_domain",
    "Gcem.Props.C47_acos_reflect",
    "Gcem.Props.C47_endpoints",
    "Gcem.Props.C47_total"
   ],
   "note": ""
  },
  {
   "property": "C48",
   "status": "proved",
   "theorems": [
    "Gcem.Props.C48_odd",
    "Gcem.Props.C48_special",
    "Gcem.Props.C48_not_bounded"
   ],
   "note": "|tanh| <= 1 is FALSE (C48_not_bounded)."
  },
  {
   "property": "C49",
   "status": "proved",
   "theorems": [
    "Gcem.Props.C49_symmetry",
    "Gcem.Props.C49_special",
    "Gcem.Props.C49_undefined",
    "Gcem.Props.C49_cancellation"
   ],
   "note": "Small-argument accuracy of sinh is FALSE (C49_cancellation)."
  },
  {
   "property": "C50",
   "status": "proved",
   "theorems": [
    "Gcem.Props.C50_total",
    "Gcem.Props.C50_domain",
    "Gcem.Props.C50_failures"
   ],
   "note": "Oddness of asinh is FALSE (C50_failures)."
  },
  {
   "property": "C51",
   "status": "proved",
   "theorems": [
    "Gcem.Props.C51_special",
    "Gcem.Props.C51_odd",
    "Gcem.Props.C51_undefined",
    "Gcem.Props.C51_overflow"
   ],
   "note": "Undefined set characterised exactly for float and double."
  },
  {
   "property": "C52",
   "status": "proved",
   "theorems": [
    "Gcem.Props.C52_odd",
    "Gcem.Props.C52_domain"
   ],
   "note": ""
  },
  {
   "property": "C53",
   "status": "proved",
   "theorems": [
    "Gcem.Props.C53_lgamma_total",
    "Gcem.Props.C53_lgamma_special",
    "Gcem.Props.C53_tgamma_special",
    "Gcem.Props.C53_tgamma_recursion",
    "Gcem.Props.C53_tgamma_terminates",
    "Gcem.Props.C53_tgamma_positive",
    "Gcem.Props.C53_tgamma_large_undefined"
   ],
   "note": "lgamma(+inf)=+inf and tgamma(+inf)=+inf are FALSE (both NaN)."
  },
  {
   "property": "C54",
   "status": "proved",
   "theorems": [
    "Gcem.Props.C54_lbeta_symm",
    "Gcem.Props.C54_beta_symm",
    "Gcem.Props.C54_nan"
   ],
   "note": ""
  },
  {
   "property": "C55",
   "status": "proved",
   "theorems": [
    "Gcem.Props.C55_binomial_symm",
    "Gcem.Props.C55_binomial_ends",
    "Gcem.Props.C55_lmgamma"
   ],
   "note": ""
  },
  {
   "property": "C56",
   "status": "proved",
   "theorems": [
    "Gcem.Props.C56_outcome",
    "Gcem.Props.C56_boundary",
    "Gcem.Props.C56_reflection",
    "Gcem.Props.C56_undefined"
   ],
   "note": "Definedness for all finite arguments is FALSE (C56_undefined)."
  },
  {
   "property": "C57",
   "status": "proved",
   "theorems": [
    "Gcem.Props.C57_outcome",
    "Gcem.Props.C57_boundary",
    "Gcem.Props.C57_undefined"
   ],
   "note": "Definedness for all finite arguments is FALSE (C57_undefined)."
  },
  {
   "property": "C58",
   "status": "proved",
   "theorems": [
    "Gcem.Props.C58_beta_outcome",
    "Gcem.Props.C58_gamma_outcome",
    "Gcem.Props.C58_beta_boundary",
    "Gcem.Props.C58_gamma_boundary",
    "Gcem.Props.C58_outside"
   ],
   "note": "NaN outside the domain is FALSE (C58_outside)."
  },
  {
   "property": "C59",
   "status": "proved",
   "theorems": [
    "Gcem.Props.C59_one_argument",
    "Gcem.Props.C59_two_arguments",
    "Gcem.Props.C59_three_arguments",
    "Gcem.Props.C59_integer_parameter"
   ],
   "note": ""
  },
  {
   "property": "C60",
   "status": "proved",
   "theorems": [
    "Gcem.Props.C60_bit_identical",
    "Gcem.Props.C60_atan_series_exact",
    "Gcem.Props.C60_atan_series_differs"
   ],
   "note": "Bit-identity is FALSE for the power series of atan (C60_atan_series_differs), proved for the other kernels."
  },
  {
   "property": "C61",
   "status": "proved",
   "theorems": [
    "Gcem.Props.C61_constants",
    "Gcem.Props.C61_log_table",
    "Gcem.Props.C61_in_type"
   ],
   "note": ""
  },
  {
   "property": "C62",
   "status": "proved",
   "theorems": [
    "Gcem.Props.C62_printed",
    "Gcem.Props.C62_stored",
    "Gcem.Props.C62_shape"
   ],
   "note": ""
  },
  {
   "property": "C63",
   "status": "proved",
   "theorems": [
    "Gcem.Props.C63_log2_direct",
    "Gcem.Props.C63_log2_ge_one",
    "Gcem.Props.C63_log10_direct",
    "Gcem.Props.C63_log10_ge_one",
    "Gcem.Props.C63_not_exact"
   ],
   "note": "Exactness at powers of the base is FALSE (C63_not_exact)."
  },
  {
   "property": "C64",
   "status": "proved",
   "theorems": [
    "Gcem.Props.C64_accuracy",
    "Gcem.Props.C64_sinh_not_relative"
   ],
   "note": "A relative error bound for sinh is FALSE (C64_sinh_not_relative); proved relative to cosh."
  },
  {
   "property": "C65",
   "status": "proved",
   "theorems": [
    "Gcem.Props.C65_accuracy",
    "Gcem.Props.C65_small_base",
    "Gcem.Props.C65_wrong"
   ],
   "note": "FALSE near powers of ten below 1 (C65_wrong); proved elsewhere."
  },
  {
   "property": "C66",
   "status": "proved",
   "theorems": [
    "Gcem.Props.C66_asin",
    "Gcem.Props.C66_asin_half",
    "Gcem.Props.C66_acos",
    "Gcem.Props.C66_acos_cancellation"
   ],
   "note": "A relative bound for acos near 1 is FALSE (C66_acos_cancellation); proved with the cancellation term."
  },
  {
   "property": "C67",
   "status": "proved",
   "theorems": [
    "Gcem.Props.C67_accuracy",
    "Gcem.Props.C67_axis",
    "Gcem.Props.C67_subnormal_x"
   ],
   "note": "FALSE for subnormal x (C67_subnormal_x)."
  },
  {
   "property": "C68",
   "status": "proved",
   "theorems": [
    "Gcem.Props.C68_unit",
    "Gcem.Props.C68_accuracy",
    "Gcem.Props.C68_tiny"
   ],
   "note": ""
  },
  {
   "property": "C69",
   "status": "proved",
   "theorems": [
    "Gcem.Props.C69_atanh",
    "Gcem.Props.C69_atanh_neg",
    "Gcem.Props.C69_asinh_mid",
    "Gcem.Props.C69_asinh",
    "Gcem.Props.C69_acosh_near",
    "Gcem.Props.C69_acosh",
    "Gcem.Props.C69_not_relative"
   ],
   "note": "A relative error bound near 0 is FALSE (C69_not_relative); proved as absolute bounds."
  },
  {
   "property": "C70",
   "status": "proved",
   "theorems": [
    "Gcem.Props.C70_underflow",
    "Gcem.Props.C70_gradual",
    "Gcem.Props.C70_overflow",
    "Gcem.Props.C70_long_double_flush"
   ],
   "note": "Gradual underflow in long double is FALSE (C70_long_double_flush); proved for float and double."
  },
  {
   "property": "C71",
   "status": "proved",
   "theorems": [
    "Gcem.Props.C71_accuracy",
    "Gcem.Props.C71_range_large",
    "Gcem.Props.C71_jump"
   ],
   "note": "Accuracy to a few ulp near 2.1 and monotonicity are FALSE (C71_jump); the bound proved there is 80600u."
  },
  {
   "property": "C72",
   "status": "proved",
   "theorems": [
    "Gcem.Props.C72_accuracy",
    "Gcem.Props.C72_small",
    "Gcem.Props.C72_tiny"
   ],
   "note": "Accuracy near zero is FALSE (C72_tiny: +inf up to u/2)."
  },
  {
   "property": "C73",
   "status": "proved",
   "theorems": [
    "Gcem.Props.C73_accuracy",
    "Gcem.Props.C73_small",
    "Gcem.Props.C73_tiny"
   ],
   "note": "Accuracy near zero is FALSE (C73_tiny: +inf up to u/2). Negative arguments: C77."
  },
  {
   "property": "C74",
   "status": "proved",
   "theorems": [
    "Gcem.Props.C74_lbeta_accuracy",
    "Gcem.Props.C74_beta_accuracy"
   ],
   "note": ""
  },
  {
   "property": "C75",
   "status": "proved",
   "theorems": [
    "Gcem.Props.C75_accuracy"
   ],
   "note": ""
  },
  {
   "property": "C76",
   "status": "proved",
   "theorems": [
    "Gcem.Props.C76_accuracy"
   ],
   "note": ""
  },
  {
   "property": "C77",
   "status": "proved",
   "theorems": [
    "Gcem.Props.C77_accuracy"
   ],
   "note": ""
  },
  {
   "property": "C78",
   "status": "proved",
   "theorems": [
    "Gcem.Props.C78_accuracy"
   ],
   "note": ""
  },
  {
   "property": "C79",
   "status": "proved",
   "theorems": [
    "Gcem.Props.C79_accuracy"
   ],
   "note": ""
  },
  {
   "property": "C80",
   "status": "proved",
   "theorems": [
    "Gcem.Props.C80_saturation",
    "Gcem.Props.C80_error",
    "Gcem.Props.C80_tiny",
    "Gcem.Props.C80_tiny_exact"
   ],
   "note": ""
  },
  {
   "property": "C81",
   "status": "proved",
   "theorems": [
    "Gcem.Props.C81_accuracy",
    "Gcem.Props.C81_lower_accuracy",
    "Gcem.Props.C81_power_of_ten"
   ],
   "note": ""
  },
  {
   "property": "C82",
   "status": "proved",
   "theorems": [
    "Gcem.Props.C82_exp_log",
    "Gcem.Props.C82_exp_log_small",
    "Gcem.Props.C82_log_exp",
    "Gcem.Props.C82_pythagoras",
    "Gcem.Props.C82_sqrt_square",
    "Gcem.Props.C82_tan_atan"
   ],
   "note": ""
  },
  {
   "property": "C83",
   "status": "proved",
   "theorems": [
    "Gcem.Props.C83_accuracy",
    "Gcem.Props.C83_backward"
   ],
   "note": ""
  },
  {
   "property": "C84",
   "status": "proved",
   "theorems": [
    "Gcem.Props.C84_call_type",
    "Gcem.Props.C84_float_exact",
    "Gcem.Props.C84_int_rounds",
    "Gcem.Props.C84_int32_exact",
    "Gcem.Props.C84_int_collapse",
    "Gcem.Props.C84_max_min_not_bounds",
    "Gcem.Props.C84_fmod_int",
    "Gcem.Props.C84_fmod_two"
   ],
   "note": "max as an upper bound and fmod(n,2) as a parity test are FALSE (C84_max_min_not_bounds, C84_fmod_two)."
  },
  {
   "property": "C85",
   "status": "proved",
   "theorems": [
    "Gcem.Props.C85_int_overflow",
    "Gcem.Props.C85_int_value",
    "Gcem.Props.C85_unsigned_wrap",
    "Gcem.Props.C85_mixed_accuracy",
    "Gcem.Props.C85_mixed_loss"
   ],
   "note": "Definedness for integers is FALSE (C85_int_overflow); accuracy in the wider type is FALSE (C85_mixed_loss)."
  },
  {
   "property": "C86",
   "status": "proved",
   "theorems": [
    "Gcem.Props.C86_undefined",
    "Gcem.Props.C86_cast"
   ],
   "note": "Definedness is FALSE for all arguments (C86_undefined)."
  },
  {
   "property": "C87",
   "status": "proved",
   "theorems": [
    "Gcem.Props.C87_negative_base",
    "Gcem.Props.C87_int_base",
    "Gcem.Props.C87_mixed",
    "Gcem.Props.C87_narrow_base"
   ],
   "note": "pow(-3,2.0) = 9 is FALSE (C87_negative_base)."
  },
  {
   "property": "C88",
   "status": "proved",
   "theorems": [
    "Gcem.Props.C88_gcd",
    "Gcem.Props.C88_gcd_undefined",
    "Gcem.Props.C88_gcd_int",
    "Gcem.Props.C88_lcm_int",
    "Gcem.Props.C88_lcm_zero",
    "Gcem.Props.C88_binomial",
    "Gcem.Props.C88_binomial_undefined",
    "Gcem.Props.C88_factorial"
   ],
   "note": ""
  },
  {
   "property": "C89",
   "status": "proved",
   "theorems": [
    "Gcem.Props.C89_abs",
    "Gcem.Props.C89_factorial",
    "Gcem.Props.C89_binomial",
    "Gcem.Props.C89_pow",
    "Gcem.Props.C89_pow_witness",
    "Gcem.Props.C89_powI"
   ],
   "note": "abs >= 0 and wrapping of unsigned factorials are FALSE (C89_abs, C89_factorial)."
  },
  {
   "property": "C90",
   "status": "proved",
   "theorems": [
    "Gcem.Props.C90_log_depth",
    "Gcem.Props.C90_log_short",
    "Gcem.Props.C90_sqrt_depth",
    "Gcem.Props.C90_sqrt_short",
    "Gcem.Props.C90_tgamma_depth",
    "Gcem.Props.C90_gcd_depth",
    "Gcem.Props.C90_gcd_depth_sharp",
    "Gcem.Props.C90_factorial_depth",
    "Gcem.Props.C90_pow_depth",
    "Gcem.Props.C90_pow_depth_sharp",
    "Gcem.Props.C90_binomial_calls"
   ],
   "note": "That a depth of 512 suffices is FALSE for long double (C90_log_short, C90_sqrt_short) and for tgamma below -511 (C90_tgamma_depth)."
  },
  {
   "property": "C91",
   "status": "proved",
   "theorems": [
    "Gcem.Props.C91_exact_square",
    "Gcem.Props.C91_small_integers",
    "Gcem.Props.C91_not_beyond",
    "Gcem.Props.C91_hypot",
    "Gcem.Props.C91_hypot_4_3",
    "Gcem.Props.C91_hypot_order"
   ],
   "note": "That sqrt(r*r) == r for all representable squares is FALSE beyond 100 (C91_not_beyond); that hypot is symmetric is FALSE (C91_hypot_order)."
  },
  {
   "property": "C92",
   "status": "proved",
   "theorems": [
    "Gcem.Props.C92_accuracy",
    "Gcem.Props.C92_backward"
   ],
   "note": "Only the shape parameter 1 and 1/2 <= p <= 0.95 are covered; for other shape parameters only the boundary cases (C58) are proved."
  },
  {
   "property": "C93",
   "status": "proved",
   "theorems": [
    "Gcem.Props.C93_accuracy",
    "Gcem.Props.C93_nan"
   ],
   "note": "Only a = b = 1 and 1/8 <= p <= 7/8 are covered. That the result is finite for all p in (0,1) is FALSE in float (C93_nan)."
  },
  {
   "property": "C94",
   "status": "proved",
   "theorems": [
    "Gcem.Props.C94_exp",
    "Gcem.Props.C94_log",
    "Gcem.Props.C94_log_small",
    "Gcem.Props.C94_sqrt_upto4",
    "Gcem.Props.C94_sqrt",
    "Gcem.Props.C94_atan",
    "Gcem.Props.C94_neighbours"
   ],
   "note": "That exp, log, atan and tanh are monotone is FALSE (C94_neighbours, C94_log_small); for sqrt and for log on [1/2, inf) no reversed pair is known. tanh has only the negative result."
  },
  {
   "property": "C95",
   "status": "proved",
   "theorems": [
    "Gcem.Props.C95_tgamma_succ",
    "Gcem.Props.C95_tgamma_factorial",
    "Gcem.Props.C95_tgamma_round",
    "Gcem.Props.C95_exp_add",
    "Gcem.Props.C95_log_mul",
    "Gcem.Props.C95_asin_acos",
    "Gcem.Props.C95_pow_half",
    "Gcem.Props.C95_cosh_sinh",
    "Gcem.Props.C95_inexact"
   ],
   "note": "That tgamma(n+1) == n! where n! is representable is FALSE, likewise the exact form of the other identities (C95_inexact)."
  },
  {
   "property": "C96",
   "status": "proved",
   "theorems": [
    "Gcem.Props.C96_sqrt",
    "Gcem.Props.C96_hypot",
    "Gcem.Props.C96_hypot_second",
    "Gcem.Props.C96_exp",
    "Gcem.Props.C96_sinh",
    "Gcem.Props.C96_log",
    "Gcem.Props.C96_log_small",
    "Gcem.Props.C96_expm1",
    "Gcem.Props.C96_cosh",
    "Gcem.Props.C96_erf",
    "Gcem.Props.C96_incomplete_gamma_exceeds"
   ],
   "note": "hypot(x,y) >= |y| and incomplete_gamma <= 1 are FALSE (C96_hypot_second, C96_incomplete_gamma_exceeds). Open: cosh(x) >= 1 for 0 < |x| < 1/100, |erf| <= 1 in float for 1.98 < |x| <= 2.1."
  },
  {
   "property": "C97",
   "status": "proved",
   "theorems": [
    "Gcem.Props.C97_hypot",
    "Gcem.Props.C97_atan2",
    "Gcem.Props.C97_fmod_reflect",
    "Gcem.Props.C97_fmod_error",
    "Gcem.Props.C97_fmod",
    "Gcem.Props.C97_hypot_not_three"
   ],
   "note": "Invariance under scaling by other factors is FALSE (C97_hypot_not_three). The bound on fmod says nothing about the exact remainder when |x/y| is large, where n may be wrong by u|x/y|; see C24 for what fails there."
  },
  {
   "property": "C98",
   "status": "proved",
   "theorems": [
    "Gcem.Props.C98_isqrt",
    "Gcem.Props.C98_isqrt_half",
    "Gcem.Props.C98_sqrt_round",
    "Gcem.Props.C98_isqrt_fails",
    "Gcem.Props.C98_log2_floor",
    "Gcem.Props.C98_log10_floor",
    "Gcem.Props.C98_log_floor_fails",
    "Gcem.Props.C98_log2_round",
    "Gcem.Props.C98_pow_round",
    "Gcem.Props.C98_binomial_round",
    "Gcem.Props.C98_pow_floor_fails"
   ],
   "note": "That floor(sqrt(n*n)) == n, floor(log2(2^k)) == k and floor(pow(b,n)) == b^n is FALSE (C98_isqrt_fails, C98_log_floor_fails, C98_pow_floor_fails)."
  },
  {
   "property": "C99",
   "status": "proved",
   "theorems": [
    "Gcem.Props.C99_poisson",
    "Gcem.Props.C99_poisson_tail",
    "Gcem.Props.C99_binomial",
    "Gcem.Props.C99_chi_square_one"
   ],
   "note": "Only whole shape parameters (and 1/2) have closed forms; the general accuracy statements are C78, C79 and C81."
  },
  {
   "property": "C100",
   "status": "proved",
   "theorems": [
    "Gcem.Props.C100_accuracy",
    "Gcem.Props.C100_poisson"
   ],
   "note": "Next to powers of ten see C101, where the result can be ten times too large."
  },
  {
   "property": "C101",
   "status": "proved",
   "theorems": [
    "Gcem.Props.C101_log_float",
    "Gcem.Props.C101_log_double",
    "Gcem.Props.C101_log_long_double",
    "Gcem.Props.C101_log10",
    "Gcem.Props.C101_pow",
    "Gcem.Props.C101_incomplete"
   ],
   "note": "That log is accurate for all normal arguments is FALSE (C101_log_float, C101_log_double, C101_log_long_double)."
  },
  {
   "property": "C102",
   "status": "proved",
   "theorems": [
    "Gcem.Props.C102_every",
    "Gcem.Props.C102_negative_iterate",
    "Gcem.Props.C102_nan",
    "Gcem.Props.C102_undefined"
   ],
   "note": "That incomplete_gamma_inv returns a number for all a > 0, 0 < p < 1 is FALSE (C102_every, C102_nan, C102_undefined). See C92 for a range in which it is accurate."
  }
 ]
}