{
 "claims": [
  {
   "property": "C01",
   "status": "proved",
   "theorems": [
    "CP.Props.C01_ecdf2"
   ],
   "note": "Exact arithmetic (XR); std::sort and FFTW by contract (SortSpec, FftSpec); asserts compiled out (C13 covers them on). All n, all valid lists."
  },
  {
   "property": "C02",
   "status": "proved",
   "theorems": [
    "CP.Props.C02_ecdf1_new_B"
   ],
   "note": "n >= 1, exact arithmetic; FFTW by contract."
  },
  {
   "property": "C03",
   "status": "proved",
   "theorems": [
    "CP.Props.C03_ecdf1_new_b"
   ],
   "note": "n >= 1, exact arithmetic; FFTW by contract."
  },
  {
   "property": "C04",
   "status": "proved",
   "theorems": [
    "CP.Props.C04_ecdf1_mns2016_b"
   ],
   "note": "Exact arithmetic, any exponent oracle."
  },
  {
   "property": "C05",
   "status": "proved",
   "theorems": [
    "CP.Props.C05_ecdf1_mns2016_B"
   ],
   "note": "Exact arithmetic, any exponent oracle."
  },
  {
   "property": "C06",
   "status": "proved",
   "theorems": [
    "CP.Props.C06_convolution"
   ],
   "note": "FFTW by contract (documented unnormalised DFTs; may clobber inputs)."
  },
  {
   "property": "C07",
   "status": "proved",
   "theorems": [
    "CP.Props.C07_agree_lower",
    "CP.Props.C07_agree_upper"
   ],
   "note": ""
  },
  {
   "property": "C08",
   "status": "proved",
   "theorems": [
    "CP.Props.C08_probability"
   ],
   "note": ""
  },
  {
   "property": "C09",
   "status": "proved",
   "theorems": [
    "CP.Props.C09_monotone_ecdf2",
    "CP.Props.C09_monotone_one_sided"
   ],
   "note": ""
  },
  {
   "property": "C10",
   "status": "proved",
   "theorems": [
    "CP.Props.C10_reflection"
   ],
   "note": ""
  },
  {
   "property": "C11",
   "status": "proved",
   "theorems": [
    "CP.Props.C11_trivial"
   ],
   "note": ""
  },
  {
   "property": "C12",
   "status": "proved",
   "theorems": [
    "CP.Props.C12_degenerate",
    "CP.Props.C12_double",
    "CP.Props.C12_double_fast_math",
    "CP.Props.C12_double_fft",
    "CP.Props.C12_infeasible",
    "CP.Props.C12_program"
   ],
   "note": "The double-precision theorems are the zero case of the relative-error invariant of C39/C61/C66: products with a zero factor, quotients and fused multiply-adds of zero are zero in the arithmetic (proved for IEEE-754 in Proofs/Ieee.lean and Proofs/FastIeee.lean)."
  },
  {
   "property": "C13",
   "status": "proved",
   "theorems": [
    "CP.Props.C13_abort_iff"
   ],
   "note": ""
  },
  {
   "property": "C14",
   "status": "proved",
   "theorems": [
    "CP.Props.C14_check",
    "CP.Props.C14_ecdf2",
    "CP.Props.C14_mns2016_B",
    "CP.Props.C14_mns2016_b",
    "CP.Props.C14_new_B",
    "CP.Props.C14_new_b"
   ],
   "note": ""
  },
  {
   "property": "C15",
   "status": "proved",
   "theorems": [
    "CP.Props.C15_nan_no_value",
    "CP.Props.C15_nan_throws",
    "CP.Props.C15_validation_accepts_nan"
   ],
   "note": ""
  },
  {
   "property": "C16",
   "status": "proved",
   "theorems": [
    "CP.Props.C16_ecdf2_any",
    "CP.Props.C16_ecdf2_release"
   ],
   "note": "std::sort is assumed to permute; for NaN locations its precondition (a strict weak ordering) is violated. For libstdc++ that assumption is proved (C87)."
  },
  {
   "property": "C17",
   "status": "proved",
   "theorems": [
    "CP.Props.C17_new_B_empty",
    "CP.Props.C17_new_B_one",
    "CP.Props.C17_new_B_release",
    "CP.Props.C17_new_any",
    "CP.Props.C17_new_b_empty",
    "CP.Props.C17_new_b_one",
    "CP.Props.C17_new_b_release"
   ],
   "note": ""
  },
  {
   "property": "C18",
   "status": "proved",
   "theorems": [
    "CP.Props.C18_mns2016_B",
    "CP.Props.C18_mns2016_b"
   ],
   "note": ""
  },
  {
   "property": "C19",
   "status": "proved",
   "theorems": [
    "CP.Props.C19_guard",
    "CP.Props.C19_overflow",
    "CP.Props.C19_safe"
   ],
   "note": ""
  },
  {
   "property": "C20",
   "status": "proved",
   "theorems": [
    "CP.Props.C20_history_independent",
    "CP.Props.C20_plans"
   ],
   "note": ""
  },
  {
   "property": "C21",
   "status": "proved",
   "theorems": [
    "CP.Props.C21_evaluate",
    "CP.Props.C21_negative",
    "CP.Props.C21_pole_unused",
    "CP.Props.C21_safe",
    "CP.Props.C21_table"
   ],
   "note": ""
  },
  {
   "property": "C22",
   "status": "proved",
   "theorems": [
    "CP.Props.C22_ties"
   ],
   "note": "Proved for any arithmetic satisfying TieLaws; the XR instance is proved."
  },
  {
   "property": "C23",
   "status": "proved",
   "theorems": [
    "CP.Props.C23_block_rule",
    "CP.Props.C23_block_size"
   ],
   "note": ""
  },
  {
   "property": "C24",
   "status": "proved",
   "theorems": [
    "CP.Props.C24_rescaling_irrelevant"
   ],
   "note": ""
  },
  {
   "property": "C25",
   "status": "proved",
   "theorems": [
    "CP.Props.C25_empty_lower",
    "CP.Props.C25_empty_upper",
    "CP.Props.C25_length_mismatch",
    "CP.Props.C25_one_sided_needs_one",
    "CP.Props.C25_two_sided"
   ],
   "note": ""
  },
  {
   "property": "C26",
   "status": "proved",
   "theorems": [
    "CP.Props.C26_error",
    "CP.Props.C26_io",
    "CP.Props.C26_printed",
    "CP.Props.C26_total",
    "CP.Props.C26_unknown_command",
    "CP.Props.C26_usage"
   ],
   "note": ""
  },
  {
   "property": "C27",
   "status": "proved",
   "theorems": [
    "CP.Props.C27_split",
    "CP.Props.C27_split_join"
   ],
   "note": "Lines of 2^31 characters or more: C91."
  },
  {
   "property": "C28",
   "status": "proved",
   "theorems": [
    "CP.Props.C28_bad_field",
    "CP.Props.C28_empty",
    "CP.Props.C28_line",
    "CP.Props.C28_outcomes",
    "CP.Props.C28_trailing_comma"
   ],
   "note": "Lines of 2^31 characters or more: C91."
  },
  {
   "property": "C29",
   "status": "proved",
   "theorems": [
    "CP.Props.C29_out_of_range",
    "CP.Props.C29_prefix"
   ],
   "note": ""
  },
  {
   "property": "C30",
   "status": "proved",
   "theorems": [
    "CP.Props.C30_no_second_line",
    "CP.Props.C30_outcomes",
    "CP.Props.C30_rest_ignored",
    "CP.Props.C30_success_iff",
    "CP.Props.C30_two_lines",
    "CP.Props.C30_unreadable"
   ],
   "note": ""
  },
  {
   "property": "C31",
   "status": "proved",
   "theorems": [
    "CP.Props.C31_exact",
    "CP.Props.C31_otherwise",
    "CP.Props.C31_roundtrip"
   ],
   "note": ""
  },
  {
   "property": "C32",
   "status": "proved",
   "theorems": [
    "CP.Props.C32_exact",
    "CP.Props.C32_full_length"
   ],
   "note": ""
  },
  {
   "property": "C33",
   "status": "proved",
   "theorems": [
    "CP.Props.C33_any_arithmetic",
    "CP.Props.C33_counts_complement",
    "CP.Props.C33_in_unit_interval",
    "CP.Props.C33_sizes"
   ],
   "note": ""
  },
  {
   "property": "C34",
   "status": "proved",
   "theorems": [
    "CP.Props.C34_ecdf_hangs",
    "CP.Props.C34_ecdf_never_returns",
    "CP.Props.C34_poisson_hangs",
    "CP.Props.C34_zero_simulations"
   ],
   "note": ""
  },
  {
   "property": "C35",
   "status": "proved",
   "theorems": [
    "CP.Props.C35_ecdf_differs",
    "CP.Props.C35_empty_b_never_inside",
    "CP.Props.C35_empty_b_prints_zero",
    "CP.Props.C35_path_event",
    "CP.Props.C35_poisson_counts",
    "CP.Props.C35_poisson_in_unit_interval",
    "CP.Props.C35_poisson_sizes"
   ],
   "note": ""
  },
  {
   "property": "C36",
   "status": "proved",
   "theorems": [
    "CP.Props.C36_all_zero_is_stuck",
    "CP.Props.C36_init_by_array",
    "CP.Props.C36_never_stuck",
    "CP.Props.C36_other_ranges",
    "CP.Props.C36_periodic",
    "CP.Props.C36_uniform_grid",
    "CP.Props.C36_zero_draw_possible"
   ],
   "note": ""
  },
  {
   "property": "C37",
   "status": "proved",
   "theorems": [
    "CP.Props.C37_seed_not_enough"
   ],
   "note": ""
  },
  {
   "property": "C38",
   "status": "proved",
   "theorems": [
    "CP.Props.C38_sorted_sample",
    "CP.Props.C38_zero_draw",
    "CP.Props.C38_zero_draw_never_crosses"
   ],
   "note": ""
  },
  {
   "property": "C39",
   "status": "proved",
   "theorems": [
    "CP.Props.C39_binary_floating_point",
    "CP.Props.C39_ecdf2_error",
    "CP.Props.C39_ecdf2_relative",
    "CP.Props.C39_pmf_from_library"
   ],
   "note": "Any arithmetic meeting FloatModel/MathLibrary (RoundSpec); instantiated for p-bit binary round-to-nearest with unbounded exponents. std::sort by contract. Reassociation by -ffast-math is outside the model."
  },
  {
   "property": "C40",
   "status": "proved",
   "theorems": [
    "CP.Props.C40_mns2016",
    "CP.Props.C40_mns2016_double",
    "CP.Props.C40_mns2016_long_double",
    "CP.Props.C40_no_overflow",
    "CP.Props.C40_overflow"
   ],
   "note": ""
  },
  {
   "property": "C41",
   "status": "proved",
   "theorems": [
    "CP.Props.C41_lower",
    "CP.Props.C41_two_sided",
    "CP.Props.C41_upper"
   ],
   "note": "Lines of 2^31 characters or more: C91."
  },
  {
   "property": "C42",
   "status": "proved",
   "theorems": [
    "CP.Props.C42_direct_convolution_exact",
    "CP.Props.C42_ecdf2_direct",
    "CP.Props.C42_ecdf2_fft",
    "CP.Props.C42_mns_B",
    "CP.Props.C42_mns_b",
    "CP.Props.C42_new_B",
    "CP.Props.C42_new_b"
   ],
   "note": "About counted copies of the functions, proved to return the same results. Unit cost per array access, floating-point operation and libm call; FFTW and std::sort priced by parameters."
  },
  {
   "property": "C43",
   "status": "proved",
   "theorems": [
    "CP.Props.C43_assertions_only_abort"
   ],
   "note": ""
  },
  {
   "property": "C44",
   "status": "proved",
   "theorems": [
    "CP.Props.C44_empty_line",
    "CP.Props.C44_file",
    "CP.Props.C44_numbers",
    "CP.Props.C44_one_sided_file",
    "CP.Props.C44_trailing_comma"
   ],
   "note": ""
  },
  {
   "property": "C45",
   "status": "proved",
   "theorems": [
    "CP.Props.C45_b",
    "CP.Props.C45_never_a_number"
   ],
   "note": ""
  },
  {
   "property": "C46",
   "status": "proved",
   "theorems": [
    "CP.Props.C46_seed"
   ],
   "note": ""
  },
  {
   "property": "C47",
   "status": "proved",
   "theorems": [
    "CP.Props.C47_estimates_ecdf2",
    "CP.Props.C47_estimates_one_sided",
    "CP.Props.C47_unbiased"
   ],
   "note": "Exact arithmetic, ideal i.i.d. uniform draws (the real TinyMT generator is deterministic, C36/C37). R\u00e9nyi's representation of uniform order statistics and the independence of runs are proved from Mathlib's measure theory."
  },
  {
   "property": "C48",
   "status": "proved",
   "theorems": [
    "CP.Props.C48_bad_file",
    "CP.Props.C48_bad_number",
    "CP.Props.C48_ecdf",
    "CP.Props.C48_ecdf_empty_undefined",
    "CP.Props.C48_ecdf_in_unit_interval",
    "CP.Props.C48_poisson",
    "CP.Props.C48_poisson_large_undefined",
    "CP.Props.C48_too_many",
    "CP.Props.C48_unknown_command",
    "CP.Props.C48_usage"
   ],
   "note": ""
  },
  {
   "property": "C49",
   "status": "proved",
   "theorems": [
    "CP.Props.C49_ecdf2_survives",
    "CP.Props.C49_mns2016_survives",
    "CP.Props.C49_new_survives_iff",
    "CP.Props.C49_use_fft_type",
    "CP.Props.C49_values"
   ],
   "note": "For libstdc++ that assumption is proved (C87)."
  },
  {
   "property": "C50",
   "status": "proved",
   "theorems": [
    "CP.Props.C50_unbiased"
   ],
   "note": "Exact arithmetic, ideal i.i.d. uniform draws. The conditional law of Poisson arrivals and the independence of paths of random length are proved."
  },
  {
   "property": "C51",
   "status": "proved",
   "theorems": [
    "CP.Props.C51_ecdf2",
    "CP.Props.C51_leak_accumulates",
    "CP.Props.C51_mns2016_B",
    "CP.Props.C51_mns2016_b",
    "CP.Props.C51_new_B_accepted",
    "CP.Props.C51_new_B_rejected",
    "CP.Props.C51_new_B_valid",
    "CP.Props.C51_new_b",
    "CP.Props.C51_plans"
   ],
   "note": "Blocks from _mm_malloc and FFTW plans are modelled as handles, destructors run on return and on exceptions. Memory of std::vector and allocation failure are not modelled. Freeing a handle that is not live is undefined behaviour in the model, so equality of outcomes with the memory-free model excludes double frees. Objects of one's own: C89."
  },
  {
   "property": "C52",
   "status": "proved",
   "theorems": [
    "CP.Props.C52_binary_floating_point",
    "CP.Props.C52_ecdf2_direct_error",
    "CP.Props.C52_ecdf2_fft_error"
   ],
   "note": "Assumes the rounding model (FloatModel, SignedOps) and an accuracy bound of the FFT library (FFTAccurate); both are shown to hold for 53-bit arithmetic with a correctly rounded FFT, where the theorem gives an error below 1e-10 on an example. The statement bounds absolute error only."
  },
  {
   "property": "C53",
   "status": "proved",
   "theorems": [
    "CP.Props.C53_binary_floating_point",
    "CP.Props.C53_binary_floating_point_b",
    "CP.Props.C53_ecdf1_new_B_error",
    "CP.Props.C53_ecdf1_new_b_error"
   ],
   "note": "Assumes the rounding model (FloatModel, SignedOps), an accuracy bound of the FFT library (FFTAccurate) and, for ecdf1_new_b, that 1-x is rounded monotonically; all are shown to hold for 53-bit arithmetic with a correctly rounded FFT, where the theorems give errors below 1e-10 on examples. Absolute error only."
  },
  {
   "property": "C54",
   "status": "proved",
   "theorems": [
    "CP.Props.C54_decimal_input",
    "CP.Props.C54_ecdf2_stable",
    "CP.Props.C54_one_sided_stable"
   ],
   "note": "The first two theorems are about exact arithmetic; the third combines them with C52."
  },
  {
   "property": "C55",
   "status": "proved",
   "theorems": [
    "CP.Props.C55_documented_example",
    "CP.Props.C55_monotonised",
    "CP.Props.C55_monotonised_one_sided",
    "CP.Props.C55_rejected"
   ],
   "note": "Finding: the documented example raises RuntimeError."
  },
  {
   "property": "C56",
   "status": "proved",
   "theorems": [
    "CP.Props.C56_bounds",
    "CP.Props.C56_distribution",
    "CP.Props.C56_distribution_empty",
    "CP.Props.C56_distribution_ends",
    "CP.Props.C56_order_statistic_cdf",
    "CP.Props.C56_statistic",
    "CP.Props.C56_statistic_errors"
   ],
   "note": "scipy.special.betainc/betaincinv and ndarray.sort are parameters with contracts (shown to be satisfiable); exact arithmetic."
  },
  {
   "property": "C57",
   "status": "proved",
   "theorems": [
    "CP.Props.C57_converges_iff",
    "CP.Props.C57_distribution_error",
    "CP.Props.C57_exact_arithmetic_fails",
    "CP.Props.C57_floating_point",
    "CP.Props.C57_level"
   ],
   "note": "Fp p rounds to nearest with ties upwards and has no exponent limits (2^-110 is far from underflow in double). The end-to-end theorem assumes an accuracy sigma of betaincinv and that its quantiles are in order; an example with n = 1 in 53-bit arithmetic is checked."
  },
  {
   "property": "C58",
   "status": "proved",
   "theorems": [
    "CP.Props.C58_binary_floating_point",
    "CP.Props.C58_binary_floating_point_B",
    "CP.Props.C58_condition_number",
    "CP.Props.C58_long_double_30",
    "CP.Props.C58_mns2016_b_error",
    "CP.Props.C58_nan_for_valid_boundary"
   ],
   "note": "No overflow or underflow (unbounded exponents), one number type for double and long double, uncontracted evaluation; powi within one rounding. Finding: NaN for a valid boundary of four doubles with positive probability."
  },
  {
   "property": "C59",
   "status": "proved",
   "theorems": [
    "CP.Props.C59_blank_line",
    "CP.Props.C59_exit_zero_iff_number",
    "CP.Props.C59_floating_point",
    "CP.Props.C59_mc_output",
    "CP.Props.C59_number",
    "CP.Props.C59_one_sided",
    "CP.Props.C59_output",
    "CP.Props.C59_prints_one",
    "CP.Props.C59_reads_back",
    "CP.Props.C59_special",
    "CP.Props.C59_two_sided",
    "CP.Props.C59_usage_example",
    "CP.Props.C59_usage_example_one_sided",
    "CP.Props.C59_usage_lists_commands"
   ],
   "note": "operator<<(double) is a parameter with the contract PrintSpec (%.6g, correctly rounded); writes to standard output are assumed to succeed. Findings: the first usage example describes another event than its file, and its second example shows a first line of blanks, which is not an empty line. Failing writes: C90."
  },
  {
   "property": "C60",
   "status": "proved",
   "theorems": [
    "CP.Props.C60_empty",
    "CP.Props.C60_file",
    "CP.Props.C60_monotone",
    "CP.Props.C60_probability",
    "CP.Props.C60_roundtrip",
    "CP.Props.C60_text",
    "CP.Props.C60_unit"
   ],
   "note": "operator<< and strtod are parameters with the contracts PrintSpec and StrtodSpec."
  },
  {
   "property": "C61",
   "status": "proved",
   "theorems": [
    "CP.Props.C61_double_100",
    "CP.Props.C61_double_1000",
    "CP.Props.C61_double_fft_100",
    "CP.Props.C61_double_fft_1000",
    "CP.Props.C61_double_new_B_100",
    "CP.Props.C61_double_new_B_1000",
    "CP.Props.C61_double_new_b_100",
    "CP.Props.C61_double_new_b_1000",
    "CP.Props.C61_program_direct",
    "CP.Props.C61_program_direct_100",
    "CP.Props.C61_program_fft_100",
    "CP.Props.C61_program_fft_1000",
    "CP.Props.C61_program_new_B_100",
    "CP.Props.C61_program_new_B_1000",
    "CP.Props.C61_program_new_b_100",
    "CP.Props.C61_program_new_b_1000"
   ],
   "note": "IEEE-754 format with subnormals, infinities and NaN (Ieee.lean); +0 and -0 are one number. Evaluation as written: no reassociation, contraction to FMA which -ffast-math in the Makefile would allow. exp/log/lgamma within 4 ulp (exp absolutely when subnormal), FFTW within 2^-45 in the 2-norm, strtod and operator<< correctly rounded. ecdf1_mns2016 is not covered here (C58 covers it with unbounded exponents)."
  },
  {
   "property": "C62",
   "status": "proved",
   "theorems": [
    "CP.Props.C62_double_mn2017_100",
    "CP.Props.C62_ecdf2_band",
    "CP.Props.C62_ecdf2_same",
    "CP.Props.C62_new_same",
    "CP.Props.C62_program_any_fft",
    "CP.Props.C62_program_mn2017_100",
    "CP.Props.C62_program_new_B_100",
    "CP.Props.C62_program_new_b_100",
    "CP.Props.C62_program_same",
    "CP.Props.C62_threshold"
   ],
   "note": "Any arithmetic, any FFT library. The sharpness statement is at the level of the convolver."
  },
  {
   "property": "C63",
   "status": "proved",
   "theorems": [
    "CP.Props.C63_criterion",
    "CP.Props.C63_double_new_20",
    "CP.Props.C63_new_lower",
    "CP.Props.C63_new_upper",
    "CP.Props.C63_suite",
    "CP.Props.C63_two_sided",
    "CP.Props.C63_two_sided_lower",
    "CP.Props.C63_two_sided_upper"
   ],
   "note": "The true probabilities of the test files are evaluated exactly, in integer arithmetic, by the kernel (theorem eval_noncross); -ffast-math reassociation is not modelled here."
  },
  {
   "property": "C64",
   "status": "proved",
   "theorems": [
    "CP.Props.C64_double_20",
    "CP.Props.C64_double_B_20",
    "CP.Props.C64_ieee"
   ],
   "note": "Assumes pow(x,i) is accurate to q relative roundings wherever it does not overflow (a product loop satisfies this with q = i); -ffast-math reassociation is not modelled. The threshold on the probability is needed: C58 gives boundaries where the result is NaN without a condition."
  },
  {
   "property": "C65",
   "status": "proved",
   "theorems": [
    "CP.Props.C65_ieee_widens",
    "CP.Props.C65_long_double_20",
    "CP.Props.C65_long_double_30",
    "CP.Props.C65_long_double_40",
    "CP.Props.C65_long_double_B_20",
    "CP.Props.C65_long_double_B_30",
    "CP.Props.C65_program_lower",
    "CP.Props.C65_program_upper",
    "CP.Props.C65_same_type",
    "CP.Props.C65_suite",
    "CP.Props.C65_transfer"
   ],
   "note": "double rounding of constants and conversions modelled exactly; libm long double functions assumed accurate to 4 ulp of the x87 format; -ffast-math reassociation is not modelled."
  },
  {
   "property": "C66",
   "status": "proved",
   "theorems": [
    "CP.Props.C66_double_100",
    "CP.Props.C66_double_1000",
    "CP.Props.C66_double_fft_1000",
    "CP.Props.C66_double_fft_300",
    "CP.Props.C66_error",
    "CP.Props.C66_fft_error",
    "CP.Props.C66_strict"
   ],
   "note": "The compiled code is a parameter (FastCode). Varied: inner sums, exponents, exp, product of spectra, final division. As in the source: intensity*(location-prev), comparisons, memory accesses; the FFT library is a separate parameter. No flush-to-zero: the link commands do not pass -ffast-math, so crtfastmath is not linked."
  },
  {
   "property": "C67",
   "status": "proved",
   "theorems": [
    "CP.Props.C67_double_100",
    "CP.Props.C67_double_1000",
    "CP.Props.C67_double_20",
    "CP.Props.C67_ecdf1_new_B_error",
    "CP.Props.C67_ecdf1_new_b_error",
    "CP.Props.C67_program_new_lower",
    "CP.Props.C67_program_new_upper",
    "CP.Props.C67_program_two_sided",
    "CP.Props.C67_program_two_sided_lower",
    "CP.Props.C67_program_two_sided_upper",
    "CP.Props.C67_strict",
    "CP.Props.C67_suite"
   ],
   "note": "As C66: the compiled code is a parameter (FastCodeNew, FastProgram). As in the source: intensity*(B[i]-prev), comparisons, memory accesses; the FFT library is a separate parameter. C79 has sharper bounds."
  },
  {
   "property": "C68",
   "status": "proved",
   "theorems": [
    "CP.Props.C68_ieee",
    "CP.Props.C68_long_double_20",
    "CP.Props.C68_long_double_30",
    "CP.Props.C68_long_double_B_20",
    "CP.Props.C68_long_double_B_30",
    "CP.Props.C68_program_lower",
    "CP.Props.C68_program_upper",
    "CP.Props.C68_strict",
    "CP.Props.C68_suite"
   ],
   "note": "The compiled code is a parameter (MnsCode). As in the source: x + add[i], comparisons, memory accesses, frexp and ldexp, 1 - B[i]."
  },
  {
   "property": "C69",
   "status": "proved",
   "theorems": [
    "CP.Props.C69_agrees_with_ecdf2",
    "CP.Props.C69_ecdf",
    "CP.Props.C69_poisson"
   ],
   "note": "Exact arithmetic, ideal independent uniform draws; C70 and C71 treat the program's arithmetic."
  },
  {
   "property": "C70",
   "status": "proved",
   "theorems": [
    "CP.Props.C70_draws",
    "CP.Props.C70_estimate",
    "CP.Props.C70_no_nan",
    "CP.Props.C70_program_trivial",
    "CP.Props.C70_sample",
    "CP.Props.C70_suite",
    "CP.Props.C70_trivial",
    "CP.Props.C70_zero_draw"
   ],
   "note": "A draw equal to 0 makes log return -inf: the points after it are NaN, which compare false with every boundary. Not claimed for a program compiled with -ffast-math when a draw is 0."
  },
  {
   "property": "C71",
   "status": "proved",
   "theorems": [
    "CP.Props.C71_bias",
    "CP.Props.C71_ecdf",
    "CP.Props.C71_print_bias",
    "CP.Props.C71_program",
    "CP.Props.C71_suite"
   ],
   "note": "The generator is a parameter of the model here (mcRunWith; with TinyMT64 it is the program, mcRunWith_tinymt). That TinyMT64 seeded from the clock behaves like independent draws is an assumption no model can discharge: it is a deterministic generator with at most 2^64 seeds."
  },
  {
   "property": "C72",
   "status": "proved",
   "theorems": [
    "CP.Props.C72_all",
    "CP.Props.C72_all_rerun",
    "CP.Props.C72_largescale_complete",
    "CP.Props.C72_largescale_crash",
    "CP.Props.C72_relative_errors_exact",
    "CP.Props.C72_relative_errors_interrupted",
    "CP.Props.C72_tables_exact",
    "CP.Props.C72_thresholds_crash",
    "CP.Props.C72_thresholds_not_atomic",
    "CP.Props.C72_thresholds_saved",
    "CP.Props.C72_timings_complete",
    "CP.Props.C72_timings_crash",
    "CP.Props.C72_timings_exact"
   ],
   "note": "pickle inside gzip is a codec assumed to give back every saved value from the whole file and from the beginning of a file either an exception or the value; file operations are byte-wise and in order (no reordering of writes by the operating system). Findings: dump is not atomic; benchmarks/exactbj.py imports Timer from a module `utils` that is not in the repository, and its own Timer calls time.clock, which Python 3.8 removed - the model assumes a working Timer."
  },
  {
   "property": "C73",
   "status": "proved",
   "theorems": [
    "CP.Props.C73_bias",
    "CP.Props.C73_poisson",
    "CP.Props.C73_print_bias",
    "CP.Props.C73_program",
    "CP.Props.C73_program_undefined",
    "CP.Props.C73_seed"
   ],
   "note": "TinyMT is replaced by a generator of independent 52-bit draws (TinyMT itself is deterministic; C36-C38 and C70 treat it). Up to 2^33 numbers for the undefined behaviour."
  },
  {
   "property": "C74",
   "status": "proved",
   "theorems": [
    "CP.Props.C74_full_period",
    "CP.Props.C74_repeating",
    "CP.Props.C74_stream",
    "CP.Props.C74_visits_all"
   ],
   "note": "The period uses the primality of 2^127-1 (Lucas-Lehmer, Mathlib) and a polynomial of degree 128 annihilating the transition, checked in the kernel. C74_repeating is in exact arithmetic."
  },
  {
   "property": "C75",
   "status": "proved",
   "theorems": [
    "CP.Props.C75_double",
    "CP.Props.C75_double_source",
    "CP.Props.C75_error",
    "CP.Props.C75_program_two_sided",
    "CP.Props.C75_program_two_sided_lower",
    "CP.Props.C75_program_two_sided_upper",
    "CP.Props.C75_source_two_sided",
    "CP.Props.C75_source_two_sided_lower",
    "CP.Props.C75_source_two_sided_upper"
   ],
   "note": "Sharpens C61 and C66: the rounding of pois_lambda(k) costs 8*lambda+k*P roundings, and the lambdas of all steps sum to n instead of being bounded by n each. With FFT and more than 126 points see C61/C66. The compiled code is a parameter as in C66; no flush-to-zero."
  },
  {
   "property": "C76",
   "status": "proved",
   "theorems": [
    "CP.Props.C76_double",
    "CP.Props.C76_double_source",
    "CP.Props.C76_error",
    "CP.Props.C76_program",
    "CP.Props.C76_program_lower",
    "CP.Props.C76_program_upper",
    "CP.Props.C76_source",
    "CP.Props.C76_source_lower",
    "CP.Props.C76_source_upper"
   ],
   "note": "Sharpens the FFT parts of C61 and C66 (8e-4 for 1000 points there). The FFT library is a parameter with a stated accuracy; the theorems do not say that FFTW has it. No flush-to-zero."
  },
  {
   "property": "C77",
   "status": "proved",
   "theorems": [
    "CP.Props.C77_bad_field",
    "CP.Props.C77_complete",
    "CP.Props.C77_list",
    "CP.Props.C77_mc_arguments",
    "CP.Props.C77_mc_number",
    "CP.Props.C77_program",
    "CP.Props.C77_python",
    "CP.Props.C77_python_lengths",
    "CP.Props.C77_unreadable"
   ],
   "note": "Refines C14, C25, C26, C48 and C59, where only the kind of error is stated. orderLaws_exact and orderLaws_ieee discharge the hypothesis about <. With NaN the converse fails (C15). The text of ifstream::failure belongs to the C++ library and is a parameter."
  },
  {
   "property": "C78",
   "status": "proved",
   "theorems": [
    "CP.Props.C78_direct",
    "CP.Props.C78_ecdf2",
    "CP.Props.C78_ecdf2_no_tables",
    "CP.Props.C78_ecdf2_no_vector",
    "CP.Props.C78_enough_ecdf2",
    "CP.Props.C78_enough_mns_B",
    "CP.Props.C78_enough_mns_b",
    "CP.Props.C78_enough_new_B",
    "CP.Props.C78_enough_new_b",
    "CP.Props.C78_enough_program",
    "CP.Props.C78_mns_B",
    "CP.Props.C78_mns_b",
    "CP.Props.C78_mns_b_no_polynomial",
    "CP.Props.C78_new_B",
    "CP.Props.C78_new_b",
    "CP.Props.C78_probability",
    "CP.Props.C78_program",
    "CP.Props.C78_program_output",
    "CP.Props.C78_python_ecdf2",
    "CP.Props.C78_python_one"
   ],
   "note": "The model is repeated for the functions that allocate (Model/Oom.lean); C78_enough_* prove that with enough memory it is the model used everywhere else. Not covered: memory FFTW asks for itself (it ends the process), the few bytes of an error message, the Monte-Carlo program."
  },
  {
   "property": "C79",
   "status": "proved",
   "theorems": [
    "CP.Props.C79_double",
    "CP.Props.C79_double_source",
    "CP.Props.C79_ecdf1_new_B_error",
    "CP.Props.C79_ecdf1_new_b_error",
    "CP.Props.C79_program_lower",
    "CP.Props.C79_program_upper",
    "CP.Props.C79_source_lower",
    "CP.Props.C79_source_upper"
   ],
   "note": "Sharper than C63 and C67 for ecdf1_new (1.2e-3 at 1000 points there), and for sizes up to 100000. C79_*_error are stated for an arbitrary arithmetic; C79_double, C79_double_source, C79_program_*, C79_source_* for IEEE doubles. Accuracy of libm and FFTW is assumed, see C61."
  },
  {
   "property": "C80",
   "status": "proved",
   "theorems": [
    "CP.Props.C80_all",
    "CP.Props.C80_ends",
    "CP.Props.C80_mns_B",
    "CP.Props.C80_mns_b",
    "CP.Props.C80_no_planner_race",
    "CP.Props.C80_planner_race",
    "CP.Props.C80_result",
    "CP.Props.C80_serial",
    "CP.Props.C80_static_variable",
    "CP.Props.C80_static_variable_x87"
   ],
   "note": "Loads and stores of the shared int are single steps of the model; formally C++ gives no meaning to a program with a data race, so (4) says what a compiler that keeps the loads and stores does. After two calls have met in the planner, the model allows anything (Process.ended). signgam (written by lgamma, read by nobody) is left out. Under the lock of the Python interpreter, which the extension never releases, calls are not interleaved at all."
  },
  {
   "property": "C81",
   "status": "proved",
   "theorems": [
    "CP.Props.C81_any_law",
    "CP.Props.C81_any_law_one_sided",
    "CP.Props.C81_band",
    "CP.Props.C81_band_one_sided",
    "CP.Props.C81_help_text_exchanged",
    "CP.Props.C81_ks",
    "CP.Props.C81_ks_one_sided",
    "CP.Props.C81_power",
    "CP.Props.C81_size",
    "CP.Props.C81_size_one_sided"
   ],
   "note": "Exact arithmetic, like C01-C05; what rounding adds to a result is in C61, C66-C68, C75, C76, C79, and for the size of the tests in C82. Arbitrary boundary functions need no continuity. The help text speaks of strict inequalities; with them the event of (2) can have another probability (a boundary function that is constant at a multiple of 1/n)."
  },
  {
   "property": "C82",
   "status": "proved",
   "theorems": [
    "CP.Props.C82_ecdf1_new",
    "CP.Props.C82_ecdf1_new_source",
    "CP.Props.C82_ecdf2_direct",
    "CP.Props.C82_ecdf2_direct_source",
    "CP.Props.C82_ecdf2_fft",
    "CP.Props.C82_ecdf2_fft_source"
   ],
   "note": "Consequence of C75, C76, C79 and C81. The subtraction from one is taken to be exact. The accuracy of libm and of the FFT library is assumed, see C61 and C76."
  },
  {
   "property": "C83",
   "status": "proved",
   "theorems": [
    "CP.Props.C83_conservative",
    "CP.Props.C83_distribution_free",
    "CP.Props.C83_one_sided",
    "CP.Props.C83_power",
    "CP.Props.C83_size",
    "CP.Props.C83_threshold"
   ],
   "note": "Builds on C56, C57 and C81; scipy.special is a parameter with a contract that is shown to be satisfiable. In C83_threshold the statistic itself is exact, the threshold is computed in p-bit arithmetic."
  },
  {
   "property": "C84",
   "status": "proved",
   "theorems": [
    "CP.Props.C84_band",
    "CP.Props.C84_count",
    "CP.Props.C84_error",
    "CP.Props.C84_estimate",
    "CP.Props.C84_lines_valid"
   ],
   "note": "The help text exchanges the names of g and h and counts line 2 from i instead of i-1 (see C81), and has strict inequalities; the theorem is about the lines that are right for what the program computes. crossprob_mc calls the simulation with lam = max(|b|, |B|)."
  },
  {
   "property": "C85",
   "status": "proved",
   "theorems": [
    "CP.Props.C85_del",
    "CP.Props.C85_get",
    "CP.Props.C85_get_past_end",
    "CP.Props.C85_huge_step",
    "CP.Props.C85_item",
    "CP.Props.C85_not_int",
    "CP.Props.C85_self_assign",
    "CP.Props.C85_self_reverse",
    "CP.Props.C85_set",
    "CP.Props.C85_step_zero"
   ],
   "note": "VectorSpec.lean defines list slices from the Python documentation. Not modelled: ints outside Py_ssize_t as slice parts, old-style __getslice__ etc. Iterator objects: C92."
  },
  {
   "property": "C86",
   "status": "proved",
   "theorems": [
    "CP.Props.C86_ends",
    "CP.Props.C86_ends_empty",
    "CP.Props.C86_history",
    "CP.Props.C86_iterate",
    "CP.Props.C86_iterator_invalidated",
    "CP.Props.C86_size",
    "CP.Props.C86_too_large"
   ],
   "note": "Not modelled here: swap, capacity, exhaustion of memory; begin, end, erase, insert: C92. Passing a VectorDouble to ecdf2 etc. is passing its contents (C49). Iterator objects: C92."
  },
  {
   "property": "C87",
   "status": "proved",
   "theorems": [
    "CP.Props.C87_asymmetry_needed",
    "CP.Props.C87_contract",
    "CP.Props.C87_double",
    "CP.Props.C87_ecdf2",
    "CP.Props.C87_ecdf2_double",
    "CP.Props.C87_ecdf2_safe",
    "CP.Props.C87_nan",
    "CP.Props.C87_precondition",
    "CP.Props.C87_python",
    "CP.Props.C87_safe",
    "CP.Props.C87_sixteen",
    "CP.Props.C87_sorted"
   ],
   "note": "The implementation modelled is libstdc++ 13 (bits/stl_algo.h, stl_heap.h); other standard libraries are covered only by the contract (SortSpec.lean). Moves are modelled as copies; the number of comparisons is not modelled."
  },
  {
   "property": "C88",
   "status": "proved",
   "theorems": [
    "CP.Props.C88_headers_ignored",
    "CP.Props.C88_idle",
    "CP.Props.C88_killed",
    "CP.Props.C88_make",
    "CP.Props.C88_make_first",
    "CP.Props.C88_minimal",
    "CP.Props.C88_no_header_prerequisites",
    "CP.Props.C88_parallel",
    "CP.Props.C88_parallel_fresh",
    "CP.Props.C88_python",
    "CP.Props.C88_setup_headers",
    "CP.Props.C88_stale"
   ],
   "note": "GNU make's rules for prerequisites, phony targets and times are modelled for the targets of this Makefile. Simplified: edits do not happen during a make; each write gets a new time; a parallel job takes effect at one instant; distutils compiles everything if anything is newer. Not modelled: `make test`, `make depend`, edits of the Makefile's rules."
  },
  {
   "property": "C89",
   "status": "proved",
   "theorems": [
    "CP.Props.C89_ecdf2",
    "CP.Props.C89_item_not_number",
    "CP.Props.C89_item_raises",
    "CP.Props.C89_leak_accumulates",
    "CP.Props.C89_mns2016",
    "CP.Props.C89_mns2016_survives_iff",
    "CP.Props.C89_new_B",
    "CP.Props.C89_new_b",
    "CP.Props.C89_no_length",
    "CP.Props.C89_popping",
    "CP.Props.C89_second_argument",
    "CP.Props.C89_steady_cases",
    "CP.Props.C89_system_error"
   ],
   "note": "An object is an arbitrary state machine answering __len__ and __getitem__; the theorems about crashes and refusals are for objects with constant answers, and two changing ones (C89_popping, C89_system_error) show that the others are not better. A vector (object and buffer) is one block. Not modelled: reference counts, message texts, running out of memory (C78)."
  },
  {
   "property": "C90",
   "status": "proved",
   "theorems": [
    "CP.Props.C90_complete",
    "CP.Props.C90_crossprob",
    "CP.Props.C90_crossprob_mc",
    "CP.Props.C90_disk_full",
    "CP.Props.C90_errors",
    "CP.Props.C90_killed",
    "CP.Props.C90_prefix"
   ],
   "note": "cout, the stdout buffer and write(2) are modelled from libstdc++ and glibc, not from /repo; the buffering policy is arbitrary. Continues C59, which says what the programs mean to write."
  },
  {
   "property": "C91",
   "status": "proved",
   "theorems": [
    "CP.Props.C91_check_long",
    "CP.Props.C91_check_short",
    "CP.Props.C91_file",
    "CP.Props.C91_first_only",
    "CP.Props.C91_line",
    "CP.Props.C91_long_line",
    "CP.Props.C91_program",
    "CP.Props.C91_short_line",
    "CP.Props.C91_sizes",
    "CP.Props.C91_spaces",
    "CP.Props.C91_vector_to_string",
    "CP.Props.C91_wrong_number"
   ],
   "note": "The functions are modelled a second time with their int casts in 32-bit arithmetic and compared with the model with exact sizes used elsewhere; sizes inside the algorithms are in C40. Memory is unlimited here (C78)."
  },
  {
   "property": "C92",
   "status": "proved",
   "theorems": [
    "CP.Props.C92_compare",
    "CP.Props.C92_copies_only_forward",
    "CP.Props.C92_erase",
    "CP.Props.C92_erase_range",
    "CP.Props.C92_in_place",
    "CP.Props.C92_insert",
    "CP.Props.C92_insert_copies",
    "CP.Props.C92_iter_history",
    "CP.Props.C92_iter_reads",
    "CP.Props.C92_no_step_back",
    "CP.Props.C92_open_compare",
    "CP.Props.C92_open_history",
    "CP.Props.C92_open_start",
    "CP.Props.C92_plus",
    "CP.Props.C92_wrong_iterators"
   ],
   "note": "Simplified: every change of the size of a vector invalidates its iterators. One vector; the lifetime of the vector is not modelled."
  }
 ]
}