{
 "claims": [
  {
   "property": "C01",
   "status": "proved",
   "theorems": [
    "GoFloat.Binary16.C01_binary16_fields"
   ],
   "note": "for every 16-bit pattern"
  },
  {
   "property": "C02",
   "status": "proved",
   "theorems": [
    "GoFloat.Binary16.C02_binary16_big"
   ],
   "note": "for every 16-bit pattern"
  },
  {
   "property": "C03",
   "status": "proved",
   "theorems": [
    "GoFloat.Binary16.C03_binary16_big_roundtrip"
   ],
   "note": "for every half that is not a NaN"
  },
  {
   "property": "C04",
   "status": "proved",
   "theorems": [
    "GoFloat.Binary16.C04_binary16_float64",
    "GoFloat.Binary16.C04_binary16_float32"
   ],
   "note": "for every half, NaNs included"
  },
  {
   "property": "C05",
   "status": "proved",
   "theorems": [
    "GoFloat.Binary16.C05_binary16_float64_roundtrip",
    "GoFloat.Binary16.C05_binary16_float32_roundtrip"
   ],
   "note": "for every half, NaNs up to their canonical payload"
  },
  {
   "property": "C06",
   "status": "partial",
   "theorems": [
    "GoFloat.Binary16.C06_false_subnormal",
    "GoFloat.Binary16.C06_false_overflow",
    "GoFloat.Binary16.C06_false",
    "GoFloat.Binary16.C06_partial",
    "GoFloat.Binary16.C06_partial32",
    "GoFloat.Binary16.C06_subnormal_partial"
   ],
   "note": "False of the code, refuted by C06_false (subnormals and overflow). Proved for 2^-14 <= |x| < 2^16, for every double or float32 that is a half, zeros, infinities; subnormals within one unit."
  },
  {
   "property": "C07",
   "status": "partial",
   "theorems": [
    "GoFloat.Binary16.C07_false_negative",
    "GoFloat.Binary16.C07_false_float64",
    "GoFloat.Binary16.C07_false",
    "GoFloat.Binary16.C07_partial",
    "GoFloat.Binary16.C07_float64_partial",
    "GoFloat.Binary16.C07_float32_partial"
   ],
   "note": "False of the code, refuted by C07_false (negative numbers, NewFromFloat64). Proved: Exact iff exact in the normal range of NewFromBig, true accuracy for positive numbers there, Exact for halves."
  },
  {
   "property": "C08",
   "status": "partial",
   "theorems": [
    "GoFloat.Binary16.C08_false",
    "GoFloat.Binary16.C08_partial"
   ],
   "note": "False of the code, refuted by C08_false: NewFromBig truncates. Proved: rounding toward zero for 2^-24 <= |x| < 2^16, halves are kept."
  },
  {
   "property": "C09",
   "status": "partial",
   "theorems": [
    "GoFloat.Binary16.C09_false_nan",
    "GoFloat.Binary16.C09_false",
    "GoFloat.Binary16.C09_false_wrap",
    "GoFloat.Binary16.C09_partial",
    "GoFloat.Binary16.C09_float64_partial"
   ],
   "note": "False of the code, refuted by C09_false: NaN in [65600, 131072), finite numbers in [2^17, 2^48). Proved: finite below 2^16; NewFromFloat64 gives infinity in [65520, 2^16)."
  },
  {
   "property": "C10",
   "status": "partial",
   "theorems": [
    "GoFloat.Binary16.C10_false",
    "GoFloat.Binary16.C10_partial"
   ],
   "note": "False of the code, refuted by C10_false. Proved: same sign, Below, below 2^-13, and zero when at most 9 significant bits."
  },
  {
   "property": "C11",
   "status": "proved",
   "theorems": [
    "GoFloat.Binary128.C11_binary128_big",
    "GoFloat.Binary128.C11_binary128_float64",
    "GoFloat.Binary128.C11_binary128_float32",
    "GoFloat.Binary16.C11_binary16_big",
    "GoFloat.Binary16.C11_binary16_float64",
    "GoFloat.Binary16.C11_binary16_float32",
    "GoFloat.Float80x86.C11_float80x86_big",
    "GoFloat.Float80x86.C11_float80x86_float64",
    "GoFloat.Float80x86.C11_float80x86_float32"
   ],
   "note": "for every input of binary16, binary128 and float80x86"
  },
  {
   "property": "C12",
   "status": "proved",
   "theorems": [
    "GoFloat.Binary128.C12_binary128_constants",
    "GoFloat.Binary128.C12_binary128_big",
    "GoFloat.Binary128.C12_binary128_float64",
    "GoFloat.Binary128.C12_binary128_float32",
    "GoFloat.Binary16.C12_binary16_constants",
    "GoFloat.Binary16.C12_binary16_big",
    "GoFloat.Binary16.C12_binary16_float64",
    "GoFloat.Binary16.C12_binary16_float32",
    "GoFloat.Float80x86.C12_float80x86_constants",
    "GoFloat.Float80x86.C12_float80x86_big",
    "GoFloat.Float80x86.C12_float80x86_float64",
    "GoFloat.Float80x86.C12_float80x86_float32"
   ],
   "note": "for every input of binary16, binary128 and float80x86"
  },
  {
   "property": "C13",
   "status": "partial",
   "theorems": [
    "GoFloat.Binary128.C13_int32",
    "GoFloat.Binary128.C13_false",
    "GoFloat.Binary128.C13_int32_big",
    "GoFloat.Binary128.C13_partial"
   ],
   "note": "False on platforms with 32-bit int, where Exp is always 0 (C13_int32). Proved with 64-bit int."
  },
  {
   "property": "C14",
   "status": "proved",
   "theorems": [
    "GoFloat.Binary128.C14_binary128_big"
   ],
   "note": "for every bit pattern (64-bit int)"
  },
  {
   "property": "C15",
   "status": "proved",
   "theorems": [
    "GoFloat.Binary128.C15_binary128_big_roundtrip"
   ],
   "note": "for every quadruple that is not a NaN"
  },
  {
   "property": "C16",
   "status": "proved",
   "theorems": [
    "GoFloat.Binary128.C16_binary128_float64",
    "GoFloat.Binary128.C16_binary128_float32"
   ],
   "note": "for every double and float32 that is not a NaN"
  },
  {
   "property": "C17",
   "status": "proved",
   "theorems": [
    "GoFloat.Binary128.C17_binary128_float64",
    "GoFloat.Binary128.C17_binary128_float32"
   ],
   "note": "for every bit pattern, NaNs included"
  },
  {
   "property": "C18",
   "status": "partial",
   "theorems": [
    "GoFloat.Binary128.C18_false",
    "GoFloat.Binary128.C18_false_accuracy",
    "GoFloat.Binary128.C18_false_overflow",
    "GoFloat.Binary128.C18_partial",
    "GoFloat.Binary128.C18_underflow_partial",
    "GoFloat.Binary128.C18_false_underflow"
   ],
   "note": "False of the code, refuted by C18_false (truncation), C18_false_accuracy, C18_false_overflow, C18_false_underflow. Proved: rounding toward zero in [2^-16494, 2^16384), quadruples kept, accuracy from 2^-16382 on up to the sign, underflow to zero with at most 112 significant bits."
  },
  {
   "property": "C19",
   "status": "proved",
   "theorems": [
    "GoFloat.Float80x86.C19_float80x86_fields"
   ],
   "note": "for every bit pattern"
  },
  {
   "property": "C20",
   "status": "proved",
   "theorems": [
    "GoFloat.Float80x86.C20_float80x86_big"
   ],
   "note": "for every bit pattern, pseudo-denormals and unnormals included"
  },
  {
   "property": "C21",
   "status": "proved",
   "theorems": [
    "GoFloat.Float80x86.C21_float80x86_big_roundtrip",
    "GoFloat.Float80x86.C21_float80x86_normalises",
    "GoFloat.Float80x86.C21_float80x86_pseudo_denormal"
   ],
   "note": "for every encoding that is not a NaN"
  },
  {
   "property": "C22",
   "status": "proved",
   "theorems": [
    "GoFloat.Float80x86.C22_float80x86_float64",
    "GoFloat.Float80x86.C22_float80x86_float32"
   ],
   "note": "for every double and float32 that is not a NaN"
  },
  {
   "property": "C23",
   "status": "proved",
   "theorems": [
    "GoFloat.Float80x86.C23_float80x86_float64",
    "GoFloat.Float80x86.C23_float80x86_float32"
   ],
   "note": "for every bit pattern, NaNs included"
  },
  {
   "property": "C24",
   "status": "partial",
   "theorems": [
    "GoFloat.Float80x86.C24_false",
    "GoFloat.Float80x86.C24_false_accuracy",
    "GoFloat.Float80x86.C24_false_underflow",
    "GoFloat.Float80x86.C24_false_overflow",
    "GoFloat.Float80x86.C24_false_wrap",
    "GoFloat.Float80x86.C24_partial"
   ],
   "note": "False of the code, refuted by C24_false (truncation), C24_false_accuracy, C24_false_overflow, C24_false_wrap, C24_false_underflow. Proved: rounding toward zero in [2^-16445, 2^16384), numbers of the format kept, accuracy from 2^-16382 on up to the sign."
  },
  {
   "property": "C25",
   "status": "proved",
   "theorems": [
    "GoFloat.Bfloat.C25_bfloat_fields",
    "GoFloat.Bfloat.C25_bfloat_big",
    "GoFloat.Bfloat.C25_bfloat_big_format"
   ],
   "note": "for every 16-bit pattern"
  },
  {
   "property": "C26",
   "status": "proved",
   "theorems": [
    "GoFloat.Float128ppc.C26_float128ppc_bits"
   ],
   "note": "model stores the two 64-bit patterns; Go's float64 moves of signalling NaNs are not modelled as quieting"
  },
  {
   "property": "C27",
   "status": "partial",
   "theorems": [
    "GoFloat.Float128ppc.C27_false",
    "GoFloat.Float128ppc.C27_partial",
    "GoFloat.Float128ppc.C27_float128ppc_nan",
    "GoFloat.Float128ppc.C27_float128ppc_exact"
   ],
   "note": "false for opposite infinities (Big panics): C27_false; everything else is proved in C27_partial"
  },
  {
   "property": "C28",
   "status": "proved",
   "theorems": [
    "GoFloat.Float128ppc.C28_float128ppc_float64",
    "GoFloat.Float128ppc.C28_float128ppc_float32"
   ],
   "note": ""
  },
  {
   "property": "C29",
   "status": "partial",
   "theorems": [
    "GoFloat.Float128ppc.C29_false",
    "GoFloat.Float128ppc.C29_false_mode",
    "GoFloat.Float128ppc.C29_partial",
    "GoFloat.Float128ppc.C29_float128ppc_exact",
    "GoFloat.Float128ppc.C29_float128ppc_nearest",
    "GoFloat.Float128ppc.C29_modes_partial",
    "GoFloat.Float128ppc.C29_modes_nearest"
   ],
   "note": "false: accuracy is always Exact, and the rounding mode of the argument is used (C29_false, C29_false_mode); the split itself is proved for every rounding mode and precision without overflow (C29_modes_partial, with C29_partial giving the range for ToNearestEven)"
  },
  {
   "property": "C30",
   "status": "partial",
   "theorems": [
    "GoFloat.Float128ppc.C30_false",
    "GoFloat.Float128ppc.C30_false_modifies",
    "GoFloat.Float128ppc.C30_partial",
    "GoFloat.Float128ppc.C30_float128ppc_argument",
    "GoFloat.Float128ppc.C30_modes_partial",
    "GoFloat.Float128ppc.C30_modes_argument"
   ],
   "note": "false: panics exactly when the argument rounded to 106 bits in its mode is past the double range (C30_modes_partial; C30_partial gives the threshold for ToNearestEven), and modifies its argument (C30_float128ppc_argument and C30_modes_argument say how)"
  },
  {
   "property": "C31",
   "status": "partial",
   "theorems": [
    "GoFloat.Float128ppc.C31_false",
    "GoFloat.Float128ppc.C31_false_negInf",
    "GoFloat.Float128ppc.C31_false_nan",
    "GoFloat.Float128ppc.C31_partial"
   ],
   "note": "false for NegInf and for NaN signs (C31_false, C31_false_negInf, C31_false_nan); the rest is proved"
  },
  {
   "property": "C32",
   "status": "partial",
   "theorems": [
    "GoFloat.Float128ppc.C32_false",
    "GoFloat.Float128ppc.C32_partial"
   ],
   "note": "false when low is -0 (C32_false); proved for every other canonical pair, and that -0 becomes +0"
  },
  {
   "property": "C33",
   "status": "proved",
   "theorems": [
    "GoFloat.C33_isExact64",
    "GoFloat.C33_isExact32"
   ],
   "note": "every big.Float; infinities panic, so they are never accepted"
  },
  {
   "property": "C34",
   "status": "partial",
   "theorems": [
    "GoFloat.C34_below_partial",
    "GoFloat.C34_least",
    "GoFloat.C34_false",
    "GoFloat.C34_partial"
   ],
   "note": "false: IsExact16(8210) is true (C34_false); what is proved: an accepted number has at most five digits and lies in the rounding interval of a finite binary16 value, and below 4110 it is a binary16 value (C34_below_partial); 4110 is the least number that is accepted wrongly (C34_least)"
  },
  {
   "property": "C35",
   "status": "partial",
   "theorems": [
    "GoFloat.C35_decides64",
    "GoFloat.C35_decides32",
    "GoFloat.C35_decides16",
    "GoFloat.C35_false16",
    "GoFloat.C35_false32",
    "GoFloat.C35_false64",
    "GoFloat.C35_false",
    "GoFloat.C35_digits_partial",
    "GoFloat.C35_rejects_partial"
   ],
   "note": "false for all three functions (C35_false16, C35_false32, C35_false64); the exact condition that is decided is proved (C35_decides16/32/64), acceptance of numbers with at most 3, 7, 15 digits, and rejection of numbers with more than 5, 9, 17 digits (up to 101)"
  },
  {
   "property": "C36",
   "status": "partial",
   "theorems": [
    "GoFloat.C36_infinite",
    "GoFloat.C36_false",
    "GoFloat.C36_partial",
    "GoFloat.C36_sign_partial"
   ],
   "note": "false for infinities, which panic (C36_infinite); proved for all finite numbers, and that the answer depends only on the value"
  },
  {
   "property": "C37",
   "status": "proved",
   "theorems": [
    "GoFloat.C37_integers"
   ],
   "note": ""
  },
  {
   "property": "C38",
   "status": "partial",
   "theorems": [
    "GoFloat.C38_false",
    "GoFloat.C38_trimZeros_partial",
    "GoFloat.C38_noExponent",
    "GoFloat.C38_panics"
   ],
   "note": "Holds for every number with a point and for every number without one except minus zero; the whole claim is refuted by -0e+00."
  },
  {
   "property": "C39",
   "status": "proved",
   "theorems": [
    "GoFloat.Strconv.C39_numeral_unique",
    "GoFloat.Strconv.C39_int_numeral_unique",
    "GoFloat.Strconv.C39_formatUint",
    "GoFloat.Strconv.C39_formatInt",
    "GoFloat.Strconv.C39_itoa",
    "GoFloat.Strconv.C39_append",
    "GoFloat.Strconv.C39_host_independent",
    "GoFloat.Strconv.C39_illegal_base"
   ],
   "note": ""
  },
  {
   "property": "C40",
   "status": "proved",
   "theorems": [
    "GoFloat.Strconv.C40_assign_shift",
    "GoFloat.Strconv.C40_assign_shift_float",
    "GoFloat.Strconv.C40_shift",
    "GoFloat.Strconv.C40_unique",
    "GoFloat.Strconv.C40_shift_any",
    "GoFloat.Strconv.C40_shift_step",
    "GoFloat.Strconv.C40_string",
    "GoFloat.Strconv.C40_string_sign"
   ],
   "note": "no operation of the model wraps: results are exact on both word sizes"
  },
  {
   "property": "C41",
   "status": "proved",
   "theorems": [
    "GoFloat.Strconv.C41_round",
    "GoFloat.Strconv.C41_roundDown",
    "GoFloat.Strconv.C41_roundUp",
    "GoFloat.Strconv.C41_unchanged",
    "GoFloat.Strconv.C41_roundedInteger",
    "GoFloat.Strconv.C41_roundedInteger_wraps",
    "GoFloat.Strconv.C41_nearest_unique"
   ],
   "note": "RoundedInteger for values that round to less than 2^64; C41_roundedInteger_wraps shows that the bound is sharp"
  },
  {
   "property": "C42",
   "status": "proved",
   "theorems": [
    "GoFloat.Strconv.C42_roundtrip",
    "GoFloat.Strconv.C42_formatFloat",
    "GoFloat.Strconv.C42_float32"
   ],
   "note": "FormatFloat with a negative precision reads back as the same float: all three sizes, formats e E f g G, both algorithms; for size 32 also for float64 arguments that are not float32 values"
  },
  {
   "property": "C43",
   "status": "proved",
   "theorems": [
    "GoFloat.Strconv.C43_minimal",
    "GoFloat.Strconv.C43_formatFloat"
   ],
   "note": "every finite float of sizes 16, 32 and 64, formats e, E, f, g, G, any negative precision, with and without the fast algorithm"
  },
  {
   "property": "C44",
   "status": "proved",
   "theorems": [
    "GoFloat.Strconv.C44_shortest_sound",
    "GoFloat.Strconv.C44_shortest_zero",
    "GoFloat.Strconv.C44_shortest_integer"
   ],
   "note": "for every finite float of the three formats; minimal length and closeness among all decimals, at any exponent"
  },
  {
   "property": "C45",
   "status": "proved",
   "theorems": [
    "GoFloat.Strconv.C45_powers",
    "GoFloat.Strconv.C45_small_powers",
    "GoFloat.Strconv.C45_search",
    "GoFloat.Strconv.C45_search_range"
   ],
   "note": "all 87 rows, all exponents of the three formats"
  },
  {
   "property": "C46",
   "status": "proved",
   "theorems": [
    "GoFloat.Strconv.C46_digits_exponential",
    "GoFloat.Strconv.C46_digits_fixed",
    "GoFloat.Strconv.C46_exponential",
    "GoFloat.Strconv.C46_fixed",
    "GoFloat.Strconv.C46_general",
    "GoFloat.Strconv.C46_binary",
    "GoFloat.Strconv.C46_special",
    "GoFloat.Strconv.C46_size32",
    "GoFloat.Strconv.C46_size16",
    "GoFloat.Strconv.C46_append"
   ],
   "note": "shapes for every digit string, and for every float of the three sizes with any precision; NaN and infinities; sizes 16 and 32 on float64 arguments that do not fit"
  },
  {
   "property": "C47",
   "status": "proved",
   "theorems": [
    "GoFloat.Strconv.C47_exponential",
    "GoFloat.Strconv.C47_general",
    "GoFloat.Strconv.C47_fixed",
    "GoFloat.Strconv.C47_fast_path"
   ],
   "note": "formats e, E, g, G and f; fast path and exact path print the same text; sizes 16, 32, 64"
  },
  {
   "property": "C48",
   "status": "proved",
   "theorems": [
    "GoFloat.Strconv.C48_normalize",
    "GoFloat.Strconv.C48_multiply",
    "GoFloat.Strconv.C48_multiply_error",
    "GoFloat.Strconv.C48_bounds"
   ],
   "note": "all 64-bit mantissas; bounds for every nonzero finite float of the three formats"
  },
  {
   "property": "C49",
   "status": "partial",
   "theorems": [
    "GoFloat.Strconv.C49_false_tie",
    "GoFloat.Strconv.C49_false_near",
    "GoFloat.Strconv.C49_false_zero",
    "GoFloat.Strconv.C49_false_trunc",
    "GoFloat.Strconv.C49_false",
    "GoFloat.Strconv.C49_correct_partial",
    "GoFloat.Strconv.C49_double_partial",
    "GoFloat.Strconv.C49_total",
    "GoFloat.Strconv.C49_iff_partial"
   ],
   "note": "false in four ways (C49_false_tie, C49_false_near, C49_false_zero, C49_false_trunc); proved for nonzero mantissas (61 bits if truncated), for binary64 without further conditions and for the other formats away from half the smallest subnormal; C49_iff_partial says for which decimals a reported success is right"
  },
  {
   "property": "C50",
   "status": "partial",
   "theorems": [
    "GoFloat.Float128ppc.C50_false",
    "GoFloat.Float128ppc.C50_false_float32",
    "GoFloat.Float128ppc.C50_partial"
   ],
   "note": "false because of double rounding (C50_false, C50_false_float32); proved for sums of at most 106 bits"
  },
  {
   "property": "C51",
   "status": "partial",
   "theorems": [
    "GoFloat.Strconv.C51_iff_partial",
    "GoFloat.Strconv.C51_closest_partial",
    "GoFloat.Strconv.C51_even_partial",
    "GoFloat.Strconv.C51_small_partial",
    "GoFloat.Strconv.C51_false"
   ],
   "note": "false for the exact path: float64 0x44dee27bdef22651 prints ...2236e+23 although ...2237e+23 is closer; proved for every float with an even mantissa, for every float below 2^(t+1), and in general up to one exception whose shape is stated; C51_iff_partial says exactly when the text is the closest"
  },
  {
   "property": "C52",
   "status": "partial",
   "theorems": [
    "GoFloat.Strconv.C52_false",
    "GoFloat.Strconv.C52_known_partial",
    "GoFloat.Strconv.C52_unknown_partial",
    "GoFloat.Strconv.C52_size"
   ],
   "note": "false: an unknown letter with precision 0 and a nonzero number panics (C52_false, C52_unknown_partial says exactly when); proved for all known formats"
  },
  {
   "property": "C53",
   "status": "proved",
   "theorems": [
    "GoFloat.Strconv.C53_digits",
    "GoFloat.Strconv.C53_exponential"
   ],
   "note": "the bound for the printed number in all formats, and for the digits after the point in formats e and E"
  },
  {
   "property": "C54",
   "status": "proved",
   "theorems": [
    "GoFloat.Strconv.C54_gives_up_only_near",
    "GoFloat.Strconv.C54_out_of_range"
   ],
   "note": ""
  },
  {
   "property": "C55",
   "status": "proved",
   "theorems": [
    "GoFloat.Binary16.C55_binary16_big",
    "GoFloat.Binary16.C55_binary16_value",
    "GoFloat.Binary16.C55_binary16_float64",
    "GoFloat.Binary16.C55_binary16_float32",
    "GoFloat.Binary128.C55_binary128_big",
    "GoFloat.Binary128.C55_binary128_value",
    "GoFloat.Float80x86.C55_float80x86_big",
    "GoFloat.Float80x86.C55_float80x86_value"
   ],
   "note": "also covers the inputs for which C06-C10, C18 and C24 fail: the formula says what comes out instead"
  },
  {
   "property": "C56",
   "status": "proved",
   "theorems": [
    "GoFloat.Float128ppc.C56_float128ppc_double_modes",
    "GoFloat.C56_binary16_binary128",
    "GoFloat.C56_binary16_float80x86",
    "GoFloat.C56_bfloat_binary128",
    "GoFloat.C56_bfloat_float80x86",
    "GoFloat.C56_float80x86_binary128",
    "GoFloat.C56_binary128_narrow",
    "GoFloat.C56_float80x86_narrow",
    "GoFloat.C56_routes",
    "GoFloat.C56_float128ppc_double",
    "GoFloat.C56_binary16_float128ppc"
   ],
   "note": ""
  },
  {
   "property": "C57",
   "status": "partial",
   "theorems": [
    "GoFloat.C57_binary128_float64",
    "GoFloat.C57_binary128_float32",
    "GoFloat.C57_float80x86_float64",
    "GoFloat.C57_float80x86_float32",
    "GoFloat.C57_binary128_newFromFloat64",
    "GoFloat.C57_binary128_newFromFloat32",
    "GoFloat.C57_float80x86_newFromFloat64",
    "GoFloat.C57_float80x86_newFromFloat32",
    "GoFloat.C57_false_binary16",
    "GoFloat.C57_false_binary128",
    "GoFloat.C57_false_float80x86",
    "GoFloat.C57_false",
    "GoFloat.C57_binary16_big_partial",
    "GoFloat.C57_binary128_big_partial",
    "GoFloat.C57_float80x86_big_partial",
    "GoFloat.Binary16.C57_binary16_float64_partial",
    "GoFloat.Binary16.C57_binary16_float32_partial",
    "GoFloat.C57_binary16_upto_partial",
    "GoFloat.C57_binary16_ends",
    "GoFloat.C57_binary128_upto_partial",
    "GoFloat.C57_binary128_ends",
    "GoFloat.C57_float80x86_upto_partial",
    "GoFloat.C57_float80x86_ends"
   ],
   "note": "False of the constructors, refuted by C57_false_binary16, C57_false_binary128 and C57_false_float80x86 (numbers beyond the range wrap around). Proved for Float64 and Float32, and for the constructors on infinities, zeros and magnitudes from the smallest subnormal up to the number right above the power of two that ends the range (C57_..._upto_partial); both ends are sharp (C57_..._ends)."
  },
  {
   "property": "C58",
   "status": "proved",
   "theorems": [
    "GoFloat.Binary16.C58_binary16_big",
    "GoFloat.Binary16.C58_binary16_float",
    "GoFloat.Binary16.C58_binary16_newFromBig",
    "GoFloat.Binary16.C58_binary16_newFromFloat64",
    "GoFloat.Binary16.C58_binary16_newFromFloat32",
    "GoFloat.Binary128.C58_binary128_big",
    "GoFloat.Binary128.C58_binary128_float",
    "GoFloat.Binary128.C58_binary128_newFromBig",
    "GoFloat.Binary128.C58_binary128_newFromFloat64",
    "GoFloat.Binary128.C58_binary128_newFromFloat32",
    "GoFloat.Float80x86.C58_float80x86_big",
    "GoFloat.Float80x86.C58_float80x86_float",
    "GoFloat.Float80x86.C58_float80x86_newFromBig",
    "GoFloat.Float80x86.C58_float80x86_newFromFloat64",
    "GoFloat.Float80x86.C58_float80x86_newFromFloat32",
    "GoFloat.Bfloat.C58_bfloat_big",
    "GoFloat.Strconv.C58_format",
    "GoFloat.Strconv.C58_format_unknown",
    "GoFloat.Strconv.C58_format_finite",
    "GoFloat.C58_isExact"
   ],
   "note": "float128ppc is left out: it has two sign bits, and the low part of an exact number is +0 for both signs."
  },
  {
   "property": "C59",
   "status": "proved",
   "theorems": [
    "GoFloat.Strconv.C59_shortest",
    "GoFloat.Strconv.C59_distinct",
    "GoFloat.Strconv.C59_distinct_binary",
    "GoFloat.Strconv.C59_precision"
   ],
   "note": ""
  },
  {
   "property": "C60",
   "status": "proved",
   "theorems": [
    "GoFloat.Strconv.C60_exponential",
    "GoFloat.Strconv.C60_general"
   ],
   "note": ""
  },
  {
   "property": "C61",
   "status": "proved",
   "theorems": [
    "GoFloat.Strconv.C61_shortest",
    "GoFloat.Strconv.C61_exponential",
    "GoFloat.Strconv.C61_general"
   ],
   "note": ""
  },
  {
   "property": "C62",
   "status": "proved",
   "theorems": [
    "GoFloat.Float128ppc.C62_float128ppc_survives",
    "GoFloat.Float128ppc.C62_float128ppc_test_row"
   ],
   "note": "both directions; C62_float128ppc_test_row shows that float128ppc_test.go:16 is not such a pair"
  },
  {
   "property": "C63",
   "status": "proved",
   "theorems": [
    "GoFloat.Strconv.C63_exponential",
    "GoFloat.Strconv.C63_general",
    "GoFloat.Strconv.C63_fixed",
    "GoFloat.Strconv.C63_sharp"
   ],
   "note": ""
  },
  {
   "property": "C64",
   "status": "proved",
   "theorems": [
    "GoFloat.Strconv.C64_capital",
    "GoFloat.Strconv.C64_negative",
    "GoFloat.Strconv.C64_shortest",
    "GoFloat.Strconv.C64_fixed"
   ],
   "note": ""
  },
  {
   "property": "C65",
   "status": "proved",
   "theorems": [
    "GoFloat.C65_digits32",
    "GoFloat.C65_32_64",
    "GoFloat.C65_16_32",
    "GoFloat.C65_16_64"
   ],
   "note": ""
  },
  {
   "property": "C66",
   "status": "proved",
   "theorems": [
    "GoFloat.Binary16.C66_binary16",
    "GoFloat.Binary16.C66_binary16_nan",
    "GoFloat.Binary16.C66_binary16_inf",
    "GoFloat.Binary128.C66_binary128",
    "GoFloat.Binary128.C66_binary128_nan",
    "GoFloat.Binary128.C66_binary128_inf",
    "GoFloat.Float80x86.C66_float80x86",
    "GoFloat.Float80x86.C66_float80x86_nan",
    "GoFloat.Float80x86.C66_float80x86_inf",
    "GoFloat.Binary16.C66_binary16_float64"
   ],
   "note": "describes what the code does; that it should not make NaNs of numbers is C09"
  },
  {
   "property": "C67",
   "status": "proved",
   "theorems": [
    "GoFloat.Binary16.C67_binary16",
    "GoFloat.Binary128.C67_binary128",
    "GoFloat.Float80x86.C67_float80x86",
    "GoFloat.Binary16.C67_binary16_float64",
    "GoFloat.Binary16.C67_binary16_float64_true"
   ],
   "note": "describes what the code does; that the accuracy should be true is C07, C18 and C24"
  },
  {
   "property": "C68",
   "status": "proved",
   "theorems": [
    "GoFloat.Binary16.Gen.C68_binary16",
    "GoFloat.Binary128.Gen.C68_binary128"
   ],
   "note": "A row is modelled by its fields, the text of a float64 constant by the value the compiler gives it. The random choice is a parameter."
  },
  {
   "property": "C69",
   "status": "proved",
   "theorems": [
    "GoFloat.Float128ppc.C69_float128ppc_high",
    "GoFloat.Float128ppc.C69_float128ppc_overflow"
   ],
   "note": "`Normalised` states the normal form by quantification over all doubles (Format.RoundsTo); `C69_float128ppc_overflow` is a finite pair with an infinite Float64."
  },
  {
   "property": "C70",
   "status": "proved",
   "theorems": [
    "GoFloat.Float128ppc.C70_float128ppc_big",
    "GoFloat.Float128ppc.C70_float128ppc_float",
    "GoFloat.Float128ppc.C70_float128ppc_negate",
    "GoFloat.Float128ppc.C70_float128ppc_nosum",
    "GoFloat.Float128ppc.C70_float128ppc_newFromBig",
    "GoFloat.Float128ppc.C70_float128ppc_newFromBig_negate"
   ],
   "note": "Float.sum is the exact sum on the extended number line (Spec/Sum). NewFromBig for tiny numbers, whose pair has fewer than 106 bits, is covered through the grid of multiples of 2^-1074."
  },
  {
   "property": "C71",
   "status": "proved",
   "theorems": [
    "GoFloat.Binary16.C71_binary16",
    "GoFloat.Binary128.C71_binary128",
    "GoFloat.Float80x86.C71_float80x86",
    "GoFloat.Binary16.C71_binary16_float64"
   ],
   "note": "Sharpens the partial C06, C08, C18, C24: what of them is false is false of exactly these arguments. Proved from C66 and the intervals of numbers that round to an encoding."
  },
  {
   "property": "C72",
   "status": "proved",
   "theorems": [
    "GoFloat.C72_isExact16_iff",
    "GoFloat.C72_isExact64",
    "GoFloat.C72_isExact32",
    "GoFloat.C72_isExact16",
    "GoFloat.C72_isExact16_shortest",
    "GoFloat.C72_isExact16_self",
    "GoFloat.C72_digits"
   ],
   "note": "The cut at 101 digits is harmless because neighbouring fractions around the quotient of the powers of two and ten, one pair for each of the exponents of ten that occur (gap_large, gap_small: checked by the kernel for all of them), keep decimals and floats apart."
  },
  {
   "property": "C73",
   "status": "proved",
   "theorems": [
    "GoFloat.Strconv.C73_shortest",
    "GoFloat.Strconv.C73_shortest_fixed",
    "GoFloat.Strconv.C73_exponential",
    "GoFloat.Strconv.C73_general",
    "GoFloat.Strconv.C73_decimals"
   ],
   "note": "Each bound is attained by one of the examples beside the theorems."
  },
  {
   "property": "C74",
   "status": "proved",
   "theorems": [
    "GoFloat.Binary128.C74_binary128_big",
    "GoFloat.Binary128.C74_binary128_float32",
    "GoFloat.Float80x86.C74_float80x86_big",
    "GoFloat.Float80x86.C74_float80x86_float32",
    "GoFloat.Float128ppc.C74_float128ppc_big",
    "GoFloat.Float128ppc.C74_float128ppc_negInf",
    "GoFloat.Float128ppc.C74_float128ppc_float32",
    "GoFloat.Binary16.C74_binary16_big",
    "GoFloat.Binary16.C74_binary16_big_iff",
    "GoFloat.Binary16.C74_binary16_float32"
   ],
   "note": "The places where they differ (float128ppc at -Inf, binary16 beyond 11 bits) are part of the statement and proved."
  },
  {
   "property": "C75",
   "status": "proved",
   "theorems": [
    "GoFloat.Float128ppc.C75_float128ppc_correct"
   ],
   "note": "The exact complement of the sums for which C50 is false."
  },
  {
   "property": "C76",
   "status": "proved",
   "theorems": [
    "GoFloat.Strconv.C76_optimise",
    "GoFloat.Strconv.C76_unknown"
   ],
   "note": ""
  },
  {
   "property": "C77",
   "status": "proved",
   "theorems": [
    "GoFloat.Strconv.C77_printed",
    "GoFloat.Strconv.C77_determined",
    "GoFloat.Strconv.C77_fixed",
    "GoFloat.Strconv.C77_fixed_same"
   ],
   "note": "Format.Printed is the description; C77_determined shows that it leaves no choice. Sharpens C51: what is printed for the exceptional floats is stated as well."
  },
  {
   "property": "C78",
   "status": "proved",
   "theorems": [
    "GoFloat.Strconv.C78_append",
    "GoFloat.Strconv.C78_format",
    "GoFloat.Strconv.C78_largest",
    "GoFloat.Binary16.C78_binary16_big",
    "GoFloat.Binary16.C78_binary16_float64",
    "GoFloat.Binary128.C78_binary128_big",
    "GoFloat.Binary128.C78_binary128_float64",
    "GoFloat.Float80x86.C78_float80x86_big",
    "GoFloat.Float80x86.C78_float80x86_float64",
    "GoFloat.C78_false_big32"
   ],
   "note": "Justifies the unbounded int of the other properties. Zero with the largest precision is not covered: there the loop of fmtE does not end. C78_false_big32 shows that the 32-bit limits of NewFromBig are exact."
  },
  {
   "property": "C79",
   "status": "proved",
   "theorems": [
    "GoFloat.Strconv.C79_format",
    "GoFloat.Strconv.C79_append",
    "GoFloat.Strconv.C79_int",
    "GoFloat.Strconv.C79_itoa",
    "GoFloat.Strconv.C79_appendInt"
   ],
   "note": ""
  },
  {
   "property": "C80",
   "status": "proved",
   "theorems": [
    "GoFloat.C80_bfloat_big",
    "GoFloat.C80_binary16_big",
    "GoFloat.C80_binary128_big",
    "GoFloat.C80_float80x86_big",
    "GoFloat.C80_float128ppc_big",
    "GoFloat.C80_big_twice",
    "GoFloat.C80_binary16_newFromBig",
    "GoFloat.C80_binary128_newFromBig",
    "GoFloat.C80_float80x86_newFromBig",
    "GoFloat.C80_binary16_floats",
    "GoFloat.C80_binary128_floats",
    "GoFloat.C80_float80x86_floats",
    "GoFloat.C80_float128ppc_floats",
    "GoFloat.C80_isExact",
    "GoFloat.Float128ppc.C80_newFromBig",
    "GoFloat.Float128ppc.C80_newFromBig_kept",
    "GoFloat.Float128ppc.C80_newFromBig_twice"
   ],
   "note": "In a model with memory (Verif/Model/Heap): a *big.Float is an address, statements read and write cells, writes before a panic stay. The mantissa words are part of the cell."
  },
  {
   "property": "C81",
   "status": "proved",
   "theorems": [
    "GoFloat.Strconv.C81_appendFloat",
    "GoFloat.Strconv.C81_appendInt",
    "GoFloat.Strconv.C81_appendUint",
    "GoFloat.Strconv.C81_no_free",
    "GoFloat.Strconv.C81_twice_fits",
    "GoFloat.Strconv.C81_twice_moved",
    "GoFloat.Strconv.C81_int_all_or_nothing",
    "GoFloat.Strconv.C81_float_not_all_or_nothing",
    "GoFloat.Strconv.C81_room_shortest",
    "GoFloat.Strconv.C81_room_int",
    "GoFloat.Strconv.C81_formatFloat",
    "GoFloat.Strconv.C81_one_array"
   ],
   "note": "Proved in a second model (Verif/Model/Slices.lean) with arrays and slices, related to the first."
  },
  {
   "property": "C82",
   "status": "proved",
   "theorems": [
    "GoFloat.Binary128.C82_int64",
    "GoFloat.Binary128.C82_big",
    "GoFloat.Binary128.C82_big_iff",
    "GoFloat.Binary128.C82_float64",
    "GoFloat.Binary128.C82_float32",
    "GoFloat.Binary128.C82_roundtrip",
    "GoFloat.Binary128.C82_newFromFloat32",
    "GoFloat.Binary128.C82_newFromFloat32_accuracy"
   ],
   "note": "Describes the consequences of C13_int32, a defect of the code on 32-bit platforms."
  },
  {
   "property": "C83",
   "status": "proved",
   "theorems": [
    "GoFloat.C83_race_free",
    "GoFloat.C83_race_only",
    "GoFloat.C83_race",
    "GoFloat.C83_values",
    "GoFloat.C83_ends"
   ],
   "note": "A step reads or writes one whole number; goroutines do not communicate while they run. The converse (C83_race) is for goroutines that end without a panic."
  },
  {
   "property": "C84",
   "status": "partial",
   "theorems": [
    "GoFloat.Binary128.Gen.C84_text",
    "GoFloat.Binary128.Gen.C84_read",
    "GoFloat.Binary128.Gen.C84_test_partial",
    "GoFloat.Binary128.Gen.C84_sound",
    "GoFloat.Binary128.Gen.C84_false",
    "GoFloat.Binary128.Gen.C84_collision"
   ],
   "note": "The test does not pass for every row: it fails for 1000 + 5 * 2^-39 (C84_false). 35 digits do not identify a number of binary128 (C84_collision)."
  },
  {
   "property": "C85",
   "status": "partial",
   "theorems": [
    "GoFloat.Binary128.Gen.C85_sortable_iff",
    "GoFloat.Binary128.Gen.C85_order_partial",
    "GoFloat.Binary128.Gen.C85_false",
    "GoFloat.Binary128.Gen.C85_both"
   ],
   "note": "Of 512 random mantissas some will cross, so the generated file depends on the version of the Go library (C85_false)."
  },
  {
   "property": "C86",
   "status": "proved",
   "theorems": [
    "GoFloat.Binary16.Gen.C86_binary16",
    "GoFloat.Binary128.Gen.C86_binary128"
   ],
   "note": "How Go reads a line is described in Spec/GoSource.lean; the template, which copies the lines, is not modelled."
  },
  {
   "property": "C87",
   "status": "proved",
   "theorems": [
    "GoFloat.Strconv.C87_floatBits",
    "GoFloat.Strconv.C87_determined",
    "GoFloat.Strconv.C87_even_iff",
    "GoFloat.Strconv.C87_zero"
   ],
   "note": ""
  },
  {
   "property": "C88",
   "status": "proved",
   "theorems": [
    "GoFloat.Strconv.C88_rounded",
    "GoFloat.Strconv.C88_gives_up",
    "GoFloat.Strconv.C88_middle"
   ],
   "note": ""
  },
  {
   "property": "C89",
   "status": "proved",
   "theorems": [
    "GoFloat.Strconv.C89_text",
    "GoFloat.Strconv.C89_formatFloat",
    "GoFloat.Strconv.C89_binary"
   ],
   "note": ""
  },
  {
   "property": "C90",
   "status": "proved",
   "theorems": [
    "GoFloat.Strconv.C90_decimal",
    "GoFloat.Strconv.C90_shortest",
    "GoFloat.Strconv.C90_digits",
    "GoFloat.Strconv.C90_gives_up"
   ],
   "note": ""
  },
  {
   "property": "C91",
   "status": "proved",
   "theorems": [
    "GoFloat.BigFloat.C91_setPrec",
    "GoFloat.BigFloat.C91_set",
    "GoFloat.BigFloat.C91_add",
    "GoFloat.BigFloat.C91_sub",
    "GoFloat.BigFloat.C91_mul_quo",
    "GoFloat.BigFloat.C91_cmp",
    "GoFloat.BigFloat.C91_float",
    "GoFloat.BigFloat.C91_mantExp",
    "GoFloat.BigFloat.C91_integers",
    "GoFloat.BigFloat.C91_parse",
    "GoFloat.BigFloat.C91_newFloat",
    "GoFloat.BigFloat.C91_text",
    "GoFloat.BigFloat.C91_textG",
    "GoFloat.C91_conversion"
   ],
   "note": "About the definitions that stand for math/big, whose source is not in the sandbox. Sub from a zero is covered only if it needs no rounding: math/big rounds first and reverses the sign then; /repo never does that."
  },
  {
   "property": "C92",
   "status": "proved",
   "theorems": [
    "GoFloat.Binary16.C92_binary16",
    "GoFloat.Binary16.C92_binary16_next",
    "GoFloat.Bfloat.C92_bfloat",
    "GoFloat.Binary128.C92_binary128",
    "GoFloat.Float80x86.C92_float80x86",
    "GoFloat.Float80x86.C92_float80x86_unnormal",
    "GoFloat.Float128ppc.C92_float128ppc",
    "GoFloat.Bfloat.C92_bfloat_next",
    "GoFloat.Binary128.C92_binary128_next",
    "GoFloat.Float80x86.C92_float80x86_next"
   ],
   "note": "Unnormal encodings of float80x86 are out of order (C92_float80x86_unnormal)."
  },
  {
   "property": "C93",
   "status": "proved",
   "theorems": [
    "GoFloat.C93_isExact64",
    "GoFloat.C93_isExact32",
    "GoFloat.C93_isExact16",
    "GoFloat.C93_converse"
   ],
   "note": "From 4110 on IsExact16 accepts numbers that are no halves (C34_least). The converse does not hold (C93_converse)."
  },
  {
   "property": "C94",
   "status": "proved",
   "theorems": [
    "GoFloat.Binary16.C94_binary16",
    "GoFloat.Binary128.C94_binary128",
    "GoFloat.Float80x86.C94_float80x86",
    "GoFloat.Float80x86.C94_float80x86_value",
    "GoFloat.Float128ppc.C94_float128ppc",
    "GoFloat.Float128ppc.C94_float128ppc_tie"
   ],
   "note": "Infinities: C12, C31."
  },
  {
   "property": "C95",
   "status": "proved",
   "theorems": [
    "GoFloat.Binary128.C95_binary128",
    "GoFloat.Float80x86.C95_float80x86",
    "GoFloat.Float128ppc.C95_float128ppc"
   ],
   "note": "From 2^16384 on the constructors wrap around (C66)."
  },
  {
   "property": "C96",
   "status": "proved",
   "theorems": [
    "GoFloat.C96_binary128",
    "GoFloat.C96_float80x86"
   ],
   "note": "Outside of the range the two ways may differ (examples in Props/Narrow.lean)."
  },
  {
   "property": "C97",
   "status": "proved",
   "theorems": [
    "GoFloat.Binary16.C97_binary16",
    "GoFloat.Binary16.C97_binary16_float64",
    "GoFloat.Binary128.C97_binary128",
    "GoFloat.Binary128.C97_binary128_narrow",
    "GoFloat.Float80x86.C97_float80x86",
    "GoFloat.Float80x86.C97_float80x86_narrow",
    "GoFloat.Float128ppc.C97_float128ppc",
    "GoFloat.Float128ppc.C97_float128ppc_float64"
   ],
   "note": "Outside of the ranges: C66 (binary16, binary128, float80x86), C29 and C30 (float128ppc)."
  },
  {
   "property": "C98",
   "status": "proved",
   "theorems": [
    "GoFloat.Binary16.C98_binary16",
    "GoFloat.Binary16.C98_binary16_fewer",
    "GoFloat.Bfloat.C98_bfloat",
    "GoFloat.Bfloat.C98_bfloat_fewer",
    "GoFloat.Binary128.C98_binary128",
    "GoFloat.Binary128.C98_binary128_fewer",
    "GoFloat.Float80x86.C98_float80x86",
    "GoFloat.Float80x86.C98_float80x86_fewer",
    "GoFloat.Float128ppc.C98_float128ppc",
    "GoFloat.Float128ppc.C98_float128ppc_fewer"
   ],
   "note": "Text('g', n) and SetString are the library functions as modelled in Model/BigText."
  },
  {
   "property": "C99",
   "status": "proved",
   "theorems": [
    "GoFloat.Float128ppc.C99_exact",
    "GoFloat.Float128ppc.C99_values",
    "GoFloat.Float128ppc.C99_next",
    "GoFloat.Float128ppc.C99_largest"
   ],
   "note": "Says for which numbers the Exact that NewFromBig always reports (C29) is true."
  },
  {
   "property": "C100",
   "status": "proved",
   "theorems": [
    "GoFloat.Binary16.C100_binary16",
    "GoFloat.Bfloat.C100_bfloat",
    "GoFloat.Binary128.C100_binary128",
    "GoFloat.Float80x86.C100_float80x86_finite",
    "GoFloat.Float80x86.C100_float80x86",
    "GoFloat.Float80x86.C100_float80x86_inf",
    "GoFloat.Float80x86.C100_float80x86_others",
    "GoFloat.Float80x86.C100_float80x86_false",
    "GoFloat.Float128ppc.C100_float128ppc",
    "GoFloat.Float128ppc.C100_float128ppc_false"
   ],
   "note": "C100_float80x86_false and C100_float128ppc_false show that the restrictions are needed."
  },
  {
   "property": "C101",
   "status": "proved",
   "theorems": [
    "GoFloat.Binary128.C101_binary128",
    "GoFloat.Float80x86.C101_float80x86",
    "GoFloat.Float80x86.C101_float80x86_false",
    "GoFloat.Float128ppc.C101_float128ppc"
   ],
   "note": "The conversion float32(r) of the language is specified by IsFloat32Of, not modelled. C101_float80x86_false is the exception in the statement."
  },
  {
   "property": "C102",
   "status": "proved",
   "theorems": [
    "GoFloat.Strconv.C102_significant",
    "GoFloat.Strconv.C102_fixed",
    "GoFloat.Strconv.C102_more",
    "GoFloat.Strconv.C102_shortest"
   ],
   "note": ""
  },
  {
   "property": "C103",
   "status": "proved",
   "theorems": [
    "GoFloat.Strconv.C103_significant",
    "GoFloat.Strconv.C103_fixed",
    "GoFloat.Strconv.C103_twice",
    "GoFloat.Strconv.C103_unstable"
   ],
   "note": "C103_unstable shows that the exception exists. Reading is Format.RoundsTo (nearest, ties to even)."
  },
  {
   "property": "C104",
   "status": "proved",
   "theorems": [
    "GoFloat.Binary16.C104_binary16",
    "GoFloat.Binary128.C104_binary128",
    "GoFloat.Float80x86.C104_float80x86",
    "GoFloat.Float128ppc.C104_float128ppc"
   ],
   "note": "The overflow behaviour beyond the threshold is part of the theorem, as the code has it; operands that are infinite are covered by C91."
  },
  {
   "property": "C105",
   "status": "proved",
   "theorems": [
    "GoFloat.Strconv.C105_reads",
    "GoFloat.Strconv.C105_texts"
   ],
   "note": ""
  },
  {
   "property": "C106",
   "status": "proved",
   "theorems": [
    "GoFloat.Binary16.C106_binary16",
    "GoFloat.Binary128.C106_binary128",
    "GoFloat.Float80x86.C106_float80x86"
   ],
   "note": "Rounding to nearest, ties to even, as a new big.Float has it."
  },
  {
   "property": "C107",
   "status": "proved",
   "theorems": [
    "GoFloat.Binary16.C107_binary16",
    "GoFloat.Binary128.C107_binary128",
    "GoFloat.Float80x86.C107_float80x86",
    "GoFloat.Binary16.C107_order"
   ],
   "note": "Rounding to nearest, ties to even, as a new big.Float has it."
  },
  {
   "property": "C108",
   "status": "proved",
   "theorems": [
    "GoFloat.Binary16.C108_binary16",
    "GoFloat.Binary128.C108_binary128",
    "GoFloat.Float80x86.C108_float80x86",
    "GoFloat.Binary16.C108_below"
   ],
   "note": "The receiver has the precision of the format set. Results above the threshold, and below the least number, are described by C66."
  },
  {
   "property": "C109",
   "status": "proved",
   "theorems": [
    "GoFloat.Float128ppc.C109_product",
    "GoFloat.Float128ppc.C109_tenth",
    "GoFloat.Float128ppc.C109_below"
   ],
   "note": "The receiver has precision 106 set and rounds to nearest, ties to even. `C109_below` is a product that is lost altogether."
  },
  {
   "property": "C110",
   "status": "proved",
   "theorems": [
    "GoFloat.Float128ppc.C110_quotient"
   ],
   "note": "The receiver has precision 106 set and rounds to nearest, ties to even."
  },
  {
   "property": "C111",
   "status": "proved",
   "theorems": [
    "GoFloat.Binary16.C111_binary16",
    "GoFloat.Binary16.C111_binary16_new",
    "GoFloat.Binary128.C111_binary128",
    "GoFloat.Binary128.C111_binary128_new",
    "GoFloat.Float80x86.C111_float80x86",
    "GoFloat.Float80x86.C111_float80x86_new"
   ],
   "note": "Mul and Quo of math/big for all operands are modelled in Model/BigMul.lean; they are not part of /repo. A panic of math/big takes the place of the NaN of IEEE 754."
  },
  {
   "property": "C112",
   "status": "proved",
   "theorems": [
    "GoFloat.Binary16.C112_sum",
    "GoFloat.Binary16.C112_product",
    "GoFloat.Binary16.C112_quotient",
    "GoFloat.Binary16.C112_below"
   ],
   "note": "The operations of the language on float64 are not modelled; NearestDouble specifies their results. That Float64 is exact is C04. From 2^16 on NewFromFloat64 is described by C66."
  },
  {
   "property": "C113",
   "status": "proved",
   "theorems": [
    "GoFloat.Binary16.C113_product",
    "GoFloat.Binary16.C113_quotient",
    "GoFloat.Binary16.C113_sum",
    "GoFloat.Binary16.C113_below"
   ],
   "note": "The operations of the language on float32 are not modelled; NearestSingle specifies their results. That Float32 is exact is C04."
  },
  {
   "property": "C114",
   "status": "proved",
   "theorems": [
    "GoFloat.Binary16.C114_fused",
    "GoFloat.Binary16.C114_single_wrong"
   ],
   "note": "The operations of the language on float64 and float32 are not modelled; NearestDouble and NearestSingle specify their results. That Float64 is exact is C04."
  },
  {
   "property": "C115",
   "status": "proved",
   "theorems": [
    "GoFloat.Binary16.C115_root"
   ],
   "note": "math.Sqrt is not modelled; NearestRoot specifies its result as a double nearest to the real square root. That Float64 is exact is C04."
  },
  {
   "property": "C116",
   "status": "proved",
   "theorems": [
    "GoFloat.Binary128.C116_sum",
    "GoFloat.Binary128.C116_product",
    "GoFloat.Binary128.C116_quotient",
    "GoFloat.Float80x86.C116_extended_wrong"
   ],
   "note": "Add, Sub, Mul and Quo of math/big are modelled (C91); they are not part of /repo."
  },
  {
   "property": "C117",
   "status": "proved",
   "theorems": [
    "GoFloat.Float80x86.C117_sum",
    "GoFloat.Float80x86.C117_product",
    "GoFloat.Float80x86.C117_quotient"
   ],
   "note": "Add, Sub, Mul and Quo of math/big are modelled (C91); they are not part of /repo."
  },
  {
   "property": "C118",
   "status": "proved",
   "theorems": [
    "GoFloat.Binary16.C118_root"
   ],
   "note": "The rounding of the square root to float32 is specified (NearestRoot), not modelled."
  },
  {
   "property": "C119",
   "status": "proved",
   "theorems": [
    "GoFloat.Binary128.C119_sum",
    "GoFloat.Binary128.C119_product",
    "GoFloat.Binary128.C119_quotient"
   ],
   "note": "Add, Sub, Mul and Quo of math/big are modelled (C91); they are not part of /repo."
  },
  {
   "property": "C120",
   "status": "proved",
   "theorems": [
    "GoFloat.Binary16.C120_sum",
    "GoFloat.Binary16.C120_count",
    "GoFloat.Binary16.C120_order",
    "GoFloat.Binary16.C120_exists"
   ],
   "note": "Addition of float64 is specified (NearestDouble), not modelled; the sign of a zero sum is left open."
  },
  {
   "property": "C121",
   "status": "proved",
   "theorems": [
    "GoFloat.C121_binary16",
    "GoFloat.C121_binary128",
    "GoFloat.C121_float80x86",
    "GoFloat.C121_uint64",
    "GoFloat.C121_float128ppc",
    "GoFloat.C121_best",
    "GoFloat.C121_best_float128ppc"
   ],
   "note": "The integer is given as the number a big.Float holds; big.Float.SetInt64 and SetUint64, which are not called in /repo, are not modelled."
  },
  {
   "property": "C122",
   "status": "proved",
   "theorems": [
    "GoFloat.C122_binary16",
    "GoFloat.C122_binary16_float64",
    "GoFloat.C122_binary128",
    "GoFloat.C122_float80x86"
   ],
   "note": "For float128ppc the property is not claimed: there the low half may become subnormal."
  },
  {
   "property": "C123",
   "status": "proved",
   "theorems": [
    "GoFloat.Strconv.C123_fixed",
    "GoFloat.Strconv.C123_shortest",
    "GoFloat.Strconv.C123_formatInt",
    "GoFloat.Strconv.C123_formatUint",
    "GoFloat.Strconv.C123_bounds"
   ],
   "note": "For FormatInt and FormatUint the integer is an int64 or uint64; C123_fixed and C123_shortest state the same for the numeral of any integer."
  },
  {
   "property": "C124",
   "status": "proved",
   "theorems": [
    "GoFloat.Strconv.C124_length",
    "GoFloat.Strconv.C124_digit",
    "GoFloat.Strconv.C124_hex",
    "GoFloat.Strconv.C124_order",
    "GoFloat.Strconv.C124_padded",
    "GoFloat.Strconv.C124_longest",
    "GoFloat.Strconv.C124_int",
    "GoFloat.Strconv.C124_int_order"
   ],
   "note": "Texts are lists of characters; the order is that of their code points, which is the order of the bytes, since all of them are ASCII."
  },
  {
   "property": "C125",
   "status": "proved",
   "theorems": [
    "GoFloat.Binary128.C125_float64",
    "GoFloat.Float80x86.C125_float32"
   ],
   "note": "math/big multiplication is the model of C91."
  },
  {
   "property": "C126",
   "status": "proved",
   "theorems": [
    "GoFloat.Binary128.C126_float64",
    "GoFloat.Float80x86.C126_float32"
   ],
   "note": "math/big arithmetic is the model of C91."
  }
 ]
}