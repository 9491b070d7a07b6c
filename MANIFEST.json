{
 "claims": [
  {
   "property": "C01",
   "status": "proved",
   "theorems": [
    "Dpm.Generic.C01_arith_lanewise",
    "Dpm.Generic.C01_bitwise_lanewise",
    "Dpm.Generic.C01_compound_lanewise",
    "Dpm.Generic.C01_incdec",
    "Dpm.Generic.C01_compare_lanewise"
   ],
   "note": "All lane-wise operators for every element type (any Scalar record, UB included). Simplification: ++/-- model x + T(1)."
  },
  {
   "property": "C02",
   "status": "partial",
   "theorems": [
    "Dpm.Generic.C02_violated",
    "Dpm.Generic.C02_swapped",
    "Dpm.Generic.C02_partial"
   ],
   "note": "Violated by the code (vector <<= and >>= are exchanged, G:959/962): C02_violated, C02_swapped. Scalar-count forms proved."
  },
  {
   "property": "C03",
   "status": "partial",
   "theorems": [
    "Dpm.Generic.C03_not_always_true",
    "Dpm.Generic.C03_violated",
    "Dpm.Generic.C03_partial"
   ],
   "note": "Violated by the code (~ and - on a generic mask always yield true): C03_violated. ! proved."
  },
  {
   "property": "C04",
   "status": "proved",
   "theorems": [
    "Dpm.Generic.C04_mask_ops_lanewise",
    "Dpm.Generic.C04_blend_lanewise",
    "Dpm.Generic.C04_scalar_blend"
   ],
   "note": ""
  },
  {
   "property": "C05",
   "status": "proved",
   "theorems": [
    "Dpm.Generic.C05_quantifiers",
    "Dpm.Generic.C05_count",
    "Dpm.Generic.C05_min_index",
    "Dpm.Generic.C05_max_index",
    "Dpm.Generic.C05_scalar"
   ],
   "note": ""
  },
  {
   "property": "C06",
   "status": "proved",
   "theorems": [
    "Dpm.Generic.C06_copy",
    "Dpm.Generic.C06_masked",
    "Dpm.Generic.C06_roundtrip",
    "Dpm.Generic.C06_constructors"
   ],
   "note": ""
  },
  {
   "property": "C07",
   "status": "partial",
   "theorems": [
    "Dpm.Generic.C07_actual",
    "Dpm.Generic.C07_violated_every_width",
    "Dpm.Generic.C07_violated",
    "Dpm.Generic.C07_partial"
   ],
   "note": "Violated for every width N >= 4 (a[i] = data[0], G:607): C07_violated_every_width; widths 1..3 proved."
  },
  {
   "property": "C08",
   "status": "proved",
   "theorems": [
    "Dpm.Generic.C08_shuffle",
    "Dpm.Generic.C08_scalar"
   ],
   "note": "Index lists shorter than 2^64."
  },
  {
   "property": "C09",
   "status": "proved",
   "theorems": [
    "Dpm.Generic.C09_casts"
   ],
   "note": ""
  },
  {
   "property": "C10",
   "status": "partial",
   "theorems": [
    "Dpm.Generic.C10_lsl",
    "Dpm.Generic.C10_lsr_zero_actual",
    "Dpm.Generic.C10_violated",
    "Dpm.Generic.C10_lsr_partial",
    "Dpm.Generic.C10_asr",
    "Dpm.Generic.C10_vectors"
   ],
   "note": "lsr<0> is wrong (C10_violated); lsl/asl/asr proved for all counts, lsr for 1 <= N."
  },
  {
   "property": "C11",
   "status": "partial",
   "theorems": [
    "Dpm.Generic.C11_min_max",
    "Dpm.Generic.C11_min_max_scalar",
    "Dpm.Generic.C11_clamp",
    "Dpm.Generic.C11_minmax_always_undefined",
    "Dpm.Generic.C11_violated"
   ],
   "note": "generic minmax reads dangling references (C11_violated); min/max/clamp proved."
  },
  {
   "property": "C12",
   "status": "proved",
   "theorems": [
    "Dpm.Util.C12_exclusive",
    "Dpm.Util.C12_selected",
    "Dpm.Util.C12_deduce",
    "Dpm.Util.C12_storage"
   ],
   "note": ""
  },
  {
   "property": "C13",
   "status": "proved",
   "theorems": [
    "Dpm.Util.C13_reverse",
    "Dpm.Util.C13_extract",
    "Dpm.Util.C13_repeat",
    "Dpm.Util.C13_pad",
    "Dpm.Util.C13_is_sequential",
    "Dpm.Util.C13_shuffle_elements"
   ],
   "note": ""
  },
  {
   "property": "C14",
   "status": "partial",
   "theorems": [
    "Dpm.X86.C14_construct",
    "Dpm.X86.C14_native_set_partial",
    "Dpm.X86.C14_native_set_violated"
   ],
   "note": "Broadcast, generator, load and element write proved for every configuration; the native set of 8-byte integers in 32-byte vectors truncates to 32 bits (C14_native_set_violated)."
  },
  {
   "property": "C15",
   "status": "partial",
   "theorems": [
    "Dpm.X86.C15_element_aligned",
    "Dpm.X86.C15_vector_aligned_partial",
    "Dpm.X86.C15_vector_aligned_violated",
    "Dpm.X86.C15_counterexample",
    "Dpm.X86.C15_converting"
   ],
   "note": "element_aligned: exact access sets proved. vector_aligned is violated for every width that is not a multiple of the native extent (C15_vector_aligned_violated)."
  },
  {
   "property": "C16",
   "status": "partial",
   "theorems": [
    "Dpm.X86.C16_not",
    "Dpm.X86.C16_bitwise",
    "Dpm.X86.C16_compare",
    "Dpm.X86.C16_lor",
    "Dpm.X86.C16_land_always_false",
    "Dpm.X86.C16_land_partial",
    "Dpm.X86.C16_land_violated"
   ],
   "note": "Violated by && (X:333-352, the accumulator starts at zero): C16_land_always_false, C16_land_violated. All other operators proved."
  },
  {
   "property": "C17",
   "status": "partial",
   "theorems": [
    "Dpm.X86.C17_signbit_violated",
    "Dpm.X86.C17_counterexample",
    "Dpm.X86.C17_canonical",
    "Dpm.X86.C17_constructors"
   ],
   "note": "Proved for every finite history of constructors, element writes, mask operators and blends (C17_canonical). Comparisons and isnan/isinf/isfinite/isnormal return canonical masks (C22, C31, C32: YieldsMask). Violated by signbit (C17_signbit_violated)."
  },
  {
   "property": "C18",
   "status": "partial",
   "theorems": [
    "Dpm.X86.C18_all_of_partial",
    "Dpm.X86.C18_all_of_violated_avx2",
    "Dpm.X86.C18_any_of_partial",
    "Dpm.X86.C18_none_of_partial",
    "Dpm.X86.C18_some_of_partial",
    "Dpm.X86.C18_some_of_violated_avx2",
    "Dpm.X86.C18_all_of_counterexample",
    "Dpm.X86.C18_any_of_counterexample",
    "Dpm.X86.C18_all_of_counterexample_avx"
   ],
   "note": "Violated on AVX2 for 32-byte masks of 1/2-byte elements (sign-extended movemask) and on AVX without AVX2 when the tail lies in the low half (padding not masked); proved for all masks, widths and paddings on every other configuration."
  },
  {
   "property": "C19",
   "status": "partial",
   "theorems": [
    "Dpm.X86.C19_reduce_count_partial",
    "Dpm.X86.C19_counterexample"
   ],
   "note": "Same two violations as C18 (C19_counterexample); proved elsewhere."
  },
  {
   "property": "C20",
   "status": "partial",
   "theorems": [
    "Dpm.X86.C20_min_index",
    "Dpm.X86.C20_max_index_exact",
    "Dpm.X86.C20_max_index_partial",
    "Dpm.X86.C20_max_index_violated",
    "Dpm.X86.C20_max_index_counterexample"
   ],
   "note": "reduce_min_index proved on all configurations; reduce_max_index is characterised exactly (C20_max_index_exact) and violated whenever the last true element is in a partial native vector."
  },
  {
   "property": "C21",
   "status": "proved",
   "theorems": [
    "Dpm.X86.C21_blend"
   ],
   "note": "For all mask patterns, not only canonical ones."
  },
  {
   "property": "C22",
   "status": "partial",
   "theorems": [
    "Dpm.X86.C22_equality",
    "Dpm.X86.C22_ordered_partial",
    "Dpm.X86.C22_ordered_violated"
   ],
   "note": "==, != and ! proved on all configurations; ordered comparisons proved for signed types from SSE4.1 on; they do not compile otherwise (C22_ordered_violated)."
  },
  {
   "property": "C23",
   "status": "partial",
   "theorems": [
    "Dpm.X86.C23_addsub",
    "Dpm.X86.C23_saturating",
    "Dpm.X86.C23_incdec_partial",
    "Dpm.X86.C23_incdec_violated",
    "Dpm.X86.C23_mul_partial",
    "Dpm.X86.C23_mul_unsigned_partial",
    "Dpm.X86.C23_mul_violated",
    "Dpm.X86.C23_mul_undefined",
    "Dpm.X86.C23_mul_u16_violated"
   ],
   "note": "+, -, unary - proved on all configurations; * proved where native, or through the fallback for whole native vectors; undefined otherwise (C23_mul_violated, C23_mul_u16_violated); ++/-- compile for int only."
  },
  {
   "property": "C24",
   "status": "partial",
   "theorems": [
    "Dpm.X86.C24_shl_partial",
    "Dpm.X86.C24_shr_partial",
    "Dpm.X86.C24_shr_vector_violated",
    "Dpm.X86.C24_padding_violated",
    "Dpm.X86.C24_shr_vector_counterexample",
    "Dpm.X86.C24_shr_signed_violated"
   ],
   "note": "Violated: the fallback of vector >> computes << (C24_shr_vector_violated), native >> of signed 64-bit lanes is logical, fallbacks are undefined with padding. << and unsigned >> proved elsewhere."
  },
  {
   "property": "C25",
   "status": "partial",
   "theorems": [
    "Dpm.X86.C25_lsl_lsr_partial",
    "Dpm.X86.C25_one_byte_violated",
    "Dpm.X86.C25_asr_partial",
    "Dpm.X86.C25_asr_exact",
    "Dpm.X86.C25_violated"
   ],
   "note": "(Constant-count forms: the run-time path; no call of lsl/lsr/asl/asr on an x86 vector compiles, C59_shifts_violated.) Counts >= 32 and hardware shifts proved; for counts below 32 the emulation is characterised exactly (C25_asr_exact) and wrong as soon as a bit has to cross the dwords (C25_violated)."
  },
  {
   "property": "C26",
   "status": "partial",
   "theorems": [
    "Dpm.X86.C26_minmax_partial",
    "Dpm.X86.C26_minmax_pair_partial",
    "Dpm.X86.C26_minmax_violated",
    "Dpm.X86.C26_avx_violated",
    "Dpm.X86.C26_clamp_partial",
    "Dpm.X86.C26_abs_partial",
    "Dpm.X86.C26_abs_unsigned_violated",
    "Dpm.X86.C26_abs_fallback_exact",
    "Dpm.X86.C26_abs_fallback_partial",
    "Dpm.X86.C26_abs_one_byte_violated",
    "Dpm.X86.C26_abs_counterexample"
   ],
   "note": "min/max/clamp proved where a kernel exists or the width is a multiple of the extent; minmax without overload is undefined; integer min/max on AVX without AVX2 do not compile; abs (run-time path; no call compiles, C59_abs_violated) is wrong on unsigned lanes and in the fallback (C26_abs_counterexample)."
  },
  {
   "property": "C27",
   "status": "partial",
   "theorems": [
    "Dpm.X86.C27_reduce_int_partial",
    "Dpm.X86.C27_reduce_is_sum_partial",
    "Dpm.X86.C27_padding_irrelevant",
    "Dpm.X86.C27_reduce_minmax_partial",
    "Dpm.X86.C27_reduce_float",
    "Dpm.X86.C27_reduce_minmax_float_partial",
    "Dpm.X86.C27_reduce_min_inf_violated",
    "Dpm.X86.C27_reduce_other_violated",
    "Dpm.X86.C27_reduce_minmax64_violated",
    "Dpm.X86.C27_reduce_small_avx2_violated",
    "Dpm.X86.C27_reduce_fallback_violated"
   ],
   "note": "+,&,^,| (and * where the kernel exists) proved to be the fold of elements 0..N-1, min/max to be the least/greatest element, floats to combine each element once, wherever the x86 kernels exist. Violated: other operations on 4/8-byte integers and 8-byte min/max flow off the end; 1/2-byte reductions in 32-byte vectors do not compile with AVX2; before SSSE3 1/2-byte reductions drop elements; padded float reduce_min of +inf gives max()."
  },
  {
   "property": "C28",
   "status": "partial",
   "theorems": [
    "Dpm.X86.C28_shuffle_exact",
    "Dpm.X86.C28_shuffle_partial",
    "Dpm.X86.C28_mask_partial",
    "Dpm.X86.C28_violated",
    "Dpm.X86.C28_generic_partial",
    "Dpm.X86.C28_generic_violated"
   ],
   "note": "Exact characterisation for every pack of valid indices, all element sizes and all 16/32-byte source/result combinations (C28_shuffle_exact): the requested elements when filling the last native vector stays inside the storage, undefined otherwise (C28_violated). Packs that fill whole native vectors and the generic template are proved."
  },
  {
   "property": "C29",
   "status": "partial",
   "theorems": [
    "Dpm.X86.C29_copy_from_aligned_partial",
    "Dpm.X86.C29_copy_from_element",
    "Dpm.X86.C29_violated_u32",
    "Dpm.X86.C29_violated_i64"
   ],
   "note": "Aligned load of integers into a float vector of the same element size: correctly rounded for every lane value and ISA except uint32 -> float (double rounding, C29_violated_u32) and int64 -> double on AVX/AVX2 without AVX-512DQ/VL or SSE4.1 (C29_violated_i64). Element-wise loads proved for all."
  },
  {
   "property": "C30",
   "status": "partial",
   "theorems": [
    "Dpm.X86.C30_copy_to_aligned_rounds",
    "Dpm.X86.C30_copy_to_aligned_partial",
    "Dpm.X86.C30_copy_to_element",
    "Dpm.X86.C30_violated"
   ],
   "note": "Element-wise store truncates (proved). Aligned store rounds to nearest even (C30_copy_to_aligned_rounds), so the property is violated for non-integral lanes (C30_violated) and holds for integral in-range lanes."
  },
  {
   "property": "C31",
   "status": "partial",
   "theorems": [
    "Dpm.X86.C31_nan_inf_finite",
    "Dpm.X86.C31_isnormal_exact",
    "Dpm.X86.C31_isnormal_partial",
    "Dpm.X86.C31_isnormal_violated",
    "Dpm.X86.C31_signbit_partial",
    "Dpm.X86.C31_counterexample",
    "Dpm.GenericMath.C31_fpclassify_partial",
    "Dpm.GenericMath.C31_fpclassify_violated",
    "Dpm.GenericMath.C31_fpclassify_double"
   ],
   "note": "isnan/isinf/isfinite proved for every bit pattern and configuration; isnormal proved for non-NaN and violated for every NaN (C31_isnormal_violated); signbit gives the right element values but non-canonical lanes (C17_signbit_violated). fpclassify (the template, on x86 vectors): the class of every element when size() is a multiple of the number of ints in the result's native vector (C31_fpclassify_partial), otherwise - every default double vector - undefined (C31_fpclassify_violated, C31_fpclassify_double)."
  },
  {
   "property": "C32",
   "status": "partial",
   "theorems": [
    "Dpm.X86.C32_quiet_partial",
    "Dpm.X86.C32_islessgreater_exact",
    "Dpm.X86.C32_islessgreater_partial",
    "Dpm.X86.C32_islessgreater_violated",
    "Dpm.X86.C32_operators",
    "Dpm.X86.C32_counterexample"
   ],
   "note": "All relations and the comparison operators proved to be the IEEE relations on exact values; islessgreater is violated wherever the operands are equal (C32_islessgreater_violated)."
  },
  {
   "property": "C33",
   "status": "partial",
   "theorems": [
    "Dpm.X86.C33_sign",
    "Dpm.X86.C33_values"
   ],
   "note": "copysign: bit for bit, NaN payloads included. fabs: the run-time path is proved, but no call of fabs on an x86 vector compiles (C59_abs_violated). The constant-evaluated branch of copysign (which ignores the sign operand, FINDINGS 35) can never be used: no function returning an x86 vector is a constant expression (C61_functions_violated)."
  },
  {
   "property": "C34",
   "status": "partial",
   "theorems": [
    "Dpm.X86.C34_frexp_partial",
    "Dpm.X86.C34_subnormal_violated"
   ],
   "note": "Normal numbers, zeros, infinities and NaNs proved for every configuration; the exponent of every subnormal is wrong (by 6 for float, 9 for double: C34_subnormal_violated)."
  },
  {
   "property": "C35",
   "status": "partial",
   "theorems": [
    "Dpm.X86.C35_scalbn_partial",
    "Dpm.X86.C35_scalbn_no_errors",
    "Dpm.X86.C35_scalbn_violated",
    "Dpm.X86.C35_scalbln_float",
    "Dpm.X86.C35_scalbln_double_partial",
    "Dpm.X86.C35_scalbln_violated",
    "Dpm.X86.C35_scalbn_vector_partial",
    "Dpm.X86.C35_scalbn_vector_violated",
    "Dpm.X86.C35_scalbn_vector_ub",
    "Dpm.X86.C35_counterexample",
    "Dpm.X86.C35_scalbln_vector_double_partial",
    "Dpm.X86.C35_scalbln_vector_ub",
    "Dpm.X86.C35_scalbln_vector_float"
   ],
   "note": "int exponent: x*2^n correctly rounded (subnormal results, under-/overflow, zeros, infinities, NaNs) for every x and every n except n within the exponent-field range of INT_MAX for float and pre-SSE4.1 double, where the sum wraps and the result is zero (C35_scalbn_violated). Vector exponents proved for float and 16-byte double; 32-byte double uses other elements' exponents or reads out of bounds (C35_scalbn_vector_violated/_ub, C35_counterexample). scalbln: float truncates the exponent to 32 bits (C35_scalbln_violated), vector form undefined for some widths (C35_scalbln_vector_ub). Elements 4..7 of 32-byte float vectors use the exponents of elements 0..3 in scalbln (C35_scalbln_vector_float). Requires DPM_HANDLE_ERRORS for out-of-range results (C35_scalbn_no_errors otherwise)."
  },
  {
   "property": "C36",
   "status": "partial",
   "theorems": [
    "Dpm.X86.C36_modf_undefined",
    "Dpm.X86.C36_modf_partial",
    "Dpm.X86.C36_modf_violated",
    "Dpm.X86.C36_counterexample"
   ],
   "note": "modf: both parts proved for zeros, |x| >= 1, infinities and NaNs on every configuration where the per-lane shift exists (AVX2, or 8-byte lanes); for 0 < |x| < 1 the integral part returned is x itself (C36_modf_violated). float without AVX2 is undefined unless every register lane, padding included, has a shift count below 32 (C36_modf_undefined)."
  },
  {
   "property": "C37",
   "status": "partial",
   "theorems": [
    "Dpm.X86.C37_ilogb_partial",
    "Dpm.X86.C37_ilogb_inf_violated",
    "Dpm.X86.C37_ilogb_subnormal_violated",
    "Dpm.X86.C37_logb_partial",
    "Dpm.X86.C37_logb_violated",
    "Dpm.X86.C37_counterexample"
   ],
   "note": "ilogb proved for all normals, and for subnormals where the 64-bit conversion is right; zero/NaN specials proved, infinity for float. Violated: ilogb(double inf) = -1 (C37_ilogb_inf_violated), subnormal doubles (C37_ilogb_subnormal_violated) and logb of doubles in (0,1) (C37_logb_violated) on SSE4.1/AVX without AVX2 or AVX512DQ/VL. logb proved elsewhere, exactly."
  },
  {
   "property": "C38",
   "status": "proved",
   "theorems": [
    "Dpm.X86.C38_nextafter",
    "Dpm.X86.C38_nextafter_numbers"
   ],
   "note": "For every pair of bit patterns, with DPM_PROPAGATE_NAN; without that option the NaN rule is not promised and numbers are covered by C38_nextafter_numbers."
  },
  {
   "property": "C39",
   "status": "partial",
   "theorems": [
    "Dpm.X86.C39_sse41",
    "Dpm.X86.C39_round_sse41_partial",
    "Dpm.X86.C39_round_avx_violated",
    "Dpm.X86.C39_sse2_partial",
    "Dpm.X86.C39_range_violated",
    "Dpm.X86.C39_zero_sign_violated",
    "Dpm.X86.C39_rint_float",
    "Dpm.X86.C39_rint_double_partial",
    "Dpm.X86.C39_round_sse2_partial",
    "Dpm.X86.C39_round_tie_violated",
    "Dpm.X86.C39_round_nan_violated",
    "Dpm.X86.C39_trunc_sse3",
    "Dpm.X86.C39_trunc_sse2_partial",
    "Dpm.X86.C39_trunc_violated",
    "Dpm.X86.C39_rint_double_violated"
   ],
   "note": "From SSE4.1 on ceil, floor, trunc, nearbyint, rint proved for every bit pattern, round too except 32-byte float vectors (always zero: C39_round_avx_violated). Before SSE4.1: right values for |x| < 2^31, rint of floats and trunc of doubles (with SSE3) for every input. Violated before SSE4.1: beyond 2^31, NaN, the sign of zero, halves in round, rint of doubles near 2^53, trunc of doubles without SSE3 for 2^-9 <= |x| < 1. iround/irint/lround/lrint/itrunc: C60."
  },
  {
   "property": "C40",
   "status": "partial",
   "theorems": [
    "Dpm.X86.C40_defined",
    "Dpm.X86.C40_reduction"
   ],
   "note": "Definedness (no table load out of range) for every bit pattern; x = 2^k z exactly with z in the table's domain for every positive normal number. Subnormals: log_normalize never scales them (see FINDINGS 51), so the reduction is not exact there."
  },
  {
   "property": "C41",
   "status": "partial",
   "theorems": [
    "Dpm.X86.C41_nan_inf",
    "Dpm.X86.C41_negative",
    "Dpm.X86.C41_one",
    "Dpm.X86.C41_zero_violated"
   ],
   "note": "NaN, +inf, negative arguments and 1 as C requires; zero violates the property: log/log2/log10(+-0) and log1p(-1) are +inf (C41_zero_violated), log1p(-0) is +0."
  },
  {
   "property": "C42",
   "status": "partial",
   "theorems": [
    "Dpm.X86.C42_sin_odd",
    "Dpm.X86.C42_cos_even",
    "Dpm.X86.C42_tan_odd",
    "Dpm.X86.C42_asin_atan_odd",
    "Dpm.X86.C42_zero",
    "Dpm.X86.C42_nan",
    "Dpm.X86.C42_domain",
    "Dpm.X86.C42_inf",
    "Dpm.X86.C42_sincos",
    "Dpm.X86.C42_endpoints"
   ],
   "note": "sincos: the run-time path; with GCC/Clang no call of it compiles (C59_sincos_violated). Everything else: for every configuration, bit pattern, with and without FMA. The C library calls made for |x| > 2^22 (float) / 2^51 (double) are a parameter: parity and sincos = (sin, cos) there assume the same of the library. That the results approximate sine and tangent is a different property (C56), violated in places."
  },
  {
   "property": "C43",
   "status": "partial",
   "theorems": [
    "Dpm.X86.C43_accuracy_partial",
    "Dpm.X86.C43_sign",
    "Dpm.X86.C43_symm",
    "Dpm.X86.C43_inf",
    "Dpm.X86.C43_inf_float",
    "Dpm.X86.C43_nan",
    "Dpm.X86.C43_zero_partial",
    "Dpm.X86.C43_tiny_violated",
    "Dpm.X86.C43_inf_violated",
    "Dpm.X86.C43_snan_violated"
   ],
   "note": "Accuracy: |hypot - sqrt(a^2+b^2)| <= 3 u sqrt(a^2+b^2) + tiny for all finite operands against Mathlib's real square root, with and without FMA, finite unless the hypotenuse overflows, for float and for double with one operand >= 2^-1042 (C43_accuracy_partial); below that double returns |a|+|b| (C43_tiny_violated). Sign and symmetry for all non-NaN patterns; infinities and NaN proved with DPM_PROPAGATE_NAN, violated for double without it (C43_inf_violated) and for NaN with payload in the low word only (C43_snan_violated)."
  },
  {
   "property": "C44",
   "status": "partial",
   "theorems": [
    "Dpm.Cpuid.C44_cpu_partial",
    "Dpm.Cpuid.C44_xsave_partial",
    "Dpm.Cpuid.C44_f16c_violated",
    "Dpm.Cpuid.C44_no_xsave_violated",
    "Dpm.Cpuid.C44_sse_cpuinfo",
    "Dpm.Cpuid.C44_sse_cpuinfo_exact",
    "Dpm.Cpuid.C44_subleaf_violated",
    "Dpm.Cpuid.C44_vendor",
    "Dpm.Cpuid.C44_counterexample",
    "Dpm.Cpuid.C44_f16c_counterexample",
    "Dpm.Cpuid.C44_subleaf_counterexample",
    "Dpm.Cpuid.C44_windows_xsave_partial",
    "Dpm.Cpuid.C44_windows_sse",
    "Dpm.Cpuid.C44_windows_no_xsave_violated",
    "Dpm.Cpuid.C44_static_order_violated"
   ],
   "note": "With OSXSAVE every feature test except has_f16c, and leaf 7 when the uninitialised sub-leaf register happens to hold 0, proved to answer exactly 'processor and operating system support it' (C44_xsave_partial, C44_sse_cpuinfo, C44_vendor); without OSXSAVE the SSE class is reported exactly if the processor has it and a read of /proc/cpuinfo lists it, when every read but the last fills the buffer (C44_sse_cpuinfo_exact). Violated: F16C is reported without the AVX state test (C44_f16c_violated), a processor without OSXSAVE gets AVX-class features reported unmasked (C44_no_xsave_violated), and leaf 7 is queried with an uninitialised sub-leaf (C44_subleaf_violated). Windows with MSVC: exact, leaf 7 included (C44_windows_xsave_partial, C44_windows_sse; AVX without OSXSAVE violated likewise). Called during static initialisation of another translation unit every test may answer no (C44_static_order_violated). The Apple and FreeBSD branches do not compile."
  },
  {
   "property": "C45",
   "status": "proved",
   "theorems": [
    "Dpm.X86.C45_polevl",
    "Dpm.X86.C45_lanewise"
   ],
   "note": "Backward error form: the computed value is the exact value of the polynomial whose k-th coefficient is c[k] up to the roundings of Horner's rule, for every coefficient list, every x, with and without FMA (whenever the result is finite)."
  },
  {
   "property": "C46",
   "status": "proved",
   "theorems": [
    "Dpm.Util.C46_ref_history",
    "Dpm.Util.C46_reads",
    "Dpm.Util.C46_swap"
   ],
   "note": ""
  },
  {
   "property": "C47",
   "status": "partial",
   "theorems": [
    "Dpm.Util.C47_fill_bits",
    "Dpm.Util.C47_extend_bool",
    "Dpm.Util.C47_bits_partial",
    "Dpm.Util.C47_violated"
   ],
   "note": "test_bit/mask_bit are wrong for a 64-bit operand at position 31 (C47_violated: 1<<31 sign-extends); proved for all 32-bit operands, the only ones the library uses, and for the other positions."
  },
  {
   "property": "C48",
   "status": "partial",
   "theorems": [
    "Dpm.X86.C48_refines_partial",
    "Dpm.X86.C48_unsupported",
    "Dpm.X86.C48_agree_partial",
    "Dpm.X86.C48_queries_partial",
    "Dpm.X86.C48_mask_violated",
    "Dpm.X86.C48_lsr_violated",
    "Dpm.X86.C48_shr_violated",
    "Dpm.X86.C48_violated"
   ],
   "note": "Integer vectors and masks, every configuration and every expression (arbitrary nesting; variables, constructors, arithmetic, bitwise, shifts, min/max/clamp, comparisons, blend, element writes, mask operators): if no operator is one of the listed known differences, the x86 result equals the generic one lane by lane whenever both are defined (C48_agree_partial), and the x86 program compiles and is defined whenever the generic one is and the operators are available there (C48_refines_partial); availability is exact (C48_unsupported). Mask queries agree (C48_queries_partial). Not the full claim: ~mask, mask && mask, lsr<0>, vector >> without native shifts, native >> of signed lanes and emulated asr differ (C48_mask_violated, C48_lsr_violated, C48_shr_violated, C24/C25 violations; C48_violated refutes the full statement). Floating-point expressions: C63."
  },
  {
   "property": "C49",
   "status": "partial",
   "theorems": [
    "Dpm.X86.C49_fdim",
    "Dpm.X86.C49_fmax_fmin_violated",
    "Dpm.X86.C49_min_max"
   ],
   "note": "fdim proved for any subtraction; fmax/fmin do not compile for any x86 vector (C49_fmax_fmin_violated); min/max of floats characterised."
  },
  {
   "property": "C50",
   "status": "proved",
   "theorems": [
    "Dpm.X86.C50_nary",
    "Dpm.X86.C50_lockstep",
    "Dpm.X86.C50_cover"
   ],
   "note": "For any number of operands, aliasing included (C50_nary)."
  },
  {
   "property": "C51",
   "status": "partial",
   "theorems": [
    "Dpm.X86.C51_scalar_partial",
    "Dpm.X86.C51_scalar_violated",
    "Dpm.X86.C51_bitwise",
    "Dpm.X86.C51_template_partial",
    "Dpm.X86.C51_violated"
   ],
   "note": "&,|,^ proved on all configurations; ~, /, % proved for widths that are multiples of the native extent, undefined otherwise (C51_violated)."
  },
  {
   "property": "C52",
   "status": "partial",
   "theorems": [
    "Dpm.X86.C52_fused",
    "Dpm.X86.C52_nan",
    "Dpm.X86.C52_unfused",
    "Dpm.X86.C52_violated"
   ],
   "note": "Proved with FMA hardware for every triple of finite patterns; without DPM_HAS_FMA the functions round twice (C52_unfused is the exact characterisation, C52_violated a counterexample for every vector type)."
  },
  {
   "property": "C53",
   "status": "proved",
   "theorems": [
    "Dpm.X86.C53_sqrt"
   ],
   "note": "For every bit pattern and configuration, against Mathlib's real square root, ties included."
  },
  {
   "property": "C54",
   "status": "partial",
   "theorems": [
    "Dpm.X86.C54_lerp_violated",
    "Dpm.X86.C54_kernel_partial",
    "Dpm.X86.C54_kernel_violated"
   ],
   "note": "lerp does not compile for any x86 vector (its constant-evaluated branch calls fmax with three arguments); the run-time expression is characterised (C54_kernel_partial) and would give lerp(2^30,1,1)=0 (C54_kernel_violated)."
  },
  {
   "property": "C55",
   "status": "partial",
   "theorems": [
    "Dpm.X86.C55_log10_float",
    "Dpm.X86.C55_log10_subnormal_violated",
    "Dpm.X86.C55_log10_double_partial",
    "Dpm.X86.C55_log10_double_violated",
    "Dpm.X86.C55_log1p_partial",
    "Dpm.X86.C55_log1p_violated",
    "Dpm.X86.C55_log",
    "Dpm.X86.C55_log_subnormal_violated",
    "Dpm.X86.C55_log_subnormal_off_violated",
    "Dpm.X86.C55_log2_float",
    "Dpm.X86.C55_log2_double_partial",
    "Dpm.X86.C55_log2_double_violated",
    "Dpm.X86.C55_log2_subnormal_violated"
   ],
   "note": "Against Mathlib's Real.log / Real.logb, on all instruction sets, with and without FMA: log (float, double) and log2 (float) within 5u(1+|log|) for every positive normal argument, and relative to |log| within 2^-10 of 1; log10(float) likewise with 6u and 8u; log10(double) for 0 < x < 2^970, subnormals included; log1p within 10u(1+|log(1+x)|) for every finite x > -1. Violated parts, each proved for the whole range concerned: log2(double) uses a table made for another offset (C55_log2_double_violated; 3.6e-12 is what holds); log10(double) is the constant 292.0 for every x >= 2^970 (C55_log10_double_violated); log1p is +0 for every normal |x| < u/2 (C55_log1p_violated); log/log2 never scale subnormals and log10(float) scales them back only in even lanes (C55_log_subnormal_violated, C55_log2_subnormal_violated, C55_log10_subnormal_violated)."
  },
  {
   "property": "C56",
   "status": "partial",
   "theorems": [
    "Dpm.X86.C56_sincos",
    "Dpm.X86.C56_sin",
    "Dpm.X86.C56_cos",
    "Dpm.X86.C56_float_fma",
    "Dpm.X86.C56_sin_small",
    "Dpm.X86.C56_tan",
    "Dpm.X86.C56_tan_small_violated",
    "Dpm.X86.C56_wide_violated",
    "Dpm.X86.C56_large_violated",
    "Dpm.X86.C56_far_violated",
    "Dpm.X86.C56_edge_violated",
    "Dpm.X86.C56_double_fma",
    "Dpm.X86.C56_tan_fma",
    "Dpm.X86.C56_sincos_fma",
    "Dpm.X86.C56_double_far"
   ],
   "note": "Error of every element against the real functions, for every instruction set, width, with and without FMA: sin, cos (C56_sin, C56_cos: 4.6 + |x|/2^23 half units of 1.0 in double; 10.4 with FMA, 11.6 + 1.001|x| without, in float; C56_float_fma: 4.7 for |x| <= 2048 with FMA; C56_double_fma: 4.7 for |x| <= 2^40 with FMA in double), relative accuracy of sin for small x (C56_sin_small), tan from pi/32 on (C56_tan); both results of sincos obey the same bounds (C56_sincos). Not the full claim: tan below pi/32 is 40 times too small (C56_tan_small_violated), 128-bit double vectors with AVX-512DQ+VL lose 13 bits (C56_wide_violated; 24660 half units is the bound that holds), SSE4.1..AVX double is garbage from 2^16 octants on (C56_large_violated), float without FMA loses |x| half units; double loses 1.002|x| half units between 2^29 and 2^40 without FMA (C56_double_far; with FMA nothing: C56_double_fma, C56_sincos_fma, C56_tan_fma); from 2^40 up to the library call at 2^51 there is no bound: without FMA sin(1293554220448323.75) is above 0.12 instead of below 0.002 (C56_far_violated), and before AVX-512DQ sin(2^51) is above 10^177 (C56_edge_violated)."
  },
  {
   "property": "C57",
   "status": "proved",
   "theorems": [
    "Dpm.X86.C57_asin",
    "Dpm.X86.C57_acos",
    "Dpm.X86.C57_atan"
   ],
   "note": "Against Mathlib's Real.arcsin/arccos/arctan, every finite argument of the domain, every configuration, with and without FMA: relative error below 12.5 (asin; 5.7 up to 5/8), 9 (acos), 6.5 (atan) half units in the last place, plus a few halves of the smallest subnormal. The approximation error of the rational functions is certified on the whole interval by kernel-checked polynomial positivity (Proofs/PolyPos, InvCert)."
  },
  {
   "property": "C58",
   "status": "partial",
   "theorems": [
    "Dpm.GenericMath.C58_static_cast",
    "Dpm.GenericMath.C58_static_cast_signed",
    "Dpm.GenericMath.C58_unary",
    "Dpm.GenericMath.C58_binary",
    "Dpm.GenericMath.C58_binary_scalar",
    "Dpm.GenericMath.C58_lerp",
    "Dpm.GenericMath.C58_masks",
    "Dpm.GenericMath.C58_integer",
    "Dpm.GenericMath.C58_to_integer",
    "Dpm.GenericMath.C58_frexp_modf",
    "Dpm.GenericMath.C58_remquo",
    "Dpm.GenericMath.C58_scale",
    "Dpm.GenericMath.C58_sincos",
    "Dpm.GenericMath.C58_illformed_violated",
    "Dpm.GenericMath.C58_rint_through_long",
    "Dpm.GenericMath.C58_rint_violated",
    "Dpm.GenericMath.C58_fma",
    "Dpm.GenericMath.C58_rcp",
    "Dpm.GenericMath.C58_rsqrt",
    "Dpm.GenericMath.C58_nan",
    "Dpm.GenericMath.C58_fma_violated",
    "Dpm.GenericMath.C58_promote_unary",
    "Dpm.GenericMath.C58_promote_binary",
    "Dpm.GenericMath.C58_integer_operands",
    "Dpm.GenericMath.C58_integer_fmax_violated",
    "Dpm.GenericMath.C58_x86_template",
    "Dpm.GenericMath.C58_x86_template_violated",
    "Dpm.GenericMath.C58_x86_remquo"
   ],
   "note": "For every C library, element type, size and argument. Proved: every unary function but fabs/rint, every binary function, scalar forms, lerp, classification, quiet comparisons, frexp/modf/remquo, scaling, iround/irint/itrunc, fma family (as separate steps), rcp/rsqrt, promotion of integer and mixed operands, and the same templates on x86 vectors (without SVML) when size() is a multiple of the native extent. Violated parts are theorems: abs/fabs, fmin(vector, scalar) and lrint do not compile; rint goes through long (loses -0, undefined for infinities); fma is not fused; fmax etc. of two integer vectors are not promoted (C58_integer_fmax_violated); x86 vectors of other sizes are undefined (C58_x86_template_violated; remquo: C58_x86_remquo). long double is not modelled; with SVML: C81."
  },
  {
   "property": "C59",
   "status": "partial",
   "theorems": [
    "Dpm.Callable.C59_mask_ops_violated",
    "Dpm.Callable.C59_mask_copies_violated",
    "Dpm.Callable.C59_compare_violated",
    "Dpm.Callable.C59_reduce_minmax_violated",
    "Dpm.Callable.C59_reduce_minmax_partial",
    "Dpm.Callable.C59_shuffle_violated",
    "Dpm.Callable.C59_compiles",
    "Dpm.Callable.C59_copies_cause",
    "Dpm.Callable.C59_copies_cause_memory",
    "Dpm.Callable.C59_abs_violated",
    "Dpm.Callable.C59_shifts_violated",
    "Dpm.Callable.C59_sincos_violated",
    "Dpm.Callable.C59_sincos"
   ],
   "note": "Which calls compile is modelled for abs, fabs, the constant shifts, sincos, sin, and for everything that involves x86 masks. Violations proved for every element type, size and argument: abs, fabs, lsl, lsr, asl, asr; all mask operators, mask loads/stores/conversions, masked vector copies, all vector comparisons, blend, classification and quiet comparison functions, reduce_min/reduce_max wherever their x86 overload is selected (ReduceMinmaxX86; exactly there: elsewhere the generic one is called and runs, C59_reduce_minmax_partial), shuffles of masks and shuffles to another size; sincos with the GCC/Clang builtins. Proved to compile and run their run-time path: mask reductions, + - unary minus, same-size shuffle, sin. fmax/fmin and lerp on x86 vectors: see C49, C54. The theorems of the properties about those calls (C16-C22, C31, C32, ...) are about their run-time branches; C59_copies_cause and C59_copies_cause_memory show that the element copies are the only obstacle: were they written with operator[], every one of these calls would compile and be its run-time path, and the loads and stores would set and read exactly the selected elements."
  },
  {
   "property": "C60",
   "status": "partial",
   "theorems": [
    "Dpm.X86.C60_llrint_double_partial",
    "Dpm.X86.C60_llrint_float_partial",
    "Dpm.X86.C60_float_out_of_bounds_violated",
    "Dpm.X86.C60_float_mismatch_violated",
    "Dpm.X86.C60_lrint_violated",
    "Dpm.X86.C60_lround_partial",
    "Dpm.X86.C60_lround_tie_violated",
    "Dpm.X86.C60_irint_float",
    "Dpm.X86.C60_iround_float_partial",
    "Dpm.X86.C60_iround_tie_violated",
    "Dpm.X86.C60_iround_avx_violated",
    "Dpm.X86.C60_irint_double_partial",
    "Dpm.X86.C60_iround_double_partial",
    "Dpm.X86.C60_int_double_violated",
    "Dpm.X86.C60_irint64_double_partial",
    "Dpm.X86.C60_iround64_double_partial",
    "Dpm.X86.C60_iround64_double_violated",
    "Dpm.X86.C60_int64_float_violated",
    "Dpm.X86.C60_itrunc_violated"
   ],
   "note": "Right for every element in range: llrint and irint<int64> of doubles (within +-2^51, with AVX-512DQ+VL +-2^63), llrint of floats when more than half of the last native vector is used (int32 range), irint<int> of floats, irint<int> of doubles up to one native vector; away from ties also lround/llround of doubles, iround<int> of floats and (one vector) doubles, iround<int64> of doubles on 32-byte vectors. Violated, as theorems for every argument: lrint and itrunc never compile; lround/llround round ties to even and iround toward zero; llrint/lround/llround of floats write behind the result or do not compile otherwise; irint/iround<int> of more doubles than one vector take the wrong elements and leave zeros; irint/iround<int64> of floats never work."
  },
  {
   "property": "C61",
   "status": "partial",
   "theorems": [
    "Dpm.X86.C61_read",
    "Dpm.X86.C61_mask_read",
    "Dpm.X86.C61_read_violated",
    "Dpm.X86.C61_construct",
    "Dpm.X86.C61_copy_to",
    "Dpm.X86.C61_to_packed",
    "Dpm.X86.C61_functions_violated",
    "Dpm.X86.C61_mask_reductions",
    "Dpm.X86.C61_mask_reductions_violated",
    "Dpm.X86.C61_min_index",
    "Dpm.X86.C61_max_index_partial",
    "Dpm.X86.C61_max_index_violated",
    "Dpm.X86.C61_reduce_violated",
    "Dpm.X86.C61_reduce_small"
   ],
   "note": "Reading an element, building vectors and masks, copy_to, the mask reductions and reduce_min_index/reduce_max_index in constant expressions, for vectors that fit in one native vector: equal to the run-time specification (C61_to_packed: also the conversion to the generic backend; C61_reduce_small: reduce of up to three elements), except reduce_max_index when only element 0 is true (violated) and reduce (violated from four elements on). Violated for longer vectors (not constant expressions), and every function that returns a vector is never a constant expression. Model: GCC (native_bit_cast constexpr); shuffle and math-specific branches are covered by the arbitrary inner function f of C61_functions_violated."
  },
  {
   "property": "C62",
   "status": "partial",
   "theorems": [
    "Dpm.X86.C62_convert_partial",
    "Dpm.X86.C62_convert_undefined",
    "Dpm.X86.C62_convert_violated",
    "Dpm.X86.C62_convert_roundtrip_partial",
    "Dpm.X86.C62_cast_partial",
    "Dpm.X86.C62_cast_same",
    "Dpm.X86.C62_cast_int_to_float_partial",
    "Dpm.X86.C62_cast_float_to_int_rounds",
    "Dpm.X86.C62_cast_violated",
    "Dpm.X86.C62_cast_disagrees"
   ],
   "note": "static_cast is specified in Spec/Cast.lean (integer wrap-around, nearest-even, truncation, undefined outside the range). Right for every pair of types and every value with a defined cast: conversions from generic vectors (any size), conversions and casts involving x86 vectors whose registers are filled, casts between element types of different sizes; integer round trips; undefined casts are undefined behaviour. Violated, as theorems: conversions from, and casts to or between same-sized elements of, x86 vectors whose size is not a multiple of the native extent are out of bounds; simd_cast from float/double to integers of the same size rounds instead of truncating and so disagrees with the conversion operator (C62_cast_disagrees); same-size integer-to-float casts have the defects of C29."
  },
  {
   "property": "C63",
   "status": "partial",
   "theorems": [
    "Dpm.X86.C63_operators",
    "Dpm.X86.C63_operators_scalar",
    "Dpm.X86.C63_expressions_partial",
    "Dpm.X86.C63_generic_partial",
    "Dpm.X86.C63_agree_partial",
    "Dpm.X86.C63_minmax_violated"
   ],
   "note": "Operators: + - * / are IEEE (Spec/FloatArith) for all values, vector and scalar operand, unary minus flips the sign bit (C63_operators, C63_operators_scalar). Expressions of any shape: equal to the scalar expression element by element on x86 and generic vectors and hence equal on both backends, when operands of min/max/clamp are comparable (no NaN, no opposite zeros, bounds in order), and without && on x86 masks (C17) and ~ on generic masks (C10), which are violated elsewhere. Violated: with a NaN first operand or 0 against -0 the x86 min/max return the second operand, the generic ones the first (C63_minmax_violated). NaN results are specified as NaN; with two NaN operands the payload is the hardware model's."
  },
  {
   "property": "C64",
   "status": "partial",
   "theorems": [
    "Dpm.X86.C64_generic_rcp",
    "Dpm.X86.C64_generic_rsqrt",
    "Dpm.X86.C64_rcp_double",
    "Dpm.X86.C64_rcp_float_partial",
    "Dpm.X86.C64_rsqrt_float_partial",
    "Dpm.X86.C64_rsqrt_double",
    "Dpm.X86.C64_rcp_subnormal_violated",
    "Dpm.X86.C64_rcp_huge_violated",
    "Dpm.X86.C64_rsqrt_subnormal_violated"
   ],
   "note": "double rcp is IEEE division, double rsqrt within 2u+4u^2 for every positive finite element, generic rcp/rsqrt likewise for float and double; float rcp/rsqrt on x86 within 1.5*2^-12 for normal arguments with normal results, on every processor that keeps the documented promises of RCPPS/RSQRTPS (Spec/Approx; an instance is exhibited). Violated on every such processor: rcp/rsqrt of subnormal floats is infinity and rcp of floats from 2^127 on is zero although the results are representable and the generic vectors return them (C64_*_violated)."
  },
  {
   "property": "C65",
   "status": "partial",
   "theorems": [
    "Dpm.X86.C65_vectors_partial",
    "Dpm.X86.C65_vectors_violated",
    "Dpm.X86.C65_masks_partial",
    "Dpm.X86.C65_float_masks_violated",
    "Dpm.X86.C65_wide_masks_violated"
   ],
   "note": "The MSVC branch of native_bit_cast is modelled with the four constructors that use it. Right for integer vectors and masks of every size and for floating-point vectors in 16-byte registers (C65_vectors_partial, C65_masks_partial). Violated, for every value and generator: floating-point vectors in 32-byte registers lose the upper half of every register (C65_vectors_violated, C65_wide_masks_violated), and floating-point masks hold 1.0 for true, so that ! of a true element is true (C65_float_masks_violated)."
  },
  {
   "property": "C66",
   "status": "proved",
   "theorems": [
    "Dpm.X86.C66_copies",
    "Dpm.X86.C66_objects",
    "Dpm.X86.C66_buffers",
    "Dpm.X86.C66_unaligned"
   ],
   "note": "Copies with byte addresses, where a misaligned access is undefined, are equal to the address-free copies (C14, C15) for every address that meets the promise of the flag; objects, arrays of vectors and conversion buffers keep those promises. The promise about overaligned<n> includes that n is a power of two (an example shows n = 24 faults)."
  },
  {
   "property": "C67",
   "status": "partial",
   "theorems": [
    "Dpm.X86.C67_sincos",
    "Dpm.X86.C67_sincos_same",
    "Dpm.X86.C67_modf",
    "Dpm.X86.C67_generic_partial",
    "Dpm.X86.C67_generic_violated"
   ],
   "note": "x86 sincos and modf proved for every coincidence of argument and outputs (through the traversal with any number of operands, C50_nary), generic modf has no such problem by construction (outputs are written after the loop, C58_frexp_modf); violated by the generic sincos (compilers without the builtins): with the sine stored over the argument the cosine is that of the sine (C67_generic_violated)."
  },
  {
   "property": "C68",
   "status": "partial",
   "theorems": [
    "Dpm.X86.C68_nan_partial",
    "Dpm.X86.C68_rounding_violated",
    "Dpm.X86.C68_nan_operands",
    "Dpm.X86.C68_table"
   ],
   "note": "One theorem over a catalogue of 18 functions of one vector (C68_nan_partial), nextafter, fma, hypot (C68_nan_operands), and the README's table (C68_table). Violated: ceil, floor, round and float trunc before SSE4.1, and round of float in 32-byte vectors, turn NaN into a number (C68_rounding_violated). modf, frexp, scalbn, rcp, rsqrt: C34-C36, C64. Functions without x86 kernels (the C library's results, C58) and SVML (C81) are not in the catalogue."
  },
  {
   "property": "C69",
   "status": "proved",
   "theorems": [
    "Dpm.Util.C69_deduce_size",
    "Dpm.Util.C69_deduce_hint",
    "Dpm.Util.C69_rebind",
    "Dpm.Util.C69_rebind_inverse",
    "Dpm.Util.C69_resize",
    "Dpm.Util.C69_x86_kept",
    "Dpm.Util.C69_native"
   ],
   "note": "Partial ordering of the class template specialisations is modelled by hand (Model/AbiTypes, see its comments)."
  },
  {
   "property": "C70",
   "status": "partial",
   "theorems": [
    "Dpm.Util.C70_common_partial",
    "Dpm.Util.C70_order",
    "Dpm.Util.C70_same",
    "Dpm.Util.C70_scalar_violated",
    "Dpm.Util.C70_packed_violated"
   ],
   "note": "Proved when not all tags are scalar and none is a packed_buffer, for any number and order of tags (C70_common_partial, C70_order, C70_same). Violated: common_t of scalar tags is ambiguous and does not exist (C70_scalar_violated); a packed_buffer, whose alignment is encoded as SIZE_MAX, wins and drops the alignment of all other tags (C70_packed_violated)."
  },
  {
   "property": "C71",
   "status": "partial",
   "theorems": [
    "Dpm.Config.C71_parameters",
    "Dpm.Config.C71_gnu",
    "Dpm.Config.C71_msvc",
    "Dpm.Config.C71_clang_cl_partial",
    "Dpm.Config.C71_clang_cl_violated",
    "Dpm.Config.C71_other",
    "Dpm.Config.C71_options",
    "Dpm.Config.C71_shuffle",
    "Dpm.Config.C71_shuffle_msvc_violated",
    "Dpm.Config.C71_avx512vl_violated",
    "Dpm.Config.C71_cmake_partial",
    "Dpm.Config.C71_svml_violated",
    "Dpm.Config.C71_consumer_violated"
   ],
   "note": "A line-by-line preprocessor runs arch.hpp and config.hpp on every macro environment GCC/Clang, MSVC or clang-cl can produce (Spec/Compilers.lean). Proved: GCC/Clang with any closed set of extensions and MSVC with every target and /arch announce exactly the enabled extensions, and the combinations satisfy the assumption ISA.Wf of all other theorems (C71_gnu, C71_msvc); the options (C71_options, C71_cmake_partial). Violated: clang-cl with AVX2 but not FMA (C71_clang_cl_violated), DPM_NOT_SSSE3 ignores MSVC (C71_shuffle_msvc_violated), kernels guarded by the misspelled DPM_HAS_AVX512LV are dead (C71_avx512vl_violated), the CMake option DPM_USE_SVML defines another macro (C71_svml_violated), no option reaches programs that link the library (C71_consumer_violated)."
  },
  {
   "property": "C72",
   "status": "partial",
   "theorems": [
    "Dpm.X86.C72_programs_partial",
    "Dpm.X86.C72_compl_violated",
    "Dpm.X86.C72_violated",
    "Dpm.X86.C72_generic_partial",
    "Dpm.X86.C72_generic_reduce_partial",
    "Dpm.X86.C72_x86_partial"
   ],
   "note": "Generic vectors of at most three elements also with reductions (C72_generic_reduce_partial); for longer ones reduce is wrong (C07). Also both backends refine the specification machine for sequences of elements (Spec/Machine), reductions included on x86 (C72_generic_partial, C72_x86_partial). Proved by a simulation between the two executions (any program, any number of steps) for programs whose operators exist on the x86 backend and are not the ones known to be wrong there; any_of/none_of where the AVX tail defect does not apply, all_of/some_of/reduce_count also without the AVX2 byte-mask defect, reduce_max_index when the registers are filled, reduce_min_index and element-aligned loads/stores everywhere. Violated in full: m = ~mask(true); s = m[0] gives 0 on x86 and 1 on the generic backend, for every configuration (C72_compl_violated). Programs are run-time code; which calls compile at all on x86 is C59."
  },
  {
   "property": "C73",
   "status": "partial",
   "theorems": [
    "Dpm.X86.C73_generic_partial",
    "Dpm.X86.C73_x86_partial"
   ],
   "note": "The scalar meaning is Spec/ScalarProgram, written without either backend. Generic: exact, including when the result is undefined (C73_generic_partial), without ~m (C03) and lsr<0> (C10), which are wrong. x86: for expressions whose operators exist there and are not defective (C73_x86_partial)."
  },
  {
   "property": "C74",
   "status": "partial",
   "theorems": [
    "Dpm.X86.C74_generic_partial",
    "Dpm.X86.C74_x86_partial"
   ],
   "note": "Any number of source arrays, elements, any vector size; generic and x86, for the same operators as C73. The distance condition is needed (exRec_scalar, exRec_vector show the classical counterexample)."
  },
  {
   "property": "C75",
   "status": "partial",
   "theorems": [
    "Dpm.X86.C75_find_generic_partial",
    "Dpm.X86.C75_count_generic_partial",
    "Dpm.X86.C75_find_x86_partial",
    "Dpm.X86.C75_count_x86_partial",
    "Dpm.X86.C75_count_violated"
   ],
   "note": "Search and count on both backends for the same operators as C73; on x86 where any_of (C18) and reduce_count (C19) are right. Violated: with AVX2, counting 32 of 32 bytes gives 64 (C75_count_violated)."
  },
  {
   "property": "C76",
   "status": "partial",
   "theorems": [
    "Dpm.X86.C76_generic_partial",
    "Dpm.X86.C76_x86_partial"
   ],
   "note": "The specification machine with IEEE meaning (Spec/Machine, Spec/FloatExpr); generic backend without ~m (C03) and reduce (C07), with a correctly rounded C sqrt; x86 without m && m (C16), reduce and the defective questions (C18, C19). Minimum, maximum and clamp only of comparable operands (C63_minmax_violated)."
  },
  {
   "property": "C77",
   "status": "partial",
   "theorems": [
    "Dpm.X86.C77_map_generic_partial",
    "Dpm.X86.C77_find_generic_partial",
    "Dpm.X86.C77_count_generic_partial",
    "Dpm.X86.C77_map_x86_partial",
    "Dpm.X86.C77_find_x86_partial",
    "Dpm.X86.C77_count_x86_partial"
   ],
   "note": "Same conditions as C76."
  },
  {
   "property": "C78",
   "status": "partial",
   "theorems": [
    "Dpm.X86.C78_generic_partial",
    "Dpm.X86.C78_x86_partial",
    "Dpm.X86.C78_x86_elements_partial",
    "Dpm.X86.C78_sum_x86_partial",
    "Dpm.X86.C78_minmax_x86_partial",
    "Dpm.X86.C78_generic_violated"
   ],
   "note": "x86 where reduce exists and is right (C27), or with the client combining the elements itself (C78_x86_elements_partial); generic with the client combining the elements. A signed 32- or 64-bit sum must not overflow in any order (sum of absolute values below 2^(w-1)). Violated: the generic reduce (C78_generic_violated, from C07)."
  },
  {
   "property": "C79",
   "status": "partial",
   "theorems": [
    "Dpm.X86.C79_reduce_error",
    "Dpm.X86.C79_generic_violated"
   ],
   "note": "x86 backend, every configuration (C79_reduce_error). Violated by the generic backend, whose reduce drops elements (C79_generic_violated, from C07)."
  },
  {
   "property": "C80",
   "status": "partial",
   "theorems": [
    "Dpm.X86.C80_sum_generic_partial",
    "Dpm.X86.C80_sum_x86_partial",
    "Dpm.X86.C80_sum_x86_elements_partial",
    "Dpm.X86.C80_dot_x86",
    "Dpm.X86.C80_dot_generic_partial"
   ],
   "note": "x86 with reduce or element access, expressions without m && m (C16); dot products without restriction (C80_dot_x86). Generic backend when the client adds up the accumulator itself (reduce is defective, C07/C79_generic_violated), expressions without ~m (C03), with a correctly rounded C sqrt."
  },
  {
   "property": "C81",
   "status": "partial",
   "theorems": [
    "Dpm.Svml.C81_compiles_violated",
    "Dpm.Svml.C81_reasons",
    "Dpm.Svml.C81_unary_partial",
    "Dpm.Svml.C81_binary_partial",
    "Dpm.Svml.C81_exp2_violated",
    "Dpm.Svml.C81_hyperbolic_violated",
    "Dpm.Svml.C81_erf_violated",
    "Dpm.Svml.C81_nearest_partial"
   ],
   "note": "Violated: nothing compiles with DPM_USE_SVML (C81_compiles_violated; the reasons, exactly: C81_reasons). About the single definitions: 14 unary functions, pow, atan2 and (before SSE4.1) ceil/floor/trunc/round are Intel's functions of every element (C81_unary_partial, C81_binary_partial, C81_nearest_partial); exp2 is exp (C81_exp2_violated); the hyperbolic and error functions never reach Intel's library (C81_hyperbolic_violated) and erf would not compile for floats in 16-byte registers (C81_erf_violated)."
  },
  {
   "property": "C82",
   "status": "partial",
   "theorems": [
    "Dpm.X86.C82_expr_kept",
    "Dpm.X86.C82_expr_partial",
    "Dpm.X86.C82_expr_generated",
    "Dpm.X86.C82_expr_generic",
    "Dpm.X86.C82_loop_kept",
    "Dpm.X86.C82_loop_partial",
    "Dpm.X86.C82_loop_generic",
    "Dpm.X86.C82_loop_violated",
    "Dpm.X86.C82_results",
    "Dpm.X86.C82_kept",
    "Dpm.X86.C82_arith_partial",
    "Dpm.X86.C82_padding_violated",
    "Dpm.X86.C82_generated",
    "Dpm.X86.C82_compare_partial",
    "Dpm.X86.C82_order_violated",
    "Dpm.X86.C82_quiet_violated",
    "Dpm.X86.C82_quiet_partial",
    "Dpm.X86.C82_classify_violated",
    "Dpm.X86.C82_classify_partial",
    "Dpm.X86.C82_rint_kept",
    "Dpm.X86.C82_rint_partial",
    "Dpm.X86.C82_rint_violated",
    "Dpm.X86.C82_nearbyint",
    "Dpm.X86.C82_generic",
    "Dpm.X86.C82_math_results",
    "Dpm.X86.C82_minmax_generated",
    "Dpm.X86.C82_minmax_partial",
    "Dpm.X86.C82_clamp",
    "Dpm.X86.C82_sqrt_generated",
    "Dpm.X86.C82_sqrt_partial",
    "Dpm.X86.C82_broadcast_violated",
    "Dpm.X86.C82_sqrt_violated"
   ],
   "note": "Every lane operation a call executes is traced (C82_results ties the traces to the result models); exceptions are those IEEE 754 demands of the executed operations. Proved: nothing an element signals is lost (C82_kept, C82_rint_kept); exact for generic vectors (C82_generic), for operators on vectors without padding (C82_arith_partial, C82_compare_partial), for + - * of vectors built by generators (C82_generated), for the quiet comparisons and classification with 32-byte vectors (C82_quiet_partial, C82_classify_partial), rint with SSE4.1 (C82_rint_partial), nearbyint (C82_nearbyint). Violated: division with padding computes 0/0 there (C82_padding_violated); < <= > >= of 32-byte vectors never signal (C82_order_violated); isgreater etc., isnormal of 16-byte vectors and isfinite without AVX signal invalid for NaN (C82_quiet_violated, C82_classify_violated); rint before SSE4.1 signals inexact for some integers and invalid for NaN (C82_rint_violated). min, max and sqrt of generated vectors of every size signal exactly what the scalar functions signal for the elements (C82_minmax_generated, C82_sqrt_generated; any vector without padding: C82_minmax_partial, C82_sqrt_partial), clamp exactly invalid for NaN operands (C82_clamp). Expressions of any shape of + - * /, sqrt, negation and constants (C82_expr_*): the elements are those of the scalar expression and nothing it signals is lost for any vectors (C82_expr_kept); exactly what it signals for generic vectors (C82_expr_generic), for vectors without padding (C82_expr_partial), and for generated vectors of every size if there is no division and no constant (C82_expr_generated). Loops over arrays of any length with such an expression and a scalar tail (C82_loop_*): right values and nothing lost (C82_loop_kept), exactly what the scalar loop signals for generic vectors (C82_loop_generic) and vectors without padding (C82_loop_partial); violated with padding, because the padding of a loaded vector is uninitialised and takes part (C82_loop_violated). Violated in expressions over the padding: broadcast / v signals division by zero (C82_broadcast_violated) and sqrt(v - x) signals invalid (C82_sqrt_violated). Flags of the other mathematical functions are not modelled (the README promises nothing about them)."
  },
  {
   "property": "C83",
   "status": "partial",
   "theorems": [
    "Dpm.X86.C83_nearest",
    "Dpm.X86.C83_operators",
    "Dpm.X86.C83_sse41",
    "Dpm.X86.C83_round_partial",
    "Dpm.X86.C83_round_tie_violated",
    "Dpm.X86.C83_round_big_violated",
    "Dpm.X86.C83_round_away_partial",
    "Dpm.X86.C83_round_sse2_partial",
    "Dpm.X86.C83_trunc",
    "Dpm.X86.C83_ceil_floor_partial",
    "Dpm.X86.C83_floor_zero_violated",
    "Dpm.X86.C83_rint_partial",
    "Dpm.X86.C83_rint_violated",
    "Dpm.X86.C83_rint_zero_violated",
    "Dpm.X86.C83_int_nearest",
    "Dpm.X86.C83_llrint_double_partial",
    "Dpm.X86.C83_llrint_float_partial",
    "Dpm.X86.C83_llrint_zero_violated",
    "Dpm.X86.C83_llround_violated",
    "Dpm.X86.C83_irint_float",
    "Dpm.X86.C83_irint_double_partial",
    "Dpm.X86.C83_iround_nearest",
    "Dpm.X86.C83_iround_float_partial",
    "Dpm.X86.C83_iround_double_partial",
    "Dpm.X86.C83_iround64_double_partial"
   ],
   "note": "The model has the direction as a parameter and agrees with the earlier one for nearest (C83_nearest). Operators are correctly rounded in every direction (C83_operators); trunc never depends on it (C83_trunc); with SSE4.1 rint and nearbyint are right and ceil, floor independent (C83_sse41); before SSE4.1 ceil and the value of floor are independent below 2^31 (C83_ceil_floor_partial), rint is right for elements that are not negative and towards zero (C83_rint_partial). Violated: rint of negative elements, signs of zero results rounding down, round with SSE4.1 (C83_*_violated). round in the other ranges: C83_round_away_partial (SSE4.1, directions away from zero), C83_round_sse2_partial. llrint and irint are right in the stated ranges (C83_llrint_*_partial, C83_irint_*), except llrint of doubles towards zero before AVX-512DQ (rounds down); lround and llround follow the direction (violated). ext::iround gives the same elements in every direction wherever C60 says it works (C83_iround_*_partial)."
  },
  {
   "property": "C84",
   "status": "partial",
   "theorems": [
    "Dpm.X86.C84_float_sum_x86_partial",
    "Dpm.X86.C84_dot_x86",
    "Dpm.X86.C84_float_sum_generic_partial",
    "Dpm.X86.C84_accumulate_x86_partial",
    "Dpm.X86.C84_accumulate_x86_elements_partial",
    "Dpm.X86.C84_sum_x86_partial",
    "Dpm.X86.C84_accumulate_generic_partial",
    "Dpm.X86.C84_map_x86_partial",
    "Dpm.X86.C84_find_x86_partial",
    "Dpm.X86.C84_count_x86_partial",
    "Dpm.X86.C84_map_x86_float_partial",
    "Dpm.X86.C84_find_x86_float_partial",
    "Dpm.X86.C84_count_x86_float_partial",
    "Dpm.X86.C84_map_generic_partial",
    "Dpm.X86.C84_find_generic_partial",
    "Dpm.X86.C84_count_generic_partial",
    "Dpm.X86.C84_map_generic_float_partial",
    "Dpm.X86.C84_find_generic_float_partial",
    "Dpm.X86.C84_count_generic_float_partial",
    "Dpm.X86.C84_programs_x86",
    "Dpm.X86.C84_programs_generic",
    "Dpm.X86.C84_aligned_violated"
   ],
   "note": "Any programs that finish alone and keep to their elements: C84_programs_x86, C84_programs_generic (proved without restriction). Divided loops: map, search and count, integers and floating point, both backends, for the same operators as C74, C75, C77; accumulation of integers under the conditions of C78 (C84_accumulate_*, C84_sum_x86_partial); floating-point sums within the bound of C79/C80 (C84_float_sum_*; dot products of arrays with any contents: C84_dot_x86). Copies with element_aligned, one access at a time; statements of the client on its own elements are one step. Accesses are sequentially consistent; the absence of races is part of the theorem, so this is no loss. Violated with vector_aligned when size() is not a multiple of the native extent: copy_to overwrites the neighbour's elements (C84_aligned_violated)."
  },
  {
   "property": "C85",
   "status": "partial",
   "theorems": [
    "Dpm.X86.Sse.C85_canonical",
    "Dpm.X86.Sse.C85_compare_violated",
    "Dpm.X86.Sse.C85_lor_violated",
    "Dpm.X86.Sse.C85_blend_violated",
    "Dpm.X86.Sse.C85_quantifiers",
    "Dpm.X86.Sse.C85_self_violated",
    "Dpm.X86.Sse.C85_blend_element_violated"
   ],
   "note": "Right for every mask a program can build: the quantifiers (C85_quantifiers) and canonical elements (C85_canonical). Violated for every mask: == is always false, != always true (C85_compare_violated, C85_self_violated), || always true (C85_lor_violated), blend always its second argument (C85_blend_violated, C85_blend_element_violated). The operations with the same text as at the SSE2 level are those of C16-C20."
  },
  {
   "property": "C86",
   "status": "partial",
   "theorems": [
    "Dpm.Construct.C86_vector_generic",
    "Dpm.Construct.C86_mask_generic_partial",
    "Dpm.Construct.C86_mask_generic_violated",
    "Dpm.Construct.C86_mask_generic_copy",
    "Dpm.Construct.C86_vector_x86_partial",
    "Dpm.Construct.C86_mask_x86_partial",
    "Dpm.Construct.C86_mask_x86_violated",
    "Dpm.Construct.C86_constant_violated",
    "Dpm.Construct.C86_agree"
   ],
   "note": "Proved for every callable on generic vectors (C86_vector_generic), on x86 vectors and masks for every callable that does not use its argument as a constant (those compile for generic vectors only: C86_constant_violated), on masks for every callable but functions and [] lambdas without auto. Violated for these: C++ converts them to bool, so that the concept of the generator constructor rejects them and the mask is filled with true, whatever they return (C86_mask_generic_violated, C86_mask_x86_violated; m = f with such a lambda does not compile, C86_mask_generic_copy). Where both backends compile they agree (C86_agree)."
  },
  {
   "property": "C87",
   "status": "partial",
   "theorems": [
    "Dpm.Operand.C87_compiles_iff",
    "Dpm.Operand.C87_left_violated",
    "Dpm.Operand.C87_violated",
    "Dpm.Operand.C87_same_type_partial",
    "Dpm.Operand.C87_same_type_violated",
    "Dpm.Operand.C87_broadcast_compare_partial",
    "Dpm.Operand.C87_same_type_float_partial",
    "Dpm.Operand.C87_count_partial",
    "Dpm.Operand.C87_count_violated",
    "Dpm.Operand.C87_native_count",
    "Dpm.Operand.C87_count_type_violated"
   ],
   "note": "Template argument deduction and overload resolution over the declared operators; exactly which scalar operands compile is C87_compiles_iff (both backends). Violated: no operator accepts a scalar on the left, comparisons accept none at all, the other operators only one of exactly the element type (v + 1 compiles for int elements only; long long does not go with long) - except shifts (C87_left_violated, C87_violated). Shifts by a count of another integral type run the generic template: right for sizes that are multiples of the native extent (C87_count_partial), undefined for all others (C87_count_violated); v >> 1 and v >> 1l differ for negative long elements with SSE4.1 (C87_count_type_violated). With a scalar of the element type integer operators are right exactly where they are Supported (C87_same_type_partial, C87_same_type_violated; >> of signed 64-bit elements is the defect of C24), floating-point ones always, min and max for comparable operands (C87_same_type_float_partial). Comparisons work with the scalar written as a vector, on either side (C87_broadcast_compare_partial)."
  },
  {
   "property": "C88",
   "status": "partial",
   "theorems": [
    "Dpm.Operand.C88_holds_iff",
    "Dpm.Operand.C88_same_partial",
    "Dpm.Operand.C88_cast_partial",
    "Dpm.Operand.C88_violated",
    "Dpm.Operand.C88_undefined_violated",
    "Dpm.Operand.C88_generator_partial",
    "Dpm.Operand.C88_generator_violated"
   ],
   "note": "HoldsAll (every value of S is a value of T) is stated over all values and shown equivalent to the comparison of ranges and digits (C88_holds_iff). Proved for both backends: the value is kept for every such pair (C88_same_partial), and whenever the cast is defined the elements are static_cast (C88_cast_partial). Violated for every pair of types that the TS excludes: the construction compiles, implicitly, and changes some value or is undefined for it (C88_violated, C88_undefined_violated), because compatible_element asks for convertibility only. Generators by the type their calls return: the same (C88_generator_partial, C88_generator_violated). Element type bool and the character types besides char are not covered."
  },
  {
   "property": "C89",
   "status": "partial",
   "theorems": [
    "Dpm.X86.C89_keep_partial",
    "Dpm.X86.C89_violated"
   ],
   "note": "Proved for every pair of element types whose second holds all values of the first, any two backends; from an x86 vector the registers of both must be filled (C62). Violated for every other pair: the conversion is implicit too (explicit(!std::convertible_to<T, U>) is never true for arithmetic types), and for some vector no element keeps its value (C89_violated)."
  }
 ]
}