# Reading notes (disagreements between documented behaviour and code, with locations)

G = dpm/detail/generic/type.hpp, X = dpm/detail/x86/type.hpp, XU = dpm/detail/x86/utility.hpp, U = dpm/utility.hpp

1. G:290-297 `operator~(simd_mask)`: `result[i] = ~x[i]` promotes bool to int: ~0=-1, ~1=-2, both convert to `true`. Generic `~m` (and unary `-m`, G:~334) is ALWAYS all-true.
2. G:596-617 `reduce_impl(array)`: lower half filled with `a[i] = data[0]` rather than `data[i]`. Wrong for N>=4 (right for N<=3).
3. G:957-962 vector `operator<<=` does `a >> b`, `operator>>=` does `a << b` (swapped). Scalar forms are right (G:982-987).
4. G:626-641 `lsr_impl`: N=0 branch `(x>>N) & (1<<(digits-1))` keeps only the sign bit; also `T{-1}` for unsigned T is narrowing (ill-formed).
5. X:333-352 x86 mask `operator&&`: result starts at zero and is only and-not'ed => always all-false.
6. X:535-556 + XU:302-308 `reduce_max_index`: movemask_l shifts tail out, but index isn't compensated: off by (extent-n) when N is not a multiple of extent. Constant-evaluated branch never tests index 0.
7. X:379-402, XU:248-252 AVX2 256-bit 8/16-bit: `_mm256_movemask_epi8` int -> size_t sign-extends; all_of compares with fill_bits<32>()=0xFFFFFFFF => all_of always false; reduce_count adds 32 extra bits when top lane true.
8. X:1107-1127 `operator>>(x86, x86)` fallback computes `packed_a << packed_b`; also `if constexpr(!is_constant_evaluated() && A || B)`: is_constant_evaluated() is true in an if-constexpr condition so A is dropped (int32 goes to fallback).
9. X:1408-1442 `reduce` (sizeof T>=4): for integral T and an op that isn't plus/and/xor/or (or multiplies w/o ISA) control reaches end of non-void function => UB.
10. X:137-163, 675-686: masked copy_from/copy_to and x86 mask copy_from/copy_to index `_data[i]` (native vectors, size data_size) instead of `operator[](i)`: ill-formed when instantiated.
11. XU:216-225 `set<__m256i>(8-byte vals)` truncates to int32.
12. X:645-671 vector_aligned copy_from/copy_to touch data_size*extent elements, i.e. beyond size() when N%extent != 0.
13. X:692-698, 169-175 constexpr operator[] indexes `[i]` in the i/extent-th vector (should be i % extent).
14. X:1303+ constant-evaluated lsl/lsr/... use packed_buffer<N> with N the shift amount.
BW = dpm/detail/x86/bitwise.hpp, CMP = x86/cmp.hpp, TR = x86/transform.hpp
15. BW:213-233 (128) / 236-255 (AVX2) 64-bit `bit_ashiftr<N>` emulation (no AVX512VL): for 0<N<32 low dword = x0>>>N only; the N bits that should come from the high dword are dropped. N>=32 right (unpacklo of shuffles). asr<4>(1<<32) gives 0.
16. X:1107/1152 + BW: `>>` on signed 64-bit uses *logical* srl (bit_shiftr), generic uses C++ `>>` (arithmetic).
17. BW:69-84 SSE2 64-bit variable shifts: sll(a,b) & sll(a,bh) + shuffle_pd(sl,sh,0b10): correct (count>=64 -> 0).
18. CMP:90-99 SSE2 emulated signed 64-bit gt ((eq32 & (b-a)) | gt32, broadcast high dword): correct. CMP:73-82 64-bit eq emulation: correct.
19. CMP all_of/any_of etc. use cmp_eq<T>: for float T lane pattern 0x80000000 (-0.0) compares equal to 0 although operator[] says true; only reachable through to_native_data => canonical-mask invariant (each lane 0 or all ones).
20. TR:14-64 etc maskblend/maskzero/maskone(x,n): keep first n lanes (n in 1..extent-1), default (0 or >=extent): unchanged. maskblend n: lanes >= n from b. All tables in TR 14-313 read OK (128-bit).
21. TR:82-87 sequence_shuffle (descending, same vector) returns x[I/extent]: ok when pack size = extent.
22. TR:105-115 float reduce = op(op(v0,v1),op(v2,v3)).
23. TR:593-606 (AVX without AVX2) 256-bit 8/16-bit maskblend: `maskblend(a_hi,b_hi,n-16)` wraps for n<=16: high half left unmasked -> tail garbage visible to any_of/none_of/all_of/some_of/reduce_count.
24. TR:631-648 + U pad_sequence: shuffle with fewer indices than extent pads with last index+1,+2,... possibly past the source (OOB).
25. AVX2: no reduce<T>(__m256i) overload for 1/2-byte T (ill-formed); maskblend 8-byte 128 `return va` returns __m128d for __m128i.
26. (correct) 128/256 horizontal reduces, shuffles.
27. (correct) x86 blend.
CV = x86/cvt.hpp, CL = x86/class.hpp, FM = x86/fmanip.hpp, RD = x86/round.hpp, MB = x86/mbase.hpp
28. CV:38-47 cvt_f32_u32 uses offset 0x40'0000 = 2^22 (ulp 0.5) instead of 2^23: float->uint32 conversion yields 2*x for 0<=x<2^22.
29. CV:88-92 cvt_i64_f64_sse (SSE4.1): blend_epi16(zero, srai, 0x33) picks the low dwords; should be 0xcc. int64->double wrong on SSE4.1 128-bit (65536 -> 131072). SSE2 and AVX2 variants right.
30. CV:145-171 trunc_sse2 w/o SSE3: shuffle(3,3,1,1) broadcasts the high dword compare, so |x| in [2^-12,1) is not truncated to 0 (0.5 -> 0.5, 0.75 -> 0.5). With SSE3 (moveldup = low dword) right.
31. CV:189-193 cvtt<int64>(__m128d) on AVX512DQ/VL rounds (cvtpd) instead of truncating.
32. CL:26-31 isnormal_abs uses NLE/NLT (unordered-true): isnormal(NaN) == true.
33. CL:247-263 islessgreater = (b<=a)|(b>=a): true for equal operands.
34. CL:163-178 + FM:16 signbit returns x & -0.0: mask lanes 0x80000000 (not canonical all-ones).
35. FM:391 constant-evaluated copysign ignores `sign` (uses x).
36. FM:131-140 scalbn32(__m256d, __m128i*): exp[i+1]/exp[i], both unpackhi: wrong/OOB. FM:141-153 AVX2: in-lane unpack gives e0,e1,e4,e5. FM:155-160 scalbn64(__m256): exp[i] twice.
37. MB:119-124 integral abs fallback: logical shift by digits-1 (should be arithmetic by digits): abs(int64 -1) = -7.
38. MB:302,324 fmax/fmin call isunord with one argument (ill-formed).
39. RD:22 typo DPMDPM_HANDLE_ERRORS: mask_domain never restores; RD SSE2 ceil/floor/trunc(float) wrong outside int32 range; ceil(-0.5)=+0.
40. RD:115-124 iround: near2*0.5 truncates to 0: iround(0.5)=0. RD:433 lround calls rint (half-to-even).
41. RD:340-346 AVX float round uses bit_and instead of add: result always +-0.
42. RD:261-262 SSE2 double rint selects tmp in both branches: rint(2^53-1) = 2^53.
43. RD itrunc calls one-argument overload which doesn't exist (ill-formed). RD:222-228 iround<int64>(double) zero-extends and writes dst[1].
44. frexp.cpp:22-23 subnormal exponent offset uses numeric_limits<I>::digits (31/63) instead of mant_bits+2 (25/54): frexp exponent of subnormals off by 6 (float) / 9 (double).
45. scalbn.cpp: norm_exp+n wraps for n near INT_MAX: both has_overflow and has_underflow set; underflow applied last -> scalbn(1.0f, INT_MAX) = 0 instead of inf.
46. modf.cpp: for |x|<1 mask_zero is cleared by fract_mask so integral part is x2 = x & ~mask with mask = (…>>9)>>e, e<0 (shift count huge -> 0) => integral part = x (not 0).
47. logb.cpp impl_ilogb double: inf -> int64 max truncated to int32 = -1. double subnormals hit bug 29 on SSE4.1.
48. cpuid.cpp: when OSXSAVE clear, avx/avx2/fma/avx512 flags are not masked; f16c never masked. cpuid leaf 7 executed with unspecified ECX (GNU asm).
49. nextafter.cpp: correct.
50. exp.hpp:78-84 log_excepts: log(0)=log2(0)=log10(0)=+inf (except_divzero with Sign=+1); C and the generic path give -inf. log1p.cpp log1p(-1)=+inf likewise.
51. exp.hpp:90-129 log_normalize: signed compare (ARM original is unsigned): subnormal x never normalised => log/log2 reduction x = 2^k z broken for subnormals.
52. log10.cpp double: is_subnorm compares top16 (16-bit) against 0x10<<48: always true => every x multiplied by 2^54.
53. generic/type.hpp:1198-1221 generic `minmax` returns pair of dangling references: undefined behaviour for every N >= 1.
54. generic/type.hpp:727/730 `++`/`--` are written `x + 1`, which only deduces for T = int.
55. generic/type.hpp:108-121 copy_cast with vector_aligned overruns an N-element buffer when N % extent != 0.
56. x86/transform.hpp:631-648 shuffle<1,2,3> on a 4-lane vector pads with index 4: reads a native vector outside the source.
57. x86/abi.hpp:65-85 concepts pass swapped arguments (unused).
58. No horizontal reduce<T>(__m256i) for AVX without AVX2.
59. reduce_min/max_index on an all-false x86 mask reach DPM_UNREACHABLE, generic returns size().
60. type_fwd.hpp MSVC native_bit_cast(__m256/__m256d) copies only 4/2 elements.
61. utility.hpp:136-139 test_bit/mask_bit on a 64-bit T: `1 << 31` sign-extends.
62. generic/abi.hpp common_impl<tag_sequence<>, scalar> specialisations are ambiguous (unused).
63. x86: `DPM_HAS_AVX512LV` (misspelled) is tested by muldiv.hpp, minmax.hpp, mbase.hpp, type.hpp but never defined.
64. cmp.hpp uses `_mm_cmpgt_epi64` (SSE4.2) under `DPM_HAS_SSE4_1`.
65. x86 integer <,<=,>,>= are missing for unsigned types and before SSE4.1; the generic template they fall to does not compile.
66. type.hpp:927/949/1087..: `if constexpr (!std::is_constant_evaluated() && ...)` is constant-evaluated, so the first disjunct is never taken.
67. type.hpp:1125 fallback of vector `>>` computes `packed_a << packed_b`.
68. Native 64-bit `>>` is logical also for signed types.
69. mbase.hpp:126-131 fallback `abs` uses a logical shift by digits-1: abs(-1) = -7 for int64.
70. mbase.hpp abs on unsigned types uses `_mm_abs_epi*`: abs(0xffffffffu) = 1.
71. Fallbacks through packed_buffer/std::array with vector_aligned overrun arrays of `N` elements when N is not a multiple of the native extent.
72. uint16 fallback multiplication promotes to int: UB for 0xffff*0xffff.
73. bitwise.hpp:213-255 64-bit asr emulation loses the bits crossing from the high to the low dword for counts < 32.
74. X:1406-1440: `reduce` of 4/8-byte integers with an operation other than plus/multiplies/bit_*: no return statement on the integral path (undefined). `reduce_min/max` of 8-byte integers (and 4-byte before SSE4.1) go through it.
75. X:1423: `if (integral_of_size<T, 4>)` is not `if constexpr`: reduce_mul<int64> is instantiated and `mul<int64>` has no overload (ill-formed from SSE4.1 on); before SSE4.1 `reduce(x, multiplies)` flows off the end.
76. X:1370-1403 with TR:413-434: with AVX2 there is no horizontal reduction for 1/2-byte integers in 32-byte vectors (ill-formed); without SSSE3 1/2-byte reductions use the generic `reduce_impl` (drops elements, reads past the end with padding).
77. X:1374/1376: the identity of float `reduce_min`/`reduce_max` is `max()`/`lowest()`, not the infinities: with padding, `reduce_min` of all `+inf` is `max()`.
78. mbase.hpp:407-440: the constant-evaluated branches of `lerp` call `fmax(a, b, f)`.
79. generic/math.hpp:203: the generic scalar overload of `fmin` subscripts the scalar (`b[i]`): ill-formed when instantiated.
80. type.hpp:659-671 with cvt.hpp: `copy_to` of a floating-point vector to an integer buffer through the aligned (native) path rounds to nearest even (`_mm_cvtps_epi32`, magic-number additions), while the element path `static_cast`s (truncates): 1.5f becomes 2 or 1 depending on the alignment flag.
81. cvt.hpp:37-42 cvt_u32_f32 adds two separately rounded halves: double rounding, e.g. 2^25+3 (33554435) converts to 33554432 instead of 33554436.
82. modf for float without AVX2 goes through bitwise.hpp:58-67: a scalar `>>=` whose count is negative or >= 32 for |x| < 1, |x| >= 2^32, infinities and NaNs (undefined).
83. type.hpp:599,601: the constructor from a native array/span calls `std::copy_n(native, data_size, _data)` with `_data` a `std::array`: ill-formed when instantiated.
84. scalbn.cpp:14-64: `exp + n` is computed in 32 bits for float: for n within the exponent-field range of INT_MAX it wraps and every |x| >= 1 becomes 0 instead of overflowing (double likewise before SSE4.1, where cmp_gt_l32 looks at the low dwords).
85. fmanip.hpp:128-137: without AVX2 scalbn32 of `__m256d` widens the *high* halves of exp[i] and exp[i+1]: wrong exponents, and an out-of-bounds read for the last vector.
86. fmanip.hpp:138-151: with AVX2, widening with unpacklo/unpackhi works within 128-bit lanes, so elements 2,3 use exponents 4,5 and vice versa.
87. fmanip.hpp:65-71: scalbln of `__m128` with 16-byte `long` vectors reads exp[2i+1] past the end when N % 4 is 1 or 2; :153-160 the `__m256` version uses exp[i] for both halves.
88. fmanip.hpp:356-374: scalbln(float, long) truncates the exponent to 32 bits: scalbln(x, 1L << 32) == x.
89. fmanip.hpp (modf): for 0 < |x| < 1 the integral part returned is x instead of a signed zero (the blend of the sign zero is overwritten by the blend that keeps x).
90. fmanip.hpp (modf): without AVX2 the per-lane shift of `__m128` goes through a scalar loop over whole registers, whose counts are >= 32 or negative for |x| < 1 or |x| >= 2^32 (padding lanes included): undefined.
91. logb.cpp:41-53: ilogb of an infinite double stores the low half of `numeric_limits<int64_t>::max()`, i.e. -1 instead of INT_MAX.
92. cvt.hpp (cvt_i64_f64, SSE4.1 blend mask 0x33, see 29): ilogb of subnormal doubles is one too large for 2^-1058 <= |x| < 2^-1043, and logb of every double in (0,1) is about 2^49, on SSE4.1/AVX (and 16-byte vectors with AVX2) without AVX512DQ+VL.
93. round.hpp (before SSE4.1): round(NaN) and round(+-inf) are -2^32 (both truncations give INT_MIN, converted and added); ceil/floor of NaN, infinities and |x| > 2^31 are within 1 of -2^31; trunc(float) likewise.
94. round.hpp:139-156 (before SSE4.1): round(k + 0.5) = k: the remainder is multiplied by the largest number below 2 and truncated to 0.
95. hypot.cpp:70-131 (double): when the upper words of both magnitudes are 0 (|a|, |b| < 2^-1042) the result is |a| + |b|: hypot(3u, 4u) = 7u for the smallest subnormal u.
96. hypot.cpp (double, without DPM_PROPAGATE_NAN): hypot(inf, y) is NaN for |y| >= 2^959 (the splitting subtracts infinities).
97. hypot.cpp (double, with DPM_PROPAGATE_NAN): hypot(inf, NaN) is NaN when the payload of the NaN is only in the lower word, while hypot(NaN, inf) is inf.
98. trig (tan): `tancof` is stored in the reverse of the order `polevl` evaluates; tan(0.01f) = 0.000221.
99. trig (double, SSE4.1..AVX without AVX512DQ): sin/cos/tan for |x| >= 65536 * pi/4 use the broken 64-bit conversions (see 29) and return unrelated values.
100. mbase.hpp fma/fmadd/...: without DPM_HAS_FMA they round twice; `fma(1+e, 1+e, -(1+2e))` is 0. fnmsub subtracts from +0, so a zero result has the wrong sign.
101. mbase.hpp lerp (x86): never compiles, since the constant-evaluated branch calls fmax with three arguments; its run-time expression gives lerp(2^30, 1, 1) = 0 and lerp(-max, max, 0) = NaN.
102. cvt.hpp: on AVX-512 the 16-byte truncating conversions use the rounding instruction.
103. log1p.cpp: log1p(-0) = +0 (the zero test clears the lane; the "subnormal" rule only keeps patterns with exponent field 0 and a clear sign bit); C requires -0. (C41_one)
104. log2.cpp:51 reduces with the offset 0x3fe6900900000000 of the 128-row natural-log table, but the 64 rows of `log2tab_f64` are for 0x3fe6000000000000: the reduced argument reaches 0.0427 instead of 0.0078, where the degree-6 polynomial is off by 1.8e-12. log2(2.0) = 1.0000000000000033, log2(8.0) = 3.000000000000003, log2(1 - 2^-53) > 0, on every instruction set. (C55_log2_double_violated; the bound that does hold is C55_log2_double_partial)
105. exp.hpp log_normalize: the subnormal test is never true for a positive argument, so log/log2 of the subnormal with mantissa n is the logarithm of 2^-127 (1 + n/2^23) (double: 2^-1023 (1 + n/2^52)). (C55_log_subnormal_violated)
106. log10.cpp: the double version tests the subnormal range on `x >> 48`, which is always small, so every argument is multiplied by 2^54: for x >= 2^970 the product is infinite and log10(x) is the constant 0x40723ffc4bdf1110 (about 292.0) (C55_log10_double_violated). The float version fills the exponent correction with 64-bit lanes (`25ull`), so odd lanes miss it: log10 of a float subnormal in an odd lane is 7.5 too large (C55_log10_subnormal_violated).
107. log1p.cpp: the exponent offset is 0x7d/0x3fd where the choice between the two correction terms expects 0x7f/0x3ff, so 1-(u-x) is used where x-(u-1) is needed: log1p(x) = +0 for every normal |x| below a quarter epsilon, e.g. log1p(1e-9f) (C55_log1p_violated). What remains is an absolute bound (C55_log1p_partial).
108. cvt.hpp / trig.hpp (AVX-512DQ+VL, 16-byte double vectors): the octant is obtained with the rounding conversion (see 102), so the reduced argument reaches 3 pi/8 instead of pi/4, outside the range of the polynomials: cos(0.3928) is off by 11968 half ulps of 1.0, while every other instruction set is within 4.6 (C56_wide_violated, C56_cos).
109. sincos (double, SSE4.1 to AVX without AVX512DQ+VL, also 16-byte vectors with AVX2): cos(51584.0) = -2.8e51 through the 64-bit conversion of 29 (C56_large_violated).
110. tan (see 98): for every 0 < |x| < 0.098 the result is below |x|/40 (C56_tan_small_violated).
111. sincos (float without FMA): the argument reduction loses |x| half ulps of 1.0, e.g. all digits near |x| = 2^22 just below the switch to the C library; with FMA the error stays below 10.4 half ulps (C56_sin, C56_float_fma).
112. Positive result: asin, acos and atan are within 12.5, 9 and 6.5 half units in the last place of the real functions over their whole domain (C57), on every instruction set, float and double, with and without FMA; no violation found.
113. generic/math.hpp:35: `abs` returns the `std::array` instead of a vector built from it: `abs` and `fabs` never compile, for any vector. Since the x86 `abs` instantiates it in its constant-evaluated branch, `abs`/`fabs` do not compile for x86 vectors either. (C58_illformed_violated, C59_abs_violated)
114. generic/math.hpp:203: `fmin(vector, scalar)` indexes the scalar (`b[i]`) and does not compile; generic/math.hpp:919: `lrint` asks a vector for `data()`. (C58_illformed_violated)
115. generic/math.hpp:903-911: `rint` collects its results in a `std::array<long>`: rint(-0.25) = +0, and rint of an infinity, NaN or |x| >= 2^63 is undefined. (C58_rint_violated)
116. generic/math.hpp:51-100: `remainder`, `fmax`, `fmin`, `fdim` of two vectors of one integer type are not promoted to double as documented; the double result is converted back, so fmax of two vectors of 2^53+1 is 2^53 and of LONG_MAX undefined. (C58_integer_fmax_violated)
117. generic/math.hpp:282-292: fmadd and friends are documented as fused but round the product. (C58_fma_violated)
118. generic/math.hpp:664-680: with the sincos builtins (GCC, Clang) the vector instead of the element is passed: sincos does not compile, for generic and for x86 vectors. (C58_sincos, C59_sincos_violated)
119. x86/type.hpp:1303 ff.: the constant-evaluated branches of lsl, lsr, asl, asr use the shift count as the number of elements and convert the result to a mask: no call compiles. (C59_shifts_violated)
120. The math functions without an x86 overload (cbrt, exp*, pow, fmod, remainder, hyperbolic, error functions, atan2) read past the end of a `std::array` for x86 vectors whose size is not a multiple of the native extent. (C58_x86_template_violated)
121. x86/round.hpp:433-434: `detail::lround`, `detail::llround` call `rint`: halfway cases go to the even neighbour (lround(2.5) = 2). (C60_lround_tie_violated)
122. x86/round.hpp:546-547 ff.: `llrint`, `lround`, `llround` of floats store two vectors of 64-bit integers per vector of floats: with N % 4 of 1 or 2 (N % 8 of 1..4 with AVX2) the second store lies behind the result. (C60_float_out_of_bounds_violated)
123. x86/round.hpp:591-613: `lrint` of an x86 vector does not compile (generic `lrint`, item 114); `itrunc<I>` neither: `detail::itrunc` has no one-argument overload. (C60_lrint_violated, C60_itrunc_violated)
124. x86/round.hpp:668, 684: `iround<I>` and `irint<I>` loop over the native vectors of the result and pass the vector of x with the same index: for `int` from more than one vector of doubles the upper half of each result vector is zero and the elements are taken from the wrong place; for 64-bit integers from floats the second store lies behind the result. (C60_int_double_violated, C60_int64_float_violated)
125. x86/round.hpp:113-143, 209-234: `iround` rounds halfway cases toward zero (the fraction times 1.9999999 is truncated), although documented as rounding away from zero. (C60_iround_tie_violated)
126. x86/round.hpp:228-233: `round<int64_t>(__m128d, __m128i *)` zero-extends the 32-bit result and writes `dst[1]`: `iround<int64_t>` of doubles is out of bounds on 16-byte vectors. (C60_iround64_double_violated)
127. x86/round.hpp:134-135, 333-334: with AVX-512 DQ and VL `__m128` values are added with `_mm_add_epi64`; round.hpp:318 calls `_mm_add_epi32` with one argument: these overloads do not compile. (C60_iround_avx_violated, model of `roundK`)
128. x86/type.hpp:137-163: since `copy_to`/`copy_from` of x86 masks do not compile (item 10), nothing that converts an x86 mask compiles, and the constant-evaluated branches (plain `if`, always instantiated) do: all mask operators, `blend`, all comparisons of x86 vectors, `!x`, the classification functions and quiet comparisons. (C59_mask_ops_violated, C59_mask_copies_violated, C59_compare_violated)
129. x86/type.hpp:1472 ff.: the constant-evaluated branches of `reduce_min`/`reduce_max` cast the vector to a *mask*: no call selecting an x86 overload compiles. (C59_reduce_minmax_violated)
130. x86/type.hpp:219, 730: the constant-evaluated branch of `shuffle` casts the shuffled M-element vector to an N-element one: only M = N compiles. (C59_shuffle_violated)
131. x86/type.hpp:537-541: `reduce_max_index` in a constant expression never looks at element 0 (returns the size). (C61_max_index_violated)
132. x86/type.hpp:659-692: in constant expressions elements beyond the first native vector cannot be read (item 13) and nothing can be written to an x86 vector (`reinterpret_cast`): every operator and math function returning an x86 vector is declared `constexpr` but is never a constant expression. (C61_read_violated, C61_functions_violated)
133. x86/type.hpp:1411: `reduce` in a constant expression uses the generic `reduce_impl` (item on `data[0]`): the second element is dropped, unlike at run time. (C61_reduce_violated)
134. x86/type.hpp:623-642: the conversion operator copies through `std::array<T, size()>` with `vector_aligned`: whenever the size of the source or of an x86 target is not a multiple of the native extent it reads or writes past the array. (C62_convert_violated)
135. generic/type.hpp:117-119: `simd_cast`/`static_simd_cast` to an x86 vector load with `vector_aligned` from an array of `size()` elements: out of bounds for such sizes, also from generic vectors. (C62_cast_violated)
136. `simd_cast<int>(simd<float>)` on x86 vectors uses the native (rounding) conversion of `copy_to`, the conversion operator truncates: the two disagree on every vector of `1.5f`. (C62_cast_float_to_int_rounds, C62_cast_disagrees)
137. x86/minmax.hpp: `min`, `max` (and `clamp`) of floating-point vectors are `minps`/`maxps`, which return the second operand if the first is NaN or the operands are zeros of opposite sign; the generic vectors use std::min/std::max, which return the first: the same program gives different results on the two backends. (C63_minmax_violated)
138. x86/pow.hpp:28-44: `rcp` and `rsqrt` of floats are the bare approximation instructions: 12 bits, subnormal arguments give infinity and reciprocals below 2^-126 give zero; documented as "calculates reciprocal", and the generic vectors divide. (C64_rcp_subnormal_violated, C64_rcp_huge_violated, C64_rsqrt_subnormal_violated)
139. x86/type_fwd.hpp:131-160 (MSVC): `native_bit_cast` to and from `__m256`/`__m256d` copies only the lower half (4 floats, 2 doubles); `simd<float>`/`simd<double>` in 32-byte registers built from a value or a generator have zeros in the upper half of each register. (C65_vectors_violated, C65_wide_masks_violated)
140. x86/type_fwd.hpp:77-80, 97-100, 138-156 (MSVC): an array of `basic_mask` is assigned element by element to floats, i.e. converted to `bool` and then to 1.0 instead of all ones: `!m` of a true element is true, and blending by such masks is wrong. (C65_float_masks_violated)
141. With DPM_USE_SVML the headers do not compile: x86/pow.hpp:85 names the namespace `ext::dpm`; in the same configuration `exp2` would call `exp` (x86/exp.hpp:233), and `sincos` would not write its second result (passed by value); x86/trig.hpp:131 hands a reference to `_mm_sincos_ps`, which wants a pointer; x86/hypbl.hpp and x86/errfn.hpp are included by nothing, and errfn.hpp:16 spells `arf`. (C81_compiles_violated, C81_reasons, C81_exp2_violated, C81_hyperbolic_violated, C81_erf_violated)
142. generic/math.hpp:692-693: `sincos(x, x, c)` (no builtins) computes the cosine of the already overwritten argument. (C67_generic_violated)
143. flags.hpp:41: `overaligned<n>` is compared by size only; for n not a power of two (24) native loads are made at addresses that need not be aligned. (by reading; Props/Align example)
144. generic/math.hpp:1214-1220: `fpclassify` on x86 vectors of double loads a native vector of ints from an array of `size()` ints, i.e. out of bounds for every default double vector (2 doubles in 16 bytes, 4 in 32); `remquo` likewise. (C31_fpclassify_violated, C31_fpclassify_double, C58_x86_remquo)
145. generic/abi.hpp:110-114: `common_t<scalar>` (and any number of `scalar`s) matches two partial specialisations, neither more specialised: ill-formed, although documented to be `scalar`. (C70_scalar_violated)
146. generic/abi.hpp:106: `packed_buffer` is encoded as alignment SIZE_MAX, so `std::max` makes the common tag of a 32-byte aligned and a packed tag a packed one. (C70_packed_violated)
147. arch.hpp:22-27: `DPM_NOT_SSSE3` is decided by `__SSSE3__` alone, which MSVC never defines: with MSVC the shuffles of 1- and 2-byte elements have no x86 overload although AVX is enabled and DPM_HAS_SSSE3 is defined. (C71_shuffle_msvc_violated)
148. arch.hpp:56-58: with clang-cl and AVX2 but not FMA (`-mavx2`), DPM_HAS_FMA is defined and FMA intrinsics are used that the compiler may not generate. (C71_clang_cl_violated)
149. CMakeLists.txt:27-30: the option DPM_USE_SVML defines DPM_PROPAGATE_NAN instead of DPM_USE_SVML. (C71_svml_violated)
150. CMakeLists.txt:10-30: options are directory-scoped definitions, not part of the target's interface: a program linking `dpm` from another directory compiles the headers without them (e.g. `ext` is not inline there). (C71_consumer_violated)
151. cpuid.cpp:184 (FreeBSD) tests the undeclared `dmsg`, cpuid.cpp:66-71 (Apple) passes a string_view to `sysctlbyname`: neither compiles. cpuid.cpp:54 `xchgq` does not assemble for 32-bit targets. (by reading)
152. cpuid.cpp:220: `cpu_info` is dynamically initialised; feature tests called from initialisers of other translation units may see it zeroed and deny every feature. (C44_static_order_violated)
153. class.hpp:185-269: `isgreater`, .. , `islessgreater`, documented to compare "without setting floating-point exceptions", use the signalling predicates (`_mm_cmplt_ps`, ..) for 16-byte vectors: FE_INVALID for every NaN. (C82_quiet_violated)
154. cmp.hpp:127-158: `<`, `<=`, `>`, `>=` of 32-byte vectors use the quiet predicates and never raise FE_INVALID, unlike 16-byte vectors and the scalar operators. (C82_order_violated)
155. type.hpp:611-621: the padding of generated vectors is zero, so dividing two such vectors raises FE_INVALID (0/0 in the padding) whatever the elements are. (C82_padding_violated)
156. class.hpp:23, 48 (`isfinite` without AVX), class.hpp:30, 55 (`isnormal`, 16 bytes): FE_INVALID for NaN. (C82_classify_violated)
157. round.hpp:183-188, 263-268: `rint` before SSE4.1 raises FE_INEXACT for 2^23+1 (2^52+1) and FE_INVALID for NaN. (C82_rint_violated)
158. round.hpp:183-188, 263-268: before SSE4.1 `rint` and `nearbyint` round |x| in the current direction and put the sign back: with FE_UPWARD negative numbers are rounded down (rint(-1.5) is -2), with FE_DOWNWARD towards zero (rint(-1.5) is -1). (C83_rint_violated)
159. The same functions with FE_DOWNWARD give -0 for 0 <= x < 1 (2^23 - 2^23 is -0). (C83_rint_zero_violated)
160. round.hpp:47-52, 81-86: `floor` before SSE4.1 with FE_DOWNWARD gives -0 for 0 <= x < 1 (0 - 0 is -0). (C83_floor_zero_violated)
161. round.hpp:149-150, 240-241, 412-413: `round` from SSE4.1 on adds 0.49999.. in the current direction: in directions towards zero halves are truncated (round(2.5) is 2 with FE_TOWARDZERO). (C83_round_tie_violated)
162. Same place, directions away from zero: from 2^23 (2^52) on the result is the next larger number, infinity for the largest finite one. (C83_round_big_violated)
163. round.hpp:433-434: `lround`, `llround` are `rint`, so they follow the rounding direction: with FE_UPWARD llround(2.25) is 3. (C83_llround_violated)
164. cvt.hpp:101-105, 306-307: `llrint` of doubles before AVX-512DQ adds 1.5 * 2^52, so with FE_TOWARDZERO negative numbers are rounded down (llrint(-2.25) is -3). (C83_llrint_zero_violated)
165. x86/type.hpp:664-670 and threads: `copy_to(p, vector_aligned)` with a size that is not a multiple of the native extent also writes the elements after the last one, a data race with a thread that owns them. (C84_aligned_violated, from C15)
166. x86/cmp.hpp:222-223, SSE without SSE2: `mask_eq` compares as floats with the second operand xor'ed with 0x3fffffff; all ones is a NaN and 0 is neither 0x3fffffff nor -2.0, so no two mask elements are equal: `m == m` is false, `m != m` true, `a || b` always true. (C85_compare_violated, C85_self_violated, C85_lor_violated)
167. Same target: `blend(m, a, b)` of vectors and masks is always `a`. (C85_blend_violated)
168. Padding lanes and exceptions in expressions: `simd(1) / v` with a size that is not a multiple of the native extent signals division by zero although no element of v is zero, and `sqrt(v - x)` signals invalid for positive x. (C82_broadcast_violated, C82_sqrt_violated)
169. x86/type.hpp:603-605, 644-657: `simd<float, avec<5>> v{p, element_aligned}` writes five of the eight lanes; the storage of the others keeps whatever it held, and `v + w` adds those lanes too: if they hold a signalling NaN, a loop over arrays of ones signals invalid that the scalar loop does not. Nothing is lost and the elements are right (C82_loop_kept). (C82_loop_violated)
170. trig.hpp:37-43, cvt.hpp:25-30: the guard of the library's own argument reduction compares |x| with 2^51, but the number converted to an integer is |x| * 4/pi. Before AVX-512DQ the conversion (adding 1.5 * 2^52) is right only below 2^51, so doubles in (2^51 * pi/4, 2^51] are reduced with a wrong octant: sin(2^51) is about 1.5 * 10^177. (C56_edge_violated)
171. trig.hpp:44-50 without FMA: the products of the reduction are exact only for small octants; sin(1293554220448323.75) is 0.1265 instead of 0.0019. (C56_far_violated) With FMA the first two steps are exact and the error stays below 4.7 half units up to 2^40 (C56_double_fma).
172. traits.hpp:31, 43 with generic/type.hpp:197-201 and x86/type.hpp:92-124: `element_generator` excludes everything that converts to the element type. For masks that is `bool`, to which functions and lambdas beginning with `[]` without `auto` parameters convert (through a function pointer): `simd_mask<float> m([](std::size_t i) { return i % 2 == 0; })` selects `simd_mask(bool)` and sets every element to true. With `[=]` or `auto` it means what it says. (C86_mask_generic_violated, C86_mask_x86_violated)
173. x86/type.hpp:120, 618: the generators of x86 vectors and masks are called with a `std::size_t`, not with the `std::integral_constant` that the concept has checked and the generic backend passes: a generator that needs its argument as a constant satisfies the concept and then fails to compile inside the constructor. (C86_constant_violated)
174. generic/type.hpp:759-937, 1000-1051, x86/type.hpp:825-1082: the operators with a scalar are templates that deduce the element type from both arguments, so the scalar must have exactly that type: `v + 1` does not compile for `float`, `short`, `unsigned` or `long` elements although `simd<float> w = 1` does; there are no operators with the scalar on the left (`1 - v`, `2.0f * v`) and no comparisons with scalars (`v == 0.0f`). (C87_compiles_iff, C87_left_violated, C87_violated)
175. generic/type.hpp:966-981: a shift by a count of another integral type than the element type selects the generic template also for x86 vectors, which reads past the end of an array when size() is not a multiple of the native extent: `v << 3` is undefined for six `std::uint64_t` under AVX2, `v << std::uint64_t{3}` is not. (C87_count_violated, C87_native_count)
176. x86/type.hpp:1152-1172 against generic/type.hpp:975: `v >> 1` and `v >> 1l` differ for negative `long` elements: -1 and 2^63 - 1 (SSE4.1; the native shift is logical, C24). (C87_count_type_violated)
177. traits.hpp:30: `compatible_element` accepts everything that converts, so `simd<float> v = 0.1`, `simd<int> v = 1l << 32`, `simd<unsigned> v = -1l` and `simd<int> v = 3e9f` (undefined) compile without a cast; the TS excludes element types that do not hold all values of the scalar type. (C88_violated, C88_undefined_violated)
178. x86/type.hpp:624, generic/type.hpp:511: `explicit(!std::convertible_to<T, U>)` is false for all arithmetic types, so every conversion between vectors of the same size is implicit: `simd<int> i = simd<double>(0.5)` compiles and is zero; the TS requires a cast unless U holds every value of T. (C89_violated)
