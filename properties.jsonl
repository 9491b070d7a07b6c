{"id": "C01", "title": "Generic vector operators are lane-wise", "statement": "For every platform-independent simd<T,Abi>, each unary/binary arithmetic and bitwise operator (vector-vector and vector-scalar), its compound-assignment form, pre/post increment/decrement and each comparison returns an object whose element i is the scalar operation applied to element i of the operands (and to nothing else), for every i < size(); post-increment/decrement return the old value.", "quantifier": "every vector width N, every element type and scalar operation, every operand pair", "why_tests_cant": "N, T and the element values are unbounded; tests sample a few widths and values", "anchors": ["dpm/detail/generic/type.hpp: operator+,-,*,/,%,&,|,^,~,==,<,... , operator++/--"]}
{"id": "C02", "title": "Vector compound shifts agree with the binary shifts", "statement": "a <<= b leaves in a exactly the elements of a << b, and a >>= b those of a >> b, for vector and for scalar shift counts.", "quantifier": "all widths, element types, values and in-range counts", "why_tests_cant": "needs all values; a test with symmetrical data or zero counts passes by accident", "anchors": ["dpm/detail/generic/type.hpp: operator<<=, operator>>="]}
{"id": "C03", "title": "Mask complement flips every lane (generic masks)", "statement": "For a generic mask m, (~m)[i], (-m)[i] and (!m)[i] all equal the negation of m[i] for every i < size().", "quantifier": "all widths, all masks", "why_tests_cant": "2^N masks for every N", "anchors": ["dpm/detail/generic/type.hpp: operator~, operator-, operator! (simd_mask)"]}
{"id": "C04", "title": "Generic mask binary operators and blend are lane-wise", "statement": "For generic masks &, |, ^, &&, ||, ==, != act independently per lane as the Boolean operation, compound forms agree with binary forms, and blend(m,a,b)[i] is a[i] when m[i] and b[i] otherwise, for masks and vectors.", "quantifier": "all widths, all masks and vectors", "why_tests_cant": "2^(3N) inputs for every N", "anchors": ["dpm/detail/generic/type.hpp: operator&,|,^,&&,||,==,!=, blend"]}
{"id": "C05", "title": "Generic mask reductions agree with the quantifiers", "statement": "all_of is true iff every element is true, any_of iff some is, none_of iff none is, some_of iff some is and some is not; reduce_count is the number of true elements; reduce_min_index/reduce_max_index return the least/greatest true index (size() if none).", "quantifier": "all widths, all masks", "why_tests_cant": "2^N masks for every N", "anchors": ["dpm/detail/generic/type.hpp: all_of, any_of, none_of, some_of, reduce_count, reduce_min_index, reduce_max_index"]}
{"id": "C06", "title": "Generic loads and stores are exact and framed", "statement": "copy_to writes exactly mem[0..size()) with the elements in order and leaves all other memory unchanged; copy_from reads exactly those; the masked forms touch only the indices whose mask element is true and leave other elements/memory as they were; copy_from after copy_to is the identity.", "quantifier": "all widths, memory contents, masks", "why_tests_cant": "all memory contents and the frame condition cannot be enumerated", "anchors": ["dpm/detail/generic/type.hpp: simd::copy_from/copy_to (masked and unmasked), simd_mask::copy_from/copy_to"]}
{"id": "C07", "title": "Generic reduce folds every lane exactly once", "statement": "For an associative and commutative operation, reduce(x, op) (and hadd/hmul/hand/hor/hxor/reduce_min/reduce_max) equals the fold of op over all elements of x.", "quantifier": "all widths N, all element values, all associative-commutative operations", "why_tests_cant": "every N and every op; small N happen to be right", "anchors": ["dpm/detail/generic/type.hpp: detail::reduce_impl, reduce, hadd, reduce_min, reduce_max"]}
{"id": "C08", "title": "Generic shuffle picks the requested lanes", "statement": "shuffle<I0,...,Ik-1>(x)[j] == x[Ij] for every j < k, whichever of the identity / broadcast / element-wise code paths is taken.", "quantifier": "all index lists within range, all widths, all values", "why_tests_cant": "index lists are unbounded in length", "anchors": ["dpm/detail/generic/type.hpp: ext::shuffle, detail::shuffle_impl, detail::is_sequential"]}
{"id": "C09", "title": "Casts convert element by element", "statement": "simd_cast/static_simd_cast/to_fixed_size/conversion operators between generic vectors produce element i = static_cast<To>(x[i]) for all i, and same-type casts are the identity.", "quantifier": "all widths, element types, values", "why_tests_cant": "all conversions and values", "anchors": ["dpm/detail/generic/type.hpp: detail::copy_cast, simd_cast, static_simd_cast"]}
{"id": "C10", "title": "Constant shifts lsl/lsr/asl/asr", "statement": "lsl<N>/asl<N> equal multiplication by 2^N modulo 2^w, lsr<N> is the logical (zero filling) right shift and asr<N> the arithmetic (sign filling) right shift of each lane, for every admissible N.", "quantifier": "all N below the type's digits, all lane values, signed and unsigned, every integer width", "why_tests_cant": "2^64 values times 63 counts", "anchors": ["dpm/detail/generic/type.hpp: ext::lsl, lsr, asl, asr, detail::lsr_impl, asr_impl"]}
{"id": "C11", "title": "min/max/minmax/clamp order laws", "statement": "min(a,b)[i] and max(a,b)[i] are the smaller/larger of a[i], b[i]; minmax returns both; for lo[i] <= hi[i] clamp(x,lo,hi)[i] lies in [lo[i],hi[i]], equals x[i] if x[i] already does, and is idempotent.", "quantifier": "all widths, all totally ordered values", "why_tests_cant": "all values", "anchors": ["dpm/detail/generic/type.hpp: min, max, minmax, clamp"]}
{"id": "C12", "title": "Backend and storage selection is unambiguous and large enough", "statement": "For every vectorizable element size, width N>=1 and alignment request exactly one implementation (generic, 128-bit or 256-bit) is selected on each ISA level, deduce_t<T,N> always denotes N elements, and an x86 vector's native storage has at least N lanes with less than one native vector of slack.", "quantifier": "all N, element sizes 1/2/4/8, all alignments, with and without AVX", "why_tests_cant": "N and alignment are unbounded template parameters", "anchors": ["dpm/detail/x86/abi.hpp: overload_default, overload_simd, x86_overload_128/256, deduce", "dpm/utility.hpp: align_data"]}
{"id": "C13", "title": "Index-sequence utilities", "statement": "reverse_sequence reverses; extract_sequence<P,N> is the N-element slice at P; repeat_sequence<N,1> expands every index to its N sub-lane indices (highest first); pad_sequence extends to length N keeping the given prefix; is_sequential<s,a> holds exactly for the arithmetic progression a, a+s, ...", "quantifier": "all index lists", "why_tests_cant": "unbounded lists, compile-time only", "anchors": ["dpm/utility.hpp: reverse_sequence, extract_sequence, repeat_sequence, pad_sequence, shuffle_elements", "dpm/detail/generic/type.hpp: is_sequential"]}
{"id": "C14", "title": "x86 vectors store and return elements faithfully", "statement": "Broadcast, generator and element_aligned load constructors of an x86 vector give x[i] = value / gen(i) / mem[i] for all i < size(); writing x[i]=v changes element i only; native set()/fill() place value k in lane k.", "quantifier": "all widths (not only multiples of the native extent), all element sizes, all values", "why_tests_cant": "all values and all N", "anchors": ["dpm/detail/x86/type.hpp: simd constructors, copy_from, operator[]", "dpm/detail/x86/utility.hpp: set, fill"]}
{"id": "C15", "title": "x86 loads/stores touch only size() elements", "statement": "copy_to/copy_from (every alignment flag) access exactly the elements mem[0..size()) and nothing outside.", "quantifier": "all widths N, element sizes, both register widths", "why_tests_cant": "depends on N modulo the native extent for every N; out-of-bounds writes need not crash a test", "anchors": ["dpm/detail/x86/type.hpp: simd::copy_to, simd::copy_from"]}
{"id": "C16", "title": "x86 mask operators are lane-wise Boolean operations", "statement": "For x86 masks ~, !, &, |, ^, &&, ||, ==, != give in every element i < size() the Boolean operation on the operands' elements i.", "quantifier": "all widths, element sizes, all canonical masks", "why_tests_cant": "2^N masks for every N and ISA", "anchors": ["dpm/detail/x86/type.hpp: simd_mask operators"]}
{"id": "C17", "title": "Masks stay canonical", "statement": "Every mask obtainable through the public API (constructors, mask operators, comparisons, classification functions, in any order and number) has each lane equal to all-zeros or all-ones, so that element access, reductions and blends agree on which lanes are true.", "quantifier": "all finite histories of mask-producing calls", "why_tests_cant": "unbounded histories", "anchors": ["dpm/detail/x86/type.hpp: simd_mask, comparisons", "dpm/detail/x86/class.hpp: signbit", "dpm/detail/alias.hpp: basic_mask"]}
{"id": "C18", "title": "x86 all_of/any_of/none_of/some_of ignore padding lanes", "statement": "all_of, any_of, none_of and some_of on an x86 mask depend only on elements 0..size()-1 and equal the corresponding quantifier, whatever the padding lanes of the last native vector contain.", "quantifier": "all widths, element sizes, ISA levels, mask contents and padding contents", "why_tests_cant": "padding contents are not controllable from tests; all N and ISA combinations", "anchors": ["dpm/detail/x86/type.hpp: all_of, any_of, none_of, some_of", "dpm/detail/x86/transform.hpp: maskzero, maskone, maskblend", "dpm/detail/x86/utility.hpp: movemask"]}
{"id": "C19", "title": "x86 reduce_count counts true elements", "statement": "reduce_count(mask) equals the number of i < size() with mask[i] true.", "quantifier": "all widths, element sizes, ISA levels, masks, padding", "why_tests_cant": "2^N masks for all N", "anchors": ["dpm/detail/x86/type.hpp: reduce_count", "dpm/detail/x86/utility.hpp: movemask"]}
{"id": "C20", "title": "x86 reduce_min_index/reduce_max_index return the extreme true index", "statement": "If some element is true, reduce_min_index returns the least and reduce_max_index the greatest index i < size() with mask[i] true.", "quantifier": "all widths, element sizes, ISA levels, masks with a true element, padding", "why_tests_cant": "depends on N modulo extent and on padding", "anchors": ["dpm/detail/x86/type.hpp: reduce_min_index, reduce_max_index", "dpm/detail/x86/utility.hpp: movemask_l"]}
{"id": "C21", "title": "x86 blend selects per lane", "statement": "blend(m,a,b)[i] = m[i] ? a[i] : b[i] for all i < size(), for vectors and masks, on every ISA level, also when true lanes of m are any non-zero pattern.", "quantifier": "all widths, element sizes, ISA levels, values", "why_tests_cant": "all values, native mask contents", "anchors": ["dpm/detail/x86/type.hpp: blend", "dpm/detail/x86/transform.hpp: blendv"]}
{"id": "C22", "title": "x86 integer comparisons are exact", "statement": "==, !=, <, <=, >, >= on x86 integer vectors give in each lane the comparison of the lane values with the signedness of T, for 8/16/32/64-bit lanes on every ISA level, including the emulated ones (unsigned, 64-bit on SSE2/SSE4.1).", "quantifier": "all lane values, all widths and signedness, all ISA levels", "why_tests_cant": "2^128 operand pairs per lane", "anchors": ["dpm/detail/x86/cmp.hpp: cmp_eq, cmp_gt, cmp_lt, ..."]}
{"id": "C23", "title": "x86 integer add/sub/mul/negate are exact modulo 2^w", "statement": "+, -, unary -, ++, --, * on x86 integer vectors compute each lane modulo 2^w on every ISA level, including emulated multiplications.", "quantifier": "all lane values, all widths, ISA levels", "why_tests_cant": "2^128 operand pairs", "anchors": ["dpm/detail/x86/addsub.hpp", "dpm/detail/x86/muldiv.hpp"]}
{"id": "C24", "title": "x86 shifts agree with the scalar shifts", "statement": "a << b, a >> b (vector and scalar counts) give in each lane the scalar C++ shift of the lane (arithmetic right shift for signed T), for all in-range counts, as the generic backend does.", "quantifier": "all lane values, counts, widths, signedness, ISA levels", "why_tests_cant": "2^64 values times counts", "anchors": ["dpm/detail/x86/type.hpp: operator<<, operator>>", "dpm/detail/x86/bitwise.hpp"]}
{"id": "C25", "title": "64-bit arithmetic right shift emulation", "statement": "asr<N> on signed 64-bit lanes equals the sign-filling shift for every 0 <= N < 63 on every ISA level.", "quantifier": "all 2^64 lane values, all N", "why_tests_cant": "2^64 values", "anchors": ["dpm/detail/x86/bitwise.hpp: bit_ashiftr"]}
{"id": "C26", "title": "x86 integer min/max/abs", "statement": "min/max on x86 integer vectors equal the lane-wise minimum/maximum with the signedness of T; abs(x) is |x| modulo 2^w, on every ISA level.", "quantifier": "all lane values, widths, signedness, ISA levels", "why_tests_cant": "all values", "anchors": ["dpm/detail/x86/minmax.hpp", "dpm/detail/x86/mbase.hpp: abs"]}
{"id": "C27", "title": "x86 reduce folds exactly the valid lanes", "statement": "For +, &, |, ^ (and min/max) on x86 vectors reduce equals the fold over elements 0..size()-1, independent of padding lanes.", "quantifier": "all widths, element sizes, ISA levels, values, padding", "why_tests_cant": "all N and padding", "anchors": ["dpm/detail/x86/type.hpp: reduce, hadd, ...", "dpm/detail/x86/transform.hpp: reduce, maskblend"]}
{"id": "C28", "title": "x86 shuffle picks the requested lanes without leaving the source", "statement": "shuffle<I0..Ik-1>(x)[j] == x[Ij] for every j < k and in-range indices, on all code paths, and no native vector outside x is read.", "quantifier": "all index lists, widths, element sizes, ISA levels, values", "why_tests_cant": "unbounded index lists", "anchors": ["dpm/detail/x86/transform.hpp: shuffle, shuffle16pairs", "dpm/detail/x86/type.hpp: ext::shuffle"]}
{"id": "C29", "title": "Integer to floating-point conversion is exact or correctly rounded", "statement": "Converting 32/64-bit integer lanes to float/double yields the IEEE value nearest to the integer (exact when representable) on every ISA level.", "quantifier": "all integer lane values", "why_tests_cant": "2^64 values", "anchors": ["dpm/detail/x86/cvt.hpp: cvt_u32_f32, cvt_i64_f64, cvt_u64_f64"]}
{"id": "C30", "title": "Floating-point to integer conversion truncates", "statement": "Converting in-range float/double lanes to integers yields the value truncated toward zero on every ISA level.", "quantifier": "all in-range lane values", "why_tests_cant": "2^64 bit patterns", "anchors": ["dpm/detail/x86/cvt.hpp: cvtt, trunc_sse2, cvt_f32_u32, cvt_f64_i64, cvt_f64_u64"]}
{"id": "C31", "title": "Floating-point classification", "statement": "isnan, isinf, isfinite, isnormal, signbit, fpclassify agree with the IEEE-754 classes for every bit pattern.", "quantifier": "all 2^32 / 2^64 bit patterns", "why_tests_cant": "2^64 patterns", "anchors": ["dpm/detail/x86/class.hpp"]}
{"id": "C32", "title": "Quiet comparisons", "statement": "isgreater, isgreaterequal, isless, islessequal, islessgreater, isunordered equal the IEEE relations: false on NaN operands except isunordered, and islessgreater(a,b) iff a<b or a>b.", "quantifier": "all pairs of bit patterns", "why_tests_cant": "2^128 pairs", "anchors": ["dpm/detail/x86/class.hpp"]}
{"id": "C33", "title": "Sign manipulation", "statement": "abs(x) clears the sign bit only, copysign(x,s) has the magnitude bits of x and the sign bit of s, unary minus flips only the sign bit; NaN payloads are kept.", "quantifier": "all bit patterns", "why_tests_cant": "2^64 patterns", "anchors": ["dpm/detail/x86/mbase.hpp: abs", "dpm/detail/x86/fmanip.hpp: copysign", "dpm/detail/x86/addsub.hpp: neg"]}
{"id": "C34", "title": "frexp decomposes exactly", "statement": "For finite non-zero x, frexp(x,&e) returns m with 1/2 <= |m| < 1 and x = m * 2^e exactly; for +-0, +-inf and NaN it returns x.", "quantifier": "all bit patterns including subnormals", "why_tests_cant": "2^64 patterns", "anchors": ["dpm/detail/x86/frexp.cpp"]}
{"id": "C35", "title": "ldexp/scalbn is correctly rounded scaling", "statement": "scalbn(x,n) equals x*2^n correctly rounded to nearest-even, with overflow to +-inf and underflow to a signed subnormal/zero, and returns x itself for zero, inf and NaN.", "quantifier": "all bit patterns, all int n", "why_tests_cant": "2^64 x 2^32 inputs", "anchors": ["dpm/detail/x86/scalbn.cpp"]}
{"id": "C36", "title": "modf splits exactly", "statement": "For finite x, modf(x,&i) gives i integral with the sign of x, |i| <= |x|, |frac| < 1 and x = i + frac.", "quantifier": "all bit patterns", "why_tests_cant": "2^64 patterns", "anchors": ["dpm/detail/x86/modf.cpp"]}
{"id": "C37", "title": "ilogb/logb return the unbiased exponent", "statement": "For finite non-zero x, ilogb(x) is floor(log2|x|) (also for subnormals); ilogb(0), ilogb(inf), ilogb(NaN) are FP_ILOGB0, INT_MAX, FP_ILOGBNAN.", "quantifier": "all bit patterns", "why_tests_cant": "2^64 patterns", "anchors": ["dpm/detail/x86/logb.cpp"]}
{"id": "C38", "title": "nextafter moves to the adjacent value", "statement": "nextafter(a,b) for non-NaN a != b is the unique representable value adjacent to a in the direction of b; for a == b it is b; NaN operands give NaN.", "quantifier": "all pairs of bit patterns", "why_tests_cant": "2^128 pairs", "anchors": ["dpm/detail/x86/nextafter.cpp"]}
{"id": "C39", "title": "Rounding functions return the right integer", "statement": "ceil, floor, trunc, rint and round return for every finite x the integral value required by IEEE/C (correct direction, half away from zero for round, half to even for rint), keeping the sign of zero.", "quantifier": "all bit patterns, every ISA level", "why_tests_cant": "2^64 patterns, per ISA", "anchors": ["dpm/detail/x86/round.hpp"]}
{"id": "C40", "title": "Logarithm argument reduction", "statement": "In log/log2/log10 the table indices derived from any argument bit pattern are inside the tables, and for positive finite x the reduced argument z and exponent k satisfy x = 2^k z exactly with z in the table's domain.", "quantifier": "all bit patterns", "why_tests_cant": "2^64 patterns, a table overrun is silent", "anchors": ["dpm/detail/x86/exp.hpp: log_normalize", "dpm/detail/x86/log.cpp", "dpm/detail/x86/log2.cpp", "dpm/detail/x86/lut.hpp"]}
{"id": "C41", "title": "Logarithm special values", "statement": "log/log2/log10(+-0) = -inf, log(x<0) = NaN, log(+inf) = +inf, log(NaN) is NaN, log(1) = +0.", "quantifier": "all bit patterns in each class", "why_tests_cant": "all negative patterns / all NaN patterns", "anchors": ["dpm/detail/x86/exp.hpp: log_excepts", "dpm/detail/x86/log.cpp"]}
{"id": "C42", "title": "sin/tan/asin/atan are odd, cos is even, bit for bit; special values are right", "statement": "sin(-x), tan(-x), asin(-x), atan(-x) differ from f(x) only in the sign bit (or both are NaN) and cos(-x) == cos(x), for arguments handled by the vector kernel. Zeros map to themselves (cos 0 = 1), NaN to NaN, |x|>1 to NaN for asin/acos, infinities to NaN (atan: +-pi/2), asin/acos/atan of +-1 are the floating-point numbers nearest to the true values, and sincos returns exactly sin and cos.", "quantifier": "all bit patterns, whatever the floating-point kernel computes", "why_tests_cant": "2^64 patterns", "anchors": ["dpm/detail/x86/trig.hpp: eval_sincos", "dpm/detail/x86/sincos.cpp", "dpm/detail/x86/tan.cpp", "dpm/detail/x86/asincos.cpp", "dpm/detail/x86/atan.cpp"]}
{"id": "C43", "title": "hypot is accurate, symmetric, sign-insensitive and handles infinities", "statement": "For finite arguments hypot(a,b) is within a few units in the last place of sqrt(a^2+b^2), with no overflow or underflow on the way (it is finite unless the true value exceeds the largest finite number). hypot(a,b) = hypot(b,a) = hypot(|a|,|b|), hypot is +inf whenever either argument is infinite (even if the other is NaN), and NaN when one is NaN and none is infinite.", "quantifier": "all pairs of bit patterns, with and without FMA and DPM_PROPAGATE_NAN", "why_tests_cant": "2^128 pairs", "anchors": ["dpm/detail/x86/hypot.cpp"]}
{"id": "C44", "title": "CPU feature detection implies OS support", "statement": "A feature reported by cpuid::has_xxx is supported by the CPU, and AVX-class features are reported only if the OS has enabled the corresponding register state.", "quantifier": "all cpuid/xgetbv register contents", "why_tests_cant": "2^(32*k) register contents", "anchors": ["dpm/detail/x86/cpuid.cpp", "dpm/detail/x86/cpuid.hpp"]}
{"id": "C45", "title": "Polynomial evaluation is Horner's rule over all coefficients", "statement": "polevl/polevl1 evaluate sum c[k] x^(n-k) using every coefficient exactly once.", "quantifier": "all coefficient lists, all x", "why_tests_cant": "any number of coefficients", "anchors": ["dpm/detail/x86/polevl.hpp"]}
{"id": "C46", "title": "Mask element references behave like bool&", "statement": "Assigning, |=, &=, ^=, ~, swap through a mask element reference act as on a bool and keep the stored lane canonical.", "quantifier": "all stored lanes and operands, all operation histories", "why_tests_cant": "unbounded histories", "anchors": ["dpm/detail/alias.hpp: basic_mask"]}
{"id": "C47", "title": "Bit utilities", "statement": "fill_bits<N>() has exactly the N low bits set, extend_bool(b) is all-ones/zero, test_bit(x,p) reads bit p, mask_bit(x,p,b) clears bit p iff b is false and changes nothing else.", "quantifier": "all N, x, p", "why_tests_cant": "all values", "anchors": ["dpm/utility.hpp: fill_bits, extend_bool, test_bit, mask_bit"]}
{"id": "C48", "title": "Both backends compute the same results", "statement": "For integer vectors, an x86 simd and a generic simd holding the same elements give equal elements / equal scalars for every common operation, in every expression built from them.", "quantifier": "all operation sequences, widths, values", "why_tests_cant": "unbounded expressions", "anchors": ["dpm/detail/x86/type.hpp", "dpm/detail/generic/type.hpp"]}
{"id": "C49", "title": "fdim/fmin/fmax NaN and sign rules", "statement": "fdim(a,b) is max(a-b,0) with NaN propagated; fmin/fmax return the non-NaN operand when exactly one is NaN and an operand otherwise.", "quantifier": "all pairs of bit patterns", "why_tests_cant": "2^128 pairs", "anchors": ["dpm/detail/x86/mbase.hpp: fdim, fmax, fmin"]}
{"id": "C50", "title": "Native data traversal visits each native vector once, in lock-step", "statement": "Every element-wise x86 API call applies its kernel to native vector j of all operands and stores to native vector j of the result, for each j < data_size exactly once, so lane i of the result depends only on lane i of the operands.", "quantifier": "all widths, operand counts, kernels", "why_tests_cant": "all N", "anchors": ["dpm/detail/x86/type.hpp: detail::vectorize"]}
{"id": "C51", "title": "x86 bitwise operators, complement, division and remainder are lane-wise", "statement": "&, |, ^ (vector and scalar operands), ~, / and % on x86 integer vectors give in each lane what the scalar operator gives on the lane, whenever that is defined, for every width.", "quantifier": "all widths, element types, ISA levels, values", "why_tests_cant": "all values, all widths", "anchors": ["dpm/detail/x86/type.hpp: operator&, operator|, operator^", "dpm/detail/generic/type.hpp: operator~, operator/, operator%"]}
{"id": "C52", "title": "fma/fmadd/fmsub/fnmadd/fnmsub round once", "statement": "fma(a,b,c), fmadd, fmsub, fnmadd, fnmsub give +-a*b+-c with a single rounding (documented as fused), the right sign of zero, and NaN for NaN operands.", "quantifier": "all triples of bit patterns, all widths, with and without FMA hardware", "why_tests_cant": "2^192 triples", "anchors": ["dpm/detail/x86/mbase.hpp: fmadd, fmsub, fnmadd, fnmsub, fma"]}
{"id": "C53", "title": "sqrt is correctly rounded", "statement": "sqrt(x) is the floating-point number nearest to the real square root of x; zeros and +inf are returned unchanged, negative numbers and NaN give NaN.", "quantifier": "all bit patterns, all widths", "why_tests_cant": "2^64 patterns, real-number specification", "anchors": ["dpm/detail/x86/pow.hpp: sqrt"]}
{"id": "C54", "title": "lerp interpolates", "statement": "lerp(a,b,f) is a + (b-a) f up to rounding, a for f = 0, b for f = 1, and a when a = b.", "quantifier": "all triples of bit patterns", "why_tests_cant": "2^192 triples", "anchors": ["dpm/detail/x86/mbase.hpp: lerp"]}
{"id": "C55", "title": "logarithms approximate the real logarithm", "statement": "For every positive finite x, log(x), log2(x), log10(x) are within a few units in the last place of the real logarithm of the value of x (a few u (1+|log x|) with u half an ulp of 1; relative to |log x| itself for x near 1), and log1p(x) of log(1+x), subnormal arguments included, with the same bound on every instruction set and with or without FMA.", "quantifier": "all positive finite bit patterns, float and double, all instruction sets, with and without FMA", "why_tests_cant": "2^63 arguments; the bound is against a transcendental real function, and the table lookups have to be right for every one of 2^52 mantissas", "anchors": ["dpm/detail/x86/exp.hpp: eval_log", "dpm/detail/x86/log2.cpp: eval_log2", "dpm/detail/x86/log10.cpp: impl_log10", "dpm/detail/x86/log1p.cpp: impl_log1p", "dpm/detail/fconst.cpp: logtab_f32, logtab_f64, log2tab_f32, log2tab_f64"]}
{"id": "C56", "title": "sin, cos and tan approximate the real functions", "statement": "For every finite x whose argument reduction is done by the library (|x| up to 2^22 in float, 2^29 in double), sin(x) and cos(x) are within a few units in the last place of 1.0 of the real sine and cosine of the value of x, sin(x) is relatively accurate for small x, and tan(x) is the quotient up to the corresponding error; the bound does not depend on the instruction set or the vector width.", "quantifier": "all finite bit patterns of that range, float and double, all instruction sets, with and without FMA", "why_tests_cant": "2^64 arguments; the bound is against transcendental real functions, including the error of a three-constant argument reduction", "anchors": ["dpm/detail/x86/sincos.cpp", "dpm/detail/x86/trig.hpp: eval_sincos", "dpm/detail/x86/tan.cpp", "dpm/detail/fconst.hpp: sincof, coscof, tancof, dp_sincos"]}
{"id": "C57", "title": "asin, acos and atan approximate the real functions", "statement": "For every finite x in [-1,1], asin(x) and acos(x) are finite and within a small, fixed relative error (a few half units in the last place) of the real arcsine and arccosine of the value of x, also next to the zeros at 0 and 1; for every finite x the same holds of atan(x); the bound does not depend on the instruction set, the vector width or FMA.", "quantifier": "all finite bit patterns of the domain, float and double, all instruction sets, with and without FMA", "why_tests_cant": "2^64 arguments; the bound is against transcendental real functions, rational approximations and five argument ranges", "anchors": ["dpm/detail/x86/asincos.cpp", "dpm/detail/x86/atan.cpp", "dpm/detail/fconst.hpp: asincof, atancof"]}
{"id": "C58", "title": "Math functions apply the <cmath> function of the same name to every element", "statement": "For every vector type without a native implementation, f(x), f(a,b), f(a,scalar) and the mask-, integer- and pair-valued math functions give in lane i exactly what std::f gives on lane i of the operands and write the output parameters likewise; integer and mixed operands are first converted to double; the call is undefined only if the scalar call or conversion is.", "quantifier": "all C libraries, element types, sizes, bit patterns, functions of the header", "why_tests_cant": "every function, size, element type and value, and any behaviour of the C library; undefined behaviour is not observable by a test", "anchors": ["dpm/detail/generic/math.hpp"]}
{"id": "C59", "title": "Every function can be called on x86 vectors", "statement": "Every function of the public interface that accepts generic vectors compiles when called with an x86 vector of any element type and size, and behaves as its run-time path.", "quantifier": "all element types, sizes, instruction sets, shift counts", "why_tests_cant": "a test that does not compile is left out of the test suite; the claim ranges over all instantiations", "anchors": ["dpm/detail/x86/mbase.hpp: abs, fabs", "dpm/detail/x86/type.hpp: lsl, lsr, asl, asr, simd_mask::copy_to, simd_mask::copy_from, operator&, operator==, blend, shuffle, reduce_min, reduce_max", "dpm/detail/x86/class.hpp", "dpm/detail/x86/trig.hpp: sincos"]}
{"id": "C60", "title": "Rounding to integer vectors gives the right integer in every element", "statement": "For every float or double vector whose elements round to a representable integer, lrint, llrint and ext::irint<I> return the integers nearest to the elements (ties to even), lround, llround and ext::iround<I> the nearest ones with ties away from zero and ext::itrunc<I> the truncated ones, element by element; every such call compiles and stays inside its result.", "quantifier": "all sizes, native widths, instruction sets, element and integer types, bit patterns in range", "why_tests_cant": "2^64 values per element, every size (also those that fill half of the last native vector) and instruction set; writing behind the result is not observable by a test", "anchors": ["dpm/detail/x86/round.hpp: lround, llround, lrint, llrint, itrunc, iround, irint, detail::rint, detail::round"]}
{"id": "C61", "title": "Constant evaluation gives the run-time results", "statement": "Every constexpr function on x86 vectors and masks, called in a constant expression on vectors built there, is a constant expression and yields the value the same call yields at run time: element reads, copies, conversions, operators, reductions, index searches.", "quantifier": "all element types, sizes, native widths, element values, masks", "why_tests_cant": "a constant expression that does not compile is left out of the tests; the claim ranges over all sizes and element values", "anchors": ["dpm/detail/x86/type.hpp: operator[], copy_to, copy_from, all_of, any_of, none_of, some_of, reduce_count, reduce_min_index, reduce_max_index, reduce, operator+", "dpm/detail/x86/type_fwd.hpp: native_bit_cast", "dpm/detail/generic/type.hpp: reduce_impl"]}
{"id": "C62", "title": "Conversions between vector types convert every element", "statement": "For any two vector types of the same size (x86 or generic, any element types), the conversion operators, to_fixed_size, to_native, to_compatible, simd_cast and static_simd_cast give a vector whose element i is static_cast<To>(x[i]), whenever those casts are defined.", "quantifier": "all pairs of element types, sizes, native widths, instruction sets, backends, bit patterns", "why_tests_cant": "all pairs of types and sizes and 2^64 values per element; out-of-bounds accesses of the temporary arrays are not observable by a test", "anchors": ["dpm/detail/x86/type.hpp: simd::operator simd<U, OtherAbi>, copy_to, copy_from", "dpm/detail/generic/type.hpp: operator simd<U, OtherAbi>, detail::copy_cast, simd_cast, static_simd_cast, to_fixed_size, to_native, to_compatible"]}
{"id": "C63", "title": "Floating-point arithmetic of vectors is IEEE arithmetic, element by element, for whole expressions", "statement": "For float and double vectors every expression built from + - * / (also with a scalar), unary minus, sqrt, min, max, clamp, comparisons, mask operators, blend and element assignment has in each element the value of the same scalar expression: every operation returns the exact real result rounded to nearest even (with IEEE's rules for zeros, infinities, NaN), nothing from one element or from unused lanes reaches another, and the generic and x86 backends agree.", "quantifier": "all expressions, sizes, native widths, instruction sets, bit patterns", "why_tests_cant": "all programs over all values; a test runs some expressions on some numbers", "anchors": ["dpm/detail/x86/addsub.hpp", "dpm/detail/x86/muldiv.hpp", "dpm/detail/x86/minmax.hpp", "dpm/detail/x86/type.hpp: operator+, operator-, operator*, operator/, min, max, clamp, blend", "dpm/detail/x86/pow.hpp: sqrt", "dpm/detail/generic/type.hpp", "dpm/detail/generic/math.hpp: sqrt"]}
{"id": "C64", "title": "Reciprocals and reciprocal square roots are accurate", "statement": "rcp(x) and rsqrt(x) approximate 1/x and 1/sqrt(x) in every element, with relative error at most 1.5*2^-12 (float on x86), correctly rounded division (double rcp, generic rcp) or 2u+4u^2 (double rsqrt, generic rsqrt), and give the infinities, zeros and NaN of the exact functions at zeros, infinities, negative numbers and NaN, on every processor and backend.", "quantifier": "all sizes, native widths, instruction sets, bit patterns, processors that meet the instruction's documented error bound", "why_tests_cant": "2^64 values per element and processors with different approximation tables; a test runs on one processor", "anchors": ["dpm/detail/x86/pow.hpp: rcp, rsqrt", "dpm/detail/generic/math.hpp: rcp, rsqrt"]}
{"id": "C65", "title": "Vectors and masks built with MSVC hold the requested elements", "statement": "Also when compiled with MSVC, simd(value), simd(generator), simd_mask(bool) and simd_mask(generator) give x86 vectors and masks whose element i is the given value, respectively the generator's result for i, and masks on which ! negates every element.", "quantifier": "all element types, sizes, native widths, values and generators", "why_tests_cant": "all sizes, types and values; the upper half of wide registers and the representation of masks are only visible through later operations", "anchors": ["dpm/detail/x86/type_fwd.hpp: native_bit_cast (_MSC_VER)", "dpm/detail/x86/type.hpp: simd::simd, simd_mask::simd_mask"]}
{"id": "C66", "title": "Loads, stores and vector objects are properly aligned", "statement": "A call of copy_from or copy_to (or a constructor) on an x86 vector never accesses memory at an address that is not aligned for the access, provided the address of the array meets what the flag says: element_aligned the alignment of the element type, vector_aligned memory_alignment_v of the vector type, overaligned<n> the power of two n. Vector objects and the temporary arrays of conversions are aligned for the native vectors they hold.", "quantifier": "all addresses, sizes, element types, native widths, alignment parameters, flags", "why_tests_cant": "all addresses; a misaligned access faults only at some addresses and with some instructions", "anchors": ["dpm/flags.hpp: aligned_tag, overaligned_tag", "dpm/traits.hpp: memory_alignment", "dpm/detail/x86/type.hpp: copy_from, copy_to, simd::alignment", "dpm/detail/generic/type.hpp: detail::copy_cast"]}
{"id": "C67", "title": "Outputs may be stored over the argument", "statement": "Functions with output parameters (sincos, modf) give the same results when an output parameter is the same object as the argument, and change no other object.", "quantifier": "all vector objects, values, sizes, instruction sets, and all ways arguments and outputs may coincide", "why_tests_cant": "all aliasing patterns and values; the order of reads and writes inside loops", "anchors": ["dpm/detail/x86/type.hpp: detail::vectorize", "dpm/detail/x86/trig.hpp: sincos", "dpm/detail/x86/fmanip.hpp: modf", "dpm/detail/generic/math.hpp: sincos, modf"]}
{"id": "C68", "title": "NaN arguments and erroneous inputs are treated as the README documents", "statement": "With DPM_PROPAGATE_NAN a NaN element in the argument of a math function gives NaN in that element of the result (hypot of an infinity excepted), whatever the other options. sin(0)=0, sin(pi/2)=1, asin(0)=0, asin(1)=pi/2 under all options; with DPM_HANDLE_ERRORS sin(inf), asin(x) for |x|>1, sin(NaN) and asin(NaN) are NaN.", "quantifier": "all functions of the catalogue, options, sizes, native widths, instruction sets, NaN payloads, other elements", "why_tests_cant": "every NaN payload and sign in every element position, every combination of options and instruction sets, which a test run never compiles together", "anchors": ["README.md: Error handling & NaN", "dpm/detail/x86/trig.hpp", "dpm/detail/x86/exp.hpp", "dpm/detail/x86/fmanip.hpp", "dpm/detail/x86/round.hpp", "dpm/detail/x86/pow.hpp", "dpm/detail/x86/mbase.hpp: fma"]}
{"id": "C69", "title": "Derived vector types have the requested size, element type and alignment", "statement": "deduce_t<T, N, Abis...> names exactly one tag, of N elements, for any hints (the first hint of N elements if there is one); rebind_simd_t<T, V> has element type T and the size and tag of V, and rebinding back gives V; resize_simd_t<N, V> has the element type and alignment of V and N elements; types that use x86 registers still do after rebinding and resizing; native and compatible types fill exactly one register.", "quantifier": "all element types, sizes, alignments, hint lists, with and without AVX", "why_tests_cant": "all N, alignments and hint lists; a type test instantiates a few", "anchors": ["dpm/detail/generic/abi.hpp: deduce, native, compatible", "dpm/detail/x86/abi.hpp: deduce, select_abi", "dpm/detail/generic/type.hpp: rebind_simd, resize_simd", "dpm/traits.hpp: simd_size"]}
{"id": "C70", "title": "common_t is the widest and most aligned tag", "statement": "common_t<Abis...> of any tags exists; it is the tag itself if all are the same, and otherwise a tag as wide as the widest and as aligned as the most aligned of them, independent of their order.", "quantifier": "all lists of tags", "why_tests_cant": "all lists, sizes and alignments", "anchors": ["dpm/detail/generic/abi.hpp: common, detail::common_impl"]}
{"id": "C71", "title": "The library is told which instructions it may use and which options are on", "statement": "Whatever extensions the compiler is asked to generate (GCC, Clang, MSVC, clang-cl; any target), the library uses exactly those: no instruction the compiler was not allowed to use, and each kernel written for an enabled extension. DPM_HANDLE_ERRORS always comes with DPM_PROPAGATE_NAN, and each CMake option of the README turns on the feature it names, in the library and in programs that link it.", "quantifier": "all sets of predefined and command-line macros a compiler can produce, all combinations of options", "why_tests_cant": "a test build has one compiler and one set of flags", "anchors": ["dpm/detail/arch.hpp", "dpm/detail/config.hpp", "CMakeLists.txt", "dpm/detail/x86/type.hpp: shuffle (DPM_NOT_SSSE3)"]}
{"id": "C72", "title": "Whole programs behave the same on the x86 and the generic backend", "statement": "A program with variables, loops, branches, element accesses, loads and stores of arrays and questions about masks (all_of .. reduce_max_index) that is defined with the portable vectors finishes with x86 vectors too, with the same client variables, the same array contents and the same elements in all vectors and masks; if it runs forever with one it does with the other. Both are what the program means for plain sequences of N elements.", "quantifier": "all programs of the language of Model/Imperative (any length, loops without bound), all integer element types, sizes, instruction-set levels, starting states, contents of uninitialised storage", "why_tests_cant": "programs and their runs are unbounded", "anchors": ["dpm/detail/x86/type.hpp", "dpm/detail/generic/type.hpp"]}
{"id": "C73", "title": "An expression of vectors is the scalar expression, element by element", "statement": "For every expression built from the operators and functions on integer vectors and masks, element i of the result is the same expression of scalars applied to element i of the operands; it is undefined only if some scalar expression is.", "quantifier": "all expressions, element types, sizes, instruction-set levels, values", "why_tests_cant": "expressions nest without bound", "anchors": ["dpm/detail/x86/type.hpp", "dpm/detail/generic/type.hpp"]}
{"id": "C74", "title": "A vectorised array loop computes what the scalar loop computes", "statement": "for (i = 0; i + N <= n; i += N) { load; v = e; store } followed by a scalar loop for the remaining elements leaves in memory exactly what the scalar loop over all n elements leaves, in place, for disjoint arrays, and for every overlap in which no result is stored less than N elements after a source.", "quantifier": "all n, N, expressions, numbers of source arrays, addresses, memory contents, instruction-set levels", "why_tests_cant": "lengths and overlaps are unbounded", "anchors": ["dpm/detail/x86/type.hpp: copy_from, copy_to", "dpm/detail/generic/type.hpp: copy_from, copy_to"]}
{"id": "C75", "title": "Vectorised searching and counting loops give the scalar answers", "statement": "The loop that evaluates a condition on N elements at a time and uses any_of and reduce_min_index finds exactly the first element satisfying the condition or reports that there is none; the loop that adds reduce_count counts exactly the elements satisfying it.", "quantifier": "all array lengths, conditions, numbers of source arrays, contents, vector sizes, instruction-set levels", "why_tests_cant": "lengths are unbounded, the position of the match is arbitrary", "anchors": ["dpm/detail/x86/type.hpp: any_of, reduce_min_index, reduce_count", "dpm/detail/generic/type.hpp: any_of, reduce_min_index, reduce_count"]}
{"id": "C76", "title": "Programs over float and double vectors mean what they mean for sequences of IEEE numbers", "statement": "A program with variables, loops, branches, element accesses, loads and stores, questions about masks and arithmetic, comparisons, minimum/maximum, clamp, square root and blends of float or double vectors ends, bit for bit, in the state it reaches for plain sequences of IEEE numbers, with both backends; if it runs forever there it runs forever here.", "quantifier": "all programs (any length, loops without bound), float and double, sizes, instruction-set levels, starting states", "why_tests_cant": "programs and their runs are unbounded", "anchors": ["dpm/detail/x86/type.hpp", "dpm/detail/generic/type.hpp", "dpm/detail/x86/math/pow.hpp: sqrt"]}
{"id": "C77", "title": "Vectorised loops over float and double arrays give the scalar results bit for bit", "statement": "The vectorised map loop (such as saxpy), with a scalar loop for the remaining elements, leaves exactly the bits of the scalar IEEE loop; the vectorised search and count loops report exactly the first match and the number of matches, NaNs, infinities and signed zeros included.", "quantifier": "all lengths, expressions, numbers of source arrays, addresses, memory contents, vector sizes, instruction-set levels", "why_tests_cant": "lengths and contents are unbounded", "anchors": ["dpm/detail/x86/type.hpp: copy_from, copy_to, any_of, reduce_min_index, reduce_count", "dpm/detail/generic/type.hpp"]}
{"id": "C78", "title": "Accumulating loops over arrays give the sum, the least and the greatest element", "statement": "The loop that accumulates an expression of N elements at a time in a vector, combines the elements of the vector with reduce (plus, bit_and, bit_or, bit_xor), reduce_min or reduce_max, and treats the remaining elements one by one, leaves the sum (modulo 2^w), bitwise combination, least or greatest value of the expression over all n elements.", "quantifier": "all lengths, expressions (such as dot products), numbers of source arrays, contents, vector sizes, instruction-set levels", "why_tests_cant": "lengths and contents are unbounded", "anchors": ["dpm/detail/x86/type.hpp: reduce, reduce_min, reduce_max", "dpm/detail/generic/type.hpp: reduce"]}
{"id": "C79", "title": "reduce of floats is the sum up to the classical rounding-error bound", "statement": "reduce(x) of a float or double vector of N elements differs from the exact sum of its elements by at most ((1+u)^(N-1)-1) times the sum of the absolute values (u = 2^-24 or 2^-53), a finite result occurs only when all elements are finite, and the result is finite whenever (1+u)^(N-1) times the sum of absolute values does not exceed the largest finite number.", "quantifier": "all vector sizes, element values, instruction-set levels, contents of the padding", "why_tests_cant": "the order of summation and the values are unbounded", "anchors": ["dpm/detail/x86/type.hpp: reduce", "dpm/detail/generic/type.hpp: reduce, reduce_impl"]}
{"id": "C80", "title": "Vectorised float sums and dot products satisfy the classical error bound", "statement": "The loop that accumulates an expression of N elements at a time in a float or double vector, adds up the elements of the vector with reduce or one by one, and treats the remaining elements one by one, leaves the sum of the n values with error at most ((1+u)^(n-1)-1) sum |y_j|; for a dot product the result differs from the exact dot product by at most ((1+u)^n-1) sum |x_j z_j| + (1+u)^(n-1) n t, t half the smallest subnormal, whatever N is, and does not overflow when the bound does not.", "quantifier": "all lengths, expressions, numbers of source arrays, contents, vector sizes, instruction-set levels", "why_tests_cant": "lengths and contents are unbounded", "anchors": ["dpm/detail/x86/type.hpp: reduce, operator+, operator*, copy_from", "dpm/detail/generic/type.hpp: operator+, operator*"]}
{"id": "C81", "title": "With DPM_USE_SVML the mathematical functions are those of Intel's library, element by element", "statement": "A program compiled with DPM_USE_SVML (by a compiler that has the library) compiles, and exp, exp2, expm1, log, log2, log10, log1p, cbrt, pow, sin, cos, tan, asin, acos, atan, atan2, sincos, the hyperbolic functions, erf, erfc, logb and the nearest-integer functions return in element i what Intel's function of that name returns for element i of the operands.", "quantifier": "all functions of the list, all versions of Intel's library, element values, vector sizes, instruction-set levels", "why_tests_cant": "the library is a parameter, values and sizes are unbounded, and the option selects code no test builds", "anchors": ["dpm/detail/x86/exp.hpp", "dpm/detail/x86/pow.hpp", "dpm/detail/x86/trig.hpp", "dpm/detail/x86/hypbl.hpp", "dpm/detail/x86/errfn.hpp", "dpm/detail/x86/fmanip.hpp: logb", "dpm/detail/x86/round.hpp: ceil, floor, trunc, round", "dpm/detail/x86/math.hpp", "README.md: SVML"]}
{"id": "C82", "title": "Floating-point exceptions of vectors are those of their elements", "statement": "For float and double vectors + - * / and the comparison operators signal an IEEE exception exactly if the operator does so for some element; isgreater, isgreaterequal, isless, islessequal, islessgreater (documented to compare without setting floating-point exceptions), isunordered, isnan, isinf, isfinite and isnormal signal nothing for quiet NaNs and numbers; rint signals inexact exactly if some element is not an integer, and nearbyint never changes the inexact flag; min, max and clamp signal invalid exactly if an operand is a NaN; sqrt signals invalid exactly if some element is negative or a signalling NaN, inexact exactly if some element has no exact root, and nothing else; an expression of any shape built from these operators signals exactly what the scalar expression signals for some element, and so does a loop over arrays with a scalar tail.", "quantifier": "all element values, vector sizes, instruction-set levels, contents of the padding, all arithmetic units conforming to IEEE 754", "why_tests_cant": "bit patterns, sizes and the state of the flags are unbounded, and the flags depend on lanes no element access shows", "anchors": ["dpm/detail/x86/cmp.hpp: cmp_eq, cmp_lt, cmp_le, cmp_gt, cmp_ge", "dpm/detail/x86/class.hpp: isgreater, isfinite_abs, isnormal_abs", "dpm/detail/x86/round.hpp: rint, nearbyint", "dpm/detail/x86/type.hpp: operator+, operator/, operator<, simd(G &&)", "dpm/detail/generic/type.hpp", "dpm/detail/generic/math.hpp: isgreater"]}
{"id": "C83", "title": "The rounding direction set with fesetround", "statement": "For float and double vectors + - * / of finite elements are correctly rounded in the current rounding direction; rint and nearbyint round every element to an integer in the current direction; ceil, floor, trunc, round, lround, llround and ext::iround give the same result in every rounding direction; llrint and ext::irint round to integers in the current direction.", "quantifier": "all four rounding directions, all element values, vector sizes and instruction-set levels", "why_tests_cant": "bit patterns and sizes are unbounded; tests run in the default direction", "anchors": ["dpm/detail/x86/round.hpp: ceil, floor, trunc, round, rint, nearbyint, lround, llround, llrint, irint", "dpm/detail/x86/cvt.hpp: cvt_f64_i64", "dpm/detail/x86/addsub.hpp", "dpm/detail/x86/muldiv.hpp", "dpm/detail/x86/type.hpp: operator+, operator-, operator*, operator/"]}
{"id": "C84", "title": "Threads", "statement": "Threads that use vectors and masks of their own on a shared array do not disturb each other: if no thread changes an element another one accesses, then in every interleaving of their single element accesses nothing undefined happens, no two threads are ever about to access the same element with one of them writing, any two next steps can be exchanged, and every thread ends with exactly the vectors, masks, variables and elements it has when run alone. In particular a vectorised loop over arrays, divided among any number of threads in any way (lengths need not be multiples of size()), leaves exactly what the scalar loop leaves; a divided search finds the first element, a divided count counts all, and the integer sums, bitwise combinations, least or greatest elements found by the threads combine to those of the whole array; floating-point sums and dot products found by the threads, added up in any order, are those of the whole array within the rounding errors of n-1 additions.", "quantifier": "all numbers of threads and divisions of the arrays, all schedules (finite sequences of steps, one element access each), array contents, expressions, element types, sizes, instruction sets, both backends", "why_tests_cant": "the number of schedules is exponential in the number of steps; a race shows only in some of them", "anchors": ["dpm/detail/x86/type.hpp:645-671 copy_from, copy_to", "dpm/detail/generic/type.hpp:214-225 copy_to", "dpm/detail/generic/type.hpp:516-527 copy_from"]}
{"id": "C85", "title": "Masks on targets with SSE but not SSE2", "statement": "On a target that has SSE but not SSE2, masks of float mean the same as on every other target: a == b and a != b compare element by element, a || b is true where a or b is, blend(m, a, b) takes the element of a where m is true and that of b where it is false, any_of, none_of, all_of and some_of quantify over the elements, and every element of a mask built by any history of calls is all zeros or all ones.", "quantifier": "all widths, masks built by any finite history of mask calls, vectors, contents of the padding", "why_tests_cant": "SSE without SSE2 is selected only by 32-bit builds with -msse that no CI machine makes; the functions have code of their own there", "anchors": ["dpm/detail/x86/cmp.hpp:219-224 mask_eq", "dpm/detail/x86/cmp.hpp:32-43 test_mask", "dpm/detail/x86/utility.hpp:23-33 setones", "dpm/detail/x86/type.hpp:236-260 blend", "dpm/detail/x86/type.hpp:353-373 operator||, ==, !=", "dpm/detail/x86/type.hpp:747-771 blend"]}
{"id": "C86", "title": "A vector or mask built from a callable holds what the callable returns", "statement": "Constructing a vector or a mask from a callable object f gives a vector or mask whose element i is f(i), for every i below size() - whether f is a function, a function pointer, a lambda expression of any form or an object of a class with a call operator, and on both backends.", "quantifier": "all callables (kinds and results), both forms of initialisation, all element types, sizes and instruction sets, contents of the storage", "why_tests_cant": "which constructor is taken depends on conversions of the type of the argument; a test uses a few lambda expressions, and each form of lambda behaves differently", "anchors": ["dpm/traits.hpp:30-43 compatible_element, element_generator", "dpm/detail/generic/type.hpp:197-201 simd_mask", "dpm/detail/generic/type.hpp:499-503 simd", "dpm/detail/x86/type.hpp:92-124 simd_mask", "dpm/detail/x86/type.hpp:588-621 simd"]}
{"id": "C87", "title": "A scalar may stand for a vector in an operator", "statement": "simd<T, Abi> is implicitly constructible from a scalar s of any arithmetic type, which it holds in every element; so v op s and s op v, for a vector v of T and an arithmetic operator, a bitwise operator, a shift, a comparison, min or max, compile for every such s and give, in each element, the C++ operator applied to the element and s; in particular the type of a shift count does not matter, only its value.", "quantifier": "all operators, element types, types and values of the scalar, sizes, instruction sets, elements", "why_tests_cant": "there are thousands of combinations of operator, side, element type, scalar type and size, and most tests of a template library use the one combination that deduces", "anchors": ["dpm/detail/generic/type.hpp:734-1051 operators", "dpm/detail/generic/type.hpp:966-987 shifts by I", "dpm/detail/x86/type.hpp:792-1298 operators", "dpm/traits.hpp:30-31 compatible_element"]}
{"id": "C88", "title": "A vector is constructed only from scalars whose value it can hold", "statement": "As in the data-parallelism TS, which the README says is implemented: simd<T, Abi> v = s compiles exactly if every value of the type of s is a value of T, or s is an int, or s is an unsigned int and T is unsigned; then every element of v is static_cast<T>(s), in the first case the same number as s. In particular no other construction from a scalar changes the value or is undefined. The same holds for generators and the type their calls return.", "quantifier": "all arithmetic types of the scalar, element types, values, sizes, instruction sets, elements, both backends", "why_tests_cant": "a test uses some values of some types; that no value of a type is changed or undefined ranges over all values of all pairs of types, and a construction that should not compile is not tested at all", "anchors": ["dpm/traits.hpp:30 compatible_element", "dpm/detail/generic/type.hpp:498-499 simd(U &&)", "dpm/detail/x86/type.hpp:588-594 simd(U)", "dpm/detail/generic/type.hpp:82-90,501-502 simd(G &&)", "dpm/detail/x86/type.hpp:611-621 simd(G &&)"]}
{"id": "C89", "title": "An implicit conversion between vectors keeps every element", "statement": "simd<U, B> y = x, for a vector x of T with as many elements, compiles without a cast only if every value of T is a value of U (the TS allows no other implicit conversions), and then every element of y is the same number as that of x.", "quantifier": "all pairs of vector types of both backends, all contents, elements", "why_tests_cant": "all values of all pairs of element types; a test uses conversions that should compile and values that survive", "anchors": ["dpm/detail/x86/type.hpp:623-642 operator simd<U, OtherAbi>", "dpm/detail/generic/type.hpp:510-511 operator simd<U, OtherAbi>"]}
