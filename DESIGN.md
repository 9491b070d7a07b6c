# Formal model of switch-blade-stuff/dpm in Lean 4: design

## 1. What is modelled and how

dpm is a header-heavy C++20 SIMD library: a platform-independent ("generic") backend, and an x86
backend that stores a vector of `N` elements in `data_size` native registers and implements every
operation with SSE/AVX intrinsics.  No code is built or run here; the model is read off the source,
and every definition carries a comment with file and lines.

Layout of `lean/Verif`

| directory | content |
|-----------|---------|
| `Lib/` | loops, flat memories, registers and their lanes (no dpm code) |
| `Model/` | the model of dpm, function by function, and the scalar semantics of C++ integers it refers to (`CInt`) |
| `Spec/` | specifications that know nothing of dpm: lanes, exact values of floating-point patterns, textbook rounding, CPUID bits, real values; also the description of the arithmetic instructions |
| `Proofs/` | lemmas |
| `Props/` | the property theorems `Cxx_...`, each group followed by `example`s that exhibit non-trivial instances of the hypotheses |

Modelling decisions

* **Registers** are `BitVec n` (`n` = 128 or 256); a lane of width `w` is `lane w x i` (bits
  `[i*w, (i+1)*w)`, little endian, as `reinterpret_cast` sees it).  Intrinsics are modelled bit-exactly,
  lane by lane, after the Intel SDM.
* **ISA level** is a record of Booleans (`sse3 ssse3 sse41 avx avx2 avx512vl avx512bw avx512dq`) passed as a
  parameter, because the library selects code with the preprocessor; FMA is a separate Boolean `fm`.  Theorems
  quantify over all of them.  SSE2 is the baseline; SSE4.1 is taken to include SSE4.2.
* **Generic vectors** are memories `Nat -> a` of which the first `N` cells belong to the vector; the
  loops of the code are modelled as loops (`forRange`) that write a result array cell by cell.
* **Memory** (`copy_to`/`copy_from`) is `Nat -> a`; where bounds matter the model takes the length of the
  array and is undefined outside it.
* **Undefined behaviour** (shift counts out of range, `__builtin_unreachable`, falling off a non-void
  function, out-of-bounds native vector reads) is the outcome `none`/`Out.ub`, never a default value;
  calls that do not compile are `Out.illFormed`.
* **Floating point** is bit patterns (`BitVec 32`/`BitVec 64`).  `Spec/Float` gives each pattern its class and its
  exact value (an integer number of smallest subnormals); `Spec/Ieee`, `Spec/Fma`, `Spec/FloatCvt` define the
  instructions as exact operations followed by round-to-nearest-even.  That these satisfy the textbook definition
  (`IsNearestEven`: no representable number is nearer, ties to even) is proved, not assumed.
* **Accuracy** statements compare `rv` (the real number a pattern denotes) with Mathlib's real functions
  (`Real.sqrt`, `Real.log`, `Real.logb`, `Real.sin`, `Real.cos`, `Real.tan`, `Real.arcsin`, `Real.arccos`, `Real.arctan`).
* **The C library** (calls for large trigonometric arguments, scalar functions lifted by the generic templates) is a
  parameter of the model: any function.
* **Templates** with a pack of indices become functions on `List Nat`.

When the code violates a property, the negation is proved with a concrete witness or for the whole class of
failing inputs (`..._violated`), and what does hold is proved beside it (`_partial`, or an exact
characterisation `_exact`).  A claim of MANIFEST.json is `proved` only when the full statement holds of the code;
`partial` therefore mostly means "the code does not satisfy it; the exact extent is proved".

## 2. Per-property plan

| id | model | proof |
|----|-------|-------|
| C01 | generic operators as loops | loop lemma: after `N` steps cell `i` holds `f i`, rest untouched |
| C02 | `<<=`/`>>=` as written (swapped) | negation by witness; scalar forms proved |
| C03 | mask `~` through integral promotion | negation (always true); `!` proved |
| C04-C06 | loops | loop lemma, frame |
| C07 | `reduce_impl` recursion as written (`data[0]`) | closed form by strong induction; negation for every N>=4; N<=3 proved |
| C08 | three compile-time branches, recursion over the pack | induction over the pack |
| C09 | `copy_cast` through a buffer | loop lemmas |
| C10 | `lsl/lsr/asr` and the `T{-1}>>N` test | BitVec algebra |
| C11 | std::min/max/clamp semantics | order reasoning |
| C12 | overload concepts as predicates, `align_data` | arithmetic |
| C13 | template recursions as list functions | induction |
| C14, C15, C50 | x86 storage, `vectorize`, loads/stores with array lengths | lane arithmetic; negation for vector_aligned |
| C16-C21 | x86 mask operators/reductions on registers per ISA | lane lemmas + fold invariants over native vectors; negations for the bugs in FINDINGS.md |
| C22-C26, C51 | emulated integer intrinsics, fallbacks through the generic backend | BitVec/omega per lane |
| C27, C28 | horizontal reductions, shuffles | permutation of fold (`Spec/Comb`); index arithmetic over index packs of any length |
| C29, C30 | conversion kernels, magic-number tricks included | exact arithmetic; uniqueness of correct rounding |
| C31-C33, C38, C49 | bit-level classification, comparison, sign, nextafter; fpclassify and remquo on x86 vectors (`Model/X86Lib`) | sign/magnitude normal form, order isomorphism with exact values |
| C34-C37, C39 | frexp, scalbn, modf, ilogb, logb, rounding | exact arithmetic on integers, textbook rounding relations |
| C40, C41, C55 | logarithms: reduction, specials, accuracy | bit arithmetic; per-row certificates of the tables checked in the kernel, Taylor bound, forward error analysis |
| C42 | sin/cos/tan/asin/acos/atan: parity and specials | algebra of sign masks, one-lane functions |
| C43 | hypot | forward error analysis against `Real.sqrt`, scaling exact |
| C44 | cpuid decoding, machine as parameter | bit reasoning for every machine |
| C45 | Horner evaluation | backward error by induction over the coefficient list |
| C46, C47 | small functions | direct / invariant over histories |
| C48 | client expressions over both backends | induction over expressions; composition of C01, C14-C26 |
| C52-C54 | fma family, sqrt, lerp | uniqueness of rounding; square root by integer square root |
| C56 | sin, cos, tan against the real functions | Cody-Waite reduction error, polynomial certificates, Taylor series, octant bookkeeping |
| C57 | asin, acos, atan against the real functions | derivative of the approximation error, polynomial positivity certified on subintervals in the kernel |
| C58 | generic math functions are lane-wise `<cmath>` | element loops with the C library as a parameter; induction over the loops; counterexamples for any library with stated minimal properties |
| C59 | x86 calls compile | both branches of `if (is_constant_evaluated())` are instantiated; case analysis |
| C60 | rounding to integer vectors on x86 | loops and stores over native vectors of argument and result (undefined behind the result), lane functions; range lemmas on exact values, ties |
| C61 | constant evaluation | model of the constant-evaluated branches in the option monad (`none`: not a constant expression); loop inductions; comparison with the run-time specifications |
| C62 | conversions and casts between any two vector types (`Model/Conv`), `static_cast` specified in `Spec/Cast` | loop lemmas; the kernels' theorems of C15, C29, C30; negations for unfilled registers and rounding casts |
| C63 | floating-point expressions over both backends (`Model/FloatProgram`), per-element meaning in `Spec/FloatExpr`, IEEE in `Spec/FloatArith` | structural induction over expressions; IEEE lemmas of the scalar operations; negation for min/max with NaN or opposite zeros |
| C64 | rcp, rsqrt (`Model/Rcp`), the approximation instructions as arbitrary functions meeting the manual (`Spec/Approx`) | error analysis over the reals; negations for subnormal arguments and results |
| C65 | the MSVC branch of `native_bit_cast` and the constructors using it (`Model/Msvc`) | element-wise characterisation of the constructors; negations for wide and floating-point masks |
| C66 | addresses, alignment of objects, buffers and accesses (`Model/Align`) | divisibility of powers of two; equality with the address-free copies |
| C67 | a memory of vector objects named by the operands (`Model/Alias`), n-ary `vectorize` | loop induction; negation for the generic sincos |
| C68 | catalogue of the x86 functions of one vector (`Props/NanErrors`), reusing the models of C37-C43, C52, C53 | case split over the catalogue; closed kernel computation at pi/2 for each rounding variant |
| C69 | class template partial ordering of deduce / rebind_simd / resize_simd as functions on tags (`Model/AbiTypes`) | induction over hint lists, C12 |
| C70 | `common_impl` as a recursion over the tag list (`Model/AbiTypes`) | induction; negations for scalar and packed tags |
| C71 | macro environments (name to value), an interpreter of preprocessor lines, arch.hpp and config.hpp transcribed (Model/Config), what GCC/Clang/MSVC/clang-cl predefine (Spec/Compilers) | symbolic execution of the transcribed files on an arbitrary environment; then case analysis on the extension |
| C72 | a small imperative language over both backends (`Model/Imperative`): step function per elementary statement, execution with fuel; the specification machine for sequences of elements (`Spec/Machine`) | refinement of the specification by each backend, statement by statement; between the backends a simulation relation preserved by every statement (C48, C15, C18-C20), lifted to all programs by induction on the steps; negation from C48 |
| C73 | scalar meaning of expressions (`Spec/ScalarProgram`) | structural induction; C01, C04, C06, C10, C11 for the generic side, C48 for x86 |
| C74 | the vector loop as a program of C72, the scalar loop as a recursive function | loop invariant "first i elements done"; one chunk reads nothing that its N scalar iterations write; x86 by C72 |
| C75 | search and count loops as programs of C72 | loop invariants; C05 for the generic questions, x86 by C72; negation from C19 |
| C76 | the same language with floating-point expressions; the specification machine (`Spec/Machine`): a vector is N elements | every statement of each backend refines the specification (C63 for expressions, C15, C18-C20), lifted by induction on the steps |
| C77 | the loops of C74 and C75 with floating-point expressions | the loop theorems are proved once for the specification machine with any expression language; C76 transfers them |
| C78 | accumulating loops with `reduce` or element access | invariant "the combination of the accumulator's elements is the combination of the first i elements"; overflow invariant for signed sums; C72 and C27; negation from C07 |
| C79 | `reduce` of floats as a sum with rounding errors (Spec/Sum) | C27 gives a combination tree over the elements and zeros; induction over the tree with a structure carrying the number of summands, exact sum and sum of absolute values (Proofs/SumErr); negation for the generic backend |
| C80 | summation and dot-product loops over floats | invariant "the elements of the accumulator are partial sums of the first i values"; C76 refinement; C79's combination; product rounding added for dot products |
| C81 | the library compiled with DPM_USE_SVML | Intel's library as a parameter with its declared signatures (Spec/Svml); tables of the wrapper functions and of the public functions, overload lookup by register type, a type check of the wrappers; per-lane lemma for every function found |
| C82 | floating-point exceptions | Model/Flags runs the operators, comparisons, classification functions, rint, nearbyint, min, max, clamp and sqrt once more, recording every lane operation executed (opcode, operands), signalling and quiet comparison predicates distinguished; Spec/Flags states what IEEE 754 demands of a single operation (an arbitrary conforming unit); theorems relate the recorded operations to the operations on the elements, with and without padding; Model/FlagExpr does the same for expressions of any shape (Spec/FlagExpr: the scalar expression and what it signals), by induction over the expression, and Model/FlagLoop for loops over arrays |
| C83 | rounding direction | Spec/RoundDir: IEEE arithmetic in all four directions, with the textbook definition of a directed rounding it is proved to satisfy; Model/RoundDir: the rounding functions and operators with the direction as a parameter (nearest = Model/Round, C83_nearest); per function: does the result depend on the direction, and is it the right one |
| C84 | threads | Model/Threads: each thread executes a client program of Model/Imperative on vectors of its own, one element access of `copy_from`/`copy_to` per step; a schedule is any list of thread numbers. Proved by a frame argument: a program that keeps to its elements (Proofs/ThreadRuns: a Hoare-style footprint judgement, sound for the small steps) makes the same steps whatever the others do to other elements, so the pool stays in a state from which every thread still reaches the end of its run alone; next steps commute. The loops of C74, C75, C77 satisfy the judgement; slices of the scalar loop are composed back; the accumulating loops of C78 likewise (the operations are associative and commutative with a unit), and the floating-point sums of C79/C80, where the error bounds of the slices add up to the bound of the whole. |
| C85 | SSE without SSE2 | Model/Sse: the functions with a branch of their own there (`mask_eq`, `test_mask`, `setones`) and the mask operations built on them, for float, 16-byte vectors; everything else is shared text and shared model (SSE2 level). Element theorems, canonical masks by induction over the history of calls |
| C86 | construction from a callable | Model/Construct: the kinds of callables, their implicit conversions to `bool` (C++ rules cited), the two concepts and the choice between the broadcast and the generator constructor for direct and copy initialisation; element theorems from C06, C14, C16; the negation for the kinds that convert to `bool`. Braces (`m{f}`) and classes with call operators and conversion functions are not modelled |
| C87 | scalar operands | Model/Operand: the operator templates of both backends as signatures, template argument deduction, constraints, choice of the more specialised template; bodies are those of Model/Vector. Exact characterisation of what compiles; element theorems from C23, C24, C26, C51, C63. Character types besides `char`, `long double` and scalar arguments of other functions than `min`/`max` are not modelled |
| C88 | construction from scalars | Model/FromScalar: the concept and the broadcast constructors of both backends with `static_cast` (Model/Conv); Spec/Scalars: when two values of arithmetic types are the same number, the constraint of the TS. Exactness from C29/C62; for every excluded pair a value without counterpart is exhibited and proved to have none. |
| C89 | implicit conversions between vectors | Model/FromScalar (`initFrom`: when the conversion operator is implicit) over the conversions of Model/Conv; from C62 and the uniqueness of casts, with the witnesses of C88. |

Later properties and the state of each claim: properties.jsonl, MANIFEST.json (`note`).

## 3. Trusted base

* Lean's kernel, and the axioms `propext`, `Classical.choice`, `Quot.sound` (no others; no `native_decide`, no `bv_decide`).
  Closed numeric facts (tables, polynomial certificates) are evaluated by the kernel (`decide +kernel`).
* Mathlib's definitions of the real functions named above (C43, C45, C52-C57) and its order/derivative lemmas, all kernel-checked.
* The description of the hardware: lane-wise meaning of the intrinsics (`Model/Native`, `Model/NativeInt`, shuffles in
  `Model/Reduce`, `Model/Shuffle`), IEEE arithmetic (`Spec/Ieee`, `Spec/Fma`, `Spec/FloatCvt`: MXCSR in its default state, round to
  nearest even except in Model/RoundDir (C83: all four directions), no FTZ/DAZ; exception flags only in Model/Flags (C82), for the functions listed there; with two NaN operands the result payload of FMA depends on the
  instruction encoding and is only known to be a quiet NaN), CPUID (`Spec/Cpuid`), RCPPS/RSQRTPS (`Spec/Approx`: any function within the documented bounds).
* The scalar semantics of C++ integers (`Model/CInt`: 32-bit int, 64-bit long, two's complement).
* Our reading of the C++ source: overload selection, preprocessor branches, literals rounded to nearest.  The compiler is not covered.

## 4. Which parts of the code are modelled

| source | model |
|--------|-------|
| `dpm/utility.hpp`, `detail/alias.hpp`, `detail/generic/abi.hpp`, `detail/x86/abi.hpp` | `Util` |
| `detail/generic/type.hpp` | `Generic` |
| `detail/generic/math.hpp` | `GenericMath` (scalar library functions as parameters) |
| which x86 calls compile (constant-evaluated branches) | `Callable`, `CallMask` |
| `detail/x86/type.hpp` in constant expressions | `ConstEval` |
| conversion operators and casts of `detail/x86/type.hpp`, `detail/generic/type.hpp` | `Conv` |
| `detail/x86/round.hpp` conversions to integer vectors | `RoundInt` |
| `detail/x86/type.hpp` | `Mask`, `Vector`, `Reduce`, `Shuffle` (run-time branches) |
| `detail/x86/utility.hpp`, `bitwise.hpp`, `cmp.hpp`, `transform.hpp` (tables in `Tables`) | `Native` |
| `detail/x86/addsub.hpp`, `muldiv.hpp`, `minmax.hpp`, integer part of `mbase.hpp` | `NativeInt` |
| `detail/x86/cvt.hpp` | `Cvt` |
| `detail/x86/class.hpp`, `nextafter.cpp`, bit-level part of `fmanip.hpp` | `FloatBits` |
| `detail/x86/frexp.cpp`, `logb.cpp`, `scalbn.cpp`, `modf.cpp`, `fmanip.hpp`, `except.hpp` | `FloatManip` |
| `detail/x86/round.hpp` | `Round` |
| `detail/x86/mbase.hpp`, `polevl.hpp`, `pow.hpp` (sqrt) | `Mbase` |
| `detail/x86/pow.hpp` (rcp, rsqrt) | `Rcp` |
| `detail/x86/type_fwd.hpp` 66-184 (MSVC) | `Msvc` |
| `flags.hpp`, `traits.hpp` (alignment) | `Align` |
| `detail::vectorize`, output parameters | `Alias` |
| type computations on ABI tags (`detail/generic/abi.hpp`, `traits.hpp`) | `AbiTypes` |
| overloads for plain values (`detail/generic/type.hpp` 147-172) | `ScalarForms` |
| `fpclassify`, `remquo` templates on x86 vectors | `X86Lib` |
| `detail/x86/hypot.cpp` | `Hypot` |
| `detail/x86/log*.cpp`, `exp.hpp`, `lut.hpp`, `fconst.cpp` | `Log` |
| `detail/x86/trig.hpp`, `sincos.cpp`, `tan.cpp`, `asincos.cpp`, `atan.cpp`, `fconst.hpp` | `Trig` |
| `detail/x86/cpuid.cpp`, `cpuid.hpp` | `Cpuid`, `CpuidWin` |
| `detail/arch.hpp`, `config.hpp`, `CMakeLists.txt` (options) | `Config` |
| `DPM_USE_SVML` branches of `exp.hpp`, `pow.hpp`, `trig.hpp`, `fmanip.hpp`, `round.hpp`; `hypbl.hpp`, `errfn.hpp` | `Svml` (Intel's functions as parameters) |
| operations executed by operators, comparisons, classification, rint, nearbyint, min, max, clamp, sqrt (exceptions), and by expressions of them and loops over arrays | `Flags`, `FlagExpr`, `FlagLoop` |
| operators and `detail/x86/round.hpp` with the rounding direction as a parameter | `RoundDir` |
| client programs in several threads, element access by element access (sequentially consistent; client statements and vector operations on a thread's own objects are single steps) | `Threads` |
| `traits.hpp` (concepts of the constructors), constructors from callables | `Construct` |
| `generic/type.hpp`, `x86/type.hpp`: overload resolution of operators with scalar operands | `Operand` |
| `traits.hpp` `compatible_element` and the broadcast constructors for scalars of other types | `FromScalar` |
| client programs over both backends | `Program`, `FloatProgram`, `Imperative` |

## 5. Not modelled

Intel's library itself (a parameter of `Svml`), constant-evaluated branches
(`std::is_constant_evaluated()`) beyond `Callable`, `CallMask` (do they compile) and `ConstEval` (what do they compute), SSE without SSE2 beyond Model/Sse (C85), `long double`, performance,
ABI/calling conventions (two-vector returns through inline assembly are pairs), overload resolution beyond C12 and the cases named in
the comments, errno, fenv state beyond C82 and C83, the Apple/FreeBSD branches of the CPU detection (they do not compile).
