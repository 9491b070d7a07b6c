import Verif.Model.Round
import Verif.Model.Callable
/-
Rounding to vectors of integers on the x86 backend: `lround`, `llround`, `lrint`, `llrint` and `ext::iround<I>`, `ext::irint<I>`,
`ext::itrunc<I>`.  RD = /repo/dpm/detail/x86/round.hpp, CV = x86/cvt.hpp, X = x86/type.hpp.
`long` and `long long` have 64 bits (LP64); the current rounding direction is to nearest.  `c` is the configuration of the argument
`x86_simd<T, N, A>`, `ci` that of the result `x86_simd<I, N, A>` (`Cfg.IntOf`, `Cfg.LongOf`).
-/
namespace Dpm.X86
open Dpm Dpm.Reg Dpm.Fp Dpm.Generic Dpm.GenericMath Dpm.Callable

/-- `_mm*_cvtpd_epi32`, `_mm*_cvttpd_epi32`: two (four) integers in the low lanes of a 16-byte vector, the others zero -/
def cvtpdEpi32 (m : RMode) (v : VSz) (x : Vec v) : BitVec 128 :=
  ofLanes 128 32 (fun k => if k < v.bits / 64 then cvtInt 32 m (lane 64 x k) else 0#32)
/-- `_mm*_cvtepi32_pd` -/
def cvtepi32Pd (v : VSz) (x : BitVec 128) : Vec v := ofLanes v.bits 64 (fun k => ofInt 64 (lane 32 x k).toInt)
/-- `_mm_unpacklo_epi32(t, h)`; for 32 bytes `_mm256_permute2f128(unpacklo, unpackhi, 0x20)` (RD:106-109, 299-303, 339-342, 358-363) -/
def widenLo : (v : VSz) → Vec v → Vec v → Vec v
  | .v128, t, h => unpackloEpi32 (n := 128) t h
  | .v256, t, h => setHL (lo (unpackhiEpi32 (n := 256) t h)) (lo (unpackloEpi32 (n := 256) t h))
/-- `_mm_unpackhi_epi32(t, h)`; for 32 bytes `_mm256_permute2f128(unpacklo, unpackhi, 0x31)` -/
def widenHi : (v : VSz) → Vec v → Vec v → Vec v
  | .v128, t, h => unpackhiEpi32 (n := 128) t h
  | .v256, t, h => setHL (hi (unpackhiEpi32 (n := 256) t h)) (hi (unpackloEpi32 (n := 256) t h))

/-- `dst[j] = y` for native storage of `n` vectors; an access past the end is undefined -/
def putVec {α : Type} (n : Nat) (dst : Mem α) (j : Nat) (y : α) : Option (Mem α) := if j < n then some (dst.set j y) else none

section kernels
variable (c ci : Cfg)
/-- one call `f<I>(x, dst + j)` -/
abbrev Kern := Vec c.v → ci.Data → Nat → Option ci.Data
/-- `dst[0] = y0; dst[1] = y1` -/
def put2 (y0 y1 : Vec c.v) (dst : ci.Data) (j : Nat) : Option ci.Data :=
  (putVec ci.dataSize dst j (BitVec.setWidth ci.v.bits y0)).bind fun d => putVec ci.dataSize d (j + 1) (BitVec.setWidth ci.v.bits y1)
/-- a 16-byte store to `dst`: with 32-byte storage (`reinterpret_cast<__m128i *>(dst)`, RD:390, 419) only the low half changes -/
def putI32 (y : BitVec 128) (dst : ci.Data) (j : Nat) : Option ci.Data :=
  putVec ci.dataSize dst j (if ci.v = .v256 then BitVec.setWidth ci.v.bits (setHL (hi (BitVec.setWidth 256 (dst j))) y)
    else BitVec.setWidth ci.v.bits y)

/-- `rint<I>(x, dst + j)` (RD:161-175, 252-255, 353-364, 416-421).  No overload for 1- and 2-byte integers.  `(__m128, __m256i *)`:
for `lround` and `llround` no overload is visible, for the others RD:441 forwards to `(__m128, __m128 *)`, of which there is none for
integers.  The `__m256` version for 8-byte integers needs AVX2 (`_mm256_srai_epi32`). -/
def rintK : Option (Kern c ci) :=
  if ci.T.bytes = 4 then
    if c.T.bytes = 4 then some fun x d j => putVec ci.dataSize d j (BitVec.setWidth ci.v.bits (cvtfpL 32 .nearest x))
    else some fun x => putI32 ci (cvtpdEpi32 .nearest c.v x)
  else if ci.T.bytes = 8 then
    if c.T.bytes = 4 then
      if c.v ≠ ci.v then none
      else if c.v = .v256 ∧ c.s.avx2 = false then none
      else if c.v = .v128 ∧ c.s.dqvl = true then
        some fun x => put2 c ci (ofLanes c.v.bits 64 (fun k => cvtInt 64 .nearest (lane 32 x k))) (ofLanes c.v.bits 64 (fun k => cvtInt 64 .nearest (lane 32 x (2 + k))))
      else some fun x =>
        let tmp := cvtfpL 32 .nearest x
        let sign := sraiL 32 tmp 31
        put2 c ci (widenLo c.v tmp sign) (widenHi c.v tmp sign)
    else some fun x d j => putVec ci.dataSize d j (BitVec.setWidth ci.v.bits (cvtF64I64 c.s c.v x))
  else none

/-- `round<int32_t>` of floats (RD:113-121, 308-320) -/
def roundPs {n : Nat} (x : BitVec n) : BitVec n :=
  let ix := cvtfpL 32 .zero x
  let tx := cvtepiL 32 ix
  let rem := fmulL 32 (fsubL 32 x tx) (set1 n (nearTwo 32))
  addL 32 ix (cvtfpL 32 .zero rem)
/-- `round<int32_t>` of doubles (RD:209-217, 380-388) -/
def roundPd (v : VSz) (x : Vec v) : BitVec 128 :=
  let ix := cvtpdEpi32 .zero v x
  let tx := cvtepi32Pd v ix
  let rem := fmulL 64 (fsubL 64 x tx) (set1 v.bits (nearTwo 64))
  addL 32 ix (cvtpdEpi32 .zero v rem)
/-- `round<int64_t>` of doubles with AVX-512 DQ and VL (RD:221-226, 394-399) -/
def roundPd64 {n : Nat} (x : BitVec n) : BitVec n :=
  let ix := cvtfpL 64 .zero x
  let tx := cvtepiL 64 ix
  let rem := fmulL 64 (fsubL 64 x tx) (set1 n (nearTwo 64))
  addL 64 ix (cvtfpL 64 .zero rem)
/-- `round<I>(x, dst + j)` (RD:113-143, 209-234, 308-344, 380-407).  The `__m256` version for 4-byte integers without AVX2 calls
`_mm_add_epi32` with one argument (RD:318); the float versions for 8-byte integers with AVX-512 DQ and VL add `__m128` to `__m128i`
(RD:134-135, 333-334).  Both do not compile. -/
def roundK : Option (Kern c ci) :=
  if ci.T.bytes = 4 then
    if c.T.bytes = 4 then
      if c.v = .v256 ∧ c.s.avx2 = false then none
      else some fun x d j => putVec ci.dataSize d j (BitVec.setWidth ci.v.bits (roundPs x))
    else some fun x => putI32 ci (roundPd c.v x)
  else if ci.T.bytes = 8 then
    if c.T.bytes = 4 then
      if c.v ≠ ci.v then none
      else if c.v = .v256 ∧ c.s.avx2 = false then none
      else if c.s.dqvl = true then none
      else some fun x =>
        let tmp := roundPs x
        let sign := sraiL 32 tmp 31
        put2 c ci (widenLo c.v tmp sign) (widenHi c.v tmp sign)
    else if c.s.dqvl = true then some fun x d j => putVec ci.dataSize d j (BitVec.setWidth ci.v.bits (roundPd64 x))
    else match c.v with
      | .v128 => some fun x =>
        let tmp := roundPd .v128 (BitVec.setWidth 128 x)
        let zero := tmp ^^^ tmp
        put2 c ci (BitVec.setWidth c.v.bits (unpackloEpi32 tmp zero)) (BitVec.setWidth c.v.bits (unpackhiEpi32 tmp zero))
      | .v256 => some fun x d j =>
        let tmp := roundPd .v256 (BitVec.setWidth 256 x)
        let sign := sraiL 32 tmp 31
        putVec ci.dataSize d j (BitVec.setWidth ci.v.bits (setHL (unpackhiEpi32 tmp sign) (unpackloEpi32 tmp sign)))
  else none

/-- the loop of `lround`, `llround`, `lrint`, `llrint` (RD:546-547, 569-570, 609-610, 632-633): `i = 0, from_extent, …` while `i < N`;
`x_data[i / from_extent]`, `result_data.data() + i / to_extent` -/
def strided (k : Option (Kern c ci)) (x : c.Data) : Out ci.Data :=
  match k with
  | none => .illFormed
  | some f => Out.ofUb (forRangeM c.dataSize (fun i d => f (x (i * c.e / c.e)) d (i * c.e / ci.e)) (zeroData ci))
/-- `vectorize([](auto &res, auto x) { f<I>(x, &res); }, result, x)` (RD:668, 684; X:54-58): the loop runs over the native vectors of the
*result* and takes the vector of `x` with the same index -/
def vectorizeI (k : Option (Kern c ci)) (x : c.Data) : Out ci.Data :=
  match k with
  | none => .illFormed
  | some f => Out.ofUb (forRangeM ci.dataSize (fun i d => if i < c.dataSize then f (x i) d i else none) (zeroData ci))
end kernels

section api
variable (c ci : Cfg) (L : Cmath c.w) (x : c.Data)
/-- the argument converted to `packed_buffer<N>` -/
def packedX : GSimd (BitVec c.w) c.N := ⟨fun i => elt c x i⟩
/-- `lround(x)` (RD:528-550) and `llround(x)` (RD:551-573): `detail::lround`, `detail::llround` (RD:433-434) call `rint` -/
def vLround : Out ci.Data := bothBranches (gRndL L .lround (packedX c x)) (strided c ci (rintK c ci) x)
def vLlround : Out ci.Data := bothBranches (gRndL L .llround (packedX c x)) (strided c ci (rintK c ci) x)
/-- `lrint(x)` (RD:591-613) and `llrint(x)` (RD:614-636) -/
def vLrint : Out ci.Data := bothBranches (gRndL L .lrint (packedX c x)) (strided c ci (rintK c ci) x)
def vLlrint : Out ci.Data := bothBranches (gRndL L .llrint (packedX c x)) (strided c ci (rintK c ci) x)
/-- `ext::itrunc<I>(x)` (RD:640-655): the only overloads of `detail::itrunc` take two arguments (RD:97-111, 204-207, 290-306, 373-378) -/
def vItrunc : Out ci.Data := bothBranches (gItrunc L ci.w (packedX c x)) .illFormed
/-- `ext::iround<I>(x)` (RD:656-671) -/
def vIround : Out ci.Data := bothBranches (gIround L ci.w (packedX c x)) (vectorizeI c ci (roundK c ci) x)
/-- `ext::irint<I>(x)` (RD:672-687) -/
def vIrint : Out ci.Data := bothBranches (gIrint L ci.w (packedX c x)) (vectorizeI c ci (rintK c ci) x)
end api
end Dpm.X86
