import Verif.Model.RoundInt
import Verif.Spec.RoundDir
/-
The rounding functions of the x86 backend with the rounding direction `m` of MXCSR (`fesetround`) as a parameter.  Model/Round.lean is the case
`m = .nearest` (`C83_nearest`).  RD = /repo/dpm/detail/x86/round.hpp, CV = x86/cvt.hpp.
Simplifications: as in Model/Round.lean; the compiler evaluates no floating-point operation at compile time in another direction.
-/
namespace Dpm.X86
open Dpm.Reg Dpm.Fp

/-- `_mm*_add_p{s,d}`, `_mm*_sub_p{s,d}`, `_mm*_mul_p{s,d}` -/
def faddLM (m : RMode) (w : Nat) {n : Nat} (a b : BitVec n) : BitVec n := map2 w (faddM m) a b
def fsubLM (m : RMode) (w : Nat) {n : Nat} (a b : BitVec n) : BitVec n := map2 w (fsubM m) a b
def fmulLM (m : RMode) (w : Nat) {n : Nat} (a b : BitVec n) : BitVec n := map2 w (fmulM m) a b
/-- the operators of vectors (Model/Vector.lean, `opAdd` .. `opDiv`) with this unit -/
def dirOps (m : RMode) : FpOps := ⟨fun _ => faddM m, fun _ => fsubM m, fun _ => fmulM m, fun _ => fdivM m⟩
/-- `_mm_cvtepi32_p{s,d}(_mm_cvttp{s,d}_epi32(x))`: truncation, and conversion back in the current direction -/
def cvttBackM (m : RMode) (w : Nat) {n : Nat} (x : BitVec n) : BitVec n := map1 w (fun a => ofIntM m w (cvtInt 32 .zero a).toInt) x

/-- `ceil` (RD:30-41, 64-75, 283, 383); `_mm_ceil_ps` has its own direction -/
def ceilM (m : RMode) (s : ISA) (T : Ety) (v : VSz) (x : Vec v) : Vec v :=
  if s.sse41 then roundL T.w .up x
  else
    let tx := cvttBackM m T.w x
    faddLM m T.w tx (bitAnd (cmpF fLt T v tx x) (fillV v (oneBits T.w)))
/-- `floor` (RD:42-53, 76-87, 284, 384) -/
def floorM (m : RMode) (s : ISA) (T : Ety) (v : VSz) (x : Vec v) : Vec v :=
  if s.sse41 then roundL T.w .down x
  else
    let tx := cvttBackM m T.w x
    fsubLM m T.w tx (bitAnd (cmpF fLt T v x tx) (fillV v (oneBits T.w)))
/-- `trunc` (RD:54-62, 88-97, 285, 385); `trunc_sse2` (CV:138-163) has no floating-point operation -/
def truncM (m : RMode) (s : ISA) (T : Ety) (v : VSz) (x : Vec v) : Vec v :=
  if s.sse41 then roundL T.w .zero x
  else if T.bytes = 8 then truncSse2 s x
  else cvttBackM m T.w x
/-- `rint<T>`, `nearbyint` (RD:178-204, 255-281, 286, 369, 386, 424): `_MM_FROUND_CUR_DIRECTION`, or adding and subtracting `2^23`, `2^52` -/
def rintM (m : RMode) (s : ISA) (T : Ety) (v : VSz) (x : Vec v) : Vec v :=
  if s.sse41 then roundL T.w m x
  else
    let signX := bitAnd x (fillV v (BitVec.intMin T.w))
    let off := fillV v (offsetBits T.w)
    let absX := bitXor x signX
    let tmpMask := cmpF fLe T v off absX
    let tmp := bitOr (fsubLM m T.w (faddLM m T.w absX off) off) signX
    if T.bytes = 8 then bitOr (bitAndnot tmpMask tmp) (bitAnd tmpMask tmp)
    else bitOr (bitAndnot tmpMask tmp) (bitAnd tmpMask x)
/-- `round<T>` (RD:139-156, 231-248, 340-346, 406-412) -/
def roundM (m : RMode) (s : ISA) (T : Ety) (v : VSz) (x : Vec v) : Vec v :=
  if s.sse41 then
    let sign := bitAnd x (fillV v (BitVec.intMin T.w))
    let off := bitOr sign (fillV v (nearHalf T.w))
    if T.bytes = 4 ∧ v = .v256 then roundL T.w .zero (bitAnd x off)
    else roundL T.w .zero (faddLM m T.w x off)
  else
    let tx := cvttBackM m T.w x
    let rem := fmulLM m T.w (fsubLM m T.w x tx) (fillV v (nearTwo T.w))
    faddLM m T.w tx (cvttBackM m T.w rem)

section api
variable (m : RMode) (c : Cfg)
/-- `ceil(x)`, `floor(x)`, `trunc(x)`, `nearbyint(x)`, `round(x)`, `rint(x)` (RD:447-528, 572-586) with direction `m` -/
def mCeil (x : c.Data) : Out c.Data := .ok (vectorize1 c (fun _ x => ceilM m c.s c.T c.v x) (zeroData c) x)
def mFloor (x : c.Data) : Out c.Data := .ok (vectorize1 c (fun _ x => floorM m c.s c.T c.v x) (zeroData c) x)
def mTrunc (x : c.Data) : Out c.Data := .ok (vectorize1 c (fun _ x => truncM m c.s c.T c.v x) (zeroData c) x)
def mNearbyint (x : c.Data) : Out c.Data := .ok (vectorize1 c (fun _ x => rintM m c.s c.T c.v x) (zeroData c) x)
def mRint (x : c.Data) : Out c.Data := .ok (vectorize1 c (fun _ x => rintM m c.s c.T c.v x) (zeroData c) x)
def mRound (x : c.Data) : Out c.Data := .ok (vectorize1 c (fun _ x => roundM m c.s c.T c.v x) (zeroData c) x)
end api

/-! ### conversions to vectors of integers -/
/-- `cvt_f64_i64_sse` (CV:101-105) and the AVX2 body (CV:306-307): adding `1.5 * 2^52` -/
def f64i64LM (m : RMode) {n : Nat} (x : BitVec n) : BitVec n :=
  let offset := set1 n (ofInt 64 0x0018000000000000)
  subL 64 (faddLM m 64 x offset) offset
/-- `cvt_f64_i64` (CV:131-138, 339-346) -/
def cvtF64I64M (m : RMode) (s : ISA) : (v : VSz) → Vec v → Vec v
  | .v128, x => if s.dqvl then cvtfpL (n := 128) 64 m x else f64i64LM m (n := 128) x
  | .v256, x => if s.dqvl then cvtfpL (n := 256) 64 m x else if s.avx2 then f64i64LM m (n := 256) x else mux1 (f64i64LM m) x
/-- `rint<I>(x, dst + j)` (RD:161-175, 252-255, 353-364, 416-421), see `rintK`: `cvtps2dq`, `cvtpd2dq`, `cvtps2qq`, `cvtpd2qq` use the current
direction -/
def rintKM (m : RMode) (c ci : Cfg) : Option (Kern c ci) :=
  if ci.T.bytes = 4 then
    if c.T.bytes = 4 then some fun x d j => putVec ci.dataSize d j (BitVec.setWidth ci.v.bits (cvtfpL 32 m x))
    else some fun x => putI32 ci (cvtpdEpi32 m c.v x)
  else if ci.T.bytes = 8 then
    if c.T.bytes = 4 then
      if c.v ≠ ci.v then none
      else if c.v = .v256 ∧ c.s.avx2 = false then none
      else if c.v = .v128 ∧ c.s.dqvl = true then
        some fun x => put2 c ci (ofLanes c.v.bits 64 (fun k => cvtInt 64 m (lane 32 x k))) (ofLanes c.v.bits 64 (fun k => cvtInt 64 m (lane 32 x (2 + k))))
      else some fun x =>
        let tmp := cvtfpL 32 m x
        let sign := sraiL 32 tmp 31
        put2 c ci (widenLo c.v tmp sign) (widenHi c.v tmp sign)
    else some fun x d j => putVec ci.dataSize d j (BitVec.setWidth ci.v.bits (cvtF64I64M m c.s c.v x))
  else none
/-- `_mm*_cvtepi32_ps`, `_mm*_cvtepi64_pd`, `_mm*_cvtepi32_pd` -/
def cvtepiLM (m : RMode) (w : Nat) {n : Nat} (x : BitVec n) : BitVec n := map1 w (fun a => ofIntM m w a.toInt) x
def cvtepi32PdM (m : RMode) (v : VSz) (x : BitVec 128) : Vec v := ofLanes v.bits 64 (fun k => ofIntM m 64 (lane 32 x k).toInt)
/-- `round<int32_t>` of floats (RD:113-121, 308-320), see `roundPs`: the subtraction and the multiplication use the current direction -/
def roundPsM (m : RMode) {n : Nat} (x : BitVec n) : BitVec n :=
  let ix := cvtfpL 32 .zero x
  let tx := cvtepiLM m 32 ix
  let rem := fmulLM m 32 (fsubLM m 32 x tx) (set1 n (nearTwo 32))
  addL 32 ix (cvtfpL 32 .zero rem)
/-- `round<int32_t>` of doubles (RD:209-217, 380-388), see `roundPd` -/
def roundPdM (m : RMode) (v : VSz) (x : Vec v) : BitVec 128 :=
  let ix := cvtpdEpi32 .zero v x
  let tx := cvtepi32PdM m v ix
  let rem := fmulLM m 64 (fsubLM m 64 x tx) (set1 v.bits (nearTwo 64))
  addL 32 ix (cvtpdEpi32 .zero v rem)
/-- `round<int64_t>` of doubles with AVX-512 DQ and VL (RD:221-226, 394-399), see `roundPd64` -/
def roundPd64M (m : RMode) {n : Nat} (x : BitVec n) : BitVec n :=
  let ix := cvtfpL 64 .zero x
  let tx := cvtepiLM m 64 ix
  let rem := fmulLM m 64 (fsubLM m 64 x tx) (set1 n (nearTwo 64))
  addL 64 ix (cvtfpL 64 .zero rem)
/-- `round<I>(x, dst + j)` (RD:113-143, 209-234, 308-344, 380-407), see `roundK` -/
def roundKM (m : RMode) (c ci : Cfg) : Option (Kern c ci) :=
  if ci.T.bytes = 4 then
    if c.T.bytes = 4 then
      if c.v = .v256 ∧ c.s.avx2 = false then none
      else some fun x d j => putVec ci.dataSize d j (BitVec.setWidth ci.v.bits (roundPsM m x))
    else some fun x => putI32 ci (roundPdM m c.v x)
  else if ci.T.bytes = 8 then
    if c.T.bytes = 4 then
      if c.v ≠ ci.v then none
      else if c.v = .v256 ∧ c.s.avx2 = false then none
      else if c.s.dqvl = true then none
      else some fun x =>
        let tmp := roundPsM m x
        let sign := sraiL 32 tmp 31
        put2 c ci (widenLo c.v tmp sign) (widenHi c.v tmp sign)
    else if c.s.dqvl = true then some fun x d j => putVec ci.dataSize d j (BitVec.setWidth ci.v.bits (roundPd64M m x))
    else match c.v with
      | .v128 => some fun x =>
        let tmp := roundPdM m .v128 (BitVec.setWidth 128 x)
        let zero := tmp ^^^ tmp
        put2 c ci (BitVec.setWidth c.v.bits (unpackloEpi32 tmp zero)) (BitVec.setWidth c.v.bits (unpackhiEpi32 tmp zero))
      | .v256 => some fun x d j =>
        let tmp := roundPdM m .v256 (BitVec.setWidth 256 x)
        let sign := sraiL 32 tmp 31
        putVec ci.dataSize d j (BitVec.setWidth ci.v.bits (setHL (unpackhiEpi32 tmp sign) (unpackloEpi32 tmp sign)))
  else none
section intapi
open Dpm.Generic Dpm.GenericMath Dpm.Callable
variable (m : RMode) (c ci : Cfg) (L : Cmath c.w) (x : c.Data)
/-- `lround(x)`, `llround(x)` (RD:528-573; `detail::lround`, RD:433-434, calls `rint`), `llrint(x)` (RD:614-636), `ext::irint<I>(x)` (RD:672-687)
with direction `m` -/
def mLround : Out ci.Data := bothBranches (gRndL L .lround (packedX c x)) (strided c ci (rintKM m c ci) x)
def mLlround : Out ci.Data := bothBranches (gRndL L .llround (packedX c x)) (strided c ci (rintKM m c ci) x)
def mLlrint : Out ci.Data := bothBranches (gRndL L .llrint (packedX c x)) (strided c ci (rintKM m c ci) x)
def mIrint : Out ci.Data := bothBranches (gIrint L ci.w (packedX c x)) (vectorizeI c ci (rintKM m c ci) x)
/-- `ext::iround<I>(x)` (RD:656-671) with direction `m` -/
def mIround : Out ci.Data := bothBranches (gIround L ci.w (packedX c x)) (vectorizeI c ci (roundKM m c ci) x)
end intapi
end Dpm.X86
