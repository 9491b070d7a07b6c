import Verif.Model.Mask
import Verif.Model.NativeInt
/-
Masks of `float` on a target that has SSE but not SSE2 (`DPM_HAS_SSE` defined, `DPM_HAS_SSE2` not): the functions of
/repo/dpm/detail/x86/cmp.hpp (CMP) and utility.hpp (XU) that have a branch of their own there, and the operators of
type.hpp (X) that call them.  Only `float` is vectorised on such a target (/repo/dpm/detail/x86/abi.hpp:32-38) and only
with 16-byte vectors.  Every other function of X used here is the same text as at the SSE2 level, so the definitions of
Model/Mask at that level are reused for them (`Sse.cfg`).
-/
namespace Dpm.X86.Sse
open Dpm.Reg Dpm.Util

/-- `simd_mask<float, …>` of `N` elements: 16-byte native vectors (/repo/dpm/detail/x86/abi.hpp:32-62).  The ISA level only
selects among the shared branches: none of SSE3 and later. -/
abbrev cfg (N : Nat) : Cfg := ⟨.sse2L, .f32, N, .v128⟩

/-- The constant `std::bit_cast<float>(0x3fff'ffff)` (CMP:223). -/
def eqConst : BitVec 32 := 0x3fffffff#32
/-- `mask_eq<float>(a, b)` without SSE2 (CMP:219-224): `cmp_eq<float>(a, bit_xor(b, fill<V>(0x3fffffff)))`. -/
def maskEq (a b : Vec .v128) : Vec .v128 := cmpF fEq .f32 .v128 a (bitXor b (fillV .v128 eqConst))
/-- `test_mask(x)` without SSE2 (CMP:38-39): `_mm_movemask_ps(x)` converted to `bool`. -/
def testMask (x : Vec .v128) : Bool := decide (movmskInt (n := 128) 32 x ≠ 0)
/-- `setones<V>()` without SSE2 (XU:26-28): `_mm_cmpeq_ps(0, 0)`. -/
def setones : Vec .v128 := cmpF fEq .f32 .v128 (setzero .v128) (setzero .v128)

variable {N : Nat}
/-- `operator==` (X:356-371) over this `mask_eq`. -/
def eq (a b : (cfg N).Data) : (cfg N).Data := vectorize2 (cfg N) (fun _ x y => maskEq x y) (zeroData (cfg N)) a b
/-- `operator!=` (X:372-373): `!(a == b)`. -/
def ne (a b : (cfg N).Data) : (cfg N).Data := Mask.not (cfg N) (eq a b)
/-- `operator||` (X:353-354): `(a | b) != simd_mask{}`. -/
def lor (a b : (cfg N).Data) : (cfg N).Data := ne (Mask.or (cfg N) a b) (zeroData (cfg N))
/-- `blend(m, a, b)` for masks (X:236-260) and vectors (X:747-771): `inv_mask = mask_eq<T>(m, 0)` selects `b`. -/
def blend (m a b : (cfg N).Data) : (cfg N).Data :=
  forRange (cfg N).dataSize (fun i r =>
    let inv_mask := maskEq (m i) (setzero .v128)
    r.set i (blendv .sse2L .f32 .v128 (a i) (b i) inv_mask)) (zeroData (cfg N))
/-- `any_of` (X:403-428), `none_of` (X:429-451) and `some_of` (X:452-481) over this `test_mask`; `all_of` and the
accumulation loops start from this `setones` / `setzero`. -/
def anyOf (m : (cfg N).Data) : Bool := testMask (Mask.anyBits (cfg N) m)
def noneOf (m : (cfg N).Data) : Bool := !testMask (Mask.anyBits (cfg N) m)
/-- `all_of` (X:378-402). -/
def allOf (m : (cfg N).Data) : Option Bool :=
  let result := forRange (cfg N).dataSize (fun i (result : Vec .v128) =>
    let vm := maskone .sse2L .f32 .v128 (m i) (Mask.tailN (cfg N) i)
    bitAndnot (cmpEq .sse2L .f32 .v128 vm (setzero .v128)) result) setones
  (fillBits ((VSz.v128.bytes / Ety.f32.bytes) * movemaskBits .f32)).map
    (fun fb => decide (movemask .sse2L .f32 .v128 result = fb))
def someOf (m : (cfg N).Data) : Option Bool :=
  let r := forRange (cfg N).dataSize (fun i (r : Vec .v128 × Vec .v128) =>
    let n := Mask.tailN (cfg N) i
    let vmz := maskzero .sse2L .f32 .v128 (m i) n
    let vmo := maskone .sse2L .f32 .v128 (m i) n
    (bitOr r.1 vmz, bitAndnot (cmpEq .sse2L .f32 .v128 vmo (setzero .v128)) r.2)) (setzero .v128, setones)
  let any_mask := cmpNe .sse2L .f32 .v128 r.1 (setzero .v128)
  (fillBits ((VSz.v128.bytes / Ety.f32.bytes) * movemaskBits .f32)).map
    (fun fb => testMask any_mask && decide (movemask .sse2L .f32 .v128 r.2 ≠ fb))

end Dpm.X86.Sse
