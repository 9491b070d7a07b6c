import Verif.Model.FloatManip
import Verif.Model.Mbase
import Verif.Model.Vector
/-
Reciprocal and reciprocal square root of x86 vectors.  PW = dpm/detail/x86/pow.hpp, GM = dpm/detail/generic/math.hpp.
The single-precision instructions RCPPS and RSQRTPS are table lookups that differ between processors: they are parameters `rc`, `rs`
(used for 32-bit lanes only).
-/
namespace Dpm.X86
open Dpm.Fp Dpm.Reg

/-- `detail::rcp` (PW:28 and PW:42: `_mm_rcp_ps`, `_mm256_rcp_ps`; PW:34 and PW:46: division of 1.0 by `x`) -/
def rcpV (c : Cfg) (rc : BitVec c.w → BitVec c.w) (x : Vec c.v) : Vec c.v :=
  if c.w = 32 then map1 c.w rc x else fdivL c.w (fillV c.v (oneBits c.w)) x
/-- `ext::rcp(x)` (PW:146-161) -/
def vRcp (c : Cfg) (rc : BitVec c.w → BitVec c.w) (x : c.Data) : Out c.Data :=
  .ok (vectorize1 c (fun _ x => rcpV c rc x) (zeroData c) x)
/-- `ext::rsqrt(x)`.  `float` (PW:163-178, PW:30, PW:44): `_mm_rsqrt_ps`.  `double` has no x86 overload, so the template GM:445 is called:
`rcp(sqrt(x))`, with the `sqrt` of PW:108-123 found by argument-dependent lookup, and `rcp` either GM:437, `simd{1} / x`, or (with
`DPM_INLINE_EXTENSIONS`) PW:146-161, which divides as well.  `junk` is what the vector of ones holds before it is filled. -/
def vRsqrt (c : Cfg) (rs : BitVec c.w → BitVec c.w) (junk x : c.Data) : Out c.Data :=
  if c.w = 32 then .ok (vectorize1 c (fun _ x => map1 c.w rs x) (zeroData c) x)
  else (vSqrt c x).bind fun y => opDiv ieee c (vbroadcast c (oneBits c.w) junk) y
end Dpm.X86
