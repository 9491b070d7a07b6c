import Verif.Model.GenericMath
import Verif.Model.FloatBits
import Verif.Model.Trig
/-
Which calls on x86 vectors compile.  The x86 function templates have the shape

    if (std::is_constant_evaluated()) { … packed_buffer … } else { … native … }

with a plain `if` (not `if constexpr`, for which `is_constant_evaluated()` would be useless): instantiating the function instantiates
*both* branches.  A constant-evaluated branch that does not compile makes every call ill-formed, even those that would run only the
other branch.  The definitions `vAbs`, `vLsl`, `vSincos`, … of the other modules model the run-time branch alone; the definitions here
model the whole function.  MB = detail/x86/mbase.hpp, X = detail/x86/type.hpp, TR = detail/x86/trig.hpp.
-/
namespace Dpm.Callable
open Dpm Dpm.Generic Dpm.X86 Dpm.GenericMath

/-- `if (std::is_constant_evaluated()) k else r`, executed at run time. -/
def bothBranches {α β : Type} (k : Out β) (r : Out α) : Out α :=
  match k with
  | .illFormed => .illFormed
  | _ => r

/-- `static_cast<simd<T, packed_buffer<N>>>(x)` for a vector of `M` elements: the conversion operators (X:627, X:633) require
`simd_size_v<U, OtherAbi> == size()`. -/
def packedOf (M N : Nat) : Out Unit := if N = M then .ok () else .illFormed
/-- `static_cast<x86_mask<T, N, A>>(v)` for a *vector* `v`: there is no conversion from vectors to masks (X:57-110). -/
def maskOfVector : Out Unit := .illFormed

section
variable (c : Cfg)
/-- the constant-evaluated branch of `abs` (MB:281-285): `abs(packed)` is the generic template -/
def absConst (L : Cmath c.w) (a : c.Data) : Out (GSimd (BitVec c.w) c.N) :=
  (packedOf c.N c.N).bind fun _ => gFn1 L .fabs ⟨fun i => elt c a i⟩
/-- `abs(x)` (MB:277-292).  Simplification: for integral `T` the generic template calls `std::abs` on integers; it fails to compile for
the same reason. -/
def callAbs (L : Cmath c.w) (a : c.Data) : Out c.Data := bothBranches (absConst c L a) (vAbs c a)
/-- `fabs(x)` (MB:293-295): forwards to `abs` -/
def callFabs (L : Cmath c.w) (a : c.Data) : Out c.Data := callAbs c L a

/-- the constant-evaluated branch of `lsl<N>`, `lsr<N>`, `asl<N>`, `asr<N>` (X:1301-1305, 1317-1321, 1334-1338, 1350-1354): here `N` is the
shift count and `M` the number of elements; the branch converts to `packed_buffer<N>` and the result to `x86_mask<T, N, A>`. -/
def shiftConst (k : Nat) : Out Unit := (packedOf c.N k).bind fun _ => maskOfVector
/-- `ext::lsl<k>(x)`, `ext::lsr<k>(x)`, `ext::asl<k>(x)`, `ext::asr<k>(x)` (X:1297-1361) -/
def callLsl (k : Nat) (a : c.Data) : Out c.Data := bothBranches (shiftConst c k) (vLsl c k a)
def callLsr (k : Nat) (a : c.Data) : Out c.Data := bothBranches (shiftConst c k) (vLsr c k a)
def callAsl (k : Nat) (a : c.Data) : Out c.Data := bothBranches (shiftConst c k) (vAsl c k a)
def callAsr (k : Nat) (a : c.Data) : Out c.Data := bothBranches (shiftConst c k) (vAsr c k a)

/-- `ext::sincos` (TR:268-282): the constant-evaluated branch calls the generic `sincos` on the packed vectors. -/
def callSincos (builtins : Bool) (L : Cmath c.w) (lm : Libm) (o : MathOpt) (fm : Bool) (x outSin outCos : c.Data) : Out (c.Data × c.Data) :=
  bothBranches ((packedOf c.N c.N).bind fun _ => gSincos L builtins (⟨fun i => elt c x i⟩ : GSimd (BitVec c.w) c.N)) (vSincos c lm o fm x outSin outCos)
/-- `sin`, `cos`, … (TR:171-262): the constant-evaluated branch calls the generic function, which compiles. -/
def callSin (L : Cmath c.w) (lm : Libm) (o : MathOpt) (fm : Bool) (x : c.Data) : Out c.Data :=
  bothBranches ((packedOf c.N c.N).bind fun _ => gFn1 L .sin (⟨fun i => elt c x i⟩ : GSimd (BitVec c.w) c.N)) (vSin c lm o fm x)
end
end Dpm.Callable
