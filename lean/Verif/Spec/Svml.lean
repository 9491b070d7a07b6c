import Verif.Model.GenericMath
/-
Specification of Intel's short vector math library as the compilers that have it (MSVC, Intel) declare it in `<immintrin.h>`: the
signatures of its functions, and that each of them computes lane by lane a function of the lane.  Which function that is - how exact the
sine is, what happens with NaN - is a parameter; it may differ between the 128-bit and the 256-bit version.
-/
namespace Dpm.Svml
open Dpm Dpm.Reg Dpm.X86 Dpm.GenericMath

/-- A version of the library. -/
structure Svml where
  fn1 : Fn1 → VSz → (w : Nat) → BitVec w → BitVec w
  fn2 : Fn2 → VSz → (w : Nat) → BitVec w → BitVec w → BitVec w

/-- `__m128`, `__m128d`, `__m256`, `__m256d` -/
inductive XReg where
  | ps128 | pd128 | ps256 | pd256
  deriving DecidableEq
/-- the register type of a vector configuration -/
def XReg.of (T : Ety) : VSz → XReg
  | .v128 => if T.bytes = 4 then .ps128 else .pd128
  | .v256 => if T.bytes = 4 then .ps256 else .pd256
/-- the C++ types that occur: a register and a pointer to one.  There is no conversion between any two of them. -/
inductive CType where
  | reg (r : XReg) | ptr (r : XReg)
  deriving DecidableEq
/-- the functions of the library: `_mm_<f>_ps` for one and two operands, and `_mm_sincos_ps` -/
inductive IntrName where
  | one (f : Fn1) | two (f : Fn2) | sincos
  deriving DecidableEq
/-- the parameters, e.g. `__m128 _mm_exp_ps(__m128)`, `__m128 _mm_pow_ps(__m128, __m128)`, `__m128 _mm_sincos_ps(__m128 *, __m128)` -/
def signature (r : XReg) : IntrName → List CType
  | .one _ => [.reg r]
  | .two _ => [.reg r, .reg r]
  | .sincos => [.ptr r, .reg r]
end Dpm.Svml
