import Verif.Model.Vector
/-
Bit-level floating-point functions of the x86 backend.
CL = /repo/dpm/detail/x86/class.hpp, FM = x86/fmanip.hpp, MB = x86/mbase.hpp, FC = /repo/dpm/detail/fconst.hpp,
NA = x86/nextafter.cpp, CFG = /repo/dpm/detail/config.hpp.
Only `T` = float (`w = 32`) and double (`w = 64`) are instantiated.  The comparisons used here are
non-signalling or signalling variants with the same result; for the exception flags see Model/Flags.lean.
-/
namespace Dpm.X86
open Dpm.Reg

/-- the signed integer type of the same size, `int_of_size_t<sizeof(T)>` -/
@[reducible] def Ety.toI (T : Ety) : Ety := ⟨T.bytes, false, true⟩

/-- build options: `DPM_PROPAGATE_NAN`, `DPM_HANDLE_ERRORS` (the latter implies the former, CFG:84-87) -/
structure MathOpt where
  propNan : Bool
  handleErr : Bool
  deriving DecidableEq, Repr
def MathOpt.Wf (o : MathOpt) : Prop := o.handleErr = true → o.propNan = true

/-! ### FC: constants -/
/-- `mant_bits` (FC:72-73), `exp_bits` (FC:74-75), `exp_mask` (FC:68-69), `exp_off` (FC:70-71), `exp_middle` (FC:66-67),
`sign_bit` (FC:35-36: `-0.0`). -/
def mantBits (w : Nat) : Nat := if w = 64 then 52 else 23
def expBits (w : Nat) : Nat := if w = 64 then 11 else 8
def expMask (w : Nat) : Nat := if w = 64 then 0x7ff else 0xff
def expOff (w : Nat) : Nat := if w = 64 then 1023 else 127
def expMiddle (w : Nat) : Nat := if w = 64 then 0x3fe else 0x7e
def signBit (w : Nat) : BitVec w := BitVec.intMin w
/-- `std::numeric_limits<T>::infinity()` -/
def infBits (w : Nat) : BitVec w := BitVec.ofNat w (fInf w)
/-- `std::bit_cast<float>(0x00800000)`, `std::bit_cast<double>(0x10'0000'0000'0000)` (CL:28, CL:53) -/
def normMinBits (w : Nat) : BitVec w := if w = 64 then BitVec.ofNat w 0x10000000000000 else BitVec.ofNat w 0x00800000

/-! ### MB, CL: native kernels -/
/-- `abs<T>` of floats (MB:67-68, 125-126, 256-259) -/
def fabsV (T : Ety) (v : VSz) (x : Vec v) : Vec v := bitAnd x (fillV v (BitVec.intMax T.w))
/-- `isunord` (MB:65, 123, 253-254) -/
def isunordV (T : Ety) (v : VSz) (a b : Vec v) : Vec v := cmpF (fun x y => fNaN x || fNaN y) T v a b
/-- `isinf_abs` (CL:13-16, 38-41, 64-67, 83-86) -/
def isinfAbs (T : Ety) (v : VSz) (x : Vec v) : Vec v := cmpF fEq T v x (fillV v (infBits T.w))
/-- `isfinite_abs` (CL:17-25, 42-50: `_CMP_NEQ_OQ` with AVX, `<` without; CL:68-71, 87-90) -/
def isfiniteAbs (s : ISA) (T : Ety) (v : VSz) (x : Vec v) : Vec v :=
  if s.avx then cmpF (fun x y => !fNaN x && !fNaN y && !fEq x y) T v x (fillV v (infBits T.w))
  else cmpF fLt T v x (fillV v (infBits T.w))
/-- `isnormal_abs` (CL:26-31, 51-56, 72-77, 91-96): `!(inf <= x) & !(x < norm_min)` -/
def isnormalAbs (T : Ety) (v : VSz) (x : Vec v) : Vec v :=
  bitAnd (cmpF (fun x y => !fLe x y) T v (fillV v (infBits T.w)) x) (cmpF (fun x y => !fLt x y) T v x (fillV v (normMinBits T.w)))
/-- `masksign<T>` (FM:14-15), `copysign<T>(x, m)` (FM:16-17) -/
def masksign (T : Ety) (v : VSz) (x : Vec v) : Vec v := bitAnd x (fillV v (signBit T.w))
def copysignV (T : Ety) (v : VSz) (x m : Vec v) : Vec v := bitOr (fabsV T v x) m

/-- `impl_nextafter<T>` (NA:11-38) -/
def nextafterV (o : MathOpt) (s : ISA) (T : Ety) (v : VSz) (a b : Vec v) : Vec v :=
  let aSign := bitAnd a (fillV v (signBit T.w))
  let bSign := bitAnd b (fillV v (signBit T.w))
  let absA := bitXor a aSign
  let absB := bitXor b bSign
  let zeroMask := cmpEqI s T.bytes v absA (setzero v)
  let subMask := bitOr (cmpGtI s T.bytes v (setzero v) (bitXor aSign bSign)) (cmpGtI s T.bytes v absA absB)
  let xOff := bitOr (fillV v (1#T.w)) subMask
  let ia := blendv s T.toI v (addI s T.toI v a xOff) (bitOr bSign (fillV v (1#T.w))) zeroMask
  let eqMask := cmpEq s T v a b
  let c := if o.propNan then blendv s T v ia (bitOr a b) (isunordV T v a b) else ia
  blendv s T v c b eqMask

/-! ### API functions (run-time branches) -/
section api
variable (c : Cfg)
/-- `isnan` (CL:104-119), `isinf` (CL:120-135), `isfinite` (CL:136-151), `isnormal` (CL:152-167), `signbit` (CL:168-183) -/
def vIsnan (a : c.Data) : Out c.Data := .ok (vectorize1 c (fun _ x => isunordV c.T c.v x x) (zeroData c) a)
def vIsinf (a : c.Data) : Out c.Data := .ok (vectorize1 c (fun _ x => isinfAbs c.T c.v (fabsV c.T c.v x)) (zeroData c) a)
def vIsfinite (a : c.Data) : Out c.Data := .ok (vectorize1 c (fun _ x => isfiniteAbs c.s c.T c.v (fabsV c.T c.v x)) (zeroData c) a)
def vIsnormal (a : c.Data) : Out c.Data := .ok (vectorize1 c (fun _ x => isnormalAbs c.T c.v (fabsV c.T c.v x)) (zeroData c) a)
def vSignbit (a : c.Data) : Out c.Data := .ok (vectorize1 c (fun _ x => masksign c.T c.v x) (zeroData c) a)
/-- `isgreater` (CL:185-201: `cmp_lt(b, a)`), `isgreaterequal` (CL:202-218: `cmp_le(b, a)`), `isless` (CL:219-235: `cmp_gt(b, a)`),
`islessequal` (CL:236-252: `cmp_ge(b, a)`), `islessgreater` (CL:253-269: `cmp_le(b, a) | cmp_ge(b, a)`), `isunordered` (CL:270-286) -/
def vIsgreater (a b : c.Data) : Out c.Data := .ok (vectorize2 c (fun _ x y => cmpF fLt c.T c.v y x) (zeroData c) a b)
def vIsgreaterequal (a b : c.Data) : Out c.Data := .ok (vectorize2 c (fun _ x y => cmpF fLe c.T c.v y x) (zeroData c) a b)
def vIsless (a b : c.Data) : Out c.Data := .ok (vectorize2 c (fun _ x y => cmpF (fun p q => fLt q p) c.T c.v y x) (zeroData c) a b)
def vIslessequal (a b : c.Data) : Out c.Data := .ok (vectorize2 c (fun _ x y => cmpF (fun p q => fLe q p) c.T c.v y x) (zeroData c) a b)
def vIslessgreater (a b : c.Data) : Out c.Data :=
  .ok (vectorize2 c (fun _ x y => bitOr (cmpF fLe c.T c.v y x) (cmpF (fun p q => fLe q p) c.T c.v y x)) (zeroData c) a b)
def vIsunordered (a b : c.Data) : Out c.Data := .ok (vectorize2 c (fun _ x y => isunordV c.T c.v x y) (zeroData c) a b)
/-- `copysign(x, sign)` with a vector (FM:396-412) and a scalar (FM:413-428) -/
def vCopysign (x sign : c.Data) : Out c.Data :=
  .ok (vectorize2 c (fun _ x s => copysignV c.T c.v x (masksign c.T c.v s)) (zeroData c) x sign)
def vCopysignS (x : c.Data) (sign : BitVec c.w) : Out c.Data :=
  .ok (vectorize1 c (fun _ x => copysignV c.T c.v x (masksign c.T c.v (fillV c.v sign))) (zeroData c) x)
/-- `fabs` (MB:293-295) is `abs` (`vAbs`). -/
def vFabs (x : c.Data) : Out c.Data := vAbs c x
/-- `nextafter(from, to)` (FM:316-332) -/
def vNextafter (o : MathOpt) (a b : c.Data) : Out c.Data :=
  .ok (vectorize2 c (fun _ x y => nextafterV o c.s c.T c.v x y) (zeroData c) a b)
/-- `fmax`, `fmin` (MB:297-332, 351-386): the kernel calls `isunord` with one argument, for which there is no
overload (MB:65, 123, 253-254), so every instantiation is ill-formed. -/
def vFmax (_a _b : c.Data) : Out c.Data := .illFormed
def vFmin (_a _b : c.Data) : Out c.Data := .illFormed
/-- `fdim(a, b)` (MB:333-350): `max(setzero, a - b)` -/
def vFdim (fp : FpOps) (a b : c.Data) : Out c.Data :=
  .ok (vectorize2 c (fun _ x y => map2 c.w fmaxLane (setzero c.v) (subV fp c.s c.T c.v x y)) (zeroData c) a b)
/-- `fdim(a, T b)` (MB:387-404) -/
def vFdimS (fp : FpOps) (a : c.Data) (b : BitVec c.w) : Out c.Data :=
  .ok (vectorize1 c (fun _ x => map2 c.w fmaxLane (setzero c.v) (subV fp c.s c.T c.v x (fillV c.v b))) (zeroData c) a)
end api

end Dpm.X86
