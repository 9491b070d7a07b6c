import Verif.Model.Round
import Verif.Model.Cvt
import Verif.Model.Mbase
import Verif.Spec.Flags
/-
Which operations of the floating-point unit the operators and classification functions execute, on which operands: what decides about the
exception flags of MXCSR.  The other models compute results only; here every call returns its result and the list of lane operations executed.
X = /repo/dpm/detail/x86/type.hpp, CMP = x86/cmp.hpp, CL = x86/class.hpp, MB = x86/mbase.hpp, RD = x86/round.hpp, AS = x86/addsub.hpp,
MD = x86/muldiv.hpp, MM = x86/minmax.hpp, PW = x86/pow.hpp, G = /repo/dpm/detail/generic/type.hpp, GM = /repo/dpm/detail/generic/math.hpp.
Simplifications: flags are neither unmasked (no traps) nor is flush-to-zero on; the compiler neither removes nor adds floating-point operations.
-/
namespace Dpm.X86
open Dpm.Reg Dpm.Util Dpm.Generic Dpm.Fp

/-- one operation of the floating-point unit on one lane -/
abbrev Ev (w : Nat) := FOpc × BitVec w × BitVec w
/-- a packed instruction executes its operation on every lane of the register -/
def lanesEv (c : Cfg) (o : FOpc) (x y : Vec c.v) : List (Ev c.w) := (List.range c.e).map fun k => (o, lane c.w x k, lane c.w y k)
/-- `vectorize` (X:54-58) with a traced kernel: all native vectors, hence the padding lanes as well -/
def traced (c : Cfg) (k : Vec c.v → Vec c.v → Vec c.v × List (Ev c.w)) (a b : c.Data) : c.Data × List (Ev c.w) :=
  forRange c.dataSize (fun j s => let r := k (a j) (b j); (s.1.set j r.1, s.2 ++ r.2)) (zeroData c, [])

/-- The comparison instruction: `_mm_cmplt_ps`, `_mm_cmple_ps`, `_mm_cmpgt_ps`, `_mm_cmpge_ps` (CMP:14-20, 49-55) are the predicates LT_OS, LE_OS,
which signal on quiet NaNs; `_mm_cmpeq_ps`, `_mm_cmpneq_ps` (CMP:12, 22, 47, 57) are EQ_OQ, NEQ_UQ; the 32-byte versions are `_CMP_.._OQ`, `_CMP_NEQ_UQ`
throughout (CMP:127-137, 148-158). -/
def cmpOpc : VSz → RelOp → FOpc
  | .v128, .eq => .cmpQ
  | .v128, .ne => .cmpQ
  | .v128, .lt => .cmpS
  | .v128, .gt => .cmpS
  | .v128, .le => .cmpS
  | .v128, .ge => .cmpS
  | .v256, _ => .cmpQ

section kernels
variable (fp : FpOps) (c : Cfg)
/-- `add<T>`, `sub<T>` (AS:10-16, 34-37, 54-66), `mul<T>`, `div<T>` (MD:10-20) of floats -/
def kArith : Arith → Vec c.v → Vec c.v → Vec c.v × List (Ev c.w)
  | .add, x, y => (addV fp c.s c.T c.v x y, lanesEv c .add x y)
  | .sub, x, y => (subV fp c.s c.T c.v x y, lanesEv c .sub x y)
  | .mul, x, y => ((mulV fp c.s c.T c.v x y).getD 0, lanesEv c .mul x y)
  | .div, x, y => (map2 c.w (fp.div c.w) x y, lanesEv c .div x y)
/-- `cmp_eq<T>`, .. , `cmp_ge<T>` of floats (CMP:11-22, 46-57, 126-158); `_mm_cmpgt_ps(a, b)` is `_mm_cmplt_ps(b, a)` -/
def kRel : RelOp → Vec c.v → Vec c.v → Vec c.v × List (Ev c.w)
  | .eq, x, y => (cmpEq c.s c.T c.v x y, lanesEv c (cmpOpc c.v .eq) x y)
  | .ne, x, y => (cmpNe c.s c.T c.v x y, lanesEv c (cmpOpc c.v .ne) x y)
  | .lt, x, y => (cmpF fLt c.T c.v x y, lanesEv c (cmpOpc c.v .lt) x y)
  | .gt, x, y => (cmpF (fun x y => fLt y x) c.T c.v x y, lanesEv c (cmpOpc c.v .gt) y x)
  | .le, x, y => (cmpF fLe c.T c.v x y, lanesEv c (cmpOpc c.v .le) x y)
  | .ge, x, y => (cmpF (fun x y => fLe y x) c.T c.v x y, lanesEv c (cmpOpc c.v .ge) y x)
/-- `isgreater`: `cmp_lt(b, a)` (CL:199), `isgreaterequal`: `cmp_le(b, a)` (CL:216), `isless`: `cmp_gt(b, a)` (CL:233), `islessequal`: `cmp_ge(b, a)`
(CL:250), `islessgreater`: `cmp_le(b, a) | cmp_ge(b, a)` (CL:267), `isunordered`: `isunord` (CL:284; MB:65, 123, 253-254: UNORD_Q) -/
def kQRel : QRel → Vec c.v → Vec c.v → Vec c.v × List (Ev c.w)
  | .greater, x, y => kRel c .lt y x
  | .greaterequal, x, y => kRel c .le y x
  | .less, x, y => kRel c .gt y x
  | .lessequal, x, y => kRel c .ge y x
  | .lessgreater, x, y => (bitOr (kRel c .le y x).1 (kRel c .ge y x).1, (kRel c .le y x).2 ++ (kRel c .ge y x).2)
  | .unordered, x, y => (isunordV c.T c.v x y, lanesEv c .cmpQ x y)
end kernels

/-- classification functions of one argument -/
inductive Class | nan | inf | finite | normal
/-- `isnan` (CL:117), `isinf_abs` (CL:13-16, 38-41, 64-67, 83-86: EQ_OQ), `isfinite_abs` (CL:17-25, 42-50, 68-71, 87-90: NEQ_OQ with AVX, LT_OS without),
`isnormal_abs` (CL:26-31, 51-56: NLE_US, NLT_US; CL:72-77, 91-96: NLE_UQ, NLT_UQ); the arguments are absolute values (CL:33-35 ff.) -/
def kClass (c : Cfg) : Class → Vec c.v → Vec c.v × List (Ev c.w)
  | .nan, x => (isunordV c.T c.v x x, lanesEv c .cmpQ x x)
  | .inf, x => (isinfAbs c.T c.v (fabsV c.T c.v x), lanesEv c .cmpQ (fabsV c.T c.v x) (fillV c.v (infBits c.w)))
  | .finite, x => (isfiniteAbs c.s c.T c.v (fabsV c.T c.v x),
      lanesEv c (if c.s.avx then .cmpQ else .cmpS) (fabsV c.T c.v x) (fillV c.v (infBits c.w)))
  | .normal, x =>
    let o : FOpc := match c.v with | .v128 => .cmpS | .v256 => .cmpQ
    (isnormalAbs c.T c.v (fabsV c.T c.v x),
      lanesEv c o (fillV c.v (infBits c.w)) (fabsV c.T c.v x) ++ lanesEv c o (fabsV c.T c.v x) (fillV c.v (normMinBits c.w)))

section api
variable (fp : FpOps) (c : Cfg)
/-- `a + b`, .. (X:793-823, 859-889) and with a scalar (X:826-857, 891-922) -/
def tArith (o : Arith) (a b : c.Data) : c.Data × List (Ev c.w) := traced c (kArith fp c o) a b
def tArithS (o : Arith) (a : c.Data) (s : BitVec c.w) : c.Data × List (Ev c.w) := traced c (kArith fp c o) a (fillData c s)
/-- `a == b`, .. of floats (X:1174-1270) -/
def tRel (r : RelOp) (a b : c.Data) : c.Data × List (Ev c.w) := traced c (kRel c r) a b
/-- `isgreater(a, b)`, .. (CL:185-286) -/
def tQRel (r : QRel) (a b : c.Data) : c.Data × List (Ev c.w) := traced c (kQRel c r) a b
/-- `isnan(x)`, .. (CL:104-167) -/
def tClass (k : Class) (a : c.Data) : c.Data × List (Ev c.w) := traced c (fun x _ => kClass c k x) a a

/-- `rint<T>` of one native vector (RD:176-190, 256-270: add and subtract `2^23` or `2^52`, and `cmpge`; RD:180, 260, 366, 423: ROUNDPS with
`_MM_FROUND_RAISE_EXC`) -/
def kRint (x : Vec c.v) : Vec c.v × List (Ev c.w) :=
  (rintV c.s c.T c.v x,
    if c.s.sse41 then lanesEv c .rndX x x
    else
      let absX := bitXor x (bitAnd x (fillV c.v (BitVec.intMin c.T.w)))
      let off := fillV c.v (offsetBits c.w)
      let sum := faddL c.w absX off
      lanesEv c .cmpS off absX ++ lanesEv c .add absX off ++ lanesEv c .sub sum off)
/-- `rint(x)` (RD:575-589) -/
def tRint (a : c.Data) : c.Data × List (Ev c.w) := traced c (fun x _ => kRint c x) a a

/-- `min<T>`, `max<T>` of floats (MM:12-20, 53-59): MINPS, MAXPS, MINPD, MAXPD -/
def kMin (x y : Vec c.v) : Vec c.v × List (Ev c.w) := ((minV c.s c.T c.v x y).getD 0, lanesEv c .minmax x y)
def kMax (x y : Vec c.v) : Vec c.v × List (Ev c.w) := ((maxV c.s c.T c.v x y).getD 0, lanesEv c .minmax x y)
/-- `min(a, b)`, `max(a, b)` of floats (X:1566-1598) and with a scalar (X:1795-1827) -/
def tMin (a b : c.Data) : c.Data × List (Ev c.w) := traced c (kMin c) a b
def tMax (a b : c.Data) : c.Data × List (Ev c.w) := traced c (kMax c) a b
def tMinS (a : c.Data) (s : BitVec c.w) : c.Data × List (Ev c.w) := traced c (kMin c) a (fillData c s)
def tMaxS (a : c.Data) (s : BitVec c.w) : c.Data × List (Ev c.w) := traced c (kMax c) a (fillData c s)
/-- `clamp(x, lo, hi)` of floats (X:1605-1621): `min(max(x, lo), hi)` for each native vector.  Simplification: here all the maxima come first; the
flags do not depend on the order. -/
def tClamp (x lo hi : c.Data) : c.Data × List (Ev c.w) :=
  let t := traced c (kMax c) x lo
  let r := traced c (kMin c) t.1 hi
  (r.1, t.2 ++ r.2)
/-- `sqrt(x)` (PW:30-47, 108-123): SQRTPS, SQRTPD -/
def kSqrt (x : Vec c.v) : Vec c.v × List (Ev c.w) := (sqrtL c.w x, lanesEv c .sqrt x x)
def tSqrt (a : c.Data) : c.Data × List (Ev c.w) := traced c (fun x _ => kSqrt c x) a a

/-- the exception flags of MXCSR -/
abbrev Flags := Exc → Prop
/-- the flags are sticky: executing operations adds what they signal -/
def execEv (F : FlagSem) {w : Nat} (t : List (Ev w)) (s : Flags) : Flags := fun e => s e ∨ ∃ ev ∈ t, F w ev.1 ev.2.1 ev.2.2 e
/-- `nearbyint` of one native vector (RD:192-202, 272-282: `rint` between `_MM_GET_EXCEPTION_STATE` and `_MM_SET_EXCEPTION_STATE`; with SSE4.1 and for
32-byte vectors RD:195, 275, 288, 371 ROUNDPS with `_MM_FROUND_NO_EXC`) -/
def kNearbyint (F : FlagSem) (x : Vec c.v) (s : Flags) : Vec c.v × Flags :=
  if c.s.sse41 then (rintV c.s c.T c.v x, execEv F (lanesEv c .rndN x x) s)
  else
    let exc := s
    let r := kRint c x
    let _s := execEv F r.2 s
    (r.1, exc)
/-- `nearbyint(x)` (RD:495-510) -/
def tNearbyint (F : FlagSem) (a : c.Data) (s : Flags) : c.Data × Flags :=
  forRange c.dataSize (fun j st => let r := kNearbyint c F (a j) st.2; (st.1.set j r.1, r.2)) (zeroData c, s)
end api

/-- The loop of the generic operators (G:734-799, 1000-1051; GM:1292-1345): the operation of the scalar type on every element. -/
def gTraced {w N : Nat} {γ : Type} (z : γ) (f : BitVec w → BitVec w → γ) (o : FOpc) (a b : GSimd (BitVec w) N) : GSimd γ N × List (Ev w) :=
  let s := forRange N (fun i (s : Mem γ × List (Ev w)) => (s.1.set i (f (a.get i) (b.get i)), s.2 ++ [(o, a.get i, b.get i)])) ((fun _ => z), [])
  (GSimd.load (fun _ => z) s.1, s.2)
end Dpm.X86
