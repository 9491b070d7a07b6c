import Verif.Model.Mbase
import Verif.Spec.FloatCvt
/-
`hypot` of the x86 backend.
HY = /repo/dpm/detail/x86/hypot.cpp, PW = /repo/dpm/detail/x86/pow.hpp.
`fm` says whether DPM_HAS_FMA is defined.
-/
namespace Dpm.X86
open Dpm.Reg Dpm.Fp

/-- `prepare_hypot<T>` (HY:13-33): `|a|`, `|b|`, the greater first (in the given order when they are unordered) -/
def prepareHypot (s : ISA) (T : Ety) (v : VSz) (a b : Vec v) : Vec v × Vec v :=
  let absA := bitAndnot (fillV v (signBit T.w)) a
  let absB := bitAndnot (fillV v (signBit T.w)) b
  let swapMask := cmpF (fun x y => !fLt x y) T v absA absB
  (blendv s T.toI v absB absA swapMask, blendv s T.toI v absA absB swapMask)

/-- `_mm_cvtps_pd`, `_mm256_cvtps_pd` -/
def cvtpsPd (n : Nat) (x : BitVec 128) : BitVec n := ofLanes n 64 (fun i => widen (lane 32 x i))
/-- `_mm_cvtpd_ps` (the upper half of the result is zero), `_mm256_cvtpd_ps` -/
def cvtpdPs {n : Nat} (x : BitVec n) : BitVec 128 := ofLanes 128 32 (fun i => if (i + 1) * 64 ≤ n then narrow (lane 64 x i) else 0)
/-- `sqrt(fmadd(x, x, y * y))` in double precision, on registers of `n` bits (HY:43-44, 51-53, 64-65) -/
def hypotPd (fm : Bool) {n : Nat} (x y : BitVec n) : BitVec n := sqrtL 64 (fmaddV fm 64 x x (fmulL 64 y y))
/-- `eval_hypotf` (HY:36-68) -/
def evalHypotf (s : ISA) (fm : Bool) : (v : VSz) → (x y z : Vec v) → Vec v
  | .v256, x, y, z =>
    let xyl := cvtpdPs (hypotPd fm (cvtpsPd 256 (lo x)) (cvtpsPd 256 (lo y)))
    let xyh := cvtpdPs (hypotPd fm (cvtpsPd 256 (hi x)) (cvtpsPd 256 (hi y)))
    fmulL 32 z (setHL xyh xyl)
  | .v128, x, y, z =>
    if s.avx then fmulL 32 z (cvtpdPs (hypotPd fm (cvtpsPd 256 x) (cvtpsPd 256 y)))
    else
      let xyl := cvtpdPs (hypotPd fm (cvtpsPd 128 x) (cvtpsPd 128 y))
      let xyh := cvtpdPs (hypotPd fm (cvtpsPd 128 (shufPs (x : BitVec 128) x 3 2 3 2)) (cvtpsPd 128 (shufPs (y : BitVec 128) y 3 2 3 2)))
      fmulL 32 z (shufPs xyl xyh 1 0 1 0)

/-- `split` (HY:73-84): `2^27 + 1` is 0x41a0000002000000, `2.0` is 0x4000000000000000 -/
def splitHypot (fm : Bool) (v : VSz) (x : Vec v) : Vec v × Vec v :=
  let xc := fmulL 64 x (fillV v (0x41a0000002000000#64))
  let xh := faddL 64 (fsubL 64 x xc) xc
  let xl := fsubL 64 x xh
  let h := fmulL 64 x x
  let l := fmsubV fm 64 xh xh h
  let l := fmaddV fm 64 xh (fmulL 64 xl (fillV v (0x4000000000000000#64))) l
  (h, fmaddV fm 64 xl xl l)

/-- the final selection (HY:116-130, 158-172): `ia`, `ib` are compared with the top of the pattern of infinity, `im` -/
def selectHypot (o : MathOpt) (s : ISA) (T : Ety) (v : VSz) (im : BitVec T.w) (ia ib a b c0 abSmall : Vec v) : Vec v :=
  if o.propNan then
    let infA := cmpGtI s T.bytes v ia (fillV v (im - 1))
    let infB := cmpEqI s T.bytes v ib (fillV v im)
    let c1 := blendv s T v a b infB
    let c1 := faddL T.w c1 (bitAnd b abSmall)
    blendv s T v c0 c1 (bitOr infB (bitOr infA abSmall))
  else blendv s T v c0 (faddL T.w a b) abSmall

/-- `impl_hypot<double>` (HY:70-131): `0x1p700` is 0x6bb0000000000000, `0x1p-700` is 0x1430000000000000 -/
def hypotD (o : MathOpt) (s : ISA) (fm : Bool) (v : VSz) (a b : Vec v) : Vec v :=
  let T := Ety.f64
  let p := prepareHypot s T v a b
  let a := p.1
  let b := p.2
  let ia := shrC s T.toI 32 v a
  let ib := shrC s T.toI 32 v b
  let one := fillV v (oneBits 64)
  let bigMask := cmpGtL32 s v ia (fillV v (BitVec.ofNat 64 (0x5fd * 2 ^ 20 - 1)))
  let smallMask := bitAndnot bigMask (cmpGtL32 s v (fillV v (BitVec.ofNat 64 (0x23d * 2 ^ 20))) ib)
  let newC := blendv s T v (fillV v (0x1430000000000000#64)) (fillV v (0x6bb0000000000000#64)) bigMask
  let abMult := blendv s T v (fillV v (0x6bb0000000000000#64)) (fillV v (0x1430000000000000#64)) bigMask
  let offMask := bitOr bigMask smallMask
  let abMult := blendv s T v one abMult offMask
  let c0 := blendv s T v one newC offMask
  let abSmall := cmpGtL32 s v (subI s T.toI v ia ib) (fillV v (BitVec.ofNat 64 (65 * 2 ^ 20 - 1)))
  let abSmall := bitOr (cmpEqI s 8 v ia (setzero v)) abSmall
  let x := splitHypot fm v (bitAndnot abSmall (fmulL 64 a abMult))
  let y := splitHypot fm v (bitAndnot abSmall (fmulL 64 b abMult))
  let c0 := fmulL 64 c0 (sqrtL 64 (faddL 64 (faddL 64 y.2 x.2) (faddL 64 y.1 x.1)))
  selectHypot o s T v (BitVec.ofNat 64 (0x7ff * 2 ^ 20)) ia ib a b c0 abSmall

/-- `impl_hypot<float>` (HY:132-173): `0x1p90f` is 0x6c800000, `0x1p-90f` is 0x12800000 -/
def hypotS (o : MathOpt) (s : ISA) (fm : Bool) (v : VSz) (a b : Vec v) : Vec v :=
  let T := Ety.f32
  let p := prepareHypot s T v a b
  let a := p.1
  let b := p.2
  let one := fillV v (oneBits 32)
  let bigMask := cmpGtI s 4 v a (fillV v (BitVec.ofNat 32 (0xbb * 2 ^ 23 - 1)))
  let smallMask := bitAndnot bigMask (cmpGtI s 4 v (fillV v (BitVec.ofNat 32 (0x43 * 2 ^ 23))) b)
  let newC := blendv s T v (fillV v (0x12800000#32)) (fillV v (0x6c800000#32)) bigMask
  let abMult := blendv s T v (fillV v (0x6c800000#32)) (fillV v (0x12800000#32)) bigMask
  let offMask := bitOr bigMask smallMask
  let abMult := blendv s T v one abMult offMask
  let c0 := blendv s T v one newC offMask
  let abSmall := cmpGtI s 4 v (subI s T.toI v a b) (fillV v (BitVec.ofNat 32 (25 * 2 ^ 23 - 1)))
  let abSmall := bitOr (cmpEqI s 4 v b (setzero v)) abSmall
  let ma := bitAndnot abSmall (fmulL 32 a abMult)
  let mb := bitAndnot abSmall (fmulL 32 b abMult)
  let c0 := evalHypotf s fm v mb ma c0
  selectHypot o s T v (BitVec.ofNat 32 (0xff * 2 ^ 23)) a b a b c0 abSmall

/-- `hypot(a, b)` (HY:175-181, PW:125-142) -/
def hypotV (o : MathOpt) (s : ISA) (fm : Bool) (T : Ety) (v : VSz) (a b : Vec v) : Vec v :=
  if T.bytes = 8 then hypotD o s fm v a b else hypotS o s fm v a b
def vHypot (c : Cfg) (o : MathOpt) (fm : Bool) (a b : c.Data) : Out c.Data :=
  .ok (vectorize2 c (fun _ x y => hypotV o c.s fm c.T c.v x y) (zeroData c) a b)
end Dpm.X86
