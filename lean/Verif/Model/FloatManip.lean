import Verif.Model.Cvt
/-
Floating-point manipulation functions of the x86 backend.
FM = /repo/dpm/detail/x86/fmanip.hpp, FR = x86/frexp.cpp, LB = x86/logb.cpp, SB = x86/scalbn.cpp, MO = x86/modf.cpp,
EX = x86/except.hpp, CV = x86/cvt.hpp, FC = /repo/dpm/detail/fconst.hpp, BW = x86/bitwise.hpp.
Arithmetic is that of Spec/Ieee.lean.  Two-vector returns (math_fwd.hpp:11-70: inline assembly moving the second vector
through xmm1/ymm1, or a pair) are modelled as pairs.  Exception flags are not modelled.
-/
namespace Dpm.X86
open Dpm.Reg Dpm.Fp

/-! ### constants -/
/-- `exp_mask<I> << mant_bits<I>` (FC:68-73) -/
def expOnes (w : Nat) : BitVec w := BitVec.ofNat w (expMask w * 2 ^ mantBits w)
/-- `exp_mult<T>` = 2^25 / 2^54, `exp_multm<T>` = 2^-25 / 2^-54 (FC:27-30) -/
def expMult (w : Nat) : BitVec w := if w = 64 then BitVec.ofNat w 0x4350000000000000 else BitVec.ofNat w 0x4c000000
def expMultm (w : Nat) : BitVec w := if w = 64 then BitVec.ofNat w 0x3c90000000000000 else BitVec.ofNat w 0x33000000
/-- `huge<T>` = 1e30f / 1e300, `tiny<T>` = 1e-30f / 1e-300 (FC:46-64) -/
def hugeBits (w : Nat) : BitVec w := if w = 64 then BitVec.ofNat w 0x7e37e43c8800759c else BitVec.ofNat w 0x7149f2ca
def tinyBits (w : Nat) : BitVec w := if w = 64 then BitVec.ofNat w 0x01a56e1fc2f8f359 else BitVec.ofNat w 0x0da24260
/-- `one<T>` (FC:42-43) -/
def oneBits (w : Nat) : BitVec w := if w = 64 then BitVec.ofNat w 0x3ff0000000000000 else BitVec.ofNat w 0x3f800000
/-- `max_scalbn<I>` (FC:76-77) -/
def maxScalbn : Nat := 50000

/-! ### EX: special results -/
/-- `except_uflow<T>` (EX:13-18), `except_oflow<T>` (EX:19-24), `except_invalid<T>` (EX:26-31), `except_divzero<T, Sign>` (EX:32-38) -/
def exceptUflow (s : ISA) (T : Ety) (v : VSz) (x sign m : Vec v) : Vec v :=
  blendv s T v x (fmulL T.w (fillV v (tinyBits T.w)) (bitOr (fillV v (tinyBits T.w)) sign)) m
def exceptOflow (s : ISA) (T : Ety) (v : VSz) (x sign m : Vec v) : Vec v :=
  blendv s T v x (fmulL T.w (fillV v (hugeBits T.w)) (bitOr (fillV v (hugeBits T.w)) sign)) m
def exceptInvalid (s : ISA) (T : Ety) (v : VSz) (y x m : Vec v) : Vec v :=
  blendv s T v y (fdivL T.w (fsubL T.w x x) (setzero v)) m
def exceptDivzero (s : ISA) (T : Ety) (v : VSz) (negOne : Bool) (y x m : Vec v) : Vec v :=
  blendv s T v y (fdivL T.w (fillV v (if negOne then oneBits T.w ^^^ BitVec.intMin T.w else oneBits T.w)) (fsubL T.w x x)) m

/-! ### FR: frexp -/
/-- `impl_frexp<T>` (FR:12-37): fraction and exponent (in lanes of the size of `T`) -/
def frexpV (s : ISA) (T : Ety) (v : VSz) (x : Vec v) : Vec v × Vec v :=
  let expX := bitAnd x (fillV v (expOnes T.w))
  let notFin := cmpEqI s T.bytes v expX (fillV v (expOnes T.w))
  let isSubn := cmpEqI s T.bytes v expX (setzero v)
  let isZero := cmpEq s T v x (setzero v)
  let off := bitAnd isSubn (fillV v (BitVec.ofNat T.w T.toI.digits))
  let normX := fmulL T.w (bitAnd isSubn x) (fillV v (expMult T.w))
  let normX := blendv s T v x normX isSubn
  let normExp := bitAnd normX (fillV v (expOnes T.w))
  let ix := normX
  let normX := bitOr (bitAnd ix (fillV v (~~~ expOnes T.w))) (fillV v (BitVec.ofNat T.w (expMiddle T.w * 2 ^ mantBits T.w)))
  let normExp := subI s T.toI v (subI s T.toI v (shrC s T.toI (mantBits T.w) v normExp) (fillV v (BitVec.ofNat T.w (expOff T.w - 1)))) off
  let nfz := bitOr isZero notFin
  (blendv s T v normX x nfz, blendv s T.toI v normExp expX nfz)

/-! ### LB: ilogb, logb -/
/-- `cvt<T, I>` for the signed integer type of the size of `T` (CV:51-60, 115-122, 249-260, 323-330) -/
def cvtIF (s : ISA) (T : Ety) (v : VSz) (x : Vec v) : Vec v := if T.bytes = 8 then cvtI64F64 s v x else cvtepiL 32 x
/-- `eval_ilogb<T, I>` (LB:15-38) -/
def evalIlogb (s : ISA) (T : Ety) (v : VSz) (ix : Vec v) : Vec v :=
  let exp := shrC s T.toI (mantBits T.w) v ix
  let fixDenorm := cmpEqI s T.bytes v exp (setzero v)
  let clz := bitAndnot (shrC s T.toI (expBits T.w) v ix) ix
  let clz := shrC s T.toI (mantBits T.w) v (cvtIF s T v clz)
  let clz := subsI s .u16 v (fillV v (BitVec.ofNat T.w (if T.w = 64 then 1086 else 158))) clz
  let normOff := subI s T.toI v clz (fillV v (BitVec.ofNat T.w (expBits T.w + 1)))
  let exp := subI s T.toI v exp (bitAnd normOff fixDenorm)
  subI s T.toI v exp (fillV v (BitVec.ofNat T.w (expOff T.w)))
/-- `impl_ilogb<T>` (LB:41-53); `k0`, `kn` are the implementation-defined `FP_ILOGB0`, `FP_ILOGBNAN` -/
def ilogbV (o : MathOpt) (k0 kn : BitVec 32) (s : ISA) (T : Ety) (v : VSz) (x : Vec v) : Vec v :=
  let absX := fabsV T v x
  let y := evalIlogb s T v absX
  let y := if o.handleErr then
      let y := blendv s T.toI v y (fillV v (k0.signExtend T.w)) (cmpEq s T v absX (setzero v))
      blendv s T.toI v y (fillV v (BitVec.intMax T.w)) (isinfAbs T v absX)
    else y
  if o.propNan then blendv s T.toI v y (fillV v (kn.signExtend T.w)) (isunordV T v x x) else y
/-- `impl_logb<T>` (LB:64-81) -/
def logbV (o : MathOpt) (s : ISA) (T : Ety) (v : VSz) (x : Vec v) : Vec v :=
  let absX := fabsV T v x
  let y := cvtIF s T v (evalIlogb s T v absX)
  if o.handleErr then
    let m := cmpEq s T v absX (setzero v)
    let y := if testMask s v m then exceptDivzero s T v true y absX m else y
    let dom := bitOr (isinfAbs T v absX) (isunordV T v x x)
    if testMask s v dom then blendv s T v y (fmulL T.w x x) dom else y
  else if o.propNan then
    let dom := isunordV T v x x
    if testMask s v dom then blendv s T v y (fmulL T.w x x) dom else y
  else y

/-! ### SB: scalbn -/
/-- `cmp_gt_l32<I>` (x86/cmp.hpp:101-112, 200-203, 209-211) -/
def cmpGtLow (s : ISA) (T : Ety) (v : VSz) (a b : Vec v) : Vec v := if T.bytes = 8 then cmpGtL32 s v a b else cmpGtI s T.bytes v a b
/-- `impl_scalbn<T>` (SB:14-64); `n` in lanes of the size of `T` -/
def scalbnV (o : MathOpt) (s : ISA) (T : Ety) (v : VSz) (x n : Vec v) : Vec v :=
  let I := T.toI
  let xExp := bitAnd (shrC s I (mantBits T.w) v x) (fillV v (BitVec.ofNat T.w (expMask T.w)))
  let fwd := cmpEq s T v x (setzero v)
  let normX := fmulL T.w x (fillV v (expMult T.w))
  let normExp := bitAnd (shrC s I (mantBits T.w) v normX) (fillV v (BitVec.ofNat T.w (expMask T.w)))
  let normExp := subI s I v normExp (fillV v (BitVec.ofNat T.w (mantBits T.w + 2)))
  let subnorm := cmpEqI s T.bytes v xExp (setzero v)
  let normExp := bitOr xExp (bitAnd subnorm normExp)
  let normI := blendv s I v x normX subnorm
  let fwd := if o.propNan then bitOr fwd (cmpEqI s T.bytes v normExp (fillV v (BitVec.ofNat T.w (expMask T.w)))) else fwd
  let normExp := addI s I v normExp n
  let oflow := bitAndnot fwd (bitOr (cmpGtLow s T v n (fillV v (BitVec.ofNat T.w maxScalbn)))
    (cmpGtLow s T v normExp (fillV v (BitVec.ofNat T.w (expMask T.w - 1)))))
  let uflow := bitAndnot fwd (bitOr (cmpGtLow s T v (fillV v (BitVec.ofInt T.w (-maxScalbn))) n)
    (cmpGtLow s T v (fillV v (BitVec.ofInt T.w (-(mantBits T.w : Int) - 1))) normExp))
  let normRes := cmpGtLow s T v normExp (setzero v)
  let normExp := addI s I v normExp (bitAndnot normRes (fillV v (BitVec.ofNat T.w (mantBits T.w + 2))))
  let normExp := shlC s I (mantBits T.w) v normExp
  let y := bitOr (bitAnd normI (fillV v (~~~ expOnes T.w))) normExp
  let y := blendv s T v y x fwd
  let normRes := bitAndnot fwd normRes
  let y := blendv s T v (fmulL T.w (bitAndnot normRes y) (fillV v (expMultm T.w))) y normRes
  if o.handleErr then
    let xSign := masksign T v x
    let y := if testMask s v oflow then exceptOflow s T v y xSign oflow else y
    if testMask s v uflow then exceptUflow s T v y xSign uflow else y
  else y

/-! ### MO: modf -/
/-- 4-byte `bit_shiftr<T>(a, b)`: `_mm*_srlv_epi32` with AVX2 (BW:128-135); before, scalar `>>=` of every 32-bit element
of the register (BW:57-67, 194-197), which is undefined for counts of 32 and more. -/
def shrV32 (s : ISA) (v : VSz) (a b : Vec v) : Option (Vec v) :=
  if s.avx2 then some (srlvL 32 a b)
  else if ∀ i, i < v.bits / 32 → (lane 32 b i).toNat < 32 then some (srlvL 32 a b) else none
/-- `bit_shiftr<I>(a, b)` for `I` of 4 or 8 bytes -/
def shrVI (s : ISA) (T : Ety) (v : VSz) (a b : Vec v) : Option (Vec v) :=
  if T.bytes = 8 then some (shrV64 s v a b) else shrV32 s v a b
/-- `impl_modf<T>` (MO:12-58): fractional and integral part -/
def modfV (o : MathOpt) (s : ISA) (T : Ety) (v : VSz) (x : Vec v) : Option (Vec v × Vec v) :=
  let I := T.toI
  let e := shrC s I (mantBits T.w) v x
  let e := bitAnd e (fillV v (BitVec.ofNat T.w (expMask T.w)))
  let e := subI s I v e (fillV v (BitVec.ofNat T.w (expOff T.w)))
  let intMask := cmpGtI s T.bytes v e (fillV v (BitVec.ofNat T.w (mantBits T.w - 1)))
  let intX := bitAnd x (fillV v (signBit T.w))
  let fractMask := cmpGtI s T.bytes v (setzero v) e
  let fractIp := bitAnd x (fillV v (signBit T.w))
  let fractX := x
  (shrVI s T v (shrC s I (expBits T.w + 1) v (fillV v (BitVec.allOnes T.w))) e).map fun mask =>
    let maskZero := cmpEq s T v (bitAnd x mask) (setzero v)
    let maskZero := bitAndnot fractMask maskZero
    let maskZero := bitAndnot intMask maskZero
    let x1 := bitAnd x (fillV v (signBit T.w))
    let x2 := bitAndnot mask x
    let i := blendv s T v x fractIp fractMask
    let i := blendv s T v x2 i maskZero
    let y := blendv s T v (fsubL T.w x x2) x1 maskZero
    let y := blendv s T v y fractX fractMask
    let y := blendv s T v y intX intMask
    if o.propNan then
      let nanMask := isunordV T v x x
      (blendv s T v y x nanMask, blendv s T v i x nanMask)
    else (y, i)

/-! ### CV: 64-bit to 32-bit lanes -/
/-- `_mm_shuffle_ps(a, b, _MM_SHUFFLE(2, 0, 2, 0))`, `_mm256_shuffle_ps` (in 128-bit lanes) -/
def shufPs2020 {n : Nat} (a b : BitVec n) : BitVec n :=
  ofLanes n 32 (fun k => if k % 4 < 2 then lane 32 a (4 * (k / 4) + 2 * (k % 4)) else lane 32 b (4 * (k / 4) + 2 * (k % 4 - 2)))
/-- `cvt_i64_i32` (CV:192-196, 371-377) -/
def cvtI64I32 : (v : VSz) → Vec v → BitVec 128
  | .v128, x => shufPs2020 (n := 128) x x
  | .v256, x => shufPs2020 (lo x) (hi x)
/-- `cvt_i64x2_i32` (CV:197-202, 378-390): the 32-byte version exchanges the middle 64-bit words -/
def cvtI64x2I32 : (v : VSz) → Vec v → Vec v → Vec v
  | .v128, a, b => shufPs2020 (n := 128) a b
  | .v256, a, b =>
    let mix := shufPs2020 (n := 256) a b
    ofLanes 256 64 (fun k => lane 64 mix (if k = 1 then 2 else if k = 2 then 1 else k))

/-! ### FM: API functions -/
/-- Store a `w`-bit word at word index `i` of native storage (`reinterpret_cast<... *>(out)[i] = x`). -/
def setWord {v : VSz} (w : Nat) (d : Mem (Vec v)) (i : Nat) (x : BitVec w) : Mem (Vec v) :=
  d.set (i / (v.bits / w)) (ofLanes v.bits w (fun k => if k = i % (v.bits / w) then x else lane w (d (i / (v.bits / w))) k))
/-- the configuration of `x86_simd<int, N, A>` next to `x86_simd<T, N, A>` (abi.hpp:48-63): the same native size, except for
`A == 0` with AVX and 3 or 4 doubles, which take one 32-byte vector while the `int`s take one 16-byte vector -/
structure Cfg.IntOf (c ci : Cfg) : Prop where
  s : ci.s = c.s
  T : ci.T = .i32
  N : ci.N = c.N
  v : ci.v = c.v ∨ (c.T.bytes = 8 ∧ c.v = .v256 ∧ ci.v = .v128 ∧ (c.N = 3 ∨ c.N = 4))

/-- store the exponents of one vector: `frexp(x, out, i)`, `ilogb(x, out, i)` (FM:34-42, 82-87, 108-116, 171-173).
For float the storage has the same shape; for double the low 32 bits of the lanes go to the `i`-th half-size word. -/
def storeExp1 (c ci : Cfg) (e : Vec c.v) (out : ci.Data) (i : Nat) : ci.Data :=
  if c.T.bytes = 8 then
    match c.v, e with
    | .v128, e => setWord 64 out i (lane 64 (cvtI64I32 .v128 e) 0)
    | .v256, e => setWord 128 out i (cvtI64I32 .v256 e)
  else out.set i (BitVec.setWidth ci.v.bits e)
/-- store the exponents of two vectors of doubles: `frexp2`, `ilogb2` (FM:43-49, 88-93, 117-123, 174-179) -/
def storeExp2 (c ci : Cfg) (e0 e1 : Vec c.v) (out : ci.Data) (i : Nat) : ci.Data :=
  out.set (i / 2) (BitVec.setWidth ci.v.bits (cvtI64x2I32 c.v e0 e1))
/-- the loops over native vectors (FM:192-219, 292-314): pairs first when `int` needs fewer native vectors -/
def storeExps (c ci : Cfg) (e : Nat → Vec c.v) (out : ci.Data) : ci.Data :=
  let n := c.dataSize
  if c.T.bytes > 4 ∧ ci.dataSize < n then
    let out := forRange (n / 2) (fun j out => storeExp2 c ci (e (2 * j)) (e (2 * j + 1)) out (2 * j)) out
    if n % 2 = 1 then storeExp1 c ci (e (n - 1)) out (n - 1) else out
  else forRange n (fun i out => storeExp1 c ci (e i) out i) out

section api
variable (c ci cl : Cfg)
/-- `frexp(x, &exp)` (FM:192-219): the result and the new contents of `exp` -/
def vFrexp (x : c.Data) (exp : ci.Data) : Out (c.Data × ci.Data) :=
  .ok (vectorize1 c (fun _ x => (frexpV c.s c.T c.v x).1) (zeroData c) x, storeExps c ci (fun i => (frexpV c.s c.T c.v (x i)).2) exp)
/-- `ilogb(x)` (FM:292-314) -/
def vIlogb (o : MathOpt) (k0 kn : BitVec 32) (x : c.Data) : Out ci.Data :=
  .ok (storeExps c ci (fun i => ilogbV o k0 kn c.s c.T c.v (x i)) (zeroData ci))
/-- `logb(x)` (FM:377-393) -/
def vLogb (o : MathOpt) (x : c.Data) : Out c.Data := .ok (vectorize1 c (fun _ x => logbV o c.s c.T c.v x) (zeroData c) x)
/-- `scalbn(x, int)`, `ldexp(x, int)` (FM:334-355): `static_cast<int_of_size_t<sizeof(T)>>(exp)` in every lane -/
def vScalbnS (o : MathOpt) (x : c.Data) (n : BitVec 32) : Out c.Data :=
  .ok (vectorize1 c (fun _ x => scalbnV o c.s c.T c.v x (fillV c.v (n.signExtend c.T.w))) (zeroData c) x)
/-- `modf(x, &i)` (FM:272-291) -/
def vModf (o : MathOpt) (x : c.Data) : Out (c.Data × c.Data) :=
  Out.ofUb (forRangeM c.dataSize (fun j (r : c.Data × c.Data) =>
    (modfV o c.s c.T c.v (x j)).map (fun p => (r.1.set j p.1, r.2.set j p.2))) (zeroData c, zeroData c))

/-- `_mm*_unpackhi_epi32` (within 128-bit lanes) -/
def unpackhiEpi32 {n : Nat} (a b : BitVec n) : BitVec n :=
  ofLanes n 32 (fun i => if i % 2 = 0 then lane 32 a (4 * (i / 4) + 2 + i % 4 / 2) else lane 32 b (4 * (i / 4) + 2 + i % 4 / 2))
/-- widening of `exp[i / 2]` by `i % 2` (FM:54-63 and the AVX2 branch FM:138-151) -/
def widenExp {n : Nat} (e : BitVec n) (i : Nat) : BitVec n :=
  if i % 2 = 1 then unpackhiEpi32 e (sraiL 32 e 31) else unpackloEpi32 e (sraiL 32 e 31)
/-- a 16-byte word of native storage -/
def word128 {v : VSz} (d : Mem (Vec v)) (i : Nat) : BitVec 128 := lane 128 (d (i / (v.bits / 128))) (i % (v.bits / 128))
/-- `scalbn32(__m256d, const __m128i *, i)` (FM:128-137): reads `exp[i]` and `exp[i + 1]`, widens the *high* halves of both;
`n` is the number of 16-byte words in the exponent storage -/
def scalbn32Avx (o : MathOpt) (s : ISA) (T : Ety) (x : BitVec 256) (word : Nat → BitVec 128) (n i : Nat) : Option (BitVec 256) :=
  if i + 1 < n then
    let h := scalbnV o s T .v128 (hi x) (unpackhiEpi32 (word (i + 1)) (sraiL 32 (word (i + 1)) 31))
    let l := scalbnV o s T .v128 (lo x) (unpackhiEpi32 (word i) (sraiL 32 (word i) 31))
    some (setHL h l)
  else none
/-- `scalbn32(x_data[i], exp_data, i)` (FM:54-63, 128-151) -/
def scalbn32 (o : MathOpt) (x : Vec c.v) (exp : ci.Data) (i : Nat) : Option (Vec c.v) :=
  if c.T.bytes = 8 then
    match c.v, x with
    | .v128, x => some (scalbnV o c.s c.T .v128 x (widenExp (BitVec.setWidth 128 (exp (i / 2))) i))
    | .v256, x =>
      if c.s.avx2 = true ∧ ci.v = .v256 then some (scalbnV o c.s c.T .v256 x (widenExp (BitVec.setWidth 256 (exp (i / 2))) i))
      else scalbn32Avx o c.s c.T x (word128 exp) (ci.dataSize * (ci.v.bits / 128)) i
  else some (scalbnV o c.s c.T c.v x (BitVec.setWidth c.v.bits (exp i)))
/-- `scalbn(x, exp)`, `ldexp(x, exp)` with a vector of `int` (FM:221-244) -/
def vScalbn (o : MathOpt) (x : c.Data) (exp : ci.Data) : Out c.Data :=
  Out.ofUb (forRangeM c.dataSize (fun j (r : c.Data) => (scalbn32 c ci o (x j) exp j).map (fun y => r.set j y)) (zeroData c))
/-- `scalbln(x, long)` (FM:356-374): `static_cast<int_of_size_t<sizeof(T)>>(exp)`; `long` of 64 bits -/
def vScalblnS (o : MathOpt) (x : c.Data) (n : BitVec 64) : Out c.Data :=
  .ok (vectorize1 c (fun _ x => scalbnV o c.s c.T c.v x (fillV c.v (n.setWidth c.T.w))) (zeroData c) x)
/-- the configuration of `x86_simd<long, N, A>` next to `x86_simd<T, N, A>` (abi.hpp:48-71): the same native size, except for
`A == 0` with AVX and 3 or 4 floats, which take one 16-byte vector while the `long`s take one 32-byte vector -/
structure Cfg.LongOf (c cl : Cfg) : Prop where
  s : cl.s = c.s
  T : cl.T = .i64
  N : cl.N = c.N
  v : cl.v = c.v ∨ (c.T.bytes = 4 ∧ c.v = .v128 ∧ cl.v = .v256 ∧ (c.N = 3 ∨ c.N = 4))
/-- `scalbn64(x_data[i], exp_data, i)` (FM:65-71, 153-160): `n` native vectors of exponents; the `__m256` version takes both
halves from `exp[i]` -/
def scalbn64 (o : MathOpt) (x : Vec c.v) (exp : cl.Data) (i : Nat) : Option (Vec c.v) :=
  if c.T.bytes = 8 then some (scalbnV o c.s c.T c.v x (BitVec.setWidth c.v.bits (exp i)))
  else match c.v, x with
    | .v128, x =>
      if cl.v = .v128 then
        if 2 * i + 1 < cl.dataSize then
          some (scalbnV o c.s c.T .v128 x (shufPs2020 (BitVec.setWidth 128 (exp (2 * i))) (BitVec.setWidth 128 (exp (2 * i + 1)))))
        else none
      else some (scalbnV o c.s c.T .v128 x (cvtI64I32 .v256 (BitVec.setWidth 256 (exp i))))
    | .v256, x =>
      some (scalbnV o c.s c.T .v256 x (setHL (cvtI64I32 .v256 (BitVec.setWidth 256 (exp i))) (cvtI64I32 .v256 (BitVec.setWidth 256 (exp i)))))
/-- `scalbln(x, exp)` with a vector of 64-bit `long` (FM:245-270) -/
def vScalbln (o : MathOpt) (x : c.Data) (exp : cl.Data) : Out c.Data :=
  Out.ofUb (forRangeM c.dataSize (fun j (r : c.Data) => (scalbn64 c cl o (x j) exp j).map (fun y => r.set j y)) (zeroData c))
end api

end Dpm.X86
