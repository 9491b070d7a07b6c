import Verif.Model.Mbase
/-
Trigonometric functions of the x86 backend (SVML not used).
TR = /repo/dpm/detail/x86/trig.hpp, SC = /repo/dpm/detail/x86/sincos.cpp, TN = /repo/dpm/detail/x86/tan.cpp,
AS = /repo/dpm/detail/x86/asincos.cpp, AT = /repo/dpm/detail/x86/atan.cpp, CV = /repo/dpm/detail/x86/cvt.hpp,
XU = /repo/dpm/detail/x86/utility.hpp, FC = /repo/dpm/detail/fconst.hpp.
The functions of the C library used for large arguments are a parameter (`Libm`).
-/
namespace Dpm.X86
open Dpm.Reg Dpm.Fp

/-! ### FC: constants -/
/-- `pio32<T>` (FC:17) -/
def pio32 (w : Nat) : BitVec w := if w = 64 then BitVec.ofNat w 0x3fb921fb54442d18 else BitVec.ofNat w 0x3dc90fdb
/-- `pio4<T>` (FC:19) -/
def pio4 (w : Nat) : BitVec w := if w = 64 then BitVec.ofNat w 0x3fe921fb54442d18 else BitVec.ofNat w 0x3f490fdb
/-- `pio2<T>` (FC:21) -/
def pio2 (w : Nat) : BitVec w := if w = 64 then BitVec.ofNat w 0x3ff921fb54442d18 else BitVec.ofNat w 0x3fc90fdb
/-- `tan3pio8<T>` (FC:23) -/
def tan3pio8 (w : Nat) : BitVec w := if w = 64 then BitVec.ofNat w 0x4003504f333f9de6 else BitVec.ofNat w 0x401a827a
/-- `five_eights<T>` (FC:34) -/
def fiveEights (w : Nat) : BitVec w := if w = 64 then BitVec.ofNat w 0x3fe4000000000000 else BitVec.ofNat w 0x3f200000
/-- `half<T>` (FC:38) -/
def halfBits (w : Nat) : BitVec w := if w = 64 then BitVec.ofNat w 0x3fe0000000000000 else BitVec.ofNat w 0x3f000000
/-- `-half<T>` (FC:38) -/
def mhalfBits (w : Nat) : BitVec w := if w = 64 then BitVec.ofNat w 0xbfe0000000000000 else BitVec.ofNat w 0xbf000000
/-- `p66<T>` (FC:40) -/
def p66 (w : Nat) : BitVec w := if w = 64 then BitVec.ofNat w 0x3fe51eb851eb851f else BitVec.ofNat w 0x3f28f5c3
/-- `two<T>` (FC:44) -/
def twoBits (w : Nat) : BitVec w := if w = 64 then BitVec.ofNat w 0x4000000000000000 else BitVec.ofNat w 0x40000000
/-- `-one<T>` (FC:42) -/
def moneBits (w : Nat) : BitVec w := if w = 64 then BitVec.ofNat w 0xbff0000000000000 else BitVec.ofNat w 0xbf800000
/-- `asin_pmin<T>` (FC:111) -/
def asinPmin (w : Nat) : BitVec w := if w = 64 then BitVec.ofNat w 0x3e45798ee2308c3a else BitVec.ofNat w 0x38d1b717
/-- `asin_off<T>` (FC:113) -/
def asinOff (w : Nat) : BitVec w := if w = 64 then BitVec.ofNat w 0x3c91a62633145c07 else BitVec.ofNat w 0x248d3132
/-- `asin_off<T> * half<T>` (FC:113) -/
def asinOffHalf (w : Nat) : BitVec w := if w = 64 then BitVec.ofNat w 0x3c81a62633145c07 else BitVec.ofNat w 0x240d3132
/-- `dp_sincos<T>` (FC:80) -/
def dpSincos (w : Nat) : List (BitVec w) :=
  (if w = 64 then [0xbfe921fb40000000, 0xbe64442d00000000, 0xbce8469898cc5170]
   else [0xbf490fda, 0xb3222168, 0xa74234c5]).map (BitVec.ofNat w)
/-- `sincof<T>` (FC:83-87) -/
def sincof (w : Nat) : List (BitVec w) :=
  (if w = 64 then [0x3de5d8fd1fd19ccd, 0xbe5ae5e5a9291f5d, 0x3ec71de3567d48a1, 0xbf2a01a019bfdf03, 0x3f8111111110f7d0, 0xbfc5555555555548]
   else [0x2f2ec7e9, 0xb2d72f2d, 0x3638ef1b, 0xb9500d01, 0x3c088889, 0xbe2aaaab]).map (BitVec.ofNat w)
/-- `coscof<T>` (FC:89-93) -/
def coscof (w : Nat) : List (BitVec w) :=
  (if w = 64 then [0xbda8fa49a0861a9b, 0x3e21ee9d7b4e3f05, 0xbe927e4f7eac4bc6, 0x3efa01a019c844f5, 0xbf56c16c16c14f91, 0x3fa555555555554b]
   else [0xad47d24d, 0x310f74ec, 0xb493f27c, 0x37d00d01, 0xbab60b61, 0x3d2aaaab]).map (BitVec.ofNat w)
/-- `tancof<T>` (FC:96) -/
def tancof (w : Nat) : List (BitVec w) :=
  (if w = 64 then [0x3ff0000000000000, 0x3fd555555553d022, 0x3fc111111ce442c1, 0x3faba180a6bbdecd, 0x3f969c0a88a0b71f]
   else [0x3f800000, 0x3eaaaaab, 0x3e088889, 0x3d5d0c05, 0x3cb4e054]).map (BitVec.ofNat w)
/-- `asin_r<T>` (FC:99) -/
def asinR (w : Nat) : List (BitVec w) :=
  (if w = 64 then [0x3f684fc3988e9f08, 0xbfe2079259f9290f, 0x401bdff5baf33e6a, 0xc03991aaac01ab68, 0x403c896240f3081d]
   else [0x3b427e1d, 0xbf103c93, 0x40deffae, 0xc1cc8d55, 0x41e44b12]).map (BitVec.ofNat w)
/-- `asin_s<T>` (FC:101) -/
def asinS (w : Nat) : List (BitVec w) :=
  (if w = 64 then [0x3ff0000000000000, 0xc035f2a2b6bf5d8c, 0x40626219af6a7f42, 0xc077fe08959063ee, 0x40756709b0b644be]
   else [0x3f800000, 0xc1af9516, 0x431310cd, 0xc3bff045, 0x43ab384e]).map (BitVec.ofNat w)
/-- `asin_p<T>` (FC:103) -/
def asinP (w : Nat) : List (BitVec w) :=
  (if w = 64 then [0x3f716b9b0bd48ad3, 0xbfe34341333e5c16, 0x4015c74b178a2dd9, 0xc0304331de27907b, 0x40339007da779259, 0xc020656c06ceafd5]
   else [0x3b8b5cd8, 0xbf1a1a0a, 0x40ae3a59, 0xc182198f, 0x419c803f, 0xc1032b60]).map (BitVec.ofNat w)
/-- `asin_q<T>` (FC:105) -/
def asinQ (w : Nat) : List (BitVec w) :=
  (if w = 64 then [0x3ff0000000000000, 0xc02d7b590b5e0eab, 0x40519fc025fe9054, 0xc06265bb6d3576d7, 0x4061705684ffbf9d, 0xc04898220a3607ac]
   else [0x3f800000, 0xc16bdac8, 0x428cfe01, 0xc3132ddb, 0x430b82b4, 0xc244c110]).map (BitVec.ofNat w)
/-- `atan_q<T>` (FC:107) -/
def atanQ (w : Nat) : List (BitVec w) :=
  (if w = 64 then [0x3ff0000000000000, 0x4038dbc45b14603c, 0x4064a0dd43b8fa25, 0x407b0e18d2e2be3b, 0x407e563f13b049ea, 0x4068519efbbd62ec]
   else [0x3f800000, 0x41c6de23, 0x432506ea, 0x43d870c7, 0x43f2b1f9, 0x43428cf8]).map (BitVec.ofNat w)
/-- `atan_p<T>` (FC:109) -/
def atanP (w : Nat) : List (BitVec w) :=
  (if w = 64 then [0xbfec007fa1f72594, 0xc03028545b6b807a, 0xc052c08c36880273, 0xc05eb8bf2d05ba25, 0xc0503669fd28ec8e]
   else [0xbf6003fd, 0xc18142a3, 0xc2960462, 0xc2f5c5f9, 0xc281b350]).map (BitVec.ofNat w)

/-- `2^22`, `2^51`: the largest argument `cvt_has_overflow<I>` accepts (CV:13-30, 205-222) -/
def cvtMax (w : Nat) : BitVec w := if w = 64 then BitVec.ofNat w 0x4320000000000000 else BitVec.ofNat w 0x4a800000

/-- the scalar functions of the C library -/
structure Libm where
  sin : {w : Nat} → BitVec w → BitVec w
  cos : {w : Nat} → BitVec w → BitVec w
  tan : {w : Nat} → BitVec w → BitVec w
  /-- `sincosf`, `sincos` -/
  sincos : {w : Nat} → BitVec w → BitVec w × BitVec w

/-- `cvt_has_overflow<I>` (CV:13-18, 25-30, 205-210, 217-222) -/
def cvtHasOverflow (T : Ety) (v : VSz) (x : Vec v) : Vec v := cmpF fLt T v (fillV v (cvtMax T.w)) x
/-- `cvtt<I, T>` for `I` of the size of `T` (CV:57-58, 187-199, 247-248, 360-371).  The 16-byte AVX-512 version rounds instead of
truncating. -/
def cvttIF (s : ISA) (T : Ety) : (v : VSz) → Vec v → Vec v
  | .v128, x =>
    if T.bytes = 8 then (if s.dqvl then cvtfpL (n := 128) 64 .nearest x else f64i64L (n := 128) (truncSse2 s (n := 128) x))
    else cvtfpL (n := 128) 32 .zero x
  | .v256, x =>
    if T.bytes = 8 then
      if s.dqvl then cvtfpL (n := 256) 64 .zero x
      else if s.avx2 then f64i64L (n := 256) (roundL 64 .zero (n := 256) x)
      else mux1 f64i64L (roundL 64 .zero (n := 256) x)
    else cvtfpL (n := 256) 32 .zero x
/-- `mask_invoke` (XU:290-298) with a function of one lane of `x` that assigns one lane of `y`; `k` iterations are left -/
def maskInvoke (w : Nat) {n : Nat} (f : BitVec w → BitVec w) (x : BitVec n) : (k i : Nat) → (m : BitVec 64) → (y : BitVec n) → BitVec n
  | 0, _, _, y => y
  | k + 1, i, m, y =>
    if m = 0 then y
    else maskInvoke w f x k (i + 1) (m >>> 1)
      (if m &&& 1 = 0 then y else ofLanes n w (fun j => if j = i then f (lane w x i) else lane w y j))

/-- `eval_sincos<T>` (TR:30-77): sine and cosine -/
def evalSincos (s : ISA) (fm : Bool) (T : Ety) (v : VSz) (signX absX : Vec v) : Vec v × Vec v :=
  let I := T.toI
  let w := T.w
  let y := fdivL w absX (fillV v (pio4 w))
  let i := cvttIF s T v y
  let i := addI s I v i (fillV v (1#w))
  let i := bitAnd i (fillV v (~~~ 1#w))
  let y := cvtIF s T v i
  let bit2 := shlC s I (w - 2) v (bitAnd i (fillV v (2#w)))
  let bit4 := shlC s I (w - 3) v (bitAnd i (fillV v (4#w)))
  let signCos := bitXor bit4 bit2
  let signSin := bitXor bit4 signX
  let pMask := cmpNe s I v bit2 (setzero v)
  let z := fmaddV fm w y (fillV v ((dpSincos w).getD 0 0)) absX
  let z := fmaddV fm w y (fillV v ((dpSincos w).getD 1 0)) z
  let z := fmaddV fm w y (fillV v ((dpSincos w).getD 2 0)) z
  let zz := fmulL w z z
  let p1 := fmaddV fm w (fmulL w (polevlV fm w v zz (sincof w)) zz) z z
  let p2 := fmulL w (polevlV fm w v zz (coscof w)) (fmulL w zz zz)
  let p2 := faddL w (fmaddV fm w (fillV v (mhalfBits w)) zz p2) (fillV v (oneBits w))
  (bitXor (blendv s T v p1 p2 pMask) signSin, bitXor (blendv s T v p2 p1 pMask) signCos)

/-- `if (m = isinf_abs(abs_x); test_mask(m)) abs_x = except_invalid<T>(abs_x, abs_x, m)` (SC:21-24, TN:20-23) -/
def enforceFinite (o : MathOpt) (s : ISA) (T : Ety) (v : VSz) (absX : Vec v) : Vec v :=
  if o.handleErr then
    let m := isinfAbs T v absX
    if testMask s v m then exceptInvalid s T v absX absX m else absX
  else absX
/-- `impl_sincos<T, Op>` (SC:15-53); `fs` and `fc` are the functions `special` assigns with for this `Op` -/
def implSincos (fs fc : {w : Nat} → BitVec w → BitVec w) (o : MathOpt) (s : ISA) (fm : Bool) (T : Ety) (v : VSz) (x : Vec v) : Vec v × Vec v :=
  let signX := masksign T v x
  let absX := enforceFinite o s T v (bitXor x signX)
  let oflow := cvtHasOverflow T v absX
  let y := evalSincos s fm T v signX (bitAndnot oflow absX)
  let m := movemask s T v oflow
  if m ≠ 0 then (maskInvoke T.w fs x (extent T v) 0 m y.1, maskInvoke T.w fc x (extent T v) 0 m y.2)
  else y

/-- `impl_tan<T>` (TN:11-56); `u1`, `u2` are the initial contents of `p1`, `p2` (zero, or undefined with clang) -/
def implTan (L : Libm) (u1 u2 : Vec v) (o : MathOpt) (s : ISA) (fm : Bool) (T : Ety) (x : Vec v) : Vec v :=
  let w := T.w
  let signX := masksign T v x
  let absX := enforceFinite o s T v (bitXor x signX)
  let pMask := cmpF fLt T v absX (fillV v (pio32 w))
  let bits := movemask s T v pMask
  let p1 :=
    if bits ≠ BitVec.ofNat 64 (2 ^ extent T v - 1) then
      let sc := evalSincos s fm T v signX absX
      fdivL w sc.1 sc.2
    else u1
  let p2 := if bits ≠ 0 then fmulL w (polevlV fm w v (fmulL w x x) (tancof w)) x else u2
  let y := blendv s T v p1 p2 pMask
  let m := movemask s T v (cvtHasOverflow T v absX)
  if m ≠ 0 then maskInvoke w L.tan x (extent T v) 0 m y else y

/-- `eval_asin<T>` (AS:13-39) -/
def evalAsin (s : ISA) (fm : Bool) (T : Ety) (v : VSz) (absX signX : Vec v) : Vec v :=
  let w := T.w
  let vPio4 := fillV v (pio4 w)
  let pMask := cmpF fLt T v (fillV v (fiveEights w)) absX
  let xMask := cmpF fLt T v absX (fillV v (asinPmin w))
  let a1 := fsubL w (fillV v (oneBits w)) absX
  let p1 := fmulL w a1 (fdivL w (polevlV fm w v a1 (asinR w)) (polevlV fm w v a1 (asinS w)))
  let a1 := sqrtL w (faddL w a1 a1)
  let b1 := fsubL w vPio4 a1
  let a1 := fmsubV fm w a1 p1 (fillV v (asinOff w))
  let p1 := fsubL w (faddL w b1 vPio4) a1
  let a2 := fmulL w absX absX
  let p2 := fdivL w (polevlV fm w v a2 (asinP w)) (polevlV fm w v a2 (asinQ w))
  let p2 := fmaddV fm w absX (fmulL w a2 p2) absX
  let p := blendv s T v p2 p1 pMask
  let p := blendv s T v p absX xMask
  bitXor p signX
/-- `if (m = cmp_gt<T>(abs_x, one); test_mask(m)) abs_x = except_invalid<T>(abs_x, abs_x, m)` (AS:47-50, 61-64) -/
def enforceUnit (o : MathOpt) (s : ISA) (T : Ety) (v : VSz) (absX : Vec v) : Vec v :=
  if o.handleErr then
    let m := cmpF fLt T v (fillV v (oneBits T.w)) absX
    if testMask s v m then exceptInvalid s T v absX absX m else absX
  else absX
/-- `impl_asin<T>` (AS:41-52) -/
def implAsin (o : MathOpt) (s : ISA) (fm : Bool) (T : Ety) (v : VSz) (x : Vec v) : Vec v :=
  let signX := masksign T v x
  evalAsin s fm T v (enforceUnit o s T v (bitXor x signX)) signX
/-- `impl_acos<T>` (AS:54-73) -/
def implAcos (o : MathOpt) (s : ISA) (fm : Bool) (T : Ety) (v : VSz) (x : Vec v) : Vec v :=
  let w := T.w
  let vPio4 := fillV v (pio4 w)
  let signX := masksign T v x
  let absX := enforceUnit o s T v (bitXor x signX)
  let cMask := cmpF fLt T v (fillV v (halfBits w)) x
  let acos1 := fmulL w (fillV v (twoBits w))
    (evalAsin s fm T v (sqrtL w (fmaddV fm w absX (fillV v (mhalfBits w)) (fillV v (halfBits w)))) (setzero v))
  let acos2 := faddL w (faddL w (fsubL w vPio4 (evalAsin s fm T v absX signX)) (fillV v (asinOff w))) vPio4
  blendv s T v acos2 acos1 cMask

/-- `impl_atan<T>` (AT:11-57) -/
def implAtan (s : ISA) (fm : Bool) (T : Ety) (v : VSz) (x : Vec v) : Vec v :=
  let w := T.w
  let vPio4 := fillV v (pio4 w)
  let vPio2 := fillV v (pio2 w)
  let vMone := fillV v (moneBits w)
  let vOne := fillV v (oneBits w)
  let signX := masksign T v x
  let absX := bitXor x signX
  let pio2Mask := cmpF fLt T v (fillV v (tan3pio8 w)) absX
  let pio4Mask := cmpF fLt T v (fillV v (p66 w)) absX
  let y := setzero v
  let xZero := cmpF fEq T v absX (setzero v)
  let xPio4 := fdivL w (faddL w absX vMone) (faddL w absX vOne)
  let xPio2 := fdivL w vMone (blendv s T v absX vOne xZero)
  let absX := blendv s T v absX xPio4 pio4Mask
  let absX := blendv s T v absX xPio2 pio2Mask
  let y := blendv s T v y vPio4 pio4Mask
  let y := blendv s T v y vPio2 pio2Mask
  let z := fmulL w absX absX
  let p0 := polevlV fm w v z (atanP w)
  let p1 := polevlV fm w v z (atanQ w)
  let z := fmulL w z (fdivL w p0 p1)
  let z := fmaddV fm w absX z absX
  let zOff := fillV v (asinOffHalf w)
  let z := faddL w z (bitAnd (bitOr pio2Mask pio4Mask) zOff)
  let z := faddL w z (bitAnd pio2Mask zOff)
  let y := faddL w y z
  let infMask := isinfAbs T v absX
  let y := blendv s T v y vPio2 infMask
  bitXor y signX

section api
variable (c : Cfg) (L : Libm) (o : MathOpt) (fm : Bool)
/-- `sin(x)`, `cos(x)`, `tan(x)`, `asin(x)`, `acos(x)`, `atan(x)` (TR:165-260), `sincos(x, s, c)` (TR:264-282) -/
def vSin (x : c.Data) : Out c.Data :=
  .ok (vectorize1 c (fun _ x => (implSincos L.sin (fun x => x) o c.s fm c.T c.v x).1) (zeroData c) x)
def vCos (x : c.Data) : Out c.Data :=
  .ok (vectorize1 c (fun _ x => (implSincos (fun x => x) L.cos o c.s fm c.T c.v x).2) (zeroData c) x)
def vTan (u1 u2 : Vec c.v) (x : c.Data) : Out c.Data := .ok (vectorize1 c (fun _ x => implTan L u1 u2 o c.s fm c.T x) (zeroData c) x)
def vAsin (x : c.Data) : Out c.Data := .ok (vectorize1 c (fun _ x => implAsin o c.s fm c.T c.v x) (zeroData c) x)
def vAcos (x : c.Data) : Out c.Data := .ok (vectorize1 c (fun _ x => implAcos o c.s fm c.T c.v x) (zeroData c) x)
def vAtan (x : c.Data) : Out c.Data := .ok (vectorize1 c (fun _ x => implAtan c.s fm c.T c.v x) (zeroData c) x)
def vSincos (x outSin outCos : c.Data) : Out (c.Data × c.Data) :=
  .ok (forRange c.dataSize (fun j (r : c.Data × c.Data) =>
    let y := implSincos (fun x => (L.sincos x).1) (fun x => (L.sincos x).2) o c.s fm c.T c.v (x j)
    (r.1.set j y.1, r.2.set j y.2)) (outSin, outCos))
end api
end Dpm.X86
