import Verif.Model.Generic
import Verif.Model.Vector
import Verif.Spec.Ieee
import Verif.Spec.FloatCvt
/-
Model of the platform-independent math functions, /repo/dpm/detail/generic/math.hpp (called GM below), which are
templates over every `simd<T, Abi>`: an element loop that calls a function of `<cmath>`, stores the results in a
`std::array` and loads the returned vector from it.

The functions of `<cmath>` themselves are a parameter (`Cmath`): the theorems hold for every C library.
`long double` elements are not modelled.
-/
namespace Dpm.GenericMath
open Dpm Dpm.Generic Dpm.X86

/-- unary functions of `<cmath>` with result of the argument's type -/
inductive Fn1 where
  | fabs | sqrt | cbrt | exp | exp2 | expm1 | log | log10 | log2 | log1p
  | sin | cos | tan | asin | acos | atan | sinh | cosh | tanh | asinh | acosh | atanh
  | erf | erfc | tgamma | lgamma | ceil | floor | trunc | nearbyint | round | rint | logb
  deriving DecidableEq
/-- binary functions of `<cmath>` -/
inductive Fn2 where
  | fmod | remainder | fmax | fmin | fdim | hypot | pow | atan2 | nextafter | copysign
  deriving DecidableEq
/-- classification functions -/
inductive Cls where
  | isfinite | isinf | isnan | isnormal | signbit
  deriving DecidableEq
/-- quiet comparisons -/
inductive Rel where
  | isgreater | isgreaterequal | isless | islessequal | islessgreater | isunordered
  deriving DecidableEq
/-- roundings to `long` / `long long` (both 64 bit: LP64) -/
inductive RndL where
  | lround | llround | lrint | llrint
  deriving DecidableEq
/-- scalings by a power of two; the exponent of `ldexp`, `scalbn` is an `int`, that of `scalbln` a `long` -/
inductive Scale where
  | ldexp | scalbn | scalbln
  deriving DecidableEq

/-- The C library on one floating-point format. -/
structure Cmath (w : Nat) where
  fn1 : Fn1 → BitVec w → BitVec w
  fn2 : Fn2 → BitVec w → BitVec w → BitVec w
  lerp : BitVec w → BitVec w → BitVec w → BitVec w
  cls : Cls → BitVec w → Bool
  rel : Rel → BitVec w → BitVec w → Bool
  rndL : RndL → BitVec w → BitVec 64
  ilogb : BitVec w → BitVec 32
  fpclassify : BitVec w → BitVec 32
  scale : Scale → BitVec w → Int → BitVec w
  /-- (fraction, exponent) -/
  frexp : BitVec w → BitVec w × BitVec 32
  /-- (fraction, integral part) -/
  modf : BitVec w → BitVec w × BitVec w
  /-- (remainder, quotient) -/
  remquo : BitVec w → BitVec w → BitVec w × BitVec 32

/-! ### Which `<cmath>` function each function template calls -/
/-- `dpm::f` ↦ the `std::` function called per element (GM:34, 360, 369, 460-514, 555-600, 706-751, 788-815, 844-881,
909, 1053; the line is that of the call). -/
def callee1 : Fn1 → Fn1
  | .fabs => .fabs            -- GM:34  (`abs`, `fabs` forwards to it at GM:39)
  | .sqrt => .sqrt            -- GM:360
  | .cbrt => .cbrt            -- GM:369
  | .exp => .exp              -- GM:460
  | .exp2 => .exp2            -- GM:469
  | .expm1 => .expm1          -- GM:478
  | .log => .log              -- GM:487
  | .log10 => .log10          -- GM:496
  | .log2 => .log2            -- GM:505
  | .log1p => .log1p          -- GM:514
  | .sin => .sin              -- GM:555
  | .cos => .cos              -- GM:564
  | .tan => .tan              -- GM:573
  | .asin => .asin            -- GM:582
  | .acos => .acos            -- GM:591
  | .atan => .atan            -- GM:600
  | .sinh => .sinh            -- GM:706
  | .cosh => .cosh            -- GM:715
  | .tanh => .tanh            -- GM:724
  | .asinh => .asinh          -- GM:733
  | .acosh => .acosh          -- GM:742
  | .atanh => .atanh          -- GM:751
  | .erf => .erf              -- GM:788
  | .erfc => .erfc            -- GM:797
  | .tgamma => .tgamma        -- GM:806
  | .lgamma => .lgamma        -- GM:815
  | .ceil => .ceil            -- GM:844
  | .floor => .floor          -- GM:853
  | .trunc => .trunc          -- GM:862
  | .nearbyint => .nearbyint  -- GM:871
  | .round => .round          -- GM:881
  | .rint => .rint            -- GM:909
  | .logb => .logb            -- GM:1053
/-- GM:47, 56, 79, 89, 98, 378, 387, 609, 1062, 1080 -/
def callee2 : Fn2 → Fn2
  | .fmod => .fmod            -- GM:47
  | .remainder => .remainder  -- GM:56
  | .fmax => .fmax            -- GM:79
  | .fmin => .fmin            -- GM:89
  | .fdim => .fdim            -- GM:98
  | .hypot => .hypot          -- GM:378
  | .pow => .pow              -- GM:387
  | .atan2 => .atan2          -- GM:609
  | .nextafter => .nextafter  -- GM:1062
  | .copysign => .copysign    -- GM:1080
/-- GM:1227-1263 -/
def calleeC : Cls → Cls
  | .isfinite => .isfinite    -- GM:1227
  | .isinf => .isinf          -- GM:1236
  | .isnan => .isnan          -- GM:1245
  | .isnormal => .isnormal    -- GM:1254
  | .signbit => .signbit      -- GM:1263
/-- GM:1298-1343 -/
def calleeR : Rel → Rel
  | .isgreater => .isgreater            -- GM:1298
  | .isgreaterequal => .isgreaterequal  -- GM:1307
  | .isless => .isless                  -- GM:1316
  | .islessequal => .islessequal        -- GM:1325
  | .islessgreater => .islessgreater    -- GM:1334
  | .isunordered => .isunordered        -- GM:1343
/-- GM:1017, 1026, 1035 (vector exponents), 1139, 1148, 1157 (scalar exponents) -/
def calleeS : Scale → Scale
  | .ldexp => .ldexp
  | .scalbn => .scalbn
  | .scalbln => .scalbln

/-! ### Conversions of the language -/
/-- `static_cast` of a floating-point value to a signed integer type of `k` bits [conv.fpint]: truncation, undefined when
the truncated value is not representable. -/
def fpToInt (k : Nat) {w : Nat} (v : BitVec w) : Option (BitVec k) :=
  if Fp.isFinite v = true ∧ (⟨k, true⟩ : IntTy).fits (Fp.toInt .zero v) = true then some (BitVec.ofInt k (Fp.toInt .zero v))
  else none
/-- the same for an integer type of either signedness -/
def fpToIty (t : IntTy) {w : Nat} (v : BitVec w) : Option (BitVec t.bits) :=
  if Fp.isFinite v = true ∧ t.fits (Fp.toInt .zero v) = true then some (BitVec.ofInt t.bits (Fp.toInt .zero v)) else none

section float
variable {w N : Nat} (L : Cmath w)
local notation "V" => GSimd (BitVec w) N

/-! ### Functions of one and two vectors of a floating-point type -/
/-- `rint` (GM:903-911): the buffer is `std::array<long, N>`, so every result of `std::rint` is converted to `long`
and back to `T` by the loading constructor (G:506, G:516-520). -/
def gRint (x : V) : Option V :=
  (forRangeM N (fun i (r : Mem (BitVec 64)) => (fpToInt 64 (L.fn1 (callee1 .rint) (x.get i))).map (fun v => r.set i v))
    (fun _ => 0)).map
  (fun r => (GSimd.uninit (fun _ => 0)).copyFrom (fun z => Fp.ofInt w z.toInt) r)
/-- The unary function templates for floating-point `T`.  `abs` (GM:30-36) returns the `std::array` itself where a
`simd` is expected, for which there is no conversion (G:497-509): no instantiation compiles, hence neither does `fabs`
(GM:39). -/
def gFn1 (f : Fn1) (x : V) : Out V :=
  match f with
  | .fabs => .illFormed
  | .rint => Out.ofUb (gRint L x)
  | f => Out.ofUb (lift1 0#w (fun v => some (L.fn1 (callee1 f) v)) x)
/-- The binary function templates on two vectors of one floating-point type. -/
def gFn2 (f : Fn2) (a b : V) : Out V := Out.ofUb (lift2 0#w (fun x y => some (L.fn2 (callee2 f) x y)) a b)
/-- The forms whose second operand is a scalar: `fmod` GM:174, `remainder` GM:183, `fmax` GM:193, `fdim` GM:212,
`pow` GM:396, `copysign` GM:1166.  `fmin` (GM:203) writes `b[i]` for the scalar `b`: it does not compile.  There is no
such form of `hypot`, `atan2`, `nextafter`. -/
def gFn2S (f : Fn2) (a : V) (b : BitVec w) : Out V :=
  match f with
  | .fmin => .illFormed
  | .hypot | .atan2 | .nextafter => .illFormed
  | f => Out.ofUb (liftS 0#w (fun x y => some (L.fn2 (callee2 f) x y)) a b)
/-- `lerp` on three vectors (GM:102-109). -/
def gLerp (a b f : V) : Out V :=
  Out.ofUb ((forRangeM N (fun i (r : Mem (BitVec w)) => (some (L.lerp (a.get i) (b.get i) (f.get i))).map (fun v => r.set i v))
    (fun _ => 0)).map (fun r => GSimd.load (fun _ => 0) r))
/-- `lerp` with a scalar factor (GM:216-223). -/
def gLerpS (a b : V) (f : BitVec w) : Out V :=
  Out.ofUb (lift2 0#w (fun x y => some (L.lerp x y f)) a b)

/-! ### Results of other types -/
/-- `isfinite` … `signbit` (GM:1222-1265). -/
def gCls (p : Cls) (x : V) : GMask N := maskLoop (fun i => L.cls (calleeC p) (x.get i))
/-- `isgreater` … `isunordered` (GM:1292-1345). -/
def gRel (p : Rel) (a b : V) : GMask N := maskLoop (fun i => L.rel (calleeR p) (a.get i) (b.get i))
/-- `lround` (GM:885-892), `llround` (GM:894-901), `lrint` (GM:913-920), `llrint` (GM:922-929).  `lrint` declares its
buffer as a vector (`rebind_simd_t<long, …> result`) and then asks for `result.data()`, which a vector does not have. -/
def gRndL (f : RndL) (x : V) : Out (GSimd (BitVec 64) N) :=
  match f with
  | .lround => Out.ofUb (lift1 0#64 (fun v => some (L.rndL .lround v)) x)
  | .llround => Out.ofUb (lift1 0#64 (fun v => some (L.rndL .llround v)) x)
  | .lrint => .illFormed
  | .llrint => Out.ofUb (lift1 0#64 (fun v => some (L.rndL .llrint v)) x)
/-- The loop of `iround`, `irint`, `itrunc`: `result[i] = …` on the vector `result = {}` itself. -/
def storeLoop {k : Nat} (f : BitVec w → Option (BitVec k)) (x : V) : Option (GSimd (BitVec k) N) :=
  forRangeM N (fun i (r : GSimd (BitVec k) N) => (f (x.get i)).map (fun v => r.setAt i v)) ⟨fun _ => 0⟩
/-- `ext::iround<I>` (GM:934-948): `sizeof(I) <= sizeof(long)` for every integer type (LP64), so the first branch,
`static_cast<I>(std::lround(x[i]))`; that conversion is modular. -/
def gIround (k : Nat) (x : V) : Out (GSimd (BitVec k) N) :=
  Out.ofUb (storeLoop (fun v => some ((L.rndL .lround v).setWidth k)) x)
/-- `ext::irint<I>` (GM:951-965). -/
def gIrint (k : Nat) (x : V) : Out (GSimd (BitVec k) N) :=
  Out.ofUb (storeLoop (fun v => some ((L.rndL .lrint v).setWidth k)) x)
/-- `ext::itrunc<I>` (GM:968-975): `static_cast<I>(std::trunc(x[i]))`. -/
def gItrunc (k : Nat) (x : V) : Out (GSimd (BitVec k) N) :=
  Out.ofUb (storeLoop (fun v => fpToInt k (L.fn1 .trunc v)) x)
/-- `ext::ltrunc`, `ext::lltrunc` (GM:978, GM:981). -/
def gLtrunc (x : V) : Out (GSimd (BitVec 64) N) := gItrunc L 64 x
def gLltrunc (x : V) : Out (GSimd (BitVec 64) N) := gItrunc L 64 x
/-- `ilogb` (GM:1039-1046). -/
def gIlogb (x : V) : Out (GSimd (BitVec 32) N) := Out.ofUb (lift1 0#32 (fun v => some (L.ilogb v)) x)
/-- `fpclassify` (GM:1213-1220). -/
def gFpclassify (x : V) : Out (GSimd (BitVec 32) N) := Out.ofUb (lift1 0#32 (fun v => some (L.fpclassify v)) x)
/-- `frexp(x, simd<int>*)` (GM:987-997) and `ext::frexp(x, simd<int>&)` (GM:1196): two buffers, `std::frexp` writes
through `exp.data() + i`; (returned vector, `*out_exp`). -/
def gFrexp (x : V) (outExp : GSimd (BitVec 32) N) : V × GSimd (BitVec 32) N :=
  let s := forRange N (fun i (s : Mem (BitVec 32) × Mem (BitVec w)) =>
    let r := L.frexp (x.get i)
    (s.1.set i r.2, s.2.set i r.1)) (fun _ => 0, fun _ => 0)
  (GSimd.load (fun _ => 0) s.2, outExp.copyFrom id s.1)
/-- `modf(x, simd<T>*)` (GM:1000-1010) and `ext::modf` (GM:1199). -/
def gModf (x : V) (outI : V) : V × V :=
  let s := forRange N (fun i (s : Mem (BitVec w) × Mem (BitVec w)) =>
    let r := L.modf (x.get i)
    (s.1.set i r.1, s.2.set i r.2)) (fun _ => 0, fun _ => 0)
  (GSimd.load (fun _ => 0) s.1, outI.copyFrom id s.2)
/-- `remquo(a, b, simd<int, QAbi>*)` (GM:61-71): `out_quo` is a vector of any size `M`; its `copy_from` reads `M` elements
of the `std::array<int, N>`, past whose end the access is undefined. -/
def gRemquo {M : Nat} (a b : V) (outQuo : GSimd (BitVec 32) M) : Option (V × GSimd (BitVec 32) M) :=
  let s := forRange N (fun i (s : Mem (BitVec 32) × Mem (BitVec w)) =>
    let r := L.remquo (a.get i) (b.get i)
    (s.1.set i r.2, s.2.set i r.1)) (fun _ => 0, fun _ => 0)
  if M ≤ N then some (GSimd.load (fun _ => 0) s.2, outQuo.copyFrom id s.1) else none
/-- `ldexp`, `scalbn` with a vector of `int` exponents and `scalbln` with a vector of `long` (GM:1013-1037). -/
def gScale {k : Nat} (f : Scale) (x : V) (e : GSimd (BitVec k) N) : Out V :=
  Out.ofUb (lift2 0#w (fun v n => some (L.scale (calleeS f) v n.toInt)) x e)
/-- the same with one scalar exponent (GM:1135-1159). -/
def gScaleS {k : Nat} (f : Scale) (x : V) (e : BitVec k) : Out V :=
  Out.ofUb (liftS 0#w (fun v (n : BitVec k) => some (L.scale (calleeS f) v n.toInt)) x e)
/-- `ext::sincos` (GM:650-697), `(out_sin, out_cos)`.  `builtins` = `DPM_USE_SINCOS` is defined (GM:652-656), which it is
for GCC and Clang: then `__builtin_sincosf(x, …)` is called with the vector `x` instead of `x[i]` (GM:664, 672, 680). -/
def gSincos (builtins : Bool) (x : V) : Out (V × V) :=
  if builtins then .illFormed
  else (gFn1 L .sin x).bind fun s => (gFn1 L .cos x).map fun c => (s, c)
end float

section fused
variable {α : Type} {N : Nat} (S : Scalar α)
/-- `ext::fmadd` (GM:282), which `fma` (GM:352) forwards to: `a * b + c` with the vector operators. -/
def gFmadd (a b c : GSimd α N) : Option (GSimd α N) := (opMul S a b).bind fun p => opAdd S p c
/-- `ext::fmsub` (GM:285): `a * b - c`. -/
def gFmsub (a b c : GSimd α N) : Option (GSimd α N) := (opMul S a b).bind fun p => opSub S p c
/-- `ext::fnmadd` (GM:288): `c - a * b`. -/
def gFnmadd (a b c : GSimd α N) : Option (GSimd α N) := (opMul S a b).bind fun p => opSub S c p
/-- `ext::fnmsub` (GM:291): `-(a * b) - c`. -/
def gFnmsub (a b c : GSimd α N) : Option (GSimd α N) :=
  (opMul S a b).bind fun p => (opNeg S p).bind fun q => opSub S q c
/-- `ext::rcp` (GM:437): `simd{T{1}} / x`. -/
def gRcp (x : GSimd α N) : Option (GSimd α N) := opDiv S (GSimd.fill (fun _ => S.zero) S.one) x
/-- `ext::rsqrt` (GM:445): `rcp(sqrt(x))`. -/
def gRsqrt {w : Nat} (S : Scalar (BitVec w)) (L : Cmath w) (x : GSimd (BitVec w) N) : Out (GSimd (BitVec w) N) :=
  (gFn1 L .sqrt x).bind fun r => Out.ofUb (gRcp S r)
/-- `ext::nan(str)` (GM:340-349): broadcast of `std::nan(str)` / `std::nanf(str)`. -/
def gNan {w : Nat} (v : BitVec w) : GSimd (BitVec w) N := GSimd.fill (fun _ => 0) v
end fused

/-! ### Overloads for other element types -/
/-- the element types of `simd` that are modelled -/
inductive El where
  | f32 | f64 | int (t : IntTy)
  deriving DecidableEq
/-- the representation of one element -/
def El.Rep : El → Type
  | .f32 => BitVec 32
  | .f64 => BitVec 64
  | .int t => BitVec t.bits
/-- `static_cast<double>` of an element [conv.fpint]: exact where possible, else rounded to nearest even -/
def toDouble : (e : El) → e.Rep → BitVec 64
  | .f32 => fun x => Fp.widen x
  | .f64 => fun x => x
  | .int t => fun x => Fp.ofInt 64 (t.val x)
/-- `promoted_t{x}` (GM:24, e.g. GM:117-118) with `promoted_t = rebind_simd_t<double, simd<T, Abi>>`: the conversion operator
G:511-512. -/
def promote {N : Nat} (e : El) (x : GSimd e.Rep N) : GSimd (BitVec 64) N := convOp (fun _ => 0) (toDouble e) x
/-- A vector of some element type. -/
abbrev AnyVec (N : Nat) := (e : El) × GSimd e.Rep N
/-- does the unary function have a promoting overload?  (GM:403-407, 519-545, 614-636, 756-779, 820-835, 1113; none for the
nearest-integer functions GM:840-929 and `fabs` GM:38) -/
def promotes1 : Fn1 → Bool
  | .fabs | .ceil | .floor | .trunc | .nearbyint | .round | .rint => false
  | _ => true
/-- A call of a unary function template with a vector of any element type: the overload constrained to
`std::floating_point` wins for `float` and `double`; other types promote to `double`, if such an overload exists. -/
def gCall1 {N : Nat} (L32 : Cmath 32) (L64 : Cmath 64) (f : Fn1) : AnyVec N → Out (AnyVec N)
  | ⟨.f32, x⟩ => (gFn1 L32 f x).map fun r => ⟨.f32, r⟩
  | ⟨.f64, x⟩ => (gFn1 L64 f x).map fun r => ⟨.f64, r⟩
  | ⟨.int t, x⟩ => if promotes1 f then (gFn1 L64 f (promote (.int t) x)).map fun r => ⟨.f64, r⟩ else .illFormed
/-- the binary functions whose one-type overload is not constrained to floating-point types (GM:51, 74, 84, 93) -/
def unconstrained2 : Fn2 → Bool
  | .remainder | .fmax | .fmin | .fdim => true
  | _ => false
/-- The one-type overload of those functions for an integer type `T` (GM:51-100): `std::fmax(a[i], b[i])` on integers
returns `double`, and the assignment to `result[i]` converts it back to `T`. -/
def gFn2Int {N : Nat} (L64 : Cmath 64) (t : IntTy) (f : Fn2) (a b : GSimd (BitVec t.bits) N) : Option (GSimd (BitVec t.bits) N) :=
  lift2 0#t.bits (fun x y => fpToIty t (L64.fn2 (callee2 f) (toDouble (.int t) x) (toDouble (.int t) y))) a b
/-- A call of a binary function template: one floating-point type — the overload for it; one integer type — the
unconstrained overload if there is one (more specialised than the promoting overload), else promotion; two types —
promotion to `double` (GM:113-168, 411-423, 638-643, 1116-1130). -/
def gCall2 {N : Nat} (L32 : Cmath 32) (L64 : Cmath 64) (f : Fn2) : AnyVec N → AnyVec N → Out (AnyVec N)
  | ⟨.f32, x⟩, ⟨.f32, y⟩ => (gFn2 L32 f x y).map fun r => ⟨.f32, r⟩
  | ⟨.f64, x⟩, ⟨.f64, y⟩ => (gFn2 L64 f x y).map fun r => ⟨.f64, r⟩
  | ⟨e0, x⟩, ⟨e1, y⟩ =>
    if h : unconstrained2 f = true ∧ e0 = e1 then
      match e0, x, e1, y, h with
      | .int t, x, .int _, y, h => (Out.ofUb (gFn2Int L64 t f x ((El.int.inj h.2).symm ▸ y))).map fun r => ⟨.int t, r⟩
      | _, _, _, _, _ => .illFormed
    else (gFn2 L64 f (promote e0 x) (promote e1 y)).map fun r => ⟨.f64, r⟩

/-! ### The same templates on x86 vectors
The functions below have no x86 overload unless `DPM_USE_SVML` is defined (pow.hpp, exp.hpp, hypbl.hpp, errfn.hpp,
mbase.hpp, trig.hpp), so a call with an x86 vector runs the template: it reads through `operator[]` and ends in
`return {result.data(), vector_aligned}`, a load of whole native vectors from the `std::array` of `size()` elements. -/
/-- unary functions left to the template on x86 without SVML -/
def x86Template1 : Fn1 → Bool
  | .cbrt | .exp | .exp2 | .expm1 | .sinh | .cosh | .tanh | .asinh | .acosh | .atanh | .erf | .erfc | .tgamma | .lgamma => true
  | _ => false
/-- binary functions left to the template on x86 without SVML -/
def x86Template2 : Fn2 → Bool
  | .fmod | .remainder | .pow | .atan2 => true
  | _ => false
def xFn1 (c : Cfg) (L : Cmath c.w) (f : Fn1) (x : c.Data) : Out c.Data :=
  genericTemplate1 c (fun v => some (L.fn1 (callee1 f) v)) x
def xFn2 (c : Cfg) (L : Cmath c.w) (f : Fn2) (a b : c.Data) : Out c.Data :=
  genericTemplate2 c (fun u v => some (L.fn2 (callee2 f) u v)) a b
/-- `fmod(a, T)`, `remainder(a, T)`, `pow(x, T)` (GM:174, GM:183, GM:396) on x86 vectors -/
def xFn2S (c : Cfg) (L : Cmath c.w) (f : Fn2) (a : c.Data) (b : BitVec c.w) : Out c.Data :=
  genericTemplate1 c (fun u => some (L.fn2 (callee2 f) u b)) a

end Dpm.GenericMath
