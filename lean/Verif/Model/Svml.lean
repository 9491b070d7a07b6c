import Verif.Spec.Svml
import Verif.Model.Round
import Verif.Model.Log
import Verif.Model.Mbase
import Verif.Model.Callable
/-
The x86 backend compiled with `DPM_USE_SVML` (README:196-200).
M = detail/x86/math.hpp, PW = pow.hpp, EX = exp.hpp, TR = trig.hpp, FM = fmanip.hpp, RD = round.hpp, HY = hypbl.hpp, EF = errfn.hpp.
-/
namespace Dpm.Svml
open Dpm Dpm.Reg Dpm.X86 Dpm.GenericMath

inductive Header where
  | mbase | pow | exp | trig | round | fmanip | cls | hypbl | errfn
  deriving DecidableEq
/-- the headers `<dpm/simd.hpp>` gets (M:16-22); nothing else includes hypbl.hpp or errfn.hpp -/
def included : List Header := [.mbase, .pow, .exp, .trig, .round, .fmanip, .cls]

/-- A function `detail::<name>` whose body is a call of the library: its parameters (values and references alike), the function called and
the positions of the parameters that are passed to it. -/
structure Wrapper where
  name : String
  params : List CType
  call : IntrName
  args : List Nat
/-- `__m128 name(__m128 x) { return _mm_f_ps(x); }` -/
def w1 (r : XReg) (name : String) (f : Fn1) : Wrapper := ⟨name, [.reg r], .one f, [0]⟩
/-- `__m128 name(__m128 a, __m128 b) { return _mm_f_ps(a, b); }` -/
def w2 (r : XReg) (name : String) (f : Fn2) : Wrapper := ⟨name, [.reg r, .reg r], .two f, [0, 1]⟩
/-- `void sincos(__m128 x, __m128 &s, __m128 &c) { s = _mm_sincos_ps(c, x); }` -/
def wSincos (r : XReg) : Wrapper := ⟨"sincos", [.reg r, .reg r, .reg r], .sincos, [2, 0]⟩

/-- EX:23-60 (the four register types have the same list) -/
def expWrappers (r : XReg) : List Wrapper :=
  [w1 r "exp" .exp, w1 r "exp2" .exp2, w1 r "expm1" .expm1, w1 r "log" .log, w1 r "log2" .log2, w1 r "log10" .log10, w1 r "log1p" .log1p]
/-- PW:14-27 -/
def powWrappers (r : XReg) : List Wrapper := [w2 r "pow" .pow, w1 r "cbrt" .cbrt]
/-- TR:126-163 -/
def trigWrappers (r : XReg) : List Wrapper :=
  [wSincos r, w1 r "sin" .sin, w1 r "cos" .cos, w1 r "tan" .tan, w1 r "asin" .asin, w1 r "acos" .acos, w1 r "atan" .atan, w2 r "atan2" .atan2]
/-- FM:20-27 -/
def fmanipWrappers (r : XReg) : List Wrapper := [w1 r "logb" .logb]
/-- RD:35, 46, 57, 68, 79, 90, 151, 242: before SSE4.1 the 128-bit functions call the library (`_mm_svml_ceil_ps`, …) -/
def roundWrappers (s : ISA) (r : XReg) : List Wrapper :=
  if s.sse41 = false ∧ (r = .ps128 ∨ r = .pd128) then [w1 r "ceil" .ceil, w1 r "floor" .floor, w1 r "trunc" .trunc, w1 r "round" .round] else []
/-- HY:16-45 -/
def hypblWrappers (r : XReg) : List Wrapper :=
  [w1 r "sinh" .sinh, w1 r "cosh" .cosh, w1 r "tanh" .tanh, w1 r "asinh" .asinh, w1 r "acosh" .acosh, w1 r "atanh" .atanh]
/-- EF:16-29: the first one is called `arf` -/
def errfnWrappers : XReg → List Wrapper
  | .ps128 => [w1 .ps128 "arf" .erf, w1 .ps128 "erfc" .erfc]
  | r => [w1 r "erf" .erf, w1 r "erfc" .erfc]
def wrappers (s : ISA) (r : XReg) : Header → List Wrapper
  | .exp => expWrappers r
  | .pow => powWrappers r
  | .trig => trigWrappers r
  | .fmanip => fmanipWrappers r
  | .round => roundWrappers s r
  | .hypbl => hypblWrappers r
  | .errfn => errfnWrappers r
  | .mbase | .cls => []
/-- the register types there are (`#ifdef DPM_HAS_AVX`; SSE2 is assumed throughout) -/
def regs (s : ISA) : List XReg := if s.avx then [.ps128, .pd128, .ps256, .pd256] else [.ps128, .pd128]

/-- the body of a wrapper type-checks: every argument has the type of its parameter (there are no conversions) -/
def Wrapper.ok (r : XReg) (w : Wrapper) : Bool := w.args.map (w.params[·]?) = (signature r w.call).map some
/-- the namespaces of the library, outermost name first (DPM_DECLARE_EXT_NAMESPACE is `namespace ext`, CF:79-81) -/
def namespaces : List (List String) := [["dpm"], ["dpm", "ext"], ["dpm", "detail"], ["dpm", "simd_abi"], ["dpm", "simd_abi", "ext"]]
/-- lookup of the nested-name-specifier `p::` from inside `namespace dpm` -/
def resolves (p : List String) : Bool := namespaces.contains ("dpm" :: p)
/-- the nested-name-specifier in `pow(x, T)`: `ext::dpm::native_data_type_t` (PW:84) -/
def powQualifier : List String := ["ext", "dpm"]
/-- A translation unit that includes the headers `hs` compiles: none of the wrappers is a template, so all bodies are checked; and the
qualified name in PW:84 does not depend on a template parameter, so it is looked up when the template is defined. -/
def unitOk (hs : List Header) (s : ISA) : Bool :=
  hs.all (fun h => (regs s).all fun r => (wrappers s r h).all (·.ok r)) && (!hs.contains .pow || resolves powQualifier)

/-- the public functions of one vector: their header and the `detail` function in their run-time branch
(EX:207-319, PW:93-107, TR:169-262, FM:379-393, HY:48-142, EF:32-62).  `exp2` calls `detail::exp` (EX:234). -/
def publics : List (Header × Fn1 × String) :=
  [(.exp, .exp, "exp"), (.exp, .exp2, "exp"), (.exp, .expm1, "expm1"), (.exp, .log, "log"), (.exp, .log2, "log2"), (.exp, .log10, "log10"),
   (.exp, .log1p, "log1p"), (.pow, .cbrt, "cbrt"), (.trig, .sin, "sin"), (.trig, .cos, "cos"), (.trig, .tan, "tan"), (.trig, .asin, "asin"),
   (.trig, .acos, "acos"), (.trig, .atan, "atan"), (.fmanip, .logb, "logb"), (.hypbl, .sinh, "sinh"), (.hypbl, .cosh, "cosh"),
   (.hypbl, .tanh, "tanh"), (.hypbl, .asinh, "asinh"), (.hypbl, .acosh, "acosh"), (.hypbl, .atanh, "atanh"), (.errfn, .erf, "erf"),
   (.errfn, .erfc, "erfc")]

section
variable (hs : List Header) (c : Cfg) (S : Svml)
/-- what a wrapper of one and of two registers computes -/
def Wrapper.k1 (wr : Wrapper) : Option (Vec c.v → Vec c.v) :=
  match wr.call, wr.args with
  | .one f, [i] => some fun x => map1 c.w (S.fn1 f c.v c.w) ([x].getD i 0)
  | _, _ => none
def Wrapper.k2 (wr : Wrapper) : Option (Vec c.v → Vec c.v → Vec c.v) :=
  match wr.call, wr.args with
  | .two f, [i, j] => some fun x y => map2 c.w (S.fn2 f c.v c.w) ([x, y].getD i 0) ([x, y].getD j 0)
  | _, _ => none
/-- overload resolution of `detail::name(r, …)`: the wrapper for exactly that register type -/
def lookup (name : String) : Option Wrapper := (hs.flatMap (wrappers c.s (XReg.of c.T c.v))).find? (·.name == name)
/-- `vectorize([](auto &res, auto x) { res = detail::name(x); }, result, x)` -/
def via1 (name : String) (x : c.Data) : Out c.Data :=
  match (lookup hs c name).bind (·.k1 c S) with
  | some k => .ok (vectorize1 c (fun _ v => k v) (zeroData c) x)
  | none => .illFormed
/-- the same with two vectors -/
def via2 (name : String) (a b : c.Data) : Out c.Data :=
  match (lookup hs c name).bind (·.k2 c S) with
  | some k => .ok (vectorize2 c (fun _ u v => k u v) (zeroData c) a b)
  | none => .illFormed
/-- `ceil`, `floor`, `trunc`, `round` (RD:30-96, 142-157, 233-248) -/
def near (name : String) (builtin : Out c.Data) (x : c.Data) : Out c.Data := if c.s.sse41 then builtin else via1 hs c S name x
/-- The run-time branch of a function of one vector: the overload for x86 vectors where an included header has one, else the generic template,
which calls the C library `L` for every element. -/
def fn1 (L : Cmath c.w) (f : Fn1) (x : c.Data) : Out c.Data :=
  match publics.find? (fun p => decide (p.2.1 = f) && hs.contains p.1) with
  | some p => via1 hs c S p.2.2 x
  | none =>
    match f with
    | .ceil => near hs c S "ceil" (vCeil c x) x
    | .floor => near hs c S "floor" (vFloor c x) x
    | .trunc => near hs c S "trunc" (vTrunc c x) x
    | .round => near hs c S "round" (vRound c x) x
    | .rint => vRint c x
    | .nearbyint => vNearbyint c x
    | .sqrt => vSqrt c x
    | .fabs => Callable.callFabs c L x
    | f => xFn1 c L f x
/-- `pow(x, y)` (PW:55-71) and `atan2(a, b)` (TR:288-304), run-time branches -/
def fnPow (a b : c.Data) : Out c.Data := via2 hs c S "pow" a b
def fnAtan2 (a b : c.Data) : Out c.Data := via2 hs c S "atan2" a b
/-- `pow(x, p)` with a scalar `p` (PW:72-90), run-time branch: `p` is broadcast to a register (taking `native_t` to be the register type that
was meant) -/
def fnPowS (a : c.Data) (p : BitVec c.w) : Out c.Data :=
  match (lookup hs c "pow").bind (·.k2 c S) with
  | some k => .ok (vectorize1 c (fun _ v => k v (fillV c.v p)) (zeroData c) a)
  | none => .illFormed

/-- Calls from a program that includes `<dpm/simd.hpp>`: nothing compiles unless the headers do. -/
def call1 (L : Cmath c.w) (f : Fn1) (x : c.Data) : Out c.Data := if unitOk included c.s then fn1 included c S L f x else .illFormed
def callPow (a b : c.Data) : Out c.Data := if unitOk included c.s then fnPow included c S a b else .illFormed
def callAtan2 (a b : c.Data) : Out c.Data := if unitOk included c.s then fnAtan2 included c S a b else .illFormed
end
end Dpm.Svml
