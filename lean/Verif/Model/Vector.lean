import Verif.Model.Generic
import Verif.Model.Mask
import Verif.Model.NativeInt
/-
x86 vectors: class `simd<T, avec<N, A>>`, its operators and algorithms, run-time branches.
X = /repo/dpm/detail/x86/type.hpp, FL = /repo/dpm/flags.hpp, G = /repo/dpm/detail/generic/type.hpp,
AS, MD, MM, BW, MB as in Model/NativeInt.lean.
A vector object is its native storage `Nat → Vec v`; cells `< dataSize` belong to it.
-/
namespace Dpm.X86
open Dpm.Reg Dpm.Util Dpm.Generic

/-- Outcome of an API call: the call does not compile, its execution is undefined, or a result. -/
inductive Out (α : Type) where
  | illFormed
  | ub
  | ok (x : α)
namespace Out
def bind {α β : Type} (x : Out α) (f : α → Out β) : Out β :=
  match x with
  | .illFormed => .illFormed
  | .ub => .ub
  | .ok a => f a
def map {α β : Type} (f : α → β) (x : Out α) : Out β := x.bind (fun a => .ok (f a))
/-- an execution that may be undefined -/
def ofUb {α : Type} : Option α → Out α
  | none => .ub
  | some a => .ok a
/-- an instantiation that may not exist -/
def ofExists {α : Type} : Option α → Out α
  | none => .illFormed
  | some a => .ok a
end Out

/-- IEEE add, sub, mul, div of the hardware, per lane width.  Uninterpreted: theorems hold for any. -/
structure FpOps where
  add : (w : Nat) → BitVec w → BitVec w → BitVec w
  sub : (w : Nat) → BitVec w → BitVec w → BitVec w
  mul : (w : Nat) → BitVec w → BitVec w → BitVec w
  div : (w : Nat) → BitVec w → BitVec w → BitVec w

/-! ### Construction and memory -/
/-- `simd(U value)` (X:588-594) with `x = static_cast<T>(value)`. -/
def vbroadcast (c : Cfg) (x : BitVec c.w) (junk : c.Data) : c.Data :=
  let buff := forRange c.e (fun k (buf : Mem (BitVec c.w)) => buf.set k x) (fun _ => 0#c.w)
  forRange c.dataSize (fun j d => d.set j (ofLanes c.v.bits c.w buff)) junk
/-- `simd(G &&gen)` (X:611-621). -/
def vgenerate (c : Cfg) (gen : Nat → BitVec c.w) (junk : c.Data) : c.Data :=
  forStride c.N c.e (fun i j d =>
    let buff := forRange c.e (fun k (buf : Mem (BitVec c.w)) =>
      if i + k < c.N then buf.set k (gen (i + k)) else buf) (fun _ => 0#c.w)
    d.set j (ofLanes c.v.bits c.w buff)) junk
/-- `x[i] = v` (X:688-691). -/
def vset (c : Cfg) (d : c.Data) (i : Nat) (x : BitVec c.w) : c.Data := setElt c d i x

/-- alignment flags (FL:11-29) -/
inductive Flag where
  | element
  | vector
  | over (n : Nat)
/-- `aligned_tag<Flags, A>` (FL:40-41). -/
def Flag.aligned : Flag → Nat → Bool
  | .element, a => decide (0 ≥ a)
  | .vector, _ => true
  | .over n, a => decide (n ≥ a)

/-- one native store of `e` elements at element `p` of an array of `len` elements -/
def storeNative (c : Cfg) (len p : Nat) (x : Vec c.v) (mem : Mem (BitVec c.w)) : Option (Mem (BitVec c.w)) :=
  if p + c.e ≤ len then some (forRange c.e (fun k m => m.set (p + k) (lane c.w x k)) mem) else none
/-- one native load -/
def loadNative (c : Cfg) (len p : Nat) (mem : Mem (BitVec c.w)) : Option (Vec c.v) :=
  if p + c.e ≤ len then some (ofLanes c.v.bits c.w (fun k => mem (p + k))) else none

/-- `copy_to(mem, flags)` (X:659-671) to an array of `len` elements of type `T`; undefined if a byte
outside the array is accessed.  After the native loop `i = data_size * native_extent >= size()`, so the
element loop that follows it does nothing. -/
def copyTo (c : Cfg) (f : Flag) (d : c.Data) (len : Nat) (mem : Mem (BitVec c.w)) : Option (Mem (BitVec c.w)) :=
  if f.aligned c.v.bytes then
    forRangeM c.dataSize (fun j m => storeNative c len (j * c.e) (d j) m) mem
  else
    forRangeM c.N (fun i m => if i < len then some (m.set i (elt c d i)) else none) mem
/-- `copy_from(mem, flags)` (X:645-657) from an array of `len` elements of type `T`. -/
def copyFrom (c : Cfg) (f : Flag) (d : c.Data) (len : Nat) (mem : Mem (BitVec c.w)) : Option c.Data :=
  if f.aligned c.v.bytes then
    forRangeM c.dataSize (fun j d => (loadNative c len (j * c.e) mem).map (fun x => d.set j x)) d
  else
    forRangeM c.N (fun i d => if i < len then some (setElt c d i (mem i)) else none) d
/-- `copy_to`/`copy_from` with an element type `U` of another size (X:656, X:670): element loop with
`static_cast`. -/
def copyToConv {β : Type} (c : Cfg) (conv : BitVec c.w → β) (d : c.Data) (len : Nat) (mem : Mem β) : Option (Mem β) :=
  forRangeM c.N (fun i m => if i < len then some (m.set i (conv (elt c d i))) else none) mem
def copyFromConv {β : Type} (c : Cfg) (conv : β → BitVec c.w) (d : c.Data) (len : Nat) (mem : Mem β) : Option c.Data :=
  forRangeM c.N (fun i d => if i < len then some (setElt c d i (conv (mem i))) else none) d

/-! ### Fallbacks through the generic backend -/
/-- `static_cast<simd<T, packed_buffer<N>>>(x)` (X:623-633, first branch): through a value-initialised
`std::array<T, N>` with `vector_aligned`. -/
def toPacked (c : Cfg) (x : c.Data) : Out (GSimd (BitVec c.w) c.N) :=
  Out.ofUb ((copyTo c .vector x c.N (fun _ => 0#c.w)).map (fun buf => GSimd.load (fun _ => 0#c.w) buf))
/-- `static_cast<x86_simd<T, N, A>>(packed)`: the generic conversion operator (G:511-512) is
`return simd<U, OtherAbi>{_data, element_aligned}`; `junk` is the uninitialised storage. -/
def fromPacked (c : Cfg) (junk : c.Data) (g : GSimd (BitVec c.w) c.N) : Out c.Data :=
  Out.ofUb (copyFrom c .element junk c.N g.data)
/-- `return {result.data(), vector_aligned}` from a `std::array<T, N>` in a generic template returning an
x86 vector (e.g. G:739). -/
def fromArray (c : Cfg) (junk : c.Data) (g : GSimd (BitVec c.w) c.N) : Out c.Data :=
  Out.ofUb (copyFrom c .vector junk c.N g.data)
/-- `static_cast<x86>(op(static_cast<packed>(a)))` (e.g. X:940-944). -/
def packed1 (c : Cfg) (op : GSimd (BitVec c.w) c.N → Option (GSimd (BitVec c.w) c.N)) (a : c.Data) : Out c.Data :=
  (toPacked c a).bind fun pa => (Out.ofUb (op pa)).bind fun r => fromPacked c (zeroData c) r
def packed2 (c : Cfg) (op : GSimd (BitVec c.w) c.N → GSimd (BitVec c.w) c.N → Option (GSimd (BitVec c.w) c.N))
    (a b : c.Data) : Out c.Data :=
  (toPacked c a).bind fun pa => (toPacked c b).bind fun pb => (Out.ofUb (op pa pb)).bind fun r => fromPacked c (zeroData c) r
/-- A generic operator template applied to x86 vectors (no x86 overload, e.g. `/`, `%`, `~`: G:734-1051):
element loop through `operator[]` into `std::array<T, N>`, then `return {result.data(), vector_aligned}`. -/
def genericTemplate1 (c : Cfg) (f : BitVec c.w → Option (BitVec c.w)) (a : c.Data) : Out c.Data :=
  (Out.ofUb (lift1 0#c.w f (⟨fun i => elt c a i⟩ : GSimd (BitVec c.w) c.N))).bind fun r => fromArray c (zeroData c) r
def genericTemplate2 (c : Cfg) (f : BitVec c.w → BitVec c.w → Option (BitVec c.w)) (a b : c.Data) : Out c.Data :=
  (Out.ofUb (lift2 0#c.w f (⟨fun i => elt c a i⟩ : GSimd (BitVec c.w) c.N) (⟨fun i => elt c b i⟩ : GSimd (BitVec c.w) c.N))).bind
    fun r => fromArray c (zeroData c) r

/-! ### Kernels that dispatch on float / integral -/
/-- `add<T>`, `sub<T>` (AS:10-16, 34-37, 54-66 floats). -/
def addV (fp : FpOps) (s : ISA) (T : Ety) (v : VSz) (a b : Vec v) : Vec v :=
  if T.flt then map2 T.w (fp.add T.w) a b else addI s T v a b
def subV (fp : FpOps) (s : ISA) (T : Ety) (v : VSz) (a b : Vec v) : Vec v :=
  if T.flt then map2 T.w (fp.sub T.w) a b else subI s T v a b
/-- `negate<T>` (AS:142-145); `sign_bit<T>` (XU). -/
def negV (s : ISA) (T : Ety) (v : VSz) (x : Vec v) : Vec v :=
  if T.flt then bitXor x (fillV v (BitVec.intMin T.w)) else negI s T v x
/-- `mul<T>` (MD:10-20 floats). -/
def mulV (fp : FpOps) (s : ISA) (T : Ety) (v : VSz) (a b : Vec v) : Option (Vec v) :=
  if T.flt then some (map2 T.w (fp.mul T.w) a b) else mulI s T v a b
/-- `MINPS`/`MAXPS` on one lane: the second operand is returned on NaN or when both are zero. -/
def fminLane {w : Nat} (x y : BitVec w) : BitVec w := if fLt x y then x else y
def fmaxLane {w : Nat} (x y : BitVec w) : BitVec w := if fLt y x then x else y
/-- `min<T>`, `max<T>` (MM). -/
def minV (s : ISA) (T : Ety) (v : VSz) (a b : Vec v) : Option (Vec v) :=
  if T.flt then some (map2 T.w fminLane a b) else minI s T v a b
def maxV (s : ISA) (T : Ety) (v : VSz) (a b : Vec v) : Option (Vec v) :=
  if T.flt then some (map2 T.w fmaxLane a b) else maxI s T v a b
/-- `abs<T>` (MB:119-140, 249-267). -/
def absV (s : ISA) (T : Ety) (v : VSz) (x : Vec v) : Option (Vec v) :=
  if T.flt then some (bitAnd x (fillV v (BitVec.intMax T.w))) else absI s T v x

/-! ### Operators -/
/-- a kernel that may not exist, lifted over the native vectors (X:54-58) -/
def vec1 (c : Cfg) (f : Vec c.v → Option (Vec c.v)) (a : c.Data) : Out c.Data :=
  -- whether the kernel exists depends on the types only, hence not on the argument of `f`
  if (f 0).isSome then .ok (vectorize1 c (fun _ x => (f x).getD 0) (zeroData c) a) else .illFormed
def vec2 (c : Cfg) (f : Vec c.v → Vec c.v → Option (Vec c.v)) (a b : c.Data) : Out c.Data :=
  if (f 0 0).isSome then .ok (vectorize2 c (fun _ x y => (f x y).getD 0) (zeroData c) a b) else .illFormed
/-- `std::fill_n`-like scalar operand: `fill<V>(b)` in every native vector (X:835, X:851, ...). -/
def fillData (c : Cfg) (b : BitVec c.w) : c.Data := fun _ => fillV c.v b

section ops
variable (fp : FpOps) (c : Cfg)
/-- unary `-` (X:776-790) -/
def opNeg (a : c.Data) : Out c.Data := .ok (vectorize1 c (fun _ x => negV c.s c.T c.v x) (zeroData c) a)
/-- `+`, `-` (X:792-823) and with a scalar (X:825-856) -/
def opAdd (a b : c.Data) : Out c.Data := .ok (vectorize2 c (fun _ x y => addV fp c.s c.T c.v x y) (zeroData c) a b)
def opSub (a b : c.Data) : Out c.Data := .ok (vectorize2 c (fun _ x y => subV fp c.s c.T c.v x y) (zeroData c) a b)
def opAddS (a : c.Data) (b : BitVec c.w) : Out c.Data :=
  .ok (vectorize1 c (fun _ x => addV fp c.s c.T c.v x (fillV c.v b)) (zeroData c) a)
def opSubS (a : c.Data) (b : BitVec c.w) : Out c.Data :=
  .ok (vectorize1 c (fun _ x => subV fp c.s c.T c.v x (fillV c.v b)) (zeroData c) a)
/-- which integral types take the native multiplication (X:927-933, X:949-955): in
`if constexpr(!std::is_constant_evaluated() && sizeof(T) == 2 || sizeof(T) == 4)` the call is in a
manifestly constant-evaluated context, so the first conjunction is false; `DPM_HAS_AVX512LV` is never
defined. -/
def mulNative : Bool := c.s.sse41 && decide (c.T.bytes = 4)
/-- `*` (X:858-872 float, X:924-945 integral) -/
def opMul (a b : c.Data) : Out c.Data :=
  if c.T.flt ∨ mulNative c then vec2 c (fun x y => mulV fp c.s c.T c.v x y) a b
  else packed2 c (fun pa pb => Generic.opMul c.T.ity.scalar pa pb) a b
/-- `* scalar` (X:891-906 float, X:946-967 integral) -/
def opMulS (a : c.Data) (b : BitVec c.w) : Out c.Data :=
  if c.T.flt ∨ mulNative c then vec1 c (fun x => mulV fp c.s c.T c.v x (fillV c.v b)) a
  else packed1 c (fun pa => Generic.opMulS c.T.ity.scalar pa b) a
/-- `/` on floats (X:874-889, X:907-922); integral `/` and `%` are the generic templates (G:793-808). -/
def opDiv (a b : c.Data) : Out c.Data :=
  if c.T.flt then vec2 c (fun x y => some (map2 c.w (fp.div c.w) x y)) a b
  else genericTemplate2 c c.T.ity.div a b
def opRem (a b : c.Data) : Out c.Data := genericTemplate2 c c.T.ity.rem a b
/-- `~` is the generic template (G:858-864). -/
def opNot (a : c.Data) : Out c.Data := genericTemplate1 c c.T.ity.bnot a
/-- `&`, `^`, `|` (X:986-1033) and with a scalar (X:1035-1082) -/
def opAnd (a b : c.Data) : Out c.Data := .ok (vectorize2 c (fun _ x y => bitAnd x y) (zeroData c) a b)
def opXor (a b : c.Data) : Out c.Data := .ok (vectorize2 c (fun _ x y => bitXor x y) (zeroData c) a b)
def opOr (a b : c.Data) : Out c.Data := .ok (vectorize2 c (fun _ x y => bitOr x y) (zeroData c) a b)
def opAndS (a : c.Data) (b : BitVec c.w) : Out c.Data := .ok (vectorize1 c (fun _ x => bitAnd x (fillV c.v b)) (zeroData c) a)
def opXorS (a : c.Data) (b : BitVec c.w) : Out c.Data := .ok (vectorize1 c (fun _ x => bitXor x (fillV c.v b)) (zeroData c) a)
def opOrS (a : c.Data) (b : BitVec c.w) : Out c.Data := .ok (vectorize1 c (fun _ x => bitOr x (fillV c.v b)) (zeroData c) a)
/-- which types take the native variable shift (X:1087-1093 and the three copies): only the disjunct
`sizeof(T) == 8` under SSE4.1 survives, for the reason given at `mulNative`. -/
def shiftNative : Bool := c.s.sse41 && decide (c.T.bytes = 8)
/-- vector `<<` (X:1084-1105). -/
def opShl (a b : c.Data) : Out c.Data :=
  if shiftNative c then .ok (vectorize2 c (fun _ x y => shlV64 c.s c.v x y) (zeroData c) a b)
  else packed2 c (fun pa pb => Generic.opShl c.T.ity.scalar pa pb) a b
/-- vector `>>` (X:1106-1127): the fallback computes `packed_a << packed_b` (X:1125). -/
def opShr (a b : c.Data) : Out c.Data :=
  if shiftNative c then .ok (vectorize2 c (fun _ x y => shrV64 c.s c.v x y) (zeroData c) a b)
  else packed2 c (fun pa pb => Generic.opShl c.T.ity.scalar pa pb) a b
/-- `<<`, `>>` with a scalar count of type `T` (X:1129-1172). -/
def opShlS (a : c.Data) (n : BitVec c.w) : Out c.Data :=
  if shiftNative c then .ok (vectorize1 c (fun _ x => shlV64 c.s c.v x (fillV c.v n)) (zeroData c) a)
  else packed1 c (fun pa => Generic.opShlS c.T.ity.scalar pa (c.T.ity.val n)) a
def opShrS (a : c.Data) (n : BitVec c.w) : Out c.Data :=
  if shiftNative c then .ok (vectorize1 c (fun _ x => shrV64 c.s c.v x (fillV c.v n)) (zeroData c) a)
  else packed1 c (fun pa => Generic.opShrS c.T.ity.scalar pa (c.T.ity.val n)) a

/-! comparisons -/
/-- `!x` (X:969-984), `==` (X:1174-1189), `!=` (X:1190-1205) -/
def opLNot (a : c.Data) : Out c.Data := .ok (vectorize1 c (fun _ x => cmpEq c.s c.T c.v x (setzero c.v)) (zeroData c) a)
def opEq (a b : c.Data) : Out c.Data := .ok (vectorize2 c (fun _ x y => cmpEq c.s c.T c.v x y) (zeroData c) a b)
def opNe (a b : c.Data) : Out c.Data := .ok (vectorize2 c (fun _ x y => cmpNe c.s c.T c.v x y) (zeroData c) a b)
/-- `cmp_gt<T>` for the types that have it: floats (CMP:24-30) and signed integers (CMP:84-99). -/
def cmpGtV (s : ISA) (T : Ety) (v : VSz) (a b : Vec v) : Vec v :=
  if T.flt then cmpF (fun x y => fLt y x) T v a b else cmpGtI s T.bytes v a b
/-- `>`: floats (X:1207-1222); signed integers with SSE4.1 (X:1273-1288).  Everything else selects the
generic template (G:1026-1033), whose `return {result.data(), vector_aligned}` instantiates the
ill-formed `copy_from` of x86 masks (X:136-142). -/
def opGt (a b : c.Data) : Out c.Data :=
  if c.T.flt ∨ (c.T.signed ∧ c.s.sse41) then .ok (vectorize2 c (fun _ x y => cmpGtV c.s c.T c.v x y) (zeroData c) a b)
  else .illFormed
/-- `<`: floats (X:1223-1238), integers with SSE4.1 `b > a` (X:1289-1290) -/
def opLt (a b : c.Data) : Out c.Data :=
  if c.T.flt then .ok (vectorize2 c (fun _ x y => cmpF fLt c.T c.v x y) (zeroData c) a b)
  else if c.s.sse41 then opGt c b a else .illFormed
/-- `>=`: floats (X:1239-1254), integers `(a > b) | (a == b)` (X:1291-1292) -/
def opGe (a b : c.Data) : Out c.Data :=
  if c.T.flt then .ok (vectorize2 c (fun _ x y => cmpF (fun x y => fLe y x) c.T c.v x y) (zeroData c) a b)
  else if c.s.sse41 then (opGt c a b).bind fun g => (opEq c a b).map fun e => Mask.or c g e
  else .illFormed
/-- `<=`: floats (X:1255-1270), integers `(a < b) | (a == b)` (X:1293-1294) -/
def opLe (a b : c.Data) : Out c.Data :=
  if c.T.flt then .ok (vectorize2 c (fun _ x y => cmpF fLe c.T c.v x y) (zeroData c) a b)
  else if c.s.sse41 then (opLt c a b).bind fun g => (opEq c a b).map fun e => Mask.or c g e
  else .illFormed

/-! constant shifts: `requires(sizeof(T) > 1 && N < digits)` (X:1300-1362); one-byte types have no kernel -/
/-- the constraint of `lsl`, `lsr`, `asl`, `asr` -/
def constShiftOk (k : Nat) : Bool := decide (1 < c.T.bytes) && decide (k < c.T.digits)
def vLsl (k : Nat) (a : c.Data) : Out c.Data :=
  if constShiftOk c k then .ok (vectorize1 c (fun _ x => shlC c.s c.T k c.v x) (zeroData c) a) else .illFormed
def vLsr (k : Nat) (a : c.Data) : Out c.Data :=
  if constShiftOk c k then .ok (vectorize1 c (fun _ x => shrC c.s c.T k c.v x) (zeroData c) a) else .illFormed
def vAsl (k : Nat) (a : c.Data) : Out c.Data :=
  if constShiftOk c k && c.T.signed then .ok (vectorize1 c (fun _ x => shlC c.s c.T k c.v x) (zeroData c) a) else .illFormed
def vAsr (k : Nat) (a : c.Data) : Out c.Data :=
  if constShiftOk c k && c.T.signed then .ok (vectorize1 c (fun _ x => ashrC c.s c.T k c.v x) (zeroData c) a) else .illFormed

/-! min / max / minmax / clamp / abs -/
/-- which overload set `min`/`max`/`minmax`/`clamp` of integers come from (X:1623 SSE4.1, X:1679 SSSE3);
all others use the generic templates (G:1160-1240). -/
def minmaxOverload : Bool :=
  if c.s.sse41 then decide (c.T.bytes < 8)
  else c.s.ssse3 && ((decide (c.T.bytes = 1) && !c.T.signed) || (decide (c.T.bytes = 2) && c.T.signed))
/-- `min(a, b)`, `max(a, b)` (X:1567-1599 floats, X:1625-1657, X:1681-1713). -/
def vMin (a b : c.Data) : Out c.Data :=
  if c.T.flt ∨ minmaxOverload c then vec2 c (fun x y => minV c.s c.T c.v x y) a b
  else genericTemplate2 c (fun x y => some (stdMin c.T.ity.scalar.lt x y)) a b
def vMax (a b : c.Data) : Out c.Data :=
  if c.T.flt ∨ minmaxOverload c then vec2 c (fun x y => maxV c.s c.T c.v x y) a b
  else genericTemplate2 c (fun x y => some (stdMax c.T.ity.scalar.lt x y)) a b
/-- `min(a, T)`, `max(a, T)` (X:1795-1827 and copies). -/
def vMinS (a : c.Data) (b : BitVec c.w) : Out c.Data :=
  if c.T.flt ∨ minmaxOverload c then vec1 c (fun x => minV c.s c.T c.v x (fillV c.v b)) a
  else genericTemplate1 c (fun x => some (stdMin c.T.ity.scalar.lt x b)) a
def vMaxS (a : c.Data) (b : BitVec c.w) : Out c.Data :=
  if c.T.flt ∨ minmaxOverload c then vec1 c (fun x => maxV c.s c.T c.v x (fillV c.v b)) a
  else genericTemplate1 c (fun x => some (stdMax c.T.ity.scalar.lt x b)) a
/-- `minmax` (X:1602-1603, X:1659-1660, X:1715-1716): `{min(a, b), max(a, b)}`; the generic template is undefined
(`C11_minmax_violated`). -/
def vMinmax (a b : c.Data) : Out (c.Data × c.Data) :=
  if c.T.flt ∨ minmaxOverload c then (vMin c a b).bind fun mn => (vMax c a b).map fun mx => (mn, mx)
  else .ub
/-- `clamp(x, lo, hi)` (X:1605-1621, X:1662-1678, X:1718-1734): `min(max(x, lo), hi)` per native vector. -/
def vClamp (x lo hi : c.Data) : Out c.Data :=
  if c.T.flt ∨ minmaxOverload c then
    (vec2 c (fun x y => maxV c.s c.T c.v x y) x lo).bind fun t => vec2 c (fun x y => minV c.s c.T c.v x y) t hi
  else
    (Out.ofUb (Generic.vclamp c.T.ity.scalar (⟨fun i => elt c x i⟩ : GSimd (BitVec c.w) c.N)
      ⟨fun i => elt c lo i⟩ ⟨fun i => elt c hi i⟩)).bind fun r => fromArray c (zeroData c) r
/-- `abs(x)` (MB:277-292). -/
def vAbs (a : c.Data) : Out c.Data := vec1 c (fun x => absV c.s c.T c.v x) a
/-- pre/post `++`, `--` are the generic templates `x = x + 1` (G:711-730), which deduce only for `T = int`. -/
def opInc (a : c.Data) : Out c.Data :=
  if c.T = .i32 then opAddS fp c a (BitVec.ofNat _ 1) else .illFormed
def opDec (a : c.Data) : Out c.Data :=
  if c.T = .i32 then opSubS fp c a (BitVec.ofNat _ 1) else .illFormed
end ops

end Dpm.X86
