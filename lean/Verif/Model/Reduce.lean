import Verif.Model.Vector
/-
x86 reductions.  X = /repo/dpm/detail/x86/type.hpp, TR = x86/transform.hpp, G = /repo/dpm/detail/generic/type.hpp.
-/
namespace Dpm.X86
open Dpm.Reg Dpm.Util Dpm.Generic

/-! ### Shuffles used by the horizontal reductions -/
/-- `_mm_shuffle_ps(a, b, _MM_SHUFFLE(z, y, x, w))`: lanes 0, 1 from `a`, lanes 2, 3 from `b`, in each 128-bit lane. -/
def shufPs {n : Nat} (a b : BitVec n) (z y x w : Nat) : BitVec n :=
  ofLanes n 32 (fun i => match i % 4 with
    | 0 => lane 32 a (4 * (i / 4) + w)
    | 1 => lane 32 a (4 * (i / 4) + x)
    | 2 => lane 32 b (4 * (i / 4) + y)
    | _ => lane 32 b (4 * (i / 4) + z))
/-- `_mm_movehdup_ps(a)` -/
def movehdup (a : BitVec 128) : BitVec 128 := ofLanes 128 32 (fun i => lane 32 a (2 * (i / 2) + 1))
/-- `_mm_movehl_ps(a, b)`: low half = high half of `b`, high half = high half of `a`. -/
def movehl (a b : BitVec 128) : BitVec 128 := ofLanes 128 64 (fun i => if i = 0 then lane 64 b 1 else lane 64 a 1)
/-- `_mm_shuffle_epi8(a, _mm_set_epi8(row...))`, operands of `set` highest byte first: an index with bit 7 set
gives zero, otherwise its low four bits select. -/
def shufEpi8 (a : BitVec 128) (row : List Nat) : BitVec 128 :=
  ofLanes 128 8 (fun i => let k := row.reverse.getD i 0; if 128 ≤ k then 0#8 else lane 8 a (k % 16))
/-- `_mm256_permute2f128_*(a, b, imm)` -/
def permute2f128 (a b : BitVec 256) (imm : Nat) : BitVec 256 :=
  let sel (c : Nat) : BitVec 128 :=
    if c.testBit 3 then 0#128 else match c % 4 with | 0 => lo a | 1 => hi a | 2 => lo b | _ => hi b
  setHL (sel (imm / 16 % 16)) (sel (imm % 16))
/-- `_mm256_unpackhi_epi32/ps(a, b)` -/
def unpackhi32 (a b : BitVec 256) : BitVec 256 :=
  ofLanes 256 32 (fun i => if i % 2 = 0 then lane 32 a (4 * (i / 4) + 2 + i % 4 / 2) else lane 32 b (4 * (i / 4) + 2 + i % 4 / 2))
/-- `_mm256_unpackhi_epi64/pd(a, b)` -/
def unpackhi64 (a b : BitVec 256) : BitVec 256 :=
  ofLanes 256 64 (fun i => if i % 2 = 0 then lane 64 a (2 * (i / 2) + 1) else lane 64 b (2 * (i / 2) + 1))

/-! ### Horizontal reductions `reduce<T>(V, op)` -/
/-- 16-byte, 4-byte elements (TR:105-115 float, TR:354-365 integral). -/
def hred128_4 (s : ISA) (op : BitVec 128 → BitVec 128 → BitVec 128) (v : BitVec 128) : BitVec 32 :=
  let a := if s.sse3 then movehdup v else shufPs v v 3 3 1 1
  let b := op v a
  lane 32 (op b (movehl a b)) 0
/-- 16-byte, 8-byte elements (TR:347-352 double, TR:366-371 integral). -/
def hred128_8 (op : BitVec 128 → BitVec 128 → BitVec 128) (v : BitVec 128) : BitVec 64 :=
  lane 64 (op v (shufPd v v 0b11)) 0
/-- 16-byte, 1-byte integers (TR:413-424): `_mm_cvtsi128_si32(...) & 0xff`. -/
def hred128_1 (op : BitVec 128 → BitVec 128 → BitVec 128) (v : BitVec 128) : BitVec 8 :=
  let a := shufEpi8 v [15, 14, 13, 12, 11, 10, 9, 8, 15, 14, 13, 12, 11, 10, 9, 8]
  let b := op v a
  let a := shufEpi8 b [7, 6, 5, 4, 7, 6, 5, 4, 7, 6, 5, 4, 7, 6, 5, 4]
  let b := op b a
  let a := shufEpi8 b [3, 2, 3, 2, 3, 2, 3, 2, 3, 2, 3, 2, 3, 2, 3, 2]
  let b := op b a
  let a := shufEpi8 b [1, 1, 1, 1, 1, 1, 1, 1, 1, 1, 1, 1, 1, 1, 1, 1]
  (lane 32 (op b a) 0 &&& 0xff#32).truncate 8
/-- 16-byte, 2-byte integers (TR:425-434). -/
def hred128_2 (op : BitVec 128 → BitVec 128 → BitVec 128) (v : BitVec 128) : BitVec 16 :=
  let a := shufEpi8 v [15, 14, 13, 12, 11, 10, 9, 8, 15, 14, 13, 12, 11, 10, 9, 8]
  let b := op v a
  let a := shufEpi8 b [7, 6, 5, 4, 7, 6, 5, 4, 7, 6, 5, 4, 7, 6, 5, 4]
  let b := op b a
  let a := shufEpi8 b [3, 2, 3, 2, 3, 2, 3, 2, 3, 2, 3, 2, 3, 2, 3, 2]
  (lane 32 (op b a) 0 &&& 0xffff#32).truncate 16
/-- 32-byte, 4-byte elements (TR:488-496 float, TR:573-581 integral with AVX2). -/
def hred256_4 (op : BitVec 256 → BitVec 256 → BitVec 256) (v : BitVec 256) : BitVec 32 :=
  let a := permute2f128 v v 0b10000001
  let b := op v a
  let a := shufPs b b 3 3 1 1
  let b := op b a
  lane 32 (op b (unpackhi32 b b)) 0
/-- 32-byte, 8-byte elements (TR:497-503 double, TR:582-590 integral with AVX2). -/
def hred256_8 (op : BitVec 256 → BitVec 256 → BitVec 256) (v : BitVec 256) : BitVec 64 :=
  let a := permute2f128 v v 0b10000001
  let b := op v a
  lane 64 (op b (unpackhi64 b b)) 0
/-- which horizontal reductions exist: 1- and 2-byte integers need SSSE3 and a 16-byte vector, 32-byte integers AVX2 -/
def hredExists (s : ISA) (T : Ety) : VSz → Bool
  | .v128 => decide (4 ≤ T.bytes) || s.ssse3
  | .v256 => decide (4 ≤ T.bytes) && (T.flt || s.avx2)
/-- `reduce<T>(V, op)` where it exists. -/
def hred (s : ISA) (T : Ety) : (v : VSz) → (Vec v → Vec v → Vec v) → Vec v → BitVec T.w
  | .v128, op, x =>
    if T.bytes = 4 then (hred128_4 s op x).setWidth _ else if T.bytes = 8 then (hred128_8 op x).setWidth _
    else if T.bytes = 1 then (hred128_1 op x).setWidth _ else (hred128_2 op x).setWidth _
  | .v256, op, x => if T.bytes = 4 then (hred256_4 op x).setWidth _ else (hred256_8 op x).setWidth _

/-- `reduce<T, N>(const V *data, V idt, Op op)` (TR:650-663). -/
def reduceData (s : ISA) (T : Ety) (N : Nat) (v : VSz) (op : Vec v → Vec v → Vec v) (idt : Vec v) (data : Mem (Vec v)) : BitVec T.w :=
  let res := forStride N (extent T v) (fun i j (res : Vec v) =>
    let x := data j
    let x := if i + extent T v > N then maskblend s T v x idt (N - i) else x
    if i ≠ 0 then op res x else x) 0
  hred s T v op res
/-- `reinterpret_cast<const select_vector_t<T, 16> *>(data)` of 32-byte vectors -/
def view128 : (v : VSz) → Mem (Vec v) → Mem (BitVec 128)
  | .v128, d => d
  | .v256, d => fun j => if j % 2 = 0 then lo (d (j / 2)) else hi (d (j / 2))

/-- `reduce_add` and its siblings (X:1370-1387) with the redirection of 32-byte vectors when AVX2 is missing
(X:1389-1403).  `op v` is the element operation on native vectors of size `v` (`none`: no overload), `idt v`
the vector filled with the identity. -/
def redNative (c : Cfg) (op : (v : VSz) → Vec v → Vec v → Option (Vec v)) (idt : (v : VSz) → Vec v) (x : c.Data) : Out (BitVec c.w) :=
  if c.v = .v256 ∧ c.s.avx2 = false then
    if hredExists c.s c.T .v128 ∧ (op .v128 0 0).isSome then
      .ok (reduceData c.s c.T c.N .v128 (fun a b => (op .v128 a b).getD 0) (idt .v128) (view128 c.v x))
    else .illFormed
  else if hredExists c.s c.T c.v ∧ (op c.v 0 0).isSome then
    .ok (reduceData c.s c.T c.N c.v (fun a b => (op c.v a b).getD 0) (idt c.v) x)
  else .illFormed

/-- `detail::reduce_impl<size>(x, op)` on an x86 vector (G:618-624): `copy_to(buff, vector_aligned)` into a
`std::array<T, N>`, then the recursion G:595-617.  `f` is the scalar operation, `none` where undefined. -/
def redImpl (c : Cfg) (f : BitVec c.w → BitVec c.w → Option (BitVec c.w)) (x : c.Data) : Out (BitVec c.w) :=
  (Out.ofUb (copyTo c .vector x c.N (fun _ => 0#c.w))).bind fun buf =>
    Out.ofUb ((reduceImpl (fun p q => p.bind fun a => q.bind fun b => f a b) ((List.range c.N).map (fun i => some (buf i)))).bind id)

/-- the operation passed to `reduce`: a specialisation of `std::plus`, ..., or anything else -/
inductive RedOp (w : Nat) where
  | plus
  | multiplies
  | bitAnd
  | bitXor
  | bitOr
  | other (f : BitVec w → BitVec w → Option (BitVec w))

/-- one, all ones and the extreme values of `T` as bit patterns (`T{1}`, `numeric_limits<T>::max()`, `lowest()`) -/
def oneOf (T : Ety) : BitVec T.w :=
  if T.flt then (if T.bytes = 4 then BitVec.ofNat _ 0x3f800000 else BitVec.ofNat _ 0x3ff0000000000000) else BitVec.ofNat _ 1
def maxOf (T : Ety) : BitVec T.w :=
  if T.flt then BitVec.ofNat _ (fInf T.w - 1) else if T.signed then BitVec.intMax T.w else BitVec.allOnes T.w
def lowestOf (T : Ety) : BitVec T.w :=
  if T.flt then BitVec.ofNat _ (2 ^ (T.w - 1) + (fInf T.w - 1)) else if T.signed then BitVec.intMin T.w else 0

section
variable (fp : FpOps) (c : Cfg)
/-- `reduce_add<T, N>` etc. (X:1370-1387) -/
def redAdd (x : c.Data) : Out (BitVec c.w) := redNative c (fun v a b => some (addV fp c.s c.T v a b)) setzero x
def redMul (x : c.Data) : Out (BitVec c.w) := redNative c (fun v a b => mulV fp c.s c.T v a b) (fun v => fillV v (oneOf c.T)) x
def redMin (x : c.Data) : Out (BitVec c.w) := redNative c (fun v a b => minV c.s c.T v a b) (fun v => fillV v (maxOf c.T)) x
def redMax (x : c.Data) : Out (BitVec c.w) := redNative c (fun v a b => maxV c.s c.T v a b) (fun v => fillV v (lowestOf c.T)) x
def redAnd (x : c.Data) : Out (BitVec c.w) := redNative c (fun _ a b => some (bitAnd a b)) setones x
def redXor (x : c.Data) : Out (BitVec c.w) := redNative c (fun _ a b => some (bitXor a b)) setzero x
def redOr (x : c.Data) : Out (BitVec c.w) := redNative c (fun _ a b => some (bitOr a b)) setzero x

/-- the scalar operation of a `RedOp` on integral `T` -/
def RedOp.scalar : RedOp c.w → BitVec c.w → BitVec c.w → Option (BitVec c.w)
  | .plus => c.T.ity.add
  | .multiplies => c.T.ity.mul
  | .bitAnd => fun a b => some (a &&& b)
  | .bitXor => fun a b => some (a ^^^ b)
  | .bitOr => fun a b => some (a ||| b)
  | .other f => f

/-- `reduce(x, op)` for element types of at least four bytes (X:1406-1440).  After `std::plus` and `std::multiplies`
the integral branch has no fallback: control flows off the end of a non-void function.  `if (integral_of_size<T, 4>)`
(X:1423) is not `if constexpr`, so `reduce_mul` is instantiated for 8-byte integers too (ill-formed from SSE4.1 on). -/
def vReduceBig (op : RedOp c.w) (x : c.Data) : Out (BitVec c.w) :=
  match op with
  | .plus => redAdd fp c x
  | .multiplies =>
    if c.T.flt then redMul fp c x
    else if c.s.sse41 then (if c.T.bytes = 4 then redMul fp c x else .illFormed)
    else .ub
  | .bitAnd => if c.T.flt then .illFormed else redAnd c x
  | .bitXor => if c.T.flt then .illFormed else redXor c x
  | .bitOr => if c.T.flt then .illFormed else redOr c x
  | .other f => if c.T.flt then redImpl c f x else .ub
/-- `reduce(x, op)` for 1- and 2-byte integers (X:1442-1466 with SSSE3, else the generic template G:1098). -/
def vReduceSmall (op : RedOp c.w) (x : c.Data) : Out (BitVec c.w) :=
  if c.s.ssse3 then
    match op with
    | .plus => redAdd fp c x
    | .multiplies => if c.T.bytes = 2 then redMul fp c x else redImpl c (op.scalar c) x
    | .bitAnd => redAnd c x
    | .bitXor => redXor c x
    | .bitOr => redOr c x
    | .other f => redImpl c f x
  else redImpl c (op.scalar c) x
def vReduce (op : RedOp c.w) (x : c.Data) : Out (BitVec c.w) :=
  if 4 ≤ c.T.bytes then vReduceBig fp c op x else vReduceSmall fp c op x

/-- which `reduce_min`/`reduce_max` are the x86 ones (X:1468-1486 floating, X:1487-1506 SSE4.1, X:1507-1544 SSSE3). -/
def redMinmaxOverload : Bool :=
  c.T.flt || (if c.s.sse41 then decide (c.T.bytes < 8)
    else c.s.ssse3 && ((decide (c.T.bytes = 1) && !c.T.signed) || (decide (c.T.bytes = 2) && c.T.signed)))
/-- `reduce_min(x)`: otherwise the generic template (G:1102) `reduce(x, [](T a, T b) { return std::min(a, b); })`,
whose unqualified call selects the x86 `reduce` above. -/
def vReduceMin (x : c.Data) : Out (BitVec c.w) :=
  if redMinmaxOverload c then redMin c x
  else vReduce fp c (.other (fun a b => some (stdMin c.T.ity.scalar.lt a b))) x
/-- `reduce_max(x)` (G:1105). -/
def vReduceMax (x : c.Data) : Out (BitVec c.w) :=
  if redMinmaxOverload c then redMax c x
  else vReduce fp c (.other (fun a b => some (stdMax c.T.ity.scalar.lt a b))) x
end

end Dpm.X86
