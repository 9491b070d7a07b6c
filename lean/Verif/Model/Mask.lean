import Verif.Lib.Loop
import Verif.Model.Util
import Verif.Model.Native
/-
x86 masks: /repo/dpm/detail/x86/type.hpp (X), run-time branches (`std::is_constant_evaluated()` false).
A mask object is its native storage `Nat → Vec v`; cells `< dataSize` belong to it.
-/
namespace Dpm.X86
open Dpm.Reg Dpm.Util

/-- Template parameters of an x86 vector or mask: ISA level, element type, width and the native
vector size selected by the overload concepts (C12). -/
structure Cfg where
  s : ISA
  T : Ety
  N : Nat
  v : VSz

/-- Configurations the library instantiates. -/
structure Cfg.Ok (c : Cfg) : Prop where
  wf : c.s.Wf
  ety : c.T.Ok
  pos : 0 < c.N
  lt : c.N < 2 ^ 64
  avx : c.v = .v256 → c.s.avx = true

/-- lane width -/
abbrev Cfg.w (c : Cfg) : Nat := c.T.w
/-- `native_extent` (X:71, X:572) -/
abbrev Cfg.e (c : Cfg) : Nat := extent c.T c.v
/-- `data_size = native_data_size_v` (X:31, X:43, X:72): `align_data<T, N, sizeof(V)>()`. -/
def Cfg.dataSize (c : Cfg) : Nat := alignData c.T.bytes c.N c.v.bytes
/-- native storage -/
abbrev Cfg.Data (c : Cfg) := Mem (Vec c.v)

/-- Element `i` of the storage, `reinterpret_cast<T *>(_data.data())[i]` (X:164-176, X:700-715). -/
def elt (c : Cfg) (d : c.Data) (i : Nat) : BitVec c.w := lane c.w (d (i / c.e)) (i % c.e)
/-- Writing an element through the same cast. -/
def setElt (c : Cfg) (d : c.Data) (i : Nat) (x : BitVec c.w) : c.Data :=
  d.set (i / c.e) (ofLanes c.v.bits c.w (fun k => if k = i % c.e then x else lane c.w (d (i / c.e)) k))
/-- `operator[]` of a const mask: the element converted to `bool` (X:168-174). -/
def mget (c : Cfg) (m : c.Data) (i : Nat) : Bool := decide (elt c m i ≠ 0)

/-- `vectorize(f, res, vs...)` (X:54-58): `f(res[i], v1[i], ...)` for `i < data_size`. -/
def vectorize1 (c : Cfg) (f : Vec c.v → Vec c.v → Vec c.v) (res a : c.Data) : c.Data :=
  forRange c.dataSize (fun i r => r.set i (f (r i) (a i))) res
def vectorize2 (c : Cfg) (f : Vec c.v → Vec c.v → Vec c.v → Vec c.v) (res a b : c.Data) : c.Data :=
  forRange c.dataSize (fun i r => r.set i (f (r i) (a i) (b i))) res
/-- value-initialised result `{}` -/
def zeroData (c : Cfg) : c.Data := fun _ => 0#c.v.bits

namespace Mask
/-- `simd_mask(bool)` (X:92-97). -/
def ofBool (c : Cfg) (b : Bool) (junk : c.Data) : c.Data :=
  let buff := forRange c.e (fun k (buf : Mem (BitVec c.w)) => buf.set k (extendBool c.w b)) (fun _ => 0#c.w)
  forRange c.dataSize (fun j d => d.set j (ofLanes c.v.bits c.w buff)) junk
/-- `simd_mask(G &&gen)` (X:114-124); `junk` is the uninitialised storage. -/
def ofGen (c : Cfg) (gen : Nat → Bool) (junk : c.Data) : c.Data :=
  forStride c.N c.e (fun i j d =>
    let buff := forRange c.e (fun k (buf : Mem (BitVec c.w)) =>
      if i + k < c.N then buf.set k (extendBool c.w (gen (i + k))) else buf) (fun _ => 0#c.w)
    d.set j (ofLanes c.v.bits c.w buff)) junk
/-- assignment through a mask element reference (X:164-167, alias.hpp:23-24). -/
def setElem (c : Cfg) (m : c.Data) (i : Nat) (b : Bool) : c.Data := setElt c m i (extendBool c.w b)

/-- `operator&`, `^`, `|` (X:264-311). -/
def and (c : Cfg) (a b : c.Data) : c.Data := vectorize2 c (fun _ x y => bitAnd x y) (zeroData c) a b
def xor (c : Cfg) (a b : c.Data) : c.Data := vectorize2 c (fun _ x y => bitXor x y) (zeroData c) a b
def or (c : Cfg) (a b : c.Data) : c.Data := vectorize2 c (fun _ x y => bitOr x y) (zeroData c) a b
/-- `operator~` (X:313-327), `operator!` (X:328-330). -/
def compl (c : Cfg) (a : c.Data) : c.Data := vectorize1 c (fun _ x => bitNot x) (zeroData c) a
def not (c : Cfg) (a : c.Data) : c.Data := compl c a
/-- `operator&&` (X:332-352): `res` starts as zero and is only and-not'ed. -/
def land (c : Cfg) (a b : c.Data) : c.Data :=
  vectorize2 c (fun res x y =>
    let res := bitAndnot (cmpEq c.s c.T c.v x (setzero c.v)) res
    bitAndnot (cmpEq c.s c.T c.v y (setzero c.v)) res) (zeroData c) a b
/-- `operator==` (X:356-371), `operator!=` (X:372-373), `operator||` (X:353-354). -/
def eq (c : Cfg) (a b : c.Data) : c.Data := vectorize2 c (fun _ x y => maskEq c.s c.T c.v x y) (zeroData c) a b
def ne (c : Cfg) (a b : c.Data) : c.Data := not c (eq c a b)
def lor (c : Cfg) (a b : c.Data) : c.Data := ne c (or c a b) (zeroData c)

/-- `blend(m, a, b)` for masks (X:236-260) and, with the same body, for vectors (X:1000-1024). -/
def blend (c : Cfg) (m a b : c.Data) : c.Data :=
  forRange c.dataSize (fun i r =>
    let inv_mask := maskEq c.s c.T c.v (m i) (setzero c.v)
    r.set i (blendv c.s c.T c.v (a i) (b i) inv_mask)) (zeroData c)

/-- `mask_t::size() - i * sizeof(result) / sizeof(T)` on `size_t` (`i * e <= N` in every call). -/
def tailN (c : Cfg) (i : Nat) : Nat := c.N - i * c.v.bytes / c.T.bytes

/-- `all_of` (X:378-402). -/
def allOf (c : Cfg) (m : c.Data) : Option Bool :=
  let result := forRange c.dataSize (fun i (result : Vec c.v) =>
    let vm := maskone c.s c.T c.v (m i) (tailN c i)
    bitAndnot (cmpEq c.s c.T c.v vm (setzero c.v)) result) (setones c.v)
  (fillBits ((c.v.bytes / c.T.bytes) * movemaskBits c.T)).map
    (fun fb => decide (movemask c.s c.T c.v result = fb))
/-- the common part of `any_of` (X:403-428) and `none_of` (X:429-451). -/
def anyBits (c : Cfg) (m : c.Data) : Vec c.v :=
  let result := forRange c.dataSize (fun i (result : Vec c.v) =>
    bitOr result (maskzero c.s c.T c.v (m i) (tailN c i))) (setzero c.v)
  if c.s.sse41 then result else cmpNe c.s c.T c.v result (setzero c.v)
def anyOf (c : Cfg) (m : c.Data) : Bool := testMask c.s c.v (anyBits c m)
def noneOf (c : Cfg) (m : c.Data) : Bool := !testMask c.s c.v (anyBits c m)
/-- `some_of` (X:452-481). -/
def someOf (c : Cfg) (m : c.Data) : Option Bool :=
  let r := forRange c.dataSize (fun i (r : Vec c.v × Vec c.v) =>
    let n := tailN c i
    let vmz := maskzero c.s c.T c.v (m i) n
    let vmo := maskone c.s c.T c.v (m i) n
    (bitOr r.1 vmz, bitAndnot (cmpEq c.s c.T c.v vmo (setzero c.v)) r.2)) (setzero c.v, setones c.v)
  let any_mask := if c.s.sse41 then r.1 else cmpNe c.s c.T c.v r.1 (setzero c.v)
  (fillBits ((c.v.bytes / c.T.bytes) * movemaskBits c.T)).map
    (fun fb => testMask c.s c.v any_mask && decide (movemask c.s c.T c.v r.2 ≠ fb))

/-- `std::popcount(size_t)` -/
def popcount (x : BitVec 64) : Nat := (List.range 64).countP (fun i => x.getLsbD i)
/-- `reduce_count` (X:483-508). -/
def reduceCount (c : Cfg) (m : c.Data) : Nat :=
  (forRange c.dataSize (fun i (result : Nat) =>
    let vm := maskzero c.s c.T c.v (m i) (tailN c i)
    result + popcount (movemask c.s c.T c.v (cmpNe c.s c.T c.v vm (setzero c.v)))) 0) / movemaskBits c.T

/-- `std::countr_zero` / `std::countl_zero` of a 64-bit value. -/
def ctz (x : BitVec 64) : Nat := ((List.range 64).find? (fun i => x.getLsbD i)).getD 64
def clz (x : BitVec 64) : Nat := ((List.range 64).find? (fun i => x.getLsbD (63 - i))).getD 64

/-- `reduce_min_index` (X:509-531): `none` when the loop ends (DPM_UNREACHABLE). -/
def minIndexGo (c : Cfg) (m : c.Data) : (fuel i : Nat) → Option Nat
  | 0, _ => none
  | fuel + 1, i =>
    let bits := movemask c.s c.T c.v (cmpNe c.s c.T c.v (m i) (setzero c.v))
    if bits ≠ 0 then some (ctz bits / movemaskBits c.T + i * c.v.bytes / c.T.bytes)
    else minIndexGo c m fuel (i + 1)
def reduceMinIndex (c : Cfg) (m : c.Data) : Option Nat := minIndexGo c m c.dataSize 0
/-- `reduce_max_index` (X:532-557): `i` runs from `data_size - 1` down to 0, `j = i + 1`. -/
def maxIndexGo (c : Cfg) (m : c.Data) : (j : Nat) → Option Nat
  | 0 => none
  | i + 1 =>
    let bits := movemaskL c.s c.T c.v (cmpNe c.s c.T c.v (m i) (setzero c.v)) (c.N - i * c.e)
    if bits ≠ 0 then some (((i + 1) * c.e - 1) - clz bits / movemaskBits c.T)
    else maxIndexGo c m i
def reduceMaxIndex (c : Cfg) (m : c.Data) : Option Nat := maxIndexGo c m c.dataSize
end Mask
end Dpm.X86
