import Verif.Model.Reduce
/-
x86 shuffles.  X = /repo/dpm/detail/x86/type.hpp, TR = x86/transform.hpp, U = /repo/dpm/utility.hpp,
G = /repo/dpm/detail/generic/type.hpp.
`std::index_sequence` packs are `List Nat` (Model/Util.lean).  Inside the kernels the pack lists the
indices of the highest lane first.
-/
namespace Dpm.X86
open Dpm.Reg Dpm.Util Dpm.Generic

/-- What `x[j]` yields for a pointer `x` to native vectors: reading outside the array is undefined. -/
abbrev Src (v : VSz) := Nat → Out (Vec v)
/-- the `D` native vectors of an object -/
def srcOf {v : VSz} (D : Nat) (d : Mem (Vec v)) : Src v := fun j => if j < D then .ok (d j) else .ub
/-- `reinterpret_cast<const select_vector_t<T, 16> *>(x)` (TR:624) and `reinterpret_cast<const VTo *>(src)` (TR:639). -/
def srcView128 : (v : VSz) → Src v → Src .v128
  | .v128, x => x
  | .v256, x => fun j => (x (j / 2)).map (fun r => if j % 2 = 0 then lo r else hi r)

/-- concept `sequence_shuffle<T, V, I, Is...>` (TR:82-83), `e = sizeof(V) / sizeof(T)`; the step `-1` is
`size_t(-1)`. -/
def seqShuffle (e : Nat) (I : Nat) (Is : List Nat) : Bool :=
  Is.all (fun k => I / e == k / e) && isSequential (2 ^ 64 - 1) I (I :: Is)
/-- `_mm_shufflelo_epi16(a, imm)` / `_mm_shufflehi_epi16` with `shuffle_mask<i3, i2, i1, i0>()` (TR:11-12). -/
def shuflo16 (a : BitVec 128) (i3 i2 i1 i0 : Nat) : BitVec 128 :=
  ofLanes 128 16 (fun i => if i < 4 then lane 16 a (match i with | 0 => i0 | 1 => i1 | 2 => i2 | _ => i3) else lane 16 a i)
def shufhi16 (a : BitVec 128) (i3 i2 i1 i0 : Nat) : BitVec 128 :=
  ofLanes 128 16 (fun i => if 4 ≤ i then lane 16 a (4 + (match i with | 4 => i0 | 5 => i1 | 6 => i2 | _ => i3)) else lane 16 a i)
/-- `shuffle_elements` (U:91-96) on bytes of native vectors: `dst[o] = src[i]`, then the rest. -/
def shuffleBytes (x : Src .v128) : (is : List Nat) → (o : Nat) → (dst : Mem (BitVec 8)) → Out (Mem (BitVec 8))
  | [], _, dst => .ok dst
  | i :: is, o, dst => (x (i / 16)).bind fun r => shuffleBytes x is (o + 1) (dst.set o (lane 8 r (i % 16)))
/-- `shuffle<T>` of 1-byte integers (TR:86-87, TR:399-408). -/
def kernel1 (is : List Nat) (x : Src .v128) : Out (BitVec 128) :=
  match is with
  | [] => .illFormed
  | I :: Is =>
    if seqShuffle 16 I Is then x (I / 16)
    else if ¬ (Is.all (fun k => I / 16 == k / 16) = true) then
      (Out.ofExists (reverseSeq (I :: Is))).bind fun rev =>
        (shuffleBytes x rev 0 (fun _ => 0#8)).map fun dst => ofLanes 128 8 dst
    else if (I :: Is).length = 16 then
      (x (I / 16)).map fun r => shufEpi8 r ((I :: Is).map (· % 16))
    else .illFormed
/-- `shuffle16pairs` (TR:376-398) on packs `IA, IAs...` and `IB, IBs...` of four indices each. -/
def shuffle16pairs (ia ib : List Nat) (x : Src .v128) : Out (BitVec 128) :=
  match ia, ib with
  | [a3, a2, a1, a0], [b3, b2, b1, b0] =>
    if (a3 / 4 = a2 / 4 ∧ a3 / 4 = a1 / 4 ∧ a3 / 4 = a0 / 4) ∧ (b3 / 4 = b2 / 4 ∧ b3 / 4 = b1 / 4 ∧ b3 / 4 = b0 / 4) ∧ a3 / 8 ≠ b3 / 8 then
      (x (a3 / 8)).bind fun va => (x (b3 / 8)).map fun vb =>
        let a := if a3 / 4 % 2 = 1 then shufhi16 va (a3 % 4) (a2 % 4) (a1 % 4) (a0 % 4) else shuflo16 va (a3 % 4) (a2 % 4) (a1 % 4) (a0 % 4)
        let b := if b3 / 4 % 2 = 1 then shufhi16 vb (b3 % 4) (b2 % 4) (b1 % 4) (b0 % 4) else shuflo16 vb (b3 % 4) (b2 % 4) (b1 % 4) (b0 % 4)
        shufPd b a (a3 / 4 % 2 * 2 + b3 / 4 % 2)
    else (Out.ofExists (repeatSeq 2 1 (ia ++ ib))).bind fun r => kernel1 r x
  | _, _ => .illFormed
/-- `shuffle<T>` of 2-byte integers (TR:86-87, TR:409-413). -/
def kernel2 (is : List Nat) (x : Src .v128) : Out (BitVec 128) :=
  match is with
  | [] => .illFormed
  | I :: Is =>
    if seqShuffle 8 I Is then x (I / 8)
    else (Out.ofExists (extractSeq 0 4 (I :: Is))).bind fun ia => (Out.ofExists (extractSeq 4 4 (I :: Is))).bind fun ib => shuffle16pairs ia ib x
/-- `shuffle<T>` of 4-byte elements (TR:86-87, TR:89-103). -/
def kernel4 (is : List Nat) (x : Src .v128) : Out (BitVec 128) :=
  match is with
  | [I3, I2, I1, I0] =>
    if seqShuffle 4 I3 [I2, I1, I0] then x (I3 / 4)
    else
      (x (I0 / 4)).bind fun va => (x (I2 / 4)).bind fun vb =>
        if I0 / 4 = I1 / 4 ∧ I2 / 4 = I3 / 4 then .ok (shufPs va vb (I3 % 4) (I2 % 4) (I1 % 4) (I0 % 4))
        else
          (x (I1 / 4)).bind fun va' => (x (I3 / 4)).map fun vb' =>
            let a := shufPs va va' (I1 % 4) (I1 % 4) (I0 % 4) (I0 % 4)
            let b := shufPs vb vb' (I3 % 4) (I3 % 4) (I2 % 4) (I2 % 4)
            shufPs a b 2 0 2 0
  | _ => .illFormed
/-- `shuffle<T>` of 8-byte elements (TR:86-87, TR:337-343). -/
def kernel8 (is : List Nat) (x : Src .v128) : Out (BitVec 128) :=
  match is with
  | [I1, I0] =>
    if seqShuffle 2 I1 [I0] then x (I1 / 2)
    else (x (I0 / 2)).bind fun va => (x (I1 / 2)).map fun vb => shufPd va vb (I1 % 2 * 2 + I0 % 2)
  | _ => .illFormed
/-- `shuffle<T>(index_sequence<I, Is...>, const V *)` for 16-byte vectors. -/
def kernel128 (T : Ety) (is : List Nat) (x : Src .v128) : Out (BitVec 128) :=
  if T.bytes = 1 then kernel1 is x else if T.bytes = 2 then kernel2 is x else if T.bytes = 4 then kernel4 is x else kernel8 is x
/-- `shuffle<T>` for both sizes (32 bytes: TR:86-87, TR:619-629). -/
def kernel (T : Ety) : (v : VSz) → List Nat → Src v → Out (Vec v)
  | .v128, is, x => kernel128 T is x
  | .v256, is, x =>
    match is with
    | [] => .illFormed
    | I :: Is =>
      if seqShuffle (extent T .v256) I Is then x (I / extent T .v256)
      else
        (Out.ofExists (extractSeq (16 / T.bytes) (16 / T.bytes) (I :: Is))).bind fun il =>
        (Out.ofExists (extractSeq 0 (16 / T.bytes) (I :: Is))).bind fun ih =>
        (kernel128 T il (srcView128 .v256 x)).bind fun l =>
        (kernel128 T ih (srcView128 .v256 x)).map fun h => setHL h l

/-- `shuffle<T, 0>(index_sequence<Is...>, VTo *dst, const VFrom *src)` (TR:631-648) for `VTo = VFrom`; the pack lists
lane 0 first, `o` is the current offset of `dst`, `fuel` bounds the instantiation depth. -/
def drive (T : Ety) (v : VSz) (x : Src v) : (fuel : Nat) → (is : List Nat) → (o : Nat) → (dst : Mem (Vec v)) → Out (Mem (Vec v))
  | 0, _, _, _ => .illFormed
  | fuel + 1, is, o, dst =>
    if is.length = extent T v then
      (Out.ofExists (reverseSeq is)).bind fun r => (kernel T v r x).map fun y => dst.set o y
    else if is.length > extent T v then
      (Out.ofExists (extractSeq 0 (extent T v) is)).bind fun i1 =>
      (Out.ofExists (extractSeq (extent T v) (is.length - extent T v) is)).bind fun i2 =>
      (drive T v x fuel i1 o dst).bind fun dst => drive T v x fuel i2 (o + 1) dst
    else (Out.ofExists (padSeq (extent T v) 1 is)).bind fun p => drive T v x fuel p o dst

/-- 16-byte view of a 32-byte destination, read back as 32-byte vectors (TR:634). -/
def unview128 (d : Mem (BitVec 128)) : Mem (Vec .v256) := fun j => setHL (d (2 * j + 1)) (d (2 * j))
/-- the result configuration: `x86_simd<T, M, A>` / `x86_mask<T, M, A>` -/
@[reducible] def Cfg.resized (c : Cfg) (M : Nat) (v : VSz) : Cfg := ⟨c.s, c.T, M, v⟩
/-- the conversion of pointers at the entry of the driver (TR:634, TR:639) and the zero-initialised result. -/
def driveAny (T : Ety) (is : List Nat) : (v v' : VSz) → Src v → Out (Mem (Vec v'))
  | .v128, .v128, x => drive T .v128 x (is.length + 2) is 0 (fun _ => 0#128)
  | .v256, .v256, x => drive T .v256 x (is.length + 2) is 0 (fun _ => 0#256)
  | .v256, .v128, x => drive T .v128 (srcView128 .v256 x) (is.length + 2) is 0 (fun _ => 0#128)
  | .v128, .v256, x => (drive T .v128 x (is.length + 2) is 0 (fun _ => 0#128)).map unview128
/-- Which packs select the x86 overload (X:215, X:726): 1- and 2-byte elements need SSSE3. -/
def shuffleOverload (c : Cfg) : Bool := decide (4 ≤ c.T.bytes) || c.s.ssse3
/-- `shuffle<Is...>(x)` of an x86 vector (X:724-742) or mask (X:213-231), where the overload exists. -/
def vShuffleNative (c : Cfg) (v' : VSz) (is : List Nat) (x : c.Data) : Out (c.resized is.length v').Data :=
  driveAny c.T is c.v v' (srcOf c.dataSize x)

/-- `shuffle_impl<J, I, Is...>(x, result)` (G:123-136) on x86 objects: recursion first, then `to[J] = from[I]`; the
static_assert on the indices makes the call ill-formed. -/
def shuffleImplX (c c' : Cfg) (hT : c'.T = c.T) (x : c.Data) : (J : Nat) → List Nat → c'.Data → Out c'.Data
  | _, [], d => .ok d
  | J, I :: Is, d =>
    if J < c'.N ∧ I < c.N then (shuffleImplX c c' hT x (J + 1) Is d).map fun d => setElt c' d J ((elt c x I).cast (by rw [Cfg.w, Cfg.w, hT]))
    else .illFormed
/-- The generic template `shuffle<I, Is...>(x)` (G:669-687) instantiated with x86 vectors (1- and 2-byte elements
without SSSE3).  `sameAbi`: `deduce_t<T, M, Abi>` is the ABI of `x`; otherwise the identity pack goes through the
conversion operator (X:623-633). -/
def vShuffleGeneric (c : Cfg) (v' : VSz) (sameAbi : Bool) (is : List Nat) (x : c.Data) : Out (c.resized is.length v').Data :=
  match is with
  | [] => .illFormed
  | I :: Is =>
    let c' := c.resized (I :: Is).length v'
    if isSequential 1 0 (I :: Is) = true ∧ (I :: Is).length = c.N then
      if h : sameAbi = true ∧ v' = c.v then .ok (h.2 ▸ x)
      else (Out.ofUb (copyTo c .vector x c.N (fun _ => 0#c.w))).bind fun buf => Out.ofUb (copyFrom c' .vector (zeroData c') c.N buf)
    else if Is.all (· == I) then .ok (vbroadcast c' (elt c x I) (zeroData c'))
    else shuffleImplX c c' rfl x 0 (I :: Is) (zeroData c')

end Dpm.X86
