import Verif.Model.CInt
import Verif.Model.Native
/-
Integer kernels of the x86 backend.
AS = /repo/dpm/detail/x86/addsub.hpp, MD = x86/muldiv.hpp, MM = x86/minmax.hpp, BW = x86/bitwise.hpp,
XU = x86/utility.hpp, MB = x86/mbase.hpp, CMP = x86/cmp.hpp.
The macro `DPM_HAS_AVX512LV` tested by MD:55, MM:89, MB:142, MB:269 is never defined (AR:74-76 defines
`DPM_HAS_AVX512VL`), so those overloads do not exist in any configuration and are not modelled.
A kernel for which no overload exists is `none` (instantiating it is ill-formed).
-/
namespace Dpm.X86
open Dpm.Reg

/-- The scalar type of an integral element type. -/
@[reducible] def Ety.ity (T : Ety) : IntTy := ⟨T.w, T.signed⟩
/-- integral element types -/
def Ety.Int (T : Ety) : Prop := T.Ok ∧ T.flt = false
instance (T : Ety) : Decidable T.Int := by unfold Ety.Int; infer_instance

/-! ### XU: fill, set -/
/-- `fill<V>(value)` (XU:36-37, 86-96, 228-239): `_mm*_set1_*`. -/
def fillV (v : VSz) {w : Nat} (x : BitVec w) : Vec v := ofLanes v.bits w (fun _ => x)
/-- `set<V>(vals)` (XU:33-34, 48-83, 168-226): `_mm*_set_*(vals[e-1], ..., vals[0])`; the 32-byte
8-byte-integer overload (XU:216-225) converts every value to `std::int32_t` first. -/
def setV (T : Ety) (v : VSz) (vals : Nat → BitVec T.w) : Vec v :=
  if T.flt = false ∧ T.bytes = 8 ∧ v = .v256 then
    ofLanes v.bits T.w (fun i => ((vals i).truncate 32).signExtend T.w)
  else ofLanes v.bits T.w vals

/-! ### AS: add, sub, negate -/
/-- `_mm*_add_epiW` / `_mm*_sub_epiW` / `_mm*_mullo_epiW` -/
def addL (w : Nat) {n : Nat} (a b : BitVec n) : BitVec n := map2 w (fun x y => x + y) a b
def subL (w : Nat) {n : Nat} (a b : BitVec n) : BitVec n := map2 w (fun x y => x - y) a b
def mulloL (w : Nat) {n : Nat} (a b : BitVec n) : BitVec n := map2 w (fun x y => x * y) a b
/-- integral `add<T>` (AS:39-52, 85-100 AVX2, 119-134 AVX). -/
def addI (s : ISA) (T : Ety) : (v : VSz) → Vec v → Vec v → Vec v
  | .v128, a, b => addL (n := 128) T.w a b
  | .v256, a, b => if s.avx2 then addL (n := 256) T.w a b else mux2 (addL T.w) a b
/-- integral `sub<T>` (AS:39-52, 85-100, 119-134). -/
def subI (s : ISA) (T : Ety) : (v : VSz) → Vec v → Vec v → Vec v
  | .v128, a, b => subL (n := 128) T.w a b
  | .v256, a, b => if s.avx2 then subL (n := 256) T.w a b else mux2 (subL T.w) a b
/-- integral `negate<T>` (AS:144-145). -/
def negI (s : ISA) (T : Ety) (v : VSz) (x : Vec v) : Vec v := subI s T v (setzero v) x
/-- `inc<T>`, `dec<T>` (AS:138-141) for integral `T`. -/
def incI (s : ISA) (T : Ety) (v : VSz) (x : Vec v) : Vec v := addI s T v x (fillV v (1#T.w))
def decI (s : ISA) (T : Ety) (v : VSz) (x : Vec v) : Vec v := subI s T v x (fillV v (1#T.w))

/-- saturating add / subtract of one lane (`PADDS*`, `PSUBS*`) -/
def satLane (t : IntTy) (r : Int) : BitVec t.bits :=
  let lo : Int := if t.signed then -(2 ^ (t.bits - 1)) else 0
  let hi : Int := if t.signed then 2 ^ (t.bits - 1) - 1 else 2 ^ t.bits - 1
  BitVec.ofInt t.bits (if r < lo then lo else if hi < r then hi else r)
/-- `adds<T>`, `subs<T>` (AS:17-32, 68-83, 102-117): 1- and 2-byte integers only. -/
def addsI (s : ISA) (T : Ety) : (v : VSz) → Vec v → Vec v → Vec v
  | .v128, a, b => map2 (n := 128) T.w (fun x y => satLane T.ity (T.ity.val x + T.ity.val y)) a b
  | .v256, a, b =>
    if s.avx2 then map2 (n := 256) T.w (fun x y => satLane T.ity (T.ity.val x + T.ity.val y)) a b
    else mux2 (map2 T.w (fun x y => satLane T.ity (T.ity.val x + T.ity.val y))) a b
def subsI (s : ISA) (T : Ety) : (v : VSz) → Vec v → Vec v → Vec v
  | .v128, a, b => map2 (n := 128) T.w (fun x y => satLane T.ity (T.ity.val x - T.ity.val y)) a b
  | .v256, a, b =>
    if s.avx2 then map2 (n := 256) T.w (fun x y => satLane T.ity (T.ity.val x - T.ity.val y)) a b
    else mux2 (map2 T.w (fun x y => satLane T.ity (T.ity.val x - T.ity.val y))) a b

/-! ### MD: mul -/
/-- integral `mul<T>` (MD:22-24, 26-29, 42-51). -/
def mulI (s : ISA) (T : Ety) : (v : VSz) → Vec v → Vec v → Option (Vec v)
  | .v128, a, b =>
    if T.bytes = 2 ∨ (T.bytes = 4 ∧ s.sse41 = true) then some (mulloL (n := 128) T.w a b) else none
  | .v256, a, b =>
    if T.bytes = 2 ∨ T.bytes = 4 then
      some (if s.avx2 then mulloL (n := 256) T.w a b else mux2 (mulloL T.w) a b)
    else none

/-! ### MM: min, max -/
/-- `PMIN*` / `PMAX*` on one lane -/
def minLane (t : IntTy) (x y : BitVec t.bits) : BitVec t.bits := if t.val x < t.val y then x else y
def maxLane (t : IntTy) (x y : BitVec t.bits) : BitVec t.bits := if t.val x > t.val y then x else y
/-- for which integral types `min<T>`/`max<T>` exist (MM:21-30 SSE2, 32-49 SSE4.1, 62-87 AVX2) -/
def minmaxExists (s : ISA) (T : Ety) : VSz → Bool
  | .v128 => (T.bytes = 1 && !T.signed) || (T.bytes = 2 && T.signed) || (T.bytes ≤ 4 && s.sse41)
  | .v256 => decide (T.bytes ≤ 4) && s.avx2
/-- integral `min<T>` -/
def minI (s : ISA) (T : Ety) (v : VSz) (a b : Vec v) : Option (Vec v) :=
  if minmaxExists s T v then some (map2 T.w (minLane T.ity) a b) else none
/-- integral `max<T>` -/
def maxI (s : ISA) (T : Ety) (v : VSz) (a b : Vec v) : Option (Vec v) :=
  if minmaxExists s T v then some (map2 T.w (maxLane T.ity) a b) else none

/-! ### BW: shifts -/
/-- `_mm*_slli_epiW`, `_mm*_srli_epiW`, `_mm*_srai_epiW` with an immediate count: a count of `w` or
more gives zero (sign fill for `sra`). -/
def slliL (w : Nat) {n : Nat} (a : BitVec n) (k : Nat) : BitVec n := map1 w (fun x => x <<< k) a
def srliL (w : Nat) {n : Nat} (a : BitVec n) (k : Nat) : BitVec n := map1 w (fun x => x >>> k) a
def sraiL (w : Nat) {n : Nat} (a : BitVec n) (k : Nat) : BitVec n := map1 w (fun x => x.sshiftRight k) a
/-- `bit_shiftl<T, N>`, `bit_shiftr<T, N>` (BW:28-39, 106-117 AVX2, 176-191 AVX): 2, 4 and 8 bytes. -/
def shlC (s : ISA) (T : Ety) (k : Nat) : (v : VSz) → Vec v → Vec v
  | .v128, a => slliL (n := 128) T.w a k
  | .v256, a => if s.avx2 then slliL (n := 256) T.w a k else mux1 (fun x => slliL T.w x k) a
def shrC (s : ISA) (T : Ety) (k : Nat) : (v : VSz) → Vec v → Vec v
  | .v128, a => srliL (n := 128) T.w a k
  | .v256, a => if s.avx2 then srliL (n := 256) T.w a k else mux1 (fun x => srliL T.w x k) a
/-- `_mm_unpacklo_epi32` / `_mm256_unpacklo_epi32` (within 128-bit lanes). -/
def unpackloEpi32 {n : Nat} (a b : BitVec n) : BitVec n :=
  ofLanes n 32 (fun i => if i % 2 = 0 then lane 32 a (4 * (i / 4) + i % 4 / 2) else lane 32 b (4 * (i / 4) + i % 4 / 2))
/-- the emulated 64-bit `bit_ashiftr<T, N>` (BW:213-233, and with 256-bit instructions BW:239-255). -/
def ashr64Emu {n : Nat} (x : BitVec n) (k : Nat) : BitVec n :=
  if 32 ≤ k then
    let xh := sraiL 32 x 31
    let xh := shufEpi32 xh 3 2 3 1
    let xl := if 32 < k then sraiL 32 x (k - 32) else x
    let xl := shufEpi32 xl 3 2 3 1
    unpackloEpi32 xl xh
  else
    let xh := sraiL 32 x k
    let xh := shufEpi32 xh 3 2 3 1
    let xl := srliL 32 x k
    let xl := shufEpi32 xl 3 2 2 0
    unpackloEpi32 xl xh
/-- `bit_ashiftr<T, N>` (BW:41-44, 119-122, 169-172, 207-260). -/
def ashrC (s : ISA) (T : Ety) (k : Nat) : (v : VSz) → Vec v → Vec v
  | .v128, a =>
    if T.bytes = 8 then
      if s.avx512vl then sraiL (n := 128) T.w a k else ashr64Emu (n := 128) a k
    else sraiL (n := 128) T.w a k
  | .v256, a =>
    if T.bytes = 8 then
      if s.avx512vl then sraiL (n := 256) T.w a k
      else if s.avx2 then ashr64Emu (n := 256) a k
      else mux1 (fun x => ashr64Emu x k) a
    else if s.avx2 then sraiL (n := 256) T.w a k else mux1 (fun x => sraiL T.w x k) a

/-- `_mm_sll_epi64(a, b)` / `_mm_srl_epi64`: count in the low 64 bits of `b`, zero for counts >= 64. -/
def sllEpi64 (a b : BitVec 128) : BitVec 128 := map1 64 (fun x => x <<< (lane 64 b 0).toNat) a
def srlEpi64 (a b : BitVec 128) : BitVec 128 := map1 64 (fun x => x >>> (lane 64 b 0).toNat) a
/-- `_mm_unpackhi_epi64(b, b)` -/
def unpackhiEpi64 (a b : BitVec 128) : BitVec 128 := ofLanes 128 64 (fun i => if i = 0 then lane 64 a 1 else lane 64 b 1)
/-- `_mm_shuffle_pd(a, b, imm)` -/
def shufPd (a b : BitVec 128) (imm : Nat) : BitVec 128 :=
  ofLanes 128 64 (fun i => if i = 0 then lane 64 a (imm % 2) else lane 64 b (imm / 2 % 2))
/-- emulated 8-byte `bit_shiftl<T>(a, b)` and `bit_shiftr<T>(a, b)` (BW:69-84). -/
def shlV64Emu (a b : BitVec 128) : BitVec 128 :=
  let bh := unpackhiEpi64 b b
  let sl := sllEpi64 a b
  let sh := sllEpi64 a bh
  shufPd sl sh 0b10
def shrV64Emu (a b : BitVec 128) : BitVec 128 :=
  let bh := unpackhiEpi64 b b
  let sl := srlEpi64 a b
  let sh := srlEpi64 a bh
  shufPd sl sh 0b10
/-- `_mm*_sllv_epiW` / `_mm*_srlv_epiW`: zero for counts `>= w`. -/
def sllvL (w : Nat) {n : Nat} (a b : BitVec n) : BitVec n := map2 w (fun x y => x <<< y.toNat) a b
def srlvL (w : Nat) {n : Nat} (a b : BitVec n) : BitVec n := map2 w (fun x y => x >>> y.toNat) a b
/-- 8-byte `bit_shiftl<T>(a, b)` (BW:69-76, 138-145, 193-205).  The 2- and 4-byte variable shifts are
unreachable from the public API (see `opShl` in Model/Vector.lean) and not modelled. -/
def shlV64 (s : ISA) : (v : VSz) → Vec v → Vec v → Vec v
  | .v128, a, b => if s.avx2 then sllvL (n := 128) 64 a b else shlV64Emu a b
  | .v256, a, b => if s.avx2 then sllvL (n := 256) 64 a b else mux2 shlV64Emu a b
/-- 8-byte `bit_shiftr<T>(a, b)` (BW:77-84, 138-145, 193-205): logical whatever the signedness. -/
def shrV64 (s : ISA) : (v : VSz) → Vec v → Vec v → Vec v
  | .v128, a, b => if s.avx2 then srlvL (n := 128) 64 a b else shrV64Emu a b
  | .v256, a, b => if s.avx2 then srlvL (n := 256) 64 a b else mux2 shrV64Emu a b

/-! ### MB: abs -/
/-- `_mm*_abs_epiW` -/
def absL (w : Nat) {n : Nat} (a : BitVec n) : BitVec n := map1 w (fun x => if x.msb then -x else x) a
/-- `std::numeric_limits<T>::digits` -/
def Ety.digits (T : Ety) : Nat := if T.signed then T.w - 1 else T.w
/-- the fallback `abs<T>(V)` (MB:126-131): the sign mask is made with a *logical* shift by
`digits - 1`; there is no 1-byte shift. -/
def absFallback (s : ISA) (T : Ety) (v : VSz) (x : Vec v) : Option (Vec v) :=
  if T.bytes = 1 then none
  else
    let t := shrC s T (T.digits - 1) v x
    some (subI s T v (bitXor x t) t)
/-- integral `abs<T>` (MB:126-140, 261-267). -/
def absI (s : ISA) (T : Ety) (v : VSz) (x : Vec v) : Option (Vec v) :=
  match v, x with
  | .v128, x => if T.bytes ≤ 4 ∧ s.ssse3 = true then some (absL (n := 128) T.w x) else absFallback s T .v128 x
  | .v256, x => if T.bytes ≤ 4 ∧ s.avx2 = true then some (absL (n := 256) T.w x) else absFallback s T .v256 x

/-! ### CMP: partial 64-bit compares used by the math kernels -/
/-- `cmp_gt_l32<T>` (CMP:101-112, 200-203, 209-211) for 8-byte `T`: on SSE2 only the low dwords are compared. -/
def cmpGtL32 (s : ISA) : (v : VSz) → Vec v → Vec v → Vec v
  | .v128, a, b => if s.sse41 then cmpgtL (n := 128) 64 a b else shufEpi32 (cmpgtL (n := 128) 32 a b) 2 2 0 0
  | .v256, a, b => cmpGtI s 8 .v256 a b
/-- `cmp_gt_h32<T>` (CMP:113-124, 204-206, 212-214). -/
def cmpGtH32 (s : ISA) : (v : VSz) → Vec v → Vec v → Vec v
  | .v128, a, b => if s.sse41 then cmpgtL (n := 128) 64 a b else shufEpi32 (cmpgtL (n := 128) 32 a b) 3 3 1 1
  | .v256, a, b => cmpGtI s 8 .v256 a b

end Dpm.X86
