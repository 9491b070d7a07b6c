import Verif.Lib.Reg
import Verif.Model.Tables
/-
Native-vector layer of the x86 backend.
XU = /repo/dpm/detail/x86/utility.hpp, BW = x86/bitwise.hpp, CMP = x86/cmp.hpp, TR = x86/transform.hpp,
AR = /repo/dpm/detail/arch.hpp.
Registers are `BitVec 128` / `BitVec 256`; intrinsics are modelled lane-wise after the Intel SDM.
`std::bit_cast` between `__m128`, `__m128d`, `__m128i` is the identity on bits.
Simplification: the SSE-only configuration (no SSE2, float vectors only) is not modelled; SSE2 is the
baseline (it is on every x86-64 target).
-/
namespace Dpm.X86
open Dpm.Reg

/-- The feature macros the code tests (AR:11-77), above the SSE2 baseline. -/
structure ISA where
  sse3 : Bool
  ssse3 : Bool
  sse41 : Bool
  avx : Bool
  avx2 : Bool
  avx512vl : Bool
  avx512bw : Bool
  avx512dq : Bool
  deriving DecidableEq, Repr

/-- The implications between feature macros that every compiler guarantees. -/
def ISA.Wf (s : ISA) : Prop :=
  (s.ssse3 → s.sse3) ∧ (s.sse41 → s.ssse3) ∧ (s.avx → s.sse41) ∧ (s.avx2 → s.avx) ∧
  (s.avx512vl → s.avx2) ∧ (s.avx512bw → s.avx2) ∧ (s.avx512dq → s.avx2)
instance (s : ISA) : Decidable s.Wf := by unfold ISA.Wf; infer_instance

namespace ISA
def sse2L : ISA := ⟨false, false, false, false, false, false, false, false⟩
def sse3L : ISA := { sse2L with sse3 := true }
def ssse3L : ISA := { sse3L with ssse3 := true }
def sse41L : ISA := { ssse3L with sse41 := true }
def avxL : ISA := { sse41L with avx := true }
def avx2L : ISA := { avxL with avx2 := true }
def avx512L : ISA := { avx2L with avx512vl := true, avx512bw := true, avx512dq := true }
end ISA

/-- Native vector size: `__m128*` or `__m256*`. -/
inductive VSz where
  | v128
  | v256
  deriving DecidableEq, Repr
@[reducible] def VSz.bits : VSz → Nat
  | .v128 => 128
  | .v256 => 256
/-- `sizeof(V)`. -/
def VSz.bytes : VSz → Nat
  | .v128 => 16
  | .v256 => 32
abbrev Vec (v : VSz) := BitVec v.bits

/-- Element type of a vector as far as the native layer distinguishes it. -/
structure Ety where
  bytes : Nat
  flt : Bool
  signed : Bool
  deriving DecidableEq, Repr
/-- lane width in bits -/
@[reducible] def Ety.w (T : Ety) : Nat := 8 * T.bytes
/-- The vectorizable types (AR / abi.hpp:31-37): 1,2,4,8-byte integers, float, double. -/
def Ety.Ok (T : Ety) : Prop :=
  (T.bytes = 1 ∨ T.bytes = 2 ∨ T.bytes = 4 ∨ T.bytes = 8) ∧ (T.flt = true → (T.bytes = 4 ∨ T.bytes = 8) ∧ T.signed = true)
instance (T : Ety) : Decidable T.Ok := by unfold Ety.Ok; infer_instance
namespace Ety
def i8 : Ety := ⟨1, false, true⟩
def u8 : Ety := ⟨1, false, false⟩
def i16 : Ety := ⟨2, false, true⟩
def u16 : Ety := ⟨2, false, false⟩
def i32 : Ety := ⟨4, false, true⟩
def u32 : Ety := ⟨4, false, false⟩
def i64 : Ety := ⟨8, false, true⟩
def u64 : Ety := ⟨8, false, false⟩
def f32 : Ety := ⟨4, true, true⟩
def f64 : Ety := ⟨8, true, true⟩
end Ety
/-- `native_extent = sizeof(V) / sizeof(T)` (X:71). -/
def extent (T : Ety) (v : VSz) : Nat := v.bytes / T.bytes

/-! ### Lane predicates -/
/-- all-ones / zero lane -/
def laneMask (w : Nat) (b : Bool) : BitVec w := if b then BitVec.allOnes w else 0#w
/-- bit pattern of `+inf` for a binary32 (`w = 32`) or binary64 lane -/
def fInf (w : Nat) : Nat := if w = 32 then 0x7f800000 else 0x7ff0000000000000
/-- magnitude bits -/
def fMag {w : Nat} (x : BitVec w) : Nat := x.toNat % 2 ^ (w - 1)
def fNaN {w : Nat} (x : BitVec w) : Bool := decide (fMag x > fInf w)
/-- sign-magnitude key: IEEE order on non-NaN patterns is the order of the keys -/
def fKey {w : Nat} (x : BitVec w) : Int := if x.msb then -(fMag x : Int) else (fMag x : Int)
/-- ordered-quiet predicates of CMPPS/CMPPD: EQ, LT, LE (GT, GE with exchanged operands); the
`N..`/NEQ predicates are their complements (unordered gives true). -/
def fEq {w : Nat} (x y : BitVec w) : Bool := !fNaN x && !fNaN y && decide (fKey x = fKey y)
def fLt {w : Nat} (x y : BitVec w) : Bool := !fNaN x && !fNaN y && decide (fKey x < fKey y)
def fLe {w : Nat} (x y : BitVec w) : Bool := !fNaN x && !fNaN y && decide (fKey x ≤ fKey y)

/-! ### XU: constants, mux, movemask -/
/-- `setzero<V>()` (XU:14-21, XU:147-154). -/
def setzero (v : VSz) : Vec v := 0#v.bits
/-- `setones<V>()` (XU:23-32, XU:156-165): `0.0f == 0.0f` in every 32-bit lane. -/
def setones (v : VSz) : Vec v := BitVec.allOnes v.bits
/-- `mux_128x2` (XU:123-143) for one, two and three arguments. -/
def mux1 (f : BitVec 128 → BitVec 128) (a : BitVec 256) : BitVec 256 := setHL (f (hi a)) (f (lo a))
def mux2 (f : BitVec 128 → BitVec 128 → BitVec 128) (a b : BitVec 256) : BitVec 256 :=
  setHL (f (hi a) (hi b)) (f (lo a) (lo b))
def mux3 (f : BitVec 128 → BitVec 128 → BitVec 128 → BitVec 128) (a b c : BitVec 256) : BitVec 256 :=
  setHL (f (hi a) (hi b) (hi c)) (f (lo a) (lo b) (lo c))
/-- The `MOVMSK*` family: sign bit of every lane, as an `int`. -/
def movmskInt (w : Nat) {n : Nat} (x : BitVec n) : BitVec 32 :=
  ofBits 32 (fun i => decide ((i + 1) * w ≤ n) && (lane w x i).msb)
/-- `movemask_bits_v<T>` (/repo/dpm/detail/x86/type_fwd.hpp): 2 for 16-bit elements, else 1. -/
def movemaskBits (T : Ety) : Nat := if T.bytes = 2 then 2 else 1
/-- lane width seen by the movemask instruction: `_mm_movemask_epi8` for 1- and 2-byte types. -/
def movemaskW (T : Ety) : Nat := if T.bytes ≤ 2 then 8 else T.w
/-- `movemask<T>(V)` (XU:43-44, XU:107-110, XU:246-260): the `int` result is converted to `size_t`
(sign extension). -/
def movemask (s : ISA) (T : Ety) : (v : VSz) → Vec v → BitVec 64
  | .v128, x => (movmskInt (n := 128) (movemaskW T) x).signExtend 64
  | .v256, x =>
    if T.bytes ≤ 2 ∧ s.avx2 = false then
      let ml := (movmskInt (movemaskW T) (lo x)).signExtend 64
      let mh := (movmskInt (movemaskW T) (hi x)).signExtend 64
      (mh <<< ((16 / T.bytes) * movemaskBits T)) ||| ml
    else (movmskInt (n := 256) (movemaskW T) x).signExtend 64
/-- the loop `for (n = extent - n; n--;) bits <<= movemask_bits_v<T>` of XU:307 -/
def shlLoop (mb : Nat) : Nat → BitVec 64 → BitVec 64
  | 0, b => b
  | k + 1, b => shlLoop mb k (b <<< mb)
/-- `movemask_l<T>(V, n)` (XU:301-309). -/
def movemaskL (s : ISA) (T : Ety) (v : VSz) (x : Vec v) (n : Nat) : BitVec 64 :=
  let bits := movemask s T v x <<< (64 - extent T v * movemaskBits T)
  if n < extent T v then shlLoop (movemaskBits T) (extent T v - n) bits else bits

/-! ### BW: bitwise -/
/-- `bit_and/or/xor/andnot/not` (BW:10-26, BW:91-117, BW:143-167, BW:273-274). -/
def bitAnd {v : VSz} (a b : Vec v) : Vec v := a &&& b
def bitOr {v : VSz} (a b : Vec v) : Vec v := a ||| b
def bitXor {v : VSz} (a b : Vec v) : Vec v := a ^^^ b
def bitAndnot {v : VSz} (a b : Vec v) : Vec v := ~~~ a &&& b
def bitNot {v : VSz} (x : Vec v) : Vec v := bitXor x (setones v)

/-- `_mm_shuffle_epi32` / `_mm256_shuffle_epi32` with `_MM_SHUFFLE(z, y, x, w)` (in 128-bit lanes). -/
def shufEpi32 {n : Nat} (a : BitVec n) (z y x w : Nat) : BitVec n :=
  ofLanes n 32 (fun i => lane 32 a (4 * (i / 4) + (match i % 4 with | 0 => w | 1 => x | 2 => y | _ => z)))

/-! ### CMP -/
def cmpeqL (w : Nat) {n : Nat} (a b : BitVec n) : BitVec n := map2 w (fun x y => laneMask w (decide (x = y))) a b
def cmpgtL (w : Nat) {n : Nat} (a b : BitVec n) : BitVec n := map2 w (fun x y => laneMask w (decide (y.toInt < x.toInt))) a b

/-- integral `cmp_eq<T>(__m128i, __m128i)` (CMP:67-82). -/
def cmpEqI128 (s : ISA) (bytes : Nat) (a b : BitVec 128) : BitVec 128 :=
  if bytes = 8 then
    if s.sse41 then cmpeqL 64 a b
    else
      let cmp32 := cmpeqL 32 a b
      cmp32 &&& shufEpi32 cmp32 2 3 0 1
  else cmpeqL (8 * bytes) a b
/-- signed integral `cmp_gt<T>(__m128i, __m128i)` (CMP:84-99). -/
def cmpGtI128 (s : ISA) (bytes : Nat) (a b : BitVec 128) : BitVec 128 :=
  if bytes = 8 then
    if s.sse41 then cmpgtL 64 a b
    else
      let tmp := (cmpeqL 32 a b &&& map2 64 (fun x y => x - y) b a) ||| cmpgtL 32 a b
      shufEpi32 tmp 3 3 1 1
  else cmpgtL (8 * bytes) a b
/-- integral `cmp_eq<T>` for both sizes (CMP:176-183 AVX2, CMP:194-195 AVX via mux). -/
def cmpEqI (s : ISA) (bytes : Nat) : (v : VSz) → Vec v → Vec v → Vec v
  | .v128, a, b => cmpEqI128 s bytes a b
  | .v256, a, b => if s.avx2 then cmpeqL (n := 256) (8 * bytes) a b else mux2 (cmpEqI128 s bytes) a b
/-- signed integral `cmp_gt<T>` for both sizes (CMP:185-192, CMP:196-197). -/
def cmpGtI (s : ISA) (bytes : Nat) : (v : VSz) → Vec v → Vec v → Vec v
  | .v128, a, b => cmpGtI128 s bytes a b
  | .v256, a, b => if s.avx2 then cmpgtL (n := 256) (8 * bytes) a b else mux2 (cmpGtI128 s bytes) a b
/-- lane-wise floating-point compare with an arbitrary predicate (CMP:11-30, 46-65, 126-167). -/
def cmpF (p : {w : Nat} → BitVec w → BitVec w → Bool) (T : Ety) (v : VSz) (a b : Vec v) : Vec v :=
  map2 T.w (fun x y => laneMask T.w (p x y)) a b
/-- `cmp_eq<T>` (CMP:11-12, 46-47, 67-82, 126-148, 176-195). -/
def cmpEq (s : ISA) (T : Ety) (v : VSz) (a b : Vec v) : Vec v :=
  if T.flt then cmpF fEq T v a b else cmpEqI s T.bytes v a b
/-- `cmp_ne<T>` (CMP:21-22, 56-57, 136-137, 157-158: unordered `!=`; CMP:216-217 integral). -/
def cmpNe (s : ISA) (T : Ety) (v : VSz) (a b : Vec v) : Vec v :=
  if T.flt then cmpF (fun x y => !fEq x y) T v a b else bitNot (cmpEqI s T.bytes v a b)
/-- `mask_eq<T>` (CMP:219-244): integral equality whatever `T` is. -/
def maskEq (s : ISA) (T : Ety) (v : VSz) (a b : Vec v) : Vec v := cmpEqI s T.bytes v a b
/-- `!_mm_testz_si128(x, x)`. -/
def nonzero {n : Nat} (x : BitVec n) : Bool := decide (x ≠ 0#n)
/-- `test_mask(V)` (CMP:32-43, CMP:168-173). -/
def testMask (s : ISA) : (v : VSz) → Vec v → Bool
  | .v128, x => if s.sse41 then nonzero (n := 128) x else decide (movmskInt (n := 128) 8 x ≠ 0)
  | .v256, x => nonzero (n := 256) x

/-! ### TR: maskblend / maskzero / maskone / blendv -/
/-- `_mm*_set_*(row...)` where each operand is `m` or 0, highest lane first. -/
def setRow (n w : Nat) (m : BitVec w) (row : List Bool) : BitVec n :=
  ofLanes n w (fun i => if row.reverse.getD i false then m else 0#w)
/-- `_mm*_blend_{ps,pd,epi16}(a, b, imm)`. -/
def blendImm (w : Nat) {n : Nat} (a b : BitVec n) (imm : Nat) : BitVec n :=
  ofLanes n w (fun i => if imm.testBit i then lane w b i else lane w a i)
/-- `_mm*_blendv_{epi8,ps,pd}(a, b, m)`: sign bit of each lane of `m` selects `b`. -/
def blendvL (w : Nat) {n : Nat} (a b m : BitVec n) : BitVec n :=
  map3 w (fun x y z => if z.msb then y else x) a b m
/-- `or(andnot(vm, a), and(vm, b))` (TR:36, TR:162, TR:193, TR:208, TR:78, TR:322, TR:334). -/
def blendBits {n : Nat} (a b vm : BitVec n) : BitVec n := (~~~ vm &&& a) ||| (vm &&& b)

/-- `maskblend<T>(V a, V b, n)` for 16-byte vectors (TR:14-38, TR:117-212). -/
def maskblend128 (s : ISA) (bytes : Nat) (a b : BitVec 128) (n : Nat) : BitVec 128 :=
  if bytes = 4 then
    if s.sse41 then
      match Tables.maskblend4_128_imm n with
      | some imm => blendImm 32 a b imm
      | none => a
    else
      match Tables.maskblend4_128 n with
      | some row => blendBits a b (setRow 128 32 (BitVec.allOnes 32) row)
      | none => a
  else if bytes = 1 then
    if s.sse41 then
      match Tables.maskblend1_128_sse41 n with
      | some row => blendvL 8 a b (setRow 128 8 0x80#8 row)
      | none => a
    else
      match Tables.maskblend1_128 n with
      | some row => blendBits a b (setRow 128 8 (BitVec.allOnes 8) row)
      | none => a
  else if bytes = 2 then
    if s.sse41 then
      match Tables.maskblend2_128_imm n with
      | some imm => blendImm 16 a b imm
      | none => a
    else
      match Tables.maskblend2_128 n with
      | some row => blendBits a b (setRow 128 16 (BitVec.allOnes 16) row)
      | none => a
  else -- 8 bytes (TR:196-212)
    if n = 1 then
      if s.sse41 then blendImm 64 a b 0b10
      else blendBits a b (setRow 128 64 (BitVec.allOnes 64) [true, false])
    else a
/-- `maskzero<T>(V x, n)` for 16-byte vectors (TR:39-51, TR:214-263). -/
def maskzero128 (bytes : Nat) (x : BitVec 128) (n : Nat) : BitVec 128 :=
  if bytes = 4 then
    match Tables.maskzero4_128 n with
    | some row => x &&& setRow 128 32 (BitVec.allOnes 32) row
    | none => x
  else if bytes = 1 then
    match Tables.maskzero1_128 n with
    | some row => x &&& setRow 128 8 (BitVec.allOnes 8) row
    | none => x
  else if bytes = 2 then
    match Tables.maskzero2_128 n with
    | some row => x &&& setRow 128 16 (BitVec.allOnes 16) row
    | none => x
  else if n = 1 then x &&& setRow 128 64 (BitVec.allOnes 64) [false, true] else x
/-- `maskone<T>(V x, n)` for 16-byte vectors (TR:52-64, TR:265-313). -/
def maskone128 (bytes : Nat) (x : BitVec 128) (n : Nat) : BitVec 128 :=
  if bytes = 4 then
    match Tables.maskone4_128 n with
    | some row => x ||| setRow 128 32 (BitVec.allOnes 32) row
    | none => x
  else if bytes = 1 then
    match Tables.maskone1_128 n with
    | some row => x ||| setRow 128 8 (BitVec.allOnes 8) row
    | none => x
  else if bytes = 2 then
    match Tables.maskone2_128 n with
    | some row => x ||| setRow 128 16 (BitVec.allOnes 16) row
    | none => x
  else if n = 1 then x ||| setRow 128 64 (BitVec.allOnes 64) [true, false] else x
/-- `n - k` on `std::size_t`. -/
def subSizeT (n k : Nat) : Nat := (n + (2 ^ 64 - k)) % 2 ^ 64
/-- `maskblend<T>(V a, V b, n)` for 32-byte vectors (TR:439-469; AVX2 TR:505-567; AVX TR:592-606). -/
def maskblend256 (s : ISA) (bytes : Nat) (a b : BitVec 256) (n : Nat) : BitVec 256 :=
  if bytes = 4 then
    match Tables.maskblend4_256_imm n with
    | some imm => blendImm 32 a b imm
    | none => a
  else if bytes = 8 then
    match Tables.maskblend8_256_imm n with
    | some imm => blendImm 64 a b imm
    | none => a
  else if s.avx2 then
    if bytes = 1 then
      match Tables.maskblend1_256 n with
      | some row => blendvL 8 a b (setRow 256 8 0x80#8 row)
      | none => a
    else
      match Tables.maskblend2_256 n with
      | some row => blendvL 8 a b (setRow 256 8 0x80#8 row)
      | none => a
  else
    setHL (maskblend128 s bytes (hi a) (hi b) (subSizeT n (16 / bytes))) (maskblend128 s bytes (lo a) (lo b) n)
/-- `maskblend<T>` -/
def maskblend (s : ISA) (T : Ety) : (v : VSz) → Vec v → Vec v → Nat → Vec v
  | .v128, a, b, n => maskblend128 s T.bytes a b n
  | .v256, a, b, n => maskblend256 s T.bytes a b n
/-- `maskzero<T>` (TR:614-615 for 32-byte vectors). -/
def maskzero (s : ISA) (T : Ety) : (v : VSz) → Vec v → Nat → Vec v
  | .v128, x, n => maskzero128 T.bytes x n
  | .v256, x, n => maskblend256 s T.bytes x (0#256) n
/-- `maskone<T>` (TR:616-617 for 32-byte vectors). -/
def maskone (s : ISA) (T : Ety) : (v : VSz) → Vec v → Nat → Vec v
  | .v128, x, n => maskone128 T.bytes x n
  | .v256, x, n => maskblend256 s T.bytes x (BitVec.allOnes 256) n
/-- `blendv<T>(a, b, m)` for 16-byte vectors (TR:66-80, TR:315-336). -/
def blendv128 (s : ISA) (bytes : Nat) (a b m : BitVec 128) : BitVec 128 :=
  if s.sse41 then blendvL (if bytes ≤ 2 then 8 else 8 * bytes) a b m else blendBits a b m
/-- `blendv<T>(a, b, m)` (TR:471-487 for 4/8-byte float vectors, TR:568-572 AVX2 integral,
TR:607-611 AVX integral).  For integral `T` of 4/8 bytes both TR:471 and TR:568/607 match; the
non-generic one is more specialised. -/
def blendv (s : ISA) (T : Ety) : (v : VSz) → Vec v → Vec v → Vec v → Vec v
  | .v128, a, b, m => blendv128 s T.bytes a b m
  | .v256, a, b, m =>
    if T.flt then blendvL (n := 256) T.w a b m
    else if s.avx2 then blendvL (n := 256) 8 a b m
    else mux3 (blendv128 s T.bytes) a b m

end Dpm.X86
