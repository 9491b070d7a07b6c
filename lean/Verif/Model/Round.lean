import Verif.Model.FloatManip
import Verif.Model.Reduce
/-
Rounding functions of the x86 backend.
RD = /repo/dpm/detail/x86/round.hpp, CV = /repo/dpm/detail/x86/cvt.hpp.
The current rounding direction is round-to-nearest (MXCSR default); exception flags are in Model/Flags.lean, so here `rint` and
`nearbyint` differ in nothing else.  DPM_USE_SVML is not defined.  `mask_domain` (RD:19-28) tests the misspelt macro
`DPMDPM_HANDLE_ERRORS` and therefore returns its second argument.
-/
namespace Dpm.X86
open Dpm.Reg Dpm.Fp

/-- `_mm*_round_p{s,d}`, `_mm*_{ceil,floor}_p{s,d}` -/
def roundL (w : Nat) (m : RMode) {n : Nat} (x : BitVec n) : BitVec n := map1 w (fun a => roundInt m a) x
/-- `_mm_cvtepi32_p{s,d}(_mm_cvttp{s,d}_epi32(x))`: the 32-bit integer part of every lane, converted back -/
def cvttBack (w : Nat) {n : Nat} (x : BitVec n) : BitVec n := map1 w (fun a => ofInt w (cvtInt 32 .zero a).toInt) x

/-- `ceil` (RD:30-41, 64-75, 283, 383) -/
def ceilV (s : ISA) (T : Ety) (v : VSz) (x : Vec v) : Vec v :=
  if s.sse41 then roundL T.w .up x
  else
    let tx := cvttBack T.w x
    faddL T.w tx (bitAnd (cmpF fLt T v tx x) (fillV v (oneBits T.w)))
/-- `floor` (RD:42-53, 76-87, 284, 384); `cmpgt(a, b)` is `cmplt(b, a)` -/
def floorV (s : ISA) (T : Ety) (v : VSz) (x : Vec v) : Vec v :=
  if s.sse41 then roundL T.w .down x
  else
    let tx := cvttBack T.w x
    fsubL T.w tx (bitAnd (cmpF fLt T v x tx) (fillV v (oneBits T.w)))

/-- `trunc_sse2` (CV:138-163).  `_mm_srl_epi64` of -1 by either half's count and `_mm_shuffle_pd` give every lane the mask
`-1 >> shift`; without SSE3 the shuffle `(3, 3, 1, 1)` copies the result for the high instead of the low dwords. -/
def truncSse2 (s : ISA) {n : Nat} (x : BitVec n) : BitVec n :=
  let e := srliL 64 x 52
  let e := e &&& set1 n 0x7ff#64
  let e := map2 64 (fun a b => a - b) e (set1 n 0x3ff#64)
  let e := map2 64 (fun a b => a + b) e (set1 n 12#64)
  let smallE := cmpgtL 32 (set1 n 12#64) e
  let smallE := if s.sse3 then shufPs smallE smallE 2 2 0 0 else shufPs smallE smallE 3 3 1 1
  let shift := (~~~ smallE &&& e) ||| (smallE &&& set1 n 1#64)
  let mask := map1 64 (fun k => BitVec.allOnes 64 >>> k.toNat) shift
  ~~~ (~~~ (0#n) &&& mask) &&& x
/-- `trunc` (RD:54-62, 88-97, 285, 385) -/
def truncV (s : ISA) (T : Ety) (v : VSz) (x : Vec v) : Vec v :=
  if s.sse41 then roundL T.w .zero x
  else if T.bytes = 8 then truncSse2 s x
  else cvttBack T.w x

/-- `2^23`, `2^52` as floating-point numbers -/
def offsetBits (w : Nat) : BitVec w := if w = 64 then BitVec.ofNat w 0x4330000000000000 else BitVec.ofNat w 0x4b000000
/-- `rint<T>` (RD:178-192, 255-269, 369, 424), `nearbyint` (RD:194-204, 270-281, 286, 386).
The double version before SSE4.1 selects `tmp` on both sides. -/
def rintV (s : ISA) (T : Ety) (v : VSz) (x : Vec v) : Vec v :=
  if s.sse41 then roundL T.w .nearest x
  else
    let signX := bitAnd x (fillV v (BitVec.intMin T.w))
    let off := fillV v (offsetBits T.w)
    let absX := bitXor x signX
    let tmpMask := cmpF fLe T v off absX
    let tmp := bitOr (fsubL T.w (faddL T.w absX off) off) signX
    if T.bytes = 8 then bitOr (bitAndnot tmpMask tmp) (bitAnd tmpMask tmp)
    else bitOr (bitAndnot tmpMask tmp) (bitAnd tmpMask x)

/-- the largest number below 1/2 and below 2 (RD:118, 144, 152, 214, 236, 243) -/
def nearHalf (w : Nat) : BitVec w := if w = 64 then BitVec.ofNat w 0x3fdfffffffffffff else BitVec.ofNat w 0x3effffff
def nearTwo (w : Nat) : BitVec w := if w = 64 then BitVec.ofNat w 0x3fffffffffffffff else BitVec.ofNat w 0x3fffffff
/-- `round<T>` (RD:139-156, 231-248, 340-346, 406-412); the 32-byte float version has `bit_and` in place of the addition -/
def roundV (s : ISA) (T : Ety) (v : VSz) (x : Vec v) : Vec v :=
  if s.sse41 then
    let sign := bitAnd x (fillV v (BitVec.intMin T.w))
    let off := bitOr sign (fillV v (nearHalf T.w))
    if T.bytes = 4 ∧ v = .v256 then roundL T.w .zero (bitAnd x off)
    else roundL T.w .zero (faddL T.w x off)
  else
    let tx := cvttBack T.w x
    let rem := fmulL T.w (fsubL T.w x tx) (fillV v (nearTwo T.w))
    faddL T.w tx (cvttBack T.w rem)

section api
variable (c cl : Cfg)
/-- `ceil(x)`, `floor(x)`, `trunc(x)`, `nearbyint(x)`, `round(x)`, `rint(x)` (RD:447-528, 572-586) -/
def vCeil (x : c.Data) : Out c.Data := .ok (vectorize1 c (fun _ x => ceilV c.s c.T c.v x) (zeroData c) x)
def vFloor (x : c.Data) : Out c.Data := .ok (vectorize1 c (fun _ x => floorV c.s c.T c.v x) (zeroData c) x)
def vTrunc (x : c.Data) : Out c.Data := .ok (vectorize1 c (fun _ x => truncV c.s c.T c.v x) (zeroData c) x)
def vNearbyint (x : c.Data) : Out c.Data := .ok (vectorize1 c (fun _ x => rintV c.s c.T c.v x) (zeroData c) x)
def vRint (x : c.Data) : Out c.Data := .ok (vectorize1 c (fun _ x => rintV c.s c.T c.v x) (zeroData c) x)
def vRound (x : c.Data) : Out c.Data := .ok (vectorize1 c (fun _ x => roundV c.s c.T c.v x) (zeroData c) x)
end api
end Dpm.X86
