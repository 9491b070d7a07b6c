import Verif.Model.FloatBits
import Verif.Spec.Ieee
/-
Conversions between integers and floating point, and the copies that use them.
CV = /repo/dpm/detail/x86/cvt.hpp, XU = x86/utility.hpp, X = x86/type.hpp.
IEEE arithmetic and the conversion instructions are those of Spec/Ieee.lean (round to nearest even, no FTZ/DAZ).
-/
namespace Dpm.X86
open Dpm.Reg Dpm.Fp

/-- lane-wise `_mm*_{add,sub,mul,div}_{ps,pd}` -/
def faddL (w : Nat) {n : Nat} (a b : BitVec n) : BitVec n := map2 w Fp.fadd a b
def fsubL (w : Nat) {n : Nat} (a b : BitVec n) : BitVec n := map2 w Fp.fsub a b
def fmulL (w : Nat) {n : Nat} (a b : BitVec n) : BitVec n := map2 w Fp.fmul a b
def fdivL (w : Nat) {n : Nat} (a b : BitVec n) : BitVec n := map2 w Fp.fdiv a b
/-- `_mm*_set1_*` -/
def set1 {w : Nat} (n : Nat) (x : BitVec w) : BitVec n := ofLanes n w (fun _ => x)
/-- the hardware's arithmetic as an `FpOps` -/
def ieee : FpOps := ⟨fun _ => Fp.fadd, fun _ => Fp.fsub, fun _ => Fp.fmul, fun _ => Fp.fdiv⟩

/-- `_mm*_cvtepi32_ps`, `_mm*_cvtepi64_pd` (AVX-512) -/
def cvtepiL (w : Nat) {n : Nat} (x : BitVec n) : BitVec n := map1 w (fun a => ofInt w a.toInt) x
/-- `_mm*_cvtepu64_pd` (AVX-512) -/
def cvtepuL (w : Nat) {n : Nat} (x : BitVec n) : BitVec n := map1 w (fun a => ofInt w a.toNat) x
/-- `_mm*_cvtps_epi32`, `_mm*_cvtpd_epi64` (AVX-512): current rounding mode; `_mm*_cvttps_epi32`: truncation -/
def cvtfpL (w : Nat) (m : RMode) {n : Nat} (x : BitVec n) : BitVec n := map1 w (fun a => cvtInt w m a) x
/-- `_mm*_cvtpd_epu64` (AVX-512) -/
def cvtfpuL (w : Nat) (m : RMode) {n : Nat} (x : BitVec n) : BitVec n := map1 w (fun a => cvtUInt w m a) x

/-- the bodies of `cvt_u32_f32` (CV:37-42, and with 256-bit instructions CV:238-241) -/
def u32f32 {n : Nat} (x : BitVec n) : BitVec n :=
  let a := cvtepiL 32 (x &&& set1 n 1#32)
  let b := cvtepiL 32 (srliL 32 x 1)
  faddL 32 (faddL 32 b b) a
/-- `cvt_u32_f32` (CV:37-42, CV:235-247) -/
def cvtU32F32 (s : ISA) : (v : VSz) → Vec v → Vec v
  | .v128, x => u32f32 (n := 128) x
  | .v256, x => if s.avx2 then u32f32 (n := 256) x else mux1 u32f32 x
/-- `cvt_f32_u32` (CV:43-47, CV:230-234): the offset is `0x40'0000` -/
def cvtF32U32 (v : VSz) (x : Vec v) : Vec v :=
  let offset := set1 (w := 32) v.bits (ofInt 32 0x400000)
  faddL 32 x offset ^^^ offset

/-- `_mm256_blend_epi16`: the immediate is used for both 128-bit halves -/
def blend16x2 (imm : Nat) : Nat := imm + 256 * imm
/-- `cvt_u64_f64_sse` (CV:62-77) -/
def u64f64Sse (s : ISA) (x : BitVec 128) : BitVec 128 :=
  let exp84 := set1 128 (ofInt 64 19342813113834066795298816)
  let exp52 := set1 128 (ofInt 64 0x0010000000000000)
  let adjust := set1 128 (ofInt 64 19342813118337666422669312)
  let a := srliL 64 x 32 ||| exp84
  let b :=
    if s.sse41 then blendImm 16 x exp52 0xcc
    else
      let mask := set1 128 0xffffffff00000000#64
      (mask &&& exp52) ||| (~~~ mask &&& x)
  faddL 64 (fsubL 64 a adjust) b
/-- `cvt_i64_f64_sse` (CV:78-95) -/
def i64f64Sse (s : ISA) (x : BitVec 128) : BitVec 128 :=
  let exp67m3 := set1 128 (ofInt 64 442721857769029238784)
  let exp52 := set1 128 (ofInt 64 0x0010000000000000)
  let adjust := set1 128 (ofInt 64 442726361368656609280)
  let a := if s.sse41 then blendImm 16 (0#128) (sraiL 32 x 16) 0x33 else set1 128 0xffffffff00000000#64 &&& sraiL 32 x 16
  let b :=
    if s.sse41 then blendImm 16 x exp52 0x88
    else
      let mask := set1 128 0xffff000000000000#64
      (mask &&& exp52) ||| (~~~ mask &&& x)
  faddL 64 (fsubL 64 (addL 64 a exp67m3) adjust) b
/-- `cvt_u64_f64_avx` (CV:262-278) -/
def u64f64Avx (s : ISA) (x : BitVec 256) : BitVec 256 :=
  if s.avx2 then
    let exp84 := set1 256 (ofInt 64 19342813113834066795298816)
    let exp52 := set1 256 (ofInt 64 0x0010000000000000)
    let adjust := set1 256 (ofInt 64 19342813118337666422669312)
    let a := srliL 64 x 32 ||| exp84
    let b := blendImm 32 x exp52 0xaa
    faddL 64 (fsubL 64 a adjust) b
  else mux1 (u64f64Sse s) x
/-- `cvt_i64_f64_avx` (CV:279-297) -/
def i64f64Avx (s : ISA) (x : BitVec 256) : BitVec 256 :=
  if s.avx2 then
    let exp67m3 := set1 256 (ofInt 64 442721857769029238784)
    let exp52 := set1 256 (ofInt 64 0x0010000000000000)
    let adjust := set1 256 (ofInt 64 442726361368656609280)
    let a := blendImm 32 (0#256) (sraiL 32 x 16) 0xaa
    let b := blendImm 16 x exp52 (blend16x2 0x88)
    faddL 64 (fsubL 64 (addL 64 a exp67m3) adjust) b
  else mux1 (i64f64Sse s) x
/-- `cvt_f64_u64_sse`, `cvt_f64_u64_avx` (CV:96-100, 298-302) -/
def f64u64L {n : Nat} (x : BitVec n) : BitVec n :=
  let offset := set1 n (ofInt 64 0x0010000000000000)
  faddL 64 x offset ^^^ offset
/-- `cvt_f64_i64_sse` (CV:101-105) and the AVX2 body (CV:306-307) -/
def f64i64L {n : Nat} (x : BitVec n) : BitVec n :=
  let offset := set1 n (ofInt 64 0x0018000000000000)
  subL 64 (faddL 64 x offset) offset

/-- `defined(DPM_HAS_AVX512DQ) && defined(DPM_HAS_AVX512VL)` -/
def ISA.dqvl (s : ISA) : Bool := s.avx512dq && s.avx512vl
/-- `cvt_u64_f64` (CV:107-114, 315-322) -/
def cvtU64F64 (s : ISA) : (v : VSz) → Vec v → Vec v
  | .v128, x => if s.dqvl then cvtepuL (n := 128) 64 x else u64f64Sse s x
  | .v256, x => if s.dqvl then cvtepuL (n := 256) 64 x else u64f64Avx s x
/-- `cvt_i64_f64` (CV:115-122, 323-330) -/
def cvtI64F64 (s : ISA) : (v : VSz) → Vec v → Vec v
  | .v128, x => if s.dqvl then cvtepiL (n := 128) 64 x else i64f64Sse s x
  | .v256, x => if s.dqvl then cvtepiL (n := 256) 64 x else i64f64Avx s x
/-- `cvt_f64_u64` (CV:123-130, 331-338) -/
def cvtF64U64 (s : ISA) (v : VSz) (x : Vec v) : Vec v := if s.dqvl then cvtfpuL 64 .nearest x else f64u64L x
/-- `cvt_f64_i64` (CV:131-138, 339-346); the AVX branch (CV:303-313) treats the halves separately -/
def cvtF64I64 (s : ISA) : (v : VSz) → Vec v → Vec v
  | .v128, x => if s.dqvl then cvtfpL (n := 128) 64 .nearest x else f64i64L (n := 128) x
  | .v256, x => if s.dqvl then cvtfpL (n := 256) 64 .nearest x else if s.avx2 then f64i64L (n := 256) x else mux1 f64i64L x

/-- `cvt<To, From>` between an integer and a floating-point type of the same size
(CV:51-60, 173-180, 249-260, 348-355).  There is none for other sizes. -/
def cvtV (s : ISA) (frm to : Ety) (v : VSz) (x : Vec v) : Option (Vec v) :=
  if to.flt = true ∧ frm.flt = false ∧ to.bytes = frm.bytes then
    if to.bytes = 4 then some (if frm.signed then cvtepiL 32 x else cvtU32F32 s v x)
    else if to.bytes = 8 then some (if frm.signed then cvtI64F64 s v x else cvtU64F64 s v x)
    else none
  else if to.flt = false ∧ frm.flt = true ∧ to.bytes = frm.bytes then
    if to.bytes = 4 then some (if to.signed then cvtfpL 32 .nearest x else cvtF32U32 v x)
    else if to.bytes = 8 then some (if to.signed then cvtF64I64 s v x else cvtF64U64 s v x)
    else none
  else none
/-- `native_vec_cast<To, From>` (XU:313-320) for types of the same size -/
def nativeVecCast (s : ISA) (frm to : Ety) (v : VSz) (x : Vec v) : Option (Vec v) :=
  if frm = to ∨ (frm.flt = false ∧ to.flt = false ∧ frm.bytes = to.bytes) then some x else cvtV s frm to v x

/-- the integer a C++ floating-to-integral `static_cast` gives: truncation, undefined outside the range -/
def castToInt (t : IntTy) {w : Nat} (x : BitVec w) : Option (BitVec t.bits) :=
  if isFinite x ∧ t.fits (Fp.toInt .zero x) then some (BitVec.ofInt t.bits (Fp.toInt .zero x)) else none
/-- `static_cast<To>(From)` of scalars of the same size (int/int, int/float) -/
def scalarCast (frm to : Ety) (x : BitVec frm.w) : Option (BitVec to.w) :=
  if to.flt = frm.flt then some (x.setWidth to.w)
  else if to.flt then some (ofInt to.w (frm.ity.val x))
  else castToInt to.ity x

/-! ### copies with an element type of the same size (X:644-671) -/
section
variable (c : Cfg) (U : Ety)
/-- `copy_to(U *mem, flags)` with `sizeof(U) == sizeof(T)` -/
def copyToAs (f : Flag) (d : c.Data) (len : Nat) (mem : Mem (BitVec U.w)) : Out (Mem (BitVec U.w)) :=
  if f.aligned c.v.bytes then
    match nativeVecCast c.s c.T U c.v (0#c.v.bits) with
    | none => .illFormed
    | some _ =>
      Out.ofUb (forRangeM c.dataSize (fun j m =>
        if (j + 1) * c.e ≤ len then
          (nativeVecCast c.s c.T U c.v (d j)).map (fun y => forRange c.e (fun k m => m.set (j * c.e + k) (lane U.w y k)) m)
        else none) mem)
  else
    Out.ofUb (forRangeM c.N (fun i m => if i < len then (scalarCast c.T U (elt c d i)).map (fun y => m.set i y) else none) mem)
/-- `copy_from(const U *mem, flags)` with `sizeof(U) == sizeof(T)` -/
def copyFromAs (f : Flag) (d : c.Data) (len : Nat) (mem : Mem (BitVec U.w)) : Out c.Data :=
  if f.aligned c.v.bytes then
    match nativeVecCast c.s U c.T c.v (0#c.v.bits) with
    | none => .illFormed
    | some _ =>
      Out.ofUb (forRangeM c.dataSize (fun j d =>
        if (j + 1) * c.e ≤ len then
          (nativeVecCast c.s U c.T c.v (ofLanes c.v.bits U.w (fun k => mem (j * c.e + k)))).map (fun y => d.set j y)
        else none) d)
  else
    Out.ofUb (forRangeM c.N (fun i d => if i < len then (scalarCast U c.T (mem i)).map (fun y => setElt c d i y) else none) d)
end

end Dpm.X86
