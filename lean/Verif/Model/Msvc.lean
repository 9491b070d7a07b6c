import Verif.Model.FloatManip
import Verif.Model.Vector
/-
The constructors of x86 vectors and masks when compiled with MSVC, whose native vector types are unions: `native_bit_cast` is written out
element by element (TF = dpm/detail/x86/type_fwd.hpp:66-184).  X = dpm/detail/x86/type.hpp, AL = dpm/detail/alias.hpp.
-/
namespace Dpm.X86.Msvc
open Dpm.Reg Dpm.Util

/-- number of elements `native_bit_cast` copies into a vector of floating-point elements: 4 for `__m128` (TF:77-80) and `__m256`
(TF:138-141), 2 for `__m128d` (TF:97-100) and `__m256d` (TF:153-156) -/
def copied (c : Cfg) : Nat := if c.T.bytes = 4 then 4 else 2
/-- `native_bit_cast<native_type>(buff)` of an array of elements: floating-point vectors TF:74-80, 94-100, 135-141, 150-156, the elements
beyond the copied ones stay zero; integer vectors (TF:110-116, 165-171) are bit casts of the whole array. -/
def castVec (c : Cfg) (buff : Nat → BitVec c.w) : Vec c.v :=
  if c.T.flt then ofLanes c.v.bits c.w (fun k => if k < copied c then buff k else 0#c.w) else ofLanes c.v.bits c.w buff
/-- `native_bit_cast<native_type>(buff)` of an array of mask elements `basic_mask<I>`: for integer types the bits of the array; for
floating-point types each element is assigned to a `float`/`double`, which converts it to `bool` (AL:23) and then to 0 or 1. -/
def castMask (c : Cfg) (buff : Nat → BitVec c.w) : Vec c.v :=
  if c.T.flt then castVec c (fun k => if buff k ≠ 0#c.w then oneBits c.w else 0#c.w) else castVec c buff
/-- `simd(U value)` (X:588-594) -/
def vbroadcast (c : Cfg) (x : BitVec c.w) (junk : c.Data) : c.Data :=
  let buff := forRange c.e (fun k (buf : Mem (BitVec c.w)) => buf.set k x) (fun _ => 0#c.w)
  forRange c.dataSize (fun j d => d.set j (castVec c buff)) junk
/-- `simd(G &&gen)` (X:611-621) -/
def vgenerate (c : Cfg) (gen : Nat → BitVec c.w) (junk : c.Data) : c.Data :=
  forStride c.N c.e (fun i j d =>
    let buff := forRange c.e (fun k (buf : Mem (BitVec c.w)) =>
      if i + k < c.N then buf.set k (gen (i + k)) else buf) (fun _ => 0#c.w)
    d.set j (castVec c buff)) junk
/-- `simd_mask(bool)` (X:92-97) -/
def maskBool (c : Cfg) (b : Bool) (junk : c.Data) : c.Data :=
  let buff := forRange c.e (fun k (buf : Mem (BitVec c.w)) => buf.set k (extendBool c.w b)) (fun _ => 0#c.w)
  forRange c.dataSize (fun j d => d.set j (castMask c buff)) junk
/-- `simd_mask(G &&gen)` (X:114-124) -/
def maskGen (c : Cfg) (gen : Nat → Bool) (junk : c.Data) : c.Data :=
  forStride c.N c.e (fun i j d =>
    let buff := forRange c.e (fun k (buf : Mem (BitVec c.w)) =>
      if i + k < c.N then buf.set k (extendBool c.w (gen (i + k))) else buf) (fun _ => 0#c.w)
    d.set j (castMask c buff)) junk
end Dpm.X86.Msvc
