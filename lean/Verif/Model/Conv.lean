import Verif.Model.Vector
import Verif.Model.Cvt
import Verif.Spec.FloatCvt
/-
Conversions between vectors of any two backends: the conversion operators, `simd_cast`, `static_simd_cast`,
`to_fixed_size`, `to_native`, `to_compatible` (run-time branches).
X = /repo/dpm/detail/x86/type.hpp, G = /repo/dpm/detail/generic/type.hpp.
-/
namespace Dpm.X86
open Dpm.Reg Dpm.Fp Dpm.Generic

/-- `static_cast<To>(x)` between `float` and `double` (conversion instructions; rounding to nearest even, infinity on
overflow) -/
def fltConv (F T : Ety) (x : BitVec F.w) : BitVec T.w :=
  if F.bytes = T.bytes then x.setWidth T.w
  else if F.bytes = 4 then (widen (x.setWidth 32)).setWidth T.w
  else (narrow (x.setWidth 64)).setWidth T.w
/-- `static_cast<T>(x)` of a scalar of arithmetic type `F`; `none` = undefined behaviour -/
def scalarConv (F T : Ety) (x : BitVec F.w) : Option (BitVec T.w) :=
  if F.flt = false then
    if T.flt = false then some (BitVec.ofInt T.w (F.ity.val x)) else some (ofInt T.w (F.ity.val x))
  else if T.flt = false then castToInt T.ity x
  else some (fltConv F T x)

/-- A vector type: `simd<T, avec<N, A>>` of the x86 backend or `simd<T, Abi>` of the generic one, with `size() == N`. -/
inductive VTy where
  | x86 (c : Cfg)
  | gen (T : Ety) (N : Nat)
namespace VTy
/-- element type -/
@[reducible] def T : VTy → Ety
  | x86 c => c.T
  | gen T _ => T
/-- `size()` -/
@[reducible] def N : VTy → Nat
  | x86 c => c.N
  | gen _ N => N
/-- objects of the type -/
@[reducible] def Obj : VTy → Type
  | x86 c => c.Data
  | gen T N => GSimd (BitVec T.w) N
/-- `x[i]` (X:692-699, G:544-545) -/
def get : (a : VTy) → a.Obj → Nat → BitVec a.T.w
  | x86 c => fun x i => elt c x i
  | gen _ _ => fun x i => GSimd.get x i
/-- an object with value-initialised storage, `= {}` -/
def zero : (a : VTy) → a.Obj
  | x86 c => zeroData c
  | gen T _ => ⟨fun _ => 0#T.w⟩

/-- `copy_to(buff, vector_aligned)` into `std::array<T, size()> buff = {}` (X:659-671) -/
def storeT : (a : VTy) → a.Obj → Out (Mem (BitVec a.T.w))
  | x86 c => fun x => Out.ofUb (copyTo c .vector x c.N (fun _ => 0#c.w))
  | gen T _ => fun x => .ok (GSimd.copyTo x id (fun _ => 0#T.w))
/-- `simd(buff, flags)` = default storage, then `copy_from(buff, flags)`, from `std::array<T, size()>` (X:605, X:645-657;
G:506, G:516-520); `junk` is the uninitialised object -/
def loadT : (a : VTy) → Flag → a.Obj → Mem (BitVec a.T.w) → Out a.Obj
  | x86 c => fun f junk mem => Out.ofUb (copyFrom c f junk c.N mem)
  | gen _ _ => fun _ junk mem => .ok (GSimd.copyFrom junk id mem)

/-- an element loop `dst[i] = static_cast<T>(src[i])` over `i < n` of the conversion operators; undefined if one cast is -/
def castLoop (F T : Ety) (n : Nat) (src : Mem (BitVec F.w)) : Option (Mem (BitVec T.w)) :=
  forRangeM n (fun i m => (scalarConv F T (src i)).map (fun y => m.set i y)) (fun _ => 0#T.w)
/-- `copy_from(const F *mem, element_aligned)` from an array of `size()` elements of another type: the element loops X:656
and G:518-519 -/
def loadConv (F : Ety) : (a : VTy) → a.Obj → Mem (BitVec F.w) → Out a.Obj
  | x86 c => fun junk mem => Out.ofUb (forRangeM c.N (fun i d => (scalarConv F c.T (mem i)).map (fun y => setElt c d i y)) junk)
  | gen T N => fun junk mem => Out.ofUb (forRangeM N (fun i d => (scalarConv F T (mem i)).map (fun y => GSimd.setAt d i y)) junk)
/-- `copy_to(U *mem, vector_aligned)` into an (uninitialised) array of `size()` elements of type `U` (X:659-671, G:523-527).
x86 vectors use the native conversion if the element sizes agree. -/
def storeConv (U : Ety) : (a : VTy) → a.Obj → Mem (BitVec U.w) → Out (Mem (BitVec U.w))
  | x86 c => fun x mem =>
    if U.bytes = c.T.bytes then copyToAs c U .vector x c.N mem
    else Out.ofUb (forRangeM c.N (fun i m => (scalarConv c.T U (elt c x i)).map (fun y => m.set i y)) mem)
  | gen T N => fun x mem => Out.ofUb (forRangeM N (fun i m => (scalarConv T U (GSimd.get x i)).map (fun y => m.set i y)) mem)

/-- The conversion operator `operator simd<U, OtherAbi>()` (X:623-642, G:511-512), also `to_fixed_size`, `to_native` and
`to_compatible` (G:1148-1156, `return {x}`).  x86: with the same element type through one `std::array<T, size()>`, else
through two of them and a loop of `static_cast`s, always with `vector_aligned`.  Generic: the target is constructed from the
storage with `element_aligned`.  `junk` is the storage of the result before it is written. -/
def convert (a b : VTy) (junk : b.Obj) (x : a.Obj) : Out b.Obj :=
  match a, x with
  | .x86 c, x =>
    ((VTy.x86 c).storeT x).bind fun buff_a =>
      if h : c.T = b.T then b.loadT .vector junk (fun i => (buff_a i).cast (by show c.T.w = _; rw [h]))
      else (Out.ofUb (castLoop c.T b.T c.N buff_a)).bind fun buff_b => b.loadT .vector junk buff_b
  | .gen T N, x => loadConv T b junk (GSimd.data (N := N) x)
/-- How the argument and result types of a cast are related. -/
inductive SameTy (a b : VTy) where
  | same (h : a = b)
  | differ
/-- `simd_cast<T>(x)`, `static_simd_cast<T>(x)` (G:1131-1144) with `detail::copy_cast` (G:106-121): `to = from` for the same
type, else through an uninitialised `std::array<To, size()>` and `vector_aligned`.  `junk` is the array before it is
written.  (The two casts differ in their result types only.) -/
def castTo (a b : VTy) (s : SameTy a b) (junk : Mem (BitVec b.T.w)) (x : a.Obj) : Out b.Obj :=
  match s with
  | .same h => .ok (h ▸ x)
  | .differ => (a.storeConv b.T x junk).bind fun buff => b.loadT .vector b.zero buff
end VTy
end Dpm.X86
