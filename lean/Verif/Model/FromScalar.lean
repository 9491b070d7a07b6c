import Verif.Model.Operand
import Verif.Model.Conv
/-
Construction of vectors from a scalar of any arithmetic type.  T = /repo/dpm/traits.hpp, G = /repo/dpm/detail/generic/type.hpp,
X = /repo/dpm/detail/x86/type.hpp.  Elements of type `bool` are not considered.
-/
namespace Dpm.Operand
open Dpm Dpm.Reg Dpm.Generic Dpm.X86
/-- `std::is_convertible_v<S, T>` of arithmetic types: any two of them convert to each other [conv.integral, conv.double, conv.fpint, conv.bool] -/
def convertible (_S _t : CTy) : Bool := true
/-- `compatible_element<U, T>` with `From = S` (T:29-30) -/
def compatible (S t : CTy) : Bool :=
  (t.integral && !t.ety.signed && decide (S = .uint)) || decide (S = .int) || convertible S t
/-- `simd(U &&value)` (G:498-500): `fill_n` of `static_cast<value_type>(value)` -/
def gFromScalar (t : CTy) (N : Nat) (junk : Mem (BitVec t.ety.w)) (S : CTy) (x : BitVec S.ety.w) : Out (GSimd (BitVec t.ety.w) N) :=
  if compatible S t then Out.ofUb ((scalarConv S.ety t.ety x).map fun y => GSimd.fill junk y) else .illFormed
/-- `simd(U value)` (X:587-594): one register filled with `static_cast<value_type>(value)`, then every register with that one -/
def xFromScalar (s : ISA) (t : CTy) (N : Nat) (v : VSz) (junk : (cfgOf s t N v).Data) (S : CTy) (x : BitVec S.ety.w) : Out (cfgOf s t N v).Data :=
  if compatible S t then Out.ofUb ((scalarConv S.ety t.ety x).map fun y => vbroadcast (cfgOf s t N v) y junk) else .illFormed
/-- the values of a generator returning `S`, cast to the element type; undefined if one cast is -/
def castAll (t : CTy) (N : Nat) (S : CTy) (gen : Nat → BitVec S.ety.w) (m : Mem (BitVec t.ety.w)) : Option (Mem (BitVec t.ety.w)) :=
  forRangeM N (fun i m => (scalarConv S.ety t.ety (gen i)).map fun y => m.set i y) m
/-- `simd(G &&gen)` (G:501-503) for a generator whose calls return `S` (`valid_generator`, T:32-41, asks for `compatible_element` of the result);
`generate_n` (G:82-90) stores them with the implicit conversion.  Generators that convert to the element type themselves are C86. -/
def gFromGen (t : CTy) (N : Nat) (junk : Mem (BitVec t.ety.w)) (S : CTy) (gen : Nat → BitVec S.ety.w) : Out (GSimd (BitVec t.ety.w) N) :=
  if compatible S t then Out.ofUb ((castAll t N S gen junk).map fun m => ⟨m⟩) else .illFormed
/-- `simd(G &&gen)` (X:611-621) with `static_cast<T>(std::invoke(gen, i + k))`; the calls and casts are collected first, in the same order -/
def xFromGen (s : ISA) (t : CTy) (N : Nat) (v : VSz) (junk : (cfgOf s t N v).Data) (S : CTy) (gen : Nat → BitVec S.ety.w) : Out (cfgOf s t N v).Data :=
  if compatible S t then Out.ofUb ((castAll t N S gen (fun _ => 0#t.ety.w)).map fun m => vgenerate (cfgOf s t N v) m junk) else .illFormed
end Dpm.Operand
namespace Dpm.X86
/-- Is `simd<U, B> y = x` (copy initialisation, `x` a vector of `T`) well-formed?  The conversion operators (X:623-624, G:510-511) need equal sizes and
are `explicit(!std::convertible_to<T, U>)`; any two arithmetic types convert. -/
def implicitConv (a b : VTy) : Bool := decide (a.N = b.N) && !(!true)
/-- `simd<U, B> y = x` -/
def initFrom (a b : VTy) (junk : b.Obj) (x : a.Obj) : Out b.Obj := if implicitConv a b then VTy.convert a b junk x else .illFormed
end Dpm.X86
