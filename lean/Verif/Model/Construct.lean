import Verif.Model.Mask
import Verif.Model.Vector
import Verif.Model.Generic
/-
Which constructor a vector or mask built from one callable object uses, and what it makes of it.
G = /repo/dpm/detail/generic/type.hpp, X = /repo/dpm/detail/x86/type.hpp, TR = /repo/dpm/traits.hpp.
The candidates with one parameter are the broadcast constructor (masks: `simd_mask(bool)`, G:197, X:92; vectors: a template constrained by
`compatible_element`, G:499, X:588) and the generator constructor (a template constrained by `element_generator`, G:200-201, G:502-503, X:114,
X:611).  Not candidates for a callable: the constructors from native vectors (X:100-104, X:597-601), since nothing callable converts to them
(classes with call operators and conversion functions of their own are not modelled).
-/
namespace Dpm.Construct
open Dpm Dpm.Reg Dpm.Generic Dpm.X86

/-- what a C++ callable is -/
inductive CallKind where
  /-- a function, or a pointer or reference to one -/
  | function
  /-- a lambda expression: does it start with `[]` (captures nothing, no capture-default)?  Has it an `auto` parameter? -/
  | lambda (captureless generic : Bool)
  /-- an object of a class with a call operator and without implicit conversion functions, such as `std::function` (whose conversion to `bool`
  is explicit) -/
  | functor
deriving DecidableEq
/-- A generator: `val i` is the result of calling it for element `i`, converted to the element type.  `needsConst`: its body uses the argument as
a constant (`if constexpr (i() < 4)`, `std::get<i()>(t)`, ..), which the argument `std::integral_constant<std::size_t, i>` allows and one of type
`std::size_t` does not. -/
structure Callable (α : Type) where
  kind : CallKind
  needsConst : Bool
  val : Nat → α
/-- only a template can use its argument as a constant -/
def Callable.Ok {α : Type} (f : Callable α) : Prop :=
  f.needsConst = true → (∃ b, f.kind = .lambda b true) ∨ f.kind = .functor

/-- how an object converts to `bool` implicitly -/
inductive Conv where
  | none
  | standard
  | userDefined
deriving DecidableEq
/-- The implicit conversion to `bool`.  Functions and pointers: [conv.func], [conv.bool], a standard conversion, which gives `true`.  Closure
objects without captures and without `auto`: the conversion function to a pointer [expr.prim.lambda.closure], then [conv.bool].  The conversion
function template of a generic lambda is not used, since `bool` is not a pointer type [temp.deduct.conv]. -/
def CallKind.toBool : CallKind → Conv
  | .function => .standard
  | .lambda true false => .userDefined
  | .lambda _ _ => .none
  | .functor => .none
/-- `std::is_convertible_v<F, T>` for `T = bool` and for the element types of vectors: pointers do not convert to other arithmetic types -/
def isConvertible (k : CallKind) (isBool : Bool) : Bool := isBool && decide (k.toBool ≠ .none)
/-- `detail::compatible_element<F, T>` (TR:30-31); `F` is neither `int` nor `unsigned int` -/
def compatibleElement (k : CallKind) (isBool : Bool) : Bool := isConvertible k isBool
/-- `detail::element_generator<F, T, N>` (TR:33-43).  The calls of `valid_generator` are well formed, since they pass integral constants, and
their results are compatible with the element type. -/
def elementGenerator (k : CallKind) (isBool : Bool) : Bool := !compatibleElement k isBool

/-- the form of the initialisation: `V v(f)` or `V v = f` (also passing `f` as an argument of type `V`, returning it) -/
inductive Init where
  | direct
  | copy
deriving DecidableEq
/-- the constructor overload resolution selects -/
inductive Ctor where
  | broadcast
  | generator
deriving DecidableEq
/-- Masks: `simd_mask(bool)` is viable if there is a conversion to `bool`; in a copy-initialisation, where the constructor is itself the
user-defined conversion, only a standard one [over.best.ics]/4.  The generator constructor is viable if its constraint holds. -/
def maskCtor (i : Init) (k : CallKind) : Option Ctor :=
  if elementGenerator k true then some .generator
  else match k.toBool, i with
    | .none, _ => none
    | .standard, _ => some .broadcast
    | .userDefined, .direct => some .broadcast
    | .userDefined, .copy => none
/-- Vectors: both constructors are templates, and their constraints exclude each other. -/
def vecCtor (k : CallKind) : Option Ctor :=
  if elementGenerator k false then some .generator else if compatibleElement k false then some .broadcast else none

section generic
variable {N : Nat}
/-- a generic mask from a callable (G:197, G:200-201; the calls of `generate_n`, G:82-90, pass integral constants) -/
def gMask (i : Init) (f : Callable Bool) (junk : Mem Bool) : Out (GMask N) :=
  match maskCtor i f.kind with
  | some .generator => .ok (GSimd.generate junk f.val)
  | some .broadcast => .ok (GSimd.fill junk true)
  | none => .illFormed
/-- a generic vector from a callable (G:499, G:502-503); the broadcast is never selected -/
def gVec {α : Type} (f : Callable α) (junk : Mem α) : Out (GSimd α N) :=
  match vecCtor f.kind with
  | some .generator => .ok (GSimd.generate junk f.val)
  | _ => .illFormed
end generic

section x86
variable (c : Cfg)
/-- an x86 mask from a callable (X:92-97, X:114-124; the generator is called with `i + k`, a `std::size_t`) -/
def xMask (i : Init) (f : Callable Bool) (junk : c.Data) : Out c.Data :=
  match maskCtor i f.kind with
  | some .generator => if f.needsConst then .illFormed else .ok (Mask.ofGen c f.val junk)
  | some .broadcast => .ok (Mask.ofBool c true junk)
  | none => .illFormed
/-- an x86 vector from a callable (X:588-594, X:611-621; likewise) -/
def xVec (f : Callable (BitVec c.w)) (junk : c.Data) : Out c.Data :=
  match vecCtor f.kind with
  | some .generator => if f.needsConst then .illFormed else .ok (vgenerate c f.val junk)
  | _ => .illFormed
end x86
end Dpm.Construct
