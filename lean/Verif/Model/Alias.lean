import Verif.Model.Trig
import Verif.Model.GenericMath
/-
The traversal of native vectors with any number of operands, and the functions with output parameters, on a memory of vector objects: operands
are object names, so that an output may be the same object as an input.
X = dpm/detail/x86/type.hpp, TR = dpm/detail/x86/trig.hpp, FM = dpm/detail/x86/fmanip.hpp, MF = dpm/detail/x86/math_fwd.hpp,
GM = dpm/detail/generic/math.hpp.
-/
namespace Dpm
/-- memory holding objects of type `D`, by name -/
abbrev Objs (D : Type) := Nat → D
/-- assignment to an object -/
def Objs.put {D : Type} (st : Objs D) (o : Nat) (d : D) : Objs D := fun p => if p = o then d else st p
end Dpm
namespace Dpm.X86
open Dpm.Reg Dpm.Generic Dpm.GenericMath

/-- `detail::vectorize(f, v, vs...)` (X:53-58) for operands given by name: `f` gets (references to) the `i`-th native vectors of all operands;
it is a function from the `i`-th native vectors of all objects to their new contents. -/
def vectorizeN (c : Cfg) (f : Objs (Vec c.v) → Objs (Vec c.v)) (st : Objs c.Data) : Objs c.Data :=
  forRange c.dataSize (fun i st => fun o => (st o).set i (f (fun p => st p i) o)) st
/-- the same with a kernel that may be undefined -/
def vectorizeNM (c : Cfg) (f : Objs (Vec c.v) → Option (Objs (Vec c.v))) (st : Objs c.Data) : Option (Objs c.Data) :=
  forRangeM c.dataSize (fun i st => (f (fun p => st p i)).map (fun r => fun o => (st o).set i (r o))) st

/-- `ext::sincos(x, out_sin, out_cos)` on objects (TR:266-283, run-time branch): the kernel takes `x` by value, `vec2_call` (MF:28-69) writes
the cosine, then the sine is assigned (TR:81-107). -/
def sincosObj (c : Cfg) (L : Libm) (o : MathOpt) (fm : Bool) (x s k : Nat) (st : Objs c.Data) : Objs c.Data :=
  vectorizeN c (fun cells =>
    let y := implSincos (fun x => (L.sincos x).1) (fun x => (L.sincos x).2) o c.s fm c.T c.v (cells x)
    (cells.put k y.2).put s y.1) st
/-- `modf(x, out_i)` (FM:272-291): `r` is the object of the returned vector, created inside the function. -/
def modfObj (c : Cfg) (o : MathOpt) (r x i : Nat) (st : Objs c.Data) : Option (Objs c.Data) :=
  vectorizeNM c (fun cells => (modfV o c.s c.T c.v (cells x)).map (fun p => (cells.put i p.2).put r p.1)) (st.put r (zeroData c))
/-- `ext::sincos(x, out_sin, out_cos)` of generic vectors (GM:650-695) without the compiler builtins (MSVC): two assignments. -/
def gSincosObj {w N : Nat} (L : Cmath w) (x s k : Nat) (st : Objs (GSimd (BitVec w) N)) : Out (Objs (GSimd (BitVec w) N)) :=
  (gFn1 L .sin (st x)).bind fun rs =>
    let st := st.put s rs
    (gFn1 L .cos (st x)).map fun rc => st.put k rc
end Dpm.X86
