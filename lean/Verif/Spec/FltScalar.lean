import Verif.Model.Generic
import Verif.Spec.Ieee
/-
The scalar operators of `float` and `double`: IEEE 754 arithmetic (Spec/Ieee.lean).  Operators these types do not have are never called
on them.  Nothing here is taken from dpm.
-/
namespace Dpm.GenericMath
open Dpm Dpm.Generic

/-- the two floating-point element types with the IEEE operators -/
def fpScalar (w : Nat) : Scalar (BitVec w) where
  zero := 0
  one := Fp.ofInt w 1
  add := fun x y => some (Fp.fadd x y)
  sub := fun x y => some (Fp.fsub x y)
  mul := fun x y => some (Fp.fmul x y)
  div := fun x y => some (Fp.fdiv x y)
  rem := fun _ _ => none
  band := fun _ _ => none
  bor := fun _ _ => none
  bxor := fun _ _ => none
  neg := fun x => some (x ^^^ BitVec.intMin w)
  bnot := fun _ => none
  shl := fun _ _ => none
  shr := fun _ _ => none
  shlN := fun _ _ => none
  shrN := fun _ _ => none
  eq := fun x y => Fp.eq x y
  ne := fun x y => !Fp.eq x y
  lt := fun x y => Fp.lt x y
  le := fun x y => Fp.le x y
  gt := fun x y => Fp.lt y x
  ge := fun x y => Fp.le y x
  lnot := fun x => Fp.isZero x

end Dpm.GenericMath
