import Verif.Model.Vector
/-
Specification vocabulary for API calls on x86 vectors.  A vector is observed only through
`operator[]` at indices below `size()` (`elt`), a mask only through `operator[]` converted to bool (`mget`).
-/
namespace Dpm.X86
open Dpm.Reg

/-- The call compiles, is defined, and element `i` of its result is `f i` for every `i < size()`. -/
def Yields (c : Cfg) (out : Out c.Data) (f : Nat → BitVec c.w) : Prop :=
  ∃ r, out = .ok r ∧ ∀ i, i < c.N → elt c r i = f i
/-- `f i` is the scalar expression for element `i`, `none` where it is undefined: whenever it is defined
for all elements, the call compiles, is defined and gives these values. -/
def YieldsIfDefined (c : Cfg) (out : Out c.Data) (f : Nat → Option (BitVec c.w)) : Prop :=
  (∀ i, i < c.N → f i ≠ none) → ∃ r, out = .ok r ∧ ∀ i, i < c.N → f i = some (elt c r i)
/-- The call returns a mask whose element `i` is `p i`, stored as all ones or all zeros. -/
def YieldsMask (c : Cfg) (out : Out c.Data) (p : Nat → Bool) : Prop :=
  ∃ r, out = .ok r ∧ ∀ i, i < c.N → mget c r i = p i ∧ elt c r i = laneMask c.w (p i)

/-- `x + y`, `x - y`, `x * y`, `-x` computed exactly and reduced modulo `2^w`. -/
def modAdd (t : IntTy) (x y : BitVec t.bits) : BitVec t.bits := BitVec.ofInt _ (t.val x + t.val y)
def modSub (t : IntTy) (x y : BitVec t.bits) : BitVec t.bits := BitVec.ofInt _ (t.val x - t.val y)
def modMul (t : IntTy) (x y : BitVec t.bits) : BitVec t.bits := BitVec.ofInt _ (t.val x * t.val y)
def modNeg (t : IntTy) (x : BitVec t.bits) : BitVec t.bits := BitVec.ofInt _ (- t.val x)
/-- `|x|` modulo `2^w` -/
def modAbs (t : IntTy) (x : BitVec t.bits) : BitVec t.bits := BitVec.ofInt _ (if t.val x < 0 then - t.val x else t.val x)
/-- the smaller / larger of two lanes -/
def isMin (t : IntTy) (x y r : BitVec t.bits) : Prop := (r = x ∨ r = y) ∧ t.val r ≤ t.val x ∧ t.val r ≤ t.val y
def isMax (t : IntTy) (x y r : BitVec t.bits) : Prop := (r = x ∨ r = y) ∧ t.val x ≤ t.val r ∧ t.val y ≤ t.val r
/-- `x` moved into `[lo, hi]` -/
def isClamp (t : IntTy) (x lo hi r : BitVec t.bits) : Prop :=
  (t.val x < t.val lo → r = lo) ∧ (t.val hi < t.val x → r = hi) ∧ (t.val lo ≤ t.val x → t.val x ≤ t.val hi → r = x)

end Dpm.X86
