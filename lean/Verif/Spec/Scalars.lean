import Verif.Model.Operand
/-
When two values of arithmetic types are the same number, and which types hold all values of which.
-/
namespace Dpm.X86
open Dpm.Fp
/-- `x` and `y` are the same number (`val x / 2^unitExp` is the value of a finite pattern); infinities and zeros with the same sign, any two NaNs -/
def SameValue (F T : Ety) (x : BitVec F.w) (y : BitVec T.w) : Prop :=
  if F.flt = true then
    if T.flt = true then
      (isNaN x = true → isNaN y = true) ∧ (isNaN x = false → neg y = neg x) ∧ (isInf x = true → isInf y = true) ∧
      (isFinite x = true → isFinite y = true ∧ val y * 2 ^ unitExp F.w = val x * 2 ^ unitExp T.w)
    else isFinite x = true ∧ val x = T.ity.val y * 2 ^ unitExp F.w
  else
    if T.flt = true then isFinite y = true ∧ val y = F.ity.val x * 2 ^ unitExp T.w
    else T.ity.val y = F.ity.val x
end Dpm.X86
namespace Dpm.Operand
open Dpm.X86
/-- the patterns that are values of the type (`bool` holds only 0 and 1) -/
def CTy.Valid (S : CTy) (x : BitVec S.ety.w) : Prop := S = .bool → x.toNat < 2
/-- every value of `S` is a value of `t` -/
def HoldsAll (S t : CTy) : Prop := ∀ x : BitVec S.ety.w, S.Valid x → ∃ y : BitVec t.ety.w, SameValue S.ety t.ety x y
/-- From which scalars a vector of `t` may be constructed according to the data-parallelism TS (N4808, [parallel.simd.ctor]): from types all
whose values are values of `t`, from `int`, and from `unsigned int` if `t` is unsigned. -/
def TsAllows (S t : CTy) : Prop := HoldsAll S t ∨ S = .int ∨ (S = .uint ∧ t.integral = true ∧ t.ety.signed = false)
end Dpm.Operand
namespace Dpm.X86
/-- every value of element type `F` is a value of element type `T` -/
def HoldsElem (F T : Ety) : Prop := ∀ x : BitVec F.w, ∃ y : BitVec T.w, SameValue F T x y
end Dpm.X86
