import Verif.Spec.Ieee
import Verif.Model.NativeInt
/-
What `static_cast<T>(x)` of arithmetic types means in C++20 ([conv.integral], [conv.fpint], [conv.double]).
-/
namespace Dpm.X86
open Dpm.Fp

/-- `y` is `x` converted to the other floating-point format: the correctly rounded value; infinities and NaNs are kept -/
def IsFltCast {w v : Nat} (x : BitVec w) (y : BitVec v) : Prop :=
  if w = v then y.toNat = x.toNat
  else
    (isNaN x = true → isNaN y = true) ∧ (isInf x = true → isInf y = true ∧ neg y = neg x) ∧
    (isFinite x = true → IsRounded (neg x) ((val x).natAbs * 2 ^ (unitExp v - unitExp w)) (2 ^ (unitExp w - unitExp v)) y)
/-- `y` is the result of `static_cast<T>(x)` -/
def IsCast (F T : Ety) (x : BitVec F.w) (y : BitVec T.w) : Prop :=
  if F.flt = true then
    if T.flt = true then IsFltCast x y
    else isFinite x = true ∧ IsTrunc (val x) (2 ^ unitExp F.w : Nat) (T.ity.val y)
  else
    if T.flt = true then IsRounded (decide (F.ity.val x < 0)) ((F.ity.val x).natAbs * 2 ^ unitExp T.w) 1 y
    else ∃ k : Int, T.ity.val y = F.ity.val x + k * 2 ^ T.w
/-- The cast is defined: a floating-point value may be converted to an integer type only if it is finite and its truncated
value is representable. -/
def CastDefined (F T : Ety) (x : BitVec F.w) : Prop :=
  F.flt = true → T.flt = false → isFinite x = true ∧ ∃ z : Int, IsTrunc (val x) (2 ^ unitExp F.w : Nat) z ∧ T.ity.fits z = true
end Dpm.X86
