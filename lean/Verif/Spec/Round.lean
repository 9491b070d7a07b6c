import Verif.Spec.Ieee
/-
What ceil, floor, trunc, rint and round promise (ISO C 7.12.9, IEEE 754): for finite `x` the integral value chosen by the relation
`R` (`IsCeil`, `IsFloor`, `IsTrunc`, `IsRint`, `IsRoundAway` of Spec/Ieee.lean, stated on exact values), with the sign of `x`, also for zero
results; infinities unchanged; NaN for NaN.  `2^unitExp` is 1.0 in units of the smallest subnormal.
-/
namespace Dpm.Fp

/-- the value of `r` is the value of `x` rounded by `R` to an integer -/
def RoundsVal (R : Int → Int → Int → Prop) {w : Nat} (x r : BitVec w) : Prop :=
  isFinite r = true ∧ ∃ z : Int, R (val x) (2 ^ unitExp w : Nat) z ∧ val r = z * (2 ^ unitExp w : Nat)
structure IsRoundFn (R : Int → Int → Int → Prop) {w : Nat} (x r : BitVec w) : Prop where
  fin : isFinite x = true → RoundsVal R x r
  sign : isFinite x = true → r.msb = x.msb
  inf : isInf x = true → r = x
  nan : isNaN x = true → isNaN r = true

end Dpm.Fp
