import Verif.Spec.Mbase
/-
The results IEEE 754 requires of `+`, `-`, `*`, `/` (round to nearest even) for every pair of operands, NaNs, infinities and zeros
included.  Nothing here is taken from dpm.
-/
namespace Dpm.Fp
/-- `r` is `x + y`, or `x - y` when `sub` -/
def IsIeeeSum (sub : Bool) {w : Nat} (x y r : BitVec w) : Prop :=
  (isNaN x = true ∨ isNaN y = true → isNaN r = true) ∧
  (isNaN x = false → isNaN y = false →
    (isInf x = true → isInf y = true → (x.msb ^^ y.msb ^^ sub) = true → isNaN r = true) ∧
    (isInf x = true → (isInf y = true → (x.msb ^^ y.msb ^^ sub) = false) → r = x) ∧
    (isInf x = false → isInf y = true → isInf r = true ∧ r.msb = (y.msb ^^ sub)) ∧
    (isFinite x = true → isFinite y = true → IsSum false sub x y r))
/-- `r` is `x * y` -/
def IsIeeeProd {w : Nat} (x y r : BitVec w) : Prop :=
  (isNaN x = true ∨ isNaN y = true → isNaN r = true) ∧
  (isNaN x = false → isNaN y = false →
    ((isInf x = true ∧ isZero y = true) ∨ (isZero x = true ∧ isInf y = true) → isNaN r = true) ∧
    ((isInf x = true ∧ isZero y = false) ∨ (isInf y = true ∧ isZero x = false) → isInf r = true ∧ r.msb = (x.msb ^^ y.msb)) ∧
    (isFinite x = true → isFinite y = true → IsProd x y r))
/-- `r` is `x / y` -/
def IsIeeeQuot {w : Nat} (x y r : BitVec w) : Prop :=
  (isNaN x = true ∨ isNaN y = true → isNaN r = true) ∧
  (isNaN x = false → isNaN y = false →
    ((isInf x = true ∧ isInf y = true) ∨ (isZero x = true ∧ isZero y = true) → isNaN r = true) ∧
    ((isInf x = true ∧ isInf y = false) ∨ (isFinite x = true ∧ isZero x = false ∧ isZero y = true) → isInf r = true ∧ r.msb = (x.msb ^^ y.msb)) ∧
    (isInf x = false → isInf y = true → isZero r = true ∧ r.msb = (x.msb ^^ y.msb)) ∧
    (isFinite x = true → isFinite y = true → isZero y = false →
      IsRounded (x.msb ^^ y.msb) ((val x).natAbs * 2 ^ unitExp w) (val y).natAbs r))
end Dpm.Fp
