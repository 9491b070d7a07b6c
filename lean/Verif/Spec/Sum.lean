import Verif.Spec.Real
import Mathlib.Algebra.BigOperators.Group.Finset.Basic
/-
Specification: sums and dot products of floating-point numbers up to rounding errors (C79, C80).
-/
namespace Dpm.X86
open Dpm.Fp
/-- `r` is the sum of `n` floating-point numbers up to the rounding errors of `n - 1` additions: if the result is finite, so are all of them
and the error is at most `((1 + u)^(n-1) - 1) * sum |y_j|`, with `u = 2^-24` or `2^-53`; if all are finite and `(1 + u)^(n-1) * sum |y_j|` does
not exceed the largest finite number, the result is finite. -/
def IsSumOf {w : Nat} (n : Nat) (y : Nat → BitVec w) (r : BitVec w) : Prop :=
  (isFinite r = true → (∀ j, j < n → isFinite (y j) = true) ∧
    |rv r - ∑ j ∈ Finset.range n, rv (y j)| ≤ ((1 + ulpHalf w) ^ (n - 1) - 1) * ∑ j ∈ Finset.range n, |rv (y j)|) ∧
  ((∀ j, j < n → isFinite (y j) = true) → (1 + ulpHalf w) ^ (n - 1) * ∑ j ∈ Finset.range n, |rv (y j)| ≤ maxVal w → isFinite r = true)
/-- `r` is the dot product of `x_0 .. x_(n-1)` and `z_0 .. z_(n-1)` up to the rounding errors of `n` multiplications and `n - 1` additions:
the error of a finite result is at most `((1 + u)^n - 1) * sum |x_j z_j| + (1 + u)^(n-1) * n * t` with `t` half the smallest subnormal; the
result is finite if all numbers are and the sum of that bound and `sum |x_j z_j|` does not exceed the largest finite number. -/
def IsDotOf {w : Nat} (n : Nat) (x z : Nat → BitVec w) (r : BitVec w) : Prop :=
  (isFinite r = true → (∀ j, j < n → isFinite (x j) = true ∧ isFinite (z j) = true) ∧
    |rv r - ∑ j ∈ Finset.range n, rv (x j) * rv (z j)| ≤
      ((1 + ulpHalf w) ^ n - 1) * ∑ j ∈ Finset.range n, |rv (x j) * rv (z j)| + (1 + ulpHalf w) ^ (n - 1) * (n * tiny w)) ∧
  ((∀ j, j < n → isFinite (x j) = true ∧ isFinite (z j) = true) →
    (1 + ulpHalf w) ^ n * ∑ j ∈ Finset.range n, |rv (x j) * rv (z j)| + (1 + ulpHalf w) ^ (n - 1) * (n * tiny w) ≤ maxVal w → isFinite r = true)
end Dpm.X86
