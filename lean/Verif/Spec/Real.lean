import Mathlib.Data.Real.Basic
import Mathlib.Algebra.BigOperators.Group.Finset.Basic
import Verif.Spec.Ieee
/-
Real numbers denoted by floating-point patterns.  Nothing here is taken from dpm.
-/
namespace Dpm.Fp
/-- the real number a finite pattern denotes -/
noncomputable def rv {w : Nat} (x : BitVec w) : ℝ := (val x : ℝ) / 2 ^ unitExp w
/-- half a unit in the last place of 1.0: the largest relative rounding error (`2^-24`, `2^-53`) -/
noncomputable def ulpHalf (w : Nat) : ℝ := 1 / 2 ^ (mb w + 1)
/-- half the smallest subnormal: the largest rounding error below the normal range (`2^-150`, `2^-1075`) -/
noncomputable def tiny (w : Nat) : ℝ := 1 / 2 ^ (unitExp w + 1)
/-- the largest finite number -/
noncomputable def maxVal (w : Nat) : ℝ := 2 ^ (bias w + 1) * (1 - ulpHalf w)
/-- the finite pattern `r` is nearest to the real number `s`; of two nearest ones it is the even one -/
def IsNearestReal {w : Nat} (s : ℝ) (r : BitVec w) : Prop :=
  isFinite r = true ∧ ∀ y : BitVec w, isFinite y = true → |rv r - s| ≤ |rv y - s| ∧ (rv y ≠ rv r → |rv r - s| = |rv y - s| → mag r % 2 = 0)
/-- `c[0] x^(n-1) + c[1] x^(n-2) + ... + c[n-1]` -/
noncomputable def polyval (c : Nat → ℝ) (n : Nat) (x : ℝ) : ℝ := ∑ k ∈ Finset.range n, c k * x ^ (n - 1 - k)
end Dpm.Fp
