import Mathlib.Analysis.SpecialFunctions.Pow.NNReal
import Verif.Spec.Real
/-
What the processor manuals promise of the single-precision approximation instructions RCPPS and RSQRTPS (Intel SDM volume 2): relative
error at most `1.5 * 2^-12`, subnormal operands treated as zeros, tiny results flushed to zero.  Any function that keeps these promises
may be the instruction.  Nothing here is taken from dpm.
-/
namespace Dpm.Fp
/-- `r` has the sign of `x` and is infinite -/
def InfLike {w : Nat} (x r : BitVec w) : Prop := isInf r = true ∧ r.msb = x.msb
/-- `r` has the sign of `x` and is zero -/
def ZeroLike {w : Nat} (x r : BitVec w) : Prop := isZero r = true ∧ r.msb = x.msb
/-- `r` is a finite number with `r * d = 1` up to the relative error `ε` -/
def Approx {w : Nat} (ε d : ℝ) (r : BitVec w) : Prop := isFinite r = true ∧ |rv r * d - 1| ≤ ε
/-- the error bound of both instructions -/
noncomputable def hwEps : ℝ := 3 / 2 ^ 13

/-- `f` behaves as RCPPS on one 32-bit lane. -/
structure RcpHw {w : Nat} (f : BitVec w → BitVec w) : Prop where
  nan : ∀ x, isNaN x = true → isNaN (f x) = true
  zero : ∀ x, isZero x = true ∨ isSubnormal x = true → InfLike x (f x)
  inf : ∀ x, isInf x = true → ZeroLike x (f x)
  /-- up to 1.11111111110100000000000b * 2^125 -/
  normal : ∀ x, isNormal x = true → |rv x| ≤ 2 ^ 126 - 3 * 2 ^ 113 → Approx hwEps (rv x) (f x)
  between : ∀ x, isNormal x = true → Approx hwEps (rv x) (f x) ∨ ZeroLike x (f x)
  /-- from 1.00000000000110000000001b * 2^126 -/
  huge : ∀ x, isNormal x = true → 2 ^ 126 + 3 * 2 ^ 113 + 2 ^ 103 ≤ |rv x| → ZeroLike x (f x)

/-- `f` behaves as RSQRTPS on one 32-bit lane. -/
structure RsqrtHw {w : Nat} (f : BitVec w → BitVec w) : Prop where
  nan : ∀ x, isNaN x = true → isNaN (f x) = true
  zero : ∀ x, isZero x = true ∨ isSubnormal x = true → InfLike x (f x)
  neg : ∀ x, isNormal x = true ∨ isInf x = true → x.msb = true → isNaN (f x) = true
  inf : ∀ x, isInf x = true → x.msb = false → ZeroLike x (f x)
  normal : ∀ x, isNormal x = true → x.msb = false → Approx hwEps (Real.sqrt (rv x)) (f x)
end Dpm.Fp
