import Verif.Spec.Ieee
/-
Specification of the floating-point manipulation functions (ISO C 7.12.6) on exact values.
`val x` is the value of `x` in units of the smallest subnormal, `2^unitExp` the number of units in 1.0.
-/
namespace Dpm.Fp

/-- `x = m * 2^e` -/
def Scaled (x m e : Int) : Prop := x * (2 ^ (-e).toNat : Nat) = m * (2 ^ e.toNat : Nat)
/-- `1/2 <= |m| < 1` -/
def IsFraction {w : Nat} (m : BitVec w) : Prop :=
  isFinite m = true ∧ 2 ^ (unitExp w - 1) ≤ (val m).natAbs ∧ (val m).natAbs < 2 ^ unitExp w
/-- `e = floor(log2 |x|)`: `2^e <= |x| < 2^(e+1)` -/
def IsExponent {w : Nat} (x : BitVec w) (e : Int) : Prop :=
  2 ^ (e + unitExp w).toNat ≤ (val x).natAbs ∧ (val x).natAbs < 2 ^ ((e + unitExp w).toNat + 1) ∧ 0 ≤ e + unitExp w
/-- `r` is `x * 2^n` correctly rounded (numerator and denominator of the exact value) -/
def IsScalbn {w : Nat} (x : BitVec w) (n : Int) (r : BitVec w) : Prop :=
  IsRounded x.msb ((val x).natAbs * 2 ^ n.toNat) (2 ^ (-n).toNat) r

/-- what `scalbn(x, n)` promises: correct rounding for finite `x`, infinities unchanged, NaN for NaN -/
structure IsScalbnResult {w : Nat} (x : BitVec w) (n : Int) (r : BitVec w) : Prop where
  fin : isFinite x = true → IsScalbn x n r
  inf : isInf x = true → r = x
  nan : isNaN x = true → isNaN r = true

/-- `modf`: integral part `i` and fraction `f`, both with the sign of `x` -/
structure IsModf {w : Nat} (x f i : BitVec w) : Prop where
  finF : isFinite f = true
  finI : isFinite i = true
  integral : (2 ^ unitExp w : Int) ∣ val i
  sum : val i + val f = val x
  frac : (val f).natAbs < 2 ^ unitExp w
  signF : f.msb = x.msb
  signI : i.msb = x.msb

end Dpm.Fp
