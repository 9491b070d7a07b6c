import Verif.Spec.Ieee
/-
Floating-point exceptions (IEEE 754-2008, clause 7; C17 Annex F) of single operations.  Nothing here is taken from dpm.
-/
namespace Dpm.Fp

inductive Exc | invalid | divByZero | overflow | underflow | inexact
  deriving DecidableEq, Repr
/-- Operations of the arithmetic unit.  `cmpS` is a comparison that signals on every NaN (C: `<`, `<=`, `>`, `>=`), `cmpQ` one that signals on
signalling NaNs only (C: `==`, `!=`, `isgreater`, .. , `isunordered`).  `rndX` rounds `x` to an integer and signals inexact (C: `rint`), `rndN` does
not (C: `nearbyint`); `sqrt` is the square root; the second operand of these three is ignored.  `minmax` are MINPS, MAXPS and their
relatives: comparisons that select an operand. -/
inductive FOpc | add | sub | mul | div | cmpS | cmpQ | rndX | rndN | minmax | sqrt
  deriving DecidableEq, Repr

/-- a NaN whose most significant significand bit is clear -/
def isSNaN {w : Nat} (x : BitVec w) : Bool := isNaN x && decide (manF x < 2 ^ (mb w - 1))
/-- 7.2: when an operation signals invalid -/
def signalsInvalid {w : Nat} : FOpc → BitVec w → BitVec w → Bool
  | .add, x, y => isSNaN x || isSNaN y || (isInf x && isInf y && (neg x != neg y))
  | .sub, x, y => isSNaN x || isSNaN y || (isInf x && isInf y && (neg x == neg y))
  | .mul, x, y => isSNaN x || isSNaN y || (isZero x && isInf y) || (isInf x && isZero y)
  | .div, x, y => isSNaN x || isSNaN y || (isZero x && isZero y) || (isInf x && isInf y)
  | .cmpS, x, y => isNaN x || isNaN y
  | .cmpQ, x, y => isSNaN x || isSNaN y
  | .rndX, x, _ | .rndN, x, _ => isSNaN x
  | .minmax, x, y => isNaN x || isNaN y
  | .sqrt, x, _ => isSNaN x || (!isNaN x && !isZero x && neg x)
/-- 7.3: division of a finite non-zero number by zero -/
def signalsDivByZero {w : Nat} : FOpc → BitVec w → BitVec w → Bool
  | .div, x, y => isFinite x && !isZero x && isZero y
  | _, _, _ => false

/-- Which exceptions an arithmetic unit signals for which operands. -/
abbrev FlagSem := (w : Nat) → FOpc → BitVec w → BitVec w → Exc → Prop
/-- The unit conforms to IEEE 754.  Overflow, underflow and the inexactness of products and quotients depend on the rounding direction and stay
open: theorems hold whatever they are. -/
structure Conforms (F : FlagSem) : Prop where
  invalid : ∀ (w : Nat) (o : FOpc) (x y : BitVec w), F w o x y .invalid ↔ signalsInvalid o x y = true
  divByZero : ∀ (w : Nat) (o : FOpc) (x y : BitVec w), F w o x y .divByZero ↔ signalsDivByZero o x y = true
  /-- 7.6: a finite sum or difference that no finite number equals -/
  addInexact : ∀ (w : Nat) (x y : BitVec w), isFinite x = true → isFinite y = true →
    (F w .add x y .inexact ↔ ∀ z : BitVec w, isFinite z = true → val z ≠ val x + val y)
  subInexact : ∀ (w : Nat) (x y : BitVec w), isFinite x = true → isFinite y = true →
    (F w .sub x y .inexact ↔ ∀ z : BitVec w, isFinite z = true → val z ≠ val x - val y)
  rndX : ∀ (w : Nat) (x y : BitVec w), F w .rndX x y .inexact ↔ isFinite x = true ∧ ¬ (2 : Int) ^ unitExp w ∣ val x
  rndN : ∀ (w : Nat) (x y : BitVec w), ¬ F w .rndN x y .inexact
  /-- sums, differences and products of two zeros are exact -/
  zeroExact : ∀ (w : Nat) (o : FOpc) (x y : BitVec w) (e : Exc), (o = .add ∨ o = .sub ∨ o = .mul) → isZero x = true → isZero y = true → ¬ F w o x y e
  /-- comparisons signal nothing else -/
  compare : ∀ (w : Nat) (o : FOpc) (x y : BitVec w) (e : Exc), (o = .cmpS ∨ o = .cmpQ) → F w o x y e → e = .invalid
  /-- nor do minimum and maximum -/
  minmax : ∀ (w : Nat) (x y : BitVec w) (e : Exc), F w .minmax x y e → e = .invalid
  /-- the square root of a non-negative number is inexact if no finite number has that square (`val` counts units of the smallest subnormal
  number, 1 is `2 ^ unitExp` of them); nothing else but invalid is signalled -/
  sqrtInexact : ∀ (w : Nat) (x y : BitVec w), isFinite x = true → (neg x = false ∨ isZero x = true) →
    (F w .sqrt x y .inexact ↔ ∀ z : BitVec w, isFinite z = true → val z * val z ≠ val x * 2 ^ unitExp w)
  sqrtOnly : ∀ (w : Nat) (x y : BitVec w) (e : Exc), F w .sqrt x y e → e = .invalid ∨ e = .inexact
  sqrtSpecial : ∀ (w : Nat) (x y : BitVec w), isFinite x = false ∨ (neg x = true ∧ isZero x = false) → ¬ F w .sqrt x y .inexact
  /-- the second operand is ignored -/
  sqrtUnary : ∀ (w : Nat) (x y y' : BitVec w) (e : Exc), F w .sqrt x y e → F w .sqrt x y' e

/-- operators of the language on two numbers -/
inductive Arith | add | sub | mul | div
  deriving DecidableEq, Repr
inductive RelOp | eq | ne | lt | gt | le | ge
  deriving DecidableEq, Repr
/-- `isgreater`, .. of <cmath> -/
inductive QRel | greater | greaterequal | less | lessequal | lessgreater | unordered
  deriving DecidableEq, Repr
/-- what the C operator does (Annex F.3, F.9.3: relational operators signal, equality operators do not) -/
def Arith.opc : Arith → FOpc
  | .add => .add | .sub => .sub | .mul => .mul | .div => .div
def RelOp.opc : RelOp → FOpc
  | .eq | .ne => .cmpQ
  | .lt | .gt | .le | .ge => .cmpS
end Dpm.Fp
