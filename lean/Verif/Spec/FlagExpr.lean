import Verif.Spec.Flags
import Verif.Spec.FloatArith
import Verif.Spec.Fma
/-
Floating-point expressions of the language and what their evaluation signals: the exceptions of all the operations executed on the way.
Nothing here is taken from dpm.
-/
namespace Dpm.Fp

/-- expressions over variables: constants, `a + b`, `a - b`, `a * b`, `a / b`, the same with a constant as right operand, `-a`, `sqrt(a)` -/
inductive FExp (w : Nat)
  | var (k : Nat)
  | const (x : BitVec w)
  | bin (o : Arith) (a b : FExp w)
  | binS (o : Arith) (a : FExp w) (s : BitVec w)
  | neg (a : FExp w)
  | sqrt (a : FExp w)

/-- the result of an operator -/
def Arith.fn {w : Nat} : Arith → BitVec w → BitVec w → BitVec w
  | .add => fadd | .sub => fsub | .mul => fmul | .div => fdiv
/-- The value of an expression of `float`s or `double`s, and the operations executed (negation changes the sign bit and signals nothing). -/
def FExp.scalar {w : Nat} (env : Nat → BitVec w) : FExp w → BitVec w × List (FOpc × BitVec w × BitVec w)
  | .var k => (env k, [])
  | .const x => (x, [])
  | .bin o a b => (o.fn (a.scalar env).1 (b.scalar env).1, (a.scalar env).2 ++ (b.scalar env).2 ++ [(o.opc, (a.scalar env).1, (b.scalar env).1)])
  | .binS o a s => (o.fn (a.scalar env).1 s, (a.scalar env).2 ++ [(o.opc, (a.scalar env).1, s)])
  | .neg a => ((a.scalar env).1 ^^^ BitVec.intMin w, (a.scalar env).2)
  | .sqrt a => (fsqrt (a.scalar env).1, (a.scalar env).2 ++ [(.sqrt, (a.scalar env).1, (a.scalar env).1)])
/-- evaluating the expression signals `e` -/
def FExp.signals {w : Nat} (F : FlagSem) (env : Nat → BitVec w) (x : FExp w) (e : Exc) : Prop :=
  ∃ ev ∈ (x.scalar env).2, F w ev.1 ev.2.1 ev.2.2 e
/-- every variable is one of the first `K` -/
def FExp.Below {w : Nat} (K : Nat) : FExp w → Prop
  | .var k => k < K
  | .const _ => True
  | .bin _ a b => a.Below K ∧ b.Below K
  | .binS _ a _ => a.Below K
  | .neg a => a.Below K
  | .sqrt a => a.Below K
/-- no division and no constants -/
def FExp.plain {w : Nat} : FExp w → Bool
  | .var _ => true
  | .const _ => false
  | .bin o a b => decide (o ≠ .div) && a.plain && b.plain
  | .binS _ _ _ => false
  | .neg a => a.plain
  | .sqrt a => a.plain
end Dpm.Fp
