import Verif.Model.FloatProgram
import Verif.Spec.Fma
/-
What a floating-point expression means for ONE element: the scalar expression a C programmer would write for it.  Only the syntax of
expressions is taken from the model.
-/
namespace Dpm.X86
open Dpm.Fp

/-- the value of an expression at one element -/
@[reducible] def SVal (w : Nat) : Kind → Type
  | .vec => BitVec w
  | .msk => Bool
def sfBin {w : Nat} : FBin → BitVec w → BitVec w → BitVec w
  | .add, x, y => fadd x y
  | .sub, x, y => fsub x y
  | .mul, x, y => fmul x y
  | .div, x, y => fdiv x y
  | .vmin, x, y => if Fp.lt y x then y else x
  | .vmax, x, y => if Fp.lt x y then y else x
def sfCmp {w : Nat} : Cmp → BitVec w → BitVec w → Bool
  | .eq, x, y => Fp.eq x y
  | .ne, x, y => !Fp.eq x y
  | .lt, x, y => Fp.lt x y
  | .gt, x, y => Fp.lt y x
  | .le, x, y => Fp.le x y
  | .ge, x, y => Fp.le y x
def sfMUn : MUn → Bool → Bool
  | _, b => !b
def sfMBin : MBin → Bool → Bool → Bool
  | .and, a, b | .land, a, b => a && b
  | .or, a, b | .lor, a, b => a || b
  | .xor, a, b | .ne, a, b => a != b
  | .eq, a, b => a == b
/-- The meaning at element `i`, given the elements `vec k`, `msk k` of the variables at that index. -/
def sEval {w : Nat} (vec : Nat → BitVec w) (msk : Nat → Bool) (i : Nat) : {k : Kind} → FEx w k → SVal w k
  | _, .var k => vec k
  | _, .mvar k => msk k
  | _, .bcast s => s
  | _, .gen f => f i
  | _, .mbcast b => b
  | _, .mgen f => f i
  | _, .neg a => (show BitVec w from sEval vec msk i a) ^^^ BitVec.intMin w
  | _, .sqrt a => fsqrt (sEval vec msk i a : BitVec w)
  | _, .bin o a b => sfBin o (sEval vec msk i a) (sEval vec msk i b)
  | _, .binS o a s => sfBin o (sEval vec msk i a) s
  | _, .clamp x lo hi =>
    let v : BitVec w := sEval vec msk i x
    let l : BitVec w := sEval vec msk i lo
    let h : BitVec w := sEval vec msk i hi
    if Fp.lt v l then l else if Fp.lt h v then h else v
  | _, .blend m a b => bif sEval vec msk i m then (sEval vec msk i a : BitVec w) else (sEval vec msk i b : BitVec w)
  | _, .put x k s => if i = k then s else (sEval vec msk i x : BitVec w)
  | _, .cmp o a b => sfCmp o (sEval vec msk i a : BitVec w) (sEval vec msk i b)
  | _, .isZero a => Fp.isZero (sEval vec msk i a : BitVec w)
  | _, .mun o m => sfMUn o (sEval vec msk i m)
  | _, .mbin o a b => sfMBin o (sEval vec msk i a) (sEval vec msk i b)
  | _, .mblend m a b => bif sEval vec msk i m then (sEval vec msk i a : Bool) else (sEval vec msk i b : Bool)
  | _, .mput m k b => if i = k then b else (sEval vec msk i m : Bool)

/-- the two numbers are ordered and, if equal, the same pattern: neither is NaN, and they are not zeros of opposite sign -/
def Comparable {w : Nat} (x y : BitVec w) : Prop := isNaN x = false ∧ isNaN y = false ∧ (isZero x = true → isZero y = true → x = y)
def FBin.isOrd : FBin → Prop
  | .vmin | .vmax => True
  | _ => False
/-- Every element written by `x[k] = s` exists. -/
def FEx.InRange {w : Nat} (N : Nat) : {k : Kind} → FEx w k → Prop
  | _, .var _ | _, .mvar _ | _, .bcast _ | _, .gen _ | _, .mbcast _ | _, .mgen _ => True
  | _, .neg a | _, .sqrt a | _, .binS _ a _ | _, .isZero a | _, .mun _ a => a.InRange N
  | _, .bin _ a b | _, .cmp _ a b | _, .mbin _ a b => a.InRange N ∧ b.InRange N
  | _, .clamp a b d | _, .blend a b d | _, .mblend a b d => a.InRange N ∧ b.InRange N ∧ d.InRange N
  | _, .put a k _ | _, .mput a k _ => k < N ∧ a.InRange N
/-- Wherever the expression takes a minimum, a maximum or clamps, the operands at this element are comparable (and the bounds in order). -/
def Tame {w : Nat} (vec : Nat → BitVec w) (msk : Nat → Bool) (i : Nat) : {k : Kind} → FEx w k → Prop
  | _, .var _ | _, .mvar _ | _, .bcast _ | _, .gen _ | _, .mbcast _ | _, .mgen _ => True
  | _, .neg a | _, .sqrt a | _, .isZero a | _, .mun _ a | _, .put a _ _ | _, .mput a _ _ => Tame vec msk i a
  | _, .binS o a s => Tame vec msk i a ∧ (o.isOrd → Comparable (sEval vec msk i a : BitVec w) s)
  | _, .bin o a b => Tame vec msk i a ∧ Tame vec msk i b ∧ (o.isOrd → Comparable (sEval vec msk i a : BitVec w) (sEval vec msk i b))
  | _, .cmp _ a b | _, .mbin _ a b => Tame vec msk i a ∧ Tame vec msk i b
  | _, .clamp x l h => Tame vec msk i x ∧ Tame vec msk i l ∧ Tame vec msk i h ∧
      Comparable (sEval vec msk i x : BitVec w) (sEval vec msk i l) ∧ Comparable (sEval vec msk i x : BitVec w) (sEval vec msk i h) ∧
      Comparable (sEval vec msk i l : BitVec w) (sEval vec msk i h) ∧ Fp.lt (sEval vec msk i h : BitVec w) (sEval vec msk i l) = false
  | _, .blend a b d | _, .mblend a b d => Tame vec msk i a ∧ Tame vec msk i b ∧ Tame vec msk i d
/-- No mask operator of the given kinds occurs. -/
def FEx.Avoids {w : Nat} (noCompl noAnd : Prop) : {k : Kind} → FEx w k → Prop
  | _, .var _ | _, .mvar _ | _, .bcast _ | _, .gen _ | _, .mbcast _ | _, .mgen _ => True
  | _, .neg a | _, .sqrt a | _, .binS _ a _ | _, .isZero a | _, .put a _ _ | _, .mput a _ _ => a.Avoids noCompl noAnd
  | _, .mun o a => (noCompl → o ≠ .compl) ∧ a.Avoids noCompl noAnd
  | _, .mbin o a b => (noAnd → o ≠ .land) ∧ a.Avoids noCompl noAnd ∧ b.Avoids noCompl noAnd
  | _, .bin _ a b | _, .cmp _ a b => a.Avoids noCompl noAnd ∧ b.Avoids noCompl noAnd
  | _, .clamp a b d | _, .blend a b d | _, .mblend a b d => a.Avoids noCompl noAnd ∧ b.Avoids noCompl noAnd ∧ d.Avoids noCompl noAnd
end Dpm.X86
