import Verif.Model.Program
/-
What a client expects of an expression of vectors: element `i` of the result is the same expression of scalars, applied to element `i` of the
variables.  Written with the C integer operators (Model/CInt) and shifts of bit patterns only; nothing of either backend is used.
-/
namespace Dpm.X86
open Dpm.Util

/-- One element of a vector, one element of a mask. -/
def EVal (w : Nat) : Kind → Type
  | .vec => BitVec w
  | .msk => Bool

namespace Scalar1
def un (t : IntTy) : Un → BitVec t.bits → Option (BitVec t.bits)
  | .neg, x => t.neg x
  | .bnot, x => t.bnot x
  | .lsl k, x => if k < t.bits then some (x <<< k) else none
  | .lsr k, x => if k < t.bits then some (x >>> k) else none
  | .asr k, x => if k < t.bits then some (x.sshiftRight k) else none
/-- smaller and larger of two integers, by value -/
def smaller (t : IntTy) (x y : BitVec t.bits) : BitVec t.bits := if t.val x ≤ t.val y then x else y
def larger (t : IntTy) (x y : BitVec t.bits) : BitVec t.bits := if t.val x ≤ t.val y then y else x
def bin (t : IntTy) : Bin → BitVec t.bits → BitVec t.bits → Option (BitVec t.bits)
  | .add => t.add | .sub => t.sub | .mul => t.mul | .div => t.div | .rem => t.rem | .band => t.band | .bor => t.bor
  | .bxor => t.bxor | .shl => t.shl | .shr => t.shr
  | .vmin => fun x y => some (smaller t x y)
  | .vmax => fun x y => some (larger t x y)
def binS (t : IntTy) : BinS → BitVec t.bits → BitVec t.bits → Option (BitVec t.bits)
  | .add => t.add | .sub => t.sub | .mul => t.mul | .band => t.band | .bor => t.bor | .bxor => t.bxor | .shl => t.shl | .shr => t.shr
  | .vmin => fun x y => some (smaller t x y)
  | .vmax => fun x y => some (larger t x y)
/-- undefined if `hi < lo` -/
def clamp (t : IntTy) (x lo hi : BitVec t.bits) : Option (BitVec t.bits) :=
  if t.val hi < t.val lo then none else some (if t.val x < t.val lo then lo else if t.val hi < t.val x then hi else x)
def cmp (t : IntTy) : Cmp → BitVec t.bits → BitVec t.bits → Bool
  | .eq, x, y => decide (t.val x = t.val y)
  | .ne, x, y => decide (t.val x ≠ t.val y)
  | .lt, x, y => decide (t.val x < t.val y)
  | .gt, x, y => decide (t.val y < t.val x)
  | .le, x, y => decide (t.val x ≤ t.val y)
  | .ge, x, y => decide (t.val y ≤ t.val x)
def mbin : MBin → Bool → Bool → Bool
  | .and, a, b | .land, a, b => a && b
  | .or, a, b | .lor, a, b => a || b
  | .xor, a, b | .ne, a, b => a != b
  | .eq, a, b => a == b
end Scalar1

/-- Element `i` of the value of an expression over vectors of `N` elements, given element `i` of the variables; `none` if undefined. -/
def elem (t : IntTy) (N i : Nat) (v : Nat → BitVec t.bits) (m : Nat → Bool) : {k : Kind} → Ex t.bits k → Option (EVal t.bits k)
  | _, .var k => some (v k)
  | _, .mvar k => some (m k)
  | _, .bcast s => some s
  | _, .gen f => some (f i)
  | _, .mbcast b => some b
  | _, .mgen f => some (f i)
  | _, .un o a => do Scalar1.un t o (← elem t N i v m a)
  | _, .bin o a b => do Scalar1.bin t o (← elem t N i v m a) (← elem t N i v m b)
  | _, .binS o a s => do Scalar1.binS t o (← elem t N i v m a) s
  | _, .clamp x lo hi => do Scalar1.clamp t (← elem t N i v m x) (← elem t N i v m lo) (← elem t N i v m hi)
  | _, .blend c a b => do
      let c : Bool ← elem t N i v m c
      let a : BitVec t.bits ← elem t N i v m a
      let b : BitVec t.bits ← elem t N i v m b
      some (if c then a else b : BitVec t.bits)
  | _, .put x k s => do
      let x : BitVec t.bits ← elem t N i v m x
      if k < N then some (if i = k then s else x : BitVec t.bits) else none
  | _, .cmp o a b => do some (Scalar1.cmp t o (← elem t N i v m a) (← elem t N i v m b) : Bool)
  | _, .isZero a => do
      let a : BitVec t.bits ← elem t N i v m a
      some (decide (t.val a = 0) : Bool)
  | _, .mun _ a => do
      let a : Bool ← elem t N i v m a
      some (!a : Bool)
  | _, .mbin o a b => do
      let a : Bool ← elem t N i v m a
      let b : Bool ← elem t N i v m b
      some (Scalar1.mbin o a b : Bool)
  | _, .mblend c a b => do
      let c : Bool ← elem t N i v m c
      let a : Bool ← elem t N i v m a
      let b : Bool ← elem t N i v m b
      some (if c then a else b : Bool)
  | _, .mput x k s => do
      let x : Bool ← elem t N i v m x
      if k < N then some (if i = k then s else x : Bool) else none

/-- An expression that treats every element alike: it mentions only the vector variables `0 .. K-1`, no mask variables, no generator and no
single element. -/
def Ex.Map {w : Nat} (K : Nat) : {k : Kind} → Ex w k → Prop
  | _, .var k => k < K
  | _, .bcast _ | _, .mbcast _ => True
  | _, .mvar _ | _, .gen _ | _, .mgen _ | _, .put _ _ _ | _, .mput _ _ _ => False
  | _, .un _ a | _, .binS _ a _ | _, .isZero a | _, .mun _ a => a.Map K
  | _, .bin _ a b | _, .cmp _ a b | _, .mbin _ a b => a.Map K ∧ b.Map K
  | _, .clamp a b c | _, .blend a b c | _, .mblend a b c => a.Map K ∧ b.Map K ∧ c.Map K

/-- `for (i = 0; i < n; ++i) array[dst + i] = f(array[src_0 + i], array[src_1 + i], ..)`, one element after the other; `none` if `f` is undefined
for some element. -/
def loopOf {w : Nat} (f : (Nat → BitVec w) → Option (BitVec w)) (src : Nat → Nat) (dst : Nat) : Nat → (Nat → BitVec w) → Option (Nat → BitVec w)
  | 0, a => some a
  | n + 1, a => do
      let a ← loopOf f src dst n a
      let v ← f (fun k => a (src k + n))
      some (fun p => if p = dst + n then v else a p)
/-- the same for an expression of integers -/
def scalarLoop (t : IntTy) (src : Nat → Nat) (dst : Nat) (e : Ex t.bits .vec) : Nat → (Nat → BitVec t.bits) → Option (Nat → BitVec t.bits) :=
  loopOf (fun v => elem t 1 0 v (fun _ => false) e) src dst
end Dpm.X86
