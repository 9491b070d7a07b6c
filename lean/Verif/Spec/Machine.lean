import Verif.Model.Imperative
import Verif.Spec.ScalarProgram
import Verif.Spec.FloatExpr
import Verif.Spec.Lanes
/-
What a client expects of a program over vectors: a vector is a sequence of `N` elements, an operation acts on every element, a copy moves `N`
elements, a question about a mask is a question about `N` truth values, a reduction takes all `N` elements.  Only the syntax of programs
is taken from the model.
-/
namespace Dpm.X86
open Dpm.Util Dpm.Spec

/-- what an expression is at one element (`none`: undefined), and what a reduction of a list of elements is -/
structure Meaning (w : Nat) (E : Kind → Type) where
  el : (N i : Nat) → (Nat → BitVec w) → (Nat → Bool) → {k : Kind} → E k → Option (EVal w k)
  red : Red → List (BitVec w) → Option (BitVec w)
structure SState (w : Nat) where
  vec : Nat → Nat → BitVec w
  msk : Nat → Nat → Bool
  scal : Scal
  mem : Nat → BitVec w
/-- questions about `N` truth values -/
def sAsk (N : Nat) (q : Query) (f : Nat → Bool) : Option Int := match q with
  | .allOf => some (if ∀ i, i < N → f i = true then 1 else 0)
  | .anyOf => some (if ∃ i, i < N ∧ f i = true then 1 else 0)
  | .noneOf => some (if ∀ i, i < N → f i = false then 1 else 0)
  | .someOf => some (if (∃ i, i < N ∧ f i = true) ∧ ∃ i, i < N ∧ f i = false then 1 else 0)
  | .count => some (countTrue N f)
  | .minIndex => Option.map (fun n : Nat => (n : Int)) ((List.range N).find? f)
  | .maxIndex => Option.map (fun n : Nat => (n : Int)) ((List.range N).reverse.find? f)
/-- the elements of an expression, if all are defined -/
def elems {w : Nat} {α : Type} (N : Nat) (d : α) (g : Nat → Option α) (k : (Nat → α) → SState w) : Out (SState w) :=
  if ∀ i, i < N → (g i).isSome = true then .ok (k fun i => (g i).getD d) else .ub
def sStep {w : Nat} {E : Kind → Type} (M : Meaning w E) (N len : Nat) : PrimE w E → SState w → Out (SState w)
  | .own f, s => Out.ofUb ((f s.scal s.mem).map fun r => { s with scal := r.1, mem := r.2 })
  | .set k e, s => elems N (0 : BitVec w) (fun i => M.el N i (s.vec · i) (s.msk · i) (e s.scal)) fun x =>
      { s with vec := fun j => if j = k then x else s.vec j }
  | .mset k e, s => elems N false (fun i => M.el N i (s.vec · i) (s.msk · i) (e s.scal)) fun x =>
      { s with msk := fun j => if j = k then x else s.msk j }
  | .load k a, s => if a s.scal + N ≤ len then .ok { s with vec := fun j => if j = k then fun i => s.mem (a s.scal + i) else s.vec j } else .ub
  | .store k a, s => if a s.scal + N ≤ len then
      .ok { s with mem := fun p => if a s.scal ≤ p ∧ p < a s.scal + N then s.vec k (p - a s.scal) else s.mem p } else .ub
  | .get r k i, s => if i s.scal < N then .ok { s with scal := putScal s.scal r (s.vec k (i s.scal)).toNat } else .ub
  | .mget r k i, s => if i s.scal < N then .ok { s with scal := putScal s.scal r (if s.msk k (i s.scal) then 1 else 0) } else .ub
  | .ask r q k, s => Out.ofUb ((sAsk N q (s.msk k)).map fun v => { s with scal := putScal s.scal r v })
  | .red r o k, s => Out.ofUb ((M.red o (lanes N (s.vec k))).map fun v => { s with scal := putScal s.scal r v.toNat })
def sExec {w : Nat} {E : Kind → Type} (M : Meaning w E) (N len : Nat) : ExecOf (PrimE w E) := ⟨SState w, SState.scal, sStep M N len⟩

/-- Integers: the scalar expression; the sum modulo `2^w`, the bitwise operations, the least and the greatest value. -/
def intRed (t : IntTy) : Red → List (BitVec t.bits) → Option (BitVec t.bits)
  | .sum, l => some (BitVec.ofInt _ (l.map t.val).sum)
  | .band, l => fold1 (· &&& ·) l
  | .bor, l => fold1 (· ||| ·) l
  | .bxor, l => fold1 (· ^^^ ·) l
  | .least, l => fold1 (Scalar1.smaller t) l
  | .greatest, l => fold1 (Scalar1.larger t) l
def intMeaning (t : IntTy) : Meaning t.bits (Ex t.bits) := ⟨fun N i v m _ e => elem t N i v m e, intRed t⟩

/-- Floating point: the scalar expression in IEEE arithmetic.  It is left undefined where a minimum, a maximum or a clamp meets operands that
are not comparable or bounds out of order, and for an element that does not exist.  So is a reduction (its order is not specified). -/
def fsval {w : Nat} : {k : Kind} → SVal w k → EVal w k
  | .vec, x => x
  | .msk, x => x
open Classical in
noncomputable def fltMeaning (w : Nat) : Meaning w (FEx w) :=
  ⟨fun N i v m _ e => if e.InRange N ∧ Tame v m i e then some (fsval (sEval v m i e)) else none, fun _ _ => none⟩

/-- An expression that treats every element alike: it mentions only the vector variables `0 .. K-1`, no mask variables, no generator and no
single element. -/
def FEx.Map {w : Nat} (K : Nat) : {k : Kind} → FEx w k → Prop
  | _, .var k => k < K
  | _, .bcast _ | _, .mbcast _ => True
  | _, .mvar _ | _, .gen _ | _, .mgen _ | _, .put _ _ _ | _, .mput _ _ _ => False
  | _, .neg a | _, .sqrt a | _, .binS _ a _ | _, .isZero a | _, .mun _ a => a.Map K
  | _, .bin _ a b | _, .cmp _ a b | _, .mbin _ a b => a.Map K ∧ b.Map K
  | _, .clamp a b c | _, .blend a b c | _, .mblend a b c => a.Map K ∧ b.Map K ∧ c.Map K
open Classical in
/-- The scalar expression for one tuple of values: IEEE arithmetic, undefined where a minimum, a maximum or a clamp meets operands that are not
comparable. -/
noncomputable def fltScalar {w : Nat} (e : FEx w .vec) (v : Nat → BitVec w) : Option (BitVec w) :=
  if Tame v (fun _ => false) 0 e then some (sEval v (fun _ => false) 0 e) else none
open Classical in
noncomputable def fltTest {w : Nat} (p : FEx w .msk) (v : Nat → BitVec w) : Option Bool :=
  if Tame v (fun _ => false) 0 p then some (sEval v (fun _ => false) 0 p) else none

/-- The binary operation of a reduction - addition modulo `2^w`, the bitwise operations, the smaller and the larger of two values - and a start
value that changes nothing. -/
def redOp (t : IntTy) : Red → BitVec t.bits → BitVec t.bits → BitVec t.bits
  | .sum => (· + ·)
  | .band => (· &&& ·)
  | .bor => (· ||| ·)
  | .bxor => (· ^^^ ·)
  | .least => Scalar1.smaller t
  | .greatest => Scalar1.larger t
def redUnit (t : IntTy) : Red → BitVec t.bits
  | .sum | .bor | .bxor => 0
  | .band => BitVec.allOnes _
  | .least => if t.signed then BitVec.intMax _ else BitVec.allOnes _
  | .greatest => if t.signed then BitVec.intMin _ else 0
/-- `r = unit; for (j = 0; j < n; ++j) r = op(r, y_j);` -/
def foldAll (t : IntTy) (o : Red) (n : Nat) (y : Nat → BitVec t.bits) : BitVec t.bits := (lanes n y).foldl (redOp t o) (redUnit t o)
end Dpm.X86
