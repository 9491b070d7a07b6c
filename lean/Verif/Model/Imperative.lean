import Verif.Model.Program
import Verif.Model.FloatProgram
import Verif.Model.Reduce
/-
Client programs with state: variables of vector and mask type, an array of elements, the client's own variables, loops and branches.
As in Model/Program, nothing here models code of its own: each clause names the API call of the backend it stands for.
X = /repo/dpm/detail/x86/type.hpp, G = /repo/dpm/detail/generic/type.hpp.
-/
namespace Dpm.X86
open Dpm.Reg Dpm.Util Dpm.Generic Dpm.GenericMath

/-- the client's own variables -/
abbrev Scal := Nat → Int
/-- questions about a mask (X:376-560, G:400-475) -/
inductive Query | allOf | anyOf | noneOf | someOf | count | minIndex | maxIndex
/-- `reduce(x)`, `reduce(x, std::bit_and<>())`, .., `reduce_min(x)`, `reduce_max(x)` (X:1406-1544, G:1098-1105) -/
inductive Red | sum | band | bor | bxor | least | greatest

/-- Elementary statements, with expressions `E`.  What the client computes by itself - addresses, loop counters, constants, conditions, its own
reads and writes of the array - is an arbitrary function of its variables (and of the array); it may be undefined. -/
inductive PrimE (w : Nat) (E : Kind → Type)
  | own (f : Scal → Mem (BitVec w) → Option (Scal × Mem (BitVec w)))
  /-- `v_k = e` and `m_k = e`; constants in `e` may come from the client's variables -/
  | set (k : Nat) (e : Scal → E .vec)
  | mset (k : Nat) (e : Scal → E .msk)
  /-- `v_k.copy_from(array + a, element_aligned)`, `v_k.copy_to(array + a, element_aligned)` -/
  | load (k : Nat) (a : Scal → Nat)
  | store (k : Nat) (a : Scal → Nat)
  /-- `s_r = v_k[i]`, `s_r = m_k[i]` -/
  | get (r k : Nat) (i : Scal → Nat)
  | mget (r k : Nat) (i : Scal → Nat)
  /-- `s_r = q(m_k)` -/
  | ask (r : Nat) (q : Query) (k : Nat)
  /-- `s_r = o(v_k)`; like `get`, the client receives the bit pattern of the element -/
  | red (r : Nat) (o : Red) (k : Nat)
/-- Programs over elementary statements `P` -/
inductive StmOf (P : Type)
  | prim (p : P)
  | seq (a b : StmOf P)
  | ite (b : Scal → Bool) (s t : StmOf P)
  | loop (b : Scal → Bool) (s : StmOf P)
/-- Programs over integer vectors, and over vectors of `float` or `double` -/
abbrev Prim (w : Nat) := PrimE w (Ex w)
abbrev Stm (w : Nat) := StmOf (Prim w)
abbrev FPrim (w : Nat) := PrimE w (FEx w)
abbrev FStm (w : Nat) := StmOf (FPrim w)

/-- a machine that executes elementary statements -/
structure ExecOf (P : Type) where
  St : Type
  scal : St → Scal
  step : P → St → Out St
abbrev Exec (w : Nat) := ExecOf (Prim w)
/-- Execution with a bound on the number of steps: `none` if it is used up. -/
def ExecOf.run {P : Type} (M : ExecOf P) : Nat → StmOf P → M.St → Option (Out M.St)
  | 0, _, _ => none
  | _ + 1, .prim p, s => some (M.step p s)
  | n + 1, .seq a b, s => match M.run n a s with
    | some (.ok s') => M.run n b s'
    | r => r
  | n + 1, .ite b p q, s => if b (M.scal s) then M.run n p s else M.run n q s
  | n + 1, .loop b p, s => if b (M.scal s) then M.run n (.seq p (.loop b p)) s else some (.ok s)

/-- the array from position `a` on -/
def from' {α : Type} (m : Mem α) (a : Nat) : Mem α := fun i => m (a + i)
/-- the array with everything from position `a` on replaced -/
def patch {α : Type} (m : Mem α) (a : Nat) (m' : Mem α) : Mem α := fun p => if a ≤ p then m' (p - a) else m p
/-- precondition of `reduce_min_index` and `reduce_max_index`: some element is true -/
def someTrue (N : Nat) (f : Nat → Bool) : Bool := (List.range N).any f
def putScal (s : Scal) (r : Nat) (v : Int) : Scal := fun t => if t = r then v else s t

section x86
variable (c : Cfg)
structure XState where
  env : XEnv c
  scal : Scal
  mem : Mem (BitVec c.w)
/-- X:376-560.  `reduce_min_index` and `reduce_max_index` require a true element. -/
def xAsk (q : Query) (m : c.Data) : Out Int := match q with
  | .allOf => Out.ofUb ((Mask.allOf c m).map fun b => if b then 1 else 0)
  | .anyOf => .ok (if Mask.anyOf c m then 1 else 0)
  | .noneOf => .ok (if Mask.noneOf c m then 1 else 0)
  | .someOf => Out.ofUb ((Mask.someOf c m).map fun b => if b then 1 else 0)
  | .count => .ok (Mask.reduceCount c m)
  | .minIndex => if someTrue c.N (Dpm.X86.mget c m) then Out.ofUb ((Mask.reduceMinIndex c m).map fun n => (n : Int)) else .ub
  | .maxIndex => if someTrue c.N (Dpm.X86.mget c m) then Out.ofUb ((Mask.reduceMaxIndex c m).map fun n => (n : Int)) else .ub
/-- X:1406-1544 -/
def xRed (fp : FpOps) (o : Red) (x : c.Data) : Out (BitVec c.w) := match o with
  | .sum => vReduce fp c .plus x
  | .band => vReduce fp c .bitAnd x
  | .bor => vReduce fp c .bitOr x
  | .bxor => vReduce fp c .bitXor x
  | .least => vReduceMin fp c x
  | .greatest => vReduceMax fp c x
/-- with x86 vectors; the array has `len` elements; copies X:645-671, element access X:164-176, X:700-715; `ev` evaluates expressions -/
def xStepE (fp : FpOps) {E : Kind → Type} (ev : XEnv c → {k : Kind} → E k → Out c.Data) (len : Nat) : PrimE c.w E → XState c → Out (XState c)
  | .own f, s => Out.ofUb ((f s.scal s.mem).map fun r => { s with scal := r.1, mem := r.2 })
  | .set k e, s => (ev s.env (e s.scal)).map fun x => { s with env := { s.env with vec := fun j => if j = k then x else s.env.vec j } }
  | .mset k e, s => (ev s.env (e s.scal)).map fun x => { s with env := { s.env with msk := fun j => if j = k then x else s.env.msk j } }
  | .load k a, s => Out.ofUb ((copyFrom c .element (s.env.vec k) (len - a s.scal) (from' s.mem (a s.scal))).map fun x =>
      { s with env := { s.env with vec := fun j => if j = k then x else s.env.vec j } })
  | .store k a, s => Out.ofUb ((copyTo c .element (s.env.vec k) (len - a s.scal) (from' s.mem (a s.scal))).map fun m =>
      { s with mem := patch s.mem (a s.scal) m })
  | .get r k i, s => if i s.scal < c.N then .ok { s with scal := putScal s.scal r (elt c (s.env.vec k) (i s.scal)).toNat } else .ub
  | .mget r k i, s => if i s.scal < c.N then .ok { s with scal := putScal s.scal r (if Dpm.X86.mget c (s.env.msk k) (i s.scal) then 1 else 0) } else .ub
  | .ask r q k, s => (xAsk c q (s.env.msk k)).map fun v => { s with scal := putScal s.scal r v }
  | .red r o k, s => (xRed c fp o (s.env.vec k)).map fun v => { s with scal := putScal s.scal r v.toNat }
/-- integer vectors; `float` and `double` -/
def xStep (fp : FpOps) (len : Nat) : Prim c.w → XState c → Out (XState c) := xStepE c fp (evalX fp c) len
def xfStep (len : Nat) : FPrim c.w → XState c → Out (XState c) := xStepE c ieee (evalXF c) len
def xExec (fp : FpOps) (len : Nat) : Exec c.w := ⟨XState c, XState.scal, xStep c fp len⟩
def xfExec (len : Nat) : ExecOf (FPrim c.w) := ⟨XState c, XState.scal, xfStep c len⟩
end x86

section generic
structure GStateW (w N : Nat) where
  env : GEnv w N
  scal : Scal
  mem : Mem (BitVec w)
abbrev GState (t : IntTy) (N : Nat) := GStateW t.bits N
/-- G:400-475 -/
def gAsk {N : Nat} (q : Query) (m : GMask N) : Out Int := match q with
  | .allOf => .ok (if Generic.allOf m then 1 else 0)
  | .anyOf => .ok (if Generic.anyOf m then 1 else 0)
  | .noneOf => .ok (if Generic.noneOf m then 1 else 0)
  | .someOf => .ok (if Generic.someOf m then 1 else 0)
  | .count => .ok (Generic.reduceCount m)
  | .minIndex => if someTrue N m.get then .ok (Generic.reduceMinIndex m) else .ub
  | .maxIndex => if someTrue N m.get then .ok (Generic.reduceMaxIndex m) else .ub
/-- `reduce(x, op)` (G:1098, G:595-624) for a scalar operation that may be undefined; the buffer is value-initialised -/
def gReduce {w N : Nat} (op : BitVec w → BitVec w → Option (BitVec w)) (x : GSimd (BitVec w) N) : Out (BitVec w) :=
  Out.ofUb ((reduceImpl (fun p q => p.bind fun a => q.bind fun b => op a b)
    ((List.range N).map fun i => some (x.copyTo id (fun _ => 0) i))).bind id)
/-- G:1098-1105 over a scalar type; the bitwise reductions (integers only) are bitwise -/
def gRed {w N : Nat} (S : Scalar (BitVec w)) (o : Red) (x : GSimd (BitVec w) N) : Out (BitVec w) := match o with
  | .sum => gReduce S.add x
  | .band => gReduce S.band x
  | .bor => gReduce S.bor x
  | .bxor => gReduce S.bxor x
  | .least => gReduce (fun a b => some (stdMin S.lt a b)) x
  | .greatest => gReduce (fun a b => some (stdMax S.lt a b)) x
/-- with generic vectors; copies G:214-218, G:516-520; `ev` evaluates expressions, `S` are the operators of the element type -/
def gStepE {w N : Nat} (S : Scalar (BitVec w)) {E : Kind → Type} (ev : GEnv w N → {k : Kind} → E k → Out (GVal w N k)) (len : Nat) :
    PrimE w E → GStateW w N → Out (GStateW w N)
  | .own f, s => Out.ofUb ((f s.scal s.mem).map fun r => { s with scal := r.1, mem := r.2 })
  | .set k e, s => (ev s.env (e s.scal)).map fun x => { s with env := { s.env with vec := fun j => if j = k then x else s.env.vec j } }
  | .mset k e, s => (ev s.env (e s.scal)).map fun x => { s with env := { s.env with msk := fun j => if j = k then x else s.env.msk j } }
  | .load k a, s => if a s.scal + N ≤ len then
      .ok { s with env := { s.env with vec := fun j => if j = k then (s.env.vec k).copyFrom id (from' s.mem (a s.scal)) else s.env.vec j } } else .ub
  | .store k a, s => if a s.scal + N ≤ len then
      .ok { s with mem := patch s.mem (a s.scal) ((s.env.vec k).copyTo id (from' s.mem (a s.scal))) } else .ub
  | .get r k i, s => if i s.scal < N then .ok { s with scal := putScal s.scal r ((s.env.vec k).get (i s.scal)).toNat } else .ub
  | .mget r k i, s => if i s.scal < N then .ok { s with scal := putScal s.scal r (if (s.env.msk k).get (i s.scal) then 1 else 0) } else .ub
  | .ask r q k, s => (gAsk q (s.env.msk k)).map fun v => { s with scal := putScal s.scal r v }
  | .red r o k, s => (gRed S o (s.env.vec k)).map fun v => { s with scal := putScal s.scal r v.toNat }
/-- integer vectors; `float` and `double` with the C library `L` -/
def gStep (t : IntTy) (N len : Nat) : Prim t.bits → GState t N → Out (GState t N) := gStepE t.scalar (fun σ _ e => Out.ofUb (evalG t σ e)) len
def gfStep {w : Nat} (L : Cmath w) (N len : Nat) : FPrim w → GStateW w N → Out (GStateW w N) := gStepE (fpScalar w) (fun σ _ e => evalGF L σ e) len
def gExec (t : IntTy) (N len : Nat) : Exec t.bits := ⟨GState t N, GStateW.scal, gStep t N len⟩
def gfExec {w : Nat} (L : Cmath w) (N len : Nat) : ExecOf (FPrim w) := ⟨GStateW w N, GStateW.scal, gfStep L N len⟩
end generic
end Dpm.X86
