import Verif.Model.Imperative
/-
Several threads with vectors of their own and one shared array.  A thread executes a client program (Model/Imperative.lean) one access at a
time: `copy_from` and `copy_to` with `element_aligned` are loops over the elements (X = /repo/dpm/detail/x86/type.hpp 645-657, 659-671;
G = /repo/dpm/detail/generic/type.hpp 214-225, 516-527), so other threads may run between any two of their accesses.  The library has no state
of its own besides the constant `cpuid::cpu_info` (C44).
Simplification: accesses of single elements are atomic and totally ordered; programs without data races (`C84_race_free`) cannot tell the
difference.  Statements of the client on its own variables and elements (`own`) are one step.
-/
namespace Dpm.X86
open Dpm.Reg Dpm.Util Dpm.Generic Dpm.GenericMath

/-- what a backend does inside a thread: `St` are the vectors, masks and variables of the thread -/
structure Backend (w : Nat) (E : Kind → Type) where
  St : Type
  N : Nat
  scal : St → Scal
  setScal : St → Scal → St
  /-- `v_k[i] = value`, the body of `copy_from` (X:656, G:217) -/
  ld : Nat → Nat → BitVec w → St → St
  /-- `v_k[i]`, read by the body of `copy_to` (X:670, G:224) -/
  st : Nat → Nat → St → BitVec w
  /-- the statements that do not access the array -/
  loc : PrimE w E → St → Out St

/-- what a thread still has to do: statements, or the rest of a copy from element `i` on -/
inductive Item (w : Nat) (E : Kind → Type)
  | stm (s : StmOf (PrimE w E))
  | rd (k a i : Nat)
  | wr (k a i : Nat)
structure Conf {w : Nat} {E : Kind → Type} (B : Backend w E) where
  todo : List (Item w E)
  st : B.St

section
variable {w : Nat} {E : Kind → Type} (B : Backend w E) (len : Nat)
/-- one step of a thread; the array has `len` elements.  A thread with nothing to do stays as it is. -/
def tstep : Conf B → Mem (BitVec w) → Out (Conf B × Mem (BitVec w))
  | ⟨[], s⟩, m => .ok (⟨[], s⟩, m)
  | ⟨.rd k a i :: r, s⟩, m =>
    if i < B.N then (if a + i < len then .ok (⟨.rd k a (i + 1) :: r, B.ld k i (m (a + i)) s⟩, m) else .ub) else .ok (⟨r, s⟩, m)
  | ⟨.wr k a i :: r, s⟩, m =>
    if i < B.N then (if a + i < len then .ok (⟨.wr k a (i + 1) :: r, s⟩, m.set (a + i) (B.st k i s)) else .ub) else .ok (⟨r, s⟩, m)
  | ⟨.stm (.prim (.own f)) :: r, s⟩, m => Out.ofUb ((f (B.scal s) m).map fun q => (⟨r, B.setScal s q.1⟩, q.2))
  | ⟨.stm (.prim (.load k a)) :: r, s⟩, m => .ok (⟨.rd k (a (B.scal s)) 0 :: r, s⟩, m)
  | ⟨.stm (.prim (.store k a)) :: r, s⟩, m => .ok (⟨.wr k (a (B.scal s)) 0 :: r, s⟩, m)
  | ⟨.stm (.prim p) :: r, s⟩, m => (B.loc p s).map fun s' => (⟨r, s'⟩, m)
  | ⟨.stm (.seq a b) :: r, s⟩, m => .ok (⟨.stm a :: .stm b :: r, s⟩, m)
  | ⟨.stm (.ite b p q) :: r, s⟩, m => .ok (⟨.stm (if b (B.scal s) then p else q) :: r, s⟩, m)
  | ⟨.stm (.loop b p) :: r, s⟩, m => .ok (if b (B.scal s) then ⟨.stm p :: .stm (.loop b p) :: r, s⟩ else ⟨r, s⟩, m)

/-- the threads, numbered, and the shared array -/
structure Pool where
  conf : Nat → Conf B
  mem : Mem (BitVec w)
/-- thread `t` makes a step -/
def pstep (t : Nat) (p : Pool B) : Out (Pool B) :=
  (tstep B len (p.conf t) p.mem).map fun q => ⟨fun u => if u = t then q.1 else p.conf u, q.2⟩
/-- the threads make steps in the order of the schedule -/
def runPool : List Nat → Pool B → Out (Pool B)
  | [], p => .ok p
  | t :: ts, p => (pstep B len t p).bind (runPool ts)

/-- the element the thread reads, writes in its next step, if that is a step of a copy -/
def Conf.readsNext (c : Conf B) (p : Nat) : Prop := ∃ k a i r, c.todo = .rd k a i :: r ∧ i < B.N ∧ p = a + i
def Conf.writesNext (c : Conf B) (p : Nat) : Prop := ∃ k a i r, c.todo = .wr k a i :: r ∧ i < B.N ∧ p = a + i
end

section x86
variable (c : Cfg)
structure XLoc where
  env : XEnv c
  scal : Scal
/-- x86 vectors -/
def xBackend (fp : FpOps) {E : Kind → Type} (ev : XEnv c → {k : Kind} → E k → Out c.Data) : Backend c.w E where
  St := XLoc c
  N := c.N
  scal := XLoc.scal
  setScal s v := { s with scal := v }
  ld k i v s := { s with env := { s.env with vec := fun j => if j = k then setElt c (s.env.vec k) i v else s.env.vec j } }
  st k i s := elt c (s.env.vec k) i
  loc p s := (xStepE c fp ev 0 p ⟨s.env, s.scal, fun _ => 0⟩).map fun r => ⟨r.env, r.scal⟩
/-- integer vectors; `float` and `double` -/
def xInt (fp : FpOps) : Backend c.w (Ex c.w) := xBackend c fp (evalX fp c)
def xFlt : Backend c.w (FEx c.w) := xBackend c ieee (evalXF c)
end x86
section generic
structure GLoc (w N : Nat) where
  env : GEnv w N
  scal : Scal
/-- generic vectors -/
def gBackend {w N : Nat} (S : Scalar (BitVec w)) {E : Kind → Type} (ev : GEnv w N → {k : Kind} → E k → Out (GVal w N k)) : Backend w E where
  St := GLoc w N
  N := N
  scal := GLoc.scal
  setScal s v := { s with scal := v }
  ld k i v s := { s with env := { s.env with vec := fun j => if j = k then ⟨(s.env.vec k).data.set i v⟩ else s.env.vec j } }
  st k i s := (s.env.vec k).data i
  loc p s := (gStepE S ev 0 p ⟨s.env, s.scal, fun _ => 0⟩).map fun r => ⟨r.env, r.scal⟩
def gInt (t : IntTy) (N : Nat) : Backend t.bits (Ex t.bits) := gBackend (N := N) t.scalar (fun σ _ e => Out.ofUb (evalG t σ e))
def gFlt {w : Nat} (L : Cmath w) (N : Nat) : Backend w (FEx w) := gBackend (N := N) (fpScalar w) (fun σ _ e => evalGF L σ e)
end generic
end Dpm.X86
