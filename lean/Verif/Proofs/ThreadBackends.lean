import Verif.Proofs.ThreadRuns
import Verif.Props.X86Int
/-
The two backends inside a thread agree with the machines of Model/Imperative.lean.
-/
namespace Dpm.X86
open Dpm.Reg Dpm.Util Dpm.Generic Dpm.GenericMath

theorem forRangeM_if {σ : Type} {n L : Nat} (g : Nat → σ → σ) (d : σ) :
    forRangeM n (fun i d => if i < L then some (g i d) else none) d = if n ≤ L then some (forRange n g d) else none := by
  induction n with
  | zero => rw [if_pos (Nat.zero_le _)]; rfl
  | succ n ih =>
    rw [forRangeM, ih]
    by_cases h : n ≤ L
    · rw [if_pos h]
      by_cases h' : n < L
      · rw [if_pos (by omega)]; exact if_pos h'
      · rw [if_neg (by omega)]; exact if_neg h'
    · rw [if_neg h, if_neg (by omega)]; rfl
theorem forRange_set {α : Type} (a : Nat) (g : Nat → α) (m : Mem α) (n p : Nat) :
    forRange n (fun i m => m.set (a + i) (g i)) m p = if a ≤ p ∧ p < a + n then g (p - a) else m p := by
  induction n with
  | zero => rw [if_neg (by omega)]; rfl
  | succ n ih =>
    show (Mem.set _ _ _) p = _
    by_cases h : p = a + n
    · subst h
      rw [Mem.set_same, if_pos (by omega), Nat.add_sub_cancel_left]
    · rw [Mem.set_ne _ _ h, ih]
      by_cases h' : a ≤ p ∧ p < a + n
      · rw [if_pos h', if_pos (by omega)]
      · rw [if_neg h', if_neg (by omega)]
theorem patch_set {α : Type} (a : Nat) (g : Nat → α) (m : Mem α) (n : Nat) :
    patch m a (forRange n (fun i m => m.set i (g i)) (from' m a)) = forRange n (fun i m => m.set (a + i) (g i)) m := by
  funext p
  rw [forRange_set]
  unfold patch
  by_cases h : a ≤ p
  · rw [if_pos h]
    have := forRange_set 0 g (from' m a) n (p - a)
    simp only [Nat.zero_add] at this
    rw [this]
    unfold from'
    by_cases h' : p < a + n
    · rw [if_pos (by omega), if_pos (by omega)]; rfl
    · rw [if_neg (by omega), if_neg (by omega), show a + (p - a) = p by omega]
  · rw [if_neg h, if_neg (by omega)]

theorem out_map_ok {α β : Type} {g : α → β} {o : Out α} {y : β} (h : o.map g = .ok y) : ∃ x, o = .ok x ∧ y = g x := by
  cases o <;> cases h
  exact ⟨_, rfl, rfl⟩

section x86
variable {c : Cfg} {fp : FpOps} {E : Kind → Type} {ev : XEnv c → {k : Kind} → E k → Out c.Data}
def XState.loc (s : XState c) : XLoc c := ⟨s.env, s.scal⟩
theorem xBackend_lawful : (xBackend c fp ev).Lawful where
  ld _ _ _ _ := rfl
  own _ _ := rfl
  set k e s s' h := by
    obtain ⟨z, h1, rfl⟩ := out_map_ok (o := xStepE c fp ev 0 (.set k e) ⟨s.env, s.scal, fun _ => 0⟩) h
    obtain ⟨x, _, rfl⟩ := out_map_ok (o := ev s.env (e s.scal)) h1
    rfl
  mset k e s s' h := by
    obtain ⟨z, h1, rfl⟩ := out_map_ok (o := xStepE c fp ev 0 (.mset k e) ⟨s.env, s.scal, fun _ => 0⟩) h
    obtain ⟨x, _, rfl⟩ := out_map_ok (o := ev s.env (e s.scal)) h1
    rfl
  get r k i s s' h := by
    obtain ⟨z, h1, rfl⟩ := out_map_ok (o := xStepE c fp ev 0 (.get r k i) ⟨s.env, s.scal, fun _ => 0⟩) h
    unfold xStepE at h1
    dsimp only at h1
    by_cases hi : i s.scal < c.N
    · rw [if_pos hi] at h1; cases h1; exact ⟨_, rfl⟩
    · rw [if_neg hi] at h1; cases h1
  mget r k i s s' h := by
    obtain ⟨z, h1, rfl⟩ := out_map_ok (o := xStepE c fp ev 0 (.mget r k i) ⟨s.env, s.scal, fun _ => 0⟩) h
    unfold xStepE at h1
    dsimp only at h1
    by_cases hi : i s.scal < c.N
    · rw [if_pos hi] at h1; cases h1; exact ⟨_, rfl⟩
    · rw [if_neg hi] at h1; cases h1
  ask r q k s s' h := by
    obtain ⟨z, h1, rfl⟩ := out_map_ok (o := xStepE c fp ev 0 (.ask r q k) ⟨s.env, s.scal, fun _ => 0⟩) h
    obtain ⟨x, _, rfl⟩ := out_map_ok (o := xAsk c q (s.env.msk k)) h1
    exact ⟨_, rfl⟩
  red r o k s s' h := by
    obtain ⟨z, h1, rfl⟩ := out_map_ok (o := xStepE c fp ev 0 (.red r o k) ⟨s.env, s.scal, fun _ => 0⟩) h
    obtain ⟨x, _, rfl⟩ := out_map_ok (o := xRed c fp o (s.env.vec k)) h1
    exact ⟨_, rfl⟩
theorem x_ld (k a : Nat) (m : Mem (BitVec c.w)) (s : XLoc c) (n : Nat) : forRange n (fun i s' => (xBackend c fp ev).ld k i (m (a + i)) s') s =
    ({ s with env := { s.env with vec := fun j => if j = k then forRange n (fun i d => setElt c d i (m (a + i))) (s.env.vec k) else s.env.vec j } } : XLoc c) := by
  induction n with
  | zero =>
    show s = _
    have : (fun j => if j = k then s.env.vec k else s.env.vec j) = s.env.vec := funext fun j => by split <;> simp_all
    show s = ({ s with env := { s.env with vec := fun j => if j = k then s.env.vec k else s.env.vec j } } : XLoc c)
    rw [this]
  | succ n ih =>
    show (xBackend c fp ev).ld k n _ _ = _
    rw [ih]
    show (⟨⟨_, _, _⟩, _⟩ : XLoc c) = ⟨⟨_, _, _⟩, _⟩
    congr 2
    funext j
    by_cases h : j = k
    · rw [if_pos h, if_pos h]
      show setElt c (if k = k then _ else _) n _ = _
      rw [if_pos rfl]; rfl
    · rw [if_neg h, if_neg h]
      show (if j = k then _ else _) = _
      rw [if_neg h]
theorem x_big (hc : c.Ok) (len : Nat) (p : PrimE c.w E) (s s' : XState c) (h : xStepE c fp ev len p s = .ok s') :
    (xBackend c fp ev).big len p s.loc s.mem = .ok (s'.loc, s'.mem) := by
  have hpos := hc.pos
  cases p with
  | own f =>
    have h : Out.ofUb ((f s.scal s.mem).map _) = .ok s' := h
    show Out.ofUb ((f s.scal s.mem).map _) = _
    cases hf : f s.scal s.mem <;> rw [hf] at h <;> cases h
    rfl
  | load k a =>
    have h : Out.ofUb ((copyFrom c .element (s.env.vec k) (len - a s.scal) (from' s.mem (a s.scal))).map _) = .ok s' := h
    unfold copyFrom at h
    rw [if_neg (show ¬ Flag.element.aligned c.v.bytes = true by rw [elementFlag]; decide)] at h
    rw [forRangeM_if (fun i d => setElt c d i (from' s.mem (a s.scal) i))] at h
    show (if a s.scal + c.N ≤ len then _ else _) = _
    by_cases hl : c.N ≤ len - a s.scal
    · rw [if_pos hl] at h
      cases h
      rw [if_pos (by omega)]
      congr 1
      refine congrArg (fun z => (z, s.mem)) ?_
      exact x_ld k (a s.scal) s.mem s.loc c.N
    · rw [if_neg hl] at h; cases h
  | store k a =>
    have h : Out.ofUb ((copyTo c .element (s.env.vec k) (len - a s.scal) (from' s.mem (a s.scal))).map _) = .ok s' := h
    unfold copyTo at h
    rw [if_neg (show ¬ Flag.element.aligned c.v.bytes = true by rw [elementFlag]; decide)] at h
    rw [forRangeM_if (fun i (m : Mem (BitVec c.w)) => m.set i (elt c (s.env.vec k) i))] at h
    show (if a s.scal + c.N ≤ len then _ else _) = _
    by_cases hl : c.N ≤ len - a s.scal
    · rw [if_pos hl] at h
      cases h
      rw [if_pos (by omega)]
      congr 1
      refine congrArg (fun z => (s.loc, z)) ?_
      exact (patch_set (a s.scal) (fun i => elt c (s.env.vec k) i) s.mem c.N).symm
    · rw [if_neg hl] at h; cases h
  | set k e =>
    obtain ⟨x, hx, rfl⟩ := out_map_ok (o := ev s.env (e s.scal)) h
    have eq0 : xStepE c fp ev 0 (.set k e) ⟨s.env, s.scal, fun _ => 0⟩ = Out.map _ (ev s.env (e s.scal)) := rfl
    show Out.map _ (Out.map _ (xStepE c fp ev 0 (.set k e) ⟨s.env, s.scal, fun _ => 0⟩)) = _
    rw [eq0, hx]; rfl
  | mset k e =>
    obtain ⟨x, hx, rfl⟩ := out_map_ok (o := ev s.env (e s.scal)) h
    have eq0 : xStepE c fp ev 0 (.mset k e) ⟨s.env, s.scal, fun _ => 0⟩ = Out.map _ (ev s.env (e s.scal)) := rfl
    show Out.map _ (Out.map _ (xStepE c fp ev 0 (.mset k e) ⟨s.env, s.scal, fun _ => 0⟩)) = _
    rw [eq0, hx]; rfl
  | ask r q k =>
    obtain ⟨x, hx, rfl⟩ := out_map_ok (o := xAsk c q (s.env.msk k)) h
    have eq0 : xStepE c fp ev 0 (.ask r q k) ⟨s.env, s.scal, fun _ => 0⟩ = Out.map _ (xAsk c q (s.env.msk k)) := rfl
    show Out.map _ (Out.map _ (xStepE c fp ev 0 (.ask r q k) ⟨s.env, s.scal, fun _ => 0⟩)) = _
    rw [eq0, hx]; rfl
  | red r o k =>
    obtain ⟨x, hx, rfl⟩ := out_map_ok (o := xRed c fp o (s.env.vec k)) h
    have eq0 : xStepE c fp ev 0 (.red r o k) ⟨s.env, s.scal, fun _ => 0⟩ = Out.map _ (xRed c fp o (s.env.vec k)) := rfl
    show Out.map _ (Out.map _ (xStepE c fp ev 0 (.red r o k) ⟨s.env, s.scal, fun _ => 0⟩)) = _
    rw [eq0, hx]; rfl
  | get r k i =>
    show Out.map _ (Out.map _ (xStepE c fp ev 0 (.get r k i) ⟨s.env, s.scal, fun _ => 0⟩)) = _
    by_cases hi : i s.scal < c.N
    · have h := (if_pos hi).symm.trans (h : (if i s.scal < c.N then _ else _) = _)
      cases h
      have eq0 : xStepE c fp ev 0 (.get r k i) ⟨s.env, s.scal, fun _ => 0⟩ = if i s.scal < c.N then _ else _ := rfl
      rw [eq0, if_pos hi]; rfl
    · cases (if_neg hi).symm.trans (h : (if i s.scal < c.N then _ else _) = _)
  | mget r k i =>
    show Out.map _ (Out.map _ (xStepE c fp ev 0 (.mget r k i) ⟨s.env, s.scal, fun _ => 0⟩)) = _
    by_cases hi : i s.scal < c.N
    · have h := (if_pos hi).symm.trans (h : (if i s.scal < c.N then _ else _) = _)
      cases h
      have eq0 : xStepE c fp ev 0 (.mget r k i) ⟨s.env, s.scal, fun _ => 0⟩ = if i s.scal < c.N then _ else _ := rfl
      rw [eq0, if_pos hi]; rfl
    · cases (if_neg hi).symm.trans (h : (if i s.scal < c.N then _ else _) = _)
end x86

section generic
variable {w N : Nat} {S : Scalar (BitVec w)} {E : Kind → Type} {ev : GEnv w N → {k : Kind} → E k → Out (GVal w N k)}
def GStateW.loc (s : GStateW w N) : GLoc w N := ⟨s.env, s.scal⟩
theorem gBackend_lawful : (gBackend S ev).Lawful where
  ld _ _ _ _ := rfl
  own _ _ := rfl
  set k e s s' h := by
    obtain ⟨z, h1, rfl⟩ := out_map_ok (o := gStepE S ev 0 (.set k e) ⟨s.env, s.scal, fun _ => 0⟩) h
    obtain ⟨x, _, rfl⟩ := out_map_ok (o := ev s.env (e s.scal)) h1
    rfl
  mset k e s s' h := by
    obtain ⟨z, h1, rfl⟩ := out_map_ok (o := gStepE S ev 0 (.mset k e) ⟨s.env, s.scal, fun _ => 0⟩) h
    obtain ⟨x, _, rfl⟩ := out_map_ok (o := ev s.env (e s.scal)) h1
    rfl
  get r k i s s' h := by
    obtain ⟨z, h1, rfl⟩ := out_map_ok (o := gStepE S ev 0 (.get r k i) ⟨s.env, s.scal, fun _ => 0⟩) h
    unfold gStepE at h1
    dsimp only at h1
    by_cases hi : i s.scal < N
    · rw [if_pos hi] at h1; cases h1; exact ⟨_, rfl⟩
    · rw [if_neg hi] at h1; cases h1
  mget r k i s s' h := by
    obtain ⟨z, h1, rfl⟩ := out_map_ok (o := gStepE S ev 0 (.mget r k i) ⟨s.env, s.scal, fun _ => 0⟩) h
    unfold gStepE at h1
    dsimp only at h1
    by_cases hi : i s.scal < N
    · rw [if_pos hi] at h1; cases h1; exact ⟨_, rfl⟩
    · rw [if_neg hi] at h1; cases h1
  ask r q k s s' h := by
    obtain ⟨z, h1, rfl⟩ := out_map_ok (o := gStepE S ev 0 (.ask r q k) ⟨s.env, s.scal, fun _ => 0⟩) h
    obtain ⟨x, _, rfl⟩ := out_map_ok (o := gAsk q (s.env.msk k)) h1
    exact ⟨_, rfl⟩
  red r o k s s' h := by
    obtain ⟨z, h1, rfl⟩ := out_map_ok (o := gStepE S ev 0 (.red r o k) ⟨s.env, s.scal, fun _ => 0⟩) h
    obtain ⟨x, _, rfl⟩ := out_map_ok (o := gRed S o (s.env.vec k)) h1
    exact ⟨_, rfl⟩
theorem g_ld (k a : Nat) (m : Mem (BitVec w)) (s : GLoc w N) (n : Nat) : forRange n (fun i s' => (gBackend S ev).ld k i (m (a + i)) s') s =
    ({ s with env := { s.env with vec := fun j => if j = k then ⟨forRange n (fun i d => d.set i (m (a + i))) (s.env.vec k).data⟩ else s.env.vec j } } : GLoc w N) := by
  induction n with
  | zero =>
    have : (fun j => if j = k then (⟨(s.env.vec k).data⟩ : GSimd (BitVec w) N) else s.env.vec j) = s.env.vec := funext fun j => by split <;> simp_all
    show s = ({ s with env := { s.env with vec := fun j => if j = k then ⟨(s.env.vec k).data⟩ else s.env.vec j } } : GLoc w N)
    rw [this]
  | succ n ih =>
    show (gBackend S ev).ld k n _ _ = _
    rw [ih]
    show (⟨⟨_, _, _, _⟩, _⟩ : GLoc w N) = ⟨⟨_, _, _, _⟩, _⟩
    congr 2
    funext j
    by_cases h : j = k
    · rw [if_pos h, if_pos h]
      show (⟨Mem.set (if k = k then _ else _ : GSimd (BitVec w) N).data n _⟩ : GSimd (BitVec w) N) = _
      rw [if_pos rfl]; rfl
    · rw [if_neg h, if_neg h]
      show (if j = k then _ else _) = _
      rw [if_neg h]
theorem g_big (len : Nat) (p : PrimE w E) (s s' : GStateW w N) (h : gStepE S ev len p s = .ok s') :
    (gBackend S ev).big len p s.loc s.mem = .ok (s'.loc, s'.mem) := by
  cases p with
  | own f =>
    have h : Out.ofUb ((f s.scal s.mem).map _) = .ok s' := h
    show Out.ofUb ((f s.scal s.mem).map _) = _
    cases hf : f s.scal s.mem <;> rw [hf] at h <;> cases h
    rfl
  | load k a =>
    have h : (if a s.scal + N ≤ len then _ else _) = Out.ok s' := h
    show (if a s.scal + N ≤ len then _ else _) = _
    by_cases hl : a s.scal + N ≤ len
    · rw [if_pos hl] at h ⊢
      cases h
      congr 1
      refine congrArg (fun z => (z, s.mem)) ?_
      exact g_ld k (a s.scal) s.mem s.loc N
    · rw [if_neg hl] at h; cases h
  | store k a =>
    have h : (if a s.scal + N ≤ len then _ else _) = Out.ok s' := h
    show (if a s.scal + N ≤ len then _ else _) = _
    by_cases hl : a s.scal + N ≤ len
    · rw [if_pos hl] at h ⊢
      cases h
      congr 1
      refine congrArg (fun z => (s.loc, z)) ?_
      exact (patch_set (a s.scal) (fun i => (s.env.vec k).data i) s.mem N).symm
    · rw [if_neg hl] at h; cases h
  | set k e =>
    obtain ⟨x, hx, rfl⟩ := out_map_ok (o := ev s.env (e s.scal)) h
    have eq0 : gStepE S ev 0 (.set k e) ⟨s.env, s.scal, fun _ => 0⟩ = Out.map _ (ev s.env (e s.scal)) := rfl
    show Out.map _ (Out.map _ (gStepE S ev 0 (.set k e) ⟨s.env, s.scal, fun _ => 0⟩)) = _
    rw [eq0, hx]; rfl
  | mset k e =>
    obtain ⟨x, hx, rfl⟩ := out_map_ok (o := ev s.env (e s.scal)) h
    have eq0 : gStepE S ev 0 (.mset k e) ⟨s.env, s.scal, fun _ => 0⟩ = Out.map _ (ev s.env (e s.scal)) := rfl
    show Out.map _ (Out.map _ (gStepE S ev 0 (.mset k e) ⟨s.env, s.scal, fun _ => 0⟩)) = _
    rw [eq0, hx]; rfl
  | ask r q k =>
    obtain ⟨x, hx, rfl⟩ := out_map_ok (o := gAsk q (s.env.msk k)) h
    have eq0 : gStepE S ev 0 (.ask r q k) ⟨s.env, s.scal, fun _ => 0⟩ = Out.map _ (gAsk q (s.env.msk k)) := rfl
    show Out.map _ (Out.map _ (gStepE S ev 0 (.ask r q k) ⟨s.env, s.scal, fun _ => 0⟩)) = _
    rw [eq0, hx]; rfl
  | red r o k =>
    obtain ⟨x, hx, rfl⟩ := out_map_ok (o := gRed S o (s.env.vec k)) h
    have eq0 : gStepE S ev 0 (.red r o k) ⟨s.env, s.scal, fun _ => 0⟩ = Out.map _ (gRed S o (s.env.vec k)) := rfl
    show Out.map _ (Out.map _ (gStepE S ev 0 (.red r o k) ⟨s.env, s.scal, fun _ => 0⟩)) = _
    rw [eq0, hx]; rfl
  | get r k i =>
    show Out.map _ (Out.map _ (gStepE S ev 0 (.get r k i) ⟨s.env, s.scal, fun _ => 0⟩)) = _
    by_cases hi : i s.scal < N
    · have h := (if_pos hi).symm.trans (h : (if i s.scal < N then _ else _) = _)
      cases h
      have eq0 : gStepE S ev 0 (.get r k i) ⟨s.env, s.scal, fun _ => 0⟩ = if i s.scal < N then _ else _ := rfl
      rw [eq0, if_pos hi]; rfl
    · cases (if_neg hi).symm.trans (h : (if i s.scal < N then _ else _) = _)
  | mget r k i =>
    show Out.map _ (Out.map _ (gStepE S ev 0 (.mget r k i) ⟨s.env, s.scal, fun _ => 0⟩)) = _
    by_cases hi : i s.scal < N
    · have h := (if_pos hi).symm.trans (h : (if i s.scal < N then _ else _) = _)
      cases h
      have eq0 : gStepE S ev 0 (.mget r k i) ⟨s.env, s.scal, fun _ => 0⟩ = if i s.scal < N then _ else _ := rfl
      rw [eq0, if_pos hi]; rfl
    · cases (if_neg hi).symm.trans (h : (if i s.scal < N then _ else _) = _)
end generic
end Dpm.X86
