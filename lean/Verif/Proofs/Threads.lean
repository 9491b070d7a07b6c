import Verif.Model.Threads
import Verif.Props.Exec
/-
Threads that keep to their own elements do not notice each other.
-/
namespace Dpm.X86
open Dpm.Reg Dpm.Util Dpm.Generic Dpm.GenericMath

section
variable {w : Nat} {E : Kind → Type} {B : Backend w E} {len : Nat} {R W : Nat → Prop}
/-- This step, made with memory `m`, leads to `c'` and `m'`, accesses only elements in `R`, and changes only elements in `W`. -/
structure Framed (B : Backend w E) (len : Nat) (R W : Nat → Prop) (c : Conf B) (m : Mem (BitVec w)) (c' : Conf B) (m' : Mem (BitVec w)) : Prop where
  frame : ∀ x : Mem (BitVec w), (∀ p, R p → x p = m p) → ∃ x', tstep B len c x = .ok (c', x') ∧ (∀ p, R p → x' p = m' p) ∧ ∀ p, ¬ W p → x' p = x p
  here : tstep B len c m = .ok (c', m')
  rd : ∀ p, c.readsNext B p → R p
  wr : ∀ p, c.writesNext B p → W p
inductive Steps (B : Backend w E) (len : Nat) (R W : Nat → Prop) : Nat → Conf B → Mem (BitVec w) → Conf B → Mem (BitVec w) → Prop
  | nil (c m) : Steps B len R W 0 c m c m
  | cons {n c m c1 m1 c2 m2} : Framed B len R W c m c1 m1 → Steps B len R W n c1 m1 c2 m2 → Steps B len R W (n + 1) c m c2 m2
theorem Steps.trans {n k : Nat} {c c1 c2 : Conf B} {m m1 m2 : Mem (BitVec w)} (h : Steps B len R W n c m c1 m1) (h' : Steps B len R W k c1 m1 c2 m2) :
    Steps B len R W (n + k) c m c2 m2 := by
  induction h with
  | nil => rw [Nat.zero_add]; exact h'
  | cons f _ ih => rw [Nat.add_right_comm]; exact .cons f (ih h')
theorem Steps.one {c c1 : Conf B} {m m1 : Mem (BitVec w)} (h : Framed B len R W c m c1 m1) : Steps B len R W 1 c m c1 m1 := .cons h (.nil _ _)
/-- nothing to do: nothing changes -/
theorem Steps.idle {n : Nat} {c c' : Conf B} {m m' : Mem (BitVec w)} (h : Steps B len R W n c m c' m') (hc : c.todo = []) : c' = c ∧ m' = m := by
  induction h with
  | nil => exact ⟨rfl, rfl⟩
  | @cons n c m c1 m1 c2 m2 f _ ih =>
    obtain ⟨t, s⟩ := c
    dsimp only at hc
    subst hc
    have h := f.here
    cases h
    exact ih rfl

/-! ### noninterference -/
/-- Started in `c` with array `m` and left alone, the thread finishes within `k` steps in the state `s`, leaving `m'` on its elements. -/
def Alone (B : Backend w E) (len : Nat) (R W : Nat → Prop) (k : Nat) (c : Conf B) (m : Mem (BitVec w)) (s : B.St) (m' : Mem (BitVec w)) : Prop :=
  Steps B len R W k c m ⟨[], s⟩ m'
/-- where the threads are after some steps -/
def Inv (B : Backend w E) (len : Nat) (R W : Nat → Nat → Prop) (k : Nat → Nat) (s : Nat → B.St) (m' : Nat → Mem (BitVec w)) (m0 : Mem (BitVec w)) (p : Pool B) : Prop :=
  (∀ t, ∃ m, Steps B len (R t) (W t) (k t) (p.conf t) m ⟨[], s t⟩ (m' t) ∧ ∀ x, R t x → p.mem x = m x) ∧ ∀ x, (∀ t, ¬ W t x) → p.mem x = m0 x
theorem inv_step {R W : Nat → Nat → Prop} (hdis : ∀ t u, t ≠ u → ∀ x, R t x → ¬ W u x) {k : Nat → Nat} {s : Nat → B.St} {m' : Nat → Mem (BitVec w)}
    {m0 : Mem (BitVec w)} {p : Pool B} (h : Inv B len R W k s m' m0 p) (t : Nat) :
    ∃ q, pstep B len t p = .ok q ∧ Inv B len R W (fun u => if u = t then k t - 1 else k u) s m' m0 q := by
  obtain ⟨m, hs, hm⟩ := h.1 t
  cases hk : k t with
  | zero =>
    rw [hk] at hs
    generalize hc : p.conf t = c at hs
    cases hs
    have e : pstep B len t p = .ok ⟨fun u => if u = t then ⟨[], s t⟩ else p.conf u, p.mem⟩ := by unfold pstep; rw [hc]; rfl
    refine ⟨_, e, fun u => ?_, h.2⟩
    obtain ⟨y, h1, h2⟩ := h.1 u
    by_cases hu : u = t
    · subst hu
      rw [hk, hc] at h1
      refine ⟨y, ?_, h2⟩
      dsimp only
      rw [if_pos rfl, if_pos rfl]
      exact h1
    · refine ⟨y, ?_, h2⟩
      dsimp only
      rw [if_neg hu, if_neg hu]; exact h1
  | succ n =>
    rw [hk] at hs
    generalize hc : p.conf t = c at hs
    cases hs with
    | @cons _ _ _ c1 m1 _ _ f hs =>
      obtain ⟨x', h1, h2, h3⟩ := f.frame p.mem hm
      have e : pstep B len t p = .ok ⟨fun u => if u = t then c1 else p.conf u, x'⟩ := by unfold pstep; rw [hc, h1]; rfl
      refine ⟨_, e, fun u => ?_, fun x hx => (h3 x (hx t)).trans (h.2 x hx)⟩
      by_cases hu : u = t
      · subst hu
        refine ⟨m1, ?_, h2⟩
        dsimp only
        rw [if_pos rfl, if_pos rfl]
        exact hs
      · obtain ⟨y, h4, h5⟩ := h.1 u
        refine ⟨y, ?_, fun x hx => (h3 x (hdis u t hu x hx)).trans (h5 x hx)⟩
        dsimp only
        rw [if_neg hu, if_neg hu]; exact h4
/-- the next step of a thread, for every array that agrees with the present one on its elements -/
theorem inv_next {R W : Nat → Nat → Prop} {k : Nat → Nat} {s : Nat → B.St} {m' : Nat → Mem (BitVec w)} {m0 : Mem (BitVec w)} {p : Pool B}
    (h : Inv B len R W k s m' m0 p) (t : Nat) : ∃ (c1 : Conf B) (m1 : Mem (BitVec w)), ∀ x : Mem (BitVec w), (∀ i, R t i → x i = p.mem i) →
      ∃ x', tstep B len (p.conf t) x = .ok (c1, x') ∧ (∀ i, R t i → x' i = m1 i) ∧ ∀ i, ¬ W t i → x' i = x i := by
  obtain ⟨m, hs, hm⟩ := h.1 t
  generalize k t = n at hs
  generalize p.conf t = c at hs ⊢
  cases hs with
  | nil => exact ⟨_, p.mem, fun x hx => ⟨x, rfl, hx, fun _ _ => rfl⟩⟩
  | @cons _ _ _ c1 m1 _ _ f _ => exact ⟨c1, m1, fun x hx => f.frame x (fun i hi => (hx i hi).trans (hm i hi))⟩
/-- steps of different threads commute -/
theorem inv_commute {R W : Nat → Nat → Prop} (hsub : ∀ t x, W t x → R t x) (hdis : ∀ t u, t ≠ u → ∀ x, R t x → ¬ W u x) {k : Nat → Nat} {s : Nat → B.St}
    {m' : Nat → Mem (BitVec w)} {m0 : Mem (BitVec w)} {p : Pool B} (h : Inv B len R W k s m' m0 p) (t u : Nat) :
    runPool B len [t, u] p = runPool B len [u, t] p := by
  by_cases htu : t = u
  · rw [htu]
  obtain ⟨c1, m1, g1⟩ := inv_next h t
  obtain ⟨c2, m2, g2⟩ := inv_next h u
  obtain ⟨x, a1, a2, a3⟩ := g1 p.mem (fun _ _ => rfl)
  obtain ⟨y, b1, b2, b3⟩ := g2 p.mem (fun _ _ => rfl)
  obtain ⟨x', a4, a5, a6⟩ := g2 x (fun i hi => a3 i (hdis u t (fun h => htu h.symm) i hi))
  obtain ⟨y', b4, b5, b6⟩ := g1 y (fun i hi => b3 i (hdis t u htu i hi))
  have e : x' = y' := by
    funext i
    by_cases h1 : R t i
    · rw [a6 i (hdis t u htu i h1), a2 i h1, b5 i h1]
    · by_cases h2 : R u i
      · rw [a5 i h2, b6 i (hdis u t (fun h => htu h.symm) i h2), b2 i h2]
      · rw [a6 i (fun hw => h2 (hsub u i hw)), a3 i (fun hw => h1 (hsub t i hw)), b6 i (fun hw => h1 (hsub t i hw)), b3 i (fun hw => h2 (hsub u i hw))]
  have l : runPool B len [t, u] p = .ok ⟨fun v => if v = u then c2 else if v = t then c1 else p.conf v, x'⟩ := by
    unfold runPool pstep
    rw [a1]
    show (runPool B len [u] ⟨fun v => if v = t then c1 else p.conf v, x⟩) = _
    unfold runPool pstep
    dsimp only
    rw [if_neg (fun h => htu h.symm), a4]; rfl
  have r : runPool B len [u, t] p = .ok ⟨fun v => if v = t then c1 else if v = u then c2 else p.conf v, y'⟩ := by
    unfold runPool pstep
    rw [b1]
    show (runPool B len [t] ⟨fun v => if v = u then c2 else p.conf v, y⟩) = _
    unfold runPool pstep
    dsimp only
    rw [if_neg htu, b4]; rfl
  rw [l, r, e]
  refine congrArg (fun z => Out.ok (⟨z, y'⟩ : Pool B)) (funext fun v => ?_)
  by_cases h1 : v = u
  · rw [if_pos h1, if_neg (fun h => htu (h.symm.trans h1)), if_pos h1]
  · rw [if_neg h1, if_neg h1]
/-- Threads whose elements are not changed by others: in every schedule nothing is undefined, no two threads are about to access the same element
with one of them writing, steps of two threads commute, whoever has finished has done what it does alone, and every thread given `k` steps has finished. -/
theorem noninterference {R W : Nat → Nat → Prop} (hsub : ∀ t x, W t x → R t x) (hdis : ∀ t u, t ≠ u → ∀ x, R t x → ¬ W u x) {k : Nat → Nat} {s : Nat → B.St}
    {m' : Nat → Mem (BitVec w)} {m0 : Mem (BitVec w)} {c : Nat → Conf B} (h : ∀ t, Alone B len (R t) (W t) (k t) (c t) m0 (s t) (m' t)) (σ : List Nat) :
    ∃ q, runPool B len σ ⟨c, m0⟩ = .ok q ∧
      (∀ t u x, t ≠ u → (q.conf t).writesNext B x → ¬ (q.conf u).writesNext B x ∧ ¬ (q.conf u).readsNext B x) ∧
      (∀ t u, runPool B len [t, u] q = runPool B len [u, t] q) ∧
      (∀ t, k t ≤ σ.count t → (q.conf t).todo = []) ∧
      (∀ t, (q.conf t).todo = [] → (q.conf t).st = s t ∧ ∀ x, R t x → q.mem x = m' t x) ∧
      ∀ x, (∀ t, ¬ W t x) → q.mem x = m0 x := by
  have key : ∀ (σ : List Nat) (k : Nat → Nat) (p : Pool B), Inv B len R W k s m' m0 p → ∃ q, runPool B len σ p = .ok q ∧ Inv B len R W (fun t => k t - σ.count t) s m' m0 q := by
    intro σ
    induction σ with
    | nil => exact fun k p hp => ⟨p, rfl, by simpa using hp⟩
    | cons t ts ih =>
      intro k p hp
      obtain ⟨q, h1, h2⟩ := inv_step hdis hp t
      obtain ⟨q', h3, h4⟩ := ih _ q h2
      refine ⟨q', by unfold runPool; rw [h1]; exact h3, ?_⟩
      have : (fun u => k u - (t :: ts).count u) = fun u => (if u = t then k t - 1 else k u) - ts.count u := by
        funext u
        by_cases hu : u = t
        · subst hu; rw [if_pos rfl, List.count_cons_self]; omega
        · rw [if_neg hu, List.count_cons_of_ne (fun h => hu h.symm)]
      rw [this]; exact h4
  obtain ⟨q, h1, h2⟩ := key σ k ⟨c, m0⟩ ⟨fun t => ⟨m0, h t, fun _ _ => rfl⟩, fun _ _ => rfl⟩
  have noR : ∀ t x, (q.conf t).readsNext B x → R t x := fun t x hx => by
    obtain ⟨m, h3, _⟩ := h2.1 t
    dsimp only at h3
    generalize k t - σ.count t = n at h3
    generalize q.conf t = cc at *
    cases h3 with
    | nil => obtain ⟨_, _, _, _, h, _⟩ := hx; cases h
    | cons f _ => exact f.rd x hx
  have noW : ∀ t x, (q.conf t).writesNext B x → W t x := fun t x hx => by
    obtain ⟨m, h3, _⟩ := h2.1 t
    dsimp only at h3
    generalize k t - σ.count t = n at h3
    generalize q.conf t = cc at *
    cases h3 with
    | nil => obtain ⟨_, _, _, _, h, _⟩ := hx; cases h
    | cons f _ => exact f.wr x hx
  refine ⟨q, h1, fun t u x htu hw => ⟨fun hw' => ?_, fun hr => ?_⟩, inv_commute hsub hdis h2, fun t ht => ?_, fun t ht => ?_, h2.2⟩
  · exact hdis u t (fun h => htu h.symm) x (hsub u x (noW u x hw')) (noW t x hw)
  · exact hdis u t (fun h => htu h.symm) x (noR u x hr) (noW t x hw)
  · obtain ⟨m, h3, _⟩ := h2.1 t
    dsimp only at h3
    rw [show k t - σ.count t = 0 by omega] at h3
    generalize q.conf t = cc at *
    cases h3; rfl
  · obtain ⟨m, h3, h4⟩ := h2.1 t
    obtain ⟨e1, e2⟩ := h3.idle ht
    refine ⟨by rw [← e1], fun x hx => ?_⟩
    rw [h4 x hx, e2]
end
end Dpm.X86
