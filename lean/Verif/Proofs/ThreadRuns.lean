import Verif.Proofs.Threads
/-
From the runs of a single thread (Model/Imperative.lean) to its runs one access at a time, with the elements it accesses.
-/
namespace Dpm.X86
open Dpm.Reg Dpm.Util Dpm.Generic Dpm.GenericMath

section
variable {w : Nat} {E : Kind → Type}
/-- which statements change the variables of the client -/
structure Backend.Lawful (B : Backend w E) : Prop where
  ld : ∀ k i v s, B.scal (B.ld k i v s) = B.scal s
  own : ∀ s v, B.scal (B.setScal s v) = v
  set : ∀ k e s s', B.loc (.set k e) s = .ok s' → B.scal s' = B.scal s
  mset : ∀ k e s s', B.loc (.mset k e) s = .ok s' → B.scal s' = B.scal s
  get : ∀ r k i s s', B.loc (.get r k i) s = .ok s' → ∃ v, B.scal s' = putScal (B.scal s) r v
  mget : ∀ r k i s s', B.loc (.mget r k i) s = .ok s' → ∃ v, B.scal s' = putScal (B.scal s) r v
  ask : ∀ r q k s s', B.loc (.ask r q k) s = .ok s' → ∃ v, B.scal s' = putScal (B.scal s) r v
  red : ∀ r o k s s', B.loc (.red r o k) s = .ok s' → ∃ v, B.scal s' = putScal (B.scal s) r v
/-- an elementary statement as a whole -/
def Backend.big (B : Backend w E) (len : Nat) : PrimE w E → B.St → Mem (BitVec w) → Out (B.St × Mem (BitVec w))
  | .own f, s, m => Out.ofUb ((f (B.scal s) m).map fun q => (B.setScal s q.1, q.2))
  | .load k a, s, m => if a (B.scal s) + B.N ≤ len then .ok (forRange B.N (fun i s' => B.ld k i (m (a (B.scal s) + i)) s') s, m) else .ub
  | .store k a, s, m => if a (B.scal s) + B.N ≤ len then .ok (s, forRange B.N (fun i m => m.set (a (B.scal s) + i) (B.st k i s)) m) else .ub
  | p, s, m => (B.loc p s).map fun s' => (s', m)

/-- The client's own statement, in the state `s` of its variables, reads only elements in `R` and changes only elements in `W`. -/
structure OwnOk (R W : Nat → Prop) (f : Scal → Mem (BitVec w) → Option (Scal × Mem (BitVec w))) (s : Scal) : Prop where
  frame : ∀ m x s' r, f s m = some (s', r) → (∀ p, R p → x p = m p) → ∃ r', f s x = some (s', r') ∧ (∀ p, R p → r' p = r p) ∧ ∀ p, ¬ W p → r' p = x p
/-- The program, started with variables satisfying `P`, keeps to the elements in `R` and `W`; afterwards `Q` holds. -/
inductive Keeps (N : Nat) (R W : Nat → Prop) : (Scal → Prop) → StmOf (PrimE w E) → (Scal → Prop) → Prop
  | own {P Q f} : (∀ s, P s → OwnOk R W f s) → (∀ s m s' m', P s → f s m = some (s', m') → Q s') → Keeps N R W P (.prim (.own f)) Q
  | load {P k a} : (∀ s, P s → ∀ i, i < N → R (a s + i)) → Keeps N R W P (.prim (.load k a)) P
  | store {P k a} : (∀ s, P s → ∀ i, i < N → W (a s + i)) → Keeps N R W P (.prim (.store k a)) P
  | set {P k e} : Keeps N R W P (.prim (.set k e)) P
  | mset {P k e} : Keeps N R W P (.prim (.mset k e)) P
  | get {P Q r k i} : (∀ s v, P s → Q (putScal s r v)) → Keeps N R W P (.prim (.get r k i)) Q
  | mget {P Q r k i} : (∀ s v, P s → Q (putScal s r v)) → Keeps N R W P (.prim (.mget r k i)) Q
  | ask {P Q r q k} : (∀ s v, P s → Q (putScal s r v)) → Keeps N R W P (.prim (.ask r q k)) Q
  | red {P Q r o k} : (∀ s v, P s → Q (putScal s r v)) → Keeps N R W P (.prim (.red r o k)) Q
  | seq {P Q Q' a b} : Keeps N R W P a Q → Keeps N R W Q b Q' → Keeps N R W P (.seq a b) Q'
  | ite {P Q b p q} : Keeps N R W (fun s => P s ∧ b s = true) p Q → Keeps N R W (fun s => P s ∧ b s = false) q Q → Keeps N R W P (.ite b p q) Q
  | loop {P b p} : Keeps N R W (fun s => P s ∧ b s = true) p P → Keeps N R W P (.loop b p) (fun s => P s ∧ b s = false)
  | weaken {P P' Q Q' p} : (∀ s, P s → P' s) → (∀ s, Q' s → Q s) → Keeps N R W P' p Q' → Keeps N R W P p Q

variable {B : Backend w E} {len : Nat} {R W : Nat → Prop}
theorem readsNext_rd {k a i : Nat} {r : List (Item w E)} {s : B.St} {p : Nat} (h : Conf.readsNext B ⟨.rd k a i :: r, s⟩ p) : i < B.N ∧ p = a + i := by
  obtain ⟨_, _, _, _, h, h1, h2⟩ := h
  cases h; exact ⟨h1, h2⟩
theorem writesNext_wr {k a i : Nat} {r : List (Item w E)} {s : B.St} {p : Nat} (h : Conf.writesNext B ⟨.wr k a i :: r, s⟩ p) : i < B.N ∧ p = a + i := by
  obtain ⟨_, _, _, _, h, h1, h2⟩ := h
  cases h; exact ⟨h1, h2⟩
/-- a step that does not depend on the array -/
theorem framed_local {q : StmOf (PrimE w E)} {r : List (Item w E)} {s : B.St} {c' : Conf B} (h : ∀ m, tstep B len ⟨.stm q :: r, s⟩ m = .ok (c', m)) (m : Mem (BitVec w)) :
    Framed B len R W ⟨.stm q :: r, s⟩ m c' m :=
  ⟨fun x hx => ⟨x, h x, hx, fun _ _ => rfl⟩, h m, fun p hp => (by obtain ⟨_, _, _, _, h, _⟩ := hp; cases h), fun p hp => (by obtain ⟨_, _, _, _, h, _⟩ := hp; cases h)⟩
theorem rd_steps (k a : Nat) (r : List (Item w E)) (m : Mem (BitVec w)) (s : B.St) (hl : a + B.N ≤ len) (hR : ∀ i, i < B.N → R (a + i)) (d : Nat) :
    ∀ i, i + d = B.N → Steps B len R W (d + 1) ⟨.rd k a i :: r, forRange i (fun i s' => B.ld k i (m (a + i)) s') s⟩ m
      ⟨r, forRange B.N (fun i s' => B.ld k i (m (a + i)) s') s⟩ m := by
  induction d with
  | zero =>
    intro i hi
    have : i = B.N := by omega
    subst this
    have e : ∀ x, tstep B len ⟨.rd k a B.N :: r, forRange B.N (fun i s' => B.ld k i (m (a + i)) s') s⟩ x = .ok (⟨r, forRange B.N (fun i s' => B.ld k i (m (a + i)) s') s⟩, x) :=
      fun x => if_neg (by omega)
    exact .one ⟨fun x hx => ⟨x, e x, hx, fun _ _ => rfl⟩, e m, fun p hp => absurd (readsNext_rd hp).1 (by omega), fun p hp => (by obtain ⟨_, _, _, _, h, _⟩ := hp; cases h)⟩
  | succ d ih =>
    intro i hi
    have e : ∀ x, x (a + i) = m (a + i) → tstep B len ⟨.rd k a i :: r, forRange i (fun i s' => B.ld k i (m (a + i)) s') s⟩ x =
        .ok (⟨.rd k a (i + 1) :: r, forRange (i + 1) (fun i s' => B.ld k i (m (a + i)) s') s⟩, x) := fun x hx => by
      refine (if_pos (by omega)).trans ((if_pos (by omega)).trans ?_)
      rw [hx]; rfl
    exact .cons ⟨fun x hx => ⟨x, e x (hx _ (hR i (by omega))), hx, fun _ _ => rfl⟩, e m rfl, fun p hp => (by rw [(readsNext_rd hp).2]; exact hR i (by omega)),
      fun p hp => (by obtain ⟨_, _, _, _, h, _⟩ := hp; cases h)⟩ (ih (i + 1) (by omega))
theorem wr_steps (k a : Nat) (r : List (Item w E)) (m : Mem (BitVec w)) (s : B.St) (hl : a + B.N ≤ len) (hW : ∀ i, i < B.N → W (a + i)) (d : Nat) :
    ∀ i, i + d = B.N → Steps B len R W (d + 1) ⟨.wr k a i :: r, s⟩ (forRange i (fun i m => m.set (a + i) (B.st k i s)) m)
      ⟨r, s⟩ (forRange B.N (fun i m => m.set (a + i) (B.st k i s)) m) := by
  induction d with
  | zero =>
    intro i hi
    have : i = B.N := by omega
    subst this
    have e : ∀ x, tstep B len ⟨.wr k a B.N :: r, s⟩ x = .ok (⟨r, s⟩, x) := fun x => if_neg (by omega)
    exact .one ⟨fun x hx => ⟨x, e x, hx, fun _ _ => rfl⟩, e _, fun p hp => (by obtain ⟨_, _, _, _, h, _⟩ := hp; cases h), fun p hp => absurd (writesNext_wr hp).1 (by omega)⟩
  | succ d ih =>
    intro i hi
    have e : ∀ x, tstep B len ⟨.wr k a i :: r, s⟩ x = .ok (⟨.wr k a (i + 1) :: r, s⟩, x.set (a + i) (B.st k i s)) := fun x =>
      (if_pos (by omega)).trans (if_pos (by omega))
    refine .cons ⟨fun x hx => ⟨_, e x, fun p hp => ?_, fun p hp => ?_⟩, e _, fun p hp => (by obtain ⟨_, _, _, _, h, _⟩ := hp; cases h),
      fun p hp => (by rw [(writesNext_wr hp).2]; exact hW i (by omega))⟩ (ih (i + 1) (by omega))
    · unfold Mem.set
      split
      · rfl
      · exact hx p hp
    · exact Mem.set_ne _ _ (fun h => hp (h ▸ hW i (by omega)))

theorem big_local {p : PrimE w E} {r : List (Item w E)} {s s' : B.St} {m m' : Mem (BitVec w)}
    (ht : ∀ x, tstep B len ⟨.stm (.prim p) :: r, s⟩ x = (B.loc p s).map fun s' => (⟨r, s'⟩, x))
    (h : ((B.loc p s).map fun s' => (s', m)) = .ok (s', m')) : B.loc p s = .ok s' ∧ ∃ k, Steps B len R W k ⟨.stm (.prim p) :: r, s⟩ m ⟨r, s'⟩ m' := by
  cases hl : B.loc p s with
  | illFormed => rw [hl] at h; cases h
  | ub => rw [hl] at h; cases h
  | ok z =>
    rw [hl] at h
    cases h
    exact ⟨rfl, 1, .one (framed_local (fun x => by rw [ht, hl]; rfl) m)⟩

/-- A program that keeps to `R` and `W` does so one access at a time, and ends where the run as a whole ends. -/
theorem keeps_steps (hB : B.Lawful) {M : ExecOf (PrimE w E)} (loc : M.St → B.St) (mem : M.St → Mem (BitVec w)) (hscal : ∀ s, M.scal s = B.scal (loc s))
    (hstep : ∀ p s s', M.step p s = .ok s' → B.big len p (loc s) (mem s) = .ok (loc s', mem s')) {P Q : Scal → Prop} {prog : StmOf (PrimE w E)}
    (h : Keeps B.N R W P prog Q) : ∀ n s s', M.run n prog s = some (.ok s') → P (M.scal s) →
      Q (M.scal s') ∧ ∀ r, ∃ k, Steps B len R W k ⟨.stm prog :: r, loc s⟩ (mem s) ⟨r, loc s'⟩ (mem s') := by
  have prim : ∀ {p n s s'}, M.run n (.prim p) s = some (.ok s') → B.big len p (loc s) (mem s) = .ok (loc s', mem s') := fun {p n s s'} hr => by
    cases n with
    | zero => cases hr
    | succ n => rw [ExecOf.run] at hr; exact hstep _ _ _ (Option.some.inj hr)
  induction h with
  | @own P Q f h1 h2 =>
    intro n s s' hr hp
    have hb := prim hr
    rw [hscal] at hp
    cases hf : f (B.scal (loc s)) (mem s) with
    | none => rw [Backend.big, hf] at hb; cases hb
    | some q =>
      obtain ⟨v, y⟩ := q
      rw [Backend.big, hf] at hb
      have e1 : B.setScal (loc s) v = loc s' := congrArg (fun o : Out (B.St × Mem (BitVec w)) => match o with | .ok q => q.1 | _ => loc s') hb
      have e2 : y = mem s' := congrArg (fun o : Out (B.St × Mem (BitVec w)) => match o with | .ok q => q.2 | _ => mem s') hb
      subst e2
      refine ⟨?_, fun r => ⟨1, .one ⟨fun x hx => ?_, ?_, fun p hp => (by obtain ⟨_, _, _, _, h, _⟩ := hp; cases h), fun p hp => (by obtain ⟨_, _, _, _, h, _⟩ := hp; cases h)⟩⟩⟩
      · rw [hscal, ← e1, hB.own]
        exact h2 _ _ _ _ hp hf
      · obtain ⟨r', a1, a2, a3⟩ := (h1 _ hp).frame _ x _ _ hf hx
        refine ⟨r', ?_, a2, a3⟩
        show Out.ofUb _ = _
        rw [a1, ← e1]; rfl
      · show Out.ofUb _ = _
        rw [hf, ← e1]; rfl
  | @load P k a h1 =>
    intro n s s' hr hp
    have hb := prim hr
    rw [hscal] at hp
    rw [Backend.big] at hb
    by_cases hl : a (B.scal (loc s)) + B.N ≤ len
    · rw [if_pos hl] at hb
      have e1 := congrArg (fun o : Out (B.St × Mem (BitVec w)) => match o with | .ok q => q.1 | _ => loc s') hb
      have e2 : mem s = mem s' := congrArg (fun o : Out (B.St × Mem (BitVec w)) => match o with | .ok q => q.2 | _ => mem s') hb
      dsimp only at e1
      refine ⟨?_, fun r => ⟨1 + (B.N + 1), Steps.trans (.one (framed_local (fun x => rfl) _)) ?_⟩⟩
      · rw [hscal, ← e1]
        have : ∀ n, B.scal (forRange n (fun i s' => B.ld k i (mem s (a (B.scal (loc s)) + i)) s') (loc s)) = B.scal (loc s) := fun n => by
          induction n with
          | zero => rfl
          | succ n ih => exact (hB.ld _ _ _ _).trans ih
        rw [this]; exact hp
      · rw [← e1, ← e2]
        exact rd_steps k _ r (mem s) (loc s) hl (h1 _ hp) B.N 0 (by omega)
    · rw [if_neg hl] at hb; cases hb
  | @store P k a h1 =>
    intro n s s' hr hp
    have hb := prim hr
    have hp0 := hp
    rw [hscal] at hp
    rw [Backend.big] at hb
    by_cases hl : a (B.scal (loc s)) + B.N ≤ len
    · rw [if_pos hl] at hb
      have e1 : loc s = loc s' := congrArg (fun o : Out (B.St × Mem (BitVec w)) => match o with | .ok q => q.1 | _ => loc s') hb
      have e2 := congrArg (fun o : Out (B.St × Mem (BitVec w)) => match o with | .ok q => q.2 | _ => mem s') hb
      dsimp only at e2
      refine ⟨?_, fun r => ⟨1 + (B.N + 1), Steps.trans (.one (framed_local (fun x => rfl) _)) ?_⟩⟩
      · rw [hscal, ← e1]; exact hp
      · rw [← e1, ← e2]
        exact wr_steps k _ r (mem s) (loc s) hl (h1 _ hp) B.N 0 (by omega)
    · rw [if_neg hl] at hb; cases hb
  | set =>
    intro n s s' hr hp
    have hb := prim hr
    refine ⟨?_, fun r => (big_local (fun x => rfl) hb).2⟩
    rw [hscal, hB.set _ _ _ _ (big_local (R := R) (W := W) (len := len) (r := []) (fun x => rfl) hb).1, ← hscal]; exact hp
  | mset =>
    intro n s s' hr hp
    have hb := prim hr
    refine ⟨?_, fun r => (big_local (fun x => rfl) hb).2⟩
    rw [hscal, hB.mset _ _ _ _ (big_local (R := R) (W := W) (len := len) (r := []) (fun x => rfl) hb).1, ← hscal]; exact hp
  | get h1 =>
    intro n s s' hr hp
    have hb := prim hr
    refine ⟨?_, fun r => (big_local (fun x => rfl) hb).2⟩
    obtain ⟨v, hv⟩ := hB.get _ _ _ _ _ (big_local (R := R) (W := W) (len := len) (r := []) (fun x => rfl) hb).1
    rw [hscal, hv, ← hscal]; exact h1 _ _ hp
  | mget h1 =>
    intro n s s' hr hp
    have hb := prim hr
    refine ⟨?_, fun r => (big_local (fun x => rfl) hb).2⟩
    obtain ⟨v, hv⟩ := hB.mget _ _ _ _ _ (big_local (R := R) (W := W) (len := len) (r := []) (fun x => rfl) hb).1
    rw [hscal, hv, ← hscal]; exact h1 _ _ hp
  | ask h1 =>
    intro n s s' hr hp
    have hb := prim hr
    refine ⟨?_, fun r => (big_local (fun x => rfl) hb).2⟩
    obtain ⟨v, hv⟩ := hB.ask _ _ _ _ _ (big_local (R := R) (W := W) (len := len) (r := []) (fun x => rfl) hb).1
    rw [hscal, hv, ← hscal]; exact h1 _ _ hp
  | red h1 =>
    intro n s s' hr hp
    have hb := prim hr
    refine ⟨?_, fun r => (big_local (fun x => rfl) hb).2⟩
    obtain ⟨v, hv⟩ := hB.red _ _ _ _ _ (big_local (R := R) (W := W) (len := len) (r := []) (fun x => rfl) hb).1
    rw [hscal, hv, ← hscal]; exact h1 _ _ hp
  | @seq P Q Q' a b _ _ iha ihb =>
    intro n s s' hr hp
    cases n with
    | zero => cases hr
    | succ n =>
      rw [ExecOf.run] at hr
      cases ha : M.run n a s with
      | none => rw [ha] at hr; cases hr
      | some o =>
        rw [ha] at hr
        cases o with
        | ub => cases hr
        | illFormed => cases hr
        | ok s1 =>
          obtain ⟨q1, f1⟩ := iha n s s1 ha hp
          obtain ⟨q2, f2⟩ := ihb n s1 s' hr q1
          refine ⟨q2, fun r => ?_⟩
          obtain ⟨k1, g1⟩ := f1 (.stm b :: r)
          obtain ⟨k2, g2⟩ := f2 r
          exact ⟨_, Steps.trans (.one (framed_local (fun x => rfl) _)) (g1.trans g2)⟩
  | @ite P Q b p q _ _ ihp ihq =>
    intro n s s' hr hp
    cases n with
    | zero => cases hr
    | succ n =>
      rw [ExecOf.run] at hr
      cases hb : b (M.scal s) with
      | true =>
        rw [if_pos hb] at hr
        obtain ⟨q1, f1⟩ := ihp n s s' hr ⟨hp, hb⟩
        refine ⟨q1, fun r => ?_⟩
        obtain ⟨k1, g1⟩ := f1 r
        refine ⟨_, Steps.trans (.one (framed_local (fun x => ?_) _)) g1⟩
        show Out.ok _ = _
        rw [← hscal, hb]; rfl
      | false =>
        rw [if_neg (by rw [hb]; decide)] at hr
        obtain ⟨q1, f1⟩ := ihq n s s' hr ⟨hp, hb⟩
        refine ⟨q1, fun r => ?_⟩
        obtain ⟨k1, g1⟩ := f1 r
        refine ⟨_, Steps.trans (.one (framed_local (fun x => ?_) _)) g1⟩
        show Out.ok _ = _
        rw [← hscal, hb]; rfl
  | @loop P b p _ ihp =>
    intro n
    induction n using Nat.strongRecOn with
    | _ n ih =>
      intro s s' hr hp
      cases n with
      | zero => cases hr
      | succ n =>
        rw [ExecOf.run] at hr
        cases hb : b (M.scal s) with
        | false =>
          rw [if_neg (by rw [hb]; decide)] at hr
          cases hr
          refine ⟨⟨hp, hb⟩, fun r => ⟨1, .one (framed_local (fun x => ?_) _)⟩⟩
          show Out.ok _ = _
          rw [← hscal, hb]; rfl
        | true =>
          rw [if_pos hb] at hr
          cases n with
          | zero => cases hr
          | succ n =>
            rw [ExecOf.run] at hr
            cases ha : M.run n p s with
            | none => rw [ha] at hr; cases hr
            | some o =>
              rw [ha] at hr
              cases o with
              | ub => cases hr
              | illFormed => cases hr
              | ok s1 =>
                obtain ⟨q1, f1⟩ := ihp n s s1 ha ⟨hp, hb⟩
                obtain ⟨q2, f2⟩ := ih n (by omega) s1 s' hr q1
                refine ⟨q2, fun r => ?_⟩
                obtain ⟨k1, g1⟩ := f1 (.stm (.loop b p) :: r)
                obtain ⟨k2, g2⟩ := f2 r
                refine ⟨_, Steps.trans (.one (framed_local (fun x => ?_) _)) (g1.trans g2)⟩
                show Out.ok _ = _
                rw [← hscal, hb]; rfl
  | weaken h1 h2 _ ih =>
    intro n s s' hr hp
    obtain ⟨q1, f1⟩ := ih n s s' hr (h1 _ hp)
    exact ⟨h2 _ q1, f1⟩
end
end Dpm.X86
