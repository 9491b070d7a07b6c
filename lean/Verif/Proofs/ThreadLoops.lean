import Verif.Proofs.ThreadBackends
import Verif.Props.SearchLoop
/-
Threads working on slices of arrays.
-/
namespace Dpm.X86
open Dpm.Reg Dpm.Util Dpm.Generic Dpm.GenericMath Dpm.Spec

section
variable {w : Nat} {E : Kind → Type}
/-- Threads that finish when run alone and keep to their elements. -/
theorem parallel {B : Backend w E} (hB : B.Lawful) {len : Nat} {M : ExecOf (PrimE w E)} (loc : M.St → B.St) (mem : M.St → Mem (BitVec w))
    (hscal : ∀ s, M.scal s = B.scal (loc s)) (hstep : ∀ p s s', M.step p s = .ok s' → B.big len p (loc s) (mem s) = .ok (loc s', mem s'))
    {R W : Nat → Nat → Prop} (hsub : ∀ t x, W t x → R t x) (hdis : ∀ t u, t ≠ u → ∀ x, R t x → ¬ W u x) {prog : Nat → StmOf (PrimE w E)} {Q : Nat → Scal → Prop}
    (hk : ∀ t, Keeps B.N (R t) (W t) (fun _ => True) (prog t) (Q t)) {m0 : Mem (BitVec w)} {s s' : Nat → M.St} (hm : ∀ t, mem (s t) = m0)
    (hf : ∀ t, M.Finishes (prog t) (s t) (s' t)) : ∃ k : Nat → Nat, ∀ σ : List Nat,
    ∃ q, runPool B len σ ⟨fun t => ⟨[.stm (prog t)], loc (s t)⟩, m0⟩ = .ok q ∧
      (∀ t u x, t ≠ u → (q.conf t).writesNext B x → ¬ (q.conf u).writesNext B x ∧ ¬ (q.conf u).readsNext B x) ∧
      (∀ t u, runPool B len [t, u] q = runPool B len [u, t] q) ∧
      (∀ t, k t ≤ σ.count t → (q.conf t).todo = []) ∧
      (∀ t, (q.conf t).todo = [] → (q.conf t).st = loc (s' t) ∧ ∀ x, R t x → q.mem x = mem (s' t) x) ∧
      ∀ x, (∀ t, ¬ W t x) → q.mem x = m0 x := by
  have alone : ∀ t, ∃ k, Alone B len (R t) (W t) k ⟨[.stm (prog t)], loc (s t)⟩ m0 (loc (s' t)) (mem (s' t)) := fun t => by
    obtain ⟨n, hn⟩ := hf t
    obtain ⟨k, h⟩ := (keeps_steps hB loc mem hscal hstep (hk t) n (s t) (s' t) hn trivial).2 []
    rw [hm t] at h
    exact ⟨k, h⟩
  exact ⟨fun t => (alone t).choose, noninterference hsub hdis (fun t => (alone t).choose_spec)⟩

/-! ### the loops keep to their slices -/
variable {N n K dst : Nat} {src : Nat → Nat} {R W : Nat → Prop}
theorem keeps_loads (h : ∀ k, k < K → ∀ i, i < n → R (src k + i)) :
    Keeps N R W (fun s => (s 0).toNat + N ≤ n) (loads src K : StmOf (PrimE w E)) (fun s => (s 0).toNat + N ≤ n) := by
  induction K with
  | zero => exact .own (fun s _ => ⟨fun m x s' r hf hx => by cases hf; exact ⟨x, rfl, hx, fun _ _ => rfl⟩⟩) (fun s m s' m' hp hf => by cases hf; exact hp)
  | succ K ih =>
    refine .seq (ih fun k hk => h k (by omega)) (.load fun s hs i hi => ?_)
    rw [Nat.add_assoc]
    exact h K (by omega) _ (by omega)
/-- a statement on the client's variables -/
theorem ownOk_local {f : Scal → Scal} {s : Scal} : OwnOk (w := w) R W (fun s m => some (f s, m)) s :=
  ⟨fun m x s' r hf hx => by cases hf; exact ⟨x, rfl, hx, fun _ _ => rfl⟩⟩
theorem keeps_local {P Q : Scal → Prop} {f : Scal → Scal} (h : ∀ s, P s → Q (f s)) : Keeps N R W P (.prim (.own fun s m => some (f s, m)) : StmOf (PrimE w E)) Q :=
  .own (fun _ _ => ownOk_local) (fun s m s' m' hp hf => by cases hf; exact h s hp)
theorem keeps_map {f : (Nat → BitVec w) → Option (BitVec w)} (hf : ∀ v v', (∀ k, k < K → v k = v' k) → f v = f v') {e : E .vec}
    (h : ∀ k, k < K → ∀ i, i < n → R (src k + i)) (hw : ∀ i, i < n → W (dst + i)) :
    Keeps N R W (fun _ => True) (mapLoopOf f N n K src dst e) (fun _ => True) := by
  refine .seq (keeps_local (Q := fun _ => True) fun _ _ => trivial) (.seq (Q := fun _ => True) ?_ ?_)
  · refine .weaken (P' := fun _ => True) (fun _ h => h) (fun _ _ => trivial) (.loop (.weaken (P' := fun s => (s 0).toNat + N ≤ n) (fun s hs => of_decide_eq_true hs.2) (fun _ h => h) ?_))
    refine .seq (keeps_loads h) (.seq .set (.seq (.store fun s hs i hi => ?_) (keeps_local fun _ _ => trivial)))
    rw [Nat.add_assoc]
    exact hw _ (by omega)
  · refine .weaken (P' := fun _ => True) (fun _ h => h) (fun _ _ => trivial) (.loop (.own (fun s hs => ⟨fun m x s' r hr hx => ?_⟩) (fun _ _ _ _ _ _ => trivial)))
    have hi : (s 0).toNat < n := of_decide_eq_true hs.2
    have e1 : f (fun k => x (src k + (s 0).toNat)) = f (fun k => m (src k + (s 0).toNat)) := hf _ _ fun k hk => hx _ (h k hk _ hi)
    rw [e1]
    cases hv : f (fun k => m (src k + (s 0).toNat)) with
    | none => rw [hv] at hr; cases hr
    | some v =>
      rw [hv] at hr
      cases hr
      refine ⟨_, rfl, fun p hp => ?_, fun p hp => if_neg fun h' : p = dst + (s 0).toNat => hp (h' ▸ hw _ hi)⟩
      show _ = if p = dst + (s 0).toNat then v else m p
      by_cases h' : p = dst + (s 0).toNat
      · rw [if_pos h', if_pos h']
      · rw [if_neg h', if_neg h']; exact hx p hp
theorem keeps_tail {P : Scal → Prop} {b : Scal → Bool} {g : (Nat → BitVec w) → Option Bool} (hg : ∀ v v', (∀ k, k < K → v k = v' k) → g v = g v') {upd : Scal → Bool → Scal}
    (h : ∀ k, k < K → ∀ i, i < n → R (src k + i)) (hb : ∀ s, b s = true → (s 0).toNat < n) (hP : ∀ s b, P s → P (upd s b)) :
    Keeps N R W P (.loop b (.prim (.own fun s m => (g (fun k => m (src k + (s 0).toNat))).map fun b => (upd s b, m))) : StmOf (PrimE w E)) (fun s => P s ∧ b s = false) := by
  refine .loop (.own (fun s hs => ⟨fun m x s' r hr hx => ?_⟩) (fun s m s' m' hp hr => ?_))
  · have e1 : g (fun k => x (src k + (s 0).toNat)) = g (fun k => m (src k + (s 0).toNat)) := hg _ _ fun k hk => hx _ (h k hk _ (hb s hs.2))
    rw [e1]
    cases hv : g (fun k => m (src k + (s 0).toNat)) with
    | none => rw [hv] at hr; cases hr
    | some v =>
      rw [hv] at hr
      cases hr
      exact ⟨x, rfl, hx, fun _ _ => rfl⟩
  · cases hv : g (fun k => m (src k + (s 0).toNat)) with
    | none => rw [hv] at hr; cases hr
    | some v =>
      rw [hv] at hr
      cases hr
      exact hP _ _ hp.1
variable {g : (Nat → BitVec w) → Option Bool} {p : E .msk}
theorem keeps_find (hg : ∀ v v', (∀ k, k < K → v k = v' k) → g v = g v') (h : ∀ k, k < K → ∀ i, i < n → R (src k + i)) :
    Keeps N R W (fun _ => True) (findLoopOf g N n K src p) (fun _ => True) := by
  refine .seq (keeps_local (Q := fun _ => True) fun _ _ => trivial) (.seq (Q := fun _ => True) ?_ ?_)
  · refine .weaken (P' := fun _ => True) (fun _ h => h) (fun _ _ => trivial) (.loop (.weaken (P' := fun s => (s 0).toNat + N ≤ n) (fun s hs => (of_decide_eq_true hs.2).2) (fun _ h => h) ?_))
    refine .seq (.seq (keeps_loads h) .mset) (.seq (Q := fun _ => True) (.ask fun _ _ _ => trivial) (.ite ?_ (keeps_local fun _ _ => trivial)))
    exact .seq (Q := fun _ => True) (.ask fun _ _ _ => trivial) (keeps_local fun _ _ => trivial)
  · exact .weaken (P' := fun _ => True) (fun _ h => h) (fun _ _ => trivial) (keeps_tail (upd := fun s b => if b then putScal (putScal s 1 1) 2 (s 0) else putScal s 0 (s 0 + 1)) hg h
      (fun s hs => (of_decide_eq_true hs).2) (fun _ _ h => h))
theorem keeps_count (hg : ∀ v v', (∀ k, k < K → v k = v' k) → g v = g v') (h : ∀ k, k < K → ∀ i, i < n → R (src k + i)) :
    Keeps N R W (fun _ => True) (countLoopOf g N n K src p) (fun _ => True) := by
  refine .seq (keeps_local (Q := fun _ => True) fun _ _ => trivial) (.seq (Q := fun _ => True) ?_ ?_)
  · refine .weaken (P' := fun _ => True) (fun _ h => h) (fun _ _ => trivial) (.loop (.weaken (P' := fun s => (s 0).toNat + N ≤ n) (fun s hs => of_decide_eq_true hs.2) (fun _ h => h) ?_))
    exact .seq (.seq (keeps_loads h) .mset) (.seq (Q := fun _ => True) (.ask fun _ _ _ => trivial) (keeps_local fun _ _ => trivial))
  · exact .weaken (P' := fun _ => True) (fun _ h => h) (fun _ _ => trivial) (keeps_tail (upd := fun s b => putScal (putScal s 1 (s 1 + if b then 1 else 0)) 0 (s 0 + 1)) hg h
      (fun s hs => of_decide_eq_true hs) (fun _ _ h => h))

/-! ### slices -/
/-- What the scalar loop does, element by element. -/
theorem loopOf_elements {f : (Nat → BitVec w) → Option (BitVec w)} (hf : ∀ v v', (∀ k, k < K → v k = v' k) → f v = f v') {N0 : Nat} (hN : n ≤ N0)
    (hd : ∀ k, k < K → src k = dst ∨ dst + N0 ≤ src k ∨ src k + N0 ≤ dst) {a b : Nat → BitVec w} (h : loopOf f src dst n a = some b) :
    (∀ i, i < n → f (fun k => a (src k + i)) = some (b (dst + i))) ∧ ∀ p, p < dst ∨ dst + n ≤ p → b p = a p := by
  induction n generalizing b with
  | zero => cases h; exact ⟨fun i hi => by omega, fun _ _ => rfl⟩
  | succ n ih =>
    obtain ⟨m, hm⟩ := loopOf_le h (i := n) (by omega)
    obtain ⟨v, hv, hb⟩ := loopOf_step hm h
    obtain ⟨h1, h2⟩ := ih (by omega) hm
    subst hb
    refine ⟨fun i hi => ?_, fun p hp => ?_⟩
    · dsimp only
      by_cases hin : i = n
      · subst hin
        rw [if_pos rfl, ← hv]
        refine hf _ _ fun k hk => (h2 _ ?_).symm
        have := hd k hk
        omega
      · rw [if_neg (by omega)]; exact h1 i (by omega)
    · dsimp only
      rw [if_neg (by omega)]; exact h2 p (by omega)
/-- The loop on a slice is defined and computes the same values. -/
theorem loopOf_slice {f : (Nat → BitVec w) → Option (BitVec w)} (hf : ∀ v v', (∀ k, k < K → v k = v' k) → f v = f v')
    (hd : ∀ k, k < K → src k = dst ∨ dst + n ≤ src k ∨ src k + n ≤ dst) {a b : Nat → BitVec w} (h : loopOf f src dst n a = some b) (lo : Nat) :
    ∀ L, lo + L ≤ n → ∃ b', loopOf f (fun k => src k + lo) (dst + lo) L a = some b' ∧ (∀ i, lo ≤ i → i < lo + L → b' (dst + i) = b (dst + i)) ∧
      ∀ p, p < dst + lo ∨ dst + lo + L ≤ p → b' p = a p := by
  obtain ⟨h1, _⟩ := loopOf_elements hf (Nat.le_refl n) hd h
  intro L
  induction L with
  | zero => exact fun _ => ⟨a, rfl, fun i h1 h2 => by omega, fun _ _ => rfl⟩
  | succ L ih =>
    intro hL
    obtain ⟨m, e, e1, e2⟩ := ih (by omega)
    have hv : f (fun k => m (src k + lo + L)) = some (b (dst + (lo + L))) := by
      rw [← h1 (lo + L) (by omega)]
      refine hf _ _ fun k hk => ?_
      rw [Nat.add_assoc]
      refine e2 _ ?_
      have := hd k hk
      omega
    refine ⟨fun p => if p = dst + lo + L then b (dst + (lo + L)) else m p, ?_, fun i hi1 hi2 => ?_, fun p hp => ?_⟩
    · rw [loopOf, e]
      show (f (fun k => m (src k + lo + L))).bind _ = _
      rw [hv]; rfl
    · dsimp only
      by_cases hi : i = lo + L
      · subst hi
        exact if_pos (by omega)
      · rw [if_neg (by omega)]; exact e1 i hi1 (by omega)
    · dsimp only
      rw [if_neg (by omega)]; exact e2 p (by omega)

/-! ### threads on consecutive slices -/
/-- `cut 0 = 0 ≤ cut 1 ≤ …` up to `n`: thread `t` works on the elements from `cut t` to `cut (t + 1)`. -/
structure Cuts (cut : Nat → Nat) (T n : Nat) : Prop where
  zero : cut 0 = 0
  mono : ∀ t, cut t ≤ cut (t + 1)
  last : ∀ t, T ≤ t → cut t = n
theorem Cuts.le {cut : Nat → Nat} {T n : Nat} (h : Cuts cut T n) {t u : Nat} (htu : t ≤ u) : cut t ≤ cut u := by
  induction u with
  | zero => rw [Nat.le_zero.1 htu]
  | succ u ih =>
    by_cases he : t = u + 1
    · rw [he]
    · exact Nat.le_trans (ih (by omega)) (h.mono u)
theorem Cuts.le_n {cut : Nat → Nat} {T n : Nat} (h : Cuts cut T n) (t : Nat) : cut t ≤ n := by
  by_cases ht : T ≤ t
  · exact (h.last t ht).le
  · rw [← h.last T (Nat.le_refl _)]; exact h.le (by omega)
theorem Cuts.find {cut : Nat → Nat} {T n : Nat} (h : Cuts cut T n) {i : Nat} (hi : i < n) : ∃ t, t < T ∧ cut t ≤ i ∧ i < cut (t + 1) := by
  have key : ∀ u, i < cut u → ∃ t, t < u ∧ cut t ≤ i ∧ i < cut (t + 1) := fun u => by
    induction u with
    | zero => rw [h.zero]; omega
    | succ u ih =>
      intro hu
      by_cases hc : cut u ≤ i
      · exact ⟨u, by omega, hc, hu⟩
      · obtain ⟨t, h1, h2⟩ := ih (by omega)
        exact ⟨t, by omega, h2⟩
  exact key T (by rw [h.last T (Nat.le_refl _)]; exact hi)
/-- what the threads do together -/
theorem slices {cut : Nat → Nat} {T : Nat} (hcut : Cuts cut T n) {f : (Nat → BitVec w) → Option (BitVec w)} (hf : ∀ v v', (∀ k, k < K → v k = v' k) → f v = f v')
    (hd : ∀ k, k < K → src k = dst ∨ dst + n ≤ src k ∨ src k + n ≤ dst) {a b : Nat → BitVec w} (h : loopOf f src dst n a = some b) :
    ∃ b' : Nat → Nat → BitVec w, (∀ t, loopOf f (fun k => src k + cut t) (dst + cut t) (cut (t + 1) - cut t) a = some (b' t)) ∧
      ∀ m : Nat → BitVec w, (∀ t, t < T → ∀ x, dst + cut t ≤ x → x < dst + cut (t + 1) → m x = b' t x) → (∀ x, x < dst ∨ dst + n ≤ x → m x = a x) → m = b := by
  have hs := fun t => loopOf_slice hf hd h (cut t) (cut (t + 1) - cut t) (by have := hcut.mono t; have := hcut.le_n (t + 1); omega)
  refine ⟨fun t => (hs t).choose, fun t => (hs t).choose_spec.1, fun m h1 h2 => funext fun x => ?_⟩
  by_cases hx : x < dst ∨ dst + n ≤ x
  · rw [h2 x hx, (loopOf_elements hf (Nat.le_refl n) hd h).2 x hx]
  · obtain ⟨t, ht, g1, g2⟩ := hcut.find (i := x - dst) (by omega)
    rw [h1 t ht x (by omega) (by omega)]
    have := (hs t).choose_spec.2.1 (x - dst) g1 (by have := hcut.mono t; omega)
    rwa [show dst + (x - dst) = x by omega] at this
end
end Dpm.X86
