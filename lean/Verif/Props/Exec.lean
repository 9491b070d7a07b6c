import Verif.Model.Imperative
/-
Running a program: finishing, running forever, and simulation of one machine by another.
-/
namespace Dpm.X86
open Dpm.Reg Dpm.Util Dpm.Generic

/-! ### what it means to run a program -/
/-- The program started in `s` finishes in `s'`. -/
def ExecOf.Finishes {P : Type} (M : ExecOf P) (p : StmOf P) (s s' : M.St) : Prop := ∃ n, M.run n p s = some (.ok s')
/-- The program started in `s` runs forever. -/
def ExecOf.Diverges {P : Type} (M : ExecOf P) (p : StmOf P) (s : M.St) : Prop := ∀ n, M.run n p s = none

theorem run_mono1 {P : Type} (M : ExecOf P) (n : Nat) : ∀ (p : StmOf P) (s : M.St) (r : Out M.St), M.run n p s = some r → M.run (n + 1) p s = some r := by
  induction n with
  | zero => intro p s r h; cases h
  | succ n ih =>
    intro p s r h
    cases p with
    | prim q => exact h
    | seq a b =>
      rw [ExecOf.run] at h ⊢
      cases ha : M.run n a s with
      | none => rw [ha] at h; cases h
      | some o =>
        rw [ih a s o ha]
        rw [ha] at h
        cases o with
        | ok s' => exact ih b s' r h
        | ub => exact h
        | illFormed => exact h
    | ite b p q =>
      rw [ExecOf.run] at h ⊢
      split
      · rename_i hb; rw [if_pos hb] at h; exact ih _ _ _ h
      · rename_i hb; rw [if_neg hb] at h; exact ih _ _ _ h
    | loop b p =>
      rw [ExecOf.run] at h ⊢
      split
      · rename_i hb; rw [if_pos hb] at h; exact ih _ _ _ h
      · rename_i hb; rw [if_neg hb] at h; exact h
/-- The number of steps allowed does not change the result. -/
theorem run_mono {P : Type} (M : ExecOf P) {n m : Nat} (h : n ≤ m) {p : StmOf P} {s : M.St} {r : Out M.St} (hr : M.run n p s = some r) : M.run m p s = some r := by
  induction h with
  | refl => exact hr
  | step _ ih => exact run_mono1 M _ _ _ _ ih
theorem finishes_unique {P : Type} {M : ExecOf P} {p : StmOf P} {s a b : M.St} (ha : M.Finishes p s a) (hb : M.Finishes p s b) : a = b := by
  obtain ⟨n, hn⟩ := ha
  obtain ⟨m, hm⟩ := hb
  have h1 := run_mono M (Nat.le_max_left n m) hn
  rw [run_mono M (Nat.le_max_right n m) hm] at h1
  cases h1; rfl
theorem finishes_prim {P : Type} {M : ExecOf P} {q : P} {s s' : M.St} (h : M.step q s = .ok s') : M.Finishes (.prim q) s s' :=
  ⟨1, by rw [ExecOf.run, h]⟩
theorem finishes_seq {P : Type} {M : ExecOf P} {p q : StmOf P} {s a b : M.St} (ha : M.Finishes p s a) (hb : M.Finishes q a b) : M.Finishes (.seq p q) s b := by
  obtain ⟨n, hn⟩ := ha
  obtain ⟨m, hm⟩ := hb
  refine ⟨max n m + 1, ?_⟩
  rw [ExecOf.run, run_mono M (Nat.le_max_left n m) hn]
  exact run_mono M (Nat.le_max_right n m) hm
theorem finishes_then {P : Type} {M : ExecOf P} {b : Scal → Bool} {p q : StmOf P} {s a : M.St} (hb : b (M.scal s) = true) (h : M.Finishes p s a) : M.Finishes (.ite b p q) s a := by
  obtain ⟨n, hn⟩ := h
  exact ⟨n + 1, by rw [ExecOf.run, if_pos hb, hn]⟩
theorem finishes_else {P : Type} {M : ExecOf P} {b : Scal → Bool} {p q : StmOf P} {s a : M.St} (hb : b (M.scal s) = false) (h : M.Finishes q s a) : M.Finishes (.ite b p q) s a := by
  obtain ⟨n, hn⟩ := h
  exact ⟨n + 1, by rw [ExecOf.run, if_neg (by rw [hb]; decide), hn]⟩
theorem finishes_done {P : Type} {M : ExecOf P} {b : Scal → Bool} {p : StmOf P} {s : M.St} (h : b (M.scal s) = false) : M.Finishes (.loop b p) s s :=
  ⟨1, by rw [ExecOf.run, h]; rfl⟩
theorem finishes_again {P : Type} {M : ExecOf P} {b : Scal → Bool} {p : StmOf P} {s a s' : M.St} (h : b (M.scal s) = true)
    (h1 : M.Finishes p s a) (h2 : M.Finishes (.loop b p) a s') : M.Finishes (.loop b p) s s' := by
  obtain ⟨n, hn⟩ := finishes_seq h1 h2
  refine ⟨n + 1, ?_⟩
  rw [ExecOf.run, if_pos h]; exact hn

/-! ### simulation -/
/-- every elementary statement of the program satisfies `Q` -/
def StmOf.All {P : Type} (Q : P → Prop) : StmOf P → Prop
  | .prim p => Q p
  | .seq a b => a.All Q ∧ b.All Q
  | .ite _ a b => a.All Q ∧ b.All Q
  | .loop _ a => a.All Q
theorem simulate {P : Type} {M₁ M₂ : ExecOf P} (R : M₁.St → M₂.St → Prop) (hsc : ∀ s t, R s t → M₁.scal s = M₂.scal t) (Q : P → Prop)
    (hst : ∀ p, Q p → ∀ s t t', R s t → M₂.step p t = .ok t' → ∃ s', M₁.step p s = .ok s' ∧ R s' t') (n : Nat) :
    ∀ (p : StmOf P), p.All Q → ∀ s t, R s t →
      (M₂.run n p t = none → M₁.run n p s = none) ∧
      (∀ t', M₂.run n p t = some (.ok t') → ∃ s', M₁.run n p s = some (.ok s') ∧ R s' t') := by
  induction n with
  | zero => intro p _ s t _; exact ⟨fun _ => rfl, fun t' h => (by cases h)⟩
  | succ n ih =>
    intro p hp s t hR
    cases p with
    | prim q =>
      refine ⟨fun h => (by rw [ExecOf.run] at h; cases h), fun t' h => ?_⟩
      rw [ExecOf.run] at h
      obtain ⟨s', h1, h2⟩ := hst q hp s t t' hR (Option.some.inj h)
      exact ⟨s', by rw [ExecOf.run, h1], h2⟩
    | seq a b =>
      rw [ExecOf.run, ExecOf.run]
      obtain ⟨i1, i2⟩ := ih a hp.1 s t hR
      cases ha : M₂.run n a t with
      | none => rw [i1 ha]; exact ⟨fun _ => rfl, fun t' h => (by cases h)⟩
      | some o =>
        cases o with
        | ok t₁ =>
          obtain ⟨s₁, h1, h2⟩ := i2 t₁ ha
          rw [h1]
          exact ih b hp.2 s₁ t₁ h2
        | ub => exact ⟨fun h => (by cases h), fun t' h => (by cases h)⟩
        | illFormed => exact ⟨fun h => (by cases h), fun t' h => (by cases h)⟩
    | ite b p q =>
      rw [ExecOf.run, ExecOf.run, hsc s t hR]
      split
      · exact ih p hp.1 s t hR
      · exact ih q hp.2 s t hR
    | loop b p =>
      rw [ExecOf.run, ExecOf.run, hsc s t hR]
      split
      · exact ih (.seq p (.loop b p)) ⟨hp, hp⟩ s t hR
      · exact ⟨fun h => (by cases h), fun t' h => by cases h; exact ⟨s, rfl, hR⟩⟩


/-- If every elementary statement is simulated, every program is: where the second machine finishes or runs forever, so does the first. -/
theorem refine_program {P : Type} {M₁ M₂ : ExecOf P} (R : M₁.St → M₂.St → Prop) (hsc : ∀ s t, R s t → M₁.scal s = M₂.scal t) (Q : P → Prop)
    (hst : ∀ p, Q p → ∀ s t t', R s t → M₂.step p t = .ok t' → ∃ s', M₁.step p s = .ok s' ∧ R s' t') (p : StmOf P) (hp : p.All Q)
    (s : M₁.St) (t : M₂.St) (h : R s t) :
    (∀ t', M₂.Finishes p t t' → ∃ s', M₁.Finishes p s s' ∧ R s' t') ∧ (M₂.Diverges p t → M₁.Diverges p s) := by
  have key := fun n => simulate R hsc Q hst n p hp s t h
  refine ⟨fun t' ⟨n, hn⟩ => ?_, fun hd n => (key n).1 (hd n)⟩
  obtain ⟨s', h1, h2⟩ := (key n).2 t' hn
  exact ⟨s', ⟨n, h1⟩, h2⟩
theorem all_mono_stm {P : Type} {Q Q' : P → Prop} (h : ∀ p, Q p → Q' p) : (p : StmOf P) → p.All Q → p.All Q'
  | .prim p, hp => h p hp
  | .seq a b, hp => ⟨all_mono_stm h a hp.1, all_mono_stm h b hp.2⟩
  | .ite _ a b, hp => ⟨all_mono_stm h a hp.1, all_mono_stm h b hp.2⟩
  | .loop _ a, hp => all_mono_stm h a hp
end Dpm.X86
