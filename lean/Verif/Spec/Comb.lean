import Verif.Spec.Lanes
/-
Specification vocabulary for reductions, independent of the model.
-/
namespace Dpm.Spec

/-- `r` is obtained from the values `y i`, `i` in `l`, by combining them with `f` in some order and
association, each value being used exactly once. -/
inductive Comb {α : Type} (f : α → α → α) (y : Nat → α) : List Nat → α → Prop
  | one (i : Nat) : Comb f y [i] (y i)
  | node {l₁ l₂ : List Nat} {a b : α} : Comb f y l₁ a → Comb f y l₂ b → Comb f y (l₁ ++ l₂) (f a b)
  | perm {l₁ l₂ : List Nat} {a : α} : Comb f y l₁ a → l₁.Perm l₂ → Comb f y l₂ a

/-- `r` is the least element of `y 0, ..., y (N-1)` under the order of `key`. -/
def IsLeast {α : Type} (key : α → Int) (N : Nat) (y : Nat → α) (r : α) : Prop :=
  (∃ i, i < N ∧ r = y i) ∧ ∀ i, i < N → key r ≤ key (y i)
/-- `r` is the greatest element. -/
def IsGreatest {α : Type} (key : α → Int) (N : Nat) (y : Nat → α) (r : α) : Prop :=
  (∃ i, i < N ∧ r = y i) ∧ ∀ i, i < N → key (y i) ≤ key r

end Dpm.Spec
