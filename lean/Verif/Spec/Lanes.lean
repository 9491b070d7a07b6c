/-
Specification vocabulary for vectors and masks, independent of the model:
vectors are observed as functions from the lane number to the lane value.
-/
namespace Dpm.Spec

/-- `res` is the lane-wise lifting of the (possibly undefined) scalar operation `f` to `x`:
the whole operation is undefined iff some lane is, and otherwise lane `i` is `f (x i)`. -/
def LaneWise1 {α β : Type} (N : Nat) (f : α → Option β) (x : Nat → α) (res : Option (Nat → β)) : Prop :=
  (res = none ↔ ∃ i, i < N ∧ f (x i) = none) ∧
  ∀ r, res = some r → ∀ i, i < N → f (x i) = some (r i)

/-- Same for two operands. -/
def LaneWise2 {α β γ : Type} (N : Nat) (f : α → β → Option γ) (x : Nat → α) (y : Nat → β)
    (res : Option (Nat → γ)) : Prop :=
  (res = none ↔ ∃ i, i < N ∧ f (x i) (y i) = none) ∧
  ∀ r, res = some r → ∀ i, i < N → f (x i) (y i) = some (r i)

/-- Same for three operands. -/
def LaneWise3 {α β γ δ : Type} (N : Nat) (f : α → β → γ → Option δ) (x : Nat → α) (y : Nat → β) (z : Nat → γ)
    (res : Option (Nat → δ)) : Prop :=
  (res = none ↔ ∃ i, i < N ∧ f (x i) (y i) (z i) = none) ∧
  ∀ r, res = some r → ∀ i, i < N → f (x i) (y i) (z i) = some (r i)

/-- The first `N` lanes as a list. -/
def lanes {α : Type} (N : Nat) (x : Nat → α) : List α := (List.range N).map x

/-- Left fold of a non-empty list; `none` for the empty one. -/
def fold1 {α : Type} (op : α → α → α) : List α → Option α
  | [] => none
  | x :: xs => some (xs.foldl op x)

/-- Number of true lanes. -/
def countTrue (N : Nat) (m : Nat → Bool) : Nat := (lanes N m).countP id

/-- `k` is the least true lane below `N`. -/
def IsFirst (N : Nat) (m : Nat → Bool) (k : Nat) : Prop := k < N ∧ m k = true ∧ ∀ i, i < k → m i = false

/-- `k` is the greatest true lane below `N`. -/
def IsLast (N : Nat) (m : Nat → Bool) (k : Nat) : Prop := k < N ∧ m k = true ∧ ∀ i, k < i → i < N → m i = false

end Dpm.Spec
