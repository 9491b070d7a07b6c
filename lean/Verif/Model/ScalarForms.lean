import Verif.Model.Generic
/-!
The overloads for plain values (G = dpm/detail/generic/type.hpp, lines 147-172): mask reductions of a `bool`, `blend` with a `bool`,
`shuffle` of a scalar.  `bool_wrapper` (G:71-79) only stops implicit conversions to `bool` and is not modelled.
-/
namespace Dpm.Generic
/-- `all_of(bool)` (G:148). -/
def allOfB (x : Bool) : Bool := x
/-- `any_of(bool)` (G:150). -/
def anyOfB (x : Bool) : Bool := x
/-- `none_of(bool)` (G:152). -/
def noneOfB (x : Bool) : Bool := !x
/-- `some_of(bool)` (G:154). -/
def someOfB (_ : Bool) : Bool := false
/-- `reduce_count(bool)` (G:156). -/
def reduceCountB (x : Bool) : Nat := if x then 1 else 0
/-- `reduce_min_index(bool)` (G:159). -/
def reduceMinIndexB (_ : Bool) : Nat := 0
/-- `reduce_max_index(bool)` (G:161). -/
def reduceMaxIndexB (_ : Bool) : Nat := 0
/-- `blend(bool, a, b)` (G:164-165). -/
def blendB {α : Type} (m : Bool) (a b : α) : α := if m then a else b
/-- `shuffle<Is...>(x)` of a scalar (G:170-171): the shuffle of a one-element vector. -/
def shuffleS {α : Type} (z : α) (idx : List Nat) (x : α) : Option (GSimd α idx.length) := shuffle z idx (⟨fun _ => x⟩ : GSimd α 1)
end Dpm.Generic
