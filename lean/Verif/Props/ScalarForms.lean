import Verif.Model.ScalarForms
import Verif.Props.Generic
/-!
The overloads for plain values agree with the same call on a one-element generic mask or vector (C04, C05, C08).
-/
namespace Dpm.Generic
/-- C05 (`bool` overloads): the reductions of a `bool` are those of a one-element mask holding it; the index searches of `true` as well,
and those of `false` (no true element) are the documented 0. -/
theorem C05_scalar (m : GMask 1) :
    allOfB (m.get 0) = allOf m ∧ anyOfB (m.get 0) = anyOf m ∧ noneOfB (m.get 0) = noneOf m ∧ someOfB (m.get 0) = someOf m ∧
    reduceCountB (m.get 0) = reduceCount m ∧ (m.get 0 = true → reduceMinIndexB (m.get 0) = reduceMinIndex m ∧ reduceMaxIndexB (m.get 0) = reduceMaxIndex m) ∧
    reduceMinIndexB false = 0 ∧ reduceMaxIndexB false = 0 := by
  obtain ⟨q1, q2, q3, q4⟩ := C05_quantifiers m
  have h0 : ∀ i, i < 1 → m.get i = m.get 0 := fun i hi => by rw [show i = 0 by omega]
  cases hm : m.get 0
  · refine ⟨?_, ?_, ?_, ?_, ?_, by simp, rfl, rfl⟩
    · cases h : allOf m
      · rfl
      · exact absurd (q1.1 h 0 (by omega)) (by rw [hm]; decide)
    · cases h : anyOf m
      · rfl
      · obtain ⟨i, hi, e⟩ := q2.1 h
        rw [h0 i hi, hm] at e; exact absurd e (by decide)
    · exact (q3.2 fun i hi => by rw [h0 i hi, hm]).symm
    · cases h : someOf m
      · rfl
      · obtain ⟨⟨i, hi, e⟩, -⟩ := q4.1 h
        rw [h0 i hi, hm] at e; exact absurd e (by decide)
    · rw [C05_count]; simp [Spec.countTrue, Spec.lanes, List.range_succ, hm, reduceCountB]
  · refine ⟨?_, ?_, ?_, ?_, ?_, fun _ => ?_, rfl, rfl⟩
    · exact (q1.2 fun i hi => by rw [h0 i hi, hm]).symm
    · exact (q2.2 ⟨0, by omega, hm⟩).symm
    · cases h : noneOf m
      · rfl
      · exact absurd (q3.1 h 0 (by omega)) (by rw [hm]; decide)
    · cases h : someOf m
      · rfl
      · obtain ⟨-, i, hi, e⟩ := q4.1 h
        rw [h0 i hi, hm] at e; exact absurd e (by decide)
    · rw [C05_count]; simp [Spec.countTrue, Spec.lanes, List.range_succ, hm, reduceCountB]
    · exact ⟨((C05_min_index m).1 0 ⟨by omega, hm, fun j hj => absurd hj (by omega)⟩).symm,
        ((C05_max_index m).1 0 ⟨by omega, hm, fun j h1 h2 => absurd h2 (by omega)⟩).symm⟩
/-- C04 (`blend` with a `bool`): the scalar form is the element of the one-element blend. -/
theorem C04_scalar_blend {α : Type} (z : α) (m : GMask 1) (a b : GSimd α 1) :
    blendB (m.get 0) (a.get 0) (b.get 0) = (blend z m a b).get 0 := by
  rw [C04_blend_lanewise z m a b 0 (by omega)]; rfl
/-- C08 (`shuffle` of a scalar): for every non-empty pack of zeros the result has the scalar in every element. -/
theorem C08_scalar {α : Type} (z : α) (idx : List Nat) (x : α) (hne : idx ≠ []) (h0 : ∀ k ∈ idx, k = 0) (hlen : idx.length < 2 ^ 64) :
    ∃ r, shuffleS z idx x = some r ∧ ∀ j, j < idx.length → r.get j = x := by
  obtain ⟨r, hr, h⟩ := C08_shuffle z idx (⟨fun _ => x⟩ : GSimd α 1) hne (fun k hk => by rw [h0 k hk]; omega) hlen
  exact ⟨r, hr, fun j hj => h j hj⟩
example := C05_scalar ⟨fun _ => true⟩
example : ∃ r, shuffleS 0 [0, 0, 0] (7 : Nat) = some r ∧ ∀ j, j < 3 → r.get j = 7 := C08_scalar 0 [0, 0, 0] 7 (by simp) (by simp) (by decide)
end Dpm.Generic
