import Verif.Model.CallMask
import Verif.Props.Callable
import Verif.Props.X86Mask
/-
Property C59, masks: which functions on x86 masks, and which functions returning x86 masks, can be called.
-/
namespace Dpm.Callable
open Dpm Dpm.Generic Dpm.X86 Dpm.X86.Mask

/-- C59 (violated for the mask operators): for every element type, number of elements and instruction set, `&`, `|`, `^`, `&&`, `||`, `==`,
`!=`, `~`, `!` and `blend` of x86 masks do not compile. -/
theorem C59_mask_ops_violated (c : Cfg) :
    (∀ o, NeverCompiles (callMask2 dataAt c o)) ∧ NeverCompiles (callMaskNot dataAt c) ∧ NeverCompiles (callMaskLNot dataAt c) ∧
    NeverCompiles (callMaskNe dataAt c) ∧ NeverCompiles (callMaskLor dataAt c) ∧ NeverCompiles (callMaskBlend dataAt c) := by
  refine ⟨fun o a => ?_, fun a => ?_, fun a => ?_, fun a => ?_, fun a => ?_, fun a => ?_⟩ <;>
    simp [callMask2, callMaskNot, callMaskLNot, callMaskNe, callMaskLor, callMaskBlend, maskToOther, maskCopyTo, assign, dataAt,
      CTy.converts, Out.bind, bothBranches]

/-- C59 (violated for the element copies of masks and the masked copies of vectors): loading a mask from memory, storing it to memory,
converting it to a mask of another element type or ABI, and the masked loads and stores of vectors do not compile. -/
theorem C59_mask_copies_violated (c : Cfg) :
    NeverCompiles (callMaskLoad dataAt c) ∧ NeverCompiles (callMaskStore dataAt c) ∧ (∀ M, maskToOther dataAt c.N M = .illFormed) ∧
    (∀ M, packedToMask dataAt M c.N = .illFormed) ∧ NeverCompiles (callMaskedLoad dataAt c) ∧ NeverCompiles (callMaskedStore dataAt c) := by
  refine ⟨fun a => ?_, fun a => ?_, fun M => ?_, fun M => ?_, fun a => ?_, fun a => ?_⟩ <;>
    simp [callMaskLoad, callMaskStore, callMaskedLoad, callMaskedStore, maskToOther, packedToMask, maskCopyTo, maskCopyFrom,
      vecMaskedCopyFrom, vecMaskedCopyTo, assign, dataAt, CTy.converts, Out.bind, Out.map]

/-- C59 (violated for the functions returning masks): no comparison of x86 vectors compiles, nor `!x`, nor the classification functions,
nor the quiet comparisons, nor `blend` of vectors. -/
theorem C59_compare_violated (c : Cfg) :
    (∀ o, NeverCompiles (callCmp dataAt c o)) ∧ NeverCompiles (callLNot dataAt c) ∧ (∀ o, NeverCompiles (callCls dataAt c o)) ∧
    (∀ o, NeverCompiles (callRel dataAt c o)) ∧ NeverCompiles (callBlend dataAt c) := by
  refine ⟨fun o a => ?_, fun a => ?_, fun o a => ?_, fun o a => ?_, fun a => ?_⟩ <;>
    simp [callCmp, callLNot, callCls, callRel, callBlend, cmpConst, vecToPacked, vecCopyTo, packedToMask, maskCopyFrom, maskToOther, maskCopyTo,
      assign, dataAt, elemAt, CTy.converts, Out.bind, bothBranches]

/-- the vectors for which an x86 overload of `reduce_min` and `reduce_max` exists (X:1468-1561) -/
def ReduceMinmaxX86 (c : Cfg) : Prop :=
  c.T.flt = true ∨ (c.s.sse41 = true ∧ c.T.bytes < 8) ∨
    (c.s.ssse3 = true ∧ (c.T.bytes = 1 ∧ c.T.signed = false ∨ c.T.bytes = 2 ∧ c.T.signed = true))
/-- C59 (violated for `reduce_min`, `reduce_max`): wherever the x86 overload is selected (every floating-point vector; with SSE4.1 every
integer vector with elements of at most four bytes; with SSSE3 those of unsigned bytes and signed 16-bit integers) the call does not compile. -/
theorem C59_reduce_minmax_violated (fp : FpOps) (c : Cfg) (h : ReduceMinmaxX86 c) :
    NeverCompiles (callReduceMin c fp) ∧ NeverCompiles (callReduceMax c fp) := by
  have ho : redMinmaxOverload c = true := by
    rcases h with h | ⟨h, hb⟩ | ⟨h, hb⟩
    · simp [redMinmaxOverload, h]
    · simp [redMinmaxOverload, h, hb]
    · unfold redMinmaxOverload
      rw [Bool.or_eq_true]; right
      split
      · rcases hb with ⟨hb, -⟩ | ⟨hb, -⟩ <;> simp [hb]
      · rcases hb with ⟨hb, hs⟩ | ⟨hb, hs⟩ <;> simp [h, hb, hs]
  refine ⟨fun a => ?_, fun a => ?_⟩ <;> simp [callReduceMin, callReduceMax, ho, maskOfVector, bothBranches]

/-- C59 (`reduce_min`, `reduce_max`): where the generic template is selected instead, they compile and behave as their run-time path. -/
theorem C59_reduce_minmax_partial (fp : FpOps) (c : Cfg) (h : ¬ ReduceMinmaxX86 c) :
    RunsAs (callReduceMin c fp) (vReduceMin fp c) ∧ RunsAs (callReduceMax c fp) (vReduceMax fp c) := by
  have ho : redMinmaxOverload c = false := by
    unfold ReduceMinmaxX86 at h
    unfold redMinmaxOverload
    cases h1 : c.T.flt <;> cases h2 : c.s.sse41 <;> cases h3 : c.s.ssse3 <;> cases h4 : c.T.signed <;> simp [h1, h2, h3, h4] at h ⊢ <;> omega
  refine ⟨fun a => ?_, fun a => ?_⟩
  · unfold callReduceMin; rw [ho]; rfl
  · unfold callReduceMax; rw [ho]; rfl

/-- C59 (violated for `shuffle` to another number of elements, and for every `shuffle` of masks). -/
theorem C59_shuffle_violated (c : Cfg) (v' : VSz) (is : List Nat) :
    (is.length ≠ c.N → NeverCompiles (callShuffle c v' is)) ∧ NeverCompiles (callMaskShuffle dataAt c v' is) := by
  refine ⟨fun h a => ?_, fun a => ?_⟩
  · simp [callShuffle, packedToVec, h, vecToPacked, vecCopyTo, assign, elemAt, CTy.converts, Out.bind, bothBranches]
  · simp [callMaskShuffle, maskToOther, maskCopyTo, assign, dataAt, CTy.converts, Out.bind, bothBranches]

/-- C59 (what compiles): `shuffle` of a vector to the same number of elements, the mask reductions, and vector arithmetic compile and
behave as their run-time paths (C28, C18, C19, C23). -/
theorem C59_compiles (fp : FpOps) (c : Cfg) :
    (∀ v' is, is.length = c.N → RunsAs (callShuffle c v' is) (vShuffleNative c v' is)) ∧
    RunsAs (callAllOf c) (fun m => Out.ofUb (Mask.allOf c m)) ∧ RunsAs (callAnyOf c) (fun m => .ok (Mask.anyOf c m)) ∧
    RunsAs (callNoneOf c) (fun m => .ok (Mask.noneOf c m)) ∧ RunsAs (callSomeOf c) (fun m => Out.ofUb (Mask.someOf c m)) ∧
    RunsAs (callReduceCount c) (fun m => .ok (Mask.reduceCount c m)) ∧
    RunsAs (callAdd c fp) (fun ab => opAdd fp c ab.1 ab.2) ∧ RunsAs (callSub c fp) (fun ab => opSub fp c ab.1 ab.2) ∧
    RunsAs (callNeg c) (opNeg c) := by
  refine ⟨fun v' is h a => ?_, fun a => ?_, fun a => ?_, fun a => ?_, fun a => ?_, fun a => ?_, fun a => ?_, fun a => ?_, fun a => ?_⟩ <;>
    simp_all [callShuffle, callAllOf, callAnyOf, callNoneOf, callSomeOf, callReduceCount, callAdd, callSub, callNeg, packedToVec, vecToPacked,
      vecCopyTo, vecCopyFrom, assign, elemAt, CTy.converts, Out.bind, bothBranches]

/-- C59 (why, and what it would take): if the element copies of masks and the masked copies of vectors went through `operator[]` as the
other copies do, every one of these calls would compile and behave as its run-time path: the operators and `blend` of masks and vectors
(C16, C17, C22), the comparisons, `!` and the classification functions (C31, C32, C37), and shuffles of masks to the same number of elements.
The loads and stores would set and read exactly the selected elements.  Nothing else stands in the way. -/
theorem C59_copies_cause (c : Cfg) :
    (∀ o, RunsAs (callMask2 elemAt c o) (fun ab => .ok (o.run c ab.1 ab.2))) ∧
    RunsAs (callMaskNot elemAt c) (fun a => .ok (Mask.compl c a)) ∧ RunsAs (callMaskLNot elemAt c) (fun a => .ok (Mask.not c a)) ∧
    RunsAs (callMaskNe elemAt c) (fun ab => .ok (Mask.ne c ab.1 ab.2)) ∧ RunsAs (callMaskLor elemAt c) (fun ab => .ok (Mask.lor c ab.1 ab.2)) ∧
    RunsAs (callMaskBlend elemAt c) (fun m => .ok (Mask.blend c m.1 m.2.1 m.2.2)) ∧
    RunsAs (callBlend elemAt c) (fun m => .ok (Mask.blend c m.1 m.2.1 m.2.2)) ∧
    (∀ o, RunsAs (callCmp elemAt c o) (fun ab => o.run c ab.1 ab.2)) ∧ RunsAs (callLNot elemAt c) (opLNot c) ∧
    (∀ o, RunsAs (callCls elemAt c o) (o.run c)) ∧ (∀ o, RunsAs (callRel elemAt c o) (fun ab => o.run c ab.1 ab.2)) ∧
    (∀ v' is, is.length = c.N → RunsAs (callMaskShuffle elemAt c v' is) (vShuffleNative c v' is)) := by
  refine ⟨fun o a => ?_, fun a => ?_, fun a => ?_, fun a => ?_, fun a => ?_, fun a => ?_, fun a => ?_, fun o a => ?_, fun a => ?_, fun o a => ?_,
    fun o a => ?_, fun v' is h a => ?_⟩ <;>
    simp_all [callMask2, callMaskNot, callMaskLNot, callMaskNe, callMaskLor, callMaskBlend, callCmp, callLNot, callCls, callRel, callBlend, callMaskShuffle,
      cmpConst, vecToPacked, vecCopyTo, packedToVec, vecCopyFrom, packedToMask, maskCopyFrom, maskToOther, maskCopyTo, assign, elemAt, CTy.converts,
      Out.bind, bothBranches, Mask.ne, Mask.not, Mask.lor, MOp2.run]

/-- C59 (the same for the copies). -/
theorem C59_copies_cause_memory (c : Cfg) (hc : c.Ok) :
    (∀ mem, ∃ m, callMaskLoad elemAt c mem = .ok m ∧ ∀ i, i < c.N → mget c m i = mem i) ∧
    (∀ m, callMaskStore elemAt c m = .ok (mget c m)) ∧
    (∀ (x m : c.Data) (mem : Mem (BitVec c.w)), ∃ r, callMaskedLoad elemAt c (x, m, mem) = .ok r ∧
      ∀ i, i < c.N → elt c r i = if mget c m i then mem i else elt c x i) ∧
    (∀ (x m : c.Data) (mem : Mem (BitVec c.w)), ∃ r, callMaskedStore elemAt c (x, m, mem) = .ok r ∧
      ∀ i, r i = if i < c.N ∧ mget c m i then elt c x i else mem i) := by
  refine ⟨fun mem => ⟨_, rfl, ?_⟩, fun m => rfl, fun x m mem => ⟨_, rfl, ?_⟩, fun x m mem => ⟨_, rfl, ?_⟩⟩
  · have := forRange_inv (fun n d => ∀ i, i < n → mget c d i = mem i) c.N (fun i d => Mask.setElem c d i (mem i)) (zeroData c)
      (fun i hi => absurd hi (Nat.not_lt_zero i)) (fun k d _ ih i hi => by
        by_cases h : i = k
        · subst h
          exact mget_of_elt hc ((elt_setElt hc d i _ i).trans ((if_pos rfl).trans (extendBool_eq _ _)))
        · refine Eq.trans ?_ (ih i (by omega))
          unfold mget
          rw [show elt c (Mask.setElem c d k (mem k)) i = elt c d i from (elt_setElt hc d k _ i).trans (if_neg h)])
    exact this
  · have := forRange_inv (fun n d => ∀ i, elt c d i = if i < n ∧ mget c m i = true then mem i else elt c x i) c.N
      (fun i d => if mget c m i then setElt c d i (mem i) else d) x
      (fun i => by simp) (fun k d _ ih i => by
        by_cases hk : mget c m k = true
        · rw [if_pos hk, elt_setElt hc]
          by_cases h : i = k
          · subst h; rw [if_pos rfl, if_pos ⟨Nat.lt_succ_self _, hk⟩]
          · rw [if_neg h, ih i]
            by_cases h2 : i < k
            · simp [h2, Nat.lt_succ_of_lt h2]
            · simp [h2, show ¬ i < k + 1 by omega]
        · rw [if_neg hk, ih i]
          by_cases h : i = k
          · subst h; simp [hk]
          · by_cases h2 : i < k
            · simp [h2, Nat.lt_succ_of_lt h2]
            · simp [h2, show ¬ i < k + 1 by omega])
    intro i hi
    refine (this i).trans ?_
    simp [hi]
  · intro i
    exact congrFun (forRange_store_if c.N (fun i => mget c m i) (fun i => elt c x i) mem) i

/-- Such a configuration: a masked load of six floats. -/
example (x m : exF32.Data) (mem : Mem (BitVec exF32.w)) : callMaskedLoad dataAt exF32 (x, m, mem) = .illFormed ∧
    ∃ r, callMaskedLoad elemAt exF32 (x, m, mem) = .ok r ∧ ∀ i, i < 6 → elt exF32 r i = if mget exF32 m i then mem i else elt exF32 x i :=
  ⟨(C59_mask_copies_violated exF32).2.2.2.2.1 _, (C59_copies_cause_memory exF32 exF32_ok).2.2.1 x m mem⟩

/-- The run-time paths that never get to run are there, e.g. `a == b` of `exI32` vectors, `a & b` of its masks, `isnan` and `reduce_max` of
`exF32` vectors. -/
example (fp : FpOps) (a b : exI32.Data) (x : exF32.Data) :
    (∃ r, opEq exI32 a b = .ok r) ∧ (∃ r, vIsnan exF32 x = .ok r) ∧ (∃ r, vReduceMax fp exF32 x = .ok r) ∧ exF32.T.flt = true ∧
      ([0, 1] : List Nat).length ≠ exI32.N :=
  ⟨⟨_, rfl⟩, ⟨_, rfl⟩, ⟨_, rfl⟩, rfl, by decide⟩
end Dpm.Callable
