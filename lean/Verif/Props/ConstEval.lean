import Verif.Model.ConstEval
import Verif.Props.X86MaskReduce
import Verif.Props.X86Reduce
import Verif.Props.Generic
/-
Property C61: in a constant expression the functions on x86 vectors and masks give the results they give at run time.
`none` is "not a constant expression".
-/
namespace Dpm.X86
open Dpm Dpm.Reg Dpm.Generic Dpm.Spec

theorem const_dataSize_pos {c : Cfg} (hc : c.Ok) : 0 < c.dataSize := by
  have h := (ceilDiv_spec (N := c.N) (extent_pos hc.ety c.v) 0).1 (by have := hc.pos; omega)
  exact h

/-- C61: an element of a vector can be read in a constant expression exactly when its index is below the number of elements of one native
vector, and the value is then the run-time one. -/
theorem C61_read {c : Cfg} (hc : c.Ok) (d : c.Data) {i : Nat} (_hi : i < c.N) :
    Const.read c d i = if i < c.e then some (elt c d i) else none := by
  unfold Const.read elt
  by_cases he : i < c.e
  · rw [if_pos he, if_pos he, Nat.div_eq_of_lt he, if_pos (const_dataSize_pos hc), Nat.mod_eq_of_lt he]
  · rw [if_neg he, if_neg he]; split <;> rfl
/-- C61: the same for the elements of masks. -/
theorem C61_mask_read {c : Cfg} (hc : c.Ok) (m : c.Data) {i : Nat} (hi : i < c.N) :
    Const.mread c m i = if i < c.e then some (mget c m i) else none := by
  unfold Const.mread
  rw [C61_read hc m hi]; split <;> rfl
/-- C61 (violated): vectors longer than one native vector have elements that cannot be read in a constant expression. -/
theorem C61_read_violated {c : Cfg} (hc : c.Ok) (hN : c.e < c.N) (d : c.Data) :
    ∃ i, i < c.N ∧ Const.read c d i = none :=
  ⟨c.e, hN, by rw [C61_read hc d hN, if_neg (Nat.lt_irrefl _)]⟩

/-- C61: vectors and masks can be built in constant expressions from a value or a generator, with the elements they have at run time. -/
theorem C61_construct {c : Cfg} (hc : c.Ok) (junk : c.Data) (val : BitVec c.w) (gen : Nat → BitVec c.w) (b : Bool) (bgen : Nat → Bool)
    {i : Nat} (hi : i < c.N) (he : i < c.e) :
    ((Const.broadcast c val junk).bind fun d => Const.read c d i) = some val ∧
    ((Const.generate c gen junk).bind fun d => Const.read c d i) = some (gen i) ∧
    ((Const.maskOfBool c b junk).bind fun d => Const.mread c d i) = some b ∧
    ((Const.maskOfGen c bgen junk).bind fun d => Const.mread c d i) = some (bgen i) := by
  have h := C14_construct hc junk val gen (fun _ => val)
  have hm := C17_constructors hc b bgen junk (zeroData c) 0 hi
  have hg := C17_constructors hc b bgen junk junk 0 hi
  refine ⟨?_, ?_, ?_, ?_⟩
  · show Const.read c _ i = _
    rw [C61_read hc _ hi, if_pos he, h.1 i hi]
  · show Const.read c _ i = _
    rw [C61_read hc _ hi, if_pos he, h.2.1 i hi]
  · show Const.mread c _ i = _
    rw [C61_mask_read hc _ hi, if_pos he, hg.1]
  · show Const.mread c _ i = _
    rw [C61_mask_read hc _ hi, if_pos he, hg.2.1]

/-- a loop of reads fails as soon as one of them does -/
theorem constLoop_none {σ : Type} (n : Nat) (body : Nat → σ → Option σ) (s : σ) {k : Nat} (hk : k < n) (h : ∀ s, body k s = none) :
    forRangeM n body s = none := by
  induction n with
  | zero => omega
  | succ n ih =>
    simp only [forRangeM]
    rcases Nat.lt_or_ge k n with hkn | hkn
    · rw [ih hkn]; rfl
    · obtain rfl : k = n := by omega
      cases forRangeM k body s with
      | none => rfl
      | some t => exact h t
/-- a loop of reads that succeed is the pure loop -/
theorem constLoop_some {σ : Type} (n : Nat) (body : Nat → σ → Option σ) (f : Nat → σ → σ) (s : σ) (h : ∀ k, k < n → ∀ s, body k s = some (f k s)) :
    forRangeM n body s = some (forRange n f s) := by
  induction n with
  | zero => rfl
  | succ n ih =>
    simp only [forRangeM, forRange]
    rw [ih (fun k hk => h k (by omega))]
    exact h n (by omega) _

/-- C61: `copy_to` (and the conversion to the generic backend) in a constant expression: the elements, if the vector fits in one native
vector; otherwise not a constant expression. -/
theorem C61_copy_to {c : Cfg} (hc : c.Ok) (d : c.Data) (mem : Mem (BitVec c.w)) :
    (c.N ≤ c.e → ∃ r, Const.copyTo c d mem = some r ∧ ∀ i, r i = if i < c.N then elt c d i else mem i) ∧
    (c.e < c.N → Const.copyTo c d mem = none) := by
  refine ⟨fun h => ?_, fun h => ?_⟩
  · refine ⟨_, constLoop_some c.N _ (fun i m => m.set i (elt c d i)) mem (fun k hk s => ?_), fun i => ?_⟩
    · rw [C61_read hc d hk, if_pos (by omega)]; rfl
    · rw [forRange_store]
  · refine constLoop_none c.N _ mem h (fun s => ?_)
    rw [C61_read hc d h, if_neg (Nat.lt_irrefl _)]; rfl

/-- C61: the conversion to a generic vector in a constant expression has the elements of the x86 vector, if that fits in one native vector;
otherwise it is not a constant expression. -/
theorem C61_to_packed {c : Cfg} (hc : c.Ok) (d : c.Data) :
    (c.N ≤ c.e → ∃ g, Const.toPacked c d = some g ∧ ∀ i, i < c.N → g.get i = elt c d i) ∧ (c.e < c.N → Const.toPacked c d = none) := by
  refine ⟨fun h => ?_, fun h => ?_⟩
  · obtain ⟨r, hr, hre⟩ := (C61_copy_to hc d (fun _ => 0#c.w)).1 h
    refine ⟨_, by unfold Const.toPacked; rw [hr]; rfl, fun i hi => ?_⟩
    have := hre i
    rw [if_pos hi] at this
    simp [GSimd.load, GSimd.copyFrom, GSimd.get, forRange_store, hi, this]
  · unfold Const.toPacked
    rw [(C61_copy_to hc d _).2 h]; rfl

/-- C61 (violated for every function returning a vector): whatever the (generic) function `f` a constant-evaluated branch calls, the result
cannot be converted back to an x86 vector in a constant expression: `-x`, `a + b`, `min(a, b)`, … are never constant expressions. -/
theorem C61_functions_violated {c : Cfg} (hc : c.Ok) (junk a b : c.Data) :
    (∀ f, Const.fn1 c f junk a = none) ∧ (∀ f, Const.fn2 c f junk a b = none) ∧ (∀ mem, Const.copyFrom c junk mem = none) := by
  have h : ∀ mem, Const.copyFrom c junk mem = none := fun mem => constLoop_none c.N _ junk hc.pos (fun s => rfl)
  refine ⟨fun f => ?_, fun f => ?_, h⟩
  · unfold Const.fn1 Const.fromPacked
    simp only [h, Option.bind_fun_none]
  · unfold Const.fn2 Const.fromPacked
    simp only [h, Option.bind_fun_none]

theorem constLoop_and (n : Nat) (p : Nat → Bool) : forRange n (fun i r => r && p i) true = decide (∀ i, i < n → p i = true) := by
  induction n with
  | zero => simp [forRange]
  | succ n ih =>
    simp only [forRange, ih]
    rw [Bool.eq_iff_iff]
    simp only [Bool.and_eq_true, decide_eq_true_eq]
    exact ⟨fun ⟨h1, h2⟩ i hi => (Nat.lt_succ_iff_lt_or_eq.1 hi).elim (h1 i) (fun e => e ▸ h2), fun h => ⟨fun i hi => h i (by omega), h n (by omega)⟩⟩
theorem constLoop_or (n : Nat) (p : Nat → Bool) : forRange n (fun i r => r || p i) false = decide (∃ i, i < n ∧ p i = true) := by
  induction n with
  | zero => simp [forRange]
  | succ n ih =>
    simp only [forRange, ih]
    rw [Bool.eq_iff_iff]
    simp only [Bool.or_eq_true, decide_eq_true_eq]
    constructor
    · rintro (⟨i, h1, h2⟩ | h)
      · exact ⟨i, by omega, h2⟩
      · exact ⟨n, by omega, h⟩
    · rintro ⟨i, h1, h2⟩
      rcases Nat.lt_succ_iff_lt_or_eq.1 h1 with h | rfl
      · exact .inl ⟨i, h, h2⟩
      · exact .inr h2
theorem constLoop_count (n : Nat) (p : Nat → Bool) : forRange n (fun i r => r + (p i).toNat) 0 = countTrue n p := by
  induction n with
  | zero => rfl
  | succ n ih =>
    simp only [forRange, ih, countTrue, lanes, List.range_succ, List.map_append, List.countP_append, List.map_cons, List.map_nil, List.countP_cons,
      List.countP_nil, id]
    cases p n <;> simp

/-- C61: the mask reductions of a mask that fits in one native vector, in a constant expression. -/
theorem C61_mask_reductions {c : Cfg} (hc : c.Ok) (hN : c.N ≤ c.e) (m : c.Data) :
    Const.allOf c m = some (decide (∀ i, i < c.N → mget c m i = true)) ∧
    Const.anyOf c m = some (decide (∃ i, i < c.N ∧ mget c m i = true)) ∧
    Const.noneOf c m = some (decide (∀ i, i < c.N → mget c m i = false)) ∧
    Const.someOf c m = some (decide ((∃ i, i < c.N ∧ mget c m i = true) ∧ ∃ i, i < c.N ∧ mget c m i = false)) ∧
    Const.reduceCount c m = some (countTrue c.N (mget c m)) := by
  have hr : ∀ k, k < c.N → Const.mread c m k = some (mget c m k) := fun k hk => by
    rw [C61_mask_read hc m hk, if_pos (by omega)]
  have hall : Const.allOf c m = some (decide (∀ i, i < c.N → mget c m i = true)) := by
    rw [← constLoop_and]
    exact constLoop_some c.N _ _ _ (fun k hk s => by rw [hr k hk]; rfl)
  have hany : Const.anyOf c m = some (decide (∃ i, i < c.N ∧ mget c m i = true)) := by
    rw [← constLoop_or]
    exact constLoop_some c.N _ _ _ (fun k hk s => by rw [hr k hk]; rfl)
  refine ⟨hall, hany, ?_, ?_, ?_⟩
  · unfold Const.noneOf
    rw [hany]
    simp only [Option.map_some]
    congr 1
    rw [← decide_not]
    apply decide_eq_decide.2
    constructor
    · intro h i hi
      cases hm : mget c m i with
      | false => rfl
      | true => exact absurd ⟨i, hi, hm⟩ h
    · rintro h ⟨i, hi, hm⟩
      rw [h i hi] at hm; cases hm
  · unfold Const.someOf
    rw [hany]
    simp only [Option.bind_some, hall, Option.map_some]
    by_cases h : ∃ i, i < c.N ∧ mget c m i = true
    · rw [if_pos (decide_eq_true h)]
      congr 1
      rw [← decide_not]
      apply decide_eq_decide.2
      constructor
      · intro hn
        refine ⟨h, Classical.byContradiction fun hx => hn fun i hi => ?_⟩
        cases hm : mget c m i with
        | true => rfl
        | false => exact absurd ⟨i, hi, hm⟩ hx
      · rintro ⟨_, i, hi, hm⟩ ha
        rw [ha i hi] at hm; cases hm
    · rw [if_neg (by simpa using h)]
      congr 1
      symm
      exact decide_eq_false (fun hx => h hx.1)
  · rw [← constLoop_count]
    exact constLoop_some c.N _ _ _ (fun k hk s => by rw [hr k hk]; rfl)

/-- C61 (violated): for masks longer than one native vector these reductions are not constant expressions. -/
theorem C61_mask_reductions_violated {c : Cfg} (hc : c.Ok) (hN : c.e < c.N) (m : c.Data) :
    Const.allOf c m = none ∧ Const.anyOf c m = none ∧ Const.noneOf c m = none ∧ Const.someOf c m = none ∧ Const.reduceCount c m = none := by
  have hr : Const.mread c m c.e = none := by rw [C61_mask_read hc m hN, if_neg (Nat.lt_irrefl _)]
  have hall : Const.allOf c m = none := constLoop_none c.N _ _ hN (fun s => by rw [hr]; rfl)
  have hany : Const.anyOf c m = none := constLoop_none c.N _ _ hN (fun s => by rw [hr]; rfl)
  refine ⟨hall, hany, ?_, ?_, constLoop_none c.N _ _ hN (fun s => by rw [hr]; rfl)⟩
  · unfold Const.noneOf; rw [hany]; rfl
  · unfold Const.someOf; rw [hany]; rfl

theorem const_minGo {c : Cfg} (m : c.Data) (p : Nat → Option Bool) (hp : ∀ i, i < c.N → Const.mread c m i = p i) :
    ∀ fuel i, fuel + i = c.N →
      (∀ k, i ≤ k → k < c.N → p k = some true → (∀ j, i ≤ j → j < k → p j = some false) → Const.minIndexGo c m fuel i = some k) ∧
      ((∀ j, i ≤ j → j < c.N → p j = some false) → Const.minIndexGo c m fuel i = some c.N) ∧
      (∀ k, i ≤ k → k < c.N → p k = none → (∀ j, i ≤ j → j < k → p j = some false) → Const.minIndexGo c m fuel i = none) := by
  intro fuel
  induction fuel with
  | zero =>
    intro i hi
    exact ⟨fun k h1 h2 => by omega, fun _ => rfl, fun k h1 h2 => by omega⟩
  | succ n ih =>
    intro i hi
    obtain ⟨h1, h2, h3⟩ := ih (i + 1) (by omega)
    simp only [Const.minIndexGo]
    rw [hp i (by omega)]
    refine ⟨fun k hk hkN hkt hkf => ?_, fun hf => ?_, fun k hk hkN hkt hkf => ?_⟩
    · rcases Nat.eq_or_lt_of_le hk with rfl | hlt
      · rw [hkt]; rfl
      · rw [hkf i (Nat.le_refl _) hlt]
        exact h1 k hlt hkN hkt (fun j hj hjk => hkf j (by omega) hjk)
    · rw [hf i (Nat.le_refl _) (by omega)]
      exact h2 (fun j hj hjN => hf j (by omega) hjN)
    · rcases Nat.eq_or_lt_of_le hk with rfl | hlt
      · rw [hkt]; rfl
      · rw [hkf i (Nat.le_refl _) hlt]
        exact h3 k hlt hkN hkt (fun j hj hjk => hkf j (by omega) hjk)

/-- C61: `reduce_min_index` in a constant expression.  The first true element, if it lies in the first native vector.  For a mask without
true elements the result is the size for masks that fit in one native vector, and the call is not a constant expression for longer
ones, nor if the first true element lies beyond the first native vector. -/
theorem C61_min_index {c : Cfg} (hc : c.Ok) (m : c.Data) :
    (∀ k, IsFirst c.N (mget c m) k → Const.reduceMinIndex c m = if k < c.e then some k else none) ∧
    ((∀ i, i < c.N → mget c m i = false) → Const.reduceMinIndex c m = if c.N ≤ c.e then some c.N else none) := by
  have h := const_minGo m (fun i => if i < c.e then some (mget c m i) else none) (fun i hi => C61_mask_read hc m hi) c.N 0 (by omega)
  refine ⟨fun k ⟨hkN, hkt, hkf⟩ => ?_, fun hf => ?_⟩
  · by_cases hk : k < c.e
    · rw [if_pos hk]
      exact h.1 k (Nat.zero_le _) hkN (by simp only [if_pos hk, hkt]) (fun j _ hj => by simp only [if_pos (show j < c.e by omega), hkf j hj])
    · rw [if_neg hk]
      exact h.2.2 c.e (Nat.zero_le _) (by omega) (by simp) (fun j _ hj => by simp only [if_pos hj, hkf j (by omega)])
  · by_cases hk : c.N ≤ c.e
    · rw [if_pos hk]
      exact h.2.1 (fun j _ hj => by simp only [if_pos (show j < c.e by omega), hf j hj])
    · rw [if_neg hk]
      exact h.2.2 c.e (Nat.zero_le _) (by omega) (by simp) (fun j _ hj => by simp only [if_pos hj, hf j (by omega)])

theorem const_maxGo {c : Cfg} (m : c.Data) (p : Nat → Bool) (hp : ∀ i, i < c.N → Const.mread c m i = some (p i)) :
    ∀ j, j ≤ c.N →
      (∀ k, 0 < k → k < j → p k = true → (∀ i, k < i → i < j → p i = false) → Const.maxIndexGo c m j = some k) ∧
      ((∀ i, 0 < i → i < j → p i = false) → Const.maxIndexGo c m j = some c.N) := by
  intro j
  induction j with
  | zero => intro _; exact ⟨fun k h1 h2 => by omega, fun _ => rfl⟩
  | succ n ih =>
    intro hj
    obtain ⟨h1, h2⟩ := ih (by omega)
    simp only [Const.maxIndexGo]
    by_cases hn : n = 0
    · rw [if_pos hn]
      exact ⟨fun k h1 h2 => by omega, fun _ => rfl⟩
    · rw [if_neg hn, hp n (by omega)]
      refine ⟨fun k hk hkn hkt hkf => ?_, fun hf => ?_⟩
      · rcases Nat.lt_succ_iff_lt_or_eq.1 hkn with hlt | rfl
        · rw [hkf n hlt (by omega)]
          exact h1 k hk hlt hkt (fun i hi hin => hkf i hi (by omega))
        · rw [hkt]; rfl
      · rw [hf n (by omega) (by omega)]
        exact h2 (fun i hi hin => hf i hi (by omega))

/-- C61: `reduce_max_index` in a constant expression, for a mask that fits in one native vector: the last true element unless that is
element 0. -/
theorem C61_max_index_partial {c : Cfg} (hc : c.Ok) (hN : c.N ≤ c.e) (m : c.Data) {k : Nat} (hk : IsLast c.N (mget c m) k) (h0 : k ≠ 0) :
    Const.reduceMaxIndex c m = some k :=
  (const_maxGo m (mget c m) (fun i hi => by rw [C61_mask_read hc m hi, if_pos (by omega)]) c.N (Nat.le_refl _)).1 k (by omega) hk.1 hk.2.1 hk.2.2
/-- C61 (violated): if element 0 is the only true one, `reduce_max_index` in a constant expression is the size of the mask, which is no index;
for masks longer than one native vector it is not a constant expression at all. -/
theorem C61_max_index_violated {c : Cfg} (hc : c.Ok) (m : c.Data) :
    (c.N ≤ c.e → IsLast c.N (mget c m) 0 → Const.reduceMaxIndex c m = some c.N) ∧
    (c.e < c.N → Const.reduceMaxIndex c m = none) := by
  refine ⟨fun hN hk => ?_, fun hN => ?_⟩
  · exact (const_maxGo m (mget c m) (fun i hi => by rw [C61_mask_read hc m hi, if_pos (by omega)]) c.N (Nat.le_refl _)).2
      (fun i hi hin => hk.2.2 i hi hin)
  · have he := extent_pos hc.ety c.v
    unfold Const.reduceMaxIndex
    obtain ⟨n, hn⟩ : ∃ n, c.N = n + 1 := ⟨c.N - 1, by omega⟩
    rw [hn]
    have h' : c.e ≤ n := by omega
    have hr : Const.mread c m n = none := by rw [C61_mask_read hc m (by omega), if_neg (by omega)]
    simp only [Const.maxIndexGo]
    rw [if_neg (by have : 0 < c.e := he; omega), hr]; rfl

theorem reduceImpl_replicate {α : Type} (op : α → α → α) (z : α) (hz : op z z = z) (n : Nat) (hn : 1 ≤ n) :
    reduceImpl op (List.replicate n z) = some z := by
  induction n using Nat.strongRecOn with
  | _ n ih =>
    match n, hn with
    | 1, _ => simp [reduceImpl]
    | 2, _ => simp [reduceImpl, List.replicate, hz]
    | n + 3, _ =>
      have h1 := ih ((n + 3) / 2) (by omega) (by omega)
      have h2 := ih ((n + 3) - (n + 3) / 2) (by omega) (by omega)
      have e : List.replicate (n + 3) z = z :: z :: z :: List.replicate n z := rfl
      rw [e, reduceImpl]
      simp only [← e, List.length_replicate, List.drop_replicate, h1, h2, hz]

/-- C61 (violated for `reduce`): in a constant expression the second element of a vector of at least four elements does not enter the
reduction: if all the other elements are `z` and `op(z, z)` is `z`, the result is `z` whatever the second element.  (At run time it
enters: C27.) -/
theorem C61_reduce_violated {c : Cfg} (hc : c.Ok) (h4 : 4 ≤ c.N) (hN : c.N ≤ c.e) (f : BitVec c.w → BitVec c.w → Option (BitVec c.w)) (z : BitVec c.w)
    (hz : f z z = some z) (x : c.Data) (hx : ∀ i, i < c.N → i ≠ 1 → elt c x i = z) : Const.reduce c f x = some z := by
  obtain ⟨r, hr, hre⟩ := (C61_copy_to hc x (fun _ => 0#c.w)).1 hN
  unfold Const.reduce
  rw [hr]
  simp only [Option.bind_some]
  obtain ⟨n, hn⟩ : ∃ n, c.N = n + 4 := ⟨c.N - 4, by omega⟩
  have hl : (List.range c.N).map (fun i => some (r i)) = some z :: some (r 1) :: some z :: List.replicate (n + 1) (some z) := by
    apply List.ext_getElem
    · simp [hn]
    · intro i h1 h2
      simp only [List.length_map, List.length_range] at h1
      simp only [List.getElem_map, List.getElem_range]
      match i with
      | 0 => simp [hre, hx 0 (by omega) (by decide), hn]
      | 1 => rfl
      | 2 => simp [hre, hx 2 (by omega) (by decide), hn]
      | i + 3 =>
        have : r (i + 3) = z := by rw [hre, if_pos h1, hx _ h1 (by omega)]
        simp [this]
  have hop : (fun p q : Option (BitVec c.w) => p.bind fun a => q.bind fun b => f a b) (some z) (some z) = some z := by simp [hz]
  rw [hl, C07_actual]
  have e1 : (List.replicate (n + 1) (some z)).length + 3 = n + 4 := by simp
  have e2 : (some z :: some (r 1) :: some z :: List.replicate (n + 1) (some z)).drop ((n + 4) / 2) = List.replicate (n + 4 - (n + 4) / 2) (some z) := by
    obtain ⟨k, hk⟩ : ∃ k, (n + 4) / 2 = k + 2 := ⟨(n + 4) / 2 - 2, by omega⟩
    rw [hk]
    show List.drop k (List.replicate (n + 2) (some z)) = _
    rw [List.drop_replicate]
    congr 1
    omega
  rw [e1, e2, reduceImpl_replicate _ _ hop _ (by omega), reduceImpl_replicate _ _ hop _ (by omega)]
  simp [hz]

/-- C61: for at most three elements `reduce` in a constant expression combines all of them, in order (the third with the result of the first
two, up to associativity as `[simd.reductions]` allows). -/
theorem C61_reduce_small {c : Cfg} (hc : c.Ok) (hN : c.N ≤ c.e) (f : BitVec c.w → BitVec c.w → BitVec c.w) (x : c.Data) :
    (c.N = 1 → Const.reduce c (fun a b => some (f a b)) x = some (elt c x 0)) ∧
    (c.N = 2 → Const.reduce c (fun a b => some (f a b)) x = some (f (elt c x 0) (elt c x 1))) ∧
    (c.N = 3 → Const.reduce c (fun a b => some (f a b)) x = some (f (elt c x 0) (f (elt c x 1) (elt c x 2)))) := by
  obtain ⟨r, hr, hre⟩ := (C61_copy_to hc x (fun _ => 0#c.w)).1 hN
  unfold Const.reduce
  rw [hr]
  refine ⟨fun h => ?_, fun h => ?_, fun h => ?_⟩
  · have h0 := hre 0
    simp only [h, Nat.lt_irrefl, Nat.zero_lt_one, if_true] at h0
    simp [h, List.range_succ, reduceImpl, h0]
  · have h0 := hre 0
    have h1 := hre 1
    rw [if_pos (by omega)] at h0 h1
    simp [h, List.range_succ, reduceImpl, h0, h1]
  · have h0 := hre 0
    have h1 := hre 1
    have h2 := hre 2
    rw [if_pos (by omega)] at h0 h1 h2
    simp [h, List.range_succ, reduceImpl, h0, h1, h2]
/-- Such a vector: three 32-bit integers. -/
def exK3 : Cfg := ⟨⟨true, true, true, false, false, false, false, false⟩, .i32, 3, .v128⟩
example : exK3.Ok ∧ exK3.N ≤ exK3.e ∧ exK3.N = 3 := ⟨⟨by decide, by decide, by decide, by decide, by decide⟩, by decide, by decide⟩

/-! ### Non-vacuity -/
/-- four 32-bit integers in one SSE vector -/
def exK : Cfg := ⟨⟨true, true, true, false, false, false, false, false⟩, .i32, 4, .v128⟩
theorem exK_ok : exK.Ok := ⟨by decide, by decide, by decide, by decide, by decide⟩
example : exK.N ≤ exK.e ∧ 4 ≤ exK.N := by decide
example : exI32.e < exI32.N := by decide
/-- The constant-evaluated sum of (0, 1, 0, 0) is 0; at run time it is 1. -/
example (fp : FpOps) : ∃ x : exK.Data, Const.reduce exK (fun a b => some (a + b)) x = some 0 ∧ vReduce fp exK .plus x = .ok 1 := by
  refine ⟨vgenerate exK (fun i => if i = 1 then 1 else 0) (zeroData exK), ?_, ?_⟩
  · refine C61_reduce_violated exK_ok (by decide) (by decide) _ _ (by decide) _ (fun i hi h => ?_)
    rw [(C14_construct exK_ok (zeroData exK) 0 _ (fun _ => 0)).2.1 i hi, if_neg h]
  · rw [C27_reduce_is_sum_partial fp exK_ok rfl rfl]
    have : lanes exK.N (elt exK (vgenerate exK (fun i => if i = 1 then 1 else 0) (zeroData exK))) = [0, 1, 0, 0] := by
      show lanes 4 _ = _
      simp only [lanes, List.range_succ, List.range_zero, List.map_append, List.map_cons, List.map_nil, List.nil_append, List.cons_append]
      rw [(C14_construct exK_ok (zeroData exK) 0 _ (fun _ => 0)).2.1 0 (by decide), (C14_construct exK_ok (zeroData exK) 0 _ (fun _ => 0)).2.1 1 (by decide),
        (C14_construct exK_ok (zeroData exK) 0 _ (fun _ => 0)).2.1 2 (by decide), (C14_construct exK_ok (zeroData exK) 0 _ (fun _ => 0)).2.1 3 (by decide)]
      rfl
    rw [this]; exact congrArg Out.ok (by decide)
example : Const.reduceMaxIndex exK (Mask.ofGen exK (fun i => i == 0) (zeroData exK)) = some 4 ∧
    Mask.reduceMaxIndex exK (Mask.ofGen exK (fun i => i == 0) (zeroData exK)) = some 0 := by decide +kernel
example : Const.reduceMaxIndex exK (Mask.ofGen exK (fun i => i == 2) (zeroData exK)) = some 2 ∧
    Const.allOf exK (Mask.ofBool exK true (zeroData exK)) = some true ∧
    Const.reduceCount exK (Mask.ofGen exK (fun i => i % 2 == 1) (zeroData exK)) = some 2 := by decide +kernel
end Dpm.X86
