import Verif.Model.Util
import Verif.Model.Generic
/-
Properties C12 (ABI selection), C13 (index sequences), C46 (mask references), C47 (bit utilities).
-/
namespace Dpm.Util

/-! ### C12 -/

/-- The element sizes of vectorizable types. -/
def ElemSize (sz : Nat) : Prop := sz = 1 ∨ sz = 2 ∨ sz = 4 ∨ sz = 8

/-- C12 (unambiguous): the 128-bit and the 256-bit implementation are never both selected, and 256-bit
ones only with AVX. -/
theorem C12_exclusive (avx vec : Bool) (sz N A : Nat) (_ : ElemSize sz) :
    ¬ (overload128 avx vec sz N A = true ∧ overload256 avx vec sz N A = true) ∧
    (overload256 avx vec sz N A = true → avx = true) := by
  cases avx
  · simp [overload256]
  · refine ⟨?_, fun _ => rfl⟩
    rintro ⟨h1, h2⟩
    cases vec
    · simp [overload128, overloadSimd, overloadDefault] at h1
    · simp only [overload128, overload256, overloadSimd, overloadDefault, if_true, Bool.true_and,
        Bool.or_eq_true, decide_eq_true_eq] at h1 h2
      omega

/-- C12 (when): what selects an x86 implementation — for vectorizable types, at least two elements and
either default alignment or an alignment of at least 16 below SIZE_MAX; never for `packed_buffer`, scalars, or
non-vectorizable types. -/
theorem C12_selected (avx vec : Bool) (sz N A : Nat) (hs : ElemSize sz) (hN : N ≤ sizeMax / sz) :
    overloadAny avx vec sz N A = true ↔ vec = true ∧ 1 < N ∧ (A = 0 ∨ (16 ≤ A ∧ A < sizeMax)) := by
  have h64 : sizeMax = 18446744073709551615 := by decide
  rcases hs with rfl | rfl | rfl | rfl <;> cases avx <;> cases vec <;>
    simp [overloadAny, overload128, overload256, overloadSimd, overloadDefault, h64] at hN ⊢ <;> omega

/-- C12 (`deduce_t`): there is exactly one candidate, it has `N` elements, and for `N > 1` elements of a
vectorizable type the tag selects the register width it names. -/
theorem C12_deduce (avx vec : Bool) (sz N : Nat) (hs : ElemSize sz) :
    ∃ t, deduce avx vec sz N = [t] ∧ t.size = N ∧
      (∀ a, t = .avec N a → a = 16 → overload128 avx vec sz N 16 = true) ∧
      (∀ a, t = .avec N a → a = 32 → overload256 avx vec sz N 32 = true) := by
  have hex := C12_exclusive avx vec sz N 0 hs
  have h64 : sizeMax = 18446744073709551615 := by decide
  have e16 : overload128 avx vec sz N 0 = true → overload128 avx vec sz N 16 = true ∧ N ≠ 1 := by
    rcases hs with rfl | rfl | rfl | rfl <;> cases avx <;> cases vec <;>
      simp [overload128, overloadSimd, overloadDefault, h64] <;> omega
  have e32 : overload256 avx vec sz N 0 = true → overload256 avx vec sz N 32 = true ∧ N ≠ 1 := by
    rcases hs with rfl | rfl | rfl | rfl <;> cases avx <;> cases vec <;>
      simp [overload256, overloadSimd, overloadDefault, h64] <;> omega
  unfold deduce
  cases h1 : overload128 avx vec sz N 0
  · cases h2 : overload256 avx vec sz N 0
    · by_cases hN : N = 1
      · exact ⟨.scalar, by simp [hN], by simp [Tag.size, hN], by simp, by simp⟩
      · refine ⟨.avec N 0, by simp [hN], rfl, ?_, ?_⟩
        · intro a h ha; simp at h; omega
        · intro a h ha; simp at h; omega
    · obtain ⟨e, hN⟩ := e32 h2
      refine ⟨.avec N 32, by simp [hN], rfl, ?_, fun _ _ _ => e⟩
      intro a h ha; simp at h; omega
  · cases h2 : overload256 avx vec sz N 0
    · obtain ⟨e, hN⟩ := e16 h1
      refine ⟨.avec N 16, by simp [hN], rfl, fun _ _ _ => e, ?_⟩
      intro a h ha; simp at h; omega
    · exact absurd ⟨h1, h2⟩ hex.1

/-- C12 (storage): `align_data` native vectors hold at least `N` elements and waste less than one
native vector; every element index falls into an existing native vector. -/
theorem C12_storage (sz N vsize : Nat) (hs : ElemSize sz) (hv : vsize = 16 ∨ vsize = 32) :
    N ≤ alignData sz N vsize * (vsize / sz) ∧
    (0 < N → alignData sz N vsize * (vsize / sz) < N + vsize / sz) ∧
    (∀ i, i < N → i / (vsize / sz) < alignData sz N vsize) := by
  have hpos : 0 < vsize / sz := by
    rcases hs with rfl | rfl | rfl | rfl <;> rcases hv with rfl | rfl <;> decide
  unfold alignData
  generalize vsize / sz = e at *
  have hd := Nat.div_add_mod N e
  have hm := Nat.mod_lt N hpos
  have hmul : N / e * e = e * (N / e) := Nat.mul_comm _ _
  simp only
  split
  · refine ⟨?_, ?_, ?_⟩
    · rw [Nat.add_mul, Nat.one_mul]; omega
    · intro _; rw [Nat.add_mul, Nat.one_mul]; omega
    · intro i hi; exact Nat.lt_succ_of_le (Nat.div_le_div_right (Nat.le_of_lt hi))
  · refine ⟨?_, ?_, ?_⟩
    · rw [Nat.add_zero]; omega
    · intro _; rw [Nat.add_zero]; omega
    · intro i hi
      rw [Nat.add_zero, Nat.div_lt_iff_lt_mul hpos]
      omega

example : alignData 4 5 16 = 2 ∧ deduce true true 4 8 = [.avec 8 32] ∧ deduce true true 4 4 = [.avec 4 16] ∧
    deduce false true 4 8 = [.avec 8 16] ∧ overloadAny true true 4 5 sizeMax = false := by decide

/-! ### C13 -/

theorem reverseSeqAux_spec (is : List Nat) : ∀ js, is ≠ [] → reverseSeqAux js is = some (is.reverse ++ js) := by
  induction is with
  | nil => intro js h; exact absurd rfl h
  | cons i is ih =>
    intro js _
    match is with
    | [] => simp [reverseSeqAux]
    | j :: is2 => rw [reverseSeqAux, ih _ (by simp)]; simp

/-- C13 (`reverse_sequence`). -/
theorem C13_reverse (is : List Nat) (h : is ≠ []) : reverseSeq is = some is.reverse := by
  rw [reverseSeq, reverseSeqAux_spec is [] h, List.append_nil]

theorem extractSeqAux_ks (P N : Nat) (is : List Nat) : ∀ js ks, js.length = P → ks.length ≤ N →
    N ≤ ks.length + is.length → extractSeqAux P N js ks is = some (ks ++ is.take (N - ks.length)) := by
  induction is with
  | nil =>
    intro js ks hj hk hN
    have : ks.length = N := by simp at hN; omega
    rw [extractSeqAux, if_pos ⟨hj, this⟩]; simp
  | cons i is ih =>
    intro js ks hj hk hN
    simp only [List.length_cons] at hN
    rw [extractSeqAux, if_pos hj]
    by_cases h : ks.length = N
    · rw [if_pos h]; simp [h]
    · rw [if_neg h, ih js (ks ++ [i]) hj (by simp; omega) (by simp; omega)]
      obtain ⟨d, hd⟩ : ∃ d, N - ks.length = d + 1 := ⟨N - ks.length - 1, by omega⟩
      have h2 : N - (ks ++ [i]).length = d := by simp; omega
      rw [hd, h2]; simp

theorem extractSeqAux_js (P N : Nat) (hN0 : 0 < N) (is : List Nat) : ∀ js, js.length ≤ P →
    P + N ≤ js.length + is.length → extractSeqAux P N js [] is = some ((is.drop (P - js.length)).take N) := by
  induction is with
  | nil => intro js h1 h2; simp at h2; omega
  | cons i is ih =>
    intro js h1 h2
    simp only [List.length_cons] at h2
    by_cases h : js.length = P
    · rw [extractSeqAux_ks P N (i :: is) js [] h (by simp) (by simp; omega)]
      simp [h]
    · rw [extractSeqAux, if_neg h, if_neg (by simp; omega), ih (i :: js) (by simp; omega) (by simp; omega)]
      obtain ⟨d, hd⟩ : ∃ d, P - js.length = d + 1 := ⟨P - js.length - 1, by omega⟩
      have : P - (i :: js).length = d := by simp; omega
      rw [hd, this]; simp

/-- C13 (`extract_sequence<P, N, Is...>`): the `N`-element slice at `P`. -/
theorem C13_extract (P N : Nat) (is : List Nat) (hN : 0 < N) (h : P + N ≤ is.length) :
    extractSeq P N is = some ((is.drop P).take N) := by
  have := extractSeqAux_js P N hN is [] (by simp) (by simpa using h)
  simpa [extractSeq] using this

/-- The sub-lane indices of index `i`, highest first. -/
def subLanes (N Off i : Nat) : List Nat := (List.range N).map (fun J => i * N + (N - J - 1) * Off)

theorem repeatSeqAux_inner (N Off : Nat) (i : Nat) (is : List Nat) : ∀ (k : Nat) (J : Nat) (fuel : Nat) (js : List Nat),
    J + k = N → repeatSeqAux N Off (fuel + k) js J (i :: is) =
      repeatSeqAux N Off fuel (js ++ (List.range' J k).map (fun J => i * N + (N - J - 1) * Off)) N (i :: is) := by
  intro k
  induction k with
  | zero => intro J fuel js h; have : J = N := by omega
            subst this; simp
  | succ k ih =>
    intro J fuel js h
    rw [← Nat.add_assoc, repeatSeqAux, if_neg (by omega), ih (J + 1) fuel _ (by omega)]
    simp [List.range'_succ]

theorem repeatSeqAux_spec (N Off : Nat) : ∀ (is : List Nat) (js : List Nat) (fuel : Nat), is ≠ [] →
    (N + 1) * is.length ≤ fuel →
    repeatSeqAux N Off fuel js 0 is = some (js ++ is.flatMap (subLanes N Off)) := by
  intro is
  induction is with
  | nil => intro js fuel h; exact absurd rfl h
  | cons i is ih =>
    intro js fuel _ hf
    simp only [List.length_cons, Nat.mul_add, Nat.mul_one] at hf
    obtain ⟨f, rfl⟩ : ∃ f, fuel = (f + 1) + N := ⟨fuel - N - 1, by omega⟩
    rw [repeatSeqAux_inner N Off i is N 0 (f + 1) js (by omega), repeatSeqAux, if_pos rfl]
    rw [show (List.range' 0 N).map (fun J => i * N + (N - J - 1) * Off) = subLanes N Off i by
      rw [subLanes, List.range_eq_range']]
    by_cases h : is = []
    · subst h; simp
    · rw [if_neg h, ih _ f h (by omega)]; simp

/-- C13 (`repeat_sequence<N, Off, Is...>`): every index is replaced by its `N` sub-lane indices. -/
theorem C13_repeat (N Off : Nat) (is : List Nat) (h : is ≠ []) :
    repeatSeq N Off is = some (is.flatMap (subLanes N Off)) := by
  rw [repeatSeq, repeatSeqAux_spec N Off is [] _ h (by omega)]; rfl

theorem padSeqAux_pad (N Inc : Nat) : ∀ (k : Nat) (js : List Nat) (i fuel : Nat), js.length + k = N → k + 1 ≤ fuel →
    padSeqAux N Inc fuel js [i] = some (js ++ (List.range k).map (fun j => i + j * Inc)) := by
  intro k
  induction k with
  | zero =>
    intro js i fuel h hf
    obtain ⟨f, rfl⟩ : ∃ f, fuel = f + 1 := ⟨fuel - 1, by omega⟩
    rw [padSeqAux, if_pos (by omega)]; simp
  | succ k ih =>
    intro js i fuel h hf
    obtain ⟨f, rfl⟩ : ∃ f, fuel = f + 1 := ⟨fuel - 1, by omega⟩
    rw [padSeqAux, if_neg (by omega), ih _ _ f (by simp; omega) (by omega)]
    rw [List.range_succ_eq_map]
    simp [Nat.add_mul, Nat.add_assoc, Nat.add_comm]
    intro a _; omega

theorem padSeqAux_spec (N Inc : Nat) (is : List Nat) : ∀ (js : List Nat) (l fuel : Nat),
    js.length + is.length + 1 ≤ N → N + 1 + is.length ≤ fuel + js.length →
    padSeqAux N Inc fuel js (is ++ [l]) =
      some (js ++ is ++ (List.range (N - js.length - is.length)).map (fun j => l + j * Inc)) := by
  induction is with
  | nil =>
    intro js l fuel h hf
    simp only [List.length_nil] at h hf
    rw [List.nil_append, padSeqAux_pad N Inc (N - js.length) js l fuel (by omega) (by omega)]
    simp
  | cons i is ih =>
    intro js l fuel h hf
    simp only [List.length_cons] at h hf
    obtain ⟨f, rfl⟩ : ∃ f, fuel = f + 1 := ⟨fuel - 1, by omega⟩
    have : ∃ j t, is ++ [l] = j :: t := by
      cases is with
      | nil => exact ⟨l, [], rfl⟩
      | cons a as => exact ⟨a, as ++ [l], rfl⟩
    obtain ⟨j, t, ht⟩ := this
    rw [List.cons_append, ht, padSeqAux, ← ht, ih (js ++ [i]) l f (by simp; omega) (by simp; omega)]
    have : N - (js ++ [i]).length - is.length = N - js.length - (i :: is).length := by simp; omega
    rw [this]; simp

/-- C13 (`pad_sequence<N, Inc, Is...>`): for at most `N` indices the result has length `N`, starts with
the given indices and continues with `last + Inc, last + 2 Inc, …`. -/
theorem C13_pad (N Inc : Nat) (is : List Nat) (l : Nat) (h : is.length + 1 ≤ N) :
    ∃ r, padSeq N Inc (is ++ [l]) = some r ∧ r.length = N ∧ (is ++ [l]) <+: r ∧
      ∀ j, is.length + j < N → r[is.length + j]? = some (l + j * Inc) := by
  refine ⟨_, padSeqAux_spec N Inc is [] l _ (by simpa using h) (by simp; omega), ?_, ?_, ?_⟩
  · simp; omega
  · obtain ⟨k, hk⟩ : ∃ k, N - is.length = k + 1 := ⟨N - is.length - 1, by omega⟩
    refine ⟨(List.range k).map (fun j => l + (j + 1) * Inc), ?_⟩
    simp only [List.length_nil, Nat.sub_zero, hk, List.range_succ_eq_map]
    simp [Function.comp_def]
  · intro j hj
    simp only [List.nil_append, List.length_nil, Nat.sub_zero]
    rw [List.getElem?_append_right (by omega)]
    simp only [Nat.add_sub_cancel_left, List.getElem?_map]
    rw [List.getElem?_range (by omega)]; rfl

/-- C13 (`is_sequential<Step, I, Is...>`): exactly the arithmetic progressions (modulo 2^64). -/
theorem C13_is_sequential (step : Nat) : ∀ (is : List Nat) (a : Nat), a < 2 ^ 64 → is ≠ [] →
    (Generic.isSequential step a is = true ↔ ∀ (j : Nat) (hj : j < is.length), is[j] = (a + j * step) % 2 ^ 64) := by
  intro is
  induction is with
  | nil => intro a _ h; exact absurd rfl h
  | cons k ks ih =>
    intro a ha _
    match ks with
    | [] =>
      simp only [Generic.isSequential, beq_iff_eq]
      constructor
      · intro h j hj
        have : j = 0 := by simpa using hj
        subst this; simp [h]; omega
      · intro h
        have := h 0 (by simp)
        simp at this; omega
    | k2 :: ks2 =>
      have hlt : (a + step) % 2 ^ 64 < 2 ^ 64 := Nat.mod_lt _ (by decide)
      simp only [Generic.isSequential, Bool.and_eq_true, beq_iff_eq]
      rw [ih _ hlt (by simp)]
      have hcast : ∀ j, ((a + step) % 2 ^ 64 + j * step) % 2 ^ 64 = (a + (j + 1) * step) % 2 ^ 64 := by
        intro j
        rw [Nat.mod_add_mod]; congr 1; rw [Nat.add_mul]; omega
      constructor
      · rintro ⟨h1, h2⟩ j hj
        match j with
        | 0 => simp [← h1]; omega
        | j + 1 =>
          have := h2 j (by simpa using hj)
          rw [List.getElem_cons_succ, this, hcast]
      · intro h
        refine ⟨?_, ?_⟩
        · have := h 0 (by simp)
          simp at this; omega
        · intro j hj
          have := h (j + 1) (by simpa using hj)
          rw [List.getElem_cons_succ] at this
          rw [this, hcast]

/-- C13 (`shuffle_elements`): element `k` of the destination is `src[Is[k]]`; nothing else is written. -/
theorem C13_shuffle_elements {α : Type} (src : Nat → α) : ∀ (is : List Nat) (o : Nat) (dst : Nat → α),
    (∀ (k : Nat) (hk : k < is.length), shuffleElements is o dst src (o + k) = src is[k]) ∧
    (∀ k, ¬ (o ≤ k ∧ k < o + is.length) → shuffleElements is o dst src k = dst k) := by
  intro is
  induction is with
  | nil => intro o dst; exact ⟨fun k hk => by simp at hk, fun k _ => rfl⟩
  | cons i is ih =>
    intro o dst
    obtain ⟨h1, h2⟩ := ih (o + 1) (fun k => if k = o then src i else dst k)
    constructor
    · intro k hk
      match k with
      | 0 => rw [shuffleElements, h2 _ (by omega)]; simp
      | k + 1 =>
        rw [shuffleElements, show o + (k + 1) = o + 1 + k by omega, h1 k (by simpa using hk)]; simp
    · intro k hk
      simp only [List.length_cons] at hk
      rw [shuffleElements, h2 k (by omega), if_neg (by omega)]

example : reverseSeq [3, 1, 2] = some [2, 1, 3] ∧ extractSeq 2 2 [5, 6, 7, 8, 9] = some [7, 8] ∧
    repeatSeq 2 1 [3, 0] = some [7, 6, 1, 0] ∧ padSeq 4 1 [1, 2, 3] = some [1, 2, 3, 4] := by decide

/-! ### C46: mask references -/

section C46
variable {w : Nat}

/-- A stored lane is canonical: all zeros or all ones. -/
def Canonical (v : BitVec w) : Prop := v = 0 ∨ v = BitVec.allOnes w

theorem extendBool_true (w : Nat) : extendBool w true = BitVec.allOnes w := by
  simp only [extendBool, if_true]; exact BitVec.neg_one_eq_allOnes
theorem extendBool_false (w : Nat) : extendBool w false = 0 := by simp [extendBool]

theorem allOnes_ne_zero (h : 0 < w) : BitVec.allOnes w ≠ 0 := by
  intro hc
  have := congrArg BitVec.toNat hc
  have h2 := Nat.one_lt_two_pow (n := w) (by omega)
  simp at this; omega

/-- Operations that change a mask element through its reference. -/
inductive RefOp where
  | assign (b : Bool) | orA (b : Bool) | andA (b : Bool) | xorA (b : Bool) | swapB (b : Bool)

/-- The code's effect on the stored lane. -/
def RefOp.run (m : BasicMask w) : RefOp → BasicMask w
  | .assign b => m.assign b
  | .orA b => m.orAssign b
  | .andA b => m.andAssign b
  | .xorA b => m.xorAssign b
  | .swapB b => (BasicMask.swapMB m b).1

/-- The effect on a `bool`. -/
def RefOp.spec (v : Bool) : RefOp → Bool
  | .assign b => b
  | .orA b => v || b
  | .andA b => v && b
  | .xorA b => xor v b
  | .swapB b => b

theorem ref_step (h : 0 < w) (m : BasicMask w) (hm : Canonical m.value) (op : RefOp) :
    Canonical (op.run m).value ∧ (op.run m).toBool = op.spec m.toBool := by
  have h1 := allOnes_ne_zero h
  obtain ⟨v⟩ := m
  rcases hm with rfl | rfl <;> cases op with | _ b => cases b <;>
    simp_all [RefOp.run, RefOp.spec, BasicMask.assign, BasicMask.orAssign, BasicMask.andAssign, BasicMask.xorAssign,
      BasicMask.swapMB, BasicMask.toBool, Canonical, extendBool_true, extendBool_false]

/-- C46: over every history of operations starting from a canonical lane (in particular from any
`bool`), the lane stays canonical and reads as the `bool` the same history would produce. -/
theorem C46_ref_history (h : 0 < w) (ops : List RefOp) (m : BasicMask w) (hm : Canonical m.value) :
    Canonical (ops.foldl RefOp.run m).value ∧ (ops.foldl RefOp.run m).toBool = ops.foldl RefOp.spec m.toBool := by
  induction ops generalizing m with
  | nil => exact ⟨hm, rfl⟩
  | cons op ops ih =>
    obtain ⟨h1, h2⟩ := ref_step h m hm op
    obtain ⟨h3, h4⟩ := ih _ h1
    exact ⟨h3, by rw [List.foldl_cons, h4, h2]; rfl⟩

/-- C46 (reads): construction and the reading operators on canonical lanes act as on `bool`. -/
theorem C46_reads (h : 0 < w) (m : BasicMask w) (hm : Canonical m.value) (b : Bool) :
    (BasicMask.ofBool (w := w) b).toBool = b ∧ Canonical (BasicMask.ofBool (w := w) b).value ∧
    m.compl = !m.toBool ∧ m.bor b = (m.toBool || b) ∧ m.band b = (m.toBool && b) ∧ m.bxor b = xor m.toBool b := by
  have h1 := allOnes_ne_zero h
  obtain ⟨v⟩ := m
  rcases hm with rfl | rfl <;> cases b <;>
    simp_all [BasicMask.ofBool, BasicMask.toBool, Canonical, extendBool_true, extendBool_false, BasicMask.compl,
      BasicMask.bor, BasicMask.band, BasicMask.bxor]

/-- C46 (swap): swapping exchanges the two Boolean values in all three overloads. -/
theorem C46_swap (h : 0 < w) (m n : BasicMask w) (b : Bool) :
    (BasicMask.swapMM m n).1.toBool = n.toBool ∧ (BasicMask.swapMM m n).2.toBool = m.toBool ∧
    (BasicMask.swapBM b m).1 = m.toBool ∧ (BasicMask.swapBM b m).2.toBool = b ∧
    (BasicMask.swapMB m b).1.toBool = b ∧ (BasicMask.swapMB m b).2 = m.toBool := by
  have h1 := allOnes_ne_zero h
  refine ⟨rfl, rfl, rfl, ?_, ?_, rfl⟩ <;> cases b <;>
    simp_all [BasicMask.swapBM, BasicMask.swapMB, BasicMask.toBool, extendBool_true, extendBool_false]

example : Canonical (w := 8) 0xff ∧ ([RefOp.xorA true, .orA true].foldl RefOp.run (⟨0xff⟩ : BasicMask 8)).value = 0xff := by
  exact ⟨Or.inr (by decide), by decide⟩
end C46

/-! ### C47: bit utilities -/

section C47
variable {w : Nat}

theorem fillLoop_getLsbD (w n : Nat) (hn : n ≤ 64) (i : Nat) :
    (fillLoop w n).getLsbD i = decide (i < w ∧ i < n) := by
  induction n with
  | zero => simp [fillLoop]
  | succ n ih =>
    have e : BitVec.ofNat w ((1#64 <<< n).toNat) = (1#64 <<< n).setWidth w := by
      apply BitVec.eq_of_toNat_eq; simp
    rw [fillLoop, BitVec.getLsbD_or, ih (by omega), e, BitVec.getLsbD_setWidth, BitVec.getLsbD_shiftLeft,
      BitVec.getLsbD_one]
    simp only [Bool.decide_and]
    by_cases h1 : i < w <;> by_cases h2 : i < n <;> by_cases h3 : i < n + 1 <;>
      simp [h1, h2, h3] <;> omega

/-- C47 (`fill_bits`): for every `1 ≤ N ≤ 64` the value has exactly the `N` low bits set. -/
theorem C47_fill_bits (N : Nat) (h1 : 1 ≤ N) (h2 : N ≤ 64) :
    ∃ r, fillBits N = some r ∧ (∀ i, r.getLsbD i = decide (i < N)) ∧ r.toNat = 2 ^ N - 1 := by
  obtain ⟨w, hw, hNw, hw64⟩ : ∃ w, uintOfSize (N / 8 + (if N % 8 ≠ 0 then 1 else 0)) = some w ∧ N ≤ w ∧ w ≤ 64 := by
    unfold uintOfSize
    generalize hb : N / 8 + (if N % 8 ≠ 0 then 1 else 0) = b
    have : N ≤ 8 * b ∧ 1 ≤ b ∧ b ≤ 8 := by split at hb <;> omega
    repeat' split
    · exact ⟨_, rfl, by omega, by omega⟩
    · exact ⟨_, rfl, by omega, by omega⟩
    · exact ⟨_, rfl, by omega, by omega⟩
    · exact ⟨_, rfl, by omega, by omega⟩
    · omega
  have hbits : ∀ i, ((fillLoop w N).zeroExtend 64).getLsbD i = decide (i < N) := by
    intro i
    rw [BitVec.getLsbD_setWidth, fillLoop_getLsbD w N h2]
    by_cases h : i < N
    · simp [h]; omega
    · simp [h]
  refine ⟨_, by rw [fillBits, hw]; rfl, hbits, ?_⟩
  apply Nat.eq_of_testBit_eq
  intro i
  rw [← BitVec.getLsbD, hbits, Nat.testBit_two_pow_sub_one]

/-- C47 (`extend_bool`). -/
theorem C47_extend_bool (w : Nat) (b : Bool) : extendBool w b = if b then BitVec.allOnes w else 0 := by
  cases b
  · exact extendBool_false w
  · exact extendBool_true w

/-- Full statement for `test_bit`/`mask_bit`: every integer type up to 64 bits. -/
def C47_test_bit_full : Prop := ∀ (w : Nat) (x : BitVec w) (p : Nat), w ≤ 64 → p < w →
  testBit x p = some (x.getLsbD p)

theorem intBit_lt (p : Nat) (h : p < 32) : intBit p = some (1#32 <<< p) := by
  rw [intBit, if_pos (by omega)]; simp

/-- C47 (`test_bit`, `mask_bit`), part that holds: types of at most 32 bits (all uses in the code base
are on 32-bit CPUID words). -/
theorem C47_bits_partial (x : BitVec w) (p : Nat) (hw : w ≤ 32) (hp : p < w) (b : Bool) :
    testBit x p = some (x.getLsbD p) ∧
    ∃ r, maskBit x p b = some r ∧ ∀ i, r.getLsbD i = (if i = p ∧ b = false then false else x.getLsbD i) := by
  have hs : ∀ v : BitVec 32, v.signExtend w = v.setWidth w := fun v => BitVec.signExtend_eq_setWidth_of_le v hw
  have hbit : ∀ i, ((1#32 <<< p).setWidth w).getLsbD i = decide (i = p) := by
    intro i
    rw [BitVec.getLsbD_setWidth, BitVec.getLsbD_shiftLeft, BitVec.getLsbD_one]
    by_cases h : i = p
    · subst h; simp [hp]; omega
    · simp [h]; omega
  constructor
  · rw [testBit, intBit_lt p (by omega), Option.map_some, hs]
    congr 1
    cases hx : x.getLsbD p
    · have : x &&& (1#32 <<< p).setWidth w = 0 := by
        apply BitVec.eq_of_getLsbD_eq
        intro i hi
        rw [BitVec.getLsbD_and, hbit]
        by_cases h : i = p
        · subst h; simp [hx]
        · simp [h]
      simp [this]
    · simp only [ne_eq, decide_eq_true_eq]
      intro hc
      have := congrArg (fun v => v.getLsbD p) hc
      simp only [BitVec.getLsbD_and, hbit, hx] at this
      simp at this
  · refine ⟨_, by rw [maskBit, if_pos (by omega)], ?_⟩
    intro i
    rw [hs]
    cases b
    · simp only [Bool.false_eq_true, if_false, Int.toNat_natCast, and_true]
      rw [BitVec.getLsbD_and, BitVec.getLsbD_not, hbit]
      by_cases h : i = p
      · simp [h]
      · simp only [h, decide_false, Bool.not_false, Bool.and_true, if_false]
        by_cases hi : i < w
        · simp [hi]
        · simp [hi, BitVec.getLsbD_of_ge x i (by omega)]
    · simp

/-- The full statement fails for 64-bit types: `1 << 31` is a negative `int` and sign-extends. -/
theorem C47_violated : ¬ C47_test_bit_full := by
  intro h
  have := h 64 0x8000000000000000#64 31 (by decide) (by decide)
  exact absurd this (by decide)

example : testBit (0x10#32) 4 = some true ∧ maskBit (0x11#32) 4 false = some 1#32 := by decide
end C47

end Dpm.Util
