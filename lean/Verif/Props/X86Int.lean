import Verif.Proofs.Vector
/-
Properties of x86 vectors: C14 (construction), C15 (memory), C22 (integer comparisons), C23 (integer
arithmetic), C24 (shifts), C25 (64-bit arithmetic right shift), C26 (min/max/abs), C51 (bitwise, /, %).
-/
namespace Dpm.X86
open Dpm.Reg Dpm.Util Dpm.Generic Dpm.Spec

/-- example configurations: 6 x int32 on SSE4.1, 4 x uint32 on SSE2, 4 x int64 on AVX2, 8 x uint16 on SSE2 -/
def exI32 : Cfg := ⟨.sse41L, .i32, 6, .v128⟩
def exU32 : Cfg := ⟨.sse2L, .u32, 4, .v128⟩
def exI64 : Cfg := ⟨.avx2L, .i64, 4, .v256⟩
def exU16 : Cfg := ⟨.sse2L, .u16, 8, .v128⟩
/-- 6 x uint32 on SSE2: the last native vector is partly padding -/
def exU32p : Cfg := ⟨.sse2L, .u32, 6, .v128⟩
/-- 4 x uint32 on SSE4.1 -/
def exU32s : Cfg := ⟨.sse41L, .u32, 4, .v128⟩
theorem exU32s_ok : exU32s.Ok := ⟨by decide, by decide, by decide, by decide, by decide⟩
theorem exI32_ok : exI32.Ok := ⟨by decide, by decide, by decide, by decide, by decide⟩
theorem exU32_ok : exU32.Ok := ⟨by decide, by decide, by decide, by decide, by decide⟩
theorem exI64_ok : exI64.Ok := ⟨by decide, by decide, by decide, by decide, by decide⟩
theorem exU16_ok : exU16.Ok := ⟨by decide, by decide, by decide, by decide, by decide⟩
theorem exU32p_ok : exU32p.Ok := ⟨by decide, by decide, by decide, by decide, by decide⟩

/-! ### C14: construction and element access -/
theorem elt_vbroadcast {c : Cfg} (hc : c.Ok) (x : BitVec c.w) (junk : c.Data) {i : Nat} (hi : i < c.N) : elt c (vbroadcast c x junk) i = x := by
  unfold vbroadcast elt
  rw [forRange_store, forRange_store]
  simp only [idx_lt hc hi, if_true]
  rw [lane_ofLanes _ (lane_bound hc.ety (idx_mod hc i))]
  simp [idx_mod hc i]
theorem elt_vgenerate {c : Cfg} (hc : c.Ok) (gen : Nat → BitVec c.w) (junk : c.Data) {i : Nat} (hi : i < c.N) :
    elt c (vgenerate c gen junk) i = gen i := by
  unfold vgenerate elt
  rw [forStride_eq (extent_pos hc.ety c.v), forRange_store, ← dataSize_eq]
  simp only [idx_lt hc hi, if_true]
  rw [lane_ofLanes _ (lane_bound hc.ety (idx_mod hc i))]
  have hdm : i / c.e * c.e + i % c.e = i := div_mod_eq i c.e
  have := forRange_store_if c.e (fun k => decide (i / c.e * c.e + k < c.N)) (fun k => gen (i / c.e * c.e + k)) (fun _ => 0#c.w)
  simp only [decide_eq_true_eq] at this
  rw [this]
  simp only [idx_mod hc i, hdm, hi, true_and, if_true]

/-- C14: broadcast, generator and element-aligned load give exactly the requested elements whatever the
uninitialised storage held; writing `x[k] = v` changes element `k` and no other. -/
theorem C14_construct {c : Cfg} (hc : c.Ok) (junk : c.Data) (val : BitVec c.w) (gen : Nat → BitVec c.w) (mem : Mem (BitVec c.w)) :
    (∀ i, i < c.N → elt c (vbroadcast c val junk) i = val) ∧
    (∀ i, i < c.N → elt c (vgenerate c gen junk) i = gen i) ∧
    (∃ r, copyFrom c .element junk c.N mem = some r ∧ ∀ i, i < c.N → elt c r i = mem i) ∧
    (∀ (x : c.Data) (k i : Nat), elt c (vset c x k val) i = if i = k then val else elt c x i) := by
  refine ⟨fun i hi => elt_vbroadcast hc _ _ hi, fun i hi => elt_vgenerate hc _ _ hi, ?_, fun x k i => elt_setElt hc x k val i⟩
  obtain ⟨r, hr, h⟩ := (copyFrom_elem hc (elementFlag c.v) junk c.N mem).2 (Nat.le_refl _)
  exact ⟨r, hr, fun i hi => by rw [h, if_pos hi]⟩

/-- C14: native `fill` and, except for 8-byte integers in 256-bit vectors, native `set` put value `k` in lane `k`. -/
theorem C14_native_set_partial {T : Ety} (h : T.Ok) (v : VSz) (x : BitVec T.w) (vals : Nat → BitVec T.w) {i : Nat} (hi : i < extent T v)
    (hx : ¬ (T.flt = false ∧ T.bytes = 8 ∧ v = .v256)) : lane T.w (fillV v x) i = x ∧ lane T.w (setV T v vals) i = vals i := by
  refine ⟨fillV_lane h x hi, ?_⟩
  unfold setV; rw [if_neg hx]; exact lane_ofLanes _ (lane_bound h hi)
/-- C14 violated: `set<__m256i>` of 8-byte integers keeps only the sign-extended low 32 bits of each value
(utility.hpp:216-225). -/
theorem C14_native_set_violated : ∃ vals : Nat → BitVec 64,
    (∀ i, i < 4 → lane 64 (setV .i64 .v256 vals) i = ((vals i).truncate 32).signExtend 64) ∧ lane 64 (setV .i64 .v256 vals) 0 ≠ vals 0 := by
  have h : ∀ (vals : Nat → BitVec 64) i, i < 4 → lane 64 (setV .i64 .v256 vals) i = ((vals i).truncate 32).signExtend 64 := by
    intro vals i hi
    have e : setV .i64 .v256 vals = ofLanes 256 64 (fun i => ((vals i).truncate 32).signExtend 64) := rfl
    rw [e]; exact lane_ofLanes (n := 256) _ (by omega)
  refine ⟨fun _ => 0x100000000#64, h _, ?_⟩
  rw [h _ 0 (by decide)]; decide
example : elt exI32 (vgenerate exI32 (fun i => BitVec.ofNat _ (i * i)) (zeroData exI32)) 5 = BitVec.ofNat _ 25 :=
  (C14_construct exI32_ok (zeroData exI32) 0 _ (fun _ => 0)).2.1 5 (by decide)

/-! ### C15: memory accesses -/
/-- C15 with `element_aligned` (and any flag weaker than the native alignment): the accesses are exactly
`mem[0 .. size())`: an array of `size()` elements suffices, the elements are copied in order, everything
else is unchanged, and an array shorter than `size()` does not suffice. -/
theorem C15_element_aligned {c : Cfg} (hc : c.Ok) {f : Flag} (hf : f.aligned c.v.bytes = false) (d : c.Data) (len : Nat) (mem : Mem (BitVec c.w)) :
    (c.N ≤ len → ∃ m, copyTo c f d len mem = some m ∧ ∀ p, m p = if p < c.N then elt c d p else mem p) ∧
    (c.N ≤ len → ∃ r, copyFrom c f d len mem = some r ∧ ∀ i, i < c.N → elt c r i = mem i) ∧
    (len < c.N → copyTo c f d len mem = none ∧ copyFrom c f d len mem = none) := by
  refine ⟨fun h => ⟨_, by rw [copyTo_elem hf, if_pos h], fun p => rfl⟩, fun h => ?_, fun h => ⟨?_, ?_⟩⟩
  · obtain ⟨r, hr, hk⟩ := (copyFrom_elem hc hf d len mem).2 h
    exact ⟨r, hr, fun i hi => by rw [hk, if_pos hi]⟩
  · rw [copyTo_elem hf, if_neg (by omega)]
  · exact (copyFrom_elem hc hf d len mem).1 h
/-- C15 with `vector_aligned` (or `overaligned` of at least the native alignment), proved when `size()` is a multiple
of the native extent. -/
theorem C15_vector_aligned_partial {c : Cfg} (hc : c.Ok) (hN : c.N % c.e = 0) {f : Flag} (hf : f.aligned c.v.bytes = true) (d : c.Data) (mem : Mem (BitVec c.w)) :
    (∃ m, copyTo c f d c.N mem = some m ∧ ∀ p, m p = if p < c.N then elt c d p else mem p) ∧
    (∃ r, copyFrom c f d c.N mem = some r ∧ ∀ i, i < c.N → elt c r i = mem i) := by
  have h1 := (cap_eq_iff hc).2 hN
  have h2 := cap_ge hc
  have h3 : c.dataSize * c.e = c.N := Nat.le_antisymm h1 h2
  refine ⟨⟨_, by rw [copyTo_native hc hf, if_pos h1], fun p => by rw [h3]⟩, ?_⟩
  obtain ⟨r, hr, hk⟩ := (copyFrom_native hc hf d c.N mem).2 h1
  exact ⟨r, hr, fun i hi => by rw [hk, if_pos (by omega)]⟩
/-- C15 violated for every width that is not a multiple of the native extent: with `vector_aligned` both copies
access memory past `mem[size())`: on an array of `size()` elements they are undefined, and on a larger one
`copy_to` overwrites elements beyond `size()`. -/
theorem C15_vector_aligned_violated {c : Cfg} (hc : c.Ok) (hN : c.N % c.e ≠ 0) {f : Flag} (hf : f.aligned c.v.bytes = true) (d : c.Data) (mem : Mem (BitVec c.w)) :
    copyTo c f d c.N mem = none ∧ copyFrom c f d c.N mem = none ∧
    ∃ m, copyTo c f d (c.dataSize * c.e) mem = some m ∧ m c.N = elt c d c.N := by
  have h1 : ¬ c.dataSize * c.e ≤ c.N := fun h => hN ((cap_eq_iff hc).1 h)
  refine ⟨by rw [copyTo_native hc hf, if_neg h1], (copyFrom_native hc hf d c.N mem).1 (by omega), ?_⟩
  refine ⟨_, by rw [copyTo_native hc hf, if_pos (Nat.le_refl _)], ?_⟩
  rw [if_pos (by omega)]
theorem C15_counterexample (mem : Mem (BitVec 32)) (d : exU32p.Data) :
    exU32p.Ok ∧ copyTo exU32p .vector d 6 mem = none :=
  ⟨exU32p_ok, (C15_vector_aligned_violated exU32p_ok (by decide) rfl d mem).1⟩
example : ∃ m, copyTo exU32 .vector (vbroadcast exU32 7 (zeroData exU32)) 4 (fun _ => 0) = some m ∧ m 3 = 7 ∧ m 4 = 0 := by
  obtain ⟨m, h1, h2⟩ := (C15_vector_aligned_partial exU32_ok (by decide) (f := .vector) rfl (vbroadcast exU32 7 (zeroData exU32)) (fun _ => 0)).1
  refine ⟨m, h1, ?_, ?_⟩
  · rw [h2 3, if_pos (by decide)]; exact elt_vbroadcast exU32_ok _ _ (by decide)
  · rw [h2 4, if_neg (by decide)]

/-- conversions on the fly (`copy_to`/`copy_from` with another element type) access exactly `size()` elements -/
theorem C15_converting {β : Type} {c : Cfg} (hc : c.Ok) (to : BitVec c.w → β) (frm : β → BitVec c.w) (d : c.Data) (mem : Mem β) :
    (∃ m, copyToConv c to d c.N mem = some m ∧ ∀ p, m p = if p < c.N then to (elt c d p) else mem p) ∧
    (∃ r, copyFromConv c frm d c.N mem = some r ∧ ∀ i, i < c.N → elt c r i = frm (mem i)) := by
  refine ⟨⟨_, ?_, fun p => rfl⟩, ?_⟩
  · unfold copyToConv; rw [eltStoreLoop_eq (fun i => to (elt c d i)), if_pos (Nat.le_refl _)]
  · obtain ⟨r, hr, hk⟩ := (eltLoadLoop hc frm c.N mem d c.N).2 (Nat.le_refl _)
    exact ⟨r, hr, fun i hi => by rw [hk, if_pos hi]⟩

/-! ### C22: integer comparisons -/
section C22
variable {c : Cfg} (hc : c.Ok) (hint : c.T.flt = false) (a b : c.Data)
include hc hint

omit hc in
theorem intEq (x y : BitVec c.T.w) : laneEq c.T x y = decide (c.T.ity.val x = c.T.ity.val y) := by
  unfold laneEq; rw [hint]; simp [val_inj c.T.ity]

/-- C22 (`==`, `!=`, `!`): on every ISA level and lane size, also where emulated. -/
theorem C22_equality :
    YieldsMask c (opEq c a b) (fun i => decide (c.T.ity.val (elt c a i) = c.T.ity.val (elt c b i))) ∧
    YieldsMask c (opNe c a b) (fun i => decide (c.T.ity.val (elt c a i) ≠ c.T.ity.val (elt c b i))) ∧
    YieldsMask c (opLNot c a) (fun i => decide (c.T.ity.val (elt c a i) = 0)) := by
  have he := intEq (c := c) hint
  refine ⟨mask_vec2 hc _ (fun x y => decide (c.T.ity.val x = c.T.ity.val y)) a b (fun x y i hi => ?_),
    mask_vec2 hc _ (fun x y => decide (c.T.ity.val x ≠ c.T.ity.val y)) a b (fun x y i hi => ?_),
    mask_vec1 hc _ (fun x => decide (c.T.ity.val x = 0)) a (fun x i hi => ?_)⟩
  · rw [cmpEq_lane c.s hc.ety c.v x y hi, he]
  · rw [cmpNe_lane c.s hc.ety c.v x y hi, he]; simp
  · rw [cmpEq_lane c.s hc.ety c.v x _ hi, he, setzero_lane]
    congr 2; simp [IntTy.val]
/-- C22 (ordered comparisons), proved for signed element types from SSE4.1 on. -/
theorem C22_ordered_partial (hs : c.T.signed = true) (h41 : c.s.sse41 = true) :
    YieldsMask c (opGt c a b) (fun i => decide (c.T.ity.val (elt c a i) > c.T.ity.val (elt c b i))) ∧
    YieldsMask c (opLt c a b) (fun i => decide (c.T.ity.val (elt c a i) < c.T.ity.val (elt c b i))) ∧
    YieldsMask c (opGe c a b) (fun i => decide (c.T.ity.val (elt c a i) ≥ c.T.ity.val (elt c b i))) ∧
    YieldsMask c (opLe c a b) (fun i => decide (c.T.ity.val (elt c a i) ≤ c.T.ity.val (elt c b i))) := by
  have hv : ∀ x : BitVec c.T.w, c.T.ity.val x = x.toInt := fun x => by unfold IntTy.val; exact if_pos hs
  have gt : ∀ a b : c.Data, YieldsMask c (opGt c a b) (fun i => decide (c.T.ity.val (elt c a i) > c.T.ity.val (elt c b i))) := by
    intro a b
    unfold opGt; rw [if_pos (Or.inr ⟨hs, h41⟩)]
    refine mask_vec2 hc _ (fun x y => decide (c.T.ity.val x > c.T.ity.val y)) a b (fun x y i hi => ?_)
    unfold cmpGtV; rw [hint]
    refine (cmpGtI_lane c.s hc.ety c.v x y hi).trans ?_
    rw [hv, hv]
  have orMask : ∀ (g e : c.Data) (p q : Nat → Bool), (∀ i, i < c.N → elt c g i = laneMask c.w (p i)) → (∀ i, i < c.N → elt c e i = laneMask c.w (q i)) →
      ∀ i, i < c.N → mget c (Mask.or c g e) i = (p i || q i) ∧ elt c (Mask.or c g e) i = laneMask c.w (p i || q i) := by
    intro g e p q hg he i hi
    have : elt c (Mask.or c g e) i = laneMask c.w (p i || q i) := by
      rw [elt_or hc _ _ hi, hg i hi, he i hi, laneMask_or]
    exact ⟨mget_of_elt hc this, this⟩
  obtain ⟨e, he, hei⟩ := (C22_equality hc hint a b).1
  have lt : YieldsMask c (opLt c a b) (fun i => decide (c.T.ity.val (elt c a i) < c.T.ity.val (elt c b i))) := by
    unfold opLt; rw [hint, if_neg (by decide), if_pos h41]; exact gt b a
  refine ⟨gt a b, lt, ?_, ?_⟩
  · obtain ⟨g, hg, hgi⟩ := gt a b
    refine ⟨Mask.or c g e, ?_, fun i hi => ?_⟩
    · unfold opGe; rw [hint, if_neg (by decide), if_pos h41, hg, he]; rfl
    · have h := orMask g e _ _ (fun i hi => (hgi i hi).2) (fun i hi => (hei i hi).2) i hi
      have hb : (decide (c.T.ity.val (elt c a i) > c.T.ity.val (elt c b i)) || decide (c.T.ity.val (elt c a i) = c.T.ity.val (elt c b i)))
          = decide (c.T.ity.val (elt c a i) ≥ c.T.ity.val (elt c b i)) := by
        rw [← Bool.decide_or]; apply decide_eq_decide.2; omega
      dsimp only; rw [← hb]; exact h
  · obtain ⟨g, hg, hgi⟩ := lt
    refine ⟨Mask.or c g e, ?_, fun i hi => ?_⟩
    · unfold opLe; rw [hint, if_neg (by decide), if_pos h41, hg, he]; rfl
    · have h := orMask g e _ _ (fun i hi => (hgi i hi).2) (fun i hi => (hei i hi).2) i hi
      have hb : (decide (c.T.ity.val (elt c a i) < c.T.ity.val (elt c b i)) || decide (c.T.ity.val (elt c a i) = c.T.ity.val (elt c b i)))
          = decide (c.T.ity.val (elt c a i) ≤ c.T.ity.val (elt c b i)) := by
        rw [← Bool.decide_or]; apply decide_eq_decide.2; omega
      dsimp only; rw [← hb]; exact h
omit hc in
/-- C22 violated: for unsigned element types, and for all integers before SSE4.1, none of `<`, `<=`, `>`, `>=`
compiles. -/
theorem C22_ordered_violated (h : c.T.signed = false ∨ c.s.sse41 = false) :
    opGt c a b = .illFormed ∧ opLt c a b = .illFormed ∧ opGe c a b = .illFormed ∧ opLe c a b = .illFormed := by
  have hg : ∀ a b : c.Data, opGt c a b = .illFormed := by
    intro a b
    unfold opGt; rw [if_neg]
    rw [hint]
    rintro (h' | ⟨h1, h2⟩)
    · cases h'
    · rcases h with h | h
      · rw [h] at h1; cases h1
      · rw [h] at h2; cases h2
  refine ⟨hg a b, ?_, ?_, ?_⟩
  · unfold opLt; rw [if_neg (by rw [hint]; decide), hg]; split <;> rfl
  · unfold opGe; rw [if_neg (by rw [hint]; decide), hg]; split <;> rfl
  · unfold opLe opLt; rw [hint]; simp only [Bool.false_eq_true, if_false, hg]; split <;> rfl
end C22
example : opLt exU32 (zeroData exU32) (zeroData exU32) = .illFormed := (C22_ordered_violated rfl _ _ (Or.inl rfl)).2.1
example : ∃ r, opGt exI64 (vbroadcast exI64 5 (zeroData exI64)) (vbroadcast exI64 (-5) (zeroData exI64)) = .ok r ∧ mget exI64 r 3 = true := by
  obtain ⟨r, hr, h⟩ := (C22_ordered_partial exI64_ok rfl (vbroadcast exI64 5 (zeroData exI64)) (vbroadcast exI64 (-5) (zeroData exI64)) rfl rfl).1
  refine ⟨r, hr, ?_⟩
  rw [(h 3 (by decide)).1]; dsimp only
  rw [elt_vbroadcast exI64_ok _ _ (by decide), elt_vbroadcast exI64_ok _ _ (by decide)]; decide

/-- `v` is the value of type `t` nearest to the integer `r` -/
def IsClamped (t : IntTy) (r v : Int) : Prop :=
  t.fits v = true ∧ (t.fits r = true → v = r) ∧ (t.fits r = false → ∀ z, t.fits z = true → (r < v → v ≤ z) ∧ (v < r → z ≤ v)) ∧ (t.fits r = false → v ≠ r)
theorem satLane_clamped (T : Ety) (hb : T.bytes = 1 ∨ T.bytes = 2) (r : Int) : IsClamped T.ity r (T.ity.val (satLane T.ity r)) := by
  have key : ∀ t : IntTy, (t = .i8 ∨ t = .u8 ∨ t = .i16 ∨ t = .u16) → IsClamped t r (t.val (satLane t r)) := by
    rintro t (rfl | rfl | rfl | rfl) <;>
    · unfold IsClamped satLane IntTy.val IntTy.fits
      simp only [IntTy.i8, IntTy.u8, IntTy.i16, IntTy.u16, Nat.reduceMul, Nat.reduceSub, Int.reducePow, Bool.false_eq_true, if_false, if_true, decide_eq_true_eq,
        decide_eq_false_iff_not, BitVec.toInt_ofInt, BitVec.toNat_ofInt, Nat.reducePow, Int.bmod_def]
      refine ⟨?_, fun h => ?_, fun h z hz => ?_, fun h => ?_⟩
      · repeat' split
        all_goals omega
      · have h := of_decide_eq_true h
        repeat' split
        all_goals omega
      · have h := of_decide_eq_false h
        have hz := of_decide_eq_true hz
        repeat' split
        all_goals omega
      · have h := of_decide_eq_false h
        repeat' split
        all_goals omega
  obtain ⟨bytes, flt, sg⟩ := T
  dsimp only at hb
  apply key
  rcases hb with rfl | rfl <;> cases sg <;> simp [Ety.ity, Ety.w, IntTy.i8, IntTy.u8, IntTy.i16, IntTy.u16]
/-! ### C23: add, sub, negate, multiply -/
section C23
variable (fp : FpOps) {c : Cfg} (hc : c.Ok) (hint : c.T.flt = false) (a b : c.Data) (s : BitVec c.w)
include hc hint

/-- C23 (`+`, `-`, unary `-`, with vectors and scalars): exact modulo `2^w` in every lane on every ISA level. -/
theorem C23_addsub :
    Yields c (opAdd fp c a b) (fun i => modAdd c.T.ity (elt c a i) (elt c b i)) ∧
    Yields c (opSub fp c a b) (fun i => modSub c.T.ity (elt c a i) (elt c b i)) ∧
    Yields c (opAddS fp c a s) (fun i => modAdd c.T.ity (elt c a i) s) ∧
    Yields c (opSubS fp c a s) (fun i => modSub c.T.ity (elt c a i) s) ∧
    Yields c (opNeg c a) (fun i => modNeg c.T.ity (elt c a i)) := by
  have hA : ∀ x y, addV fp c.s c.T c.v x y = addI c.s c.T c.v x y := fun x y => by unfold addV; rw [hint]; rfl
  have hS : ∀ x y, subV fp c.s c.T c.v x y = subI c.s c.T c.v x y := fun x y => by unfold subV; rw [hint]; rfl
  have hNg : ∀ x, negV c.s c.T c.v x = negI c.s c.T c.v x := fun x => by unfold negV; rw [hint]; rfl
  refine ⟨ok_vec2 hc _ (modAdd c.T.ity) a b (fun x y i hi => ?_), ok_vec2 hc _ (modSub c.T.ity) a b (fun x y i hi => ?_),
    ok_vec1 hc _ (fun x => modAdd c.T.ity x s) a (fun x i hi => ?_), ok_vec1 hc _ (fun x => modSub c.T.ity x s) a (fun x i hi => ?_),
    ok_vec1 hc _ (fun x => modNeg c.T.ity x) a (fun x i hi => ?_)⟩
  · rw [hA, modAdd_eq]; exact addI_lane c.s hc.ety c.v x y hi
  · rw [hS, modSub_eq]; exact subI_lane c.s hc.ety c.v x y hi
  · rw [hA, modAdd_eq, addI_lane c.s hc.ety c.v x _ hi, fillV_lane hc.ety s hi]
  · rw [hS, modSub_eq, subI_lane c.s hc.ety c.v x _ hi, fillV_lane hc.ety s hi]
  · rw [hNg, modNeg_eq]; exact negI_lane c.s hc.ety c.v x hi

omit hint in
/-- C23 (saturating kernels `adds`, `subs` used by the logarithm code): every lane is the exact sum or
difference clamped to the range of the element type, on every ISA level and for both native sizes. -/
theorem C23_saturating (h2 : c.T.bytes ≤ 2) (x y : Vec c.v) {i : Nat} (hi : i < c.e) :
    IsClamped c.T.ity (c.T.ity.val (lane c.w x i) + c.T.ity.val (lane c.w y i)) (c.T.ity.val (lane c.w (addsI c.s c.T c.v x y) i)) ∧
    IsClamped c.T.ity (c.T.ity.val (lane c.w x i) - c.T.ity.val (lane c.w y i)) (c.T.ity.val (lane c.w (subsI c.s c.T c.v x y) i)) := by
  have e1 := addsI_lane c.s hc.ety c.v x y hi
  have e2 := subsI_lane c.s hc.ety c.v x y hi
  have hb : c.T.bytes = 1 ∨ c.T.bytes = 2 := by have := hc.ety.1; omega
  rw [e1, e2]
  generalize c.T.ity.val (lane c.T.w x i) + c.T.ity.val (lane c.T.w y i) = r1
  generalize c.T.ity.val (lane c.T.w x i) - c.T.ity.val (lane c.T.w y i) = r2
  exact ⟨satLane_clamped c.T hb r1, satLane_clamped c.T hb r2⟩

/-- C23 (`++`, `--`), proved for `int`. -/
theorem C23_incdec_partial (hT : c.T = .i32) :
    Yields c (opInc fp c a) (fun i => modAdd c.T.ity (elt c a i) (BitVec.ofNat _ 1)) ∧
    Yields c (opDec fp c a) (fun i => modSub c.T.ity (elt c a i) (BitVec.ofNat _ 1)) := by
  have h := C23_addsub fp hc hint a a (BitVec.ofNat _ 1)
  unfold opInc opDec
  rw [if_pos hT, if_pos hT]
  exact ⟨h.2.2.1, h.2.2.2.1⟩
omit hc hint in
/-- C23 violated: `++` and `--` do not compile for any element type but `int`. -/
theorem C23_incdec_violated (hT : c.T ≠ .i32) : opInc fp c a = .illFormed ∧ opDec fp c a = .illFormed := by
  unfold opInc opDec; rw [if_neg hT, if_neg hT]; exact ⟨rfl, rfl⟩

/-- C23 (`*`): native multiplication (4-byte lanes from SSE4.1 on) is exact modulo `2^w`; the fallback is
proved when `size()` is a multiple of the native extent and the scalar products are defined (no signed
overflow), with vector and scalar right operands. -/
theorem C23_mul_partial :
    (mulNative c = true → Yields c (opMul fp c a b) (fun i => modMul c.T.ity (elt c a i) (elt c b i)) ∧
      Yields c (opMulS fp c a s) (fun i => modMul c.T.ity (elt c a i) s)) ∧
    (mulNative c = false → c.N % c.e = 0 →
      YieldsIfDefined c (opMul fp c a b) (fun i => c.T.ity.mul (elt c a i) (elt c b i)) ∧
      YieldsIfDefined c (opMulS fp c a s) (fun i => c.T.ity.mul (elt c a i) s)) := by
  have hM : ∀ x y, mulV fp c.s c.T c.v x y = mulI c.s c.T c.v x y := fun x y => by unfold mulV; rw [hint]; rfl
  refine ⟨fun hn => ?_, fun hn hN => ?_⟩
  · have h41 : c.s.sse41 = true ∧ c.T.bytes = 4 := by simpa [mulNative] using hn
    have hex : ∀ x y, ∃ r, mulI c.s c.T c.v x y = some r := by
      generalize c.v = v
      intro x y
      cases v with
      | v128 => exact ⟨_, if_pos (Or.inr ⟨h41.2, h41.1⟩)⟩
      | v256 => exact ⟨_, if_pos (Or.inr h41.2)⟩
    constructor
    · unfold opMul; rw [if_pos (Or.inr hn)]
      obtain ⟨r, hr, h⟩ := rel_vec2 hc (fun x y => mulV fp c.s c.T c.v x y) (fun x y r => r = modMul c.T.ity x y) a b (by
        intro x y
        obtain ⟨r, hr⟩ := hex x y
        refine ⟨r, by rw [hM, hr], fun i hi => ?_⟩
        rw [modMul_eq]; exact mulI_lane c.s hc.ety c.v x y hi hr)
      exact ⟨r, hr, h⟩
    · unfold opMulS; rw [if_pos (Or.inr hn)]
      obtain ⟨r, hr, h⟩ := rel_vec1 hc (fun x => mulV fp c.s c.T c.v x (fillV c.v s)) (fun x r => r = modMul c.T.ity x s) a (by
        intro x
        obtain ⟨r, hr⟩ := hex x (fillV c.v s)
        refine ⟨r, by rw [hM, hr], fun i hi => ?_⟩
        rw [modMul_eq, mulI_lane c.s hc.ety c.v x _ hi hr, fillV_lane hc.ety s hi])
      exact ⟨r, hr, h⟩
  · have hcond : ¬ (c.T.flt = true ∨ mulNative c = true) := by rw [hint, hn]; simp
    unfold opMul opMulS; rw [if_neg hcond, if_neg hcond]
    exact ⟨packed2_ok hc hN (f := c.T.ity.mul) (fun x y => lift2_spec _ _ x y) a b,
      packed1_ok hc hN (f := fun x => c.T.ity.mul x s) (fun x => liftS_spec _ _ x s) a⟩
/-- where the fallback multiplication of unsigned lanes of at least 4 bytes is defined it is exact modulo `2^w` -/
theorem C23_mul_unsigned_partial (hu : c.T.signed = false) (h4 : 4 ≤ c.T.bytes) (hN : c.N % c.e = 0) (hn : mulNative c = false) :
    Yields c (opMul fp c a b) (fun i => modMul c.T.ity (elt c a i) (elt c b i)) := by
  have hm : ∀ x y : BitVec c.T.w, c.T.ity.mul x y = some (modMul c.T.ity x y) := by
    intro x y
    unfold IntTy.mul IntTy.wrap IntTy.promote modMul
    have : ¬ 8 * c.T.bytes < 32 := by omega
    rw [if_neg this, if_neg]
    rw [show c.T.ity.signed = false from hu]; simp
  obtain ⟨r, hr, h⟩ := ((C23_mul_partial fp hc hint a b 0).2 hn hN).1 (fun i _ => by dsimp only; rw [hm]; simp)
  refine ⟨r, hr, fun i hi => ?_⟩
  have := h i hi
  dsimp only at this
  rw [hm] at this
  exact (Option.some.inj this).symm
/-- C23 violated: whenever the fallback is taken and `size()` is not a multiple of the native extent,
multiplication is undefined whatever the operands. -/
theorem C23_mul_violated (hn : mulNative c = false) (hN : c.N % c.e ≠ 0) :
    opMul fp c a b = .ub ∧ opMulS fp c a s = .ub := by
  have hcond : ¬ (c.T.flt = true ∨ mulNative c = true) := by rw [hint, hn]; simp
  unfold opMul opMulS; rw [if_neg hcond, if_neg hcond]
  exact ⟨packed2_ub hc hN _ a b, packed1_ub hc hN _ a⟩
/-- the fallback multiplication is undefined as soon as one scalar product is -/
theorem C23_mul_undefined (hn : mulNative c = false) {i : Nat} (hi : i < c.N) (hf : c.T.ity.mul (elt c a i) (elt c b i) = none) :
    opMul fp c a b = .ub := by
  have hcond : ¬ (c.T.flt = true ∨ mulNative c = true) := by rw [hint, hn]; simp
  unfold opMul; rw [if_neg hcond]
  exact packed2_undef hc (f := c.T.ity.mul) (fun x y => lift2_spec _ _ x y) a b hi hf
end C23
/-- 3 - 5 on unsigned 16-bit lanes saturates to 0 (the case the logarithm code relies on). -/
example : exU16.T.ity.val (lane exU16.w (subsI exU16.s exU16.T exU16.v (fillV exU16.v (3#16)) (fillV exU16.v (5#16))) 7) = 0 := by
  have h := (C23_saturating exU16_ok (by decide) (fillV exU16.v (3#16)) (fillV exU16.v (5#16)) (i := 7) (by decide)).2
  rw [show lane exU16.w (fillV exU16.v (3#16)) 7 = 3#16 from lane_ofLanes _ (by decide),
    show lane exU16.w (fillV exU16.v (5#16)) 7 = 5#16 from lane_ofLanes _ (by decide)] at h
  obtain ⟨h1, _, h3, _⟩ := h
  generalize exU16.T.ity.val (lane exU16.w (subsI exU16.s exU16.T exU16.v (fillV exU16.v (3#16)) (fillV exU16.v (5#16))) 7) = q at *
  have h0 : 0 ≤ q ∧ q < 2 ^ 16 := of_decide_eq_true (show decide (0 ≤ q ∧ q < 2 ^ 16) = true from h1)
  have h4 := (h3 rfl 0 rfl).1
  simp only [show exU16.T.ity.val (3#16) = 3 from rfl, show exU16.T.ity.val (5#16) = 5 from rfl] at h4
  omega
example (fp : FpOps) : opMul fp exU32p (zeroData exU32p) (zeroData exU32p) = .ub :=
  (C23_mul_violated fp exU32p_ok rfl _ _ 0 rfl (by decide)).1
example (fp : FpOps) : ∃ r, opMul fp exI32 (vbroadcast exI32 (-3) (zeroData exI32)) (vbroadcast exI32 7 (zeroData exI32)) = .ok r ∧ elt exI32 r 5 = BitVec.ofInt _ (-21) := by
  obtain ⟨r, hr, h⟩ := ((C23_mul_partial fp exI32_ok rfl (vbroadcast exI32 (-3) (zeroData exI32)) (vbroadcast exI32 7 (zeroData exI32)) 0).1 rfl).1
  refine ⟨r, hr, ?_⟩
  rw [h 5 (by decide)]; dsimp only
  rw [elt_vbroadcast exI32_ok _ _ (by decide), elt_vbroadcast exI32_ok _ _ (by decide)]; decide

/-- uint16 products overflow `int` after promotion: the fallback multiplication is undefined for values whose
product modulo 2^16 is well defined (C23 asks for 1). -/
theorem C23_mul_u16_violated (fp : FpOps) :
    opMul fp exU16 (vbroadcast exU16 0xffff (zeroData exU16)) (vbroadcast exU16 0xffff (zeroData exU16)) = .ub ∧
    modMul exU16.T.ity 0xffff 0xffff = 1 := by
  refine ⟨?_, by decide⟩
  refine C23_mul_undefined fp exU16_ok rfl _ _ rfl (i := 0) (by decide) ?_
  rw [elt_vbroadcast exU16_ok _ _ (by decide)]
  decide

/-! ### C51: bitwise operators, division, remainder -/
section C51
variable (fp : FpOps) {c : Cfg} (hc : c.Ok) (a b : c.Data) (s : BitVec c.w)
include hc
/-- C51 (`&`, `|`, `^`): lane-wise, vector and scalar operands, every element type. -/
theorem C51_bitwise :
    Yields c (opAnd c a b) (fun i => elt c a i &&& elt c b i) ∧ Yields c (opOr c a b) (fun i => elt c a i ||| elt c b i) ∧
    Yields c (opXor c a b) (fun i => elt c a i ^^^ elt c b i) ∧ Yields c (opAndS c a s) (fun i => elt c a i &&& s) ∧
    Yields c (opOrS c a s) (fun i => elt c a i ||| s) ∧ Yields c (opXorS c a s) (fun i => elt c a i ^^^ s) :=
  ⟨ok_vec2 hc _ (fun x y => x &&& y) a b (fun x y i _ => lane_and _ _ _ _),
   ok_vec2 hc _ (fun x y => x ||| y) a b (fun x y i _ => lane_or _ _ _ _),
   ok_vec2 hc _ (fun x y => x ^^^ y) a b (fun x y i _ => lane_xor _ _ _ _),
   ok_vec1 hc _ (fun x => x &&& s) a (fun x i hi => by rw [bitAnd, lane_and, fillV_lane hc.ety s hi]),
   ok_vec1 hc _ (fun x => x ||| s) a (fun x i hi => by rw [bitOr, lane_or, fillV_lane hc.ety s hi]),
   ok_vec1 hc _ (fun x => x ^^^ s) a (fun x i hi => by rw [bitXor, lane_xor, fillV_lane hc.ety s hi])⟩
/-- C51 (`~`, `/`, `%`), proved when `size()` is a multiple of the native extent. -/
theorem C51_template_partial (hint : c.T.flt = false) (hN : c.N % c.e = 0) :
    Yields c (opNot c a) (fun i => ~~~ elt c a i) ∧
    YieldsIfDefined c (opDiv fp c a b) (fun i => c.T.ity.div (elt c a i) (elt c b i)) ∧
    YieldsIfDefined c (opRem c a b) (fun i => c.T.ity.rem (elt c a i) (elt c b i)) := by
  refine ⟨?_, ?_, template2_ok hc hN _ a b⟩
  · obtain ⟨r, hr, h⟩ := template1_ok hc hN c.T.ity.bnot a (fun i _ => by simp [IntTy.bnot])
    exact ⟨r, hr, fun i hi => (Option.some.inj (h i hi)).symm⟩
  · unfold opDiv; rw [hint]; exact template2_ok hc hN _ a b
/-- C51 violated: for every other width `~`, `/` and `%` read past a buffer of `size()` elements. -/
theorem C51_violated (hint : c.T.flt = false) (hN : c.N % c.e ≠ 0) :
    opNot c a = .ub ∧ opDiv fp c a b = .ub ∧ opRem c a b = .ub := by
  refine ⟨template1_ub hc hN _ a, ?_, template2_ub hc hN _ a b⟩
  unfold opDiv; rw [hint]; exact template2_ub hc hN _ a b
end C51
example : ∃ r, opNot exU16 (vbroadcast exU16 0xff (zeroData exU16)) = .ok r ∧ elt exU16 r 7 = 0xff00 := by
  obtain ⟨r, hr, h⟩ := (C51_template_partial ⟨fun _ x _ => x, fun _ x _ => x, fun _ x _ => x, fun _ x _ => x⟩ exU16_ok
    (vbroadcast exU16 0xff (zeroData exU16)) (zeroData exU16) rfl (by decide)).1
  refine ⟨r, hr, ?_⟩
  rw [h 7 (by decide)]; dsimp only
  rw [elt_vbroadcast exU16_ok _ _ (by decide)]; decide

end Dpm.X86
