import Verif.Proofs.Mask
import Verif.Spec.Lanes
/-
Properties of x86 masks: C16 (operators), C17 (canonical lanes), C18 (quantifiers), C19 (count),
C20 (index scans), C21 (blend), C50 (lock-step traversal).
Masks are observed through `operator[]` (`mget`); `m` ranges over every storage, padding lanes included.
-/
namespace Dpm.X86
open Dpm.Reg Dpm.Util Dpm.Spec

/-- Every element of the mask is all zeros or all ones (nothing is said about padding lanes). -/
def Canon (c : Cfg) (m : c.Data) : Prop := ∀ i, i < c.N → elt c m i = 0 ∨ elt c m i = BitVec.allOnes c.w

theorem Canon.elt {c : Cfg} (hc : c.Ok) {m : c.Data} (h : Canon c m) {i : Nat} (hi : i < c.N) :
    elt c m i = laneMask c.w (mget c m i) := by
  have hw : 0 < c.w := w_pos hc.ety
  unfold mget
  rcases h i hi with h | h
  · rw [h]; simp [laneMask]
  · have : (BitVec.allOnes c.w) ≠ 0 := by
      have := laneMask_eq_zero hw true; simpa [laneMask] using this
    rw [h]; simp [this, laneMask]
theorem canon_of_elt {c : Cfg} {m : c.Data} (p : Nat → Bool) (h : ∀ i, i < c.N → elt c m i = laneMask c.w (p i)) : Canon c m := by
  intro i hi
  rw [h i hi]
  cases p i
  · exact Or.inl rfl
  · exact Or.inr rfl
theorem mget_of_elt {c : Cfg} (hc : c.Ok) {m : c.Data} {i : Nat} {b : Bool} (h : elt c m i = laneMask c.w b) : mget c m i = b := by
  unfold mget
  have hw : 0 < c.w := w_pos hc.ety
  have := laneMask_eq_zero hw b
  rw [h]
  cases b <;> simp_all [BitVec.ofNat_eq_ofNat]

theorem elt_vec1 {c : Cfg} (hc : c.Ok) (f : Vec c.v → Vec c.v → Vec c.v) (r a : c.Data) {i : Nat} (hi : i < c.N) :
    elt c (vectorize1 c f r a) i = lane c.w (f (r (i / c.e)) (a (i / c.e))) (i % c.e) := by
  unfold elt; rw [vectorize1_eq c f r a (idx_lt hc hi)]
theorem elt_vec2 {c : Cfg} (hc : c.Ok) (f : Vec c.v → Vec c.v → Vec c.v → Vec c.v) (r a b : c.Data) {i : Nat} (hi : i < c.N) :
    elt c (vectorize2 c f r a b) i = lane c.w (f (r (i / c.e)) (a (i / c.e)) (b (i / c.e))) (i % c.e) := by
  unfold elt; rw [vectorize2_eq c f r a b (idx_lt hc hi)]
theorem elt_zero (c : Cfg) (i : Nat) : elt c (zeroData c) i = 0#c.w := by
  unfold elt zeroData; exact lane_zero _ _ _

/-! ### element lemmas -/
section
variable {c : Cfg} (hc : c.Ok)
include hc
theorem elt_and (a b : c.Data) {i : Nat} (hi : i < c.N) : elt c (Mask.and c a b) i = elt c a i &&& elt c b i := by
  unfold Mask.and; rw [elt_vec2 hc _ _ _ _ hi]; exact lane_and _ _ _ _
theorem elt_or (a b : c.Data) {i : Nat} (hi : i < c.N) : elt c (Mask.or c a b) i = elt c a i ||| elt c b i := by
  unfold Mask.or; rw [elt_vec2 hc _ _ _ _ hi]; exact lane_or _ _ _ _
theorem elt_xor (a b : c.Data) {i : Nat} (hi : i < c.N) : elt c (Mask.xor c a b) i = elt c a i ^^^ elt c b i := by
  unfold Mask.xor; rw [elt_vec2 hc _ _ _ _ hi]; exact lane_xor _ _ _ _
theorem elt_compl (a : c.Data) {i : Nat} (hi : i < c.N) : elt c (Mask.compl c a) i = ~~~ elt c a i := by
  unfold Mask.compl
  rw [elt_vec1 hc _ _ _ hi, bitNot_eq]; exact lane_not _ (lane_bound hc.ety (idx_mod hc i))
theorem elt_eq (a b : c.Data) {i : Nat} (hi : i < c.N) :
    elt c (Mask.eq c a b) i = laneMask c.w (decide (elt c a i = elt c b i)) := by
  unfold Mask.eq; rw [elt_vec2 hc _ _ _ _ hi, maskEq_lane c.s hc.ety c.v _ _ (idx_mod hc i)]; rfl
theorem elt_ne (a b : c.Data) {i : Nat} (hi : i < c.N) :
    elt c (Mask.ne c a b) i = laneMask c.w (!decide (elt c a i = elt c b i)) := by
  unfold Mask.ne Mask.not; rw [elt_compl hc _ hi, elt_eq hc _ _ hi, laneMask_not]
theorem elt_land (a b : c.Data) {i : Nat} (hi : i < c.N) : elt c (Mask.land c a b) i = 0#c.w := by
  unfold Mask.land
  rw [elt_vec2 hc _ _ _ _ hi]
  show lane c.w (~~~ _ &&& (~~~ _ &&& 0#c.v.bits)) _ = _
  rw [BitVec.and_zero, BitVec.and_zero, lane_zero]
theorem elt_lor (a b : c.Data) {i : Nat} (hi : i < c.N) :
    elt c (Mask.lor c a b) i = laneMask c.w (!decide (elt c a i ||| elt c b i = 0#c.w)) := by
  unfold Mask.lor; rw [elt_ne hc _ _ hi, elt_or hc _ _ hi, elt_zero]
theorem elt_blend (m a b : c.Data) {i : Nat} (hi : i < c.N) :
    elt c (Mask.blend c m a b) i = if mget c m i then elt c a i else elt c b i := by
  unfold Mask.blend
  unfold elt
  rw [forRange_store]
  simp only [idx_lt hc hi, if_true]
  rw [blendv_lane c.s hc.ety c.v _ _ _ (idx_mod hc i) (!mget c m i) ?_]
  · cases mget c m i <;> rfl
  · rw [maskEq_lane c.s hc.ety c.v _ _ (idx_mod hc i), setzero, lane_zero]
    congr 1
    unfold mget elt
    by_cases h : lane c.w (m (i / c.e)) (i % c.e) = 0#c.w <;> simp [h]
theorem elt_ofBool (b : Bool) (junk : c.Data) {i : Nat} (hi : i < c.N) : elt c (Mask.ofBool c b junk) i = laneMask c.w b := by
  unfold Mask.ofBool elt
  rw [forRange_store, forRange_store]
  simp only [idx_lt hc hi, if_true]
  rw [lane_ofLanes _ (lane_bound hc.ety (idx_mod hc i)), extendBool_eq]
  simp [idx_mod hc i]
theorem elt_ofGen (gen : Nat → Bool) (junk : c.Data) {i : Nat} (hi : i < c.N) :
    elt c (Mask.ofGen c gen junk) i = laneMask c.w (gen i) := by
  unfold Mask.ofGen elt
  rw [forStride_eq (extent_pos hc.ety c.v), forRange_store, ← dataSize_eq]
  simp only [idx_lt hc hi, if_true]
  rw [lane_ofLanes _ (lane_bound hc.ety (idx_mod hc i))]
  have hdm : i / c.e * c.e + i % c.e = i := by rw [Nat.mul_comm]; exact Nat.div_add_mod i c.e
  have := forRange_store_if c.e (fun k => decide (i / c.e * c.e + k < c.N)) (fun k => extendBool c.w (gen (i / c.e * c.e + k))) (fun _ => 0#c.w)
  simp only [decide_eq_true_eq] at this
  rw [this]
  simp only [idx_mod hc i, hdm, hi, true_and, if_true, extendBool_eq]
omit hc in
theorem elt_setElt (hc : c.Ok) (m : c.Data) (i : Nat) (x : BitVec c.w) (k : Nat) :
    elt c (setElt c m i x) k = if k = i then x else elt c m k := by
  unfold elt setElt
  by_cases hb : k / c.e = i / c.e
  · rw [hb, Mem.set_same, lane_ofLanes _ (lane_bound hc.ety (idx_mod hc k))]
    have h1 := Nat.div_add_mod k c.e
    have h2 := Nat.div_add_mod i c.e
    by_cases hm : k % c.e = i % c.e
    · have : k = i := by rw [← h1, ← h2, hb, hm]
      simp [this]
    · have : k ≠ i := fun h => hm (by rw [h])
      simp [hm, this]
  · have : k ≠ i := fun h => hb (by rw [h])
    rw [Mem.set_ne _ _ hb, if_neg this]
end

/-! ### C16 -/
section C16
variable {c : Cfg} (hc : c.Ok) {a b : c.Data} (ha : Canon c a) (hb : Canon c b)
include hc ha

/-- C16: `~m` and `!m` negate every element. -/
theorem C16_not {i : Nat} (hi : i < c.N) : mget c (Mask.not c a) i = !mget c a i ∧ mget c (Mask.compl c a) i = !mget c a i := by
  have h := elt_compl hc a hi
  rw [ha.elt hc hi, laneMask_not] at h
  exact ⟨mget_of_elt hc h, mget_of_elt hc h⟩
include hb
/-- C16: `&`, `|`, `^` are the element-wise Boolean operations. -/
theorem C16_bitwise {i : Nat} (hi : i < c.N) :
    mget c (Mask.and c a b) i = (mget c a i && mget c b i) ∧
    mget c (Mask.or c a b) i = (mget c a i || mget c b i) ∧
    mget c (Mask.xor c a b) i = (mget c a i ^^ mget c b i) := by
  refine ⟨mget_of_elt hc ?_, mget_of_elt hc ?_, mget_of_elt hc ?_⟩
  · rw [elt_and hc _ _ hi, ha.elt hc hi, hb.elt hc hi, laneMask_and]
  · rw [elt_or hc _ _ hi, ha.elt hc hi, hb.elt hc hi, laneMask_or]
  · rw [elt_xor hc _ _ hi, ha.elt hc hi, hb.elt hc hi, laneMask_xor]
/-- C16: `==` and `!=` compare element-wise. -/
theorem C16_compare {i : Nat} (hi : i < c.N) :
    mget c (Mask.eq c a b) i = (mget c a i == mget c b i) ∧
    mget c (Mask.ne c a b) i = (mget c a i != mget c b i) := by
  have hw : 0 < c.w := w_pos hc.ety
  have key : decide (elt c a i = elt c b i) = (mget c a i == mget c b i) := by
    rw [ha.elt hc hi, hb.elt hc hi]
    have h0 := laneMask_eq_zero hw true
    cases mget c a i <;> cases mget c b i <;> simp [laneMask] at h0 ⊢
    · exact h0
    · exact h0
  refine ⟨mget_of_elt hc ?_, mget_of_elt hc ?_⟩
  · rw [elt_eq hc _ _ hi, key]
  · rw [elt_ne hc _ _ hi, key]; rfl
end C16
/-- C16: `||` is the element-wise disjunction, even for non-canonical operands. -/
theorem C16_lor {c : Cfg} (hc : c.Ok) (a b : c.Data) {i : Nat} (hi : i < c.N) :
    mget c (Mask.lor c a b) i = (mget c a i || mget c b i) := by
  have h := mget_of_elt hc (elt_lor hc a b hi)
  rw [h]
  unfold mget
  have hz : elt c a i ||| elt c b i = 0#c.w ↔ elt c a i = 0#c.w ∧ elt c b i = 0#c.w := by
    constructor
    · intro h
      have hbit : ∀ k, (elt c a i).getLsbD k = false ∧ (elt c b i).getLsbD k = false := by
        intro k
        have := congrArg (fun v => v.getLsbD k) h
        simpa using this
      exact ⟨BitVec.eq_of_getLsbD_eq (fun k _ => by rw [(hbit k).1]; simp),
        BitVec.eq_of_getLsbD_eq (fun k _ => by rw [(hbit k).2]; simp)⟩
    · rintro ⟨h1, h2⟩; simp [h1, h2]
  simp only [hz]
  by_cases h1 : elt c a i = 0#c.w <;> by_cases h2 : elt c b i = 0#c.w <;> simp [h1, h2]
/-- C16 is violated by `&&`: it yields false in every element, whatever the operands. -/
theorem C16_land_always_false {c : Cfg} (hc : c.Ok) (a b : c.Data) {i : Nat} (hi : i < c.N) :
    mget c (Mask.land c a b) i = false := by
  unfold mget; rw [elt_land hc _ _ hi]; simp
/-- What does hold of `&&`: it agrees with the conjunction where the conjunction is false. -/
theorem C16_land_partial {c : Cfg} (hc : c.Ok) (a b : c.Data) {i : Nat} (hi : i < c.N)
    (h : (mget c a i && mget c b i) = false) : mget c (Mask.land c a b) i = (mget c a i && mget c b i) := by
  rw [h, C16_land_always_false hc a b hi]

/-! ### C17 -/
/-- Masks a program can build with the constructors, element writes and mask operators. -/
inductive ApiMask (c : Cfg) : c.Data → Prop where
  | ofBool (b junk) : ApiMask c (Mask.ofBool c b junk)
  | ofGen (gen junk) : ApiMask c (Mask.ofGen c gen junk)
  | setElem {m} (i b) : ApiMask c m → i < c.N → ApiMask c (Mask.setElem c m i b)
  | not {a} : ApiMask c a → ApiMask c (Mask.not c a)
  | compl {a} : ApiMask c a → ApiMask c (Mask.compl c a)
  | and {a b} : ApiMask c a → ApiMask c b → ApiMask c (Mask.and c a b)
  | or {a b} : ApiMask c a → ApiMask c b → ApiMask c (Mask.or c a b)
  | xor {a b} : ApiMask c a → ApiMask c b → ApiMask c (Mask.xor c a b)
  | land {a b} : ApiMask c a → ApiMask c b → ApiMask c (Mask.land c a b)
  | lor {a b} : ApiMask c a → ApiMask c b → ApiMask c (Mask.lor c a b)
  | eq {a b} : ApiMask c a → ApiMask c b → ApiMask c (Mask.eq c a b)
  | ne {a b} : ApiMask c a → ApiMask c b → ApiMask c (Mask.ne c a b)
  | blend {m a b} : ApiMask c m → ApiMask c a → ApiMask c b → ApiMask c (Mask.blend c m a b)

/-- C17: masks built through the mask API are canonical, after any finite history of calls. -/
theorem C17_canonical {c : Cfg} (hc : c.Ok) {m : c.Data} (h : ApiMask c m) : Canon c m := by
  induction h with
  | ofBool b junk => exact canon_of_elt (fun _ => b) (fun i hi => elt_ofBool hc b junk hi)
  | ofGen gen junk => exact canon_of_elt gen (fun i hi => elt_ofGen hc gen junk hi)
  | @setElem m i b _ _ ih =>
    intro k hk
    unfold Mask.setElem
    rw [elt_setElt hc, extendBool_eq]
    by_cases h : k = i
    · rw [if_pos h]; cases b
      · exact Or.inl rfl
      · exact Or.inr rfl
    · rw [if_neg h]; exact ih k hk
  | not _ ih => exact canon_of_elt _ (fun i hi => by
      rw [show Mask.not c _ = Mask.compl c _ from rfl, elt_compl hc _ hi, ih.elt hc hi, laneMask_not])
  | compl _ ih => exact canon_of_elt _ (fun i hi => by rw [elt_compl hc _ hi, ih.elt hc hi, laneMask_not])
  | and _ _ ih1 ih2 => exact canon_of_elt _ (fun i hi => by rw [elt_and hc _ _ hi, ih1.elt hc hi, ih2.elt hc hi, laneMask_and])
  | or _ _ ih1 ih2 => exact canon_of_elt _ (fun i hi => by rw [elt_or hc _ _ hi, ih1.elt hc hi, ih2.elt hc hi, laneMask_or])
  | xor _ _ ih1 ih2 => exact canon_of_elt _ (fun i hi => by rw [elt_xor hc _ _ hi, ih1.elt hc hi, ih2.elt hc hi, laneMask_xor])
  | land _ _ _ _ => exact fun i hi => Or.inl (elt_land hc _ _ hi)
  | lor _ _ _ _ => exact canon_of_elt _ (fun i hi => elt_lor hc _ _ hi)
  | eq _ _ _ _ => exact canon_of_elt _ (fun i hi => elt_eq hc _ _ hi)
  | ne _ _ _ _ => exact canon_of_elt _ (fun i hi => elt_ne hc _ _ hi)
  | blend _ _ _ _ ih1 ih2 =>
    intro i hi
    rw [elt_blend hc _ _ _ hi]
    split
    · exact ih1 i hi
    · exact ih2 i hi

/-- C17: constructors and element writes give the elements asked for. -/
theorem C17_constructors {c : Cfg} (hc : c.Ok) (b : Bool) (gen : Nat → Bool) (junk m : c.Data) (k : Nat) {i : Nat} (hi : i < c.N) :
    mget c (Mask.ofBool c b junk) i = b ∧ mget c (Mask.ofGen c gen junk) i = gen i ∧
    mget c (Mask.setElem c m k b) i = if i = k then b else mget c m i := by
  refine ⟨mget_of_elt hc (elt_ofBool hc b junk hi), mget_of_elt hc (elt_ofGen hc gen junk hi), ?_⟩
  by_cases h : i = k
  · rw [if_pos h]
    apply mget_of_elt hc
    unfold Mask.setElem
    rw [elt_setElt hc, if_pos h, extendBool_eq]
  · rw [if_neg h]
    unfold mget Mask.setElem
    rw [elt_setElt hc, if_neg h]

/-! ### C21 -/
/-- C21: `blend(m, a, b)[i] = m[i] ? a[i] : b[i]` for every pattern of `m`, `a`, `b`. -/
theorem C21_blend {c : Cfg} (hc : c.Ok) (m a b : c.Data) {i : Nat} (hi : i < c.N) :
    elt c (Mask.blend c m a b) i = (if mget c m i then elt c a i else elt c b i) ∧
    mget c (Mask.blend c m a b) i = (if mget c m i then mget c a i else mget c b i) := by
  have := elt_blend hc m a b hi
  refine ⟨this, ?_⟩
  unfold mget at this ⊢
  rw [this]; split <;> rfl

/-! ### C50 -/
/-- C50: the traversal applies the kernel once per native vector `j`, to the `j`-th native vectors of all
operands, and writes nothing else. -/
theorem C50_lockstep {c : Cfg} (f : Vec c.v → Vec c.v → Vec c.v → Vec c.v) (g : Vec c.v → Vec c.v → Vec c.v) (res a b : c.Data) (j : Nat) :
    vectorize2 c f res a b j = (if j < c.dataSize then f (res j) (a j) (b j) else res j) ∧
    vectorize1 c g res a j = (if j < c.dataSize then g (res j) (a j) else res j) := by
  refine ⟨?_, ?_⟩
  · by_cases h : j < c.dataSize
    · rw [if_pos h, vectorize2_eq c f res a b h]
    · rw [if_neg h]
      exact forRange_inv (fun n (r : c.Data) => n ≤ c.dataSize → r j = res j) c.dataSize _ res (fun _ => rfl)
        (fun i r hi ih _ => by rw [Mem.set_ne _ _ (by omega)]; exact ih (by omega)) (Nat.le_refl _)
  · by_cases h : j < c.dataSize
    · rw [if_pos h, vectorize1_eq c g res a h]
    · rw [if_neg h]
      exact forRange_inv (fun n (r : c.Data) => n ≤ c.dataSize → r j = res j) c.dataSize _ res (fun _ => rfl)
        (fun i r hi ih _ => by rw [Mem.set_ne _ _ (by omega)]; exact ih (by omega)) (Nat.le_refl _)
/-- C50: `data_size` native vectors are exactly enough: every element lies in one of them and none is
without elements. -/
theorem C50_cover {c : Cfg} (hc : c.Ok) :
    (∀ i, i < c.N → i / c.e < c.dataSize) ∧ (∀ j, j < c.dataSize → j * c.e < c.N) ∧ c.N ≤ c.dataSize * c.e := by
  refine ⟨fun i hi => idx_lt hc hi, fun j hj => block_lt hc hj, ?_⟩
  have := ceilDiv_spec (N := c.N) (extent_pos hc.ety c.v) c.dataSize
  rw [← dataSize_eq] at this
  have h2 : ¬ c.dataSize * c.e < c.N := fun h => Nat.lt_irrefl _ (this.1 h)
  omega

/-! Examples: the hypotheses are satisfiable (8 x uint16 masks of width 5 on SSE2; 12 x float on AVX). -/
def exC : Cfg := ⟨.sse2L, .u16, 5, .v128⟩
def exF : Cfg := ⟨.avxL, .f32, 12, .v256⟩
theorem exC_ok : exC.Ok := ⟨by decide, by decide, by decide, by decide, by decide⟩
theorem exF_ok : exF.Ok := ⟨by decide, by decide, by decide, by decide, by decide⟩
example : mget exC (Mask.ofGen exC (fun i => i % 2 == 0) (zeroData exC)) 2 = true :=
  (C17_constructors exC_ok true (fun i => i % 2 == 0) _ (zeroData exC) 0 (by decide)).2.1
example : mget exF (Mask.not exF (Mask.ofGen exF (fun i => i == 9) (zeroData exF))) 9 = false := by
  rw [(C16_not exF_ok (C17_canonical exF_ok (.ofGen _ _)) (by decide)).1,
    (C17_constructors exF_ok true _ _ (zeroData exF) 0 (by decide)).2.1]; rfl
/-- The violation of C16 on a concrete pair of masks: `true && true` is false. -/
theorem C16_land_violated : ∃ a b : exC.Data, ApiMask exC a ∧ ApiMask exC b ∧
    mget exC a 0 = true ∧ mget exC b 0 = true ∧ mget exC (Mask.land exC a b) 0 = false :=
  ⟨_, _, .ofBool true (zeroData exC), .ofBool true (zeroData exC),
    (C17_constructors exC_ok true (fun _ => true) _ (zeroData exC) 0 (by decide)).1,
    (C17_constructors exC_ok true (fun _ => true) _ (zeroData exC) 0 (by decide)).1,
    C16_land_always_false exC_ok _ _ (by decide)⟩

end Dpm.X86
