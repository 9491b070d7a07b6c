import Verif.Model.Sse
import Verif.Props.X86MaskReduce
import Verif.Proofs.FloatBits
/-
C85: masks of `float` on a target with SSE but without SSE2.
-/
namespace Dpm.X86.Sse
open Dpm.Reg Dpm.Util Dpm.Spec

/-- Widths a program can ask for. -/
theorem cfg_ok {N : Nat} (h0 : 0 < N) (h1 : N < 2 ^ 64) : (cfg N).Ok :=
  ⟨show ISA.sse2L.Wf by decide, show Ety.f32.Ok by decide, h0, h1, fun h => by cases h⟩

theorem e4 (N : Nat) : (cfg N).e = 4 := by show extent .f32 .v128 = 4; decide
/-! ### lanes -/
/-- the comparison `mask_eq` makes of two lanes -/
def eqL (x y : BitVec 32) : Bool := fEq x (y ^^^ eqConst)
theorem maskEq_lane (a b : Vec .v128) {i : Nat} (hi : i < 4) :
    lane 32 (maskEq a b) i = laneMask 32 (eqL (lane 32 a i) (lane 32 b i)) := by
  have h := cmpF_lane (T := .f32) (by decide) (v := .v128) (i := i) (by exact hi) fEq a (bitXor b (fillV .v128 eqConst))
  have h2 : lane 32 (bitXor b (fillV .v128 eqConst)) i = lane 32 b i ^^^ eqConst := by
    unfold bitXor
    rw [lane_xor]
    exact congrArg _ (fillV_lane (T := .f32) (by decide) eqConst (v := .v128) (by exact hi))
  exact h.trans (congrArg (fun z => laneMask 32 (fEq (lane 32 a i) z)) h2)
theorem setones_eq : setones = BitVec.allOnes 128 := by decide +kernel
open Classical in
theorem testMask_eq (x : Vec .v128) (p : Nat → Bool) (hp : ∀ i, i < 4 → lane 32 x i = laneMask 32 (p i)) :
    testMask x = decide (∃ i, i < 4 ∧ p i = true) := by
  unfold testMask
  apply decide_eq_decide.2
  have key : ∀ i, i < 4 → (movmskInt (n := 128) 32 x).getLsbD i = p i := by
    intro i hi
    rw [movmskInt_bit, hp i hi, laneMask_msb (by decide)]
    simp only [decide_eq_true (by omega : i < 32), decide_eq_true (by omega : (i + 1) * 32 ≤ 128), Bool.true_and]
  constructor
  · intro h
    apply Classical.byContradiction
    intro hn
    apply h
    apply BitVec.eq_of_getLsbD_eq
    intro b hb
    rw [show (0 : BitVec 32).getLsbD b = false by simp]
    by_cases h4 : b < 4
    · rw [key b h4]
      cases hb : p b
      · rfl
      · exact absurd ⟨b, h4, hb⟩ hn
    · rw [movmskInt_bit, decide_eq_false (p := (b + 1) * 32 ≤ 128) (by omega)]; simp
  · rintro ⟨i, hi, hpi⟩ h
    have := key i hi
    rw [h, hpi] at this
    simp at this
/-- No two canonical lanes compare equal. -/
theorem never_eq {x y : BitVec 32} (hx : x = 0 ∨ x = BitVec.allOnes 32) (hy : y = 0 ∨ y = BitVec.allOnes 32) :
    eqL x y = false := by
  rcases hx with rfl | rfl <;> rcases hy with rfl | rfl <;> decide +kernel

section
variable {N : Nat} (h0 : 0 < N) (h1 : N < 2 ^ 64)
include h0 h1
theorem elt_eqS (a b : (cfg N).Data) {i : Nat} (hi : i < N) :
    elt (cfg N) (eq a b) i = laneMask 32 (eqL (elt (cfg N) a i) (elt (cfg N) b i)) := by
  unfold eq
  rw [elt_vec2 (cfg_ok h0 h1) _ _ _ _ hi]
  exact maskEq_lane _ _ (show i % (cfg N).e < 4 from Nat.lt_of_lt_of_eq (idx_mod (cfg_ok h0 h1) i) (e4 N))
theorem elt_neS (a b : (cfg N).Data) {i : Nat} (hi : i < N) :
    elt (cfg N) (ne a b) i = laneMask 32 (!eqL (elt (cfg N) a i) (elt (cfg N) b i)) := by
  unfold ne
  rw [show Mask.not (cfg N) (eq a b) = Mask.compl (cfg N) (eq a b) from rfl, elt_compl (cfg_ok h0 h1) _ hi, elt_eqS h0 h1 _ _ hi]
  exact laneMask_not _ _
theorem elt_blendS (m a b : (cfg N).Data) {i : Nat} (hi : i < N) :
    elt (cfg N) (blend m a b) i = if eqL (elt (cfg N) m i) 0#32 then elt (cfg N) b i else elt (cfg N) a i := by
  have hc := cfg_ok h0 h1
  unfold blend elt
  simp only []
  rw [forRange_store]
  simp only [idx_lt hc (show i < (cfg N).N from hi), if_true]
  have hm := maskEq_lane (m (i / (cfg N).e)) (setzero .v128) (show i % (cfg N).e < 4 from Nat.lt_of_lt_of_eq (idx_mod hc i) (e4 N))
  rw [setzero, lane_zero] at hm
  exact blendv_lane .sse2L (T := .f32) (by decide) .v128 _ _ _ (idx_mod hc i) _ hm
end

/-! ### C85 -/
/-- The storage of a mask after any finite history of calls of the mask API of this target. -/
inductive SseMask (N : Nat) : (cfg N).Data → Prop
  | ofBool (b junk) : SseMask N (Mask.ofBool (cfg N) b junk)
  | ofGen (gen junk) : SseMask N (Mask.ofGen (cfg N) gen junk)
  | setElem {m} (i b) : SseMask N m → i < N → SseMask N (Mask.setElem (cfg N) m i b)
  | not {a} : SseMask N a → SseMask N (Mask.not (cfg N) a)
  | compl {a} : SseMask N a → SseMask N (Mask.compl (cfg N) a)
  | and {a b} : SseMask N a → SseMask N b → SseMask N (Mask.and (cfg N) a b)
  | or {a b} : SseMask N a → SseMask N b → SseMask N (Mask.or (cfg N) a b)
  | xor {a b} : SseMask N a → SseMask N b → SseMask N (Mask.xor (cfg N) a b)
  | land {a b} : SseMask N a → SseMask N b → SseMask N (Mask.land (cfg N) a b)
  | lor {a b} : SseMask N a → SseMask N b → SseMask N (lor a b)
  | eq {a b} : SseMask N a → SseMask N b → SseMask N (eq a b)
  | ne {a b} : SseMask N a → SseMask N b → SseMask N (ne a b)
  | blend {m a b} : SseMask N m → SseMask N a → SseMask N b → SseMask N (blend m a b)

variable {N : Nat}
/-- C85: after any history of calls every element of a mask is all zeros or all ones. -/
theorem C85_canonical (h0 : 0 < N) (h1 : N < 2 ^ 64) {m : (cfg N).Data} (h : SseMask N m) : Canon (cfg N) m := by
  have hc := cfg_ok h0 h1
  induction h with
  | ofBool b junk => exact canon_of_elt (fun _ => b) (fun i hi => elt_ofBool hc b junk hi)
  | ofGen gen junk => exact canon_of_elt gen (fun i hi => elt_ofGen hc gen junk hi)
  | @setElem m i b _ _ ih =>
    intro k hk
    unfold Mask.setElem
    rw [elt_setElt hc, extendBool_eq]
    by_cases h : k = i
    · rw [if_pos h]; cases b
      · exact Or.inl rfl
      · exact Or.inr rfl
    · rw [if_neg h]; exact ih k hk
  | not _ ih => exact canon_of_elt _ (fun i hi => by
      rw [show Mask.not (cfg N) _ = Mask.compl (cfg N) _ from rfl, elt_compl hc _ hi, ih.elt hc hi, laneMask_not])
  | compl _ ih => exact canon_of_elt _ (fun i hi => by rw [elt_compl hc _ hi, ih.elt hc hi, laneMask_not])
  | and _ _ ih1 ih2 => exact canon_of_elt _ (fun i hi => by rw [elt_and hc _ _ hi, ih1.elt hc hi, ih2.elt hc hi, laneMask_and])
  | or _ _ ih1 ih2 => exact canon_of_elt _ (fun i hi => by rw [elt_or hc _ _ hi, ih1.elt hc hi, ih2.elt hc hi, laneMask_or])
  | xor _ _ ih1 ih2 => exact canon_of_elt _ (fun i hi => by rw [elt_xor hc _ _ hi, ih1.elt hc hi, ih2.elt hc hi, laneMask_xor])
  | land _ _ _ _ => exact fun i hi => Or.inl (elt_land hc _ _ hi)
  | lor _ _ _ _ => exact canon_of_elt _ (fun i hi => elt_neS h0 h1 _ _ hi)
  | eq _ _ _ _ => exact canon_of_elt _ (fun i hi => elt_eqS h0 h1 _ _ hi)
  | ne _ _ _ _ => exact canon_of_elt _ (fun i hi => elt_neS h0 h1 _ _ hi)
  | blend _ _ _ _ ih1 ih2 =>
    intro i hi
    rw [elt_blendS h0 h1 _ _ _ hi]
    split
    · exact ih2 i hi
    · exact ih1 i hi

/-- C85 violated, for every width and every pair of masks a program can build: `a == b` is false and `a != b` is true in
every element, whatever `a` and `b` are. -/
theorem C85_compare_violated (h0 : 0 < N) (h1 : N < 2 ^ 64) {a b : (cfg N).Data} (ha : SseMask N a) (hb : SseMask N b)
    {i : Nat} (hi : i < N) :
    mget (cfg N) (eq a b) i = false ∧ mget (cfg N) (ne a b) i = true := by
  have hc := cfg_ok h0 h1
  have h := never_eq (C85_canonical h0 h1 ha i hi) (C85_canonical h0 h1 hb i hi)
  exact ⟨mget_of_elt hc ((elt_eqS h0 h1 a b hi).trans (by rw [h]; rfl)), mget_of_elt hc ((elt_neS h0 h1 a b hi).trans (by rw [h]; rfl))⟩
/-- C85 violated: `a || b` is true in every element, also where both are false. -/
theorem C85_lor_violated (h0 : 0 < N) (h1 : N < 2 ^ 64) {a b : (cfg N).Data} (ha : SseMask N a) (hb : SseMask N b)
    {i : Nat} (hi : i < N) : mget (cfg N) (lor a b) i = true := by
  have hc := cfg_ok h0 h1
  have h := never_eq (C85_canonical h0 h1 (.or ha hb) i hi) (Or.inl (elt_zero (cfg N) i))
  exact mget_of_elt hc ((elt_neS h0 h1 _ _ hi).trans (by rw [h]; rfl))
/-- C85 violated: `blend(m, a, b)` is `a` in every element, whatever the mask `m`; `a` and `b` are arbitrary vectors (or masks). -/
theorem C85_blend_violated (h0 : 0 < N) (h1 : N < 2 ^ 64) {m : (cfg N).Data} (hm : SseMask N m) (a b : (cfg N).Data)
    {i : Nat} (hi : i < N) : elt (cfg N) (blend m a b) i = elt (cfg N) a i := by
  have h := never_eq (C85_canonical h0 h1 hm i hi) (Or.inl rfl)
  exact (elt_blendS h0 h1 m a b hi).trans (if_neg (by rw [Bool.not_eq_true]; exact h))
/-- C85: the quantifiers are right for every mask a program can build, padding included. -/
theorem C85_quantifiers (h0 : 0 < N) (h1 : N < 2 ^ 64) {m : (cfg N).Data} (hm : SseMask N m) :
    anyOf m = decide (∃ i, i < N ∧ mget (cfg N) m i = true) ∧
    noneOf m = decide (∀ i, i < N → mget (cfg N) m i = false) ∧
    allOf m = some (decide (∀ i, i < N → mget (cfg N) m i = true)) ∧
    someOf m = some (decide ((∃ i, i < N ∧ mget (cfg N) m i = true) ∧ ∃ i, i < N ∧ mget (cfg N) m i = false)) := by
  have hc := cfg_ok h0 h1
  have hm := C85_canonical h0 h1 hm
  have ht : tailOk (cfg N) := Or.inl (show ¬ splitTail ISA.sse2L Ety.f32 VSz.v128 by decide)
  have hw : ¬ wideMask (cfg N).s (cfg N).T (cfg N).v := by show ¬ wideMask ISA.sse2L Ety.f32 VSz.v128; decide
  have t : ∀ x : Vec .v128, ∀ p : Nat → Bool, (∀ i, i < 4 → lane 32 x i = laneMask 32 (p i)) → testMask x = X86.testMask .sse2L .v128 x :=
    fun x p hp => (testMask_eq x p hp).trans ((testMask_iff hc x p (fun i hi => hp i (Nat.lt_of_lt_of_eq hi (e4 N)))).trans (by rw [e4]; exact decide_eq_decide.2 Iff.rfl)).symm
  have any : anyOf m = Mask.anyOf (cfg N) m := t _ _ (fun i hi => anyBits_lane hc ht m hm (Nat.lt_of_lt_of_eq hi (e4 N).symm))
  have all : allOf m = Mask.allOf (cfg N) m := by
    unfold allOf; rw [setones_eq]; rfl
  have some : someOf m = Mask.someOf (cfg N) m := by
    have e : someOf m = (allOf m).map (fun all => anyOf m && !all) := by
      unfold someOf allOf anyOf Mask.anyBits
      simp only [pairLoop (cfg N).dataSize (fun i r => bitOr r (maskzero .sse2L .f32 .v128 (m i) (Mask.tailN (cfg N) i)))
        (fun i r => bitAndnot (cmpEq .sse2L .f32 .v128 (maskone .sse2L .f32 .v128 (m i) (Mask.tailN (cfg N) i)) (setzero .v128)) r)]
      cases fillBits ((VSz.v128.bytes / Ety.f32.bytes) * movemaskBits .f32) with
      | none => rfl
      | some fb => simp only [Option.map_some, decide_not, ne_eq]; rfl
    rw [e, someOf_eq, all, any]
  refine ⟨?_, ?_, ?_, ?_⟩
  · rw [any]; exact C18_any_of_partial hc ht m hm
  · rw [show noneOf m = !anyOf m from rfl, any]; exact C18_none_of_partial hc ht m hm
  · rw [all]; exact C18_all_of_partial hc hw ht m hm
  · rw [some]; exact C18_some_of_partial hc hw ht m hm

/-! ### examples: 6 floats (two native vectors, two padding lanes) -/
def exMask : (cfg 6).Data := Mask.ofGen (cfg 6) (fun i => i == 5) (zeroData (cfg 6))
theorem exMask_api : SseMask 6 exMask := .ofGen _ _
theorem exMask_get {i : Nat} (hi : i < 6) : mget (cfg 6) exMask i = (i == 5) :=
  (C17_constructors (cfg_ok (by decide) (by decide)) true (fun i => i == 5) (zeroData (cfg 6)) (zeroData (cfg 6)) 0 hi).2.1
/-- C85, a mask is not equal to itself: `m == m` is false and `m != m` is true in element 5 (and in all the others). -/
theorem C85_self_violated : ∃ m : (cfg 6).Data, SseMask 6 m ∧ mget (cfg 6) m 5 = true ∧
    mget (cfg 6) (eq m m) 5 = false ∧ mget (cfg 6) (ne m m) 5 = true :=
  ⟨exMask, exMask_api, exMask_get (by decide),
    C85_compare_violated (by decide) (by decide) exMask_api exMask_api (by decide)⟩
/-- C85: where both masks are false, `||` is true. -/
example : mget (cfg 6) exMask 2 = false ∧ mget (cfg 6) (lor exMask exMask) 2 = true :=
  ⟨exMask_get (by decide), C85_lor_violated (by decide) (by decide) exMask_api exMask_api (by decide)⟩
/-- C85: where the mask is false, `blend(m, a, b)` still gives the element of `a`, here 1.0f instead of 2.0f. -/
theorem C85_blend_element_violated : ∃ m a b : (cfg 6).Data, SseMask 6 m ∧ mget (cfg 6) m 2 = false ∧
    elt (cfg 6) a 2 = 0x3f800000#32 ∧ elt (cfg 6) b 2 = 0x40000000#32 ∧ elt (cfg 6) (blend m a b) 2 = 0x3f800000#32 := by
  have ha : elt (cfg 6) (fun _ => fillV .v128 0x3f800000#32) 2 = 0x3f800000#32 :=
    fillV_lane (T := .f32) (by decide) _ (v := .v128) (idx_mod (cfg_ok (N := 6) (by decide) (by decide)) 2)
  have hb : elt (cfg 6) (fun _ => fillV .v128 0x40000000#32) 2 = 0x40000000#32 :=
    fillV_lane (T := .f32) (by decide) _ (v := .v128) (idx_mod (cfg_ok (N := 6) (by decide) (by decide)) 2)
  exact ⟨exMask, _, _, exMask_api, exMask_get (by decide), ha, hb,
    (C85_blend_violated (by decide) (by decide) exMask_api _ _ (by decide)).trans ha⟩
example : anyOf exMask = true := by
  rw [(C85_quantifiers (by decide) (by decide) exMask_api).1]
  exact decide_eq_true ⟨5, by decide, exMask_get (by decide)⟩

end Dpm.X86.Sse
