import Verif.Model.Msvc
import Verif.Props.X86Mask
import Verif.Props.X86Float
import Verif.Proofs.Ieee
/-
C65: vectors and masks built by code compiled with MSVC.
-/
namespace Dpm.X86
open Dpm.Reg Dpm.Fp Dpm.Util

theorem castVec_lane {c : Cfg} (hc : c.Ok) (f : Nat → BitVec c.w) {k : Nat} (hk : k < c.e) :
    lane c.w (Msvc.castVec c f) k = if c.T.flt = true ∧ ¬ k < Msvc.copied c then 0#c.w else f k := by
  unfold Msvc.castVec
  split
  · rename_i h
    rw [lane_ofLanes _ (lane_bound hc.ety hk)]
    by_cases h2 : k < Msvc.copied c
    · rw [if_pos h2, if_neg (by simp [h2])]
    · rw [if_neg h2, if_pos ⟨h, h2⟩]
  · rename_i h
    rw [lane_ofLanes _ (lane_bound hc.ety hk), if_neg (by simp [h])]
theorem castMask_lane {c : Cfg} (hc : c.Ok) (f : Nat → BitVec c.w) {k : Nat} (hk : k < c.e) :
    lane c.w (Msvc.castMask c f) k = if c.T.flt = true then (if k < Msvc.copied c ∧ f k ≠ 0#c.w then oneBits c.w else 0#c.w) else f k := by
  unfold Msvc.castMask
  by_cases h : c.T.flt = true
  · rw [if_pos h, castVec_lane hc _ hk, if_pos h]
    by_cases h2 : k < Msvc.copied c <;> simp [h, h2]
  · rw [if_neg h, castVec_lane hc _ hk, if_neg h, if_neg (by simp [h])]

section
variable {c : Cfg} (hc : c.Ok)
include hc
theorem elt_msBroadcast (x : BitVec c.w) (junk : c.Data) {i : Nat} (hi : i < c.N) :
    elt c (Msvc.vbroadcast c x junk) i = if c.T.flt = true ∧ ¬ i % c.e < Msvc.copied c then 0#c.w else x := by
  unfold Msvc.vbroadcast elt
  rw [forRange_store, forRange_store]
  simp only [idx_lt hc hi, if_true]
  rw [castVec_lane hc _ (idx_mod hc i)]
  simp [idx_mod hc i]
theorem elt_msGenerate (gen : Nat → BitVec c.w) (junk : c.Data) {i : Nat} (hi : i < c.N) :
    elt c (Msvc.vgenerate c gen junk) i = if c.T.flt = true ∧ ¬ i % c.e < Msvc.copied c then 0#c.w else gen i := by
  unfold Msvc.vgenerate elt
  rw [forStride_eq (extent_pos hc.ety c.v), forRange_store, ← dataSize_eq]
  simp only [idx_lt hc hi, if_true]
  rw [castVec_lane hc _ (idx_mod hc i)]
  have hdm : i / c.e * c.e + i % c.e = i := div_mod_eq i c.e
  have := forRange_store_if c.e (fun k => decide (i / c.e * c.e + k < c.N)) (fun k => gen (i / c.e * c.e + k)) (fun _ => 0#c.w)
  simp only [decide_eq_true_eq] at this
  rw [this]
  simp only [idx_mod hc i, hdm, hi, true_and, if_true]
theorem elt_msMaskBool (b : Bool) (junk : c.Data) {i : Nat} (hi : i < c.N) :
    elt c (Msvc.maskBool c b junk) i = if c.T.flt = true then (if i % c.e < Msvc.copied c ∧ extendBool c.w b ≠ 0#c.w then oneBits c.w else 0#c.w)
      else extendBool c.w b := by
  unfold Msvc.maskBool elt
  rw [forRange_store, forRange_store]
  simp only [idx_lt hc hi, if_true]
  rw [castMask_lane hc _ (idx_mod hc i)]
  simp [idx_mod hc i]
theorem elt_msMaskGen (gen : Nat → Bool) (junk : c.Data) {i : Nat} (hi : i < c.N) :
    elt c (Msvc.maskGen c gen junk) i = if c.T.flt = true then (if i % c.e < Msvc.copied c ∧ extendBool c.w (gen i) ≠ 0#c.w then oneBits c.w else 0#c.w)
      else extendBool c.w (gen i) := by
  unfold Msvc.maskGen elt
  rw [forStride_eq (extent_pos hc.ety c.v), forRange_store, ← dataSize_eq]
  simp only [idx_lt hc hi, if_true]
  rw [castMask_lane hc _ (idx_mod hc i)]
  have hdm : i / c.e * c.e + i % c.e = i := div_mod_eq i c.e
  have := forRange_store_if c.e (fun k => decide (i / c.e * c.e + k < c.N)) (fun k => extendBool c.w (gen (i / c.e * c.e + k))) (fun _ => 0#c.w)
  simp only [decide_eq_true_eq] at this
  rw [this]
  simp only [idx_mod hc i, hdm, hi, true_and, if_true]
end
/-- how many elements of each native vector are copied: all of a 16-byte vector, half of a 32-byte one -/
theorem copied_eq {c : Cfg} (hc : c.Ok) (hf : c.T.flt = true) : Msvc.copied c = if c.v = .v256 then c.e / 2 else c.e := by
  obtain ⟨s, T, N, v⟩ := c
  obtain ⟨b, fl, sg⟩ := T
  dsimp only at hf
  subst hf
  have hb : b = 4 ∨ b = 8 := by have := hc.ety; revert this; simp [Ety.Ok]; omega
  rcases hb with rfl | rfl <;> cases v <;> simp [Msvc.copied, Cfg.e, extent, VSz.bytes]

/-! ### C65 -/
/-- C65, proved part: integer vectors, and floating-point vectors held in 16-byte registers, get exactly the requested elements from the
broadcast and generator constructors. -/
theorem C65_vectors_partial {c : Cfg} (hc : c.Ok) (h : c.T.flt = false ∨ c.v = .v128) (junk : c.Data) (val : BitVec c.w) (gen : Nat → BitVec c.w) :
    (∀ i, i < c.N → elt c (Msvc.vbroadcast c val junk) i = val) ∧ (∀ i, i < c.N → elt c (Msvc.vgenerate c gen junk) i = gen i) := by
  have k : ∀ i, ¬ (c.T.flt = true ∧ ¬ i % c.e < Msvc.copied c) := by
    rintro i ⟨hf, h2⟩
    rcases h with h | h
    · rw [h] at hf; exact absurd hf (by decide)
    · rw [copied_eq hc hf, h] at h2
      exact h2 (by simpa using idx_mod hc i)
  exact ⟨fun i hi => by rw [elt_msBroadcast hc _ _ hi, if_neg (k i)], fun i hi => by rw [elt_msGenerate hc _ _ hi, if_neg (k i)]⟩
/-- C65 violated: in 32-byte registers of `float`s or `double`s the constructors set the upper half of every register to zero, whatever
value or generator is given. -/
theorem C65_vectors_violated {c : Cfg} (hc : c.Ok) (hf : c.T.flt = true) (hv : c.v = .v256) (junk : c.Data) (val : BitVec c.w)
    (gen : Nat → BitVec c.w) (i : Nat) (hi : i < c.N) (hu : c.e / 2 ≤ i % c.e) :
    elt c (Msvc.vbroadcast c val junk) i = 0#c.w ∧ elt c (Msvc.vgenerate c gen junk) i = 0#c.w := by
  have k : c.T.flt = true ∧ ¬ i % c.e < Msvc.copied c := ⟨hf, by rw [copied_eq hc hf, hv]; simpa using hu⟩
  exact ⟨by rw [elt_msBroadcast hc _ _ hi, if_pos k], by rw [elt_msGenerate hc _ _ hi, if_pos k]⟩
/-- C65, proved part: masks of integer vectors are canonical and hold the requested elements. -/
theorem C65_masks_partial {c : Cfg} (hc : c.Ok) (h : c.T.flt = false) (junk : c.Data) (b : Bool) (gen : Nat → Bool) :
    (∀ i, i < c.N → mget c (Msvc.maskBool c b junk) i = b ∧ mget c (Msvc.maskGen c gen junk) i = gen i) ∧
    Canon c (Msvc.maskBool c b junk) ∧ Canon c (Msvc.maskGen c gen junk) := by
  have e1 : ∀ i, i < c.N → elt c (Msvc.maskBool c b junk) i = extendBool c.w b := fun i hi => by rw [elt_msMaskBool hc _ _ hi, h]; simp
  have e2 : ∀ i, i < c.N → elt c (Msvc.maskGen c gen junk) i = extendBool c.w (gen i) := fun i hi => by rw [elt_msMaskGen hc _ _ hi, h]; simp
  simp only [extendBool_eq] at e1 e2
  exact ⟨fun i hi => ⟨mget_of_elt hc (e1 i hi), mget_of_elt hc (e2 i hi)⟩, canon_of_elt _ e1, canon_of_elt _ e2⟩
/-- C65 violated: in masks of `float` and `double` vectors (the first half of each register for 32-byte ones) an element built as `true` holds
1.0 instead of all ones: it reads `true`, but so does its complement, for the constructor from `bool` and for the generator constructor. -/
theorem C65_float_masks_violated {c : Cfg} (hc : c.Ok) (hf : c.T.flt = true) (junk : c.Data) (gen : Nat → Bool) (i : Nat) (hi : i < c.N)
    (hu : c.v = .v256 → i % c.e < c.e / 2) (hg : gen i = true) :
    (mget c (Msvc.maskBool c true junk) i = true ∧ mget c (Mask.not c (Msvc.maskBool c true junk)) i = true ∧ ¬ Canon c (Msvc.maskBool c true junk)) ∧
    mget c (Msvc.maskGen c gen junk) i = true ∧ mget c (Mask.not c (Msvc.maskGen c gen junk)) i = true ∧ ¬ Canon c (Msvc.maskGen c gen junk) := by
  have k : i % c.e < Msvc.copied c := by
    rw [copied_eq hc hf]
    by_cases hv : c.v = .v256
    · rw [if_pos hv]; exact hu hv
    · rw [if_neg hv]; exact idx_mod hc i
  have ht : extendBool c.w true ≠ 0#c.w := by
    rw [extendBool_eq]
    have := laneMask_eq_zero (w_pos hc.ety) true
    simpa using this
  have hw : c.w = 32 ∨ c.w = 64 := fltW hc.ety hf
  have o1 : oneBits c.w ≠ 0#c.w ∧ ~~~ oneBits c.w ≠ 0#c.w ∧ oneBits c.w ≠ BitVec.allOnes c.w := by
    generalize c.w = w at hw
    rcases hw with rfl | rfl <;> decide
  have core : ∀ m : c.Data, elt c m i = oneBits c.w → mget c m i = true ∧ mget c (Mask.not c m) i = true ∧ ¬ Canon c m := by
    intro m h
    refine ⟨?_, ?_, fun hcan => ?_⟩
    · unfold mget; rw [h]; exact decide_eq_true o1.1
    · unfold mget Mask.not; rw [elt_compl hc _ hi, h]; exact decide_eq_true o1.2.1
    · rcases hcan i hi with h' | h' <;> rw [h] at h'
      · exact o1.1 h'
      · exact o1.2.2 h'
  refine ⟨core _ ?_, core _ ?_⟩
  · rw [elt_msMaskBool hc _ _ hi, if_pos hf, if_pos ⟨k, ht⟩]
  · rw [elt_msMaskGen hc _ _ hi, if_pos hf, hg, if_pos ⟨k, ht⟩]
/-- C65 violated: in the upper half of each 32-byte register every mask element of `float` and `double` vectors is built `false`. -/
theorem C65_wide_masks_violated {c : Cfg} (hc : c.Ok) (hf : c.T.flt = true) (hv : c.v = .v256) (junk : c.Data) (b : Bool) (gen : Nat → Bool)
    (i : Nat) (hi : i < c.N) (hu : c.e / 2 ≤ i % c.e) :
    mget c (Msvc.maskBool c b junk) i = false ∧ mget c (Msvc.maskGen c gen junk) i = false := by
  have k : ¬ i % c.e < Msvc.copied c := by rw [copied_eq hc hf, if_pos hv]; omega
  constructor <;> unfold mget
  · rw [elt_msMaskBool hc _ _ hi, if_pos hf, if_neg (fun h => k h.1)]; simp
  · rw [elt_msMaskGen hc _ _ hi, if_pos hf, if_neg (fun h => k h.1)]; simp

/-- `simd<double, 4>(1.0)` with AVX holds 1.0, 1.0, 0, 0 -/
example : elt exF64 (Msvc.vbroadcast exF64 (oneBits 64) (zeroData _)) 2 = 0#64 :=
  (C65_vectors_violated exF64_ok rfl rfl (zeroData _) (oneBits 64) (fun _ => 0#64) 2 (by decide) (by decide)).1
example : elt exF64 (Msvc.vbroadcast exF64 (oneBits 64) (zeroData _)) 1 = oneBits 64 :=
  (elt_msBroadcast exF64_ok (oneBits 64) (zeroData _) (i := 1) (by decide)).trans (if_neg (by decide))
/-- `simd<float, 6>` with SSE2: all six elements -/
example (x : BitVec 32) : elt exF32 (Msvc.vbroadcast exF32 x (zeroData _)) 5 = x :=
  (C65_vectors_partial exF32_ok (Or.inr rfl) (zeroData _) x (fun _ => x)).1 5 (by decide)
/-- `!simd_mask<float, 6>(true)` reads `true` -/
example : mget exF32 (Mask.not exF32 (Msvc.maskBool exF32 true (zeroData _))) 5 = true :=
  (C65_float_masks_violated exF32_ok rfl (zeroData _) (fun _ => true) 5 (by decide) (by decide) rfl).1.2.1
example : mget exI32 (Msvc.maskGen exI32 (fun i => decide (i = 1)) (zeroData _)) 1 = true :=
  ((C65_masks_partial exI32_ok rfl (zeroData _) true (fun i => decide (i = 1))).1 1 (by decide)).2
end Dpm.X86
