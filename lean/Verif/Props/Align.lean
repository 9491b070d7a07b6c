import Verif.Model.Align
import Verif.Props.X86Int
import Verif.Props.X86Float
/-
C66: loads, stores and vector objects are properly aligned.
-/
namespace Dpm.X86
open Dpm.Reg

/-- an alignment C++ accepts in `alignas` (0 has no effect) -/
def ValidAlign (A : Nat) : Prop := A = 0 ∨ ∃ k, A = 2 ^ k
/-- what the caller of `copy_from(mem, flags)`/`copy_to(mem, flags)` promises about the address of the array: it is an array of `T`s
(aligned to `T`), for `vector_aligned` it is aligned to `memory_alignment_v`, for `overaligned<n>` (n a power of two) to n. -/
def AlignPromise (c : Cfg) (A : Nat) (base : Nat) : Flag → Prop
  | .element => c.T.bytes ∣ base
  | .vector => c.T.bytes ∣ base ∧ memAlign c A ∣ base
  | .over n => c.T.bytes ∣ base ∧ (∃ k, n = 2 ^ k) ∧ n ∣ base

theorem pow_dvd_max {a b : Nat} (ha : ValidAlign a) (hb : ∃ k, b = 2 ^ k) : b ∣ max a b ∧ (a ≠ 0 → a ∣ max a b) := by
  obtain ⟨k, rfl⟩ := hb
  rcases ha with rfl | ⟨l, rfl⟩
  · simp
  · by_cases h : l ≤ k
    · have : 2 ^ l ≤ 2 ^ k := Nat.pow_le_pow_right (by omega) h
      rw [Nat.max_eq_right this]; exact ⟨Nat.dvd_refl _, fun _ => Nat.pow_dvd_pow 2 h⟩
    · have : 2 ^ k ≤ 2 ^ l := Nat.pow_le_pow_right (by omega) (by omega)
      rw [Nat.max_eq_left this]; exact ⟨Nat.pow_dvd_pow 2 (by omega), fun _ => Nat.dvd_refl _⟩
theorem vbytes_pow (v : VSz) : ∃ k, v.bytes = 2 ^ k := match v with
  | .v128 => ⟨4, rfl⟩
  | .v256 => ⟨5, rfl⟩
theorem tbytes_pow {T : Ety} (h : T.Ok) : ∃ k, T.bytes = 2 ^ k := by
  rcases h.1 with h | h | h | h
  · exact ⟨0, h⟩
  · exact ⟨1, h⟩
  · exact ⟨2, h⟩
  · exact ⟨3, h⟩
theorem tbytes_dvd {T : Ety} (h : T.Ok) (v : VSz) : T.bytes ∣ v.bytes := by
  rcases h.1 with h | h | h | h <;> rw [h] <;> cases v <;> decide
theorem pow_max {a b : Nat} (ha : ValidAlign a) (hb : ∃ k, b = 2 ^ k) : ∃ k, max a b = 2 ^ k := by
  obtain ⟨k, rfl⟩ := hb
  rcases ha with rfl | ⟨l, rfl⟩
  · exact ⟨k, by simp⟩
  · rcases Nat.le_total (2 ^ l) (2 ^ k) with h | h
    · exact ⟨k, Nat.max_eq_right h⟩
    · exact ⟨l, Nat.max_eq_left h⟩
theorem e_bytes {c : Cfg} (hc : c.Ok) : c.e * c.T.bytes = c.v.bytes := Nat.div_mul_cancel (tbytes_dvd hc.ety c.v)
theorem v_dvd_objAlign (c : Cfg) {A : Nat} (hA : ValidAlign A) : c.v.bytes ∣ objAlign c A := (pow_dvd_max hA (vbytes_pow c.v)).1
theorem v_dvd_memAlign {c : Cfg} (hc : c.Ok) {A : Nat} (hA : ValidAlign A) : c.v.bytes ∣ memAlign c A :=
  Nat.dvd_trans (v_dvd_objAlign c hA)
    ((pow_dvd_max (Or.inr (pow_max hA (vbytes_pow c.v))) (tbytes_pow hc.ety)).2 (by
      have : 0 < c.v.bytes := by cases c.v <;> decide
      have : c.v.bytes ≤ max A c.v.bytes := Nat.le_max_right _ _
      omega))
/-- with the caller's promise, native accesses (made exactly when `aligned_tag` holds) are aligned to the native vector -/
theorem native_aligned {c : Cfg} (hc : c.Ok) {A : Nat} (hA : ValidAlign A) {f : Flag} {base : Nat} (h : AlignPromise c A base f)
    (ha : f.aligned c.v.bytes = true) (j : Nat) : (base + j * c.e * c.T.bytes) % c.v.bytes = 0 := by
  have hb : c.v.bytes ∣ base := by
    cases f with
    | element =>
      have : 0 < c.v.bytes := by cases c.v <;> decide
      simp [Flag.aligned] at ha; omega
    | vector => exact Nat.dvd_trans (v_dvd_memAlign hc hA) h.2
    | over n =>
      obtain ⟨_, ⟨k, rfl⟩, hn⟩ := h
      obtain ⟨l, hl⟩ := vbytes_pow c.v
      simp only [Flag.aligned, decide_eq_true_eq, ge_iff_le] at ha
      rw [hl] at ha ⊢
      exact Nat.dvd_trans (Nat.pow_dvd_pow 2 ((Nat.pow_le_pow_iff_right (by omega)).1 ha)) hn
  apply Nat.mod_eq_zero_of_dvd
  rw [Nat.mul_assoc, e_bytes hc]
  exact Nat.dvd_add hb (Nat.dvd_mul_left _ _)
theorem elem_aligned {c : Cfg} {A : Nat} {f : Flag} {base : Nat} (h : AlignPromise c A base f) (i : Nat) :
    (base + i * c.T.bytes) % c.T.bytes = 0 := by
  have : c.T.bytes ∣ base := by
    cases f with
    | element => exact h
    | vector => exact h.1
    | over n => exact h.1
  exact Nat.mod_eq_zero_of_dvd (Nat.dvd_add this (Nat.dvd_mul_left _ _))

/-! ### C66 -/
/-- C66: whenever the caller keeps the promise its flag makes, no access of `copy_to` or `copy_from` is misaligned: the copies behave exactly
as the address-free ones (whose results and access sets are C14, C15), for every vector type, alignment request, flag and address. -/
theorem C66_copies {c : Cfg} (hc : c.Ok) {A : Nat} (hA : ValidAlign A) (f : Flag) (base : Nat) (h : AlignPromise c A base f)
    (d : c.Data) (len : Nat) (mem : Mem (BitVec c.w)) :
    copyToAt c f base d len mem = copyTo c f d len mem ∧ copyFromAt c f base d len mem = copyFrom c f d len mem := by
  have e1 := fun i => elem_aligned h i
  constructor
  · unfold copyToAt copyTo storeNativeAt
    by_cases ha : f.aligned c.v.bytes = true
    · simp only [ha, if_true, native_aligned hc hA h ha]
    · simp only [ha, e1, true_and, Bool.false_eq_true, if_false]
  · unfold copyFromAt copyFrom loadNativeAt
    by_cases ha : f.aligned c.v.bytes = true
    · simp only [ha, if_true, native_aligned hc hA h ha]
    · simp only [ha, e1, true_and, Bool.false_eq_true, if_false]
/-- C66: a vector object, or the k-th element of an array of vectors, placed at a multiple of its alignment has all its native vectors
aligned, and they lie inside the object. -/
theorem C66_objects {c : Cfg} (_hc : c.Ok) {A : Nat} (hA : ValidAlign A) (base : Nat) (h : objAlign c A ∣ base) (k j : Nat) (hj : j < c.dataSize) :
    c.v.bytes ∣ base + k * objSize c A + j * c.v.bytes ∧ objAlign c A ∣ base + k * objSize c A ∧ (j + 1) * c.v.bytes ≤ objSize c A := by
  have ho : objAlign c A ∣ objSize c A := Nat.dvd_mul_left _ _
  have hk : objAlign c A ∣ base + k * objSize c A := Nat.dvd_add h (Nat.dvd_trans ho (Nat.dvd_mul_left _ _))
  refine ⟨Nat.dvd_add (Nat.dvd_trans (v_dvd_objAlign c hA) hk) (Nat.dvd_mul_left _ _), hk, ?_⟩
  have hp : 0 < objAlign c A := by
    have : 0 < c.v.bytes := by cases c.v <;> decide
    have : c.v.bytes ≤ objAlign c A := Nat.le_max_right _ _
    omega
  have h1 : (j + 1) * c.v.bytes ≤ c.dataSize * c.v.bytes := Nat.mul_le_mul_right _ hj
  refine Nat.le_trans h1 ?_
  unfold objSize
  generalize c.dataSize * c.v.bytes = n
  generalize objAlign c A = a at hp
  have := Nat.div_add_mod (n + (a - 1)) a
  have h2 := Nat.mod_lt (n + (a - 1)) hp
  rw [Nat.mul_comm] at this
  generalize (n + (a - 1)) / a * a = q at this ⊢
  omega
/-- C66: the temporary arrays of the conversion operators and casts keep the promise of `vector_aligned` for both vector types, x86 or
generic (then with any valid alignment `B` and element type `U`). -/
theorem C66_buffers {c : Cfg} (hc : c.Ok) {A : Nat} (hA : ValidAlign A) (b : Nat) (hb : (∃ c' A', b = objAlign c' A' ∧ ValidAlign A') ∨
      (∃ U : Ety, ∃ B, U.Ok ∧ ValidAlign B ∧ b = genAlign B U)) (base : Nat) (h : bufAlign (objAlign c A) b ∣ base) :
    AlignPromise c A base .vector ∧ b ∣ base := by
  have hb2 : ∃ k, b = 2 ^ k := by
    rcases hb with ⟨c', A', rfl, h'⟩ | ⟨U, B, hU, hB, rfl⟩
    · exact pow_max h' (vbytes_pow c'.v)
    · exact pow_max hB (tbytes_pow hU)
  have ho := pow_max hA (vbytes_pow c.v)
  have hm := pow_dvd_max (Or.inr ho) hb2
  have hv : 0 < c.v.bytes := by cases c.v <;> decide
  have hle : c.v.bytes ≤ objAlign c A := Nat.le_max_right _ _
  have ha : objAlign c A ∣ base := Nat.dvd_trans (hm.2 (by unfold objAlign at hle; omega)) h
  have ht : c.T.bytes ∣ base := Nat.dvd_trans (tbytes_dvd hc.ety c.v) (Nat.dvd_trans (v_dvd_objAlign c hA) ha)
  have hmem : memAlign c A = objAlign c A := Nat.max_eq_left (Nat.le_trans (Nat.le_of_dvd hv (tbytes_dvd hc.ety c.v)) hle)
  exact ⟨⟨ht, by rw [hmem]; exact ha⟩, Nat.dvd_trans hm.1 h⟩
/-- `element_aligned` makes no native access, so an address with the elements' alignment is enough; `overaligned<n>` with n below the native
size neither. -/
theorem C66_unaligned {c : Cfg} (f : Flag) (hf : f = .element ∨ ∃ n, f = .over n ∧ n < c.v.bytes) (base : Nat) (h : c.T.bytes ∣ base)
    (d : c.Data) (len : Nat) (mem : Mem (BitVec c.w)) :
    copyToAt c f base d len mem = copyTo c f d len mem ∧ copyFromAt c f base d len mem = copyFrom c f d len mem := by
  have ha : f.aligned c.v.bytes = false := by
    have : 0 < c.v.bytes := by cases c.v <;> decide
    rcases hf with rfl | ⟨n, rfl, hn⟩ <;> simp [Flag.aligned] <;> omega
  have e1 : ∀ i, (base + i * c.T.bytes) % c.T.bytes = 0 := fun i => Nat.mod_eq_zero_of_dvd (Nat.dvd_add h (Nat.dvd_mul_left _ _))
  unfold copyToAt copyTo copyFromAt copyFrom
  simp only [ha, e1, true_and, Bool.false_eq_true, if_false, and_self]

/-- the promises are needed: `overaligned<24>` (not a power of two) passes for 16-byte alignment, and the load at address 24 faults -/
example (d : exI32.Data) (mem : Mem (BitVec 32)) : copyFromAt exI32 (.over 24) 24 d 8 mem = none := rfl
/-- `vector_aligned` at an address that is a multiple of 16 but not of 32 faults for 32-byte vectors -/
example (d : exF64.Data) (mem : Mem (BitVec 64)) : copyFromAt exF64 .vector 16 d 8 mem = none := rfl
/-- a promise that is kept: `simd<float, 6>` at address 32 -/
example : AlignPromise exF32 0 32 .vector ∧ AlignPromise exF32 64 64 (.over 32) :=
  ⟨⟨by decide, by decide⟩, by decide, ⟨5, rfl⟩, by decide⟩
example (d : exF32.Data) (mem : Mem (BitVec 32)) : copyToAt exF32 .vector 32 d 8 mem = copyTo exF32 .vector d 8 mem :=
  (C66_copies exF32_ok (Or.inl rfl) .vector 32 ⟨by decide, by decide⟩ d 8 mem).1
end Dpm.X86
