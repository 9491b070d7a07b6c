import Verif.Proofs.ModfSpec
import Verif.Props.X86Scalbn
/-!
C36: modf of the x86 backend (meaning: Spec/Manip.lean, `IsModf`).
-/
namespace Dpm.X86
open Dpm.Reg Dpm.Fp

section C36
variable {c : Cfg} (hc : c.Ok) (hf : c.T.flt = true)
include hc hf
/-- modf is defined exactly when the (pre-AVX2, float) scalar shifts are, in every native vector including its padding lanes;
then every element is split by the lane function. -/
theorem vModf_elts (o : MathOpt) (x : c.Data) (hs : ∀ j, j < c.dataSize → ModfShiftOk c.s c.T c.v (x j)) :
    ∃ r, vModf c o x = .ok r ∧ ∀ p, p < c.N → elt c r.1 p = (modfLane o (elt c x p)).1 ∧ elt c r.2 p = (modfLane o (elt c x p)).2 := by
  have key : ∀ n (a : c.Data × c.Data), (∀ j, j < n → ModfShiftOk c.s c.T c.v (x j)) →
      ∃ r, forRangeM n (fun j (r : c.Data × c.Data) => (modfV o c.s c.T c.v (x j)).map (fun p => (r.1.set j p.1, r.2.set j p.2))) a = some r ∧
        ∀ j, j < n → ∃ p, modfV o c.s c.T c.v (x j) = some p ∧ r.1 j = p.1 ∧ r.2 j = p.2 := by
    intro n
    induction n with
    | zero => intro a _; exact ⟨a, rfl, fun j hj => absurd hj (Nat.not_lt_zero _)⟩
    | succ n ih =>
      intro a ha
      obtain ⟨r, h1, h2⟩ := ih a (fun j hj => ha j (by omega))
      cases hm : modfV o c.s c.T c.v (x n) with
      | none => exact absurd (ha n (by omega)) ((modfV_none hc.ety hf o c.s (x n)).1 hm)
      | some q =>
        refine ⟨(r.1.set n q.1, r.2.set n q.2), ?_, ?_⟩
        · rw [forRangeM, h1]
          show Option.map _ _ = _
          rw [hm]; rfl
        · intro j hj
          by_cases hjn : j = n
          · subst hjn; exact ⟨q, hm, by simp [Mem.set], by simp [Mem.set]⟩
          · obtain ⟨p, h3, h4, h5⟩ := h2 j (by omega)
            refine ⟨p, h3, ?_, ?_⟩
            · simp [Mem.set, hjn, h4]
            · simp [Mem.set, hjn, h5]
  obtain ⟨r, h1, h2⟩ := key c.dataSize (zeroData c, zeroData c) hs
  refine ⟨r, ?_, fun p hp => ?_⟩
  · unfold vModf; rw [h1]; rfl
  · obtain ⟨q, h3, h4, h5⟩ := h2 _ (idx_lt hc hp)
    have h6 := modfV_lane hc.ety hf o c.s _ q h3 (idx_mod hc p)
    unfold elt
    rw [h4, h5]
    exact h6
/-- modf has undefined behaviour for floats before AVX2 as soon as one lane of a native vector (padding included) is below 1 in
magnitude, zero, 2^32 or more, infinite or NaN. -/
theorem C36_modf_undefined (o : MathOpt) (x : c.Data) {j : Nat} (hj : j < c.dataSize) (hs : ¬ ModfShiftOk c.s c.T c.v (x j)) :
    vModf c o x = .ub := by
  have key : ∀ n (a : c.Data × c.Data), j < n →
      forRangeM n (fun j (r : c.Data × c.Data) => (modfV o c.s c.T c.v (x j)).map (fun p => (r.1.set j p.1, r.2.set j p.2))) a = none := by
    intro n
    induction n with
    | zero => intro a h; omega
    | succ n ih =>
      intro a h
      rw [forRangeM]
      by_cases hjn : j = n
      · subst hjn
        have hm := (modfV_none hc.ety hf o c.s (x j)).2 hs
        cases forRangeM j (fun j (r : c.Data × c.Data) => (modfV o c.s c.T c.v (x j)).map (fun p => (r.1.set j p.1, r.2.set j p.2))) a with
        | none => rfl
        | some b => show Option.map _ _ = _; rw [hm]; rfl
      · rw [ih a (by omega)]; rfl
  unfold vModf; rw [key _ _ hj]; rfl
/-- C36 for zeros, `|x| >= 1` and infinities (and NaNs with `DPM_PROPAGATE_NAN`), wherever modf is defined: exact integral part
and fraction with the sign of `x`; infinities give a zero fraction; NaNs propagate to both parts. -/
theorem C36_modf_partial (o : MathOpt) (x : c.Data) (hs : ∀ j, j < c.dataSize → ModfShiftOk c.s c.T c.v (x j)) :
    ∃ r, vModf c o x = .ok r ∧ ∀ p, p < c.N →
      (isFinite (elt c x p) = true → val (elt c x p) = 0 ∨ 2 ^ unitExp c.w ≤ (val (elt c x p)).natAbs → IsModf (elt c x p) (elt c r.1 p) (elt c r.2 p)) ∧
      (isInf (elt c x p) = true → isZero (elt c r.1 p) = true ∧ (elt c r.1 p).msb = (elt c x p).msb ∧ elt c r.2 p = elt c x p) ∧
      (o.propNan = true → isNaN (elt c x p) = true → elt c r.1 p = elt c x p ∧ elt c r.2 p = elt c x p) := by
  have hw := fltW hc.ety hf
  obtain ⟨r, hr, h⟩ := vModf_elts hc hf o x hs
  refine ⟨r, hr, fun p hp => ?_⟩
  rw [(h p hp).1, (h p hp).2]
  refine ⟨fun h1 h2 => modfLane_spec hw o h1 ?_, fun h1 => modfLane_inf hw o h1, fun h1 h2 => modfLane_nan h1 h2⟩
  rcases h2 with h2 | h2
  · exact Or.inl ((val_zero_iff _).1 h2)
  · right
    have hm := manF_lt (elt c x p)
    rw [natAbs_val_fields] at h2
    unfold fieldVal at h2
    have hU : unitExp c.w = bias c.w - 1 + mb c.w := unitExp_eq hw
    have hb : 0 < bias c.w := by rcases hw with h | h <;> rw [show c.w = _ from h] <;> decide
    false_or_by_contra
    rename_i hlt
    have h4 : 2 ^ mb c.w ≤ 2 ^ unitExp c.w := Nat.pow_le_pow_right (by omega) (by omega)
    split at h2
    · have h3 : manF (elt c x p) < 2 ^ mb c.w := hm
      omega
    · have h3 : (2 ^ mb c.w + manF (elt c x p)) * 2 ^ (expF (elt c x p) - 1) < 2 ^ (mb c.w + 1) * 2 ^ (expF (elt c x p) - 1) := by
        apply Nat.mul_lt_mul_of_pos_right _ (Nat.two_pow_pos _)
        have h5 : manF (elt c x p) < 2 ^ mb c.w := hm
        rw [Nat.pow_succ]; omega
      rw [← Nat.pow_add] at h3
      have h5 : 2 ^ (mb c.w + 1 + (expF (elt c x p) - 1)) ≤ 2 ^ unitExp c.w := Nat.pow_le_pow_right (by omega) (by
        have : ¬ bias c.w ≤ expF (elt c x p) := hlt
        omega)
      have h6 : 2 ^ unitExp c.w ≤ (2 ^ mb c.w + manF (elt c x p)) * 2 ^ (expF (elt c x p) - 1) := h2
      omega
/-- C36 violated for `0 < |x| < 1`: the integral part is `x` itself instead of zero. -/
theorem C36_modf_violated (o : MathOpt) (x : c.Data) (hs : ∀ j, j < c.dataSize → ModfShiftOk c.s c.T c.v (x j)) :
    ∃ r, vModf c o x = .ok r ∧ ∀ p, p < c.N → val (elt c x p) ≠ 0 → (val (elt c x p)).natAbs < 2 ^ unitExp c.w →
      elt c r.2 p = elt c x p ∧ ¬ IsModf (elt c x p) (elt c r.1 p) (elt c r.2 p) := by
  have hw := fltW hc.ety hf
  obtain ⟨r, hr, h⟩ := vModf_elts hc hf o x hs
  refine ⟨r, hr, fun p hp h0 h1 => ?_⟩
  have he : expF (elt c x p) < bias c.w := by
    rw [natAbs_val_fields] at h1
    unfold fieldVal at h1
    have hU : unitExp c.w = bias c.w - 1 + mb c.w := unitExp_eq hw
    have hb : 0 < bias c.w := by rcases hw with h | h <;> rw [show c.w = _ from h] <;> decide
    split at h1
    · rename_i h2
      have h2 : expF (elt c x p) = 0 := h2
      omega
    · false_or_by_contra
      rename_i h2 h3
      have h4 : 2 ^ unitExp c.w ≤ 2 ^ mb c.w * 2 ^ (expF (elt c x p) - 1) := by
        rw [← Nat.pow_add]; exact Nat.pow_le_pow_right (by omega) (by
          have : ¬ expF (elt c x p) < bias c.w := h3
          omega)
      have h5 : 2 ^ mb c.w * 2 ^ (expF (elt c x p) - 1) ≤ (2 ^ mb c.w + manF (elt c x p)) * 2 ^ (expF (elt c x p) - 1) :=
        Nat.mul_le_mul_right _ (by omega)
      have h6 : (2 ^ mb c.w + manF (elt c x p)) * 2 ^ (expF (elt c x p) - 1) < 2 ^ unitExp c.w := h1
      omega
  have hl := modfLane_small o he
  rw [(h p hp).1, (h p hp).2, hl]
  refine ⟨rfl, fun hm => ?_⟩
  have := hm.sum
  dsimp only at this
  omega
end C36
/-- 4 doubles: 2.75 is split exactly -/
example : ∃ r, vModf exF64 ⟨true, true⟩ (vbroadcast exF64 0x4006000000000000 (zeroData exF64)) = .ok r ∧
    IsModf (0x4006000000000000 : BitVec 64) (elt exF64 r.1 3) (elt exF64 r.2 3) := by
  obtain ⟨r, hr, h⟩ := C36_modf_partial exF64_ok rfl ⟨true, true⟩ (vbroadcast exF64 0x4006000000000000 (zeroData exF64)) (fun _ _ => Or.inl rfl)
  have h2 := (h 3 (by decide)).1 (by rw [elt_vbroadcast exF64_ok _ _ (by decide)]; decide) (by rw [elt_vbroadcast exF64_ok _ _ (by decide)]; decide +kernel)
  rw [elt_vbroadcast exF64_ok _ _ (by decide)] at h2
  exact ⟨r, hr, h2⟩
/-- modf(0.5) stores 0.5 as the integral part -/
theorem C36_counterexample : ∃ r, vModf exF64 ⟨true, true⟩ (vbroadcast exF64 0x3fe0000000000000 (zeroData exF64)) = .ok r ∧
    elt exF64 r.2 3 = (0x3fe0000000000000 : BitVec 64) := by
  obtain ⟨r, hr, h⟩ := C36_modf_violated exF64_ok rfl ⟨true, true⟩ (vbroadcast exF64 0x3fe0000000000000 (zeroData exF64)) (fun _ _ => Or.inl rfl)
  have h2 := h 3 (by decide) (by rw [elt_vbroadcast exF64_ok _ _ (by decide)]; decide +kernel) (by rw [elt_vbroadcast exF64_ok _ _ (by decide)]; decide +kernel)
  rw [elt_vbroadcast exF64_ok _ _ (by decide)] at h2
  exact ⟨r, hr, h2.1⟩
/-- 6 floats with SSE2 that include a zero: undefined -/
example : vModf exF32 ⟨true, true⟩ (zeroData exF32) = .ub := by
  refine C36_modf_undefined exF32_ok rfl _ (zeroData exF32) (j := 0) (by decide) ?_
  rintro (h | h | h)
  · cases h
  · cases h
  · have h1 : bias exF32.T.w ≤ expF (lane exF32.T.w (zeroData exF32 0) 0) := (h 0 (by decide)).1
    have h2 : lane exF32.T.w (zeroData exF32 0) 0 = 0#exF32.T.w := lane_zero _ _ _
    rw [h2] at h1
    revert h1; decide
end Dpm.X86
