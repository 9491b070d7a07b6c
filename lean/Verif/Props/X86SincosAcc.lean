import Verif.Props.X86TrigAcc
/-!
C56 for `ext::sincos` (its run-time path, see C59 for compiling it): both results are as accurate as those of `sin` and `cos`.
-/
namespace Dpm.X86
open Dpm.Reg Dpm.Fp

theorem not_large {c : Cfg} (hc : c.Ok) (hf : c.T.flt = true) {x : BitVec c.w} (hx : TrigArg c x) : ¬ Large x := by
  have h : W c.w := fltW hc.ety hf
  obtain ⟨-, h2, -⟩ := hx
  have hb : (if c.w = 64 then (2 : ℝ) ^ 29 else 2 ^ 22) ≤ 2 ^ (mb c.w - 1) := by
    rcases h with h | h <;> rw [h]
    · rw [if_neg (by norm_num), show mb 32 = 23 from rfl]
    · rw [if_pos rfl, show mb 64 = 52 from rfl]; norm_num
  have ha := le_trans h2 hb
  intro hl
  unfold Large at hl
  rw [rv_abs, div_le_iff₀ (by positivity)] at ha
  have : (val x).natAbs ≤ 2 ^ (mb c.w - 1) * 2 ^ unitExp c.w := by exact_mod_cast ha
  omega

/-- C56 (`sincos`): for every C library, whatever the two output vectors held, every element of the outputs is within the bound of
`C56_sin`, `C56_cos` of the real sine and cosine. -/
theorem C56_sincos {c : Cfg} (hc : c.Ok) (hf : c.T.flt = true) (L : Libm) (o : MathOpt) (fm : Bool) (x os oc : c.Data) :
    ∃ r, vSincos c L o fm x os oc = .ok r ∧ ∀ i, i < c.N → TrigArg c (elt c x i) →
      isFinite (elt c r.1 i) = true ∧ |rv (elt c r.1 i) - Real.sin (rv (elt c x i))| ≤ ulpHalf c.w * trigK c fm |rv (elt c x i)| ∧
      isFinite (elt c r.2 i) = true ∧ |rv (elt c r.2 i) - Real.cos (rv (elt c x i))| ≤ ulpHalf c.w * trigK c fm |rv (elt c x i)| := by
  obtain ⟨r, rs, rc, hr, hrs, hrc, h⟩ := C42_sincos hc hf L o fm x os oc
  obtain ⟨s, hs, h1⟩ := C56_sin hc hf L o fm x
  obtain ⟨k, hk, h2⟩ := C56_cos hc hf L o fm x
  rw [hrs] at hs
  rw [hrc] at hk
  cases Out.ok.inj hs
  cases Out.ok.inj hk
  refine ⟨r, hr, fun i hi hx => ?_⟩
  obtain ⟨e1, e2⟩ := h i hi (fun hl => absurd hl (not_large hc hf hx))
  rw [e1, e2]
  exact ⟨(h1 i hi hx).1, (h1 i hi hx).2, (h2 i hi hx).1, (h2 i hi hx).2⟩

/-- `sincos(2.0)` of six floats, `2.0` is in range -/
example : ∃ r, vSincos exF32 exLibm ⟨true, true⟩ true (vbroadcast exF32 0x40000000 (zeroData exF32)) (zeroData exF32) (zeroData exF32) = .ok r ∧
    |rv (elt exF32 r.2 5) - Real.cos 2| ≤ ulpHalf 32 * 10.4 := by
  obtain ⟨r, hr, h⟩ := C56_sincos exF32_ok rfl exLibm ⟨true, true⟩ true (vbroadcast exF32 0x40000000 (zeroData exF32)) (zeroData exF32) (zeroData exF32)
  refine ⟨r, hr, ?_⟩
  have e : elt exF32 (vbroadcast exF32 0x40000000 (zeroData exF32)) 5 = (0x40000000 : BitVec exF32.w) := elt_vbroadcast exF32_ok _ _ (by decide)
  have hv : rv (0x40000000 : BitVec exF32.w) = 2 := by
    have : val (0x40000000 : BitVec exF32.w) = 2 * 2 ^ 149 := by decide +kernel
    rw [rv_of_val (b := 0) this rfl]; norm_num
  have := (h 5 (by decide) (by
    rw [e]
    refine ⟨by decide +kernel, ?_, fun hh => absurd hh (by decide)⟩
    rw [hv, if_neg (by decide)]; norm_num)).2.2.2
  rw [e, hv] at this
  have hk : trigK exF32 true |2| = 10.4 := by unfold trigK; rw [if_neg (by decide)]; simp
  rwa [hk] at this
end Dpm.X86
