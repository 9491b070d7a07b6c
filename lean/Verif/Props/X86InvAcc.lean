import Verif.Proofs.InvAtan
import Verif.Props.X86Trig
/-!
C57: accuracy of `asin`, `acos` and `atan` of the x86 backend (SVML not used) against the real inverse functions.
`rv x` is the real number a finite pattern denotes, `ulpHalf` is `2^-24` or `2^-53`, `tiny` half the smallest subnormal;
`o` are the error-handling options, `fm` says whether DPM_HAS_FMA is defined.  (Arguments outside [-1,1], infinities and NaN: C42.)
-/
namespace Dpm.X86
open Dpm.Reg Dpm.Fp

section C57
variable {c : Cfg} (hc : c.Ok) (hf : c.T.flt = true) (o : MathOpt) (fm : Bool)
include hc hf
/-- C57 (asin): for `|x| <= 1` every element is finite and within a relative error of 12.5 half units of the real arcsine; up to 5/8 within 5.7
half units of `|x|`. -/
theorem C57_asin (x : c.Data) :
    EachElt c (fun a r => isFinite a = true → |rv a| ≤ 1 → isFinite r = true ∧
      |rv r - Real.arcsin (rv a)| ≤ 12.5 * ulpHalf c.w * |Real.arcsin (rv a)| + 5 * tiny c.w ∧
      (|rv a| ≤ 5 / 8 → |rv r - Real.arcsin (rv a)| ≤ 5.7 * ulpHalf c.w * |rv a| + 5 * tiny c.w)) x (vAsin c o fm x) :=
  each_imp (vAsin_elt hc o fm x) fun a r hr ha h1 => by rw [hr]; exact asinF_acc (fltW hc.ety hf) o fm ha h1
/-- C57 (acos): for `|x| <= 1` every element is finite and within a relative error of 9 half units of the real arccosine, also where the arccosine
is close to zero. -/
theorem C57_acos (x : c.Data) :
    EachElt c (fun a r => isFinite a = true → |rv a| ≤ 1 → isFinite r = true ∧
      |rv r - Real.arccos (rv a)| ≤ 9 * ulpHalf c.w * Real.arccos (rv a) + 12 * tiny c.w) x (vAcos c o fm x) :=
  each_imp (vAcos_elt hc o fm x) fun a r hr ha h1 => by rw [hr]; exact acosF_acc (fltW hc.ety hf) o fm ha h1
/-- C57 (atan): for every finite `x` every element is finite and within a relative error of 6.5 half units of the real arctangent. -/
theorem C57_atan (x : c.Data) :
    EachElt c (fun a r => isFinite a = true → isFinite r = true ∧
      |rv r - Real.arctan (rv a)| ≤ 6.5 * ulpHalf c.w * |Real.arctan (rv a)| + 5 * tiny c.w) x (vAtan c fm x) :=
  each_imp (vAtan_elt hc fm x) fun a r hr ha => by rw [hr]; exact atanF_acc (fltW hc.ety hf) fm ha
end C57

/-! ### examples -/
/-- `asin(0.5)` in 6 x float on SSE2 is `pi/6` up to 3 units of 2^-24 -/
example : ∃ r, vAsin exF32 ⟨true, true⟩ false (vbroadcast exF32 0x3f000000 (zeroData exF32)) = .ok r ∧
    ∀ i, i < 6 → |rv (elt exF32 r i) - Real.pi / 6| ≤ 3 / 2 ^ 24 := by
  have e : isFinite (0x3f000000 : BitVec 32) = true ∧ val (0x3f000000 : BitVec 32) = 1 * 2 ^ 148 := by decide +kernel
  have e2 : rv (0x3f000000 : BitVec exF32.w) = 1 / 2 := by
    have := rv_of_val e.2 (b := 1) rfl
    norm_num at this ⊢; exact this
  obtain ⟨r, hr, h⟩ := each_bcast exF32_ok _ (C57_asin exF32_ok rfl ⟨true, true⟩ false (vbroadcast exF32 0x3f000000 (zeroData exF32)))
  refine ⟨r, hr, fun i hi => ?_⟩
  have h1 := (h i hi e.1 (by rw [e2]; norm_num [abs_of_nonneg])).2.2 (by rw [e2]; norm_num [abs_of_nonneg])
  have ea : Real.arcsin (1 / 2) = Real.pi / 6 := by
    rw [← Real.sin_pi_div_six]; exact Real.arcsin_sin (by linarith [Real.pi_pos]) (by linarith [Real.pi_pos])
  have h2 := tiny_le (w := exF32.w) (Or.inl rfl)
  have eu : ulpHalf exF32.w = 1 / 2 ^ 24 := rfl
  rw [e2, ea, eu, abs_of_nonneg (show (0:ℝ) ≤ 1 / 2 by norm_num)] at h1
  refine le_trans h1 ?_
  norm_num at h2 ⊢; linarith
/-- `atan(1)` in 4 x double on AVX is `pi/4` up to 6 units of 2^-53 -/
example : ∃ r, vAtan exF64 true (vbroadcast exF64 0x3ff0000000000000 (zeroData exF64)) = .ok r ∧
    ∀ i, i < 4 → |rv (elt exF64 r i) - Real.pi / 4| ≤ 6 / 2 ^ 53 := by
  have e : isFinite (0x3ff0000000000000 : BitVec 64) = true ∧ val (0x3ff0000000000000 : BitVec 64) = 1 * 2 ^ 1074 := by decide +kernel
  have e2 : rv (0x3ff0000000000000 : BitVec exF64.w) = 1 := by
    have := rv_of_val e.2 (b := 0) rfl
    norm_num at this; exact this
  obtain ⟨r, hr, h⟩ := each_bcast exF64_ok _ (C57_atan exF64_ok rfl true (vbroadcast exF64 0x3ff0000000000000 (zeroData exF64)))
  refine ⟨r, hr, fun i hi => ?_⟩
  have h1 := (h i hi e.1).2
  have hp := Real.pi_lt_d2
  have h2 := tiny_ulp (w := exF64.w) (Or.inr rfl)
  have eu : ulpHalf exF64.w = 1 / 2 ^ 53 := rfl
  rw [e2, Real.arctan_one, eu, abs_of_nonneg (show (0:ℝ) ≤ Real.pi / 4 by positivity)] at h1
  rw [eu] at h2
  refine le_trans h1 ?_
  norm_num at h2 hp ⊢; linarith
/-- `acos(-1)` in 4 x double on AVX is `pi` up to 29 units of 2^-53 -/
example : ∃ r, vAcos exF64 ⟨true, true⟩ false (vbroadcast exF64 0xbff0000000000000 (zeroData exF64)) = .ok r ∧
    ∀ i, i < 4 → |rv (elt exF64 r i) - Real.pi| ≤ 29 / 2 ^ 53 := by
  have e : isFinite (0xbff0000000000000 : BitVec 64) = true ∧ val (0xbff0000000000000 : BitVec 64) = (-1) * 2 ^ 1074 := by decide +kernel
  have e2 : rv (0xbff0000000000000 : BitVec exF64.w) = -1 := by
    have := rv_of_val e.2 (b := 0) rfl
    norm_num at this; exact this
  obtain ⟨r, hr, h⟩ := each_bcast exF64_ok _ (C57_acos exF64_ok rfl ⟨true, true⟩ false (vbroadcast exF64 0xbff0000000000000 (zeroData exF64)))
  refine ⟨r, hr, fun i hi => ?_⟩
  have h1 := (h i hi e.1 (by rw [e2]; norm_num)).2
  have hp := Real.pi_lt_d2
  have h2 := tiny_ulp (w := exF64.w) (Or.inr rfl)
  have eu : ulpHalf exF64.w = 1 / 2 ^ 53 := rfl
  rw [e2, Real.arccos_neg_one, eu] at h1
  rw [eu] at h2
  refine le_trans h1 ?_
  norm_num at h2 hp ⊢; linarith
end Dpm.X86
