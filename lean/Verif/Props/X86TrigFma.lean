import Verif.Proofs.TrigWide
import Verif.Props.X86TrigFar
import Verif.Props.X86SincosAcc
/-!
C56 in double precision with fused multiply-add: the argument reduction is as good as exact up to `2^40`, so the bound does not grow with `|x|`
(without FMA it does, `C56_double_far`, and far out nothing is left, `C56_far_violated`).
-/
namespace Dpm.X86
open Dpm.Reg Dpm.Fp

/-- half units in the last place of 1.0 the results may be off -/
def fmaK (c : Cfg) : ℝ := if c.v = .v128 ∧ c.s.dqvl = true then 24661 else 4.7

section C56
variable {c : Cfg} (hc : c.Ok) (hf : c.T.flt = true) (L : Libm) (o : MathOpt)
include hc hf
theorem sincos_fma {x : BitVec c.w} (h64 : c.w = 64) (hk : CvtOk c.s c.T c.v) (hx : isFinite x = true) (hA : |rv x| ≤ 2 ^ 40) :
    SincosErr (cvttLaneIF c.s c.v) (cvtLaneIF c.s c.T c.v) true (abB x) (fmaK c) := by
  have h : W c.w := fltW hc.ety hf
  obtain ⟨a1, a2, a3, a4⟩ := abB_facts h hx
  by_cases hA2 : 2 ^ 17 ≤ |rv x|
  · rw [← a3] at hA hA2
    obtain ⟨pi1, pi2⟩ := quarter_pi
    unfold fmaK
    generalize abB x = ab at *
    clear a3 a4
    clear hx
    have key : ∀ {w : Nat} (hw : w = 64) (ab : BitVec w), isFinite ab = true → ab.msb = false → rv ab ≤ 2 ^ 40 → 2 ^ 17 ≤ rv ab →
        SincosErr (cvttLaneIF c.s c.v) (cvtLaneIF c.s c.T c.v) true ab (if c.v = .v128 ∧ c.s.dqvl = true then 24661 else 4.7) := by
      intro w hw ab a1 a2 hA hA2
      subst hw
      by_cases hd : c.v = .v128 ∧ c.s.dqvl = true
      · rw [if_pos hd]
        refine lane_fma c.s c.v a1 a2 hA hA2 hk (Z := 1.179) (p := 24650) ?_ (by norm_num) (pol_wide true) (by norm_num)
        unfold octDist; rw [if_pos ⟨rfl, hd⟩]; norm_num at *; linarith
      · rw [if_neg hd]
        refine lane_fma c.s c.v a1 a2 hA hA2 hk (Z := 786 / 1000) (p := 2.2) ?_ (by norm_num) (pol_tight (Or.inr rfl) true) (by norm_num)
        unfold octDist; rw [if_neg (fun hh => hd hh.2)]; norm_num at *; linarith
    exact key h64 ab a1 a2 hA hA2
  · push Not at hA2
    have hT : TrigArg c x := by
      refine ⟨hx, ?_, fun _ h1 h2 h3 => ?_⟩
      · rw [if_pos h64]; exact le_trans hA2.le (by norm_num)
      · exfalso
        rcases hk with hk | hk | hk | hk
        · have e : c.T.w = 64 := h64
          unfold Ety.w at e; omega
        · rw [h2] at hk; cases hk
        · rw [h1] at hk; cases hk
        · exact h3 hk
    have := sincos_all hc hf true hT
    intro b
    have hK : ulpHalf c.w * trigK c true |rv x| ≤ ulpHalf c.w * fmaK c := by
      apply mul_le_mul_of_nonneg_left _ (ulp_pos c.w).le
      unfold trigK fmaK
      rw [if_pos h64]
      split <;> norm_num at hA2 ⊢ <;> linarith
    obtain ⟨⟨b1, b2⟩, b3, b4⟩ := this b
    exact ⟨⟨b1, le_trans b2 hK⟩, b3, le_trans b4 hK⟩
omit hc hf in
theorem small_lim {x : BitVec c.w} (h64 : c.w = 64) (hA : |rv x| ≤ 2 ^ 40) : |rv x| ≤ 2 ^ (mb c.w - 1) := by
  refine le_trans hA ?_
  rw [h64, show mb 64 = 52 from rfl]; norm_num
/-- C56 (`sin`, `cos` in double precision with FMA, `|x| <= 2^40`): the error is at most 4.7 half units in the last place of 1.0, whatever `|x|`
(24661 in 128-bit vectors with AVX-512DQ and VL), where dpm converts 64-bit integers to double correctly. -/
theorem C56_double_fma (x : c.Data) (h64 : c.w = 64) (hk : CvtOk c.s c.T c.v) :
    EachElt c (fun a r => isFinite a = true → |rv a| ≤ 2 ^ 40 → isFinite r = true ∧ |rv r - Real.sin (rv a)| ≤ fmaK c * ulpHalf c.w) x (vSin c L o true x) ∧
    EachElt c (fun a r => isFinite a = true → |rv a| ≤ 2 ^ 40 → isFinite r = true ∧ |rv r - Real.cos (rv a)| ≤ fmaK c * ulpHalf c.w) x (vCos c L o true x) := by
  have h : W c.w := fltW hc.ety hf
  constructor
  · refine each_imp (vSin_elt hc hf L o true x) fun a r hr ha hA => ?_
    obtain ⟨a1, a2, a3, a4⟩ := abB_facts h ha
    obtain ⟨⟨b1, b2⟩, -⟩ := sincos_fma hc hf h64 hk ha hA a.msb
    rw [sin_reduced hc hf L o true hr ha (small_lim h64 hA)]
    refine ⟨b1, ?_⟩
    have : Real.sin (rv a) = Fp.sg a.msb * Real.sin (rv (abB a)) := by
      rw [a4]; cases a.msb <;> simp [Fp.sg]
    rw [this, mul_comm (fmaK c)]; exact b2
  · refine each_imp (vCos_elt hc hf L o true x) fun a r hr ha hA => ?_
    obtain ⟨a1, a2, a3, a4⟩ := abB_facts h ha
    obtain ⟨-, b1, b2⟩ := sincos_fma hc hf h64 hk ha hA false
    have e : r = cosLane (cvttLaneIF c.s c.v) (cvtLaneIF c.s c.T c.v) true (abB a) := by
      rw [hr]; unfold cosF; dsimp only; rw [if_neg (by rw [not_over h o (small_lim h64 hA)]; simp), finLane_fin h o ha]
    rw [e]
    refine ⟨b1, ?_⟩
    have : Real.cos (rv a) = Real.cos (rv (abB a)) := by
      rw [a4]; cases a.msb <;> simp [Fp.sg]
    rw [this, mul_comm (fmaK c)]; exact b2
/-- C56 (`tan` in double precision with FMA, `|x| <= 2^40`): from the constant `pi/32` on, unless `|cos x|` is within the error of `cos`,
`|r cos x - sin x| <= 6 half units * (1 + |r|)` (24663 in 128-bit vectors with AVX-512DQ and VL). -/
theorem C56_tan_fma (u1 u2 : Vec c.v) (x : c.Data) (h64 : c.w = 64) (hk : CvtOk c.s c.T c.v) :
    EachElt c (fun a r => isFinite a = true → |rv a| ≤ 2 ^ 40 → 1 / 10 ≤ |rv a| → 2 * (fmaK c * ulpHalf c.w) ≤ |Real.cos (rv a)| →
      isFinite r = true ∧ |rv r * Real.cos (rv a) - Real.sin (rv a)| ≤ (fmaK c + 1.3) * ulpHalf c.w * (1 + |rv r|)) x (vTan c L o true u1 u2 x) := by
  refine each_imp (vTan_elt hc hf L o true u1 u2 x) fun a r hr ha hA hlo hcos => ?_
  have h : W c.w := fltW hc.ety hf
  obtain ⟨a1, a2, a3, a4⟩ := abB_facts h ha
  obtain ⟨⟨b1, b2⟩, b3, b4⟩ := sincos_fma hc hf h64 hk ha hA a.msb
  have eu : ulpHalf c.w = 1 / 2 ^ 53 := by unfold ulpHalf; rw [h64]; rfl
  have k1 : 4 * ulpHalf c.w ≤ ulpHalf c.w * fmaK c := by
    rw [mul_comm]; apply mul_le_mul_of_nonneg_left _ (ulp_pos c.w).le
    unfold fmaK; split <;> norm_num
  have k2 : ulpHalf c.w * fmaK c ≤ 0.27 := by
    rw [eu]; unfold fmaK; split <;> norm_num
  have hp : fLt (abB a) (pio32 c.w) = false := by
    rw [fLt_eq h]; unfold Fp.lt
    have : ¬ val (abB a) < val (pio32 c.w) := by
      intro hlt
      have h1 : rv (abB a) < rv (pio32 c.w) := by
        unfold rv; exact div_lt_div_of_pos_right (by exact_mod_cast hlt) (by positivity)
      have h2 := pio32_le h
      rw [a3] at h1; linarith
    simp [this]
  have e : r = fdiv (sinLane (cvttLaneIF c.s c.v) (cvtLaneIF c.s c.T c.v) true (sb c.w a.msb) (abB a)) (cosLane (cvttLaneIF c.s c.v) (cvtLaneIF c.s c.T c.v) true (abB a)) := by
    rw [hr]; unfold tanF; dsimp only; rw [if_neg (by rw [not_over h o (small_lim h64 hA)]; simp), finLane_fin h o ha, if_neg (by rw [hp]; simp), sgB_sb h]
  have es : Real.sin (rv a) = Fp.sg a.msb * Real.sin (rv (abB a)) := by
    rw [a4]; cases a.msb <;> simp [Fp.sg]
  have ec : Real.cos (rv a) = Real.cos (rv (abB a)) := by
    rw [a4]; cases a.msb <;> simp [Fp.sg]
  rw [← es] at b2
  rw [← ec] at b4
  obtain ⟨r1, r2⟩ := tan_err h b1 b3 (Real.abs_sin_le_one _) (Real.abs_cos_le_one _) b2 b4 k1 k2 (by rw [mul_comm (ulpHalf c.w)]; exact hcos)
  rw [← e] at r1 r2
  exact ⟨r1, le_trans r2 (le_of_eq (by ring))⟩
/-- C56 (`sincos` in double precision with FMA, `|x| <= 2^40`): both results -/
theorem C56_sincos_fma (x os oc : c.Data) (h64 : c.w = 64) (hk : CvtOk c.s c.T c.v) :
    ∃ r, vSincos c L o true x os oc = .ok r ∧ ∀ i, i < c.N → isFinite (elt c x i) = true → |rv (elt c x i)| ≤ 2 ^ 40 →
      isFinite (elt c r.1 i) = true ∧ |rv (elt c r.1 i) - Real.sin (rv (elt c x i))| ≤ fmaK c * ulpHalf c.w ∧
      isFinite (elt c r.2 i) = true ∧ |rv (elt c r.2 i) - Real.cos (rv (elt c x i))| ≤ fmaK c * ulpHalf c.w := by
  have h : W c.w := fltW hc.ety hf
  obtain ⟨r, rs, rc, hr, hrs, hrc, hh⟩ := C42_sincos hc hf L o true x os oc
  obtain ⟨⟨s, hs, h1⟩, k, hkk, h2⟩ := C56_double_fma hc hf L o x h64 hk
  rw [hrs] at hs
  rw [hrc] at hkk
  cases Out.ok.inj hs
  cases Out.ok.inj hkk
  refine ⟨r, hr, fun i hi hx hA => ?_⟩
  obtain ⟨e1, e2⟩ := hh i hi (fun hl => by
    exfalso
    unfold Large at hl
    have hA' := small_lim h64 hA
    rw [rv_abs, div_le_iff₀ (by positivity)] at hA'
    have : (val (elt c x i)).natAbs ≤ 2 ^ (mb c.w - 1) * 2 ^ unitExp c.w := by exact_mod_cast hA'
    omega)
  rw [e1, e2]
  exact ⟨(h1 i hi hx hA).1, (h1 i hi hx hA).2, (h2 i hi hx hA).1, (h2 i hi hx hA).2⟩
theorem sincos_far (fm : Bool) {x : BitVec c.w} (h64 : c.w = 64) (hk : CvtOk c.s c.T c.v) (hx : isFinite x = true) (hA1 : 2 ^ 29 ≤ |rv x|) (hA : |rv x| ≤ 2 ^ 40) :
    SincosErr (cvttLaneIF c.s c.v) (cvtLaneIF c.s c.T c.v) fm (abB x) (1.002 * |rv x|) := by
  have h : W c.w := fltW hc.ety hf
  obtain ⟨a1, a2, a3, a4⟩ := abB_facts h hx
  rw [← a3] at hA hA1 ⊢
  obtain ⟨pi1, pi2⟩ := quarter_pi
  generalize abB x = ab at *
  have key : ∀ {w : Nat} (hw : w = 64) (ab : BitVec w), isFinite ab = true → ab.msb = false → rv ab ≤ 2 ^ 40 → 2 ^ 29 ≤ rv ab →
      SincosErr (cvttLaneIF c.s c.v) (cvtLaneIF c.s c.T c.v) fm ab (1.002 * rv ab) := by
    intro w hw ab a1 a2 hA hA2
    subst hw
    by_cases hd : c.v = .v128 ∧ c.s.dqvl = true
    · refine lane_plain c.s c.v fm a1 a2 hA hA2 hk (Z := 1.179) (p := 24650) ?_ (by norm_num) (pol_wide fm) (by norm_num)
      unfold octDist; rw [if_pos ⟨rfl, hd⟩]; norm_num at *; linarith
    · refine lane_plain c.s c.v fm a1 a2 hA hA2 hk (Z := 786 / 1000) (p := 2.2) ?_ (by norm_num) (pol_tight (Or.inr rfl) fm) (by norm_num)
      unfold octDist; rw [if_neg (fun hh => hd hh.2)]; norm_num at *; linarith
  exact key h64 ab a1 a2 hA hA1
/-- C56 (`sin`, `cos` in double precision, `2^29 <= |x| <= 2^40`, with or without FMA): the error is at most `1.002 |x|` half units in the last
place of 1.0, that is `1.2 * 10^-4` at `2^40` (with FMA it does not grow: `C56_double_fma`). -/
theorem C56_double_far (fm : Bool) (x : c.Data) (h64 : c.w = 64) (hk : CvtOk c.s c.T c.v) :
    EachElt c (fun a r => isFinite a = true → 2 ^ 29 ≤ |rv a| → |rv a| ≤ 2 ^ 40 →
      isFinite r = true ∧ |rv r - Real.sin (rv a)| ≤ 1.002 * |rv a| * ulpHalf c.w) x (vSin c L o fm x) ∧
    EachElt c (fun a r => isFinite a = true → 2 ^ 29 ≤ |rv a| → |rv a| ≤ 2 ^ 40 →
      isFinite r = true ∧ |rv r - Real.cos (rv a)| ≤ 1.002 * |rv a| * ulpHalf c.w) x (vCos c L o fm x) := by
  have h : W c.w := fltW hc.ety hf
  constructor
  · refine each_imp (vSin_elt hc hf L o fm x) fun a r hr ha hA1 hA => ?_
    obtain ⟨a1, a2, a3, a4⟩ := abB_facts h ha
    obtain ⟨⟨b1, b2⟩, -⟩ := sincos_far hc hf fm h64 hk ha hA1 hA a.msb
    rw [sin_reduced hc hf L o fm hr ha (small_lim h64 hA)]
    refine ⟨b1, ?_⟩
    have : Real.sin (rv a) = Fp.sg a.msb * Real.sin (rv (abB a)) := by
      rw [a4]; cases a.msb <;> simp [Fp.sg]
    rw [this, mul_comm (1.002 * |rv a|)]; exact b2
  · refine each_imp (vCos_elt hc hf L o fm x) fun a r hr ha hA1 hA => ?_
    obtain ⟨a1, a2, a3, a4⟩ := abB_facts h ha
    obtain ⟨-, b1, b2⟩ := sincos_far hc hf fm h64 hk ha hA1 hA false
    have e : r = cosLane (cvttLaneIF c.s c.v) (cvtLaneIF c.s c.T c.v) fm (abB a) := by
      rw [hr]; unfold cosF; dsimp only; rw [if_neg (by rw [not_over h o (small_lim h64 hA)]; simp), finLane_fin h o ha]
    rw [e]
    refine ⟨b1, ?_⟩
    have : Real.cos (rv a) = Real.cos (rv (abB a)) := by
      rw [a4]; cases a.msb <;> simp [Fp.sg]
    rw [this, mul_comm (1.002 * |rv a|)]; exact b2
end C56

/-! ### example -/
/-- 4 x double on AVX2 -/
def exFma : Cfg := ⟨⟨true, true, true, true, true, false, false, false⟩, .f64, 4, .v256⟩
theorem exFma_ok : exFma.Ok := ⟨by decide, by decide, by decide, by decide, by decide⟩
/-- `sin(10^12)` -/
example (L : Libm) : ∃ r, vSin exFma L ⟨true, true⟩ true (vbroadcast exFma (BitVec.ofNat exFma.w 0x426d1a94a2000000) (zeroData exFma)) = .ok r ∧
    ∀ i, i < 4 → |rv (elt exFma r i) - Real.sin (10 ^ 12)| ≤ 1 / 10 ^ 15 := by
  have e : isFinite (BitVec.ofNat 64 0x426d1a94a2000000) = true ∧ val (BitVec.ofNat 64 0x426d1a94a2000000) = 10 ^ 12 * 2 ^ 1074 := by decide +kernel
  have e2 : rv (BitVec.ofNat exFma.w 0x426d1a94a2000000) = 10 ^ 12 := by
    have := rv_of_val e.2 (b := 0) rfl
    norm_num at this ⊢; exact this
  obtain ⟨r, hr, h⟩ := each_bcast exFma_ok _ (C56_double_fma exFma_ok rfl L ⟨true, true⟩
    (vbroadcast exFma (BitVec.ofNat exFma.w 0x426d1a94a2000000) (zeroData exFma)) rfl (Or.inr (Or.inr (Or.inr ⟨rfl, rfl⟩)))).1
  refine ⟨r, hr, fun i hi => ?_⟩
  have := (h i hi e.1 (by rw [e2, abs_of_nonneg (by positivity)]; norm_num)).2
  rw [e2] at this
  refine le_trans this ?_
  unfold fmaK
  rw [if_neg (by decide), show ulpHalf exFma.w = 1 / 2 ^ 53 from rfl]; norm_num
/-- `cos(10^12)` without FMA: four digits -/
example (L : Libm) : ∃ r, vCos exFma L ⟨true, true⟩ false (vbroadcast exFma (BitVec.ofNat exFma.w 0x426d1a94a2000000) (zeroData exFma)) = .ok r ∧
    ∀ i, i < 4 → |rv (elt exFma r i) - Real.cos (10 ^ 12)| ≤ 1 / 8000 := by
  have e : isFinite (BitVec.ofNat 64 0x426d1a94a2000000) = true ∧ val (BitVec.ofNat 64 0x426d1a94a2000000) = 10 ^ 12 * 2 ^ 1074 := by decide +kernel
  have e2 : rv (BitVec.ofNat exFma.w 0x426d1a94a2000000) = 10 ^ 12 := by
    have := rv_of_val e.2 (b := 0) rfl
    norm_num at this ⊢; exact this
  obtain ⟨r, hr, h⟩ := each_bcast exFma_ok _ (C56_double_far exFma_ok rfl L ⟨true, true⟩ false
    (vbroadcast exFma (BitVec.ofNat exFma.w 0x426d1a94a2000000) (zeroData exFma)) rfl (Or.inr (Or.inr (Or.inr ⟨rfl, rfl⟩)))).2
  refine ⟨r, hr, fun i hi => ?_⟩
  have e3 : |rv (BitVec.ofNat exFma.w 0x426d1a94a2000000)| = 10 ^ 12 := by rw [e2]; exact abs_of_nonneg (by positivity)
  have := (h i hi e.1 (by rw [e3]; norm_num) (by rw [e3]; norm_num)).2
  rw [e2] at this
  refine le_trans this ?_
  rw [abs_of_nonneg (by positivity), show ulpHalf exFma.w = 1 / 2 ^ 53 from rfl]; norm_num
end Dpm.X86
