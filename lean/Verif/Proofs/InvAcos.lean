import Verif.Proofs.InvMain
/-! Accuracy of `acos` and `atan` on one lane. -/
namespace Dpm.X86
open Dpm.Reg Dpm.Fp Dpm.Poly

/-- the root of a number with a relative error of one unit -/
theorem sqrt_acc {w : Nat} (h : W w) {y : BitVec w} {Y : ℝ} (fy : isFinite y = true) (hY : 0 ≤ Y) (hy : |rv y - Y| ≤ ulpHalf w * Y) :
    isFinite (fsqrt y) = true ∧ |rv (fsqrt y) - Real.sqrt Y| ≤ ulpHalf w * (1.51 * Real.sqrt Y) := by
  have hu := ulp_pos w
  have hu1 : ulpHalf w ≤ 1 / 10 ^ 7 := le_trans (ulp_le h) (by norm_num)
  have huY : ulpHalf w * Y ≤ 1 / 10 ^ 7 * Y := mul_le_mul_of_nonneg_right hu1 hY
  have h1 := abs_le.1 hy
  have h0 : 0 ≤ rv y := by norm_num at *; linarith
  have e2 := sqrt_rel hY (e := ulpHalf w / 2) (by positivity) (by norm_num at *; linarith) (by rw [show 2 * (ulpHalf w / 2) * Y = ulpHalf w * Y by ring]; exact hy)
  obtain ⟨f, e3⟩ := fsqrt_e0 h fy h0
  refine ⟨f, le_trans (abs_sub_tri e3 e2) ?_⟩
  have hq := Real.sqrt_nonneg Y
  generalize Real.sqrt Y = q at *
  have hc : ulpHalf w / 2 + (ulpHalf w / 2) ^ 2 ≤ 0.501 * ulpHalf w := by
    have : ulpHalf w * ulpHalf w ≤ 1 / 10 ^ 7 * ulpHalf w := mul_le_mul_of_nonneg_right hu1 hu.le
    have e : (ulpHalf w / 2) ^ 2 = 1 / 4 * (ulpHalf w * ulpHalf w) := by ring
    rw [e]; norm_num at *; linarith
  have k2 : (ulpHalf w / 2 + (ulpHalf w / 2) ^ 2) * q ≤ 0.501 * ulpHalf w * q := mul_le_mul_of_nonneg_right hc hq
  have k3 : Real.sqrt (rv y) ≤ q + 0.501 * ulpHalf w * q := by have := (abs_le.1 e2).2; linarith
  have k4 : 0.501 * ulpHalf w * q ≤ 0.501 * (1 / 10 ^ 7) * q := mul_le_mul_of_nonneg_right (by linarith) hq
  have k5 : ulpHalf w * Real.sqrt (rv y) ≤ ulpHalf w * (q + 0.501 * (1 / 10 ^ 7) * q) := mul_le_mul_of_nonneg_left (by linarith) hu.le
  have k6 : 0 ≤ ulpHalf w * q := by positivity
  have e5 : ulpHalf w * (q + 0.501 * (1 / 10 ^ 7) * q) = (1 + 0.501 / 10 ^ 7) * (ulpHalf w * q) := by ring
  have e6 : 0.501 * ulpHalf w * q = 0.501 * (ulpHalf w * q) := by ring
  have e7 : ulpHalf w * (1.51 * q) = 1.51 * (ulpHalf w * q) := by ring
  rw [e5] at k5; rw [e6] at k2; rw [e7]
  generalize ulpHalf w * q = y at *
  norm_num at *; linarith
theorem acos_hi_real {u τ s s0 a A0 r : ℝ} (hu : 0 < u) (hu1 : u ≤ 1 / 10 ^ 7) (hτ : 0 < τ) (s00 : 0 ≤ s0) (hA : s0 ≤ A0) (hs : |s - s0| ≤ u * (1.51 * s0))
    (ha : |a - Real.arcsin s| ≤ 5.7 * u * s + 5 * τ) (hl : |Real.arcsin s - A0| ≤ 1.2 * |s - s0|) (hr : |r - 2 * a| ≤ u * |2 * a| + τ) : |r - 2 * A0| ≤ 9 * u * (2 * A0) + 12 * τ := by
  have us : u * (1.51 * s0) ≤ 1 / 10 ^ 7 * (1.51 * s0) := mul_le_mul_of_nonneg_right hu1 (by positivity)
  have h1 := abs_le.1 hs
  have k1 : u * s ≤ u * (1.001 * s0) := mul_le_mul_of_nonneg_left (by norm_num at *; linarith) hu.le
  have k0 : u * s0 ≤ u * A0 := mul_le_mul_of_nonneg_left hA hu.le
  have e1 : |a - A0| ≤ 7.52 * (u * A0) + 5 * τ := by
    refine le_trans (abs_sub_tri ha hl) ?_
    have h9 : 1.2 * |s - s0| ≤ 1.2 * (u * (1.51 * s0)) := mul_le_mul_of_nonneg_left hs (by norm_num)
    have e : u * (1.51 * s0) = 1.51 * (u * s0) := by ring
    have e' : 5.7 * u * s = 5.7 * (u * s) := by ring
    have e'' : u * (1.001 * s0) = 1.001 * (u * s0) := by ring
    have : 0 ≤ u * s0 := by positivity
    rw [e']; rw [e] at h9; rw [e''] at k1
    clear e e' e'' us hs h1 hl ha hr
    generalize |s - s0| = z at *
    generalize u * s0 = q at *
    norm_num at *; linarith
  have hA0 : 0 ≤ A0 := le_trans s00 hA
  have uA : u * A0 ≤ 1 / 10 ^ 7 * A0 := mul_le_mul_of_nonneg_right hu1 hA0
  have e2 : |2 * a - 2 * A0| ≤ 15.04 * (u * A0) + 10 * τ := by rw [← mul_sub, abs_mul, abs_two]; norm_num at *; linarith
  have e3 : |2 * a| ≤ 2.001 * A0 + 10 * τ := by
    have := abs_le_of_sub e2 (show |2 * A0| ≤ 2 * A0 by rw [abs_of_nonneg (by linarith)])
    norm_num at *; linarith
  have e4 : u * |2 * a| ≤ u * (2.001 * A0 + 10 * τ) := mul_le_mul_of_nonneg_left e3 hu.le
  have e5 : u * (2.001 * A0 + 10 * τ) = 2.001 * (u * A0) + 10 * (u * τ) := by ring
  have e6 : u * τ ≤ 1 / 10 ^ 7 * τ := mul_le_mul_of_nonneg_right hu1 hτ.le
  have e7 : 9 * u * (2 * A0) = 18 * (u * A0) := by ring
  have e8 : 0 ≤ u * A0 := by positivity
  refine le_trans (abs_sub_tri hr e2) ?_
  rw [e7]; rw [e5] at e4
  generalize u * A0 = q at *
  generalize u * τ = q2 at *
  generalize |2 * a| = q3 at *
  norm_num at *; linarith
theorem acos_lo_real {u v S p4 off y1 y2 y3 H : ℝ} (hu : 0 < u) (hu1 : u ≤ 1 / 10 ^ 7) (q1 : 785 / 1000 ≤ p4) (q2 : p4 ≤ 786 / 1000) (o1 : 0 ≤ off) (o2 : off ≤ 0.6 * u)
    (hc : |2 * p4 + off - H| ≤ 0.74 * u) (hH : 1.57 ≤ H) (hv : |v - S| ≤ 8.2 * u) (hv2 : 0 ≤ S → |v - S| ≤ 3 * u) (hS : S ≤ 0.53) (hS0 : -H ≤ S)
    (h1 : |y1 - (p4 - v)| ≤ u * |p4 - v|) (h2 : |y2 - (y1 + off)| ≤ u * |y1 + off|) (h3 : |y3 - (y2 + p4)| ≤ u * |y2 + p4|) : |y3 - (H - S)| ≤ 9 * u * (H - S) := by
  have c0 := abs_le.1 hv
  have c5 := abs_le.1 hc
  have hH1 : H ≤ 1.573 := by norm_num at *; linarith
  have main : ∀ e d : ℝ, |v - S| ≤ e * u → e ≤ 8.2 → |p4 - v| ≤ d → d ≤ 2.4 → |y3 - (H - S)| ≤ u * (e + 0.74 + 2 * d + (H - S) + 0.01) := by
    intro e d he he1 hd hd1
    have hd0 : 0 ≤ d := le_trans (abs_nonneg _) hd
    have h1' := le_trans h1 (mul_le_mul_of_nonneg_left hd hu.le)
    have c1 := abs_le.1 h1'
    have ud : u * d ≤ 1 / 10 ^ 7 * 2.4 := mul_le_mul hu1 hd1 hd0 (by norm_num)
    have cd := abs_le.1 hd
    have b2 : |y1 + off| ≤ d + 0.001 := abs_le.2 ⟨by norm_num at *; linarith, by norm_num at *; linarith⟩
    have h2' := le_trans h2 (mul_le_mul_of_nonneg_left b2 hu.le)
    have e2 : u * (d + 0.001) = u * d + 0.001 * u := by ring
    rw [e2] at h2'
    have c2 := abs_le.1 h2'
    have ce := abs_le.1 he
    have eu : e * u ≤ 8.2 * u := mul_le_mul_of_nonneg_right he1 hu.le
    have b3 : |y2 + p4| ≤ (H - S) + 0.001 := abs_le.2 ⟨by norm_num at *; linarith, by norm_num at *; linarith⟩
    have h3' := le_trans h3 (mul_le_mul_of_nonneg_left b3 hu.le)
    have c3 := abs_le.1 h3'
    have e3 : u * ((H - S) + 0.001) = u * (H - S) + 0.001 * u := by ring
    have e4 : u * (e + 0.74 + 2 * d + (H - S) + 0.01) = e * u + 0.75 * u + 2 * (u * d) + u * (H - S) := by ring
    rw [e3] at c3
    rw [e4, abs_le]
    generalize u * d = ud' at *
    generalize u * (H - S) = uh at *
    generalize e * u = eu' at *
    constructor <;> norm_num at * <;> linarith
  rcases le_total 0 S with h0 | h0
  · have := hv2 h0
    have c1 := abs_le.1 this
    refine le_trans (main 3 0.787 this (by norm_num) (abs_le.2 ⟨by norm_num at *; linarith, by norm_num at *; linarith⟩) (by norm_num)) ?_
    rw [show 9 * u * (H - S) = u * (9 * (H - S)) by ring]
    exact mul_le_mul_of_nonneg_left (by norm_num at *; linarith) hu.le
  · refine le_trans (main 8.2 ((H - S) - 0.78) hv (le_refl _) (abs_le.2 ⟨by norm_num at *; linarith, by norm_num at *; linarith⟩) (by norm_num at *; linarith)) ?_
    rw [show 9 * u * (H - S) = u * (9 * (H - S)) by ring]
    exact mul_le_mul_of_nonneg_left (by norm_num at *; linarith) hu.le
theorem sin_053 : (1 : ℝ) / 2 ≤ Real.sin 0.53 := by
  have := Real.sin_bound (x := 0.53) (by rw [abs_of_nonneg] <;> norm_num)
  rw [abs_of_nonneg (show (0:ℝ) ≤ 0.53 by norm_num)] at this
  have := (abs_le.1 this).1
  norm_num at *; linarith
theorem pi_half_bd : (1.57 : ℝ) ≤ Real.pi / 2 ∧ Real.pi / 2 ≤ 1.571 := by
  obtain ⟨p1, p2⟩ := quarter_pi
  constructor <;> norm_num at * <;> linarith
theorem acosF_acc {w : Nat} (h : W w) (o : MathOpt) (fm : Bool) {x : BitVec w} (fx : isFinite x = true) (hx : |rv x| ≤ 1) :
    isFinite (acosF o fm x) = true ∧ |rv (acosF o fm x) - Real.arccos (rv x)| ≤ 9 * ulpHalf w * Real.arccos (rv x) + 12 * tiny w := by
  have hu := ulp_pos w
  have hu1 : ulpHalf w ≤ 1 / 10 ^ 7 := le_trans (ulp_le h) (by norm_num)
  have ht := tiny_pos w
  have ht2 := tiny_ulp h
  have hb : (2 : ℝ) ^ 20 ≤ 2 ^ bias w := pow_le_pow_right₀ (by norm_num) (by rcases h with h | h <;> subst h <;> decide)
  obtain ⟨fa, -, ra, rs⟩ := abB_facts h fx
  obtain ⟨⟨f1, r1⟩, -, ⟨f2, r2⟩, -, -⟩ := inv_consts h
  have hxb := abs_le.1 hx
  unfold acosF
  dsimp only
  rw [unitLane_id h o fa (by rw [ra]; exact hx)]
  by_cases hc : fLt (halfBits w) x = true
  · rw [if_pos hc]
    rw [fLt_rv h f1 fx, r1] at hc
    have hab : rv (abB x) = rv x := by rw [ra, abs_of_pos (by linarith)]
    obtain ⟨fy, ey⟩ := half_acc h fm fa (by rw [hab]; exact hc.le) (by rw [hab]; exact hxb.2)
    rw [hab] at ey
    have hY : 0 ≤ (1 - rv x) / 2 := by linarith [hxb.2]
    obtain ⟨fs, es⟩ := sqrt_acc h fy hY ey
    generalize fsqrt (fmaL fm (abB x) (mhalfBits w) (halfBits w)) = s at *
    have hs0 := Real.sqrt_nonneg ((1 - rv x) / 2)
    have hs1 : Real.sqrt ((1 - rv x) / 2) ≤ 1 / 2 := by
      rw [show (1 / 2 : ℝ) = Real.sqrt ((1 / 2) ^ 2) by rw [Real.sqrt_sq (by norm_num)]]
      exact Real.sqrt_le_sqrt (by norm_num; linarith)
    rw [arccos_half hxb.1 hxb.2]
    generalize Real.sqrt ((1 - rv x) / 2) = s0 at *
    have us : ulpHalf w * (1.51 * s0) ≤ 1 / 10 ^ 7 * (1.51 * s0) := mul_le_mul_of_nonneg_right hu1 (by positivity)
    have sb := abs_le.1 es
    have sn : 0 ≤ rv s := by norm_num at *; linarith
    have s51 : rv s ≤ 0.51 := by norm_num at *; linarith
    obtain ⟨g1, -, g2, -⟩ := asinAbs_rel h fm fs sn (le_trans s51 (by norm_num))
    replace g2 := g2 (le_trans s51 (by norm_num))
    have gl := arcsin_lip sn hs0 s51 (by norm_num at *; linarith)
    have gA := le_arcsin hs0 (by linarith)
    generalize asinAbs fm s = a at *
    have ab : |rv (twoBits w) * rv a| ≤ 2 ^ bias w := by
      have a1 : Real.arcsin (rv s) ≤ Real.pi / 2 := Real.arcsin_le_pi_div_two _
      have a2 : 0 ≤ Real.arcsin (rv s) := Real.arcsin_nonneg.2 sn
      have a3 : 5.7 * ulpHalf w * rv s ≤ 5.7 * (1 / 10 ^ 7) * 1 := mul_le_mul (by linarith) (le_trans s51 (by norm_num)) sn (by norm_num)
      have a4 := abs_le.1 g2
      have a5 := pi_half_bd.2
      have a6 : |rv (twoBits w) * rv a| ≤ 2 ^ 20 := by
        clear us sb es ey gl hb g2
        generalize Real.arcsin (rv s) = q at *
        rw [r2, abs_le]; constructor <;> norm_num at * <;> linarith
      exact le_trans a6 hb
    obtain ⟨m1, m2⟩ := fmul_e h f2 g1 ab
    rw [r2] at m2
    exact ⟨m1, acos_hi_real hu hu1 ht hs0 gA es g2 gl m2⟩
  · rw [if_neg hc]
    rw [fLt_rv h f1 fx, r1, not_lt] at hc
    obtain ⟨f, -, e2, e3⟩ := asinAbs_rel h fm fa (by rw [ra]; exact abs_nonneg _) (by rw [ra]; exact hx)
    rw [sgB_sb h]
    obtain ⟨fv, rv'⟩ := flip_rv h f x.msb
    have hsa : Real.arcsin (rv x) = Fp.sg x.msb * Real.arcsin (rv (abB x)) := by rw [← arcsin_sg, ← rs]
    have hv : |rv (asinAbs fm (abB x) ^^^ sb w x.msb) - Real.arcsin (rv x)| ≤ 8.2 * ulpHalf w := by rw [hsa, rv', sg_err]; exact e3
    have hv2 : 0 ≤ Real.arcsin (rv x) → |rv (asinAbs fm (abB x) ^^^ sb w x.msb) - Real.arcsin (rv x)| ≤ 3 * ulpHalf w := by
      intro h0
      have hx0 := Real.arcsin_nonneg.1 h0
      have hax : rv (abB x) ≤ 1 / 2 := by rw [ra, abs_of_nonneg hx0]; exact hc
      have := e2 (by linarith)
      rw [hsa, rv', sg_err]
      refine le_trans this ?_
      have : 5.7 * ulpHalf w * rv (abB x) ≤ 5.7 * ulpHalf w * (1 / 2) := mul_le_mul_of_nonneg_left hax (by positivity)
      norm_num at *; linarith
    generalize asinAbs fm (abB x) ^^^ sb w x.msb = v at *
    obtain ⟨g1, _, _, g4, g5, _⟩ := pio4_consts h
    obtain ⟨o1, o2, o3, o4⟩ := asinOff_consts h
    obtain ⟨P1, P2⟩ := pi_half_bd
    have hS : Real.arcsin (rv x) ≤ 0.53 := by
      rw [Real.arcsin_le_iff_le_sin' ⟨by norm_num; linarith, by norm_num at *; linarith⟩]
      exact le_trans hc sin_053
    have hS0 : -(Real.pi / 2) ≤ Real.arcsin (rv x) := Real.neg_pi_div_two_le_arcsin _
    rw [Real.arccos_eq_pi_div_two_sub_arcsin]
    generalize Real.arcsin (rv x) = S at *
    have vb := abs_le.1 hv
    have y1a : |rv (pio4 w) - rv v| ≤ 2.4 := abs_le.2 ⟨by norm_num at *; linarith, by norm_num at *; linarith⟩
    obtain ⟨m1, k1, y1b⟩ := sub_bd_e h g1 fv y1a (by norm_num)
    generalize fsub (pio4 w) v = y1 at *
    have y1c := abs_le.1 y1b
    have y2a : |rv y1 + rv (asinOff w)| ≤ 2.5 := abs_le.2 ⟨by norm_num at *; linarith, by norm_num at *; linarith⟩
    obtain ⟨m2, k2, y2b⟩ := add_bd_e h m1 o1 y2a (by norm_num)
    generalize fadd y1 (asinOff w) = y2 at *
    have y2c := abs_le.1 y2b
    have y3a : |rv y2 + rv (pio4 w)| ≤ 3.5 := abs_le.2 ⟨by norm_num at *; linarith, by norm_num at *; linarith⟩
    obtain ⟨m3, k3, -⟩ := add_bd_e h m2 g1 y3a (by norm_num)
    refine ⟨m3, le_trans (acos_lo_real hu hu1 g4 g5 o2 o3 o4 P1 hv hv2 hS hS0 k1 k2 k3) (by linarith)⟩
end Dpm.X86
