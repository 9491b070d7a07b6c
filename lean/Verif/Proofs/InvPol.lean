import Verif.Proofs.InvAcc
/-! Rounding errors of the four polynomials of `eval_asin`. -/
namespace Dpm.X86
open Dpm.Reg Dpm.Fp Dpm.Poly

theorem asinP_acc {w : Nat} (h : W w) (fm : Bool) {z : BitVec w} {t : ℝ} (fz : isFinite z = true) (t0 : 0 ≤ t) (t1 : t ≤ 0.39063) (hz : |rv z - t| ≤ ulpHalf w * 0.3907) :
    isFinite (polL fm z (asinP w)) = true ∧ |rv (polL fm z (asinP w)) - -(evalP (asinPI w) t / 2 ^ (if w = 64 then 60 else 28))| ≤ ulpHalf w * 39.7295 := by
  obtain ⟨c0, c1, c2, c3, c4, c5, e, ⟨f0, l0, r0⟩, ⟨f1, l1, r1⟩, ⟨f2, l2, r2⟩, ⟨f3, l3, r3⟩, ⟨f4, l4, r4⟩, ⟨f5, l5, r5⟩, hp⟩ := asinP_co h
  rw [hp, neg_div, neg_neg, mul_div_cancel_left₀ _ (pow_if_pos w 60 28).ne', e, polL6']
  have ht' : |t| ≤ 0.3907 - 1 / 10 ^ 6 := abs_iv t0 t1 (by norm_num) (by norm_num)
  have a0 : |rv c0| ≤ 0.004254 := abs_iv l0 r0 (by norm_num) (by norm_num)
  have a1 : |rv c1| ≤ 0.602 := abs_iv l1 r1 (by norm_num) (by norm_num)
  have a2 : |rv c2| ≤ 5.445 := abs_iv l2 r2 (by norm_num) (by norm_num)
  have a3 : |rv c3| ≤ 16.27 := abs_iv l3 r3 (by norm_num) (by norm_num)
  have a4 : |rv c4| ≤ 19.57 := abs_iv l4 r4 (by norm_num) (by norm_num)
  have a5 : |rv c5| ≤ 8.199 := abs_iv l5 r5 (by norm_num) (by norm_num)
  have s0 : 0 ≤ rv c0 ∧ rv c0 ≤ 0.004254 := ⟨by linarith, by norm_num at *; linarith⟩
  have s1 := alt_pos (c := rv c1) (M := 0.004254) (C := 0.602) s0.1 s0.2 t0 t1 (by norm_num at *; linarith) (by norm_num at *; linarith)
  have b1 : |(rv c0 * t + rv c1)| ≤ 0.602 := abs_iv s1.1 s1.2 (by norm_num) (by norm_num)
  have s2 := alt_neg (c := rv c2) (M := 0.602) (C := 5.445) s1.1 s1.2 t0 t1 (by norm_num at *; linarith) (by norm_num at *; linarith)
  have b2 : |((rv c0 * t + rv c1) * t + rv c2)| ≤ 5.445 := abs_iv s2.1 s2.2 (by norm_num) (by norm_num)
  have s3 := alt_pos (c := rv c3) (M := 5.445) (C := 16.27) s2.1 s2.2 t0 t1 (by norm_num at *; linarith) (by norm_num at *; linarith)
  have b3 : |(((rv c0 * t + rv c1) * t + rv c2) * t + rv c3)| ≤ 16.27 := abs_iv s3.1 s3.2 (by norm_num) (by norm_num)
  have s4 := alt_neg (c := rv c4) (M := 16.27) (C := 19.57) s3.1 s3.2 t0 t1 (by norm_num at *; linarith) (by norm_num at *; linarith)
  have b4 : |((((rv c0 * t + rv c1) * t + rv c2) * t + rv c3) * t + rv c4)| ≤ 19.57 := abs_iv s4.1 s4.2 (by norm_num) (by norm_num)
  have s5 := alt_pos (c := rv c5) (M := 19.57) (C := 8.199) s4.1 s4.2 t0 t1 (by norm_num at *; linarith) (by norm_num at *; linarith)
  have b5 : |((((rv c0 * t + rv c1) * t + rv c2) * t + rv c3) * t + rv c4) * t + rv c5| ≤ 8.199 := abs_iv s5.1 s5.2 (by norm_num) (by norm_num)
  obtain ⟨g1, e1⟩ := hstep h fm (e' := 0.6067) f0 fz f1 (hstart c0) a0 hz ht' (by norm_num) (le_trans a1 (by norm_num)) b1 (by norm_num) (by norm_num) (by norm_num)
  obtain ⟨g2, e2⟩ := hstep h fm (e' := 6.1655) g1 fz f2 e1 b1 hz ht' (by norm_num) (le_trans a2 (by norm_num)) b2 (by norm_num) (by norm_num) (by norm_num)
  obtain ⟨g3, e3⟩ := hstep h fm (e' := 22.9819) g2 fz f3 e2 b2 hz ht' (by norm_num) (le_trans a3 (by norm_num)) b3 (by norm_num) (by norm_num) (by norm_num)
  obtain ⟨g4, e4⟩ := hstep h fm (e' := 41.3492) g3 fz f4 e3 b3 hz ht' (by norm_num) (le_trans a4 (by norm_num)) b4 (by norm_num) (by norm_num) (by norm_num)
  exact hstep h fm (e' := 39.7295) g4 fz f5 e4 b4 hz ht' (by norm_num) (le_trans a5 (by norm_num)) b5 (by norm_num) (by norm_num) (by norm_num)
theorem asinQ_acc {w : Nat} (h : W w) (fm : Bool) {z : BitVec w} {t : ℝ} (fz : isFinite z = true) (t0 : 0 ≤ t) (t1 : t ≤ 0.39063) (hz : |rv z - t| ≤ ulpHalf w * 0.3907) :
    isFinite (polL fm z (asinQ w)) = true ∧ |rv (polL fm z (asinQ w)) - -(evalP (asinQI w) t / 2 ^ (if w = 64 then 60 else 28))| ≤ ulpHalf w * 294.8777 := by
  obtain ⟨c0, c1, c2, c3, c4, c5, e, ⟨f0, l0, r0⟩, ⟨f1, l1, r1⟩, ⟨f2, l2, r2⟩, ⟨f3, l3, r3⟩, ⟨f4, l4, r4⟩, ⟨f5, l5, r5⟩, hp⟩ := asinQ_co h
  rw [hp, neg_div, neg_neg, mul_div_cancel_left₀ _ (pow_if_pos w 60 28).ne', e, polL6']
  have ht' : |t| ≤ 0.3907 - 1 / 10 ^ 6 := abs_iv t0 t1 (by norm_num) (by norm_num)
  have a0 : |rv c0| ≤ 1.0 := abs_iv l0 r0 (by norm_num) (by norm_num)
  have a1 : |rv c1| ≤ 14.75 := abs_iv l1 r1 (by norm_num) (by norm_num)
  have a2 : |rv c2| ≤ 70.5 := abs_iv l2 r2 (by norm_num) (by norm_num)
  have a3 : |rv c3| ≤ 147.2 := abs_iv l3 r3 (by norm_num) (by norm_num)
  have a4 : |rv c4| ≤ 139.6 := abs_iv l4 r4 (by norm_num) (by norm_num)
  have a5 : |rv c5| ≤ 49.19 := abs_iv l5 r5 (by norm_num) (by norm_num)
  have s0 : 0 ≤ rv c0 ∧ rv c0 ≤ 1.0 := ⟨by linarith, by norm_num at *; linarith⟩
  have s1 := alt_pos (c := rv c1) (M := 1.0) (C := 14.75) s0.1 s0.2 t0 t1 (by norm_num at *; linarith) (by norm_num at *; linarith)
  have b1 : |(rv c0 * t + rv c1)| ≤ 14.75 := abs_iv s1.1 s1.2 (by norm_num) (by norm_num)
  have s2 := alt_neg (c := rv c2) (M := 14.75) (C := 70.5) s1.1 s1.2 t0 t1 (by norm_num at *; linarith) (by norm_num at *; linarith)
  have b2 : |((rv c0 * t + rv c1) * t + rv c2)| ≤ 70.5 := abs_iv s2.1 s2.2 (by norm_num) (by norm_num)
  have s3 := alt_pos (c := rv c3) (M := 70.5) (C := 147.2) s2.1 s2.2 t0 t1 (by norm_num at *; linarith) (by norm_num at *; linarith)
  have b3 : |(((rv c0 * t + rv c1) * t + rv c2) * t + rv c3)| ≤ 147.2 := abs_iv s3.1 s3.2 (by norm_num) (by norm_num)
  have s4 := alt_neg (c := rv c4) (M := 147.2) (C := 139.6) s3.1 s3.2 t0 t1 (by norm_num at *; linarith) (by norm_num at *; linarith)
  have b4 : |((((rv c0 * t + rv c1) * t + rv c2) * t + rv c3) * t + rv c4)| ≤ 139.6 := abs_iv s4.1 s4.2 (by norm_num) (by norm_num)
  have b5 : |((((rv c0 * t + rv c1) * t + rv c2) * t + rv c3) * t + rv c4) * t + rv c5| ≤ 49.19 := by
    have k1 := mul_nonneg s4.1 t0
    have k2 := mul_le_mul s4.2 t1 t0 (by norm_num)
    exact abs_le.2 ⟨by norm_num at *; linarith, by norm_num at *; linarith⟩
  obtain ⟨g1, e1⟩ := hstep h fm (e' := 15.5641) f0 fz f1 (hstart c0) a0 hz ht' (by norm_num) (le_trans a1 (by norm_num)) b1 (by norm_num) (by norm_num) (by norm_num)
  obtain ⟨g2, e2⟩ := hstep h fm (e' := 88.2917) g1 fz f2 e1 b1 hz ht' (by norm_num) (le_trans a2 (by norm_num)) b2 (by norm_num) (by norm_num) (by norm_num)
  obtain ⟨g3, e3⟩ := hstep h fm (e' := 237.2817) g2 fz f3 e2 b2 hz ht' (by norm_num) (le_trans a3 (by norm_num)) b3 (by norm_num) (by norm_num) (by norm_num)
  obtain ⟨g4, e4⟩ := hstep h fm (e' := 348.0576) g3 fz f4 e3 b3 hz ht' (by norm_num) (le_trans a4 (by norm_num)) b4 (by norm_num) (by norm_num) (by norm_num)
  exact hstep h fm (e' := 294.8777) g4 fz f5 e4 b4 hz ht' (by norm_num) (le_trans a5 (by norm_num)) b5 (by norm_num) (by norm_num) (by norm_num)
theorem asinR_acc {w : Nat} (h : W w) (fm : Bool) {z : BitVec w} {t : ℝ} (fz : isFinite z = true) (t0 : 0 ≤ t) (t1 : t ≤ 0.37501) (hz : |rv z - t| ≤ ulpHalf w * 0.3751) :
    isFinite (polL fm z (asinR w)) = true ∧ |rv (polL fm z (asinR w)) - evalP (asinRI w) t / 2 ^ (if w = 64 then 58 else 32)| ≤ ulpHalf w * 60.5007 := by
  obtain ⟨c0, c1, c2, c3, c4, e, ⟨f0, l0, r0⟩, ⟨f1, l1, r1⟩, ⟨f2, l2, r2⟩, ⟨f3, l3, r3⟩, ⟨f4, l4, r4⟩, hp⟩ := asinR_co h
  rw [hp, mul_div_cancel_left₀ _ (pow_if_pos w 58 32).ne', e, polL5]
  have ht' : |t| ≤ 0.3751 - 1 / 10 ^ 6 := abs_iv t0 t1 (by norm_num) (by norm_num)
  have a0 : |rv c0| ≤ 0.002968 := abs_iv l0 r0 (by norm_num) (by norm_num)
  have a1 : |rv c1| ≤ 0.5635 := abs_iv l1 r1 (by norm_num) (by norm_num)
  have a2 : |rv c2| ≤ 6.969 := abs_iv l2 r2 (by norm_num) (by norm_num)
  have a3 : |rv c3| ≤ 25.57 := abs_iv l3 r3 (by norm_num) (by norm_num)
  have a4 : |rv c4| ≤ 28.54 := abs_iv l4 r4 (by norm_num) (by norm_num)
  have s0 : 0 ≤ rv c0 ∧ rv c0 ≤ 0.002968 := ⟨by linarith, by norm_num at *; linarith⟩
  have s1 := alt_pos (c := rv c1) (M := 0.002968) (C := 0.5635) s0.1 s0.2 t0 t1 (by norm_num at *; linarith) (by norm_num at *; linarith)
  have b1 : |(rv c0 * t + rv c1)| ≤ 0.5635 := abs_iv s1.1 s1.2 (by norm_num) (by norm_num)
  have s2 := alt_neg (c := rv c2) (M := 0.5635) (C := 6.969) s1.1 s1.2 t0 t1 (by norm_num at *; linarith) (by norm_num at *; linarith)
  have b2 : |((rv c0 * t + rv c1) * t + rv c2)| ≤ 6.969 := abs_iv s2.1 s2.2 (by norm_num) (by norm_num)
  have s3 := alt_pos (c := rv c3) (M := 6.969) (C := 25.57) s2.1 s2.2 t0 t1 (by norm_num at *; linarith) (by norm_num at *; linarith)
  have b3 : |(((rv c0 * t + rv c1) * t + rv c2) * t + rv c3)| ≤ 25.57 := abs_iv s3.1 s3.2 (by norm_num) (by norm_num)
  have s4 := alt_neg (c := rv c4) (M := 25.57) (C := 28.54) s3.1 s3.2 t0 t1 (by norm_num at *; linarith) (by norm_num at *; linarith)
  have b4 : |(((rv c0 * t + rv c1) * t + rv c2) * t + rv c3) * t + rv c4| ≤ 28.54 := abs_iv s4.1 s4.2 (by norm_num) (by norm_num)
  obtain ⟨g1, e1⟩ := hstep h fm (e' := 0.567) f0 fz f1 (hstart c0) a0 hz ht' (by norm_num) (le_trans a1 (by norm_num)) b1 (by norm_num) (by norm_num) (by norm_num)
  obtain ⟨g2, e2⟩ := hstep h fm (e' := 7.6205) g1 fz f2 e1 b1 hz ht' (by norm_num) (le_trans a2 (by norm_num)) b2 (by norm_num) (by norm_num) (by norm_num)
  obtain ⟨g3, e3⟩ := hstep h fm (e' := 33.7274) g2 fz f3 e2 b2 hz ht' (by norm_num) (le_trans a3 (by norm_num)) b3 (by norm_num) (by norm_num) (by norm_num)
  exact hstep h fm (e' := 60.5007) g3 fz f4 e3 b3 hz ht' (by norm_num) (le_trans a4 (by norm_num)) b4 (by norm_num) (by norm_num) (by norm_num)
theorem asinS_acc {w : Nat} (h : W w) (fm : Bool) {z : BitVec w} {t : ℝ} (fz : isFinite z = true) (t0 : 0 ≤ t) (t1 : t ≤ 0.37501) (hz : |rv z - t| ≤ ulpHalf w * 0.3751) :
    isFinite (polL fm z (asinS w)) = true ∧ |rv (polL fm z (asinS w)) - evalP (asinSI w) t / 2 ^ (if w = 64 then 58 else 32)| ≤ ulpHalf w * 842.3678 := by
  obtain ⟨c0, c1, c2, c3, c4, e, ⟨f0, l0, r0⟩, ⟨f1, l1, r1⟩, ⟨f2, l2, r2⟩, ⟨f3, l3, r3⟩, ⟨f4, l4, r4⟩, hp⟩ := asinS_co h
  rw [hp, mul_div_cancel_left₀ _ (pow_if_pos w 58 32).ne', e, polL5]
  have ht' : |t| ≤ 0.3751 - 1 / 10 ^ 6 := abs_iv t0 t1 (by norm_num) (by norm_num)
  have a0 : |rv c0| ≤ 1.0 := abs_iv l0 r0 (by norm_num) (by norm_num)
  have a1 : |rv c1| ≤ 21.95 := abs_iv l1 r1 (by norm_num) (by norm_num)
  have a2 : |rv c2| ≤ 147.1 := abs_iv l2 r2 (by norm_num) (by norm_num)
  have a3 : |rv c3| ≤ 383.9 := abs_iv l3 r3 (by norm_num) (by norm_num)
  have a4 : |rv c4| ≤ 342.5 := abs_iv l4 r4 (by norm_num) (by norm_num)
  have s0 : 0 ≤ rv c0 ∧ rv c0 ≤ 1.0 := ⟨by linarith, by norm_num at *; linarith⟩
  have s1 := alt_pos (c := rv c1) (M := 1.0) (C := 21.95) s0.1 s0.2 t0 t1 (by norm_num at *; linarith) (by norm_num at *; linarith)
  have b1 : |(rv c0 * t + rv c1)| ≤ 21.95 := abs_iv s1.1 s1.2 (by norm_num) (by norm_num)
  have s2 := alt_neg (c := rv c2) (M := 21.95) (C := 147.1) s1.1 s1.2 t0 t1 (by norm_num at *; linarith) (by norm_num at *; linarith)
  have b2 : |((rv c0 * t + rv c1) * t + rv c2)| ≤ 147.1 := abs_iv s2.1 s2.2 (by norm_num) (by norm_num)
  have s3 := alt_pos (c := rv c3) (M := 147.1) (C := 383.9) s2.1 s2.2 t0 t1 (by norm_num at *; linarith) (by norm_num at *; linarith)
  have b3 : |(((rv c0 * t + rv c1) * t + rv c2) * t + rv c3)| ≤ 383.9 := abs_iv s3.1 s3.2 (by norm_num) (by norm_num)
  have s4 := alt_neg (c := rv c4) (M := 383.9) (C := 342.5) s3.1 s3.2 t0 t1 (by norm_num at *; linarith) (by norm_num at *; linarith)
  have b4 : |(((rv c0 * t + rv c1) * t + rv c2) * t + rv c3) * t + rv c4| ≤ 342.5 := abs_iv s4.1 s4.2 (by norm_num) (by norm_num)
  obtain ⟨g1, e1⟩ := hstep h fm (e' := 22.748) f0 fz f1 (hstart c0) a0 hz ht' (by norm_num) (le_trans a1 (by norm_num)) b1 (by norm_num) (by norm_num) (by norm_num)
  obtain ⟨g2, e2⟩ := hstep h fm (e' := 172.4612) g1 fz f2 e1 b1 hz ht' (by norm_num) (le_trans a2 (by norm_num)) b2 (by norm_num) (by norm_num) (by norm_num)
  obtain ⟨g3, e3⟩ := hstep h fm (e' := 560.1186) g2 fz f3 e2 b2 hz ht' (by norm_num) (le_trans a3 (by norm_num)) b3 (by norm_num) (by norm_num) (by norm_num)
  exact hstep h fm (e' := 842.3678) g3 fz f4 e3 b3 hz ht' (by norm_num) (le_trans a4 (by norm_num)) b4 (by norm_num) (by norm_num) (by norm_num)
end Dpm.X86
