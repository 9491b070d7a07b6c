import Verif.Proofs.Log2Cert
import Mathlib.Analysis.SpecialFunctions.Log.Base
/-! Accuracy of `eval_log2`. -/
namespace Dpm.X86
open Dpm.Reg Dpm.Fp

/-- a logarithm to base 2 -/
theorem logb_two {x : ℝ} : Real.logb 2 x = Real.log x / Real.log 2 := rfl
/-- turning a bound on natural logarithms into one on logarithms to base 2 -/
theorem div_log2 {a e : ℝ} (h : |a| ≤ e) : |a / Real.log 2| ≤ 1.4427 * e := by
  have l2 := Real.log_two_gt_d9
  have hp : 0 < Real.log 2 := by linarith
  have e0 : 0 ≤ e := le_trans (abs_nonneg _) h
  rw [abs_div, abs_of_pos hp, div_le_iff₀ hp]
  nlinarith
theorem log2_inv : |1 / Real.log 2 - 1.4426950408| ≤ 0.000000001 := by
  have l1 := Real.log_two_lt_d9
  have l2 := Real.log_two_gt_d9
  have hp : 0 < Real.log 2 := by linarith
  rw [abs_le]
  constructor
  · rw [neg_le_sub_iff_le_add, ← sub_le_iff_le_add, le_div_iff₀ hp]; nlinarith
  · rw [sub_le_iff_le_add, div_le_iff₀ hp]; nlinarith
set_option maxHeartbeats 1000000 in
theorem log2_assemble {u t K lc z inv r y0 p c3 q P res pe : ℝ} (hu : 0 < u) (hu1 : u ≤ 1 / 2 ^ 24) (ht0 : 0 ≤ t) (ht : t ≤ u / 2 ^ 20)
    (hz : 0 < z) (hinv : 0 < inv) (hzr : |z * inv - 1| ≤ 1 / 32)
    (hlc : |lc * Real.log 2 + Real.log inv| ≤ u * (15 / 16))
    (hr : |r - (z * inv - 1)| ≤ u * (9 / 8)) (hc3 : |c3| ≤ 1.4427)
    (hy0 : |y0 - (lc + K)| ≤ u * |lc + K|)
    (hp : |p - (c3 * r + y0)| ≤ u * (1 + u) * |c3 * r| + u * |c3 * r + y0| + 2 * t)
    (hq : |q - P| ≤ u / 16) (hq1 : |q| ≤ 1 / 1000) (hpe : 0 ≤ pe) (hP : |c3 * r + P - Real.log (1 + r) / Real.log 2| ≤ pe)
    (hres : |res - (q + p)| ≤ u * (1 + u) * |q| + u * |q + p| + 2 * t) :
    |res - (K + Real.log z / Real.log 2)| ≤ pe + u * (3.6 + 3.01 * |K + Real.log z / Real.log 2|) := by
  set L2 := Real.log 2 with hL2
  have hL2a : (0.6931 : ℝ) ≤ L2 := by have := Real.log_two_gt_d9; rw [hL2]; linarith
  have hL0 : L2 ≠ 0 := by linarith
  set Y := K + Real.log z / L2 with hY
  set a := |Y| with ha
  have ha0 : 0 ≤ a := abs_nonneg _
  obtain ⟨zr1, zr2⟩ := abs_le.1 hzr
  obtain ⟨r1, r2⟩ := abs_le.1 hr
  have hu2 : u ≤ 1 / 1000000 := le_trans hu1 (by norm_num)
  have hrb : |r| ≤ 1 / 31 := by rw [abs_le]; constructor <;> linarith
  have hlogr : |Real.log (1 + r) - Real.log (z * inv)| ≤ u * (38 / 32) := by
    have := log_lip (a := 1 + r) (b := z * inv) (m := 0.96) (by norm_num) (by linarith [(abs_le.1 hrb).1]) (by linarith)
    refine le_trans this ?_
    rw [show 1 + r - z * inv = r - (z * inv - 1) by ring, div_le_iff₀ (by norm_num)]
    linarith
  have hlogz : Real.log (z * inv) = Real.log z + Real.log inv := Real.log_mul hz.ne' hinv.ne'
  have hlzi : |Real.log (z * inv)| ≤ 0.033 := by
    have := log_lip (a := z * inv) (b := 1) (m := 0.96) (by norm_num) (by linarith) (by norm_num)
    rw [Real.log_one, sub_zero] at this
    refine le_trans this ?_
    rw [div_le_iff₀ (by norm_num)]; linarith
  have d1 := div_log2 hlogr
  have d2 := div_log2 hlzi
  have d3 := div_log2 hlc
  rw [← hL2] at d1 d2 d3
  have e0 : lc + K = Y - Real.log (z * inv) / L2 + (lc * L2 + Real.log inv) / L2 := by
    rw [hY, hlogz]; field_simp; ring
  have h4 := abs_le.1 (le_refl |Y|)
  rw [← ha] at h4
  have hS0 : |lc + K| ≤ a + 0.048 := by
    rw [e0]
    have h1 := abs_le.1 d2; have h2 := abs_le.1 d3
    rw [abs_le]; constructor <;> linarith [h1.1, h1.2, h2.1, h2.2, h4.1, h4.2]
  have hua : u * a ≤ a / 1000000 := by rw [mul_comm]; have := mul_le_mul_of_nonneg_left hu2 ha0; linarith
  have h9 : 0 ≤ u * a := by positivity
  have hy0' : |y0 - (lc + K)| ≤ u * (a + 0.048) := le_trans hy0 (mul_le_mul_of_nonneg_left hS0 hu.le)
  have hc3r : |c3 * r| ≤ 0.047 := le_trans (mul_bd hc3 hrb) (by norm_num)
  have hyr : |c3 * r + y0| ≤ 1.001 * a + 0.1 := by
    have h1 := abs_le.1 hy0'; have h2 := abs_le.1 hS0; have h3 := abs_le.1 hc3r
    rw [abs_le]; constructor <;> linarith [h1.1, h1.2, h2.1, h2.2, h3.1, h3.2]
  have hp' : |p - (c3 * r + y0)| ≤ u * (1.001 * a + 0.16) := by
    refine le_trans hp ?_
    have h1 : u * (1 + u) * |c3 * r| ≤ u * (1.001 * 0.047) := by
      rw [mul_assoc]
      refine mul_le_mul_of_nonneg_left ?_ hu.le
      exact mul_le_mul (by linarith) hc3r (abs_nonneg _) (by norm_num)
    have h2 := mul_le_mul_of_nonneg_left hyr hu.le
    linarith
  have hqs : |q + p| ≤ 1.003 * a + 0.11 := by
    have h1 := abs_le.1 hp'; have h2 := abs_le.1 hyr; have h3 := abs_le.1 hq1
    rw [abs_le]; constructor <;> linarith [h1.1, h1.2, h2.1, h2.2, h3.1, h3.2]
  have hres' : |res - (q + p)| ≤ u * (1.003 * a + 0.12) := by
    refine le_trans hres ?_
    have h1 : u * (1 + u) * |q| ≤ u * (1.001 * (1 / 1000)) := by
      rw [mul_assoc]
      refine mul_le_mul_of_nonneg_left ?_ hu.le
      exact mul_le_mul (by linarith) hq1 (abs_nonneg _) (by norm_num)
    have h2 := mul_le_mul_of_nonneg_left hqs hu.le
    linarith
  have h1 := abs_le.1 hres'; have h2 := abs_le.1 hp'; have h3 := abs_le.1 hy0'; have h5 := abs_le.1 hP; have h4' := abs_le.1 hq
  have h6 := abs_le.1 d1; have h8 := abs_le.1 d3
  rw [show res - Y = (res - (q + p)) + (p - (c3 * r + y0)) + (y0 - (lc + K)) + (q - P) + (c3 * r + P - Real.log (1 + r) / L2) + (Real.log (1 + r) - Real.log (z * inv)) / L2 + (lc * L2 + Real.log inv) / L2 by
    rw [show Y = lc + K + Real.log (z * inv) / L2 - (lc * L2 + Real.log inv) / L2 by rw [e0]; ring]; ring]
  rw [abs_le]
  constructor <;> linarith [h1.1, h1.2, h2.1, h2.2, h3.1, h3.2, h4'.1, h4'.2, h5.1, h5.2, h6.1, h6.2, h8.1, h8.2]
/-! ### float -/
theorem coff2S : (-(0.36052:ℝ) ≤ rv (log2coffS.getD 0 0) ∧ rv (log2coffS.getD 0 0) ≤ -(0.36051:ℝ)) ∧
    ((0.48112:ℝ) ≤ rv (log2coffS.getD 1 0) ∧ rv (log2coffS.getD 1 0) ≤ (0.48113:ℝ)) ∧
    (-(0.7213477:ℝ) ≤ rv (log2coffS.getD 2 0) ∧ rv (log2coffS.getD 2 0) ≤ -(0.7213476:ℝ)) ∧
    ((1.44269502:ℝ) ≤ rv (log2coffS.getD 3 0) ∧ rv (log2coffS.getD 3 0) ≤ (1.44269503:ℝ)) := by
  have a := rv_bound (log2coffS.getD 0 0) (-36052) (-36051) 100000 (by norm_num) (by decide +kernel)
  have b := rv_bound (log2coffS.getD 1 0) 48112 48113 100000 (by norm_num) (by decide +kernel)
  have c := rv_bound (log2coffS.getD 2 0) (-7213477) (-7213476) 10000000 (by norm_num) (by decide +kernel)
  have d := rv_bound (log2coffS.getD 3 0) 144269502 144269503 100000000 (by norm_num) (by decide +kernel)
  push_cast at a b c d
  refine ⟨⟨le_trans ?_ a.1, le_trans a.2 ?_⟩, ⟨le_trans ?_ b.1, le_trans b.2 ?_⟩, ⟨le_trans ?_ c.1, le_trans c.2 ?_⟩, ⟨le_trans ?_ d.1, le_trans d.2 ?_⟩⟩ <;> norm_num
theorem coff2S_fin : isFinite (log2coffS.getD 0 0) = true ∧ isFinite (log2coffS.getD 1 0) = true ∧ isFinite (log2coffS.getD 2 0) = true ∧ isFinite (log2coffS.getD 3 0) = true := by decide +kernel
theorem poly2S {r c0 c1 c2 c3 : ℝ} (hr : |r| ≤ 313 / 10000) (h0 : -(0.36052:ℝ) ≤ c0 ∧ c0 ≤ -(0.36051:ℝ))
    (h1 : (0.48112:ℝ) ≤ c1 ∧ c1 ≤ (0.48113:ℝ)) (h2 : -(0.7213477:ℝ) ≤ c2 ∧ c2 ≤ -(0.7213476:ℝ)) (h3 : (1.44269502:ℝ) ≤ c3 ∧ c3 ≤ (1.44269503:ℝ)) :
    |c3 * r + (c0 * r ^ 2 + c1 * r + c2) * r ^ 2 - Real.log (1 + r) / Real.log 2| ≤ 1.501 * |r| ^ 5 + 0.0002 * |r| ^ 4 + 0.00024 * |r| ^ 3 + 0.0000002 * |r| ^ 2 + 0.000000022 * |r| := by
  have ht := log1p_taylor (r := r) (by linarith) 4
  have e : ∑ i ∈ Finset.range 4, (-r) ^ (i + 1) / ((i:ℝ) + 1) = -r + r ^ 2 / 2 - r ^ 3 / 3 + r ^ 4 / 4 := by
    simp [Finset.sum_range_succ]; ring
  rw [e] at ht
  have h5 : |r| ^ (4 + 1) / (1 - |r|) ≤ |r| ^ 5 * 1.04 := by
    rw [div_le_iff₀ (by linarith)]
    have : 1 ≤ 1.04 * (1 - |r|) := by linarith
    have h0 : 0 ≤ |r| ^ 5 := by positivity
    nlinarith
  have ht' := div_log2 (le_trans ht h5)
  have hI := abs_le.1 log2_inv
  set L := Real.log (1 + r)
  set I := 1 / Real.log 2 with hIdef
  have e2 : c3 * r + (c0 * r ^ 2 + c1 * r + c2) * r ^ 2 - L / Real.log 2 = -((L + (-r + r ^ 2 / 2 - r ^ 3 / 3 + r ^ 4 / 4)) / Real.log 2) + ((c0 + I / 4) * r ^ 4 + (c1 - I / 3) * r ^ 3 + (c2 + I / 2) * r ^ 2) + (c3 - I) * r := by
    rw [hIdef]; ring
  have b0 : |(c0 + I / 4) * r ^ 4| ≤ 0.0002 * |r| ^ 4 := by
    rw [abs_mul, abs_pow]; gcongr; rw [abs_le]; constructor <;> linarith [hI.1, hI.2, h0.1, h0.2]
  have b1 : |(c1 - I / 3) * r ^ 3| ≤ 0.00024 * |r| ^ 3 := by
    rw [abs_mul, abs_pow]; gcongr; rw [abs_le]; constructor <;> linarith [hI.1, hI.2, h1.1, h1.2]
  have b2 : |(c2 + I / 2) * r ^ 2| ≤ 0.0000002 * |r| ^ 2 := by
    rw [abs_mul, abs_pow]; gcongr; rw [abs_le]; constructor <;> linarith [hI.1, hI.2, h2.1, h2.2]
  have b3 : |(c3 - I) * r| ≤ 0.000000022 * |r| := by
    rw [abs_mul]; gcongr; rw [abs_le]; constructor <;> linarith [hI.1, hI.2, h3.1, h3.2]
  rw [e2]
  refine le_trans (abs_add_three _ _ _) ?_
  rw [abs_neg]
  have := abs_add_three ((c0 + I / 4) * r ^ 4) ((c1 - I / 3) * r ^ 3) ((c2 + I / 2) * r ^ 2)
  have p5 : 0 ≤ |r| ^ 5 := by positivity
  linarith
theorem poly2S' {a : ℝ} (p0 : 0 ≤ a) (hr : a ≤ 313 / 10000) : 1.501 * a ^ 5 + 0.0002 * a ^ 4 + 0.00024 * a ^ 3 + 0.0000002 * a ^ 2 + 0.000000022 * a ≤ 1 / 2 ^ 24 * 0.95 := by
  have p2 : a ^ 2 ≤ (313 / 10000) ^ 2 := pow_le_pow_left₀ p0 hr 2
  have p3 : a ^ 3 ≤ (313 / 10000) ^ 3 := pow_le_pow_left₀ p0 hr 3
  have p4 : a ^ 4 ≤ (313 / 10000) ^ 4 := pow_le_pow_left₀ p0 hr 4
  have p5 : a ^ 5 ≤ (313 / 10000) ^ 5 := pow_le_pow_left₀ p0 hr 5
  norm_num at p2 p3 p4 p5 ⊢
  linarith
set_option maxHeartbeats 2000000 in
/-- the inner polynomial of `eval_log2<float>`, as computed -/
theorem y2S (fm : Bool) {r : BitVec 32} (rf : isFinite r = true) (rb : |rv r| ≤ 313 / 10000) :
    isFinite (fmul r r) = true ∧ |rv (fmul r r) - rv r ^ 2| ≤ 1 / 2 ^ 24 * 0.001 ∧ |rv (fmul r r)| ≤ 0.00099 ∧
    isFinite (fmaL fm (log2coffS.getD 0 0) (fmul r r) (fmaL fm (log2coffS.getD 1 0) r (log2coffS.getD 2 0))) = true ∧
    |rv (fmaL fm (log2coffS.getD 0 0) (fmul r r) (fmaL fm (log2coffS.getD 1 0) r (log2coffS.getD 2 0))) - (rv (log2coffS.getD 0 0) * rv r ^ 2 + rv (log2coffS.getD 1 0) * rv r + rv (log2coffS.getD 2 0))| ≤ 1 / 2 ^ 24 * 2 ∧
    |rv (fmaL fm (log2coffS.getD 0 0) (fmul r r) (fmaL fm (log2coffS.getD 1 0) r (log2coffS.getD 2 0)))| ≤ 0.75 ∧
    |rv (log2coffS.getD 0 0) * rv r ^ 2 + rv (log2coffS.getD 1 0) * rv r + rv (log2coffS.getD 2 0)| ≤ 0.74 := by
  have hu : ulpHalf 32 = 1 / 2 ^ 24 := ulp32
  obtain ⟨c0, c1, c2, c3⟩ := coff2S
  obtain ⟨k0, k1, k2, k3⟩ := coff2S_fin
  generalize log2coffS.getD 0 0 = C0 at *
  generalize log2coffS.getD 1 0 = C1 at *
  generalize log2coffS.getD 2 0 = C2 at *
  have b0 : |rv C0| ≤ 0.361 := by rw [abs_le]; constructor <;> linarith [c0.1, c0.2]
  have b1 : |rv C1| ≤ 0.482 := by rw [abs_le]; constructor <;> linarith [c1.1, c1.2]
  have b2 : |rv C2| ≤ 0.722 := by rw [abs_le]; constructor <;> linarith [c2.1, c2.2]
  obtain ⟨r2f, r2e⟩ := mul_bd_e W_32 rf rf (mul_bd rb rb) (by norm_num)
  rw [hu] at r2e
  have r2b : |rv (fmul r r)| ≤ 0.00099 := le_trans (abs_le_of_sub r2e (mul_bd rb rb)) (by norm_num)
  have m1 := mul_bd b1 rb
  obtain ⟨tf, te⟩ := fma_bd W_32 fm k1 rf k2 m1 b2 (le_trans (abs_add_le _ _) (add_le_add m1 b2)) (by norm_num) (by norm_num)
  rw [hu] at te
  have tb := abs_le_of_sub te (le_trans (abs_add_le _ _) (add_le_add m1 b2))
  generalize fmaL fm C1 r C2 = t at *
  generalize fmul r r = r2 at *
  have m2 := mul_bd b0 r2b
  obtain ⟨yf, ye⟩ := fma_bd W_32 fm k0 r2f tf m2 tb (le_trans (abs_add_le _ _) (add_le_add m2 tb)) (by norm_num) (by norm_num)
  rw [hu] at ye
  have yb := abs_le_of_sub ye (le_trans (abs_add_le _ _) (add_le_add m2 tb))
  generalize fmaL fm C0 r2 t = y at *
  have r2e' : |rv r2 - rv r ^ 2| ≤ 1 / 2 ^ 24 * 0.001 := by rw [pow_two]; refine le_trans r2e (by norm_num)
  have hy : |rv y - (rv C0 * rv r ^ 2 + rv C1 * rv r + rv C2)| ≤ 1 / 2 ^ 24 * 2 := by
    have h3 : |rv C0 * rv r2 - rv C0 * rv r ^ 2| ≤ 0.361 * (1 / 2 ^ 24 * 0.001) := by rw [← mul_sub]; exact mul_bd b0 r2e'
    have e : rv y - (rv C0 * rv r ^ 2 + rv C1 * rv r + rv C2) = (rv y - (rv C0 * rv r2 + rv t)) + (rv C0 * rv r2 - rv C0 * rv r ^ 2) + (rv t - (rv C1 * rv r + rv C2)) := by ring
    rw [e]
    refine le_trans (abs_add_three _ _ _) (le_trans (add_le_add (add_le_add ye h3) te) (by norm_num))
  have pb : |rv C0 * rv r ^ 2 + rv C1 * rv r + rv C2| ≤ 0.74 := by
    have a1 := mul_bd b0 (pow_bd rb 2)
    refine le_trans (abs_add_three _ _ _) (le_trans (add_le_add (add_le_add a1 m1) b2) (by norm_num))
  exact ⟨r2f, r2e', r2b, yf, hy, le_trans yb (by norm_num), pb⟩
theorem mone32 : rv (0xbf800000#32) = -1 := by
  have e : val (0xbf800000#32) = -2 ^ unitExp 32 := by decide +kernel
  unfold rv; rw [e]; push_cast; field_simp
set_option maxHeartbeats 1000000 in
theorem kern2S {fm : Bool} {z inv lc r : BitVec 32} {k : Int} (hk : k.natAbs ≤ 1024) (hzf : isFinite z = true) (hz : 0 < rv z)
    (hif : isFinite inv = true) (hinv : 0 < rv inv) (hzr : |rv z * rv inv - 1| ≤ 1 / 32)
    (hcf : isFinite lc = true) (hlc1 : |rv lc| ≤ 3 / 5) (hlc : |rv lc * Real.log 2 + Real.log (rv inv)| ≤ ulpHalf 32 * (15 / 16))
    (hr : r = fmaL fm z inv (0xbf800000#32)) :
    isFinite (fmaL fm (fmaL fm (log2coffS.getD 0 0) (fmul r r) (fmaL fm (log2coffS.getD 1 0) r (log2coffS.getD 2 0))) (fmul r r) (fmaL fm (log2coffS.getD 3 0) r (fadd lc (ofInt 32 k)))) = true ∧
    |rv (fmaL fm (fmaL fm (log2coffS.getD 0 0) (fmul r r) (fmaL fm (log2coffS.getD 1 0) r (log2coffS.getD 2 0))) (fmul r r) (fmaL fm (log2coffS.getD 3 0) r (fadd lc (ofInt 32 k)))) - (k + Real.log (rv z) / Real.log 2)| ≤
      5 * ulpHalf 32 * (1 + |k + Real.log (rv z) / Real.log 2|) := by
  have hu : ulpHalf 32 = 1 / 2 ^ 24 := ulp32
  have z1 : |rv z * rv inv| ≤ 33 / 32 := by
    obtain ⟨a, b⟩ := abs_le.1 hzr
    rw [abs_le]; constructor <;> linarith
  obtain ⟨rf, re⟩ := fma_bd W_32 fm hzf hif (by decide +kernel : isFinite (0xbf800000#32) = true) z1 (by rw [mone32]; norm_num : |rv (0xbf800000#32)| ≤ 1) (S := 1 / 32) (by rw [mone32]; exact hzr) (by norm_num) (by norm_num)
  rw [← hr] at rf re
  rw [mone32, hu, ← sub_eq_add_neg] at re
  have re' : |rv r - (rv z * rv inv - 1)| ≤ ulpHalf 32 * (9 / 8) := by rw [hu]; refine le_trans re (by norm_num)
  have rb : |rv r| ≤ 313 / 10000 := by
    have := abs_le_of_sub re hzr
    refine le_trans this (by norm_num)
  clear hr
  obtain ⟨r2f, r2e', r2b, yf, hy, yb, pb⟩ := y2S fm rf rb
  obtain ⟨c0, c1, c2, c3⟩ := coff2S
  obtain ⟨k0, k1, k2, k3⟩ := coff2S_fin
  have hq := prod_err hy r2e' pb r2b
  have hP := le_trans (poly2S rb c0 c1 c2 c3) (poly2S' (abs_nonneg _) rb)
  have b3 : |rv (log2coffS.getD 3 0)| ≤ 1.4427 := by rw [abs_le]; constructor <;> linarith [c3.1, c3.2]
  obtain ⟨kf, kv⟩ := ofInt_rv W_32 hk
  have hkb : |(k : ℝ)| ≤ 1024 := by
    have : ((k.natAbs : Nat) : ℝ) ≤ 1024 := by exact_mod_cast hk
    rwa [Nat.cast_natAbs, Int.cast_abs] at this
  have hb : (2 : ℝ) ^ 20 ≤ 2 ^ bias 32 := pow_le_pow_right₀ (by norm_num) (by decide)
  have hlk : |rv lc + k| ≤ 1025 := le_trans (abs_add_le _ _) (by linarith)
  obtain ⟨f0, e0⟩ := fadd_e W_32 hcf kf (by rw [kv]; exact le_trans hlk (le_trans (by norm_num) hb))
  rw [kv] at e0
  have hy0 : |rv (fadd lc (ofInt 32 k))| ≤ 1030 := by
    have := abs_le_of_sub e0 hlk
    have h2 : ulpHalf 32 * |rv lc + k| ≤ 1 / 2 ^ 24 * 1025 := by rw [hu]; gcongr
    norm_num at h2; linarith
  have m3 := mul_bd b3 rb
  have hM : (4:ℝ) * 4096 ≤ 2 ^ bias 32 := le_trans (by norm_num) hb
  obtain ⟨f1, e1⟩ := fmaL_e W_32 fm k3 rf f0 hM (by norm_num) (le_trans m3 (by norm_num)) (by linarith)
  have ht := tiny_pos 32
  have htl := tiny_le W_32
  have hp : |rv (fmaL fm (log2coffS.getD 3 0) r (fadd lc (ofInt 32 k)))| ≤ 1040 := by
    have s1 := le_trans (abs_add_le _ _) (add_le_add m3 hy0)
    have := abs_le_of_sub (e := (1:ℝ)) (le_trans e1 (by
      have a1 : ulpHalf 32 * (1 + ulpHalf 32) * |rv (log2coffS.getD 3 0) * rv r| ≤ 1 / 2 ^ 24 * 2 * (1.4427 * (313 / 10000)) := by rw [hu]; gcongr; norm_num
      have a2 : ulpHalf 32 * |rv (log2coffS.getD 3 0) * rv r + rv (fadd lc (ofInt 32 k))| ≤ 1 / 2 ^ 24 * (1.4427 * (313 / 10000) + 1030) := by rw [hu]; gcongr
      have a3 : tiny 32 ≤ 0.0001 := le_trans htl (by norm_num)
      norm_num at a1 a2 a3 ⊢
      linarith)) s1
    exact le_trans this (by norm_num)
  have q1 := mul_bd yb r2b
  obtain ⟨f2, e2⟩ := fmaL_e W_32 fm yf r2f f1 hM (by norm_num) (le_trans q1 (by norm_num)) (by linarith)
  refine ⟨f2, ?_⟩
  have := log2_assemble (u := ulpHalf 32) (pe := 1 / 2 ^ 24 * 0.95) (by rw [hu]; norm_num) (by rw [hu]) ht.le (by rw [hu]; exact le_trans htl (by norm_num)) hz hinv hzr hlc re' b3 e0 e1 (le_trans hq (by rw [hu]; norm_num)) (le_trans q1 (by norm_num)) (by norm_num) hP e2
  refine le_trans this ?_
  rw [← hu]
  have := abs_nonneg ((k:ℝ) + Real.log (rv z) / Real.log 2)
  have hu0 : 0 < ulpHalf 32 := ulp_pos 32
  nlinarith
theorem logb_pvN {w n m : Nat} {k : ℤ} (e : (n : ℤ) = m + k * 2 ^ mb w) : Real.logb 2 (pvN w n) = k + Real.log (pvN w m) / Real.log 2 := by
  have : Real.log 2 ≠ 0 := by have := Real.log_two_gt_d9; linarith
  rw [logb_two, log_pvN e, add_div, mul_div_assoc, div_self this, mul_one]
theorem evLog2S_acc (fm : Bool) {x : BitVec 32} (hx : x.toNat < 0x7f800000) :
    isFinite (evLog2S fm x) = true ∧ |rv (evLog2S fm x) - Real.logb 2 (pvN 32 x.toNat)| ≤ 5 * ulpHalf 32 * (1 + |Real.logb 2 (pvN 32 x.toNat)|) := by
  obtain ⟨z, k, i, hi, ez, ek, ei, hk, hzf, hz0, hlog, h1, h2, hm, he⟩ := redS hx
  obtain ⟨f1, f2, hr⟩ := rngOk_row log2tabS_rng (by norm_num) (i := i) (by exact hi) hm h1 h2.le
  obtain ⟨p1, p3, p2⟩ := tab2Ok_row log2tabS_ok log2tabS_le (by decide) (i := i) (by exact hi)
  have hl : Real.logb 2 (pvN 32 x.toNat) = k + Real.log (rv z) / Real.log 2 := by
    have : Real.log 2 ≠ 0 := by have := Real.log_two_gt_d9; linarith
    rw [logb_two, hlog, add_div, mul_div_assoc, div_self this, mul_one]
  rw [hl]
  unfold evLog2S
  have ei' : redIdx log2tabBitsS x = i := ei
  simp only [ez, ek, ei']
  exact kern2S hk hzf hz0 f1 p1 (by exact_mod_cast hr) f2 p3 (le_trans p2 (by rw [ulp32]; norm_num)) rfl
end Dpm.X86
