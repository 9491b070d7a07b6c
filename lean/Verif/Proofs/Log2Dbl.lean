import Verif.Proofs.Log2Acc
/-! Accuracy of `eval_log2<double>`, and of `eval_log2<float>` next to 1. -/
namespace Dpm.X86
open Dpm.Reg Dpm.Fp

/-! ### float next to 1 -/
theorem near2_assemble {u t d R p c3 q P res : ℝ} (hu : 0 < u) (hu1 : u ≤ 1 / 2 ^ 24) (ht : t ≤ u * |d| / 2 ^ 20) (hd : |d| ≤ 1 / 1024) (hc3 : |c3| ≤ 1.4427)
    (hR : |R - d| ≤ u * |d| + t) (hp : |p - c3 * R| ≤ u * (1 + u) * |c3 * R| + u * |c3 * R| + 2 * t) (hq : |q - P| ≤ u / 16 * |d|) (hq1 : |q| ≤ |d| / 1000)
    (hP : |c3 * R + P - Real.log (1 + R) / Real.log 2| ≤ u * 0.4 * |d|) (hres : |res - (q + p)| ≤ u * (1 + u) * |q| + u * |q + p| + 2 * t) :
    |res - Real.log (1 + d) / Real.log 2| ≤ 5 * u * |Real.log (1 + d) / Real.log 2| := by
  have hu2 : u ≤ 1 / 1000000 := le_trans hu1 (by norm_num)
  set a := |d| with ha
  have ha0 : 0 ≤ a := abs_nonneg _
  have hua : u * a ≤ a / 1000000 := by have := mul_le_mul_of_nonneg_right hu2 ha0; linarith
  have hua0 : 0 ≤ u * a := by positivity
  have hRb : |R| ≤ 1.0001 * a := by have := abs_le_of_sub hR (le_refl |d|); linarith
  have hcR : |c3 * R| ≤ 1.4429 * a := le_trans (mul_bd hc3 hRb) (by linarith)
  have hp' : |p - c3 * R| ≤ u * a * 2.887 := by
    refine le_trans hp ?_
    have h1 : u * (1 + u) * |c3 * R| ≤ u * (1.0001 * (1.4429 * a)) := by
      rw [mul_assoc]
      exact mul_le_mul_of_nonneg_left (mul_le_mul (by linarith) hcR (abs_nonneg _) (by norm_num)) hu.le
    have := mul_le_mul_of_nonneg_left hcR hu.le; linarith
  have hqs : |q + p| ≤ 1.445 * a := by
    have h1 := abs_le_of_sub hp' hcR
    have h2 := abs_add_le q p
    linarith
  have hres' : |res - (q + p)| ≤ u * a * 1.45 := by
    refine le_trans hres ?_
    have h1 : u * (1 + u) * |q| ≤ u * (1.0001 * (a / 1000)) := by
      rw [mul_assoc]
      exact mul_le_mul_of_nonneg_left (mul_le_mul (by linarith) hq1 (abs_nonneg _) (by norm_num)) hu.le
    have h2 := mul_le_mul_of_nonneg_left hqs hu.le
    linarith
  have hd1 := abs_le.1 hd
  have hR1 := abs_le.1 hRb
  have hlip : |Real.log (1 + R) - Real.log (1 + d)| ≤ u * a * 1.002 := by
    have := log_lip (a := 1 + R) (b := 1 + d) (m := 0.9985) (by norm_num) (by linarith [hR1.1]) (by linarith [hd1.1])
    rw [add_sub_add_left_eq_sub] at this
    refine le_trans this ?_
    rw [div_le_iff₀ (by norm_num)]
    linarith
  have hlip2 := div_log2 hlip
  have hlow : a * 0.998 ≤ |Real.log (1 + d)| := by
    have := log1p_taylor (r := d) (by linarith) 1
    simp only [Finset.range_one, Finset.sum_singleton] at this
    norm_num at this
    have h5 : |d| ^ 2 / (1 - |d|) ≤ a * 0.002 := by
      rw [div_le_iff₀ (by linarith)]
      rw [← ha]; nlinarith
    have e : d = Real.log (1 + d) - (Real.log (1 + d) + -d) := by ring
    have h6 : |d| ≤ |Real.log (1 + d)| + |Real.log (1 + d) + -d| := by
      conv_lhs => rw [e]
      exact abs_sub _ _
    rw [sq_abs] at h5
    rw [← ha] at h6; linarith
  have hlow2 : a * 1.43 ≤ |Real.log (1 + d) / Real.log 2| := by
    have l1 := Real.log_two_lt_d9
    have l2 := Real.log_two_gt_d9
    have hp : 0 < Real.log 2 := by linarith
    rw [abs_div, abs_of_pos hp, le_div_iff₀ hp]
    nlinarith
  have h1 := abs_le.1 hres'; have h2 := abs_le.1 hp'; have h4 := abs_le.1 hq; have h5 := abs_le.1 hP; have h6 := abs_le.1 hlip2
  have h7 := mul_le_mul_of_nonneg_left hlow2 hu.le
  rw [show res - Real.log (1 + d) / Real.log 2 = (res - (q + p)) + (p - c3 * R) + (q - P) + (c3 * R + P - Real.log (1 + R) / Real.log 2) + (Real.log (1 + R) - Real.log (1 + d)) / Real.log 2 by ring]
  rw [abs_le]
  constructor <;> linarith [h1.1, h1.2, h2.1, h2.2, h4.1, h4.2, h5.1, h5.2, h6.1, h6.2]
theorem near2_small {a : ℝ} (h0 : 0 ≤ a) (h : a ≤ 1.001 / 1024) : 1.501 * a ^ 5 + 0.0002 * a ^ 4 + 0.00024 * a ^ 3 + 0.0000002 * a ^ 2 + 0.000000022 * a ≤ 1 / 2 ^ 24 * 0.395 * a := by
  have p1 : a ^ 1 ≤ (1.001 / 1024) ^ 1 := pow_le_pow_left₀ h0 h 1
  have p2 : a ^ 2 ≤ (1.001 / 1024) ^ 2 := pow_le_pow_left₀ h0 h 2
  have p3 : a ^ 3 ≤ (1.001 / 1024) ^ 3 := pow_le_pow_left₀ h0 h 3
  have p4 : a ^ 4 ≤ (1.001 / 1024) ^ 4 := pow_le_pow_left₀ h0 h 4
  have key : 1.501 * a ^ 4 + 0.0002 * a ^ 3 + 0.00024 * a ^ 2 + 0.0000002 * a ^ 1 + 0.000000022 ≤ 1 / 2 ^ 24 * 0.395 := by
    norm_num at p1 p2 p3 p4 ⊢
    linarith
  have := mul_le_mul_of_nonneg_right key h0
  nlinarith
theorem near_kern2S {fm : Bool} {z o r : BitVec 32} (hzf : isFinite z = true) (hs : z.msb = false) (hne : z ≠ oneBits 32) (hd : |rv z - 1| ≤ 1 / 1024)
    (ho : isFinite o = true) (hv : val o = (2 ^ unitExp 32 : Nat)) (hr : r = fmaL fm z o (0xbf800000#32)) :
    |rv (fmaL fm (fmaL fm (log2coffS.getD 0 0) (fmul r r) (fmaL fm (log2coffS.getD 1 0) r (log2coffS.getD 2 0))) (fmul r r) (fmaL fm (log2coffS.getD 3 0) r (fadd 0#32 (ofInt 32 0)))) - Real.log (rv z) / Real.log 2| ≤
      5 * ulpHalf 32 * |Real.log (rv z) / Real.log 2| := by
  have hu : ulpHalf 32 = 1 / 2 ^ 24 := ulp32
  have hd1 := u_le_d W_32 hs hne
  have hzb : |rv z| ≤ 2 := by obtain ⟨a, b⟩ := abs_le.1 hd; rw [abs_le]; constructor <;> linarith
  obtain ⟨rf, re⟩ := near_r W_32 fm hzf hzb ho hv (by decide +kernel) mone32
  rw [← hr] at rf re
  clear hr
  have ht := tiny_pos 32
  have htl := tiny_le W_32
  have ht2 : tiny 32 ≤ ulpHalf 32 * |rv z - 1| / 2 ^ 20 := by
    have h2 : ulpHalf 32 * ulpHalf 32 / 2 ^ 20 ≤ ulpHalf 32 * |rv z - 1| / 2 ^ 20 := by
      have := ulp_pos 32
      gcongr
    refine le_trans (le_trans htl ?_) h2
    rw [hu]; norm_num
  rw [show rv z = 1 + (rv z - 1) by ring]
  generalize rv z - 1 = d at *
  have ha0 := abs_nonneg d
  have rb1 : |rv r| ≤ 1.0001 * |d| := by
    have h1 := abs_le_of_sub re (le_refl |d|)
    rw [hu] at h1 ht2
    norm_num at h1 ht2 ⊢; linarith
  have rb0 : |rv r| ≤ 1.0001 / 1024 := by linarith
  have rb : |rv r| ≤ 313 / 10000 := le_trans rb0 (by norm_num)
  obtain ⟨r2f, _, _, yf, hy, yb, pb⟩ := y2S fm rf rb
  obtain ⟨c0, c1, c2, c3⟩ := coff2S
  obtain ⟨k0, k1, k2, k3⟩ := coff2S_fin
  have b3 : |rv (log2coffS.getD 3 0)| ≤ 1.4427 := by rw [abs_le]; constructor <;> linarith [c3.1, c3.2]
  have hP := poly2S rb c0 c1 c2 c3
  have hsq : |rv r * rv r| ≤ |d| / 1000 := by
    refine le_trans (mul_bd rb1 rb1) ?_
    nlinarith
  have hb : (2 : ℝ) ^ 20 ≤ 2 ^ bias 32 := pow_le_pow_right₀ (by norm_num) (by decide)
  have e2 := (fmul_e W_32 rf rf (le_trans hsq (le_trans (by linarith : |d| / 1000 ≤ 2 ^ 20) hb))).2
  have hu0 : 0 < ulpHalf 32 := ulp_pos 32
  have e2' : |rv (fmul r r) - rv r ^ 2| ≤ ulpHalf 32 * |d| * 0.0011 := by
    rw [pow_two]
    have := mul_le_mul_of_nonneg_left hsq hu0.le
    linarith
  have r2b : |rv (fmul r r)| ≤ |d| * 0.0011 := by
    rw [pow_two] at e2'
    have := abs_le_of_sub e2' hsq
    rw [hu] at this
    norm_num at this ⊢; linarith
  rw [← hu] at hy
  have hq := prod_err hy e2' pb r2b
  obtain ⟨z1, z2⟩ : isFinite (fadd 0#32 (ofInt 32 0)) = true ∧ val (fadd 0#32 (ofInt 32 0)) = 0 := by decide +kernel
  have z3 := rv_zero_of z2
  generalize fadd 0#32 (ofInt 32 0) = y0 at *
  have hM : (4:ℝ) * 4096 ≤ 2 ^ bias 32 := le_trans (by norm_num) hb
  have m3 := mul_bd b3 rb
  obtain ⟨f1, e1⟩ := fmaL_e W_32 fm k3 rf z1 hM (by norm_num) (le_trans m3 (by norm_num)) (by rw [z3]; norm_num)
  rw [z3, add_zero] at e1
  have hp : |rv (fmaL fm (log2coffS.getD 3 0) r y0)| ≤ 1 := by
    have a1 : ulpHalf 32 * (1 + ulpHalf 32) * |rv (log2coffS.getD 3 0) * rv r| ≤ 1 / 2 ^ 24 * 2 * (1.4427 * (313 / 10000)) := by rw [hu]; gcongr; norm_num
    have a2 : ulpHalf 32 * |rv (log2coffS.getD 3 0) * rv r| ≤ 1 / 2 ^ 24 * (1.4427 * (313 / 10000)) := by rw [hu]; gcongr
    have := abs_le_of_sub (le_trans e1 (add_le_add (add_le_add a1 a2) (mul_le_mul_of_nonneg_left htl (by norm_num : (0:ℝ) ≤ 2)))) m3
    exact le_trans this (by norm_num)
  have q1 := mul_bd yb r2b
  obtain ⟨f2, e3⟩ := fmaL_e W_32 fm yf r2f f1 hM (by norm_num) (le_trans q1 (by linarith)) (by linarith)
  refine near2_assemble hu0 (by rw [hu]) ht2 hd b3 re e1 (le_trans hq ?_) (le_trans q1 (by linarith)) (le_trans hP ?_) e3
  · have := mul_nonneg hu0.le ha0; linarith
  · have h1 := near2_small (abs_nonneg (rv r)) (le_trans rb0 (by norm_num))
    refine le_trans h1 ?_
    rw [hu]
    norm_num at rb1 ⊢; linarith
theorem evLog2S_near (fm : Bool) {x : BitVec 32} (hs : x.msb = false) (hx : x.toNat < 0x7f800000) (hne : x ≠ oneBits 32) (hd : |rv x - 1| ≤ 1 / 1024) :
    |rv (evLog2S fm x) - Real.logb 2 (rv x)| ≤ 5 * ulpHalf 32 * |Real.logb 2 (rv x)| := by
  obtain ⟨z, k, i, hi, ez, ek, ei, hk, hzf, hz0, hlog, h1, h2, hm, hxz⟩ := redS hx
  have b1 := rv_bound (0x3f7c0000#32) 0 1008 1024 (by norm_num) (by decide +kernel)
  have b2 := rv_bound (0x3f820000#32) 1040 1050 1024 (by norm_num) (by decide +kernel)
  obtain ⟨d1, d2⟩ := abs_le.1 hd
  have l1 : 0x3f7c0000 ≤ x.toNat := by
    by_contra hh
    have := rv_mono (x := x) (y := 0x3f7c0000#32) hs (by decide) (by change x.toNat ≤ 0x3f7c0000; omega)
    norm_num at b1; linarith [b1.2]
  have l2 : x.toNat ≤ 0x3f820000 := by
    by_contra hh
    have := rv_mono (y := x) (x := 0x3f820000#32) (by decide) hs (by change 0x3f820000 ≤ x.toNat; omega)
    norm_num at b2; linarith [b2.1]
  have ho : (logOff 32).toNat = 0x3f330000 := rfl
  have hmb : (2:Nat) ^ (mb 32 - 4) = 2 ^ 19 := rfl
  rw [ho, hmb] at h1 h2
  have k0 : k = 0 := by omega
  subst k0
  have i9 : i = 9 := by omega
  subst i9
  have zx : z = x := BitVec.eq_of_toNat_eq (by omega)
  subst zx
  unfold evLog2S
  have ei' : redIdx log2tabBitsS z = 9 := ei
  simp only [ez, ek, ei']
  have t1 : log2tabS.getD (2 * 9 + 1) 0 = 0#32 := by decide
  rw [t1]
  exact near_kern2S hzf hs hne hd (by decide +kernel) (by decide +kernel) rfl

/-! ### double -/
theorem log2_inv64 : |1 / Real.log 2 - 1.44269504088896340736| ≤ 0.000000000000001 := by
  have h := lam2_err
  unfold lam2 at h
  push_cast at h
  obtain ⟨a, b⟩ := abs_le.1 h
  have l2 := Real.log_two_gt_d9
  have hp : 0 < Real.log 2 := by linarith
  norm_num at a b
  rw [abs_le]
  constructor
  · rw [neg_le_sub_iff_le_add, ← sub_le_iff_le_add, le_div_iff₀ hp]; norm_num; linarith
  · rw [sub_le_iff_le_add, div_le_iff₀ hp]; norm_num; linarith
theorem coff2D : (-(0.72134752044449:ℝ) ≤ rv (log2coffD.getD 0 0) ∧ rv (log2coffD.getD 0 0) ≤ -(0.72134752044448:ℝ)) ∧
    ((0.48089834696299:ℝ) ≤ rv (log2coffD.getD 1 0) ∧ rv (log2coffD.getD 1 0) ≤ (0.480898346963:ℝ)) ∧
    (-(0.3606737596:ℝ) ≤ rv (log2coffD.getD 2 0) ∧ rv (log2coffD.getD 2 0) ≤ -(0.3606737595:ℝ)) ∧
    ((0.288539007:ℝ) ≤ rv (log2coffD.getD 3 0) ∧ rv (log2coffD.getD 3 0) ≤ (0.288539008:ℝ)) ∧
    (-(0.24047:ℝ) ≤ rv (log2coffD.getD 4 0) ∧ rv (log2coffD.getD 4 0) ≤ -(0.24046:ℝ)) ∧
    ((0.20612:ℝ) ≤ rv (log2coffD.getD 5 0) ∧ rv (log2coffD.getD 5 0) ≤ (0.20613:ℝ)) ∧
    ((1.4426950407:ℝ) ≤ rv invln2h ∧ rv invln2h ≤ 1.4426950408) ∧ ((0.0000000001:ℝ) ≤ rv invln2l ∧ rv invln2l ≤ 0.0000000002) ∧
    (1.442695040888963:ℝ) ≤ rv invln2h + rv invln2l ∧ rv invln2h + rv invln2l ≤ 1.442695040888964 := by
  have a := rv_bound (log2coffD.getD 0 0) (-72134752044449) (-72134752044448) 100000000000000 (by norm_num) (by decide +kernel)
  have b := rv_bound (log2coffD.getD 1 0) 48089834696299 48089834696300 100000000000000 (by norm_num) (by decide +kernel)
  have c := rv_bound (log2coffD.getD 2 0) (-3606737596) (-3606737595) 10000000000 (by norm_num) (by decide +kernel)
  have d := rv_bound (log2coffD.getD 3 0) 288539007 288539008 1000000000 (by norm_num) (by decide +kernel)
  have e := rv_bound (log2coffD.getD 4 0) (-24047) (-24046) 100000 (by norm_num) (by decide +kernel)
  have f := rv_bound (log2coffD.getD 5 0) (20612) (20613) 100000 (by norm_num) (by decide +kernel)
  have g := rv_bound invln2h 14426950407 14426950408 10000000000 (by norm_num) (by decide +kernel)
  have i := rv_bound invln2l 1 2 10000000000 (by norm_num) (by decide +kernel)
  have s : 1442695040888963 * 2 ^ unitExp 64 ≤ (val invln2h + val invln2l) * 1000000000000000 ∧ (val invln2h + val invln2l) * 1000000000000000 ≤ 1442695040888964 * 2 ^ unitExp 64 := by decide +kernel
  have hU : (0:ℝ) < 2 ^ unitExp 64 := by positivity
  have s1 : (1442695040888963 : ℝ) * 2 ^ unitExp 64 ≤ (val invln2h + val invln2l) * 1000000000000000 := by exact_mod_cast s.1
  have s2 : ((val invln2h : ℝ) + val invln2l) * 1000000000000000 ≤ 1442695040888964 * 2 ^ unitExp 64 := by exact_mod_cast s.2
  push_cast at a b c d e f g i
  refine ⟨⟨le_trans ?_ a.1, le_trans a.2 ?_⟩, ⟨le_trans ?_ b.1, le_trans b.2 ?_⟩, ⟨le_trans ?_ c.1, le_trans c.2 ?_⟩, ⟨le_trans ?_ d.1, le_trans d.2 ?_⟩, ⟨le_trans ?_ e.1, le_trans e.2 ?_⟩, ⟨le_trans ?_ f.1, le_trans f.2 ?_⟩, ⟨le_trans ?_ g.1, le_trans g.2 ?_⟩, ⟨le_trans ?_ i.1, le_trans i.2 ?_⟩, ?_, ?_⟩
  rotate_right 2
  · unfold rv; rw [← add_div, le_div_iff₀ hU]; norm_num at s1 ⊢; linarith
  · unfold rv; rw [← add_div, div_le_iff₀ hU]; norm_num at s2 ⊢; linarith
  all_goals norm_num
theorem coff2D_fin : isFinite (log2coffD.getD 0 0) = true ∧ isFinite (log2coffD.getD 1 0) = true ∧ isFinite (log2coffD.getD 2 0) = true ∧ isFinite (log2coffD.getD 3 0) = true ∧ isFinite (log2coffD.getD 4 0) = true ∧
    isFinite (log2coffD.getD 5 0) = true ∧ isFinite invln2h = true ∧ isFinite invln2l = true := by decide +kernel
theorem poly2D {r c0 c1 c2 c3 c4 c5 J : ℝ} (hr : |r| ≤ 0.0435) (h0 : -(0.72134752044449:ℝ) ≤ c0 ∧ c0 ≤ -(0.72134752044448:ℝ))
    (h1 : (0.48089834696299:ℝ) ≤ c1 ∧ c1 ≤ (0.480898346963:ℝ)) (h2 : -(0.3606737596:ℝ) ≤ c2 ∧ c2 ≤ -(0.3606737595:ℝ))
    (h3 : (0.288539007:ℝ) ≤ c3 ∧ c3 ≤ (0.288539008:ℝ)) (h4 : -(0.24047:ℝ) ≤ c4 ∧ c4 ≤ -(0.24046:ℝ)) (h5 : (0.20612:ℝ) ≤ c5 ∧ c5 ≤ (0.20613:ℝ))
    (hJ : (1.442695040888963:ℝ) ≤ J ∧ J ≤ 1.442695040888964) :
    |J * r + (c0 + c1 * r + c2 * r ^ 2 + c3 * r ^ 3 + c4 * r ^ 4 + c5 * r ^ 5) * r ^ 2 - Real.log (1 + r) / Real.log 2| ≤ 0.0000000000036 := by
  have ht := log1p_taylor (r := r) (by linarith) 8
  have e : ∑ i ∈ Finset.range 8, (-r) ^ (i + 1) / ((i:ℝ) + 1) = -r + r ^ 2 / 2 - r ^ 3 / 3 + r ^ 4 / 4 - r ^ 5 / 5 + r ^ 6 / 6 - r ^ 7 / 7 + r ^ 8 / 8 := by
    simp [Finset.sum_range_succ]; ring
  rw [e] at ht
  have p9 : |r| ^ 9 ≤ 0.0435 ^ 9 := pow_le_pow_left₀ (abs_nonneg _) hr 9
  have h9 : |r| ^ (8 + 1) / (1 - |r|) ≤ 0.0000000000006 := by
    rw [div_le_iff₀ (by linarith)]
    norm_num at p9 ⊢; linarith
  have ht' := div_log2 (le_trans ht h9)
  have hI := abs_le.1 log2_inv64
  set L := Real.log (1 + r)
  set I := 1 / Real.log 2 with hIdef
  have e2 : J * r + (c0 + c1 * r + c2 * r ^ 2 + c3 * r ^ 3 + c4 * r ^ 4 + c5 * r ^ 5) * r ^ 2 - L / Real.log 2 =
      -((L + (-r + r ^ 2 / 2 - r ^ 3 / 3 + r ^ 4 / 4 - r ^ 5 / 5 + r ^ 6 / 6 - r ^ 7 / 7 + r ^ 8 / 8)) / Real.log 2) + (((J - I) * r + (c0 + I / 2) * r ^ 2 + (c1 - I / 3) * r ^ 3) + ((c2 + I / 4) * r ^ 4 + (c3 - I / 5) * r ^ 5 + (c4 + I / 6) * r ^ 6)) + ((c5 - I / 7) * r ^ 7 + (I / 8) * r ^ 8) := by
    rw [hIdef]; ring
  have b1 : |(J - I) * r| ≤ 0.000000000000003 * 0.0435 := mul_bd (by rw [abs_le]; constructor <;> linarith [hI.1, hI.2]) hr
  have b2 : |(c0 + I / 2) * r ^ 2| ≤ 0.00000000000002 * 0.0435 ^ 2 := mul_bd (by rw [abs_le]; constructor <;> linarith [hI.1, hI.2]) (pow_bd hr 2)
  have b3 : |(c1 - I / 3) * r ^ 3| ≤ 0.00000000000002 * 0.0435 ^ 3 := mul_bd (by rw [abs_le]; constructor <;> linarith [hI.1, hI.2]) (pow_bd hr 3)
  have b4 : |(c2 + I / 4) * r ^ 4| ≤ 0.000000002 * 0.0435 ^ 4 := mul_bd (by rw [abs_le]; constructor <;> linarith [hI.1, hI.2]) (pow_bd hr 4)
  have b5 : |(c3 - I / 5) * r ^ 5| ≤ 0.000000002 * 0.0435 ^ 5 := mul_bd (by rw [abs_le]; constructor <;> linarith [hI.1, hI.2]) (pow_bd hr 5)
  have b6 : |(c4 + I / 6) * r ^ 6| ≤ 0.00004 * 0.0435 ^ 6 := mul_bd (by rw [abs_le]; constructor <;> linarith [hI.1, hI.2]) (pow_bd hr 6)
  have b7 : |(c5 - I / 7) * r ^ 7| ≤ 0.00004 * 0.0435 ^ 7 := mul_bd (by rw [abs_le]; constructor <;> linarith [hI.1, hI.2]) (pow_bd hr 7)
  have b8 : |(I / 8) * r ^ 8| ≤ 0.181 * 0.0435 ^ 8 := mul_bd (by rw [abs_le]; constructor <;> linarith [hI.1, hI.2]) (pow_bd hr 8)
  rw [e2]
  refine le_trans (abs_add_three _ _ _) ?_
  rw [abs_neg]
  have t1 := abs_add_le ((J - I) * r + (c0 + I / 2) * r ^ 2 + (c1 - I / 3) * r ^ 3) ((c2 + I / 4) * r ^ 4 + (c3 - I / 5) * r ^ 5 + (c4 + I / 6) * r ^ 6)
  have t2 := abs_add_three ((J - I) * r) ((c0 + I / 2) * r ^ 2) ((c1 - I / 3) * r ^ 3)
  have t3 := abs_add_three ((c2 + I / 4) * r ^ 4) ((c3 - I / 5) * r ^ 5) ((c4 + I / 6) * r ^ 6)
  have t4 := abs_add_le ((c5 - I / 7) * r ^ 7) ((I / 8) * r ^ 8)
  exact le_trans (add_le_add (add_le_add ht' (le_trans t1 (add_le_add (le_trans t2 (add_le_add (add_le_add b1 b2) b3)) (le_trans t3 (add_le_add (add_le_add b4 b5) b6))))) (le_trans t4 (add_le_add b7 b8))) (by norm_num)
set_option maxHeartbeats 2000000 in
/-- the inner polynomial of `eval_log2<double>`, as computed -/
theorem y2D (fm : Bool) {r : BitVec 64} (rf : isFinite r = true) (rb : |rv r| ≤ 0.0435) :
    let c := fun i => log2coffD.getD i 0
    let r2 := fmul r r
    let yy := fmaL fm r2 (fmaL fm r (c 3) (c 2)) (fmaL fm r (c 1) (fmaL fm (fmul r2 r2) (fmaL fm (c 5) r (c 4)) (c 0)))
    isFinite r2 = true ∧ |rv r2| ≤ 0.0019 ∧ |rv r2 - rv r ^ 2| ≤ 1 / 2 ^ 53 * 0.002 ∧ isFinite yy = true ∧
    |rv yy - (rv (c 0) + rv (c 1) * rv r + rv (c 2) * rv r ^ 2 + rv (c 3) * rv r ^ 3 + rv (c 4) * rv r ^ 4 + rv (c 5) * rv r ^ 5)| ≤ 1 / 2 ^ 53 * 4 ∧ |rv yy| ≤ 0.75 := by
  have hu : ulpHalf 64 = 1 / 2 ^ 53 := ulp64
  intro c r2 yy
  obtain ⟨c0, c1, c2, c3, c4, c5, -⟩ := coff2D
  obtain ⟨k0, k1, k2, k3, k4, k5, -⟩ := coff2D_fin
  simp only [c, r2, yy]
  clear yy r2 c
  generalize log2coffD.getD 0 0 = C0 at *
  generalize log2coffD.getD 1 0 = C1 at *
  generalize log2coffD.getD 2 0 = C2 at *
  generalize log2coffD.getD 3 0 = C3 at *
  generalize log2coffD.getD 4 0 = C4 at *
  generalize log2coffD.getD 5 0 = C5 at *
  have b0 : |rv C0| ≤ 0.722 := by rw [abs_le]; constructor <;> linarith [c0.1, c0.2]
  have b1 : |rv C1| ≤ 0.481 := by rw [abs_le]; constructor <;> linarith [c1.1, c1.2]
  have b2 : |rv C2| ≤ 0.361 := by rw [abs_le]; constructor <;> linarith [c2.1, c2.2]
  have b3 : |rv C3| ≤ 0.289 := by rw [abs_le]; constructor <;> linarith [c3.1, c3.2]
  have b4 : |rv C4| ≤ 0.241 := by rw [abs_le]; constructor <;> linarith [c4.1, c4.2]
  have b5 : |rv C5| ≤ 0.207 := by rw [abs_le]; constructor <;> linarith [c5.1, c5.2]
  obtain ⟨r2f, r2e⟩ := mul_bd_e W_64 rf rf (mul_bd rb rb) (by norm_num)
  rw [hu] at r2e
  have r2b : |rv (fmul r r)| ≤ 0.0019 := le_trans (abs_le_of_sub r2e (mul_bd rb rb)) (by norm_num)
  have r2e' : |rv (fmul r r) - rv r ^ 2| ≤ 1 / 2 ^ 53 * 0.002 := by rw [pow_two]; refine le_trans r2e (by norm_num)
  have m3 := mul_bd rb b3
  have s3 := le_trans (abs_add_le _ _) (add_le_add m3 b2)
  obtain ⟨pf, pe⟩ := fma_bd W_64 fm rf k3 k2 m3 b2 s3 (by norm_num) (by norm_num)
  rw [hu] at pe
  have pb : |rv (fmaL fm r C3 C2)| ≤ 0.38 := le_trans (abs_le_of_sub pe s3) (by norm_num)
  have m5 := mul_bd b5 rb
  have s5 := le_trans (abs_add_le _ _) (add_le_add m5 b4)
  obtain ⟨gf, ge⟩ := fma_bd W_64 fm k5 rf k4 m5 b4 s5 (by norm_num) (by norm_num)
  rw [hu] at ge
  have gb : |rv (fmaL fm C5 r C4)| ≤ 0.26 := le_trans (abs_le_of_sub ge s5) (by norm_num)
  generalize fmul r r = r2 at *
  generalize fmaL fm r C3 C2 = p at *
  generalize fmaL fm C5 r C4 = g at *
  obtain ⟨r4f, r4e⟩ := mul_bd_e W_64 r2f r2f (mul_bd r2b r2b) (by norm_num)
  rw [hu] at r4e
  have r4b : |rv (fmul r2 r2)| ≤ 0.000004 := le_trans (abs_le_of_sub r4e (mul_bd r2b r2b)) (by norm_num)
  have r4e' : |rv (fmul r2 r2) - rv r ^ 4| ≤ 1 / 2 ^ 53 * 0.0001 := by
    have h1 := prod_err r2e' r2e' (pow_bd rb 2) r2b
    have e : rv (fmul r2 r2) - rv r ^ 4 = (rv (fmul r2 r2) - rv r2 * rv r2) + (rv r2 * rv r2 - rv r ^ 2 * rv r ^ 2) := by ring
    rw [e]
    exact le_trans (abs_add_le _ _) (le_trans (add_le_add r4e h1) (by norm_num))
  generalize fmul r2 r2 = r4 at *
  have m4 := mul_bd r4b gb
  have s4 := le_trans (abs_add_le _ _) (add_le_add m4 b0)
  obtain ⟨hf, he⟩ := fma_bd W_64 fm r4f gf k0 m4 b0 s4 (by norm_num) (by norm_num)
  rw [hu] at he
  have hb : |rv (fmaL fm r4 g C0)| ≤ 0.723 := le_trans (abs_le_of_sub he s4) (by norm_num)
  generalize fmaL fm r4 g C0 = h at *
  have m1 := mul_bd rb b1
  have s1 := le_trans (abs_add_le _ _) (add_le_add m1 hb)
  obtain ⟨yf, ye⟩ := fma_bd W_64 fm rf k1 hf m1 hb s1 (by norm_num) (by norm_num)
  rw [hu] at ye
  have yb : |rv (fmaL fm r C1 h)| ≤ 0.745 := le_trans (abs_le_of_sub ye s1) (by norm_num)
  generalize fmaL fm r C1 h = y at *
  have m6 := mul_bd r2b pb
  have s6 := le_trans (abs_add_le _ _) (add_le_add m6 yb)
  obtain ⟨wf, we⟩ := fma_bd W_64 fm r2f pf yf m6 yb s6 (by norm_num) (by norm_num)
  rw [hu] at we
  have wb := abs_le_of_sub we s6
  generalize fmaL fm r2 p y = w at *
  refine ⟨r2f, r2b, r2e', wf, ?_, le_trans wb (by norm_num)⟩
  -- the exact polynomial
  have g1 : |rv r4 * rv g - rv r ^ 4 * (rv C5 * rv r + rv C4)| ≤ 1 / 2 ^ 53 * 0.0001 * 0.26 + 0.0435 ^ 4 * (1 / 2 ^ 53 * (1.0001 * (0.207 * 0.0435) + (0.207 * 0.0435 + 0.241) + 1 / 2 ^ 90)) :=
    prod_err r4e' ge (pow_bd rb 4) gb
  have p1 : |rv r2 * rv p - rv r ^ 2 * (rv r * rv C3 + rv C2)| ≤ 1 / 2 ^ 53 * 0.002 * 0.38 + 0.0435 ^ 2 * (1 / 2 ^ 53 * (1.0001 * (0.0435 * 0.289) + (0.0435 * 0.289 + 0.361) + 1 / 2 ^ 90)) :=
    prod_err r2e' pe (pow_bd rb 2) pb
  rw [show rv w - (rv C0 + rv C1 * rv r + rv C2 * rv r ^ 2 + rv C3 * rv r ^ 3 + rv C4 * rv r ^ 4 + rv C5 * rv r ^ 5) =
    ((rv w - (rv r2 * rv p + rv y)) + (rv y - (rv r * rv C1 + rv h)) + (rv h - (rv r4 * rv g + rv C0))) + (rv r4 * rv g - rv r ^ 4 * (rv C5 * rv r + rv C4)) + (rv r2 * rv p - rv r ^ 2 * (rv r * rv C3 + rv C2)) by ring]
  refine le_trans (abs_add_three _ _ _) ?_
  refine le_trans (add_le_add (add_le_add (le_trans (abs_add_three _ _ _) (add_le_add (add_le_add we ye) he)) g1) p1) (by norm_num)
set_option maxHeartbeats 1000000 in
theorem log2D_assemble {u t pe K lc z inv r R1 q P t1 t2 t3 hh g f ll m res : ℝ} (hu : 0 < u) (hu1 : u ≤ 1 / 2 ^ 53) (ht : t ≤ u / 2 ^ 20)
    (hz : 0 < z) (hinv : 0 < inv) (hzr : |z * inv - 1| ≤ 1 / 23)
    (hlc : |lc * Real.log 2 + Real.log inv| ≤ u * 0.45) (hr : |r - (z * inv - 1)| ≤ u * (9 / 8))
    (h1b : |t1| ≤ 0.0635) (h12 : |t1 + t2 - R1| ≤ u * 0.2) (h2b : |t2| ≤ 0.0000000001)
    (h3 : |t3 - (lc + K)| ≤ u * |lc + K|) (hhh : |hh - (t3 + t1)| ≤ u * |t3 + t1|) (hg : |g - (t3 - hh)| ≤ u * |t3 - hh|) (hf : |f - (t1 + t2)| ≤ u * |t1 + t2|)
    (hl : |ll - (g + f)| ≤ u * |g + f|) (hq : |q - P| ≤ u / 16) (hq1 : |q| ≤ 0.0015)
    (hm : |m - (q + hh)| ≤ u * (1 + u) * |q| + u * |q + hh| + 2 * t) (hres : |res - (ll + m)| ≤ u * |ll + m|)
    (hP : |R1 + P - Real.log (1 + r) / Real.log 2| ≤ pe) :
    |res - (K + Real.log z / Real.log 2)| ≤ pe + 5 * u * (1 + |K + Real.log z / Real.log 2|) := by
  set L2 := Real.log 2 with hL2
  have hL2a : (0.6931 : ℝ) ≤ L2 := by have := Real.log_two_gt_d9; rw [hL2]; linarith
  have hL0 : L2 ≠ 0 := by linarith
  set Y := K + Real.log z / L2 with hY
  set a := |Y| with ha
  have ha0 : 0 ≤ a := abs_nonneg _
  obtain ⟨zr1, zr2⟩ := abs_le.1 hzr
  obtain ⟨r1, r2⟩ := abs_le.1 hr
  have hu2 : u ≤ 1 / 1000000 := le_trans hu1 (by norm_num)
  have hrb : |r| ≤ 1 / 22 := by rw [abs_le]; constructor <;> linarith
  have hlogr : |Real.log (1 + r) - Real.log (z * inv)| ≤ u * 1.2 := by
    have := log_lip (a := 1 + r) (b := z * inv) (m := 0.95) (by norm_num) (by linarith [(abs_le.1 hrb).1]) (by linarith)
    refine le_trans this ?_
    rw [show 1 + r - z * inv = r - (z * inv - 1) by ring, div_le_iff₀ (by norm_num)]
    linarith
  have hlogz : Real.log (z * inv) = Real.log z + Real.log inv := Real.log_mul hz.ne' hinv.ne'
  have hlzi : |Real.log (z * inv)| ≤ 0.046 := by
    have := log_lip (a := z * inv) (b := 1) (m := 0.95) (by norm_num) (by linarith) (by norm_num)
    rw [Real.log_one, sub_zero] at this
    refine le_trans this ?_
    rw [div_le_iff₀ (by norm_num)]; linarith
  have d1 := div_log2 hlogr
  have d2 := div_log2 hlzi
  have d3 := div_log2 hlc
  rw [← hL2] at d1 d2 d3
  have e0 : lc + K = Y - Real.log (z * inv) / L2 + (lc * L2 + Real.log inv) / L2 := by
    rw [hY, hlogz]; field_simp; ring
  have h4 := abs_le.1 (le_refl |Y|)
  rw [← ha] at h4
  have hua : u * a ≤ a / 1000000 := by rw [mul_comm]; have := mul_le_mul_of_nonneg_left hu2 ha0; linarith
  have hua0 : 0 ≤ u * a := by positivity
  have A1 := abs_le.1 d2; have A2 := abs_le.1 d3
  have hS0 : |lc + K| ≤ a + 0.067 := by
    rw [e0]
    rw [abs_le]; constructor <;> linarith [A1.1, A1.2, A2.1, A2.2, h4.1, h4.2]
  have h3' : |t3 - (lc + K)| ≤ u * (a + 0.067) := le_trans h3 (mul_le_mul_of_nonneg_left hS0 hu.le)
  have A3 := abs_le.1 h3'; have A4 := abs_le.1 hS0; have A5 := abs_le.1 h1b
  have hs : |t3 + t1| ≤ 1.0001 * a + 0.14 := by
    rw [abs_le]; constructor <;> linarith [A3.1, A3.2, A4.1, A4.2, A5.1, A5.2]
  have hhh' : |hh - (t3 + t1)| ≤ u * (1.0001 * a + 0.14) := le_trans hhh (mul_le_mul_of_nonneg_left hs hu.le)
  have A6 := abs_le.1 hhh'
  have hg0 : |t3 - hh| ≤ 0.064 + u * (1.0001 * a + 0.14) := by
    rw [abs_le]; constructor <;> linarith [A6.1, A6.2, A5.1, A5.2]
  have huu : u * (u * (1.0001 * a + 0.14)) ≤ u * (0.001 * a + 0.001) := by
    apply mul_le_mul_of_nonneg_left _ hu.le
    nlinarith
  have hg' : |g - (t3 - hh)| ≤ u * (0.065 + 0.001 * a) := by
    refine le_trans hg (le_trans (mul_le_mul_of_nonneg_left hg0 hu.le) ?_)
    linarith
  have A7 := abs_le.1 hg'; have A8 := abs_le.1 h2b
  have hf0 : |t1 + t2| ≤ 0.064 := by
    rw [abs_le]; constructor <;> linarith [A5.1, A5.2, A8.1, A8.2]
  have hf' : |f - (t1 + t2)| ≤ u * 0.064 := le_trans hf (mul_le_mul_of_nonneg_left hf0 hu.le)
  have A9 := abs_le.1 hf'
  have hl0 : |g + f| ≤ 0.0001 + 0.0001 * a := by
    rw [abs_le]; constructor <;> linarith [A9.1, A9.2, A7.1, A7.2, A6.1, A6.2, A8.1, A8.2]
  have hl' : |ll - (g + f)| ≤ u * (0.0001 + 0.0001 * a) := le_trans hl (mul_le_mul_of_nonneg_left hl0 hu.le)
  have B1 := abs_le.1 hl'; have B2 := abs_le.1 hq1; have B2' := abs_le.1 hl0
  have hm0 : |q + hh| ≤ 1.001 * a + 0.143 := by
    have := abs_le.1 hs
    rw [abs_le]; constructor <;> linarith [A6.1, A6.2, B2.1, B2.2, this.1, this.2]
  have hm' : |m - (q + hh)| ≤ u * (1.001 * a + 0.15) := by
    refine le_trans hm ?_
    have h1 : u * (1 + u) * |q| ≤ u * (1.001 * 0.0015) := by
      rw [mul_assoc]
      refine mul_le_mul_of_nonneg_left ?_ hu.le
      exact mul_le_mul (by linarith) hq1 (abs_nonneg _) (by norm_num)
    have h2 := mul_le_mul_of_nonneg_left hm0 hu.le
    linarith
  have B3 := abs_le.1 hm'
  have hr0 : |ll + m| ≤ 1.002 * a + 0.15 := by
    have := abs_le.1 hm0
    rw [abs_le]; constructor <;> linarith [B3.1, B3.2, B1.1, B1.2, B2'.1, B2'.2, this.1, this.2]
  have hres' : |res - (ll + m)| ≤ u * (1.002 * a + 0.15) := le_trans hres (mul_le_mul_of_nonneg_left hr0 hu.le)
  have B4 := abs_le.1 hres'; have B5 := abs_le.1 hq; have B6 := abs_le.1 h12; have B7 := abs_le.1 hP; have B8 := abs_le.1 d1
  rw [show res - Y = (res - (ll + m)) + (ll - (g + f)) + (g - (t3 - hh)) + (f - (t1 + t2)) + (m - (q + hh)) + (t1 + t2 - R1) + (t3 - (lc + K)) + (q - P) + (R1 + P - Real.log (1 + r) / L2) + (Real.log (1 + r) - Real.log (z * inv)) / L2 + (lc * L2 + Real.log inv) / L2 by
    rw [show Y = lc + K + Real.log (z * inv) / L2 - (lc * L2 + Real.log inv) / L2 by rw [e0]; ring]; ring]
  rw [abs_le]
  constructor <;> linarith [B4.1, B4.2, B1.1, B1.2, A7.1, A7.2, A9.1, A9.2, B3.1, B3.2, B6.1, B6.2, A3.1, A3.2, B5.1, B5.2, B7.1, B7.2, B8.1, B8.2, A2.1, A2.2]
end Dpm.X86
