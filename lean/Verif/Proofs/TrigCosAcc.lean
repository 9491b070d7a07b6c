import Verif.Proofs.TrigSinAcc
/-! The cosine kernel. -/
namespace Dpm.X86
open Dpm.Reg Dpm.Fp Dpm.Poly

theorem half_consts {w : Nat} (h : W w) : isFinite (mhalfBits w) = true ∧ rv (mhalfBits w) = -(1 / 2) ∧ isFinite (oneBits w) = true ∧ rv (oneBits w) = 1 := by
  have a : isFinite (mhalfBits w) = true ∧ val (mhalfBits w) * 2 = -2 ^ unitExp w ∧ isFinite (oneBits w) = true ∧ val (oneBits w) = 2 ^ unitExp w := by
    rcases h with h | h <;> subst h <;> decide +kernel
  have hM : (0 : ℝ) < 2 ^ unitExp w := by positivity
  refine ⟨a.1, ?_, a.2.2.1, ?_⟩
  · have : (val (mhalfBits w) : ℝ) * 2 = -2 ^ unitExp w := by exact_mod_cast a.2.1
    unfold rv; rw [div_eq_iff hM.ne']; linarith
  · have : (val (oneBits w) : ℝ) = 2 ^ unitExp w := by exact_mod_cast a.2.2.2
    unfold rv; rw [this, div_self hM.ne']

set_option maxHeartbeats 1000000 in
/-- the cosine kernel against the exact polynomial; `X` bounds the squared argument -/
theorem cosPol_rnd {w : Nat} (h : W w) (fm : Bool) {z : BitVec w} (hz : isFinite z = true) {X K : ℝ} (hX : 1.0001 * rv z ^ 2 + 1 / 2 ^ 90 ≤ X) (hX2 : X ≤ 9 / 4 + 1 / 1000)
    (hb : |rv z| ≤ 3 / 2)
    (h5 : |1 - rv z ^ 2 / 2 + rv z ^ 2 * rv z ^ 2 * polR (coscof w) (rv z ^ 2)| ≤ 1.001)
    (hK : 1.0025 + (1.01 * X + 0.2 * X ^ 2) + (0.5 + 0.09 * X + 0.002 * X ^ 2) * X ≤ K) :
    isFinite (cosPol fm z) = true ∧
    |rv (cosPol fm z) - (1 - rv z ^ 2 / 2 + rv z ^ 2 * rv z ^ 2 * polR (coscof w) (rv z ^ 2))| ≤ ulpHalf w * K := by
  obtain ⟨f1, e1, b1, b2⟩ := sq_rnd h hz hb
  obtain ⟨f2, e2, b3⟩ := cos_pol_rnd h fm f1 b1
  have hu := ulp_pos w
  have hu1 := ulp_le h
  have hu2 : ulpHalf w ≤ 0.0000001 := le_trans hu1 (by norm_num)
  have ht := tiny_pos w
  have ht0 : 0 ≤ rv z ^ 2 := sq_nonneg _
  have htu : tiny w ≤ ulpHalf w * (1 / 2 ^ 90) := by
    rcases h with h | h <;> subst h
    · rw [ulp32]; unfold tiny; simp only [unitExp, if_true]; norm_num
    · exact le_trans tiny64_le (by rw [ulp64]; norm_num)
  have htX : rv z ^ 2 ≤ X := by have : (0:ℝ) < 1 / 2 ^ 90 := by norm_num
                                linarith
  have hX0 : 0 ≤ X := le_trans ht0 htX
  have b4 : |rv (fmul z z)| ≤ X := by
    have := abs_le_of_sub e1 (show |rv z ^ 2| ≤ rv z ^ 2 by rw [abs_of_nonneg ht0])
    have h6 : ulpHalf w * rv z ^ 2 ≤ 0.0001 * rv z ^ 2 := mul_le_mul_of_nonneg_right (le_trans hu2 (by norm_num)) ht0
    have h7 := tiny_le h
    have h8 : (1:ℝ) / 2 ^ 150 ≤ 1 / 2 ^ 90 := by norm_num
    linarith
  have e1' : |rv (fmul z z) - rv z ^ 2| ≤ ulpHalf w * X := by
    refine le_trans e1 ?_
    have : ulpHalf w * (rv z ^ 2 + 1 / 2 ^ 90) ≤ ulpHalf w * X := mul_le_mul_of_nonneg_left (by linarith) hu.le
    linarith
  obtain ⟨l1, l2⟩ := cos_lip h b1 (show |rv z ^ 2| ≤ 9 / 4 + 1 / 1000 by rw [abs_of_nonneg ht0]; linarith)
  -- z^4
  have hXX : X * X ≤ 6 := by nlinarith
  obtain ⟨f3, e3⟩ := mul_bd_e h f1 f1 (mul_bd b4 b4) (by linarith)
  have hn90 : (1:ℝ) / 2 ^ 90 ≤ 0.0000001 := by norm_num
  have b5 : |rv (fmul (fmul z z) (fmul z z))| ≤ X * X + 0.000001 := by
    have := abs_le_of_sub e3 (mul_bd b4 b4)
    have h6 : ulpHalf w * (X * X + 1 / 2 ^ 90) ≤ 0.0000001 * 7 := mul_le_mul hu2 (by linarith) (by positivity) (by norm_num)
    linarith
  have hq : |rv (polL fm (fmul z z) (coscof w))| ≤ 0.0451 := by
    have := abs_le_of_sub e2 b3
    have h6 : ulpHalf w * (54 / 1000) ≤ 0.0000001 * (54 / 1000) := mul_le_mul_of_nonneg_right hu2 (by norm_num)
    linarith
  have hp4 : |rv (polL fm (fmul z z) (coscof w)) * rv (fmul (fmul z z) (fmul z z))| ≤ 0.0451 * (X * X + 0.000001) := mul_bd hq b5
  obtain ⟨f4, e4⟩ := mul_bd_e h f2 f3 hp4 (by linarith)
  have e4' : |rv (fmul (polL fm (fmul z z) (coscof w)) (fmul (fmul z z) (fmul z z))) - polR (coscof w) (rv (fmul z z)) * (rv (fmul z z) * rv (fmul z z))|
      ≤ ulpHalf w * (0.15 * (X * X) + 0.000001) := by
    have h6 := prod_err e2 e3 b3 b5
    refine le_trans (abs_sub_le _ _ _) (le_trans (add_le_add e4 h6) ?_)
    rw [show ulpHalf w * (0.0451 * (X * X + 0.000001) + 1 / 2 ^ 90) + (ulpHalf w * (54 / 1000) * (X * X + 0.000001) + 45 / 1000 * (ulpHalf w * (X * X + 1 / 2 ^ 90))) =
      ulpHalf w * (0.0451 * (X * X + 0.000001) + 1 / 2 ^ 90 + 54 / 1000 * (X * X + 0.000001) + 45 / 1000 * (X * X + 1 / 2 ^ 90)) by ring]
    exact mul_le_mul_of_nonneg_left (by linarith [mul_nonneg hX0 hX0]) hu.le
  have b6 : |polR (coscof w) (rv (fmul z z)) * (rv (fmul z z) * rv (fmul z z))| ≤ 45 / 1000 * (X * X) := mul_bd b3 (mul_bd b4 b4)
  have b7 : |rv (fmul (polL fm (fmul z z) (coscof w)) (fmul (fmul z z) (fmul z z)))| ≤ 0.0451 * (X * X) + 0.000001 := by
    have := abs_le_of_sub e4' b6
    have h6 : ulpHalf w * (0.15 * (X * X) + 0.000001) ≤ 0.0000001 * (0.15 * (X * X) + 0.000001) := mul_le_mul_of_nonneg_right hu2 (by nlinarith)
    linarith [mul_nonneg hX0 hX0]
  obtain ⟨fh, vh, fo, vo⟩ := half_consts h
  have b8 : |rv (mhalfBits w) * rv (fmul z z)| ≤ X / 2 := by
    rw [vh, abs_mul]; rw [show |-(1 / 2 : ℝ)| = 1 / 2 by norm_num]; linarith
  have b9 : |rv (mhalfBits w) * rv (fmul z z) + rv (fmul (polL fm (fmul z z) (coscof w)) (fmul (fmul z z) (fmul z z)))| ≤ X / 2 + (0.0451 * (X * X) + 0.000001) :=
    le_trans (abs_add_le _ _) (add_le_add b8 b7)
  obtain ⟨f5, e5⟩ := fma_bd h fm fh f1 f4 b8 b7 b9 (by linarith) (by linarith)
  have e5' : |rv (fmaL fm (mhalfBits w) (fmul z z) (fmul (polL fm (fmul z z) (coscof w)) (fmul (fmul z z) (fmul z z)))) -
      (-(rv (fmul z z)) / 2 + polR (coscof w) (rv (fmul z z)) * (rv (fmul z z) * rv (fmul z z)))| ≤ ulpHalf w * (1.001 * X + 0.1952 * (X * X) + 0.00001) := by
    have h6 : |rv (mhalfBits w) * rv (fmul z z) + rv (fmul (polL fm (fmul z z) (coscof w)) (fmul (fmul z z) (fmul z z))) -
        (-(rv (fmul z z)) / 2 + polR (coscof w) (rv (fmul z z)) * (rv (fmul z z) * rv (fmul z z)))| ≤ ulpHalf w * (0.15 * (X * X) + 0.000001) := by
      rw [vh]
      refine le_trans (le_of_eq ?_) e4'
      congr 1; ring
    refine le_trans (abs_sub_le _ _ _) (le_trans (add_le_add e5 h6) ?_)
    rw [← mul_add]
    exact mul_le_mul_of_nonneg_left (by linarith [mul_nonneg hX0 hX0]) hu.le
  -- argument of the polynomial
  have e6 : |(-(rv (fmul z z)) / 2 + polR (coscof w) (rv (fmul z z)) * (rv (fmul z z) * rv (fmul z z))) - (- rv z ^ 2 / 2 + rv z ^ 2 * rv z ^ 2 * polR (coscof w) (rv z ^ 2))|
      ≤ (0.5 + 0.09 * X + 0.002 * (X * X)) * (ulpHalf w * X) := by
    generalize rv (fmul z z) = t' at *
    generalize polR (coscof w) t' = Q' at *
    generalize polR (coscof w) (rv z ^ 2) = Q at *
    generalize rv z ^ 2 = t at *
    rw [show -t' / 2 + Q' * (t' * t') - (-t / 2 + t * t * Q) = -((t' - t) / 2) + ((Q' - Q) * (t' * t') + Q * ((t' - t) * (t' + t))) by ring]
    have ht' : |t| ≤ X := by rw [abs_of_nonneg ht0]; exact htX
    have c1 : |-((t' - t) / 2)| ≤ 0.5 * (ulpHalf w * X) := by
      rw [abs_neg, abs_div, show |(2:ℝ)| = 2 by norm_num]; linarith
    have c2 : |(Q' - Q) * (t' * t')| ≤ (2 / 1000 * (ulpHalf w * X)) * (X * X) :=
      mul_bd (le_trans l1 (mul_le_mul_of_nonneg_left e1' (by norm_num))) (mul_bd b4 b4)
    have c3 : |Q * ((t' - t) * (t' + t))| ≤ 45 / 1000 * ((ulpHalf w * X) * (X + X)) :=
      mul_bd l2 (mul_bd e1' (le_trans (abs_add_le _ _) (add_le_add b4 ht')))
    refine le_trans (abs_add_le _ _) (le_trans (add_le_add c1 (le_trans (abs_add_le _ _) (add_le_add c2 c3))) (le_of_eq (by ring)))
  have e7 := le_trans (abs_sub_le _ _ _) (add_le_add e5' e6)
  have hsum : ulpHalf w * (1.001 * X + 0.1952 * (X * X) + 0.00001) + (0.5 + 0.09 * X + 0.002 * (X * X)) * (ulpHalf w * X) =
    ulpHalf w * (1.001 * X + 0.1952 * (X * X) + 0.00001 + (0.5 + 0.09 * X + 0.002 * (X * X)) * X) := by ring
  rw [hsum] at e7
  have hY : 1.001 * X + 0.1952 * (X * X) + 0.00001 + (0.5 + 0.09 * X + 0.002 * (X * X)) * X ≤ 10 := by
    have q3 : X * X * X ≤ 6 * 3 := mul_le_mul hXX (by linarith) hX0 (by norm_num)
    rw [show 1.001 * X + 0.1952 * (X * X) + 0.00001 + (0.5 + 0.09 * X + 0.002 * (X * X)) * X = 1.501 * X + 0.2852 * (X * X) + 0.002 * (X * X * X) + 0.00001 by ring]
    linarith
  have hY0 : 0 ≤ 1.001 * X + 0.1952 * (X * X) + 0.00001 + (0.5 + 0.09 * X + 0.002 * (X * X)) * X := by positivity
  have e8 : |rv (fmaL fm (mhalfBits w) (fmul z z) (fmul (polL fm (fmul z z) (coscof w)) (fmul (fmul z z) (fmul z z)))) + rv (oneBits w) -
      (1 - rv z ^ 2 / 2 + rv z ^ 2 * rv z ^ 2 * polR (coscof w) (rv z ^ 2))| ≤ ulpHalf w * (1.001 * X + 0.1952 * (X * X) + 0.00001 + (0.5 + 0.09 * X + 0.002 * (X * X)) * X) := by
    rw [vo]
    refine le_trans (le_of_eq ?_) e7
    congr 1; ring
  have b10 : |rv (fmaL fm (mhalfBits w) (fmul z z) (fmul (polL fm (fmul z z) (coscof w)) (fmul (fmul z z) (fmul z z)))) + rv (oneBits w)| ≤ 1.002 := by
    have := abs_le_of_sub e8 h5
    have h6 : ulpHalf w * (1.001 * X + 0.1952 * (X * X) + 0.00001 + (0.5 + 0.09 * X + 0.002 * (X * X)) * X) ≤ 0.0000001 * 10 := mul_le_mul hu2 hY hY0 (by norm_num)
    linarith
  obtain ⟨f6, e9, _⟩ := add_bd_e h f5 fo b10 (by norm_num)
  refine ⟨f6, ?_⟩
  have e10 : ulpHalf w * |rv (fmaL fm (mhalfBits w) (fmul z z) (fmul (polL fm (fmul z z) (coscof w)) (fmul (fmul z z) (fmul z z)))) + rv (oneBits w)| ≤ ulpHalf w * 1.002 :=
    mul_le_mul_of_nonneg_left b10 hu.le
  refine le_trans (abs_sub_le _ _ _) (le_trans (add_le_add (le_trans e9 e10) e8) ?_)
  rw [← mul_add]
  refine mul_le_mul_of_nonneg_left (le_trans ?_ hK) hu.le
  rw [sq]
  linarith [mul_nonneg hX0 hX0]
theorem cosPol_acc {w : Nat} (h : W w) (fm : Bool) {z : BitVec w} (hz : isFinite z = true) (hb : |rv z| ≤ zmax w) :
    isFinite (cosPol fm z) = true ∧ |rv (cosPol fm z) - Real.cos (rv z)| ≤ ulpHalf w * 6.2 ∧
    (|rv z| ≤ 786 / 1000 → |rv (cosPol fm z) - Real.cos (rv z)| ≤ ulpHalf w * 2.2) := by
  have hm : zmax w ≤ 3 / 2 := by rcases h with h | h <;> subst h; · rw [zmax32]
                                 · rw [zmax64]; norm_num
  have ex := cos_ex h hb
  have hu := ulp_pos w
  have hu1 := ulp_le h
  have h5 : |1 - rv z ^ 2 / 2 + rv z ^ 2 * rv z ^ 2 * polR (coscof w) (rv z ^ 2)| ≤ 1.001 := by
    have := abs_le_of_sub ex (Real.abs_cos_le_one (rv z))
    refine le_trans this ?_
    have h6 : 14 / 128 * ulpHalf w ≤ 14 / 128 * (1 / 2 ^ 24) := mul_le_mul_of_nonneg_left hu1 (by norm_num)
    have : (14:ℝ) / 128 * (1 / 2 ^ 24) ≤ 0.001 := by norm_num
    linarith
  have h2 := sq_le (le_trans hb hm)
  obtain ⟨f, e⟩ := cosPol_rnd h fm hz (X := 2.2504) (K := 6.05) (by norm_num at h2 ⊢; linarith) (by norm_num) (le_trans hb hm) h5 (by norm_num)
  refine ⟨f, le_trans (abs_sub_le _ _ _) (le_trans (add_le_add e ex) (by linarith)), fun hb2 => ?_⟩
  have h2 := sq_le hb2
  obtain ⟨f, e⟩ := cosPol_rnd h fm hz (X := 0.6179) (K := 2.07) (by norm_num at h2 ⊢; linarith) (by norm_num) (le_trans hb hm) h5 (by norm_num)
  exact le_trans (abs_sub_le _ _ _) (le_trans (add_le_add e ex) (by linarith))
theorem cosPol_wide (fm : Bool) {z : BitVec 64} (hz : isFinite z = true) (hb : |rv z| ≤ 12 / 10) :
    isFinite (cosPol fm z) = true ∧ |rv (cosPol fm z) - Real.cos (rv z)| ≤ 1647 * ulpHalf 64 := by
  have ex := cos_ex_wide hb
  have hu := ulp_pos 64
  have h5 : |1 - rv z ^ 2 / 2 + rv z ^ 2 * rv z ^ 2 * polR (coscof 64) (rv z ^ 2)| ≤ 1.001 := by
    have := abs_le_of_sub ex (Real.abs_cos_le_one (rv z))
    refine le_trans this ?_
    rw [ulp64]; norm_num
  have h2 := sq_le hb
  obtain ⟨f, e⟩ := cosPol_rnd W_64 fm hz (X := 1.442) (K := 6) (by norm_num at h2 ⊢; linarith) (by norm_num) (le_trans hb (by norm_num)) h5 (by norm_num)
  refine ⟨f, le_trans (abs_sub_le _ _ _) (le_trans (add_le_add e ex) (by linarith))⟩
end Dpm.X86
