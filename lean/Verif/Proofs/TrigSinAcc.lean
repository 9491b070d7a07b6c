import Verif.Proofs.TrigRnd
namespace Dpm.X86
open Dpm.Reg Dpm.Fp Dpm.Poly
/-! ### the sine kernel -/
theorem sin_real {u τ Z t' q s r Q Q' : ℝ} (hu : 0 < u) (hu1 : u ≤ 1 / 2 ^ 24) (ht : 0 < τ) (ht1 : τ ≤ 1 / 2 ^ 150) (hZ : Z ^ 2 ≤ 9 / 4)
    (h1 : |t' - Z ^ 2| ≤ u * Z ^ 2 + τ) (h2 : |q - Q'| ≤ u * (24 / 100)) (hQ' : |Q'| ≤ 187 / 1000) (hl : |Q' - Q| ≤ 1 / 100 * |t' - Z ^ 2|)
    (hQ : |Q| ≤ 187 / 1000) (h3 : |s - q * t'| ≤ u * |q * t'| + τ)
    (h4 : |r - (s * Z + Z)| ≤ u * (1 + u) * |s * Z| + u * |s * Z + Z| + 2 * τ) (h5 : |Z + Z * (Z ^ 2 * Q)| ≤ 1.001 * |Z|) :
    |r - (Z + Z * (Z ^ 2 * Q))| ≤ u * |Z| * (1.002 + 0.85 * Z ^ 2) + 6 * τ := by
  have hA0 := abs_nonneg Z
  have hA : |Z| ≤ 3 / 2 := by
    rw [← sq_abs] at hZ; nlinarith
  have ht0 : 0 ≤ Z ^ 2 := sq_nonneg Z
  generalize hT : Z ^ 2 = t at *
  have hut : 0 ≤ u * t := mul_nonneg hu.le ht0
  have huτ : u * τ ≤ τ * (1 / 2 ^ 24) := by rw [mul_comm]; exact mul_le_mul_of_nonneg_left hu1 ht.le
  have huτ0 : 0 ≤ u * τ := by positivity
  have hut1 : u * t ≤ 0.0001 * t := mul_le_mul_of_nonneg_right (le_trans hu1 (by norm_num)) ht0
  have hut2 : u * t ≤ 0.0003 := le_trans hut1 (by linarith)
  have a1 : |t'| ≤ 1.0001 * t + τ := by
    have := abs_le_of_sub h1 (show |t| ≤ t by rw [abs_of_nonneg ht0])
    linarith
  have a2 : |q| ≤ 0.1871 := by
    have := abs_le_of_sub h2 hQ'
    have h6 : u * (24 / 100) ≤ 0.0001 := by linarith [le_trans hu1 (show (1:ℝ) / 2 ^ 24 ≤ 0.0001 by norm_num)]
    linarith
  have a3 : |q * t'| ≤ 0.1872 * t + τ := by
    refine le_trans (mul_bd a2 a1) ?_
    linarith
  have a4 : |s - q * t'| ≤ 0.1872 * (u * t) + 1.1 * τ := by
    refine le_trans h3 ?_
    have := mul_le_mul_of_nonneg_left a3 hu.le
    linarith
  have a5 : |q - Q| ≤ 0.2626 * u + 0.01 * τ := by
    refine le_trans (abs_sub_le _ Q' _) ?_
    have h6 : |Q' - Q| ≤ 1 / 100 * (u * t + τ) := le_trans hl (by linarith)
    have h7 : u * t ≤ u * (9 / 4) := mul_le_mul_of_nonneg_left hZ hu.le
    linarith
  have a6 : |q * t' - Q * t| ≤ 0.45 * (u * t) + 0.22 * τ := by
    have h6 : |q * t' - Q * t| ≤ (0.2626 * u + 0.01 * τ) * (1.0001 * t + τ) + 187 / 1000 * (u * t + τ) := by
      refine prod_err a5 h1 hQ a1
    refine le_trans h6 ?_
    have h7 : τ * t ≤ τ * (9 / 4) := mul_le_mul_of_nonneg_left hZ ht.le
    have h8 : τ * τ ≤ τ * (1 / 2 ^ 24) := mul_le_mul_of_nonneg_left (le_trans ht1 (by norm_num)) ht.le
    nlinarith
  have a7 : |s - Q * t| ≤ 0.64 * (u * t) + 1.4 * τ := by
    refine le_trans (abs_sub_le _ (q * t') _) ?_
    linarith
  have hτ2 : τ ≤ 0.00001 := le_trans ht1 (by norm_num)
  have hQt : |Q * t| ≤ 187 / 1000 * t := by
    rw [abs_mul, abs_of_nonneg ht0]; exact mul_le_mul_of_nonneg_right hQ ht0
  have a8 : |s| ≤ 0.1871 * t + 1.4 * τ := by
    have := abs_le_of_sub a7 hQt
    linarith
  have a9 : |s * Z + Z - (Z + Z * (t * Q))| ≤ |Z| * (0.64 * (u * t) + 1.4 * τ) := by
    rw [show s * Z + Z - (Z + Z * (t * Q)) = Z * (s - Q * t) by ring, abs_mul]
    exact mul_le_mul_of_nonneg_left a7 hA0
  have a10 : |s * Z| ≤ |Z| * (0.1871 * t + 1.4 * τ) := by
    rw [abs_mul, mul_comm]; exact mul_le_mul_of_nonneg_left a8 hA0
  have a11 : |s * Z + Z| ≤ |Z| * 1.0015 := by
    have := abs_le_of_sub a9 h5
    refine le_trans this ?_
    have : |Z| * (0.64 * (u * t) + 1.4 * τ) ≤ |Z| * 0.0005 := mul_le_mul_of_nonneg_left (by linarith) hA0
    linarith
  refine le_trans (abs_sub_le _ (s * Z + Z) _) ?_
  have hu2 : u * (1 + u) ≤ 1.0001 * u := by nlinarith
  have b1 : u * (1 + u) * |s * Z| ≤ 1.0001 * u * (|Z| * (0.1871 * t + 1.4 * τ)) := mul_le_mul hu2 a10 (abs_nonneg _) (by positivity)
  have b2 : u * |s * Z + Z| ≤ u * (|Z| * 1.0015) := mul_le_mul_of_nonneg_left a11 hu.le
  have b3 : |Z| * τ ≤ 3 / 2 * τ := mul_le_mul_of_nonneg_right hA ht.le
  have b4 : u * (|Z| * τ) ≤ 0.0001 * (3 / 2 * τ) := mul_le_mul (le_trans hu1 (by norm_num)) b3 (by positivity) (by norm_num)
  have b5 : 0 ≤ u * |Z| * t := by positivity
  have b6 : 0 ≤ u * |Z| := by positivity
  have c1 : 1.0001 * u * (|Z| * (0.1871 * t + 1.4 * τ)) = 0.18711871 * (u * |Z| * t) + 1.40014 * (u * (|Z| * τ)) := by ring
  have c2 : |Z| * (0.64 * (u * t) + 1.4 * τ) = 0.64 * (u * |Z| * t) + 1.4 * (|Z| * τ) := by ring
  rw [c1] at b1
  rw [c2] at a9
  have c3 : u * |Z| * (1.002 + 0.85 * t) = 1.002 * (u * |Z|) + 0.85 * (u * |Z| * t) := by ring
  rw [c3]
  have c4 : u * (|Z| * 1.0015) = 1.0015 * (u * |Z|) := by ring
  rw [c4] at b2
  linarith
theorem sq_rnd {w : Nat} (h : W w) {z : BitVec w} (hz : isFinite z = true) (hb : |rv z| ≤ 3 / 2) :
    isFinite (fmul z z) = true ∧ |rv (fmul z z) - rv z ^ 2| ≤ ulpHalf w * rv z ^ 2 + tiny w ∧ |rv (fmul z z)| ≤ 9 / 4 + 1 / 1000 ∧ rv z ^ 2 ≤ 9 / 4 := by
  have h2 := sq_le hb
  have hb2 : (9 / 4 : ℝ) ≤ 2 ^ bias w := by
    have : (2:ℝ) ^ 22 ≤ 2 ^ bias w := pow_le_pow_right₀ (by norm_num) (by rcases h with h | h <;> subst h <;> decide)
    exact le_trans (by norm_num) this
  have hab : |rv z * rv z| = rv z ^ 2 := by rw [← sq, abs_of_nonneg (sq_nonneg _)]
  obtain ⟨f, e⟩ := fmul_e h hz hz (le_trans (le_of_eq hab) (le_trans h2 (le_trans (by norm_num) hb2)))
  rw [hab, ← sq] at e
  have h3 : ulpHalf w * rv z ^ 2 ≤ 1 / 2 ^ 24 * (3 / 2) ^ 2 := mul_le_mul (ulp_le h) h2 (sq_nonneg _) (by norm_num)
  have h4 := tiny_le h
  refine ⟨f, e, ?_, le_trans h2 (by norm_num)⟩
  have := abs_le_of_sub e (show |rv z ^ 2| ≤ 9 / 4 by rw [abs_of_nonneg (sq_nonneg _)]; exact le_trans h2 (by norm_num))
  refine le_trans this ?_
  have h5 : (1:ℝ) / 2 ^ 24 * (3 / 2) ^ 2 + 1 / 2 ^ 150 ≤ 1 / 1000 := by norm_num
  linarith
/-- the sine kernel against the exact polynomial -/
theorem sinPol_rnd {w : Nat} (h : W w) (fm : Bool) {z : BitVec w} (hz : isFinite z = true) (hb : |rv z| ≤ 3 / 2)
    (h5 : |rv z + rv z * (rv z ^ 2 * polR (sincof w) (rv z ^ 2))| ≤ 1.001 * |rv z|) :
    isFinite (sinPol fm z) = true ∧
    |rv (sinPol fm z) - (rv z + rv z * (rv z ^ 2 * polR (sincof w) (rv z ^ 2)))| ≤ ulpHalf w * |rv z| * (1.002 + 0.85 * rv z ^ 2) + 6 * tiny w := by
  obtain ⟨f1, e1, b1, b2⟩ := sq_rnd h hz hb
  obtain ⟨f2, e2, b3⟩ := sin_pol_rnd h fm f1 b1
  have hb2 : (2:ℝ) ^ 22 ≤ 2 ^ bias w := pow_le_pow_right₀ (by norm_num) (by rcases h with h | h <;> subst h <;> decide)
  have hu := ulp_pos w
  have hu1 := ulp_le h
  have ht := tiny_pos w
  have ht1 := tiny_le h
  have hq : |rv (polL fm (fmul z z) (sincof w))| ≤ 1 := by
    have := abs_le_of_sub e2 b3
    have h6 : ulpHalf w * (24 / 100) ≤ 1 / 2 ^ 24 * (24 / 100) := mul_le_mul_of_nonneg_right hu1 (by norm_num)
    have : (1:ℝ) / 2 ^ 24 * (24 / 100) + 187 / 1000 ≤ 1 := by norm_num
    linarith
  obtain ⟨f3, e3⟩ := fmul_e h f2 f1 (le_trans (mul_bd hq b1) (le_trans (by norm_num) hb2))
  have hsb : |rv (fmul (polL fm (fmul z z) (sincof w)) (fmul z z))| ≤ 4 := by
    have h7 := mul_bd hq b1
    have := abs_le_of_sub e3 h7
    have h6 : ulpHalf w * |rv (polL fm (fmul z z) (sincof w)) * rv (fmul z z)| ≤ 1 / 2 ^ 24 * (1 * (9 / 4 + 1 / 1000)) := mul_le_mul hu1 h7 (abs_nonneg _) (by norm_num)
    have : (1:ℝ) / 2 ^ 24 * (1 * (9 / 4 + 1 / 1000)) + 1 / 2 ^ 150 + (1 * (9 / 4 + 1 / 1000)) ≤ 4 := by norm_num
    linarith
  obtain ⟨f4, e4⟩ := fmaL_e h fm f3 hz hz (M := 6) (le_trans (by norm_num) hb2) (by norm_num) (le_trans (mul_bd hsb hb) (by norm_num)) (le_trans hb (by norm_num))
  refine ⟨f4, ?_⟩
  obtain ⟨l1, l2⟩ := sin_lip h b1 (show |rv z ^ 2| ≤ 9 / 4 + 1 / 1000 by rw [abs_of_nonneg (sq_nonneg _)]; linarith)
  exact sin_real hu hu1 ht ht1 b2 e1 e2 b3 l1 l2 e3 e4 h5
/-- the sine kernel against sine, arguments in the range of the polynomial -/
theorem sinPol_acc {w : Nat} (h : W w) (fm : Bool) {z : BitVec w} (hz : isFinite z = true) (hb : |rv z| ≤ zmax w) :
    isFinite (sinPol fm z) = true ∧ |rv (sinPol fm z) - Real.sin (rv z)| ≤ ulpHalf w * |rv z| * (1.17 + 0.85 * rv z ^ 2) + 6 * tiny w := by
  have hm : zmax w ≤ 3 / 2 := by rcases h with h | h <;> subst h; · rw [zmax32]
                                 · rw [zmax64]; norm_num
  have ex := sin_ex h hb
  have hu := ulp_pos w
  have hu1 := ulp_le h
  have h5 : |rv z + rv z * (rv z ^ 2 * polR (sincof w) (rv z ^ 2))| ≤ 1.001 * |rv z| := by
    have := abs_le_of_sub ex (Real.abs_sin_le_abs (x := rv z))
    refine le_trans this ?_
    have h6 : 21 / 128 * ulpHalf w * |rv z| ≤ 0.001 * |rv z| := mul_le_mul_of_nonneg_right (by
      have : 21 / 128 * ulpHalf w ≤ 21 / 128 * (1 / 2 ^ 24) := mul_le_mul_of_nonneg_left hu1 (by norm_num)
      exact le_trans this (by norm_num)) (abs_nonneg _)
    linarith
  obtain ⟨f, e⟩ := sinPol_rnd h fm hz (le_trans hb hm) h5
  refine ⟨f, le_trans (abs_sub_le _ _ _) (le_trans (add_le_add e ex) ?_)⟩
  have : 0 ≤ ulpHalf w * |rv z| := by positivity
  nlinarith
theorem sinPol_wide (fm : Bool) {z : BitVec 64} (hz : isFinite z = true) (hb : |rv z| ≤ 12 / 10) :
    isFinite (sinPol fm z) = true ∧ |rv (sinPol fm z) - Real.sin (rv z)| ≤ 20904 * ulpHalf 64 * |rv z| + 6 * tiny 64 := by
  have ex := sin_ex_wide hb
  have hu := ulp_pos 64
  have h5 : |rv z + rv z * (rv z ^ 2 * polR (sincof 64) (rv z ^ 2))| ≤ 1.001 * |rv z| := by
    have := abs_le_of_sub ex (Real.abs_sin_le_abs (x := rv z))
    refine le_trans this ?_
    have h6 : 20901 * ulpHalf 64 * |rv z| ≤ 0.001 * |rv z| := mul_le_mul_of_nonneg_right (by rw [ulp64]; norm_num) (abs_nonneg _)
    linarith
  obtain ⟨f, e⟩ := sinPol_rnd W_64 fm hz (le_trans hb (by norm_num)) h5
  refine ⟨f, le_trans (abs_sub_le _ _ _) (le_trans (add_le_add e ex) ?_)⟩
  have h1 : 0 ≤ ulpHalf 64 * |rv z| := by positivity
  have h2 := sq_le hb
  nlinarith
end Dpm.X86
