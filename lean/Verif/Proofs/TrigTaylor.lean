import Mathlib.Analysis.Complex.Trigonometric
import Mathlib.Analysis.Real.Pi.Bounds
/-! Taylor polynomials of sine and cosine with their remainders, and pi/4 to 30 digits. -/
namespace Dpm.X86

noncomputable def sinT (n : Nat) (z : ℝ) : ℝ := ∑ k ∈ Finset.range n, (-1) ^ k * z ^ (2 * k + 1) / ((2 * k + 1).factorial : ℝ)
noncomputable def cosT (n : Nat) (z : ℝ) : ℝ := ∑ k ∈ Finset.range n, (-1) ^ k * z ^ (2 * k) / ((2 * k).factorial : ℝ)

theorem expI_sum (n : Nat) (z : ℝ) :
    ∑ m ∈ Finset.range (2 * n), ((z : ℂ) * Complex.I) ^ m / (m.factorial : ℂ) = (cosT n z : ℂ) + (sinT n z : ℂ) * Complex.I := by
  induction n with
  | zero => simp [sinT, cosT]
  | succ n ih =>
    rw [show 2 * (n + 1) = 2 * n + 1 + 1 by ring, Finset.sum_range_succ, Finset.sum_range_succ, ih]
    unfold sinT cosT
    rw [Finset.sum_range_succ, Finset.sum_range_succ]
    have e1 : ((z : ℂ) * Complex.I) ^ (2 * n) = (-1) ^ n * (z : ℂ) ^ (2 * n) := by
      rw [mul_pow, pow_mul Complex.I, Complex.I_sq]; ring
    have e2 : ((z : ℂ) * Complex.I) ^ (2 * n + 1) = (-1) ^ n * (z : ℂ) ^ (2 * n + 1) * Complex.I := by
      rw [pow_succ, e1, pow_succ]; ring
    rw [e1, e2]
    push_cast
    ring

theorem taylor_err {z : ℝ} {n : Nat} (h : |z| / (2 * n + 1) ≤ 1 / 2) :
    |Real.sin z - sinT n z| ≤ |z| ^ (2 * n) / ((2 * n).factorial : ℝ) * 2 ∧ |Real.cos z - cosT n z| ≤ |z| ^ (2 * n) / ((2 * n).factorial : ℝ) * 2 := by
  have hz : ‖(z : ℂ) * Complex.I‖ = |z| := by
    rw [norm_mul, Complex.norm_I, mul_one, Complex.norm_real, Real.norm_eq_abs]
  have hb := Complex.exp_bound' (x := (z : ℂ) * Complex.I) (n := 2 * n) (by rw [hz]; push_cast; exact h)
  rw [expI_sum, hz, Complex.exp_mul_I] at hb
  have e : Complex.cos z + Complex.sin z * Complex.I - ((cosT n z : ℂ) + (sinT n z : ℂ) * Complex.I)
      = ((Real.cos z - cosT n z : ℝ) : ℂ) + ((Real.sin z - sinT n z : ℝ) : ℂ) * Complex.I := by push_cast; ring
  rw [e] at hb
  constructor
  · refine le_trans ?_ hb
    refine le_trans (le_of_eq ?_) (Complex.abs_im_le_norm _)
    simp
    rfl
  · refine le_trans ?_ hb
    refine le_trans (le_of_eq ?_) (Complex.abs_re_le_norm _)
    simp
    rfl

/-- `pi/4` to 30 digits -/
theorem lt_quarter_pi {q : ℝ} (h0 : 0 ≤ q) (h1 : q ≤ 1) (h : sinT 15 q + 1 / 10 ^ 31 < cosT 15 q) : q < Real.pi / 4 := by
  have hq : |q| ≤ 1 := by rw [abs_of_nonneg h0]; exact h1
  obtain ⟨hs, hc⟩ := taylor_err (z := q) (n := 15) (le_trans (div_le_div_of_nonneg_right hq (by norm_num)) (by norm_num))
  have hb : |q| ^ (2 * 15) / ((2 * 15).factorial : ℝ) * 2 ≤ 1 / (2 * 10 ^ 31) := by
    refine le_trans (mul_le_mul_of_nonneg_right (div_le_div_of_nonneg_right (pow_le_one₀ (abs_nonneg _) hq) (by positivity)) (by norm_num)) ?_
    norm_num [Nat.factorial]
  have hlt : Real.sin q < Real.cos q := by
    have a := abs_le.1 (le_trans hs hb)
    have b := abs_le.1 (le_trans hc hb)
    have : (1:ℝ) / 10 ^ 31 = 1 / (2 * 10 ^ 31) + 1 / (2 * 10 ^ 31) := by norm_num
    linarith [a.2, b.1]
  have hpi := Real.pi_gt_three
  rw [← Real.sin_pi_div_two_sub] at hlt
  have := (Real.strictMonoOn_sin.lt_iff_lt ⟨by linarith, by linarith⟩ ⟨by linarith, by linarith⟩).1 hlt
  linarith
theorem quarter_pi_lt {q : ℝ} (h0 : 0 ≤ q) (h1 : q ≤ 1) (h : cosT 15 q + 1 / 10 ^ 31 < sinT 15 q) : Real.pi / 4 < q := by
  have hq : |q| ≤ 1 := by rw [abs_of_nonneg h0]; exact h1
  obtain ⟨hs, hc⟩ := taylor_err (z := q) (n := 15) (le_trans (div_le_div_of_nonneg_right hq (by norm_num)) (by norm_num))
  have hb : |q| ^ (2 * 15) / ((2 * 15).factorial : ℝ) * 2 ≤ 1 / (2 * 10 ^ 31) := by
    refine le_trans (mul_le_mul_of_nonneg_right (div_le_div_of_nonneg_right (pow_le_one₀ (abs_nonneg _) hq) (by positivity)) (by norm_num)) ?_
    norm_num [Nat.factorial]
  have hlt : Real.cos q < Real.sin q := by
    have a := abs_le.1 (le_trans hs hb)
    have b := abs_le.1 (le_trans hc hb)
    have : (1:ℝ) / 10 ^ 31 = 1 / (2 * 10 ^ 31) + 1 / (2 * 10 ^ 31) := by norm_num
    linarith [a.1, b.2]
  have hpi := Real.pi_gt_three
  rw [← Real.sin_pi_div_two_sub] at hlt
  have := (Real.strictMonoOn_sin.lt_iff_lt ⟨by linarith, by linarith⟩ ⟨by linarith, by linarith⟩).1 hlt
  linarith
theorem quarter_pi : (785398163397448309615660845818:ℝ) / 10 ^ 30 < Real.pi / 4 ∧ Real.pi / 4 < (785398163397448309615660845822:ℝ) / 10 ^ 30 := by
  constructor
  · apply lt_quarter_pi (by norm_num) (by norm_num)
    unfold sinT cosT
    norm_num [Finset.sum_range_succ, Nat.factorial]
  · apply quarter_pi_lt (by norm_num) (by norm_num)
    unfold sinT cosT
    norm_num [Finset.sum_range_succ, Nat.factorial]
end Dpm.X86
