import Verif.Proofs.InvCert
import Verif.Proofs.TrigMain
/-! Rounding errors of the rational approximations of `atan` and `eval_asin`. -/
namespace Dpm.X86
open Dpm.Reg Dpm.Fp Dpm.Poly

/-- one step of Horner's rule -/
theorem hstep {w : Nat} (h : W w) (fm : Bool) {p t c : BitVec w} {P t0 T M e M' e' : ℝ} (fp : isFinite p = true) (ft : isFinite t = true) (fc : isFinite c = true)
    (hp : |rv p - P| ≤ ulpHalf w * e) (hM : |P| ≤ M) (ht : |rv t - t0| ≤ ulpHalf w * T) (ht0 : |t0| ≤ T - 1 / 10 ^ 6) (hT : T ≤ 1) (hC : |rv c| ≤ 2 ^ 19) (hM' : |P * t0 + rv c| ≤ M')
    (he : e ≤ 2 ^ 12) (hMb : M ≤ 2 ^ 12) (hk : 1.0001 * (e * T) + 2.0002 * (M * T) + 1.0001 * M' + 1 / 10 ^ 6 ≤ e') :
    isFinite (fmaL fm p t c) = true ∧ |rv (fmaL fm p t c) - (P * t0 + rv c)| ≤ ulpHalf w * e' := by
  have hu := ulp_pos w
  have hu1 : ulpHalf w ≤ 1 / 10 ^ 7 := le_trans (ulp_le h) (by norm_num)
  have hT0 : 0 ≤ T := by have := abs_nonneg t0; norm_num at ht0; linarith
  have he0 : 0 ≤ e := by
    have := le_trans (abs_nonneg _) hp
    exact nonneg_of_mul_nonneg_right this hu
  have hM0 : 0 ≤ M := le_trans (abs_nonneg _) hM
  have hM'0 : 0 ≤ M' := le_trans (abs_nonneg _) hM'
  have hue : ulpHalf w * e ≤ 1 / 10 ^ 7 * e := mul_le_mul_of_nonneg_right hu1 he0
  have huT : ulpHalf w * T ≤ 1 / 10 ^ 7 * 1 := mul_le_mul hu1 hT hT0 (by norm_num)
  have b1 : |rv t| ≤ T := by have := abs_le_of_sub ht ht0; norm_num at *; linarith
  have b2 : |rv p| ≤ M + 1 / 10 ^ 7 * e := by have := abs_le_of_sub hp hM; linarith
  have e1 := prod_err hp ht hM b1
  have b3 : |rv p * rv t| ≤ (M + 1 / 10 ^ 7 * e) * T := by rw [abs_mul]; exact mul_le_mul b2 b1 (abs_nonneg _) (by positivity)
  have hs : |rv p * rv t + rv c| ≤ M' + (ulpHalf w * e * T + M * (ulpHalf w * T)) := by
    have e2 : |(rv p * rv t + rv c) - (P * t0 + rv c)| ≤ ulpHalf w * e * T + M * (ulpHalf w * T) := by
      rw [add_sub_add_right_eq_sub]; exact e1
    have := abs_le_of_sub e2 hM'; linarith
  have heT : 0 ≤ e * T := mul_nonneg he0 hT0
  have hMT : 0 ≤ M * T := mul_nonneg hM0 hT0
  have heT1 : e * T ≤ 2 ^ 12 * 1 := mul_le_mul he hT hT0 (by norm_num)
  have hMT1 : M * T ≤ 2 ^ 12 * 1 := mul_le_mul hMb hT hT0 (by norm_num)
  obtain ⟨f, g⟩ := fma_bd h fm fp ft fc b3 hC hs (by
    have : (M + 1 / 10 ^ 7 * e) * T = M * T + 1 / 10 ^ 7 * (e * T) := by ring
    rw [this]; norm_num at *; linarith) (by norm_num)
  refine ⟨f, ?_⟩
  have e3 : |(rv p * rv t + rv c) - (P * t0 + rv c)| ≤ ulpHalf w * e * T + M * (ulpHalf w * T) := by
    rw [add_sub_add_right_eq_sub]; exact e1
  refine le_trans (abs_sub_tri g e3) ?_
  have e4 : ulpHalf w * (1.0001 * ((M + 1 / 10 ^ 7 * e) * T) + (M' + (ulpHalf w * e * T + M * (ulpHalf w * T))) + 1 / 2 ^ 90) + (ulpHalf w * e * T + M * (ulpHalf w * T)) =
      ulpHalf w * (1.0001 * (M * T) + 1.0001 / 10 ^ 7 * (e * T) + M' + ulpHalf w * (e * T) + ulpHalf w * (M * T) + 1 / 2 ^ 90 + e * T + M * T) := by ring
  rw [e4]
  refine mul_le_mul_of_nonneg_left ?_ hu.le
  have k1 : ulpHalf w * (e * T) ≤ 1 / 10 ^ 7 * (e * T) := mul_le_mul_of_nonneg_right hu1 heT
  have k2 : ulpHalf w * (M * T) ≤ 1 / 10 ^ 7 * (M * T) := mul_le_mul_of_nonneg_right hu1 hMT
  norm_num at k1 k2 hk ⊢; linarith
/-- the first coefficient -/
theorem hstart {w : Nat} (c : BitVec w) : |rv c - rv c| ≤ ulpHalf w * 0 := by simp
theorem alt_pos {P t T M c C : ℝ} (h0 : 0 ≤ P) (h1 : P ≤ M) (t0 : 0 ≤ t) (t1 : t ≤ T) (c0 : -C ≤ c) (c1 : c ≤ -(M * T)) : -C ≤ P * t + c ∧ P * t + c ≤ 0 := by
  have a : 0 ≤ P * t := mul_nonneg h0 t0
  have b : P * t ≤ M * T := mul_le_mul h1 t1 t0 (le_trans h0 h1)
  constructor <;> linarith
theorem alt_neg {P t T M c C : ℝ} (h0 : -M ≤ P) (h1 : P ≤ 0) (t0 : 0 ≤ t) (t1 : t ≤ T) (c0 : M * T ≤ c) (c1 : c ≤ C) : 0 ≤ P * t + c ∧ P * t + c ≤ C := by
  have := alt_pos (P := -P) (M := M) (c := -c) (C := C) (by linarith) (by linarith) t0 t1 (by linarith) (by linarith)
  have e : -P * t + -c = -(P * t + c) := by ring
  rw [e] at this
  constructor <;> linarith [this.1, this.2]

/-- the quotient of the two polynomials, times the square -/
theorem rat_step {w : Nat} (h : W w) {p q t : BitVec w} {P Q t0 eP eQ q0 ρ d : ℝ} (fp : isFinite p = true) (fq : isFinite q = true) (ft : isFinite t = true)
    (hp : |rv p - P| ≤ ulpHalf w * eP) (hq : |rv q - Q| ≤ ulpHalf w * eQ) (hq0 : 1 ≤ q0) (hQ : q0 ≤ |Q|) (hP : |P| ≤ ρ * |Q|) (hρ0 : 0 ≤ ρ) (hρ : ρ ≤ 0.9) (ht : |rv t - t0| ≤ ulpHalf w * t0 + tiny w) (h0 : 0 ≤ t0) (h1 : t0 ≤ 0.9)
    (heP : eP ≤ 2 ^ 12) (heQ : eQ ≤ 2 ^ 12) (hd : 1.001 * (eP + ρ * eQ) ≤ d * q0) (hd2 : d ≤ 2 ^ 12) :
    isFinite (fmul t (fdiv p q)) = true ∧ |rv (fmul t (fdiv p q)) - t0 * (P / Q)| ≤ ulpHalf w * (t0 * (d + 3 * ρ + 0.01)) + 3 * tiny w := by
  have hu := ulp_pos w
  have hu1 : ulpHalf w ≤ 1 / 10 ^ 7 := le_trans (ulp_le h) (by norm_num)
  have ht0 := tiny_pos w
  have ht1 : tiny w ≤ 1 / 10 ^ 12 := le_trans (tiny_le h) (by norm_num)
  have heP0 : 0 ≤ eP := nonneg_of_mul_nonneg_right (le_trans (abs_nonneg _) hp) hu
  have heQ0 : 0 ≤ eQ := nonneg_of_mul_nonneg_right (le_trans (abs_nonneg _) hq) hu
  have hb : (2 : ℝ) ^ 35 ≤ 2 ^ bias w := pow_le_pow_right₀ (by norm_num) (by rcases h with h | h <;> subst h <;> decide)
  have hq1 : 0 < q0 := by linarith
  have hd0 : 0 ≤ d := by
    have : 0 ≤ d * q0 := le_trans (by positivity) hd
    exact nonneg_of_mul_nonneg_left this hq1
  have hQ1 : 0 < |Q| := by linarith
  have hQne : Q ≠ 0 := abs_pos.1 hQ1
  have huQ : ulpHalf w * eQ ≤ 1 / 10 ^ 7 * 2 ^ 12 := mul_le_mul hu1 heQ heQ0 (by norm_num)
  have hqq : 0.9995 * q0 ≤ |rv q| := by
    have : |Q| ≤ |Q - rv q| + |rv q| := by have := abs_add_le (Q - rv q) (rv q); rwa [sub_add_cancel] at this
    rw [abs_sub_comm] at this; norm_num at *; linarith
  have hqp : 0 < |rv q| := lt_of_lt_of_le (by positivity) hqq
  have hqne : rv q ≠ 0 := abs_pos.1 hqp
  have hz : isZero q = false := by
    cases hz : isZero q
    · rfl
    · exfalso
      have : val q = 0 := by rw [zero_iff] at hz; rw [val_zero_iff]; exact hz
      unfold rv at hqp; rw [this] at hqp; simp at hqp
  -- the quotient
  have e1 : |rv p / rv q - P / Q| ≤ ulpHalf w * d := by
    have a : rv p / rv q - P / Q = ((rv p - P) + P / Q * (Q - rv q)) / rv q := by field_simp; ring
    rw [a, abs_div, div_le_iff₀ hqp]
    have b1 : |P / Q| ≤ ρ := by rw [abs_div, div_le_iff₀ hQ1]; exact hP
    have b2 : |P / Q * (Q - rv q)| ≤ ρ * (ulpHalf w * eQ) := by
      rw [abs_mul, abs_sub_comm]; exact mul_le_mul b1 hq (abs_nonneg _) hρ0
    have b3 : |(rv p - P) + P / Q * (Q - rv q)| ≤ ulpHalf w * (eP + ρ * eQ) := le_trans (abs_add_le _ _) (le_trans (add_le_add hp b2) (le_of_eq (by ring)))
    refine le_trans b3 ?_
    have b4 : ulpHalf w * d * (0.9995 * q0) ≤ ulpHalf w * d * |rv q| := mul_le_mul_of_nonneg_left hqq (by positivity)
    refine le_trans ?_ b4
    have b5 : ulpHalf w * d * (0.9995 * q0) = ulpHalf w * (0.9995 * (d * q0)) := by ring
    rw [b5]
    refine mul_le_mul_of_nonneg_left ?_ hu.le
    have : 0 ≤ eP + ρ * eQ := by positivity
    norm_num at *; linarith
  have hud : ulpHalf w * d ≤ 1 / 10 ^ 7 * 2 ^ 12 := mul_le_mul hu1 hd2 hd0 (by norm_num)
  have hR : |P / Q| ≤ ρ := by rw [abs_div, div_le_iff₀ hQ1]; exact hP
  generalize P / Q = R at *
  have hpq : |rv p / rv q| ≤ ρ + 0.0005 := by have := abs_le_of_sub e1 hR; norm_num at *; linarith
  obtain ⟨f1, g1⟩ := fdiv_e h fp fq hz (le_trans hpq (by norm_num at *; linarith))
  have k1 : ulpHalf w * |rv p / rv q| ≤ ulpHalf w * (ρ + 0.0005) := mul_le_mul_of_nonneg_left hpq hu.le
  have g2 : |rv (fdiv p q) - R| ≤ ulpHalf w * (d + ρ + 0.0005) + tiny w := by
    refine le_trans (abs_sub_tri g1 e1) ?_
    have : ulpHalf w * (d + ρ + 0.0005) = ulpHalf w * d + ulpHalf w * (ρ + 0.0005) := by ring
    linarith
  have hdr : |rv (fdiv p q)| ≤ ρ + 0.001 := by
    have := abs_le_of_sub g2 hR
    have e : ulpHalf w * (d + ρ + 0.0005) = ulpHalf w * d + ulpHalf w * (ρ + 0.0005) := by ring
    have : ulpHalf w * (ρ + 0.0005) ≤ 1 / 10 ^ 7 * 1 := mul_le_mul hu1 (by norm_num at *; linarith) (by positivity) (by norm_num)
    norm_num at *; linarith
  generalize fdiv p q = r at *
  -- times the square
  have g3 := prod_err ht g2 (by rw [abs_of_nonneg h0]) hdr
  have ht2 : |rv t| ≤ t0 * 1.0001 + tiny w := by
    have := abs_le_of_sub ht (le_of_eq (abs_of_nonneg h0))
    have : ulpHalf w * t0 ≤ 1 / 10 ^ 7 * t0 := mul_le_mul_of_nonneg_right hu1 h0
    norm_num at *; linarith
  have hpr : |rv t * rv r| ≤ (t0 * 1.0001 + tiny w) * (ρ + 0.001) := by rw [abs_mul]; exact mul_le_mul ht2 hdr (abs_nonneg _) (by positivity)
  have hρb : (t0 * 1.0001 + tiny w) * (ρ + 0.001) ≤ (t0 * 1.0001 + tiny w) * 1 := mul_le_mul_of_nonneg_left (by norm_num at *; linarith) (by positivity)
  obtain ⟨f2, g4⟩ := fmul_e h ft f1 (le_trans hpr (le_trans hρb (by norm_num at *; linarith)))
  refine ⟨f2, le_trans (abs_sub_tri g4 g3) ?_⟩
  have k2 : ulpHalf w * |rv t * rv r| ≤ ulpHalf w * (t0 * (1.0001 * (ρ + 0.001)) + tiny w) := by
    refine mul_le_mul_of_nonneg_left (le_trans hpr ?_) hu.le
    have : (t0 * 1.0001 + tiny w) * (ρ + 0.001) = t0 * (1.0001 * (ρ + 0.001)) + tiny w * (ρ + 0.001) := by ring
    rw [this]
    have : tiny w * (ρ + 0.001) ≤ tiny w * 1 := mul_le_mul_of_nonneg_left (by norm_num at *; linarith) ht0.le
    linarith
  have e5 : ulpHalf w * (t0 * (1.0001 * (ρ + 0.001)) + tiny w) = ulpHalf w * (t0 * (1.0001 * (ρ + 0.001))) + ulpHalf w * tiny w := by ring
  rw [e5] at k2
  have e6 : (ulpHalf w * t0 + tiny w) * (ρ + 0.001) + t0 * (ulpHalf w * (d + ρ + 0.0005) + tiny w) =
      ulpHalf w * (t0 * (d + 2 * ρ + 0.0015)) + tiny w * (ρ + 0.001) + t0 * tiny w := by ring
  rw [e6]
  have k3 : tiny w * (ρ + 0.001) ≤ tiny w * 0.95 := mul_le_mul_of_nonneg_left (by norm_num at *; linarith) ht0.le
  have k4 : t0 * tiny w ≤ 0.9 * tiny w := mul_le_mul_of_nonneg_right h1 ht0.le
  have k5 : ulpHalf w * tiny w ≤ 1 / 10 ^ 7 * tiny w := mul_le_mul_of_nonneg_right hu1 ht0.le
  have k6 : ulpHalf w * (t0 * (1.0001 * (ρ + 0.001))) + ulpHalf w * (t0 * (d + 2 * ρ + 0.0015)) ≤ ulpHalf w * (t0 * (d + 3 * ρ + 0.01)) := by
    have : ulpHalf w * (t0 * (1.0001 * (ρ + 0.001))) + ulpHalf w * (t0 * (d + 2 * ρ + 0.0015)) = ulpHalf w * (t0 * (1.0001 * (ρ + 0.001) + (d + 2 * ρ + 0.0015))) := by ring
    rw [this]
    refine mul_le_mul_of_nonneg_left (mul_le_mul_of_nonneg_left ?_ h0) hu.le
    norm_num at *; linarith
  norm_num at *; linarith
/-- `x (1 + g)` -/
theorem fin_step {w : Nat} (h : W w) (fm : Bool) {x g : BitVec w} {G a γ s : ℝ} (fx : isFinite x = true) (fg : isFinite g = true) (hg : |rv g - G| ≤ ulpHalf w * a + 3 * tiny w)
    (hG : |G| ≤ γ) (hγ : γ ≤ 1) (hs : |1 + G| ≤ s) (ha : a ≤ 100) (ha0 : 0 ≤ a) (hx : |rv x| ≤ 1) :
    isFinite (fmaL fm x g x) = true ∧ |rv (fmaL fm x g x) - rv x * (1 + G)| ≤ ulpHalf w * ((γ + s + a + 0.01) * |rv x|) + 5 * tiny w := by
  have hu := ulp_pos w
  have hu1 : ulpHalf w ≤ 1 / 10 ^ 7 := le_trans (ulp_le h) (by norm_num)
  have ht0 := tiny_pos w
  have ht1 : tiny w ≤ 1 / 10 ^ 12 := le_trans (tiny_le h) (by norm_num)
  have hb : (2 : ℝ) ^ 35 ≤ 2 ^ bias w := pow_le_pow_right₀ (by norm_num) (by rcases h with h | h <;> subst h <;> decide)
  have hua : ulpHalf w * a ≤ 1 / 10 ^ 7 * 100 := mul_le_mul hu1 ha ha0 (by norm_num)
  have hγ0 : 0 ≤ γ := le_trans (abs_nonneg _) hG
  have hg1 : |rv g| ≤ γ + 0.0001 := by have := abs_le_of_sub hg hG; norm_num at *; linarith
  have hX := abs_nonneg (rv x)
  have hxg : |rv x * rv g| ≤ (γ + 0.0001) * |rv x| := by rw [abs_mul, mul_comm]; exact mul_le_mul_of_nonneg_right hg1 hX
  have hxg1 : (γ + 0.0001) * |rv x| ≤ 2 * 1 := mul_le_mul (by norm_num at *; linarith) hx hX (by norm_num)
  obtain ⟨f, e⟩ := fmaL_e h fm fx fg fx (M := 2) (by norm_num at *; linarith) (by norm_num) (le_trans hxg (by linarith)) (by linarith)
  refine ⟨f, ?_⟩
  have e1 : |(rv x * rv g + rv x) - rv x * (1 + G)| ≤ (ulpHalf w * a + 3 * tiny w) * |rv x| := by
    rw [show (rv x * rv g + rv x) - rv x * (1 + G) = (rv g - G) * rv x by ring, abs_mul]
    exact mul_le_mul_of_nonneg_right hg hX
  have e2 : |rv x * rv g + rv x| ≤ (s + 0.0001) * |rv x| := by
    have : |rv x * (1 + G)| ≤ s * |rv x| := by rw [abs_mul, mul_comm]; exact mul_le_mul_of_nonneg_right hs hX
    have h2 := abs_le_of_sub e1 this
    have : (ulpHalf w * a + 3 * tiny w) * |rv x| ≤ 0.0001 * |rv x| := mul_le_mul_of_nonneg_right (by norm_num at *; linarith) hX
    linarith
  refine le_trans (abs_sub_tri e e1) ?_
  have k1 : ulpHalf w * (1 + ulpHalf w) * |rv x * rv g| ≤ ulpHalf w * (1 + ulpHalf w) * ((γ + 0.0001) * |rv x|) := mul_le_mul_of_nonneg_left hxg (by positivity)
  have k2 : ulpHalf w * |rv x * rv g + rv x| ≤ ulpHalf w * ((s + 0.0001) * |rv x|) := mul_le_mul_of_nonneg_left e2 hu.le
  have k3 : ulpHalf w * (1 + ulpHalf w) * ((γ + 0.0001) * |rv x|) ≤ ulpHalf w * ((γ + 0.001) * |rv x|) := by
    rw [mul_assoc]
    refine mul_le_mul_of_nonneg_left ?_ hu.le
    rw [← mul_assoc]
    refine mul_le_mul_of_nonneg_right ?_ hX
    have : ulpHalf w * (γ + 0.0001) ≤ 1 / 10 ^ 7 * 2 := mul_le_mul hu1 (by norm_num at *; linarith) (by positivity) (by norm_num)
    have e9 : (1 + ulpHalf w) * (γ + 0.0001) = γ + 0.0001 + ulpHalf w * (γ + 0.0001) := by ring
    rw [e9]; norm_num at *; linarith
  have k4 : tiny w * |rv x| ≤ tiny w * 1 := mul_le_mul_of_nonneg_left hx ht0.le
  have e5 : ulpHalf w * ((γ + s + a + 0.01) * |rv x|) = ulpHalf w * ((γ + 0.001) * |rv x|) + ulpHalf w * ((s + 0.0001) * |rv x|) + ulpHalf w * a * |rv x| + 0.0089 * (ulpHalf w * |rv x|) := by ring
  have e6 : (ulpHalf w * a + 3 * tiny w) * |rv x| = ulpHalf w * a * |rv x| + 3 * (tiny w * |rv x|) := by ring
  have k5 : 0 ≤ ulpHalf w * |rv x| := by positivity
  rw [e5, e6]
  generalize ulpHalf w * |rv x| = z1 at *
  generalize tiny w * |rv x| = z2 at *
  generalize ulpHalf w * a * |rv x| = z3 at *
  norm_num at *; linarith
end Dpm.X86
