import Verif.Proofs.RealOps
import Verif.Proofs.Hypot
/-! Accuracy of the kernels of `hypot`. -/
namespace Dpm.X86
open Dpm.Reg Dpm.Fp

theorem abs_sub_tri {a b c e f : ℝ} (h1 : |a - b| ≤ e) (h2 : |b - c| ≤ f) : |a - c| ≤ e + f := by
  have := abs_sub_le a b c; linarith
theorem abs_le_of_sub {a b e f : ℝ} (h1 : |a - b| ≤ e) (h2 : |b| ≤ f) : |a| ≤ e + f := by
  have := abs_add_le (a - b) b
  rw [sub_add_cancel] at this; linarith

set_option maxHeartbeats 1000000 in
/-- the two parts of a square: the rounded square and (up to a rounding error) its error -/
theorem splitL_e (fm : Bool) {x : BitVec 64} (hx : isFinite x = true) {M : ℝ} (h0 : 0 ≤ rv x) (hM : rv x ≤ M) (hM0 : 0 < M)
    (ht : tiny 64 ≤ M / 2 ^ 100) (ht2 : tiny 64 ≤ M ^ 2 / 2 ^ 75) (hB : M * 2 ^ 30 ≤ 2 ^ bias 64) (hB2 : 7 * M ^ 2 + 8 ≤ 2 ^ bias 64) :
    (isFinite (splitL fm x).1 = true ∧ |rv (splitL fm x).1 - rv x ^ 2| ≤ M ^ 2 * (1 / 2 ^ 53 + 1 / 2 ^ 75)) ∧
    (isFinite (splitL fm x).2 = true ∧ |rv (splitL fm x).2 - (rv x ^ 2 - rv (splitL fm x).1)| ≤ M ^ 2 * (1 / 2 ^ 53 * (1 + 1 / 2 ^ 10))) := by
  have h : W 64 := Or.inr rfl
  have hu : ulpHalf 64 = 1 / 2 ^ 53 := rfl
  have ht0 := tiny_pos 64
  have hMp : 0 < M ^ 2 := by positivity
  have fC : isFinite (0x41a0000002000000#64) = true := by decide
  have vC : rv (0x41a0000002000000#64) = 2 ^ 27 + 1 := by
    have e : val (0x41a0000002000000#64) = (2 ^ 27 + 1) * 2 ^ unitExp 64 := by decide +kernel
    unfold rv; rw [e]; push_cast; field_simp; norm_num
  have f2 : isFinite (0x4000000000000000#64) = true := by decide
  have v2 : rv (0x4000000000000000#64) = 2 := by
    have e : val (0x4000000000000000#64) = 2 * 2 ^ unitExp 64 := by decide +kernel
    unfold rv; rw [e]; push_cast; field_simp
  unfold splitL
  extract_lets xc xh xl
  obtain ⟨fxc, exc⟩ := fmul_e h hx fC (by rw [vC, abs_of_nonneg (by positivity)]; nlinarith)
  change isFinite xc = true at fxc
  change |rv xc - _| ≤ _ at exc
  rw [vC, hu, abs_of_nonneg (by positivity : 0 ≤ rv x * (2 ^ 27 + 1))] at exc
  have kxc : |rv x - rv xc| ≤ M * (2 ^ 27 + 1) := by
    have e1 : |rv xc - rv x * (2 ^ 27 + 1)| ≤ M / 2 ^ 25 := le_trans exc (by linarith)
    rw [abs_le] at e1 ⊢
    constructor <;> linarith
  obtain ⟨fd, ed⟩ := fsub_e h hx fxc (by linarith)
  rw [hu] at ed
  have ed' : |rv (fsub x xc) + rv xc - rv x| ≤ M * (1 / 2 ^ 26 + 1 / 2 ^ 50) := by
    rw [show rv (fsub x xc) + rv xc - rv x = rv (fsub x xc) - (rv x - rv xc) by ring]
    linarith
  have kd : |rv (fsub x xc) + rv xc| ≤ 2 * M := by
    have := abs_le_of_sub ed' (show |rv x| ≤ M by rw [abs_of_nonneg h0]; exact hM)
    linarith
  obtain ⟨fxh, exh⟩ := fadd_e h fd fxc (by linarith)
  change isFinite xh = true at fxh
  change |rv xh - _| ≤ _ at exh
  rw [hu] at exh
  have exh' : |rv xh - rv x| ≤ M / 2 ^ 25 := by
    have := abs_sub_tri exh ed'
    linarith
  obtain ⟨fxl, exl⟩ := fsub_e h hx fxh (by rw [abs_sub_comm]; linarith)
  change isFinite xl = true at fxl
  change |rv xl - _| ≤ _ at exl
  rw [hu, abs_sub_comm (rv x)] at exl
  have exl' : |rv xl - (rv x - rv xh)| ≤ M / 2 ^ 78 := by linarith
  have kxl : |rv xl| ≤ M / 2 ^ 24 := by
    have := abs_le_of_sub exl' (show |rv x - rv xh| ≤ M / 2 ^ 25 by rw [abs_sub_comm]; exact exh')
    linarith
  have hX2 : rv x ^ 2 ≤ M ^ 2 := pow_le_pow_left₀ h0 hM 2
  have hX2' : 0 ≤ rv x ^ 2 := by positivity
  obtain ⟨fh, eh⟩ := fmul_e h hx hx (by rw [← pow_two, abs_of_nonneg hX2']; linarith)
  generalize hq : fmul x x = q at *
  rw [hu, ← pow_two, abs_of_nonneg hX2'] at eh
  have eh' : |rv q - rv x ^ 2| ≤ M ^ 2 * (1 / 2 ^ 53 + 1 / 2 ^ 75) := by linarith
  refine ⟨⟨fh, eh'⟩, ?_⟩
  have kxh : |rv xh| ≤ 2 * M := by
    have := abs_le_of_sub exh' (show |rv x| ≤ M by rw [abs_of_nonneg h0]; exact hM)
    linarith
  have exh2 : |rv xh * rv xh - rv x ^ 2| ≤ M ^ 2 * (3 / 2 ^ 25) := by
    rw [show rv xh * rv xh - rv x ^ 2 = (rv xh - rv x) * (rv xh + rv x) by ring, abs_mul]
    have : |rv xh + rv x| ≤ 3 * M := by
      have := abs_add_le (rv xh) (rv x)
      rw [abs_of_nonneg h0] at this; linarith
    calc _ ≤ M / 2 ^ 25 * (3 * M) := mul_le_mul exh' this (abs_nonneg _) (by positivity)
      _ = _ := by ring
  have kxh2 : |rv xh * rv xh| ≤ M ^ 2 * (1 + 3 / 2 ^ 25) := by
    have := abs_le_of_sub exh2 (show |rv x ^ 2| ≤ M ^ 2 by rw [abs_of_nonneg hX2']; exact hX2)
    linarith
  have kq : |rv q| ≤ 3 / 2 * M ^ 2 := by
    have := abs_le_of_sub eh' (show |rv x ^ 2| ≤ M ^ 2 by rw [abs_of_nonneg hX2']; exact hX2)
    linarith
  have kl1 : |rv xh * rv xh - rv q| ≤ M ^ 2 * (4 / 2 ^ 25) := by
    have := abs_sub_tri exh2 (show |rv x ^ 2 - rv q| ≤ M ^ 2 * (1 / 2 ^ 53 + 1 / 2 ^ 75) by rw [abs_sub_comm]; exact eh')
    linarith
  obtain ⟨fl1, el1⟩ := fmsL_e h fm fxh fxh fh (M := 3 / 2 * M ^ 2 + 1) (by linarith) (by linarith) (by linarith) (by linarith)
  generalize fmsL fm xh xh q = l1 at *
  rw [hu] at el1
  have el1' : |rv l1 - (rv xh * rv xh - rv q)| ≤ M ^ 2 * (1 / 2 ^ 53 * (1 + 1 / 2 ^ 12)) := by linarith
  have kl1' : |rv l1| ≤ M ^ 2 / 2 ^ 22 := by
    have := abs_le_of_sub el1' kl1
    linarith
  obtain ⟨fd2, ed2⟩ := fmul_e h fxl f2 (by rw [v2, abs_mul, abs_of_pos (by norm_num : (0:ℝ) < 2)]; linarith)
  generalize fmul xl 0x4000000000000000#64 = d2 at *
  rw [v2, hu, abs_mul (rv xl), abs_of_pos (by norm_num : (0:ℝ) < 2)] at ed2
  have ed2' : |rv d2 - rv xl * 2| ≤ M / 2 ^ 74 := by linarith
  have kd2 : |rv d2| ≤ M / 2 ^ 22 := by
    have := abs_le_of_sub ed2' (show |rv xl * 2| ≤ M / 2 ^ 23 by rw [abs_mul, abs_of_pos (by norm_num : (0:ℝ) < 2)]; linarith)
    linarith
  have kxd : |rv xh * rv d2| ≤ M ^ 2 / 2 ^ 21 := by
    rw [abs_mul]
    calc _ ≤ 2 * M * (M / 2 ^ 22) := mul_le_mul kxh kd2 (abs_nonneg _) (by positivity)
      _ = _ := by ring
  have kl2 := abs_add_le (rv xh * rv d2) (rv l1)
  obtain ⟨fl2, el2⟩ := fmaL_e h fm fxh fd2 fl1 (M := 3 / 2 * M ^ 2 + 1) (by linarith) (by linarith) (by linarith) (by linarith)
  generalize fmaL fm xh d2 l1 = l2 at *
  rw [hu] at el2
  have el2' : |rv l2 - (rv xh * rv d2 + rv l1)| ≤ M ^ 2 / 2 ^ 70 := by linarith
  have kl2' : |rv l2| ≤ M ^ 2 / 2 ^ 20 := by
    have := abs_le_of_sub el2' (le_refl _)
    linarith
  have kxx : |rv xl * rv xl| ≤ M ^ 2 / 2 ^ 48 := by
    rw [abs_mul]
    calc _ ≤ M / 2 ^ 24 * (M / 2 ^ 24) := mul_le_mul kxl kxl (abs_nonneg _) (by positivity)
      _ = _ := by ring
  have kl3 := abs_add_le (rv xl * rv xl) (rv l2)
  obtain ⟨fl3, el3⟩ := fmaL_e h fm fxl fxl fl2 (M := 3 / 2 * M ^ 2 + 1) (by linarith) (by linarith) (by linarith) (by linarith)
  refine ⟨fl3, ?_⟩
  generalize fmaL fm xl xl l2 = l3 at *
  rw [hu] at el3
  have el3' : |rv l3 - (rv xl * rv xl + rv l2)| ≤ M ^ 2 / 2 ^ 70 := by linarith
  have p1 : |(rv xh + rv xl - rv x) * (rv xh + rv xl + rv x)| ≤ M ^ 2 / 2 ^ 75 := by
    have a1 : |rv xh + rv xl - rv x| ≤ M / 2 ^ 78 := by
      rw [show rv xh + rv xl - rv x = rv xl - (rv x - rv xh) by ring]; exact exl'
    have a2 : |rv xh + rv xl + rv x| ≤ 4 * M := by
      have b1 := abs_add_le (rv xh + rv xl) (rv x)
      have b2 := abs_add_le (rv xh) (rv xl)
      rw [abs_of_nonneg h0] at b1; linarith
    rw [abs_mul]
    calc _ ≤ M / 2 ^ 78 * (4 * M) := mul_le_mul a1 a2 (abs_nonneg _) (by positivity)
      _ ≤ _ := by nlinarith
  have p2 : |rv xh * (rv d2 - rv xl * 2)| ≤ M ^ 2 / 2 ^ 73 := by
    rw [abs_mul]
    calc _ ≤ 2 * M * (M / 2 ^ 74) := mul_le_mul kxh ed2' (abs_nonneg _) (by positivity)
      _ = _ := by ring
  have e : rv l3 - (rv x ^ 2 - rv q) = (rv l3 - (rv xl * rv xl + rv l2)) + (rv l2 - (rv xh * rv d2 + rv l1)) + (rv l1 - (rv xh * rv xh - rv q)) +
      (rv xh + rv xl - rv x) * (rv xh + rv xl + rv x) + rv xh * (rv d2 - rv xl * 2) := by ring
  rw [e]
  have s1 := abs_add_le ((rv l3 - (rv xl * rv xl + rv l2)) + (rv l2 - (rv xh * rv d2 + rv l1)) + (rv l1 - (rv xh * rv xh - rv q)) +
      (rv xh + rv xl - rv x) * (rv xh + rv xl + rv x)) (rv xh * (rv d2 - rv xl * 2))
  have s2 := abs_add_le ((rv l3 - (rv xl * rv xl + rv l2)) + (rv l2 - (rv xh * rv d2 + rv l1)) + (rv l1 - (rv xh * rv xh - rv q)))
      ((rv xh + rv xl - rv x) * (rv xh + rv xl + rv x))
  have s3 := abs_add_le ((rv l3 - (rv xl * rv xl + rv l2)) + (rv l2 - (rv xh * rv d2 + rv l1))) (rv l1 - (rv xh * rv xh - rv q))
  have s4 := abs_add_le (rv l3 - (rv xl * rv xl + rv l2)) (rv l2 - (rv xh * rv d2 + rv l1))
  linarith

theorem sqrt_rel {S Q e : ℝ} (hQ : 0 ≤ Q) (he0 : 0 ≤ e) (he1 : e ≤ 1 / 4) (h : |S - Q| ≤ 2 * e * Q) :
    |Real.sqrt S - Real.sqrt Q| ≤ (e + e ^ 2) * Real.sqrt Q := by
  have hs := Real.sqrt_nonneg Q
  have hq := Real.sq_sqrt hQ
  rw [abs_le] at h ⊢
  constructor
  · have : (1 - (e + e ^ 2)) * Real.sqrt Q ≤ Real.sqrt S := by
      apply Real.le_sqrt_of_sq_le
      rw [mul_pow, hq]
      have : (1 - (e + e ^ 2)) ^ 2 ≤ 1 - 2 * e := by nlinarith [mul_nonneg (pow_nonneg he0 2) (by nlinarith : 0 ≤ 1 - 2 * e - e ^ 2)]
      nlinarith
    linarith
  · have : Real.sqrt S ≤ (1 + (e + e ^ 2)) * Real.sqrt Q := by
      rw [Real.sqrt_le_left (by positivity)]
      rw [mul_pow, hq]
      have : 1 + 2 * e ≤ (1 + (e + e ^ 2)) ^ 2 := by nlinarith [pow_nonneg he0 3, pow_nonneg he0 4]
      nlinarith
    linarith

set_option maxHeartbeats 1000000 in
/-- the root of the sum of two squares in double precision -/
theorem rootD_e (fm : Bool) {x y : BitVec 64} (hx : isFinite x = true) (hy : isFinite y = true) {Y : ℝ} (h0 : 0 ≤ rv y) (hyY : rv y ≤ Y) (hYx : Y ≤ rv x)
    (hY0 : 0 < Y) (hYy : Y ^ 2 ≤ rv y ^ 2 + rv x ^ 2 / 2 ^ 30) (ht : tiny 64 ≤ Y / 2 ^ 100) (ht2 : tiny 64 ≤ Y ^ 2 / 2 ^ 75)
    (hB : rv x * 2 ^ 30 ≤ 2 ^ bias 64) (hB2 : 7 * rv x ^ 2 + 8 ≤ 2 ^ bias 64) :
    isFinite (rootD fm x y) = true ∧
    |rv (rootD fm x y) - Real.sqrt (rv x ^ 2 + rv y ^ 2)| ≤ 1 / 2 ^ 53 * (5 / 2 + 1 / 2 ^ 5) * Real.sqrt (rv x ^ 2 + rv y ^ 2) := by
  have h : W 64 := Or.inr rfl
  have hu : ulpHalf 64 = 1 / 2 ^ 53 := rfl
  have hX0 : 0 < rv x := lt_of_lt_of_le hY0 hYx
  have hYX2 : Y ^ 2 ≤ rv x ^ 2 := pow_le_pow_left₀ hY0.le hYx 2
  have hy2 : rv y ^ 2 ≤ Y ^ 2 := pow_le_pow_left₀ h0 hyY 2
  have hy20 : 0 ≤ rv y ^ 2 := by positivity
  have hx20 : 0 < rv x ^ 2 := by positivity
  obtain ⟨⟨f1, e1⟩, f2, e2⟩ := splitL_e fm hx (M := rv x) hX0.le (le_refl _) hX0 (by linarith) (by linarith) hB hB2
  obtain ⟨⟨f3, e3⟩, f4, e4⟩ := splitL_e fm hy (M := Y) h0 hyY hY0 ht ht2 (by linarith) (by linarith)
  unfold rootD
  generalize (splitL fm x).1 = p at *
  generalize (splitL fm x).2 = q at *
  generalize (splitL fm y).1 = r at *
  generalize (splitL fm y).2 = s at *
  generalize hX : rv x = X at *
  generalize hV : rv y = V at *
  have k1 : |rv q| ≤ X ^ 2 * (3 / 2 ^ 53) := by
    have := abs_le_of_sub e2 (show |X ^ 2 - rv p| ≤ X ^ 2 * (1 / 2 ^ 53 + 1 / 2 ^ 75) by rw [abs_sub_comm]; exact e1)
    linarith
  have k2 : |rv s| ≤ Y ^ 2 * (3 / 2 ^ 53) := by
    have := abs_le_of_sub e4 (show |V ^ 2 - rv r| ≤ Y ^ 2 * (1 / 2 ^ 53 + 1 / 2 ^ 75) by rw [abs_sub_comm]; exact e3)
    linarith
  have k3 := abs_add_le (rv s) (rv q)
  obtain ⟨g1, d1⟩ := fadd_e h f4 f2 (by linarith)
  rw [hu] at d1
  have a1 : |rv p + rv r - (X ^ 2 + V ^ 2)| ≤ (X ^ 2 + Y ^ 2) * (1 / 2 ^ 53 + 1 / 2 ^ 75) := by
    have := abs_add_le (rv p - X ^ 2) (rv r - V ^ 2)
    rw [show rv p - X ^ 2 + (rv r - V ^ 2) = rv p + rv r - (X ^ 2 + V ^ 2) by ring] at this
    linarith
  have k4 : |rv r + rv p| ≤ (X ^ 2 + Y ^ 2) * (1 + 1 / 2 ^ 52) := by
    have := abs_le_of_sub a1 (show |X ^ 2 + V ^ 2| ≤ X ^ 2 + Y ^ 2 by rw [abs_of_nonneg (by positivity)]; linarith)
    rw [add_comm]
    linarith
  obtain ⟨g2, d2⟩ := fadd_e h f3 f1 (by linarith)
  rw [hu] at d2
  generalize fadd s q = t at *
  generalize fadd r p = v at *
  have c1 : |rv t| ≤ (X ^ 2 + Y ^ 2) * (4 / 2 ^ 53) := by
    have := abs_le_of_sub d1 (le_refl _)
    linarith
  have c2 : |rv v| ≤ (X ^ 2 + Y ^ 2) * (1 + 1 / 2 ^ 50) := by
    have := abs_le_of_sub d2 (le_refl _)
    linarith
  have c3 := abs_add_le (rv t) (rv v)
  obtain ⟨g3, d3⟩ := fadd_e h g1 g2 (by linarith)
  rw [hu] at d3
  generalize fadd t v = S at *
  have hS : |rv S - (X ^ 2 + V ^ 2)| ≤ 2 * (1 / 2 ^ 53 * (3 / 2 + 1 / 2 ^ 7)) * (X ^ 2 + V ^ 2) := by
    have e : rv S - (X ^ 2 + V ^ 2) = (rv S - (rv t + rv v)) + (rv t - (rv s + rv q)) + (rv v - (rv r + rv p)) + (rv q - (X ^ 2 - rv p)) +
      (rv s - (V ^ 2 - rv r)) := by ring
    rw [e]
    have s1 := abs_add_le ((rv S - (rv t + rv v)) + (rv t - (rv s + rv q)) + (rv v - (rv r + rv p)) + (rv q - (X ^ 2 - rv p))) (rv s - (V ^ 2 - rv r))
    have s2 := abs_add_le ((rv S - (rv t + rv v)) + (rv t - (rv s + rv q)) + (rv v - (rv r + rv p))) (rv q - (X ^ 2 - rv p))
    have s3 := abs_add_le ((rv S - (rv t + rv v)) + (rv t - (rv s + rv q))) (rv v - (rv r + rv p))
    have s4 := abs_add_le (rv S - (rv t + rv v)) (rv t - (rv s + rv q))
    linarith
  have hSp : 0 < rv S := by
    rw [abs_le] at hS
    linarith
  obtain ⟨g4, d4⟩ := fsqrt_e h g3 hSp
  refine ⟨g4, ?_⟩
  rw [hu] at d4
  have hr := sqrt_rel (by positivity) (by norm_num) (by norm_num) hS
  have hp := Real.sqrt_nonneg (X ^ 2 + V ^ 2)
  generalize Real.sqrt (X ^ 2 + V ^ 2) = H at *
  generalize Real.sqrt (rv S) = K at *
  have hK : K ≤ 2 * H := by
    rw [abs_le] at hr
    linarith
  have hK1 : K ≤ (1 + 1 / 2 ^ 50) * H := by
    rw [abs_le] at hr
    linarith
  have := abs_sub_tri d4 hr
  linarith

theorem tiny64_le : tiny 64 ≤ 1 / 2 ^ 250 := by
  unfold tiny
  apply one_div_le_one_div_of_le (by positivity)
  exact pow_le_pow_right₀ (by norm_num) (by decide)
theorem bias64_ge : (2:ℝ) ^ 200 ≤ 2 ^ bias 64 := pow_le_pow_right₀ (by norm_num) (by decide)
set_option maxHeartbeats 1000000 in
/-- the root of the sum of two squares for single precision -/
theorem rootS_e (fm : Bool) {x y : BitVec 32} (hx : isFinite x = true) (hy : isFinite y = true) (h0 : 0 ≤ rv y) (hyx : rv y ≤ rv x)
    (h1 : 1 / 2 ^ 60 ≤ rv x) (h2 : rv x ≤ 2 ^ 60) :
    isFinite (rootS fm x y) = true ∧
    |rv (rootS fm x y) - Real.sqrt (rv x ^ 2 + rv y ^ 2)| ≤ 1 / 2 ^ 24 * (1 + 1 / 2 ^ 5) * Real.sqrt (rv x ^ 2 + rv y ^ 2) := by
  have h : W 64 := Or.inr rfl
  have hu : ulpHalf 64 = 1 / 2 ^ 53 := rfl
  have hu32 : ulpHalf 32 = 1 / 2 ^ 24 := rfl
  have ht32 : tiny 32 = 1 / 2 ^ 150 := rfl
  have ht := tiny64_le
  have hb := bias64_ge
  obtain ⟨fx, vx⟩ := widen_rv hx
  obtain ⟨fy, vy⟩ := widen_rv hy
  unfold rootS
  generalize widen x = X' at *
  generalize widen y = Y' at *
  have hX0 : 0 < rv x := lt_of_lt_of_le (by norm_num) h1
  generalize rv x = X at *
  generalize rv y = Y at *
  have hX2 : 1 / 2 ^ 120 ≤ X ^ 2 := by
    calc (1:ℝ) / 2 ^ 120 = (1 / 2 ^ 60) ^ 2 := by norm_num
      _ ≤ X ^ 2 := pow_le_pow_left₀ (by norm_num) h1 2
  have hX2' : X ^ 2 ≤ 2 ^ 120 := by
    calc X ^ 2 ≤ (2 ^ 60) ^ 2 := pow_le_pow_left₀ hX0.le h2 2
      _ = _ := by norm_num
  have hY2 : Y ^ 2 ≤ X ^ 2 := pow_le_pow_left₀ h0 hyx 2
  have hY0 : 0 ≤ Y ^ 2 := by positivity
  obtain ⟨f1, e1⟩ := fmul_e h fx fx (by rw [vx, ← pow_two, abs_of_nonneg (by positivity)]; linarith)
  rw [vx, ← pow_two, abs_of_nonneg (by positivity : 0 ≤ X ^ 2), hu] at e1
  generalize fmul X' X' = p at *
  have e1' : |rv p - X ^ 2| ≤ X ^ 2 * (1 / 2 ^ 52) := by linarith
  have k1 : |rv p| ≤ 2 * X ^ 2 := by
    have := abs_le_of_sub e1' (show |X ^ 2| ≤ X ^ 2 by rw [abs_of_nonneg (by positivity)])
    linarith
  have k2 : |rv Y' * rv Y'| = Y ^ 2 := by rw [vy, ← pow_two, abs_of_nonneg hY0]
  obtain ⟨f2, e2⟩ := fmaL_e h fm fy fy f1 (M := 2 ^ 121) (by linarith) (by norm_num) (by linarith) (by linarith)
  generalize fmaL fm Y' Y' p = S at *
  rw [k2, vy, ← pow_two, hu] at e2
  have k3 : |Y ^ 2 + rv p| ≤ 3 * X ^ 2 := by
    have := abs_add_le (Y ^ 2) (rv p)
    rw [abs_of_nonneg hY0] at this
    linarith
  have hS : |rv S - (X ^ 2 + Y ^ 2)| ≤ 2 * (1 / 2 ^ 50) * (X ^ 2 + Y ^ 2) := by
    have := abs_add_le (rv S - (Y ^ 2 + rv p)) (rv p - X ^ 2)
    rw [show rv S - (Y ^ 2 + rv p) + (rv p - X ^ 2) = rv S - (X ^ 2 + Y ^ 2) by ring] at this
    linarith
  have hSp : 0 < rv S := by
    rw [abs_le] at hS
    linarith
  obtain ⟨f3, e3⟩ := fsqrt_e h f2 hSp
  rw [hu] at e3
  have hr := sqrt_rel (by positivity) (by norm_num) (by norm_num) hS
  have hp1 : X ≤ Real.sqrt (X ^ 2 + Y ^ 2) := Real.le_sqrt_of_sq_le (by linarith)
  have hp2 : Real.sqrt (X ^ 2 + Y ^ 2) ≤ 2 * X := by
    rw [Real.sqrt_le_left (by positivity)]; nlinarith
  generalize Real.sqrt (X ^ 2 + Y ^ 2) = H at *
  generalize Real.sqrt (rv S) = K at *
  have hK : K ≤ 2 * H := by
    rw [abs_le] at hr
    linarith
  have hR : |rv (fsqrt S) - H| ≤ H / 2 ^ 48 := by
    have := abs_sub_tri e3 hr
    linarith
  have hH : |rv (fsqrt S)| ≤ (1 + 1 / 2 ^ 48) * H := by
    have := abs_le_of_sub hR (show |H| ≤ H by rw [abs_of_nonneg (by linarith)])
    linarith
  obtain ⟨f4, e4⟩ := narrow_e f3 (by linarith)
  refine ⟨f4, ?_⟩
  rw [hu32, ht32] at e4
  have := abs_sub_tri e4 hR
  linarith

/-! ### scaling -/
section
variable {w : Nat} (h : W w)
include h
theorem fmul_finite2 {x y : BitVec w} (hx : isFinite x = true) (hy : isFinite y = true) (hX : |rv x * rv y| ≤ maxVal w) : isFinite (fmul x y) = true := by
  rw [fmul_fin hx hy]
  rw [rv_mul_val, abs_sg, abs_of_nonneg (by positivity)] at hX
  exact round_finite2 h (Nat.two_pow_pos _) hX
theorem fadd_finite2 {x y : BitVec w} (hx : isFinite x = true) (hy : isFinite y = true) (hX : |rv x + rv y| ≤ maxVal w) : isFinite (fadd x y) = true := by
  rw [fadd_fin hx hy]
  rw [rv_add_val] at hX
  split
  · exact finite_pack_zero h _
  · refine round_finite2 h Nat.one_pos ?_
    rw [abs_div, abs_of_pos (by positivity : (0:ℝ) < 2 ^ unitExp w)] at hX
    rw [Nat.cast_one, div_one, Nat.cast_natAbs, Int.cast_abs]
    exact hX
/-- multiplying back by a power of two -/
theorem main_frame {A B bk R : BitVec w} {μ : ℝ} {j : Nat} (hμ : 0 < μ) (fb : isFinite bk = true) (hj : (val bk).natAbs = 2 ^ j) (vb : rv bk = 1 / μ)
    (fR : isFinite R = true)
    (hR : |rv R - Real.sqrt ((rv A * μ) ^ 2 + (rv B * μ) ^ 2)| ≤ ulpHalf w * (5 / 2 + 1 / 2 ^ 5) * Real.sqrt ((rv A * μ) ^ 2 + (rv B * μ) ^ 2)) :
    (Real.sqrt (rv A ^ 2 + rv B ^ 2) * (1 + 3 * ulpHalf w) ≤ maxVal w → isFinite (fmul bk R) = true) ∧
    (isFinite (fmul bk R) = true → |rv (fmul bk R) - Real.sqrt (rv A ^ 2 + rv B ^ 2)| ≤ 3 * ulpHalf w * Real.sqrt (rv A ^ 2 + rv B ^ 2) + tiny w) := by
  have hu := ulp_pos w
  have hH := Real.sqrt_nonneg (rv A ^ 2 + rv B ^ 2)
  have e : Real.sqrt ((rv A * μ) ^ 2 + (rv B * μ) ^ 2) = Real.sqrt (rv A ^ 2 + rv B ^ 2) * μ := by
    rw [mul_pow, mul_pow, ← add_mul, Real.sqrt_mul' _ (by positivity), Real.sqrt_sq hμ.le]
  rw [e] at hR
  generalize Real.sqrt (rv A ^ 2 + rv B ^ 2) = H at *
  have hb : |rv bk * rv R - H| ≤ ulpHalf w * (5 / 2 + 1 / 2 ^ 5) * H := by
    have e2 : rv bk * rv R - H = (rv R - H * μ) / μ := by rw [vb]; field_simp
    rw [e2, abs_div, abs_of_pos hμ, div_le_iff₀ hμ]
    calc _ ≤ _ := hR
      _ = _ := by ring
  have hHu : 0 ≤ ulpHalf w * H := mul_nonneg hu.le hH
  constructor
  · intro hm
    apply fmul_finite2 h fb fR
    have := abs_le_of_sub hb (show |H| ≤ H by rw [abs_of_nonneg hH])
    nlinarith
  · intro hf
    rw [fmul_comm fb fR] at hf ⊢
    have := fmul_pow2_tiny h fR fb hj hf
    rw [mul_comm (rv R)] at this
    have := abs_sub_tri this hb
    nlinarith
/-- scaling by a power of two is exact -/
theorem scale_exact {A m : BitVec w} {j : Nat} (hA : isFinite A = true) (hm : isFinite m = true) (hj : (val m).natAbs = 2 ^ j)
    (hd : unitExp w ≤ expF A - 1 + j) (hX : |rv A * rv m| ≤ 2 ^ bias w) : isFinite (fmul A m) = true ∧ rv (fmul A m) = rv A * rv m := by
  have hf := fmul_finite h hA hm hX
  refine ⟨hf, fmul_pow2_exact h hA hm hj hf ?_⟩
  obtain ⟨f, e, hv, -, he⟩ := val_split A
  rw [hv, he, Nat.mul_assoc, ← Nat.pow_add]
  exact Dvd.dvd.mul_left (Nat.pow_dvd_pow 2 hd) f
theorem rv_hi (x : BitVec w) : |rv x| < (2:ℝ) ^ ((max (expF x) 1 : Nat) + 1 - bias w : ℤ) := by
  obtain ⟨f, e, hv, hf, he⟩ := val_split x
  rw [rv_abs, hv, div_lt_iff₀ (by positivity), ← zpow_natCast, ← zpow_add₀ (by norm_num)]
  have e1 : ((max (expF x) 1 : Nat) + 1 - bias w : ℤ) + (unitExp w : ℕ) = ((mb w + 1 + e : Nat) : ℤ) := by
    have : unitExp w + 1 = bias w + mb w := by rcases h with h | h <;> subst h <;> rfl
    omega
  rw [e1, zpow_natCast, pow_add]
  push_cast
  apply mul_lt_mul_of_pos_right _ (by positivity)
  exact_mod_cast hf
theorem rv_lo {x : BitVec w} (h0 : 0 < expF x) : (2:ℝ) ^ ((expF x : Nat) - bias w : ℤ) ≤ |rv x| := by
  rw [rv_abs, le_div_iff₀ (by positivity), ← zpow_natCast, ← zpow_add₀ (by norm_num)]
  have e1 : ((expF x : Nat) - bias w : ℤ) + (unitExp w : ℕ) = ((mb w + (expF x - 1) : Nat) : ℤ) := by
    have : unitExp w + 1 = bias w + mb w := by rcases h with h | h <;> subst h <;> rfl
    omega
  rw [e1, zpow_natCast]
  have : 2 ^ (mb w + (expF x - 1)) ≤ (val x).natAbs := by
    rw [natAbs_val]
    unfold magVal
    change _ ≤ if expF x = 0 then manF x else (2 ^ mb w + manF x) * 2 ^ (expF x - 1)
    rw [if_neg (by omega), Nat.pow_add]
    exact Nat.mul_le_mul_right _ (Nat.le_add_right _ _)
  exact_mod_cast this
omit h in
theorem rv_lo_mag {x : BitVec w} {n : Nat} (hn : n ≤ mb w) (h0 : 2 ^ n ≤ mag x) : (2:ℝ) ^ ((n : ℤ) - unitExp w) ≤ |rv x| := by
  rw [rv_abs, le_div_iff₀ (by positivity), ← zpow_natCast, ← zpow_add₀ (by norm_num)]
  rw [show ((n : ℤ) - unitExp w) + (unitExp w : ℕ) = (n : ℤ) by omega, zpow_natCast]
  have : 2 ^ n ≤ (val x).natAbs := by
    rw [natAbs_val]
    have := magVal_kf (b := mb w) (k := 0) (f := 2 ^ n) (Or.inl rfl) (Nat.pow_le_pow_right (by omega) (by omega))
    rw [Nat.zero_mul, Nat.zero_add, Nat.pow_zero, Nat.mul_one] at this
    rw [← this]
    exact magVal_le.2 h0
  exact_mod_cast this
end

/-- the conclusion about a result `r`: `r` is within `3 u` of the hypotenuse, and it is finite unless that overflows -/
def HypAcc {w : Nat} (A B r : BitVec w) : Prop :=
  (Real.sqrt (rv A ^ 2 + rv B ^ 2) * (1 + 3 * ulpHalf w) ≤ maxVal w → isFinite r = true) ∧
  (isFinite r = true → |rv r - Real.sqrt (rv A ^ 2 + rv B ^ 2)| ≤ 3 * ulpHalf w * Real.sqrt (rv A ^ 2 + rv B ^ 2) + tiny w)
theorem rv_pow2 {w : Nat} {m : BitVec w} {j : Nat} (hj : val m = 2 ^ j) : rv m = (2:ℝ) ^ ((j:ℤ) - unitExp w) := by
  unfold rv
  rw [hj, zpow_sub₀ (by norm_num), zpow_natCast, zpow_natCast]
  push_cast; rfl
theorem natAbs_pow2 {w : Nat} {m : BitVec w} {j : Nat} (hj : val m = 2 ^ j) : (val m).natAbs = 2 ^ j := by
  rw [hj, Int.natAbs_pow]; rfl
/-- scaling, rooting, scaling back; `root` is the root of the sum of two squares -/
theorem scaled_e {w : Nat} (h : W w) {root : BitVec w → BitVec w → BitVec w} {A B m bk : BitVec w} {j k : Nat} {lo hi : ℤ}
    (hroot : ∀ x y : BitVec w, isFinite x = true → isFinite y = true → 0 ≤ rv y → rv y ≤ rv x → (2:ℝ) ^ lo ≤ rv x → rv x ≤ 2 ^ hi →
      isFinite (root x y) = true ∧ |rv (root x y) - Real.sqrt (rv x ^ 2 + rv y ^ 2)| ≤ ulpHalf w * (5 / 2 + 1 / 2 ^ 5) * Real.sqrt (rv x ^ 2 + rv y ^ 2))
    (fA : isFinite A = true) (fB : isFinite B = true) (hB0 : 0 ≤ rv B) (hBA : rv B ≤ rv A)
    (fm : isFinite m = true) (vm : val m = 2 ^ j) (fb : isFinite bk = true) (vb : val bk = 2 ^ k) (hjk : j + k = 2 * unitExp w)
    (hdA : unitExp w ≤ expF A - 1 + j) (hdB : unitExp w ≤ expF B - 1 + j)
    (hh : ((max (expF A) 1 : Nat) + 1 - bias w : ℤ) + (j - unitExp w) ≤ hi) (hhb : hi ≤ bias w)
    {la : ℤ} (hla : (2:ℝ) ^ la ≤ rv A) (hl : lo ≤ la + (j - unitExp w)) :
    HypAcc A B (fmul bk (root (fmul A m) (fmul B m))) := by
  have hm := rv_pow2 vm
  have hb := rv_pow2 vb
  have hmp : 0 < rv m := by rw [hm]; exact zpow_pos (by norm_num) _
  have hbm : rv bk = 1 / rv m := by
    rw [hm, hb, one_div, ← zpow_neg]; congr 1; omega
  have hA0 : 0 ≤ rv A := le_trans hB0 hBA
  have hXhi : rv A * rv m ≤ 2 ^ hi := by
    have h1 := rv_hi h A
    rw [abs_of_nonneg hA0] at h1
    calc rv A * rv m ≤ 2 ^ ((max (expF A) 1 : Nat) + 1 - bias w : ℤ) * rv m := mul_le_mul_of_nonneg_right h1.le hmp.le
      _ = 2 ^ (((max (expF A) 1 : Nat) + 1 - bias w : ℤ) + (j - unitExp w)) := by rw [hm, ← zpow_add₀ (by norm_num)]
      _ ≤ _ := zpow_le_zpow_right₀ (by norm_num) hh
  have hXb : rv A * rv m ≤ 2 ^ bias w := le_trans hXhi (by rw [← zpow_natCast]; exact zpow_le_zpow_right₀ (by norm_num) hhb)
  have hYX : rv B * rv m ≤ rv A * rv m := mul_le_mul_of_nonneg_right hBA hmp.le
  have hY0 : 0 ≤ rv B * rv m := mul_nonneg hB0 hmp.le
  obtain ⟨f1, e1⟩ := scale_exact h fA fm (natAbs_pow2 vm) hdA (by rw [abs_of_nonneg (mul_nonneg hA0 hmp.le)]; exact hXb)
  obtain ⟨f2, e2⟩ := scale_exact h fB fm (natAbs_pow2 vm) hdB (by rw [abs_of_nonneg hY0]; linarith)
  have hXlo : (2:ℝ) ^ lo ≤ rv A * rv m := by
    calc (2:ℝ) ^ lo ≤ 2 ^ (la + (j - unitExp w)) := zpow_le_zpow_right₀ (by norm_num) hl
      _ = 2 ^ la * rv m := by rw [hm, ← zpow_add₀ (by norm_num)]
      _ ≤ _ := mul_le_mul_of_nonneg_right hla hmp.le
  obtain ⟨f3, e3⟩ := hroot _ _ f1 f2 (by rw [e2]; exact hY0) (by rw [e1, e2]; exact hYX) (by rw [e1]; exact hXlo) (by rw [e1]; exact hXhi)
  rw [e1, e2] at e3
  exact main_frame h hmp fb (natAbs_pow2 vb) hbm f3 e3

theorem rootD_e' (fm : Bool) (x y : BitVec 64) (hx : isFinite x = true) (hy : isFinite y = true) (h0 : 0 ≤ rv y) (hyx : rv y ≤ rv x)
    (h1 : (2:ℝ) ^ (-450 : ℤ) ≤ rv x) (h2 : rv x ≤ 2 ^ (510 : ℤ)) :
    isFinite (rootD fm x y) = true ∧
    |rv (rootD fm x y) - Real.sqrt (rv x ^ 2 + rv y ^ 2)| ≤ ulpHalf 64 * (5 / 2 + 1 / 2 ^ 5) * Real.sqrt (rv x ^ 2 + rv y ^ 2) := by
  have hX0 : 0 < rv x := lt_of_lt_of_le (zpow_pos (by norm_num) _) h1
  have hx2 : rv x ^ 2 ≤ 2 ^ (1020 : ℤ) := by
    calc rv x ^ 2 ≤ ((2:ℝ) ^ (510 : ℤ)) ^ 2 := pow_le_pow_left₀ hX0.le h2 2
      _ = _ := by rw [pow_two, ← zpow_add₀ (by norm_num)]; rfl
  have ht : tiny 64 = 2 ^ (-1075 : ℤ) := by
    unfold tiny
    rw [zpow_neg, one_div]; rfl
  have hbias : (2:ℝ) ^ bias 64 = 2 ^ (1020 : ℤ) * 8 := by
    rw [show (8:ℝ) = 2 ^ (3 : ℤ) by norm_num, ← zpow_add₀ (by norm_num), ← zpow_natCast]; rfl
  have hp : (2:ℝ) ^ (510 : ℤ) * 2 ^ 30 ≤ 2 ^ (1020 : ℤ) := by
    rw [← zpow_natCast, ← zpow_add₀ (by norm_num)]
    exact zpow_le_zpow_right₀ (by norm_num) (by norm_num)
  have hp1 : (16:ℝ) ≤ 2 ^ (1020 : ℤ) := by
    rw [show (16:ℝ) = 2 ^ (4 : ℤ) by norm_num]
    exact zpow_le_zpow_right₀ (by norm_num) (by norm_num)
  have hY0 : 0 < rv x / 2 ^ 16 := by positivity
  have hYlo : (2:ℝ) ^ (-466 : ℤ) ≤ max (rv y) (rv x / 2 ^ 16) := by
    refine le_trans ?_ (le_max_right _ _)
    rw [le_div_iff₀ (by positivity), ← zpow_natCast, ← zpow_add₀ (by norm_num)]
    exact h1
  refine rootD_e fm hx hy (Y := max (rv y) (rv x / 2 ^ 16)) h0 (le_max_left _ _) (max_le hyx (by linarith)) (lt_of_lt_of_le hY0 (le_max_right _ _)) ?_ ?_ ?_ ?_ ?_
  · rcases le_total (rv y) (rv x / 2 ^ 16) with hh | hh
    · rw [max_eq_right hh, div_pow]
      have : 0 ≤ rv y ^ 2 := by positivity
      nlinarith [pow_pos hX0 2]
    · rw [max_eq_left hh]
      have := pow_pos hX0 2
      linarith
  · rw [le_div_iff₀ (by positivity), ht]
    refine le_trans ?_ hYlo
    rw [← zpow_natCast, ← zpow_add₀ (by norm_num)]
    exact zpow_le_zpow_right₀ (by norm_num) (by norm_num)
  · rw [le_div_iff₀ (by positivity), ht]
    refine le_trans ?_ (pow_le_pow_left₀ (zpow_pos (by norm_num) _).le hYlo 2)
    rw [pow_two, ← zpow_add₀ (by norm_num), ← zpow_natCast, ← zpow_add₀ (by norm_num)]
    exact zpow_le_zpow_right₀ (by norm_num) (by norm_num)
  · rw [hbias]
    generalize (2:ℝ) ^ (1020:ℤ) = P at *
    generalize (2:ℝ) ^ (510:ℤ) = R at *
    linarith
  · rw [hbias]
    clear hYlo hp h1 h2 ht
    generalize (2:ℝ) ^ (1020:ℤ) = P at *
    linarith
theorem rootS_e' (fm : Bool) (x y : BitVec 32) (hx : isFinite x = true) (hy : isFinite y = true) (h0 : 0 ≤ rv y) (hyx : rv y ≤ rv x)
    (h1 : (2:ℝ) ^ (-60 : ℤ) ≤ rv x) (h2 : rv x ≤ 2 ^ (60 : ℤ)) :
    isFinite (rootS fm x y) = true ∧
    |rv (rootS fm x y) - Real.sqrt (rv x ^ 2 + rv y ^ 2)| ≤ ulpHalf 32 * (5 / 2 + 1 / 2 ^ 5) * Real.sqrt (rv x ^ 2 + rv y ^ 2) := by
  obtain ⟨a, b⟩ := rootS_e fm hx hy h0 hyx (le_trans (le_of_eq (by norm_num)) h1) (le_trans h2 (le_of_eq (by norm_num)))
  refine ⟨a, le_trans b ?_⟩
  have hu : ulpHalf 32 = 1 / 2 ^ 24 := rfl
  rw [hu]
  exact mul_le_mul_of_nonneg_right (by norm_num) (Real.sqrt_nonneg _)

theorem rv_nonneg {w : Nat} {x : BitVec w} (hs : x.msb = false) : 0 ≤ rv x := by
  rw [rv_sg, show neg x = false from hs]
  simp only [sg, Bool.false_eq_true, if_false, one_mul]
  positivity
theorem mag_eq_toNat {w : Nat} {x : BitVec w} (hs : x.msb = false) : mag x = x.toNat := by
  have := BitVec.toNat_lt_of_msb_false hs
  unfold mag
  exact Nat.mod_eq_of_lt this
/-- the exponent fields of the operands of the main path -/
theorem main_exps {w : Nat} (h : W w) {A B : BitVec w} (sA : A.msb = false) (sB : B.msb = false) (hp : hypPlus A B = false) :
    (hypBig A = true ↔ (if w = 64 then 1533 else 187) ≤ expF A) ∧
    (hypSmall A B = true ↔ hypBig A = false ∧ expF B < (if w = 64 then 573 else 67)) ∧
    expF A ≤ expF B + (if w = 64 then 65 else 25) ∧ (w = 64 → 2 ^ 32 ≤ mag A) ∧ (w = 32 → 0 < mag B) := by
  have e1 := mag_eq_toNat sA
  have e2 := mag_eq_toNat sB
  unfold hypPlus at hp
  simp only [Bool.or_eq_false_iff, decide_eq_false_iff_not] at hp
  obtain ⟨hp1, hp2⟩ := hp
  have hs : hypSmall A B = true ↔ hypBig A = false ∧ topL B < (if w = 64 then 0x23d * 2 ^ 20 else 0x43 * 2 ^ 23) := by
    unfold hypSmall
    simp only [Bool.and_eq_true, Bool.not_eq_true', decide_eq_true_eq]
  rw [hs]
  unfold hypBig expF
  rw [e1, e2, decide_eq_true_eq]
  unfold topL at *
  rcases h with h | h <;> subst h
  · simp only [if_neg (by decide : ¬ 32 = 64)] at *
    simp only [show mb 32 = 23 from rfl]
    refine ⟨by omega, and_congr_right fun _ => by omega, by omega, fun hh => by omega, fun _ => by omega⟩
  · simp only [if_true] at *
    simp only [show mb 64 = 52 from rfl]
    refine ⟨by omega, and_congr_right fun _ => by omega, by omega, fun _ => by omega, fun hh => by omega⟩
theorem exp_lt {w : Nat} (h : W w) {x : BitVec w} (hx : isFinite x = true) : expF x < emax w := by
  have := (finite_iff h x).1 hx
  unfold expF
  rw [Nat.div_lt_iff_lt_mul (Nat.two_pow_pos _)]
  exact this
set_option maxHeartbeats 1000000 in
theorem hypMain_acc {w : Nat} (h : W w) (fm : Bool) {A B : BitVec w} (fA : isFinite A = true) (fB : isFinite B = true) (sA : A.msb = false) (sB : B.msb = false)
    (hBA : rv B ≤ rv A) (hp : hypPlus A B = false) : HypAcc A B (hypMain fm A B) := by
  obtain ⟨m1, m2, m3, m4, m5⟩ := main_exps h sA sB hp
  have hB0 := rv_nonneg sB
  have hA0 := rv_nonneg sA
  have hle := exp_lt h fA
  have hlo := rv_lo h (x := A)
  have hloB := rv_lo h (x := B)
  rw [abs_of_nonneg hA0] at hlo
  rw [abs_of_nonneg hB0] at hloB
  unfold hypMain
  simp only [hp, Bool.false_eq_true, if_false]
  unfold hypBack hypMult
  rcases h with h | h <;> subst h
  · have hr : ∀ x y : BitVec 32, rootL fm x y = rootS fm x y := by intro x y; simp [rootL]
    have hb : emax 32 = 255 ∧ bias 32 = 127 ∧ unitExp 32 = 149 := by decide
    simp only [hr]
    simp only [if_neg (by decide : ¬ 32 = 64)] at m1 m2 m3
    cases hbig : hypBig A
    · rw [hbig] at m1 m2
      simp only [Bool.false_eq_true, false_iff, true_and] at m1 m2
      simp only [Bool.false_eq_true, if_false]
      cases hsm : hypSmall A B
      · rw [hsm] at m2
        simp only [Bool.false_eq_true, false_iff] at m2
        simp only [Bool.false_eq_true, if_false]
        refine scaled_e (Or.inl rfl) (rootS_e' fm) fA fB hB0 hBA (j := 149) (k := 149) (by decide) (by decide +kernel) (by decide) (by decide +kernel) (by decide)
          (by omega) (by omega) (by omega) (by omega) (la := (expF B : ℤ) - bias 32) (le_trans (hloB (by omega)) hBA) (by omega)
      · rw [hsm] at m2
        simp only [true_iff] at m2
        simp only [if_true]
        have hz := rv_lo_mag (w := 32) (x := B) (n := 0) (by decide) (by have := m5 rfl; omega)
        rw [abs_of_nonneg hB0] at hz
        refine scaled_e (Or.inl rfl) (rootS_e' fm) fA fB hB0 hBA (j := 239) (k := 59) (by decide) (by decide +kernel) (by decide) (by decide +kernel) (by decide)
          (by omega) (by omega) (by omega) (by omega) (la := ((0 : Nat) : ℤ) - unitExp 32) (le_trans hz hBA) (by omega)
    · rw [hbig] at m1 m2
      simp only [true_iff] at m1
      simp only [if_true]
      refine scaled_e (Or.inl rfl) (rootS_e' fm) fA fB hB0 hBA (j := 59) (k := 239) (by decide) (by decide +kernel) (by decide) (by decide +kernel) (by decide)
        (by omega) (by omega) (by omega) (by omega) (la := (expF A : ℤ) - bias 32) (hlo (by omega)) (by omega)
  · have hr : ∀ x y : BitVec 64, rootL fm x y = rootD fm x y := by intro x y; simp [rootL]
    have hb : emax 64 = 2047 ∧ bias 64 = 1023 ∧ unitExp 64 = 1074 := by decide
    simp only [hr]
    simp only [if_true] at m1 m2 m3
    cases hbig : hypBig A
    · rw [hbig] at m1 m2
      simp only [Bool.false_eq_true, false_iff, true_and] at m1 m2
      simp only [Bool.false_eq_true, if_false]
      cases hsm : hypSmall A B
      · rw [hsm] at m2
        simp only [Bool.false_eq_true, false_iff] at m2
        simp only [Bool.false_eq_true, if_false]
        refine scaled_e (Or.inr rfl) (rootD_e' fm) fA fB hB0 hBA (j := 1074) (k := 1074) (by decide) (by decide +kernel) (by decide) (by decide +kernel) (by decide)
          (by omega) (by omega) (by omega) (by omega) (la := (expF B : ℤ) - bias 64) (le_trans (hloB (by omega)) hBA) (by omega)
      · rw [hsm] at m2
        simp only [true_iff] at m2
        simp only [if_true]
        have hz := rv_lo_mag (w := 64) (x := A) (n := 32) (by decide) (by have := m4 rfl; omega)
        rw [abs_of_nonneg hA0] at hz
        refine scaled_e (Or.inr rfl) (rootD_e' fm) fA fB hB0 hBA (j := 1774) (k := 374) (by decide) (by decide +kernel) (by decide) (by decide +kernel) (by decide)
          (by omega) (by omega) (by omega) (by omega) (la := ((32 : Nat) : ℤ) - unitExp 64) hz (by omega)
    · rw [hbig] at m1 m2
      simp only [true_iff] at m1
      simp only [if_true]
      refine scaled_e (Or.inr rfl) (rootD_e' fm) fA fB hB0 hBA (j := 374) (k := 1774) (by decide) (by decide +kernel) (by decide) (by decide +kernel) (by decide)
        (by omega) (by omega) (by omega) (by omega) (la := (expF A : ℤ) - bias 64) (hlo (by omega)) (by omega)

theorem rv_hi' {w : Nat} (h : W w) (x : BitVec w) : |rv x| < (2:ℝ) ^ ((expF x : Nat) + 1 - bias w : ℤ) := by
  rcases Nat.eq_zero_or_pos (expF x) with h0 | h0
  · rw [rv_abs, h0, div_lt_iff₀ (by positivity), ← zpow_natCast, ← zpow_add₀ (by norm_num)]
    have e1 : (((0 : Nat) : ℤ) + 1 - bias w : ℤ) + (unitExp w : ℕ) = (mb w : ℤ) := by
      have : unitExp w + 1 = bias w + mb w := by rcases h with h | h <;> subst h <;> rfl
      omega
    rw [e1, zpow_natCast, natAbs_val]
    have e2 : magVal (mb w) (mag x) = manF x := by
      unfold magVal
      change (if expF x = 0 then manF x else _) = _
      rw [if_pos h0]
    rw [e2]
    exact_mod_cast manF_lt x
  · have := rv_hi h x
    rwa [show max (expF x) 1 = expF x by omega] at this
theorem plus_acc {w : Nat} (h : W w) {A B : BitVec w} (fA : isFinite A = true) (fB : isFinite B = true) (sA : A.msb = false) (sB : B.msb = false)
    (hp : hypPlus A B = true) (hm : w = 64 → 2 ^ 32 ≤ mag A) : HypAcc A B (fadd A B) := by
  have hA0 := rv_nonneg sA
  have hB0 := rv_nonneg sB
  have hu := ulp_pos w
  have hBA : rv B ≤ ulpHalf w * rv A := by
    have e1 := mag_eq_toNat sA
    have e2 := mag_eq_toNat sB
    have hc : mag B = 0 ∨ expF B + (mb w + 2) ≤ expF A := by
      unfold hypPlus at hp
      simp only [Bool.or_eq_true, decide_eq_true_eq] at hp
      unfold expF
      rw [e1, e2]
      rw [e1] at hm
      unfold topL at hp
      rcases h with h | h <;> subst h
      · simp only [if_neg (by decide : ¬ 32 = 64)] at hp
        simp only [show mb 32 = 23 from rfl]
        omega
      · simp only [if_true] at hp
        have := hm rfl
        simp only [show mb 64 = 52 from rfl]
        omega
    rcases hc with hc | hc
    · have : rv B = 0 := by
        unfold rv
        rw [(val_zero_iff B).2 hc]; simp
      rw [this]; positivity
    · have a1 := rv_hi' h B
      have a2 := rv_lo h (x := A) (by omega)
      rw [abs_of_nonneg hA0] at a2
      rw [abs_of_nonneg hB0] at a1
      refine le_trans a1.le ?_
      refine le_trans ?_ (mul_le_mul_of_nonneg_left a2 hu.le)
      unfold ulpHalf
      rw [one_div, ← zpow_natCast, ← zpow_neg, ← zpow_add₀ (by norm_num)]
      exact zpow_le_zpow_right₀ (by norm_num) (by omega)
  have hu1 := ulp_le h
  have hs : 0 ≤ rv A ^ 2 + rv B ^ 2 := by positivity
  have hH1 : rv A ≤ Real.sqrt (rv A ^ 2 + rv B ^ 2) := Real.le_sqrt_of_sq_le (by nlinarith)
  have hH2 : Real.sqrt (rv A ^ 2 + rv B ^ 2) ≤ rv A + rv B := by
    rw [Real.sqrt_le_left (by positivity)]; nlinarith [mul_nonneg hA0 hB0]
  unfold HypAcc
  generalize Real.sqrt (rv A ^ 2 + rv B ^ 2) = H at *
  have hHu := mul_le_mul_of_nonneg_left hH1 hu.le
  constructor
  · intro hx
    apply fadd_finite2 h fA fB
    rw [abs_of_nonneg (by positivity)]
    nlinarith
  · intro hf
    have e := fadd_rv h fA fB hf
    rw [abs_of_nonneg (by positivity : 0 ≤ rv A + rv B)] at e
    have t := tiny_pos w
    have e2 : |rv A + rv B - H| ≤ rv B := by rw [abs_of_nonneg (by linarith)]; linarith
    have := abs_sub_tri e e2
    have u1 : ulpHalf w * rv B ≤ ulpHalf w * rv A := mul_le_mul_of_nonneg_left (by nlinarith) hu.le
    linarith
theorem topL_fin {w : Nat} (h : W w) {A : BitVec w} (fA : isFinite A = true) (sA : A.msb = false) : topL A < hypInf w := by
  have e1 := mag_eq_toNat sA
  have hf := (finite_iff h A).1 fA
  rw [e1] at hf
  unfold topL hypInf
  rcases h with h | h <;> subst h
  · have : infMag 32 = 0xff * 2 ^ 23 := by decide
    simp only [if_neg (by decide : ¬ 32 = 64)]; omega
  · have : infMag 64 = 0x7ff * 2 ^ 52 := by decide
    simp only [if_true]; omega
theorem hypSel_acc {w : Nat} (h : W w) (o : MathOpt) (fm : Bool) {A B : BitVec w} (fA : isFinite A = true) (fB : isFinite B = true) (sA : A.msb = false)
    (sB : B.msb = false) (hBA : rv B ≤ rv A) (hm : w = 64 → 2 ^ 32 ≤ mag A) : HypAcc A B (hypSel o fm A B) := by
  have t1 := topL_fin h fA sA
  have t2 := topL_fin h fB sB
  have e1 : decide (topL B = hypInf w) = false := by simp; omega
  have e2 : decide (hypInf w ≤ topL A) = false := by simp; omega
  unfold hypSel
  rw [e1, e2, Bool.false_or, Bool.false_or, if_neg (by omega : ¬ topL B = hypInf w)]
  cases hp : hypPlus A B
  · simp only [Bool.false_eq_true, if_false, ite_self]
    exact hypMain_acc h fm fA fB sA sB hBA hp
  · simp only [if_true, ite_self]
    exact plus_acc h fA fB sA sB hp hm
theorem magB_fin {w : Nat} (h : W w) (a : BitVec w) : (magB a).msb = false ∧ mag (magB a) = mag a ∧ isFinite (magB a) = isFinite a ∧ rv (magB a) = |rv a| := by
  have e := magB_toNat h a
  have hl := mag_lt (w := w) a
  have h1 : (magB a).msb = false := BitVec.msb_eq_false_iff_two_mul_lt.2 (by
    rw [e]
    have : 2 ^ w = 2 * 2 ^ (w - 1) := by rcases h with h | h <;> subst h <;> rfl
    omega)
  have h2 : mag (magB a) = mag a := by rw [mag_eq_toNat h1, e]
  refine ⟨h1, h2, ?_, ?_⟩
  · rw [Bool.eq_iff_iff, finite_iff h, finite_iff h, h2]
  · rw [rv_abs, rv_sg, natAbs_val, natAbs_val, h2, show neg (magB a) = false from h1]
    simp [sg]
/-- the result is within `3 u` of the hypotenuse -/
theorem hypF_acc {w : Nat} (h : W w) (o : MathOpt) (fm : Bool) {a b : BitVec w} (fa : isFinite a = true) (fb : isFinite b = true)
    (hm : w = 64 → 2 ^ 32 ≤ mag a ∨ 2 ^ 32 ≤ mag b) : HypAcc a b (hypF o fm a b) := by
  obtain ⟨a1, a2, a3, a4⟩ := magB_fin h a
  obtain ⟨b1, b2, b3, b4⟩ := magB_fin h b
  rw [fa] at a3
  rw [fb] at b3
  have hval : ∀ x y : BitVec w, rv x ≤ rv y ↔ val x ≤ val y := by
    intro x y
    unfold rv
    rw [div_le_div_iff_of_pos_right (by positivity)]
    exact_mod_cast Iff.rfl
  have hlt : fLt (magB a) (magB b) = decide (val (magB a) < val (magB b)) := by
    rw [fLt_eq h]
    unfold Fp.lt
    rw [(finite_cls a3).1, (finite_cls b3).1]
    rfl
  have hmm : ∀ {x y : BitVec w}, rv y ≤ rv x → x.msb = false → y.msb = false → mag y ≤ mag x := by
    intro x y hh hx hy
    rw [hval] at hh
    unfold val at hh
    rw [show neg x = false from hx, show neg y = false from hy] at hh
    simp only [Bool.false_eq_true, if_false] at hh
    exact magVal_le.1 (by exact_mod_cast hh)
  unfold hypF hypFst hypSnd
  by_cases hc : val (magB a) < val (magB b)
  · rw [hlt, decide_eq_true hc]
    simp only [Bool.not_true, Bool.false_eq_true, if_false]
    have hBA := (hval (magB a) (magB b)).2 hc.le
    have hmag := hmm hBA b1 a1
    have := hypSel_acc h o fm b3 a3 b1 a1 hBA (fun hw => by rcases hm hw with hh | hh <;> omega)
    unfold HypAcc at this ⊢
    rw [a4, b4, sq_abs, sq_abs, add_comm (rv b ^ 2)] at this
    exact this
  · rw [hlt, decide_eq_false hc]
    simp only [Bool.not_false, if_true]
    have hBA := (hval (magB b) (magB a)).2 (by omega)
    have hmag := hmm hBA a1 b1
    have := hypSel_acc h o fm a3 b3 a1 b1 hBA (fun hw => by rcases hm hw with hh | hh <;> omega)
    unfold HypAcc at this ⊢
    rw [a4, b4, sq_abs, sq_abs] at this
    exact this
end Dpm.X86
