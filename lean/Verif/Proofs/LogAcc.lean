import Verif.Proofs.LogCert
import Mathlib.Analysis.Complex.ExponentialBounds
/-! Accuracy of `eval_log`. -/
namespace Dpm.X86
open Dpm.Reg Dpm.Fp

theorem log1p_taylor {r : ℝ} (hr : |r| < 1) (n : Nat) :
    |Real.log (1 + r) + ∑ i ∈ Finset.range n, (-r) ^ (i + 1) / (i + 1)| ≤ |r| ^ (n + 1) / (1 - |r|) := by
  have h2 := Real.abs_log_sub_add_sum_range_le (x := -r) (by rw [abs_neg]; exact hr) n
  rw [abs_neg, sub_neg_eq_add, add_comm] at h2
  exact h2
theorem log_lip {a b m : ℝ} (hm : 0 < m) (ha : m ≤ a) (hb : m ≤ b) : |Real.log a - Real.log b| ≤ |a - b| / m := by
  have key : ∀ x y : ℝ, m ≤ x → m ≤ y → Real.log x - Real.log y ≤ |x - y| / m := by
    intro x y hx hy
    have hx0 : 0 < x := by linarith
    have hy0 : 0 < y := by linarith
    have := Real.log_le_sub_one_of_pos (div_pos hx0 hy0)
    rw [Real.log_div hx0.ne' hy0.ne', div_sub_one hy0.ne'] at this
    refine le_trans this ?_
    calc (x - y) / y ≤ |x - y| / y := by gcongr; exact le_abs_self _
      _ ≤ |x - y| / m := by gcongr
  rw [abs_le]
  have h1 := key a b ha hb
  have h2 := key b a hb ha
  rw [abs_sub_comm] at h2
  constructor <;> linarith
/-- rational bounds of a pattern, checked in integers -/
theorem rv_bound {w : Nat} (x : BitVec w) (lo hi : Int) (d : Nat) (hd : 0 < d)
    (h : lo * 2 ^ unitExp w ≤ val x * d ∧ val x * d ≤ hi * 2 ^ unitExp w) : (lo : ℝ) / d ≤ rv x ∧ rv x ≤ (hi : ℝ) / d := by
  have hdR : (0:ℝ) < d := by exact_mod_cast hd
  have hU : (0:ℝ) < 2 ^ unitExp w := by positivity
  have h1 : (lo : ℝ) * 2 ^ unitExp w ≤ val x * d := by exact_mod_cast h.1
  have h2 : (val x : ℝ) * d ≤ hi * 2 ^ unitExp w := by exact_mod_cast h.2
  unfold rv
  rw [div_le_div_iff₀ hdR hU, div_le_div_iff₀ hU hdR]
  exact ⟨h1, h2⟩
theorem prod_err {A a B b e1 e2 ma mB : ℝ} (h1 : |A - a| ≤ e1) (h2 : |B - b| ≤ e2) (h3 : |a| ≤ ma) (h4 : |B| ≤ mB) : |A * B - a * b| ≤ e1 * mB + ma * e2 := by
  rw [show A * B - a * b = (A - a) * B + a * (B - b) by ring]
  refine le_trans (abs_add_le _ _) ?_
  rw [abs_mul, abs_mul]
  have a1 : 0 ≤ e1 := le_trans (abs_nonneg _) h1
  have a2 : 0 ≤ ma := le_trans (abs_nonneg _) h3
  exact add_le_add (mul_le_mul h1 h4 (abs_nonneg _) a1) (mul_le_mul h3 h2 (abs_nonneg _) a2)
theorem pow_bd {r m : ℝ} (h : |r| ≤ m) (n : Nat) : |r ^ n| ≤ m ^ n := by
  rw [abs_pow]; exact pow_le_pow_left₀ (abs_nonneg _) h n

/-! ### float -/
theorem coffS : (-(25090:ℝ) / 100000 ≤ rv (logcoffS.getD 0 0) ∧ rv (logcoffS.getD 0 0) ≤ -(25089:ℝ) / 100000) ∧
    ((33345:ℝ) / 100000 ≤ rv (logcoffS.getD 1 0) ∧ rv (logcoffS.getD 1 0) ≤ (33346:ℝ) / 100000) ∧
    (-(500000000:ℝ) / 1000000000 ≤ rv (logcoffS.getD 2 0) ∧ rv (logcoffS.getD 2 0) ≤ -(499999700:ℝ) / 1000000000) := by
  have a := rv_bound (logcoffS.getD 0 0) (-25090) (-25089) 100000 (by norm_num) (by decide +kernel)
  have b := rv_bound (logcoffS.getD 1 0) 33345 33346 100000 (by norm_num) (by decide +kernel)
  have c := rv_bound (logcoffS.getD 2 0) (-500000000) (-499999700) 1000000000 (by norm_num) (by decide +kernel)
  push_cast at a b c
  exact ⟨a, b, c⟩
/-- the polynomial of `eval_log<float>` -/
theorem polyS {r c0 c1 c2 : ℝ} (hr : |r| ≤ 313 / 10000) (h0 : -(25090:ℝ) / 100000 ≤ c0 ∧ c0 ≤ -(25089:ℝ) / 100000)
    (h1 : (33345:ℝ) / 100000 ≤ c1 ∧ c1 ≤ (33346:ℝ) / 100000) (h2 : -(500000000:ℝ) / 1000000000 ≤ c2 ∧ c2 ≤ -(499999700:ℝ) / 1000000000) :
    |r + (c0 * r ^ 2 + c1 * r + c2) * r ^ 2 - Real.log (1 + r)| ≤ |r| * (0.0000000003 + |r| ^ 4 * 1.04 + |r| ^ 3 * 0.0009 + |r| ^ 2 * 0.00013 + |r| * 0.0000003) ∧ 
    |r + (c0 * r ^ 2 + c1 * r + c2) * r ^ 2 - Real.log (1 + r)| ≤ 37 / 10 ^ 9 := by
  have ht := log1p_taylor (r := r) (by linarith) 4
  have e : ∑ i ∈ Finset.range 4, (-r) ^ (i + 1) / ((i:ℝ) + 1) = -r + r ^ 2 / 2 - r ^ 3 / 3 + r ^ 4 / 4 := by
    simp [Finset.sum_range_succ]; ring
  rw [e] at ht
  have h5 : |r| ^ (4 + 1) / (1 - |r|) ≤ |r| ^ 5 * 1.04 := by
    rw [div_le_iff₀ (by linarith)]
    have : 1 ≤ 1.04 * (1 - |r|) := by linarith
    have h0 : 0 ≤ |r| ^ 5 := by positivity
    nlinarith
  set L := Real.log (1 + r)
  have e2 : r + (c0 * r ^ 2 + c1 * r + c2) * r ^ 2 - L = -(L + (-r + r ^ 2 / 2 - r ^ 3 / 3 + r ^ 4 / 4)) + ((c0 + 1 / 4) * r ^ 4 + (c1 - 1 / 3) * r ^ 3 + (c2 + 1 / 2) * r ^ 2) := by ring
  have b0 : |(c0 + 1 / 4) * r ^ 4| ≤ 0.0009 * |r| ^ 4 := by
    rw [abs_mul, abs_pow]; gcongr; rw [abs_le]; constructor <;> linarith
  have b1 : |(c1 - 1 / 3) * r ^ 3| ≤ 0.00013 * |r| ^ 3 := by
    rw [abs_mul, abs_pow]; gcongr; rw [abs_le]; constructor <;> linarith
  have b2 : |(c2 + 1 / 2) * r ^ 2| ≤ 0.0000003 * |r| ^ 2 := by
    rw [abs_mul, abs_pow]; gcongr; rw [abs_le]; constructor <;> linarith
  have main : |r + (c0 * r ^ 2 + c1 * r + c2) * r ^ 2 - L| ≤ |r| ^ 5 * 1.04 + 0.0009 * |r| ^ 4 + 0.00013 * |r| ^ 3 + 0.0000003 * |r| ^ 2 := by
    rw [e2]
    refine le_trans (abs_add_le _ _) ?_
    rw [abs_neg]
    have := abs_add_three ((c0 + 1 / 4) * r ^ 4) ((c1 - 1 / 3) * r ^ 3) ((c2 + 1 / 2) * r ^ 2)
    linarith
  have p0 := abs_nonneg r
  constructor
  · refine le_trans main ?_
    nlinarith
  · refine le_trans main ?_
    have p2 : |r| ^ 2 ≤ (313 / 10000) ^ 2 := pow_le_pow_left₀ p0 hr 2
    have p3 : |r| ^ 3 ≤ (313 / 10000) ^ 3 := pow_le_pow_left₀ p0 hr 3
    have p4 : |r| ^ 4 ≤ (313 / 10000) ^ 4 := pow_le_pow_left₀ p0 hr 4
    have p5 : |r| ^ 5 ≤ (313 / 10000) ^ 5 := pow_le_pow_left₀ p0 hr 5
    norm_num at p2 p3 p4 p5 ⊢
    linarith

/-! ### assembly -/
set_option maxHeartbeats 1000000 in
/-- the errors of the parts add up -/
theorem log_assemble {u t K l lc z inv r y0 s q P res : ℝ} (hu : 0 < u) (hu1 : u ≤ 1 / 2 ^ 24) (ht0 : 0 ≤ t) (ht : t ≤ u / 2 ^ 20)
    (hz : 0 < z) (hinv : 0 < inv) (hzr : |z * inv - 1| ≤ 1 / 32) (hlc1 : |lc| ≤ 1 / 2)
    (hl : |l - Real.log 2| ≤ u / 4) (hlc : |lc + Real.log inv| ≤ u * (15 / 16))
    (hr : |r - (z * inv - 1)| ≤ u * (9 / 8))
    (hy0 : |y0 - (K * l + lc)| ≤ u * (1 + u) * |K * l| + u * |K * l + lc| + 2 * t)
    (hs : |s - (y0 + r)| ≤ u * |y0 + r|)
    (hq : |q - P| ≤ u / 16) (hq1 : |q| ≤ 1 / 1000) (hP : |r + P - Real.log (1 + r)| ≤ u * (5 / 8))
    (hres : |res - (q + s)| ≤ u * (1 + u) * |q| + u * |q + s| + 2 * t) :
    |res - (K * Real.log 2 + Real.log z)| ≤ 5 * u * (1 + |K * Real.log 2 + Real.log z|) := by
  set L2 := Real.log 2 with hL2
  have hL2a : (0.69 : ℝ) ≤ L2 := by have := Real.log_two_gt_d9; rw [hL2]; linarith
  set Y := K * L2 + Real.log z with hY
  set a := |Y| with ha
  have ha0 : 0 ≤ a := abs_nonneg _
  obtain ⟨zr1, zr2⟩ := abs_le.1 hzr
  obtain ⟨r1, r2⟩ := abs_le.1 hr
  have hu2 : u ≤ 1 / 1000000 := le_trans hu1 (by norm_num)
  have hrb : |r| ≤ 1 / 31 := by rw [abs_le]; constructor <;> linarith
  have hlogr : |Real.log (1 + r) - Real.log (z * inv)| ≤ u * (38 / 32) := by
    have := log_lip (a := 1 + r) (b := z * inv) (m := 0.96) (by norm_num) (by linarith [(abs_le.1 hrb).1]) (by linarith)
    refine le_trans this ?_
    rw [show 1 + r - z * inv = r - (z * inv - 1) by ring, div_le_iff₀ (by norm_num)]
    linarith
  have hlogz : Real.log (z * inv) = Real.log z + Real.log inv := Real.log_mul hz.ne' hinv.ne'
  have hlzi : |Real.log (z * inv)| ≤ 0.033 := by
    have := log_lip (a := z * inv) (b := 1) (m := 0.96) (by norm_num) (by linarith) (by norm_num)
    rw [Real.log_one, sub_zero] at this
    refine le_trans this ?_
    rw [div_le_iff₀ (by norm_num)]; linarith
  -- the exact sum before rounding
  have e0 : K * l + lc = Y - Real.log (z * inv) + K * (l - L2) + (lc + Real.log inv) := by rw [hY, hlogz]; ring
  have hK : |K| ≤ 1.46 * a + 0.9 := by
    have e1 : K * L2 = Y - Real.log (z * inv) + (lc + Real.log inv) - lc := by rw [hY, hlogz]; ring
    have e2 : |K * L2| ≤ a + 0.55 := by
      rw [e1]
      have h1 := abs_le.1 hlzi; have h2 := abs_le.1 hlc; have h3 := abs_le.1 hlc1
      have h4 := abs_le.1 (le_refl |Y|)
      rw [abs_le]; constructor <;> linarith [h1.1, h1.2, h2.1, h2.2, h3.1, h3.2, h4.1, h4.2]
    rw [abs_mul, abs_of_pos (by linarith : 0 < L2)] at e2
    have h5 := abs_nonneg K
    nlinarith
  have hKl : |K * (l - L2)| ≤ u * (0.365 * a + 0.225) := by
    rw [abs_mul]
    calc |K| * |l - L2| ≤ (1.46 * a + 0.9) * (u / 4) := mul_le_mul hK hl (abs_nonneg _) (by positivity)
      _ = _ := by ring
  have hua : u * a ≤ a / 1000000 := by rw [mul_comm]; have := mul_le_mul_of_nonneg_left hu2 ha0; linarith
  have hS0 : |K * l + lc| ≤ 1.001 * a + 0.034 := by
    rw [e0]
    have h1 := abs_le.1 hlzi; have h2 := abs_le.1 hlc; have h3 := abs_le.1 hKl
    have h4 := abs_le.1 (le_refl |Y|)
    rw [abs_le]; constructor <;> linarith [h1.1, h1.2, h2.1, h2.2, h3.1, h3.2, h4.1, h4.2]
  have hKl2 : |K * l| ≤ 1.001 * a + 0.534 := by
    have := abs_sub (K * l + lc) lc
    rw [add_sub_cancel_right] at this
    linarith
  have hy0' : |y0 - (K * l + lc)| ≤ u * (2.01 * a + 0.58) := by
    refine le_trans hy0 ?_
    have h1 : u * (1 + u) * |K * l| ≤ u * (1.001 * (1.001 * a + 0.534)) := by
      rw [mul_assoc]
      refine mul_le_mul_of_nonneg_left ?_ hu.le
      exact mul_le_mul (by linarith) hKl2 (abs_nonneg _) (by norm_num)
    have h2 : u * |K * l + lc| ≤ u * (1.001 * a + 0.034) := mul_le_mul_of_nonneg_left hS0 hu.le
    have h3 : 2 * t ≤ u * 0.001 := by linarith
    have h4 : 0 ≤ u * a := by positivity
    linarith
  have hyr : |y0 + r| ≤ 1.002 * a + 0.07 := by
    have h1 := abs_le.1 hy0'; have h2 := abs_le.1 hS0; have h3 := abs_le.1 hrb
    have h4 : 0 ≤ u * a := by positivity
    rw [abs_le]; constructor <;> linarith [h1.1, h1.2, h2.1, h2.2, h3.1, h3.2]
  have hs' : |s - (y0 + r)| ≤ u * (1.002 * a + 0.07) := le_trans hs (mul_le_mul_of_nonneg_left hyr hu.le)
  have hqs : |q + s| ≤ 1.003 * a + 0.072 := by
    have h1 := abs_le.1 hs'; have h2 := abs_le.1 hyr; have h3 := abs_le.1 hq1
    have h4 : 0 ≤ u * a := by positivity
    rw [abs_le]; constructor <;> linarith [h1.1, h1.2, h2.1, h2.2, h3.1, h3.2]
  have hres' : |res - (q + s)| ≤ u * (1.003 * a + 0.076) := by
    refine le_trans hres ?_
    have h1 : u * (1 + u) * |q| ≤ u * (1.001 * (1 / 1000)) := by
      rw [mul_assoc]
      refine mul_le_mul_of_nonneg_left ?_ hu.le
      exact mul_le_mul (by linarith) hq1 (abs_nonneg _) (by norm_num)
    have h2 : u * |q + s| ≤ u * (1.003 * a + 0.072) := mul_le_mul_of_nonneg_left hqs hu.le
    linarith
  have h1 := abs_le.1 hres'; have h2 := abs_le.1 hs'; have h3 := abs_le.1 hy0'; have h4 := abs_le.1 hq; have h5 := abs_le.1 hP
  have h6 := abs_le.1 hlogr; have h7 := abs_le.1 hKl; have h8 := abs_le.1 hlc
  have e3 : Y = K * l + lc + Real.log (z * inv) - K * (l - L2) - (lc + Real.log inv) := by rw [e0]; ring
  have h9 : 0 ≤ u * a := by positivity
  rw [show res - Y = (res - (q + s)) + (s - (y0 + r)) + (y0 - (K * l + lc)) + (q - P) + (r + P - Real.log (1 + r)) + (Real.log (1 + r) - Real.log (z * inv)) + K * (l - L2) + (lc + Real.log inv) by
    rw [e3]; ring]
  rw [show 5 * u * (1 + a) = 5 * u + 5 * (u * a) by ring]
  rw [abs_le]
  constructor <;> linarith [h1.1, h1.2, h2.1, h2.2, h3.1, h3.2, h4.1, h4.2, h5.1, h5.2, h6.1, h6.2, h7.1, h7.2, h8.1, h8.2]
theorem mul_bd {a b A B : ℝ} (h1 : |a| ≤ A) (h2 : |b| ≤ B) : |a * b| ≤ A * B := by
  rw [abs_mul]; exact mul_le_mul h1 h2 (abs_nonneg _) (le_trans (abs_nonneg _) h1)
/-- a rounding error relative to bounded operands -/
theorem fma_bd {w : Nat} (h : W w) (fm : Bool) {x y z : BitVec w} (hx : isFinite x = true) (hy : isFinite y = true) (hz : isFinite z = true) {P Q S : ℝ}
    (hp : |rv x * rv y| ≤ P) (hq : |rv z| ≤ Q) (hs : |rv x * rv y + rv z| ≤ S) (hP : P ≤ 2 ^ 20) (hQ : Q ≤ 2 ^ 20) :
    isFinite (fmaL fm x y z) = true ∧ |rv (fmaL fm x y z) - (rv x * rv y + rv z)| ≤ ulpHalf w * (1.0001 * P + S + 1 / 2 ^ 90) := by
  have hb : (4 : ℝ) * 2 ^ 20 ≤ 2 ^ bias w := by
    have : (2:ℝ) ^ 22 ≤ 2 ^ bias w := pow_le_pow_right₀ (by norm_num) (by rcases h with h | h <;> subst h <;> decide)
    refine le_trans ?_ this; norm_num
  obtain ⟨f, e⟩ := fmaL_e h fm hx hy hz hb (by norm_num) (le_trans hp hP) (le_trans hq hQ)
  refine ⟨f, le_trans e ?_⟩
  have hu := ulp_pos w
  have hu1 : ulpHalf w ≤ 0.0001 := le_trans (ulp_le h) (by norm_num)
  have p0 : 0 ≤ P := le_trans (abs_nonneg _) hp
  have h1 : ulpHalf w * (1 + ulpHalf w) * |rv x * rv y| ≤ ulpHalf w * (1.0001 * P) := by
    rw [mul_assoc]
    exact mul_le_mul_of_nonneg_left (mul_le_mul (by linarith) hp (abs_nonneg _) (by norm_num)) hu.le
  have h2 : ulpHalf w * |rv x * rv y + rv z| ≤ ulpHalf w * S := mul_le_mul_of_nonneg_left hs hu.le
  have h3 : 2 * tiny w ≤ ulpHalf w * (1 / 2 ^ 90) := by
    unfold tiny ulpHalf
    have e : (2:ℝ) * (1 / 2 ^ (unitExp w + 1)) = 1 / 2 ^ unitExp w := by rw [pow_succ]; field_simp
    rw [e, one_div_mul_one_div, ← pow_add]
    apply one_div_le_one_div_of_le (by positivity)
    exact pow_le_pow_right₀ (by norm_num) (by rcases h with h | h <;> subst h <;> decide)
  linarith
theorem fms_bd {w : Nat} (h : W w) (fm : Bool) {x y z : BitVec w} (hx : isFinite x = true) (hy : isFinite y = true) (hz : isFinite z = true) {P Q S : ℝ}
    (hp : |rv x * rv y| ≤ P) (hq : |rv z| ≤ Q) (hs : |rv x * rv y - rv z| ≤ S) (hP : P ≤ 2 ^ 20) (hQ : Q ≤ 2 ^ 20) :
    isFinite (fmsL fm x y z) = true ∧ |rv (fmsL fm x y z) - (rv x * rv y - rv z)| ≤ ulpHalf w * (1.0001 * P + S + 1 / 2 ^ 90) := by
  have hb : (4 : ℝ) * 2 ^ 20 ≤ 2 ^ bias w := by
    have : (2:ℝ) ^ 22 ≤ 2 ^ bias w := pow_le_pow_right₀ (by norm_num) (by rcases h with h | h <;> subst h <;> decide)
    refine le_trans ?_ this; norm_num
  obtain ⟨f, e⟩ := fmsL_e h fm hx hy hz hb (by norm_num) (le_trans hp hP) (le_trans hq hQ)
  refine ⟨f, le_trans e ?_⟩
  have hu := ulp_pos w
  have hu1 : ulpHalf w ≤ 0.0001 := le_trans (ulp_le h) (by norm_num)
  have p0 : 0 ≤ P := le_trans (abs_nonneg _) hp
  have h1 : ulpHalf w * (1 + ulpHalf w) * |rv x * rv y| ≤ ulpHalf w * (1.0001 * P) := by
    rw [mul_assoc]
    exact mul_le_mul_of_nonneg_left (mul_le_mul (by linarith) hp (abs_nonneg _) (by norm_num)) hu.le
  have h2 : ulpHalf w * |rv x * rv y - rv z| ≤ ulpHalf w * S := mul_le_mul_of_nonneg_left hs hu.le
  have h3 : 2 * tiny w ≤ ulpHalf w * (1 / 2 ^ 90) := by
    unfold tiny ulpHalf
    have e : (2:ℝ) * (1 / 2 ^ (unitExp w + 1)) = 1 / 2 ^ unitExp w := by rw [pow_succ]; field_simp
    rw [e, one_div_mul_one_div, ← pow_add]
    apply one_div_le_one_div_of_le (by positivity)
    exact pow_le_pow_right₀ (by norm_num) (by rcases h with h | h <;> subst h <;> decide)
  linarith
theorem mul_bd_e {w : Nat} (h : W w) {x y : BitVec w} (hx : isFinite x = true) (hy : isFinite y = true) {P : ℝ}
    (hp : |rv x * rv y| ≤ P) (hP : P ≤ 2 ^ 20) :
    isFinite (fmul x y) = true ∧ |rv (fmul x y) - rv x * rv y| ≤ ulpHalf w * (P + 1 / 2 ^ 90) := by
  have hb : (2 : ℝ) ^ 20 ≤ 2 ^ bias w := pow_le_pow_right₀ (by norm_num) (by rcases h with h | h <;> subst h <;> decide)
  obtain ⟨f, e⟩ := fmul_e h hx hy (le_trans hp (le_trans hP hb))
  refine ⟨f, le_trans e ?_⟩
  have hu := ulp_pos w
  have h2 : ulpHalf w * |rv x * rv y| ≤ ulpHalf w * P := mul_le_mul_of_nonneg_left hp hu.le
  have h3 : tiny w ≤ ulpHalf w * (1 / 2 ^ 90) := by
    unfold tiny ulpHalf
    rw [one_div_mul_one_div, ← pow_add]
    apply one_div_le_one_div_of_le (by positivity)
    exact pow_le_pow_right₀ (by norm_num) (by rcases h with h | h <;> subst h <;> decide)
  linarith
theorem ofInt_rv {w : Nat} (h : W w) {k : Int} (hk : k.natAbs ≤ 1024) : isFinite (ofInt w k) = true ∧ rv (ofInt w k) = k := by
  obtain ⟨a, b⟩ := ofInt_exact h (z := k) (le_trans hk (by rcases h with h | h <;> subst h <;> decide))
  refine ⟨a, ?_⟩
  unfold rv; rw [b]; push_cast; field_simp
/-- the last steps of `eval_log`, both element types -/
theorem log_core {w : Nat} (h : W w) (fm : Bool) {l inv lc r y r2 : BitVec w} {zv P : ℝ} {k : Int} (hk : k.natAbs ≤ 1024)
    (hz : 0 < zv) (hinv : 0 < rv inv) (hzr : |zv * rv inv - 1| ≤ 1 / 32)
    (hlf : isFinite l = true) (hl : |rv l - Real.log 2| ≤ ulpHalf w / 4)
    (hcf : isFinite lc = true) (hlc1 : |rv lc| ≤ 1 / 2) (hlc : |rv lc + Real.log (rv inv)| ≤ ulpHalf w * (15 / 16))
    (hrf : isFinite r = true) (hr : |rv r - (zv * rv inv - 1)| ≤ ulpHalf w * (9 / 8))
    (hyf : isFinite y = true) (hr2f : isFinite r2 = true)
    (hq : |rv y * rv r2 - P| ≤ ulpHalf w / 16) (hq1 : |rv y * rv r2| ≤ 1 / 1000) (hP : |rv r + P - Real.log (1 + rv r)| ≤ ulpHalf w * (5 / 8)) :
    isFinite (fmaL fm y r2 (fadd (fmaL fm (ofInt w k) l lc) r)) = true ∧
    |rv (fmaL fm y r2 (fadd (fmaL fm (ofInt w k) l lc) r)) - (k * Real.log 2 + Real.log zv)| ≤ 5 * ulpHalf w * (1 + |k * Real.log 2 + Real.log zv|) := by
  have hu := ulp_pos w
  have hu1 := ulp_le h
  have hu2 : ulpHalf w ≤ 1 / 1000000 := le_trans hu1 (by norm_num)
  obtain ⟨kf, kv⟩ := ofInt_rv h hk
  have l1 := Real.log_two_lt_d9
  have l2 := Real.log_two_gt_d9
  have hlb : |rv l| ≤ 1 := by
    obtain ⟨a, b⟩ := abs_le.1 hl
    rw [abs_le]; constructor <;> linarith
  have hkb : |(k : ℝ)| ≤ 1024 := by
    have : ((k.natAbs : Nat) : ℝ) ≤ 1024 := by exact_mod_cast hk
    rwa [Nat.cast_natAbs, Int.cast_abs] at this
  have hb : (2 : ℝ) ^ 20 ≤ 2 ^ bias w := pow_le_pow_right₀ (by norm_num) (by rcases h with h | h <;> subst h <;> decide)
  have hM : (4:ℝ) * 4096 ≤ 2 ^ bias w := le_trans (by norm_num) hb
  have hkl : |rv (ofInt w k) * rv l| ≤ 4096 := by
    rw [kv]; refine le_trans (mul_bd hkb hlb) (by norm_num)
  obtain ⟨f0, e0⟩ := fmaL_e h fm kf hlf hcf hM (by norm_num) hkl (by linarith)
  have hrb : |rv r| ≤ 1 := by
    obtain ⟨a, b⟩ := abs_le.1 hr
    obtain ⟨c, d⟩ := abs_le.1 hzr
    rw [abs_le]; constructor <;> linarith
  have ht := tiny_pos w
  have htl := tiny_le h
  have ht2 : tiny w ≤ ulpHalf w / 2 ^ 20 := by
    unfold tiny ulpHalf
    rw [div_div, ← pow_add]
    apply one_div_le_one_div_of_le (by positivity)
    exact pow_le_pow_right₀ (by norm_num) (by rcases h with h | h <;> subst h <;> decide)
  rw [kv] at e0 hkl
  have hkl2 : |(k : ℝ) * rv l| ≤ 1024 := le_trans (mul_bd hkb hlb) (by norm_num)
  have hy0 : |rv (fmaL fm (ofInt w k) l lc)| ≤ 1030 := by
    have h1 : |(k : ℝ) * rv l + rv lc| ≤ 1025 := le_trans (abs_add_le _ _) (by linarith)
    have := abs_le_of_sub (e := (1:ℝ)) (le_trans e0 (by
      have a1 : ulpHalf w * (1 + ulpHalf w) * |(k:ℝ) * rv l| ≤ 1 / 1000000 * 2 * 1024 := by gcongr; linarith
      have a2 : ulpHalf w * |(k:ℝ) * rv l + rv lc| ≤ 1 / 1000000 * 1025 := by gcongr
      have a3 : tiny w ≤ 0.0001 := le_trans htl (by norm_num)
      linarith)) h1
    linarith
  have hyr : |rv (fmaL fm (ofInt w k) l lc) + rv r| ≤ 1040 := le_trans (abs_add_le _ _) (by linarith)
  obtain ⟨f1, e1⟩ := fadd_e h f0 hrf (le_trans hyr (le_trans (by norm_num) hb))
  have hs : |rv (fadd (fmaL fm (ofInt w k) l lc) r)| ≤ 1050 := by
    have := abs_le_of_sub (e := (1:ℝ)) (le_trans e1 (by
      have a2 : ulpHalf w * |rv (fmaL fm (ofInt w k) l lc) + rv r| ≤ 1 / 1000000 * 1040 := by gcongr
      linarith)) hyr
    linarith
  obtain ⟨f2, e2⟩ := fmaL_e h fm hyf hr2f f1 hM (by norm_num) (by linarith) (by linarith)
  refine ⟨f2, ?_⟩
  exact log_assemble hu hu1 ht.le ht2 hz hinv hzr hlc1 hl hlc hr e0 e1 hq hq1 hP e2
theorem coffS_fin : isFinite (logcoffS.getD 0 0) = true ∧ isFinite (logcoffS.getD 1 0) = true ∧ isFinite (logcoffS.getD 2 0) = true := by decide +kernel
def logcSmall (w bits : Nat) (tab : List (BitVec w)) : Bool := (List.range (2 ^ bits)).all fun i => decide (2 * (val (tab.getD (2 * i + 1) 0)).natAbs ≤ 2 ^ unitExp w)
theorem logcSmall_row {w bits : Nat} {tab : List (BitVec w)} (h : logcSmall w bits tab = true) {i : Nat} (hi : i < 2 ^ bits) : |rv (tab.getD (2 * i + 1) 0)| ≤ 1 / 2 := by
  have h3 := of_decide_eq_true (List.all_eq_true.1 h i (List.mem_range.2 hi))
  generalize tab.getD (2 * i + 1) 0 = x at *
  have : (2:ℝ) * |(val x : ℝ)| ≤ 2 ^ unitExp w := by
    have : ((2 * (val x).natAbs : Nat) : ℝ) ≤ ((2 ^ unitExp w : Nat) : ℝ) := by exact_mod_cast h3
    push_cast [Nat.cast_natAbs, Int.cast_abs] at this
    exact this
  unfold rv
  have hU : (0:ℝ) < 2 ^ unitExp w := by positivity
  rw [abs_div, abs_of_pos hU, div_le_iff₀ hU]; linarith
theorem logtabS_small : logcSmall 32 4 logtabS = true := by decide +kernel
theorem logtabD_small : logcSmall 64 7 logtabD = true := by decide +kernel
theorem W_32 : W 32 := Or.inl rfl
theorem W_64 : W 64 := Or.inr rfl
theorem ulp32 : ulpHalf 32 = 1 / 2 ^ 24 := by unfold ulpHalf; rfl
theorem ulp64 : ulpHalf 64 = 1 / 2 ^ 53 := by unfold ulpHalf; rfl
theorem one32 : rv (oneBits 32) = 1 := by
  have e : val (oneBits 32) = 2 ^ unitExp 32 := by decide +kernel
  unfold rv; rw [e]; push_cast; field_simp
theorem mone64 : rv (0xbff0000000000000#64) = -1 := by
  have e : val (0xbff0000000000000#64) = -2 ^ unitExp 64 := by decide +kernel
  unfold rv; rw [e]; push_cast; field_simp
set_option maxHeartbeats 2000000 in
/-- the inner polynomial of the kernel, as computed -/
theorem yS (fm : Bool) {r : BitVec 32} (rf : isFinite r = true) (rb : |rv r| ≤ 313 / 10000) :
    isFinite (fmul r r) = true ∧ |rv (fmul r r) - rv r ^ 2| ≤ 1 / 2 ^ 24 * 0.001 ∧ |rv (fmul r r)| ≤ 0.00099 ∧
    isFinite (fmaL fm (logcoffS.getD 0 0) (fmul r r) (fmaL fm (logcoffS.getD 1 0) r (logcoffS.getD 2 0))) = true ∧
    |rv (fmaL fm (logcoffS.getD 0 0) (fmul r r) (fmaL fm (logcoffS.getD 1 0) r (logcoffS.getD 2 0))) - (rv (logcoffS.getD 0 0) * rv r ^ 2 + rv (logcoffS.getD 1 0) * rv r + rv (logcoffS.getD 2 0))| ≤ 1 / 2 ^ 24 * 2 ∧
    |rv (fmaL fm (logcoffS.getD 0 0) (fmul r r) (fmaL fm (logcoffS.getD 1 0) r (logcoffS.getD 2 0)))| ≤ 0.53 ∧
    |rv (logcoffS.getD 0 0) * rv r ^ 2 + rv (logcoffS.getD 1 0) * rv r + rv (logcoffS.getD 2 0)| ≤ 0.52 := by
  have hu : ulpHalf 32 = 1 / 2 ^ 24 := ulp32
  obtain ⟨c0, c1, c2⟩ := coffS
  obtain ⟨k0, k1, k2⟩ := coffS_fin
  generalize logcoffS.getD 0 0 = C0 at *
  generalize logcoffS.getD 1 0 = C1 at *
  generalize logcoffS.getD 2 0 = C2 at *
  have b0 : |rv C0| ≤ 0.251 := by rw [abs_le]; constructor <;> linarith [c0.1, c0.2]
  have b1 : |rv C1| ≤ 0.334 := by rw [abs_le]; constructor <;> linarith [c1.1, c1.2]
  have b2 : |rv C2| ≤ 0.5 := by rw [abs_le]; constructor <;> linarith [c2.1, c2.2]
  obtain ⟨r2f, r2e⟩ := mul_bd_e W_32 rf rf (mul_bd rb rb) (by norm_num)
  rw [hu] at r2e
  have r2b : |rv (fmul r r)| ≤ 0.00099 := le_trans (abs_le_of_sub r2e (mul_bd rb rb)) (by norm_num)
  have m1 := mul_bd b1 rb
  obtain ⟨tf, te⟩ := fma_bd W_32 fm k1 rf k2 m1 b2 (le_trans (abs_add_le _ _) (add_le_add m1 b2)) (by norm_num) (by norm_num)
  rw [hu] at te
  have tb := abs_le_of_sub te (le_trans (abs_add_le _ _) (add_le_add m1 b2))
  generalize fmaL fm C1 r C2 = t at *
  generalize fmul r r = r2 at *
  have m2 := mul_bd b0 r2b
  obtain ⟨yf, ye⟩ := fma_bd W_32 fm k0 r2f tf m2 tb (le_trans (abs_add_le _ _) (add_le_add m2 tb)) (by norm_num) (by norm_num)
  rw [hu] at ye
  have yb := abs_le_of_sub ye (le_trans (abs_add_le _ _) (add_le_add m2 tb))
  generalize fmaL fm C0 r2 t = y at *
  have r2e' : |rv r2 - rv r ^ 2| ≤ 1 / 2 ^ 24 * 0.001 := by rw [pow_two]; refine le_trans r2e (by norm_num)
  have hy : |rv y - (rv C0 * rv r ^ 2 + rv C1 * rv r + rv C2)| ≤ 1 / 2 ^ 24 * 1.1 := by
    have h3 : |rv C0 * rv r2 - rv C0 * rv r ^ 2| ≤ 0.251 * (1 / 2 ^ 24 * 0.001) := by rw [← mul_sub]; exact mul_bd b0 r2e'
    have e : rv y - (rv C0 * rv r ^ 2 + rv C1 * rv r + rv C2) = (rv y - (rv C0 * rv r2 + rv t)) + (rv C0 * rv r2 - rv C0 * rv r ^ 2) + (rv t - (rv C1 * rv r + rv C2)) := by ring
    rw [e]
    refine le_trans (abs_add_three _ _ _) (le_trans (add_le_add (add_le_add ye h3) te) (by norm_num))
  have pb : |rv C0 * rv r ^ 2 + rv C1 * rv r + rv C2| ≤ 0.52 := by
    have a1 := mul_bd b0 (pow_bd rb 2)
    refine le_trans (abs_add_three _ _ _) (le_trans (add_le_add (add_le_add a1 m1) b2) (by norm_num))
  exact ⟨r2f, r2e', r2b, yf, le_trans hy (by norm_num), le_trans yb (by norm_num), pb⟩
set_option maxHeartbeats 1000000 in
/-- `eval_log<float>` after the reduction: any `z` of row `i`, any `k` -/
theorem kernS {fm : Bool} {z inv lc r : BitVec 32} {k : Int} (hk : k.natAbs ≤ 1024) (hzf : isFinite z = true) (hz : 0 < rv z)
    (hif : isFinite inv = true) (hinv : 0 < rv inv) (hzr : |rv z * rv inv - 1| ≤ 1 / 32)
    (hcf : isFinite lc = true) (hlc1 : |rv lc| ≤ 1 / 2) (hlc : |rv lc + Real.log (rv inv)| ≤ ulpHalf 32 * (15 / 16))
    (hr : r = fmsL fm z inv (oneBits 32)) :
    isFinite (fmaL fm (fmaL fm (logcoffS.getD 0 0) (fmul r r) (fmaL fm (logcoffS.getD 1 0) r (logcoffS.getD 2 0))) (fmul r r) (fadd (fmaL fm (ofInt 32 k) (ln2Bits 32) lc) r)) = true ∧
    |rv (fmaL fm (fmaL fm (logcoffS.getD 0 0) (fmul r r) (fmaL fm (logcoffS.getD 1 0) r (logcoffS.getD 2 0))) (fmul r r) (fadd (fmaL fm (ofInt 32 k) (ln2Bits 32) lc) r)) - (k * Real.log 2 + Real.log (rv z))| ≤
      5 * ulpHalf 32 * (1 + |k * Real.log 2 + Real.log (rv z)|) := by
  have hu : ulpHalf 32 = 1 / 2 ^ 24 := ulp32
  obtain ⟨c0, c1, c2⟩ := coffS
  have z1 : |rv z * rv inv| ≤ 33 / 32 := by
    obtain ⟨a, b⟩ := abs_le.1 hzr
    rw [abs_le]; constructor <;> linarith
  obtain ⟨rf, re⟩ := fms_bd W_32 fm hzf hif (by decide +kernel : isFinite (oneBits 32) = true) z1 (by rw [one32]; norm_num : |rv (oneBits 32)| ≤ 1) (S := 1 / 32) (by rw [one32]; exact hzr) (by norm_num) (by norm_num)
  rw [← hr] at rf re
  rw [one32, hu] at re
  have re' : |rv r - (rv z * rv inv - 1)| ≤ ulpHalf 32 * (9 / 8) := by rw [hu]; refine le_trans re (by norm_num)
  have rb : |rv r| ≤ 313 / 10000 := by
    have := abs_le_of_sub re hzr
    refine le_trans this (by norm_num)
  clear hr
  obtain ⟨r2f, r2e', r2b, yf, hy, yb, pb⟩ := yS fm rf rb
  have hq := prod_err hy r2e' pb r2b
  have hP := (polyS rb c0 c1 c2).2
  refine log_core W_32 fm hk hz hinv hzr (by decide +kernel) (by rw [hu]; exact le_trans ln2_err32 (by norm_num)) hcf hlc1 hlc rf re' yf r2f (le_trans hq (by rw [hu]; norm_num)) ?_ (by rw [hu]; refine le_trans hP (by norm_num))
  exact le_trans (mul_bd yb r2b) (by norm_num)
/-! ### double -/
theorem coffD : (-(0.5:ℝ) ≤ rv (logcoffD.getD 0 0) ∧ rv (logcoffD.getD 0 0) ≤ -(0.499999999999999:ℝ)) ∧
    ((0.33333333331:ℝ) ≤ rv (logcoffD.getD 1 0) ∧ rv (logcoffD.getD 1 0) ≤ (0.33333333332:ℝ)) ∧
    (-(0.2500000003:ℝ) ≤ rv (logcoffD.getD 2 0) ∧ rv (logcoffD.getD 2 0) ≤ -(0.2500000002:ℝ)) ∧
    ((0.200003:ℝ) ≤ rv (logcoffD.getD 3 0) ∧ rv (logcoffD.getD 3 0) ≤ (0.200004:ℝ)) ∧
    (-(0.16666:ℝ) ≤ rv (logcoffD.getD 4 0) ∧ rv (logcoffD.getD 4 0) ≤ -(0.16665:ℝ)) := by
  have a := rv_bound (logcoffD.getD 0 0) (-500000000000000) (-499999999999999) 1000000000000000 (by norm_num) (by decide +kernel)
  have b := rv_bound (logcoffD.getD 1 0) 33333333331 33333333332 100000000000 (by norm_num) (by decide +kernel)
  have c := rv_bound (logcoffD.getD 2 0) (-2500000003) (-2500000002) 10000000000 (by norm_num) (by decide +kernel)
  have d := rv_bound (logcoffD.getD 3 0) 200003 200004 1000000 (by norm_num) (by decide +kernel)
  have e := rv_bound (logcoffD.getD 4 0) (-16666) (-16665) 100000 (by norm_num) (by decide +kernel)
  push_cast at a b c d e
  refine ⟨⟨le_trans ?_ a.1, le_trans a.2 ?_⟩, ⟨le_trans ?_ b.1, le_trans b.2 ?_⟩, ⟨le_trans ?_ c.1, le_trans c.2 ?_⟩, ⟨le_trans ?_ d.1, le_trans d.2 ?_⟩, ⟨le_trans ?_ e.1, le_trans e.2 ?_⟩⟩ <;> norm_num
theorem coffD_fin : isFinite (logcoffD.getD 0 0) = true ∧ isFinite (logcoffD.getD 1 0) = true ∧ isFinite (logcoffD.getD 2 0) = true ∧ isFinite (logcoffD.getD 3 0) = true ∧ isFinite (logcoffD.getD 4 0) = true := by decide +kernel
/-- the polynomial of `eval_log<double>` -/
theorem polyD {r c0 c1 c2 c3 c4 : ℝ} (hr : |r| ≤ 1 / 254.9) (h0 : -(0.5:ℝ) ≤ c0 ∧ c0 ≤ -(0.499999999999999:ℝ))
    (h1 : (0.33333333331:ℝ) ≤ c1 ∧ c1 ≤ (0.33333333332:ℝ)) (h2 : -(0.2500000003:ℝ) ≤ c2 ∧ c2 ≤ -(0.2500000002:ℝ))
    (h3 : (0.200003:ℝ) ≤ c3 ∧ c3 ≤ (0.200004:ℝ)) (h4 : -(0.16666:ℝ) ≤ c4 ∧ c4 ≤ -(0.16665:ℝ)) :
    |r + (c0 + c1 * r + (c2 + c3 * r + c4 * r ^ 2) * r ^ 2) * r ^ 2 - Real.log (1 + r)| ≤ 1.02 * |r| ^ 7 + 0.00002 * |r| ^ 6 + 0.000004 * |r| ^ 5 + 0.0000000003 * |r| ^ 4 + 0.00000000003 * |r| ^ 3 + 0.000000000000001 * |r| ^ 2 := by
  have ht := log1p_taylor (r := r) (by refine lt_of_le_of_lt hr (by norm_num)) 6
  have e : ∑ i ∈ Finset.range 6, (-r) ^ (i + 1) / ((i:ℝ) + 1) = -r + r ^ 2 / 2 - r ^ 3 / 3 + r ^ 4 / 4 - r ^ 5 / 5 + r ^ 6 / 6 := by
    simp [Finset.sum_range_succ]; ring
  rw [e] at ht
  have h5 : |r| ^ (6 + 1) / (1 - |r|) ≤ 1.02 * |r| ^ 7 := by
    have hr' : |r| ≤ 0.004 := le_trans hr (by norm_num)
    rw [div_le_iff₀ (by linarith)]
    have : 1 ≤ 1.02 * (1 - |r|) := by linarith
    have h0 : 0 ≤ |r| ^ 7 := by positivity
    nlinarith
  set L := Real.log (1 + r)
  have e2 : r + (c0 + c1 * r + (c2 + c3 * r + c4 * r ^ 2) * r ^ 2) * r ^ 2 - L = -(L + (-r + r ^ 2 / 2 - r ^ 3 / 3 + r ^ 4 / 4 - r ^ 5 / 5 + r ^ 6 / 6)) + ((c4 + 1 / 6) * r ^ 6 + (c3 - 1 / 5) * r ^ 5 + (c2 + 1 / 4) * r ^ 4) + ((c1 - 1 / 3) * r ^ 3 + (c0 + 1 / 2) * r ^ 2) := by ring
  have b0 : |(c0 + 1 / 2) * r ^ 2| ≤ 0.000000000000001 * |r| ^ 2 := by
    rw [abs_mul, abs_pow]; gcongr; rw [abs_le]; constructor <;> linarith
  have b1 : |(c1 - 1 / 3) * r ^ 3| ≤ 0.00000000003 * |r| ^ 3 := by
    rw [abs_mul, abs_pow]; gcongr; rw [abs_le]; constructor <;> linarith
  have b2 : |(c2 + 1 / 4) * r ^ 4| ≤ 0.0000000003 * |r| ^ 4 := by
    rw [abs_mul, abs_pow]; gcongr; rw [abs_le]; constructor <;> linarith
  have b3 : |(c3 - 1 / 5) * r ^ 5| ≤ 0.000004 * |r| ^ 5 := by
    rw [abs_mul, abs_pow]; gcongr; rw [abs_le]; constructor <;> linarith
  have b4 : |(c4 + 1 / 6) * r ^ 6| ≤ 0.00002 * |r| ^ 6 := by
    rw [abs_mul, abs_pow]; gcongr; rw [abs_le]; constructor <;> linarith
  rw [e2]
  refine le_trans (abs_add_three _ _ _) ?_
  rw [abs_neg]
  have t1 := abs_add_three ((c4 + 1 / 6) * r ^ 6) ((c3 - 1 / 5) * r ^ 5) ((c2 + 1 / 4) * r ^ 4)
  have t2 := abs_add_le ((c1 - 1 / 3) * r ^ 3) ((c0 + 1 / 2) * r ^ 2)
  linarith
theorem polyD' {a : ℝ} (p0 : 0 ≤ a) (hr : a ≤ 1 / 254.9) :
   1.02 * a ^ 7 + 0.00002 * a ^ 6 + 0.000004 * a ^ 5 + 0.0000000003 * a ^ 4 + 0.00000000003 * a ^ 3 + 0.000000000000001 * a ^ 2 ≤ 1 / 2 ^ 53 * (5 / 8) := by
  have p2 : a ^ 2 ≤ (1 / 254.9) ^ 2 := pow_le_pow_left₀ p0 hr 2
  have p3 : a ^ 3 ≤ (1 / 254.9) ^ 3 := pow_le_pow_left₀ p0 hr 3
  have p4 : a ^ 4 ≤ (1 / 254.9) ^ 4 := pow_le_pow_left₀ p0 hr 4
  have p5 : a ^ 5 ≤ (1 / 254.9) ^ 5 := pow_le_pow_left₀ p0 hr 5
  have p6 : a ^ 6 ≤ (1 / 254.9) ^ 6 := pow_le_pow_left₀ p0 hr 6
  have p7 : a ^ 7 ≤ (1 / 254.9) ^ 7 := pow_le_pow_left₀ p0 hr 7
  norm_num at p2 p3 p4 p5 p6 p7 ⊢
  linarith
set_option maxHeartbeats 2000000 in
/-- the inner polynomial of the kernel, as computed -/
theorem yD (fm : Bool) {r : BitVec 64} (rf : isFinite r = true) (rb : |rv r| ≤ 1 / 254.9) :
    isFinite (fmul r r) = true ∧ |rv (fmul r r) - rv r ^ 2| ≤ 1 / 2 ^ 53 * 0.001 ∧ |rv (fmul r r)| ≤ 0.00002 ∧
    isFinite (fmaL fm (fmaL fm (logcoffD.getD 4 0) (fmul r r) (fmaL fm (logcoffD.getD 3 0) r (logcoffD.getD 2 0))) (fmul r r) (fmaL fm (logcoffD.getD 1 0) r (logcoffD.getD 0 0))) = true ∧
    |rv (fmaL fm (fmaL fm (logcoffD.getD 4 0) (fmul r r) (fmaL fm (logcoffD.getD 3 0) r (logcoffD.getD 2 0))) (fmul r r) (fmaL fm (logcoffD.getD 1 0) r (logcoffD.getD 0 0))) - (rv (logcoffD.getD 0 0) + rv (logcoffD.getD 1 0) * rv r + (rv (logcoffD.getD 2 0) + rv (logcoffD.getD 3 0) * rv r + rv (logcoffD.getD 4 0) * rv r ^ 2) * rv r ^ 2)| ≤ 1 / 2 ^ 53 * 2 ∧
    |rv (fmaL fm (fmaL fm (logcoffD.getD 4 0) (fmul r r) (fmaL fm (logcoffD.getD 3 0) r (logcoffD.getD 2 0))) (fmul r r) (fmaL fm (logcoffD.getD 1 0) r (logcoffD.getD 0 0)))| ≤ 0.53 ∧
    |rv (logcoffD.getD 0 0) + rv (logcoffD.getD 1 0) * rv r + (rv (logcoffD.getD 2 0) + rv (logcoffD.getD 3 0) * rv r + rv (logcoffD.getD 4 0) * rv r ^ 2) * rv r ^ 2| ≤ 0.52 := by
  have hu : ulpHalf 64 = 1 / 2 ^ 53 := ulp64
  obtain ⟨c0, c1, c2, c3, c4⟩ := coffD
  obtain ⟨k0, k1, k2, k3, k4⟩ := coffD_fin
  generalize logcoffD.getD 0 0 = C0 at *
  generalize logcoffD.getD 1 0 = C1 at *
  generalize logcoffD.getD 2 0 = C2 at *
  generalize logcoffD.getD 3 0 = C3 at *
  generalize logcoffD.getD 4 0 = C4 at *
  have b0 : |rv C0| ≤ 0.5 := by rw [abs_le]; constructor <;> linarith [c0.1, c0.2]
  have b1 : |rv C1| ≤ 0.334 := by rw [abs_le]; constructor <;> linarith [c1.1, c1.2]
  have b2 : |rv C2| ≤ 0.251 := by rw [abs_le]; constructor <;> linarith [c2.1, c2.2]
  have b3 : |rv C3| ≤ 0.201 := by rw [abs_le]; constructor <;> linarith [c3.1, c3.2]
  have b4 : |rv C4| ≤ 0.167 := by rw [abs_le]; constructor <;> linarith [c4.1, c4.2]
  obtain ⟨r2f, r2e⟩ := mul_bd_e W_64 rf rf (mul_bd rb rb) (by norm_num)
  rw [hu] at r2e
  have r2b : |rv (fmul r r)| ≤ 0.00002 := le_trans (abs_le_of_sub r2e (mul_bd rb rb)) (by norm_num)
  have m1 := mul_bd b1 rb
  have s1 := le_trans (abs_add_le _ _) (add_le_add m1 b0)
  obtain ⟨tf, te⟩ := fma_bd W_64 fm k1 rf k0 m1 b0 s1 (by norm_num) (by norm_num)
  rw [hu] at te
  have tb := abs_le_of_sub te s1
  have m3 := mul_bd b3 rb
  have s3 := le_trans (abs_add_le _ _) (add_le_add m3 b2)
  obtain ⟨vf, ve⟩ := fma_bd W_64 fm k3 rf k2 m3 b2 s3 (by norm_num) (by norm_num)
  rw [hu] at ve
  have vb := abs_le_of_sub ve s3
  generalize fmaL fm C1 r C0 = t at *
  generalize fmaL fm C3 r C2 = v at *
  generalize fmul r r = r2 at *
  have m2 := mul_bd b4 r2b
  have s2 := le_trans (abs_add_le _ _) (add_le_add m2 vb)
  obtain ⟨gf, ge⟩ := fma_bd W_64 fm k4 r2f vf m2 vb s2 (by norm_num) (by norm_num)
  rw [hu] at ge
  have gb' := abs_le_of_sub ge s2
  have gb : |rv (fmaL fm C4 r2 v)| ≤ 0.26 := le_trans gb' (by norm_num)
  clear gb'
  generalize fmaL fm C4 r2 v = g at *
  have m4 := mul_bd gb r2b
  have tb' : |rv t| ≤ 0.51 := le_trans tb (by norm_num)
  have s4 := le_trans (abs_add_le _ _) (add_le_add m4 tb')
  obtain ⟨yf, ye⟩ := fma_bd W_64 fm gf r2f tf m4 tb' s4 (by norm_num) (by norm_num)
  rw [hu] at ye
  have yb := abs_le_of_sub ye s4
  generalize fmaL fm g r2 t = y at *
  have r2e' : |rv r2 - rv r ^ 2| ≤ 1 / 2 ^ 53 * 0.001 := by rw [pow_two]; refine le_trans r2e (by norm_num)
  have hg : |rv g - (rv C2 + rv C3 * rv r + rv C4 * rv r ^ 2)| ≤ 1 / 2 ^ 53 * 2 := by
    have h3 : |rv C4 * rv r2 - rv C4 * rv r ^ 2| ≤ 0.167 * (1 / 2 ^ 53 * 0.001) := by rw [← mul_sub]; exact mul_bd b4 r2e'
    have e : rv g - (rv C2 + rv C3 * rv r + rv C4 * rv r ^ 2) = (rv g - (rv C4 * rv r2 + rv v)) + (rv C4 * rv r2 - rv C4 * rv r ^ 2) + (rv v - (rv C3 * rv r + rv C2)) := by ring
    rw [e]
    refine le_trans (abs_add_three _ _ _) (le_trans (add_le_add (add_le_add ge h3) ve) (by norm_num))
  have qb : |rv C2 + rv C3 * rv r + rv C4 * rv r ^ 2| ≤ 0.26 := by
    have a1 := mul_bd b4 (pow_bd rb 2)
    refine le_trans (abs_add_three _ _ _) (le_trans (add_le_add (add_le_add b2 m3) a1) (by norm_num))
  have hgr := prod_err hg r2e' qb r2b
  have hy : |rv y - (rv C0 + rv C1 * rv r + (rv C2 + rv C3 * rv r + rv C4 * rv r ^ 2) * rv r ^ 2)| ≤ 1 / 2 ^ 53 * 2 := by
    have e : rv y - (rv C0 + rv C1 * rv r + (rv C2 + rv C3 * rv r + rv C4 * rv r ^ 2) * rv r ^ 2) = (rv y - (rv g * rv r2 + rv t)) + (rv g * rv r2 - (rv C2 + rv C3 * rv r + rv C4 * rv r ^ 2) * rv r ^ 2) + (rv t - (rv C1 * rv r + rv C0)) := by ring
    rw [e]
    refine le_trans (abs_add_three _ _ _) (le_trans (add_le_add (add_le_add ye hgr) te) (by norm_num))
  have pb : |rv C0 + rv C1 * rv r + (rv C2 + rv C3 * rv r + rv C4 * rv r ^ 2) * rv r ^ 2| ≤ 0.52 := by
    have a1 := mul_bd qb (pow_bd rb 2)
    refine le_trans (abs_add_three _ _ _) (le_trans (add_le_add (add_le_add b0 m1) a1) (by norm_num))
  exact ⟨r2f, r2e', r2b, yf, le_trans hy (by norm_num), le_trans yb (by norm_num), pb⟩
set_option maxHeartbeats 2000000 in
/-- `eval_log<double>` after the reduction -/
theorem kernD {fm : Bool} {z inv lc r : BitVec 64} {k : Int} (hk : k.natAbs ≤ 1024) (hzf : isFinite z = true) (hz : 0 < rv z)
    (hif : isFinite inv = true) (hinv : 0 < rv inv) (hzr : |rv z * rv inv - 1| ≤ 1 / 255)
    (hcf : isFinite lc = true) (hlc1 : |rv lc| ≤ 1 / 2) (hlc : |rv lc + Real.log (rv inv)| ≤ ulpHalf 64 * (15 / 16))
    (hr : r = fmaL fm z inv (0xbff0000000000000#64)) :
    isFinite (fmaL fm (fmaL fm (fmaL fm (logcoffD.getD 4 0) (fmul r r) (fmaL fm (logcoffD.getD 3 0) r (logcoffD.getD 2 0))) (fmul r r) (fmaL fm (logcoffD.getD 1 0) r (logcoffD.getD 0 0))) (fmul r r) (fadd (fmaL fm (ofInt 64 k) (ln2Bits 64) lc) r)) = true ∧
    |rv (fmaL fm (fmaL fm (fmaL fm (logcoffD.getD 4 0) (fmul r r) (fmaL fm (logcoffD.getD 3 0) r (logcoffD.getD 2 0))) (fmul r r) (fmaL fm (logcoffD.getD 1 0) r (logcoffD.getD 0 0))) (fmul r r) (fadd (fmaL fm (ofInt 64 k) (ln2Bits 64) lc) r)) - (k * Real.log 2 + Real.log (rv z))| ≤
      5 * ulpHalf 64 * (1 + |k * Real.log 2 + Real.log (rv z)|) := by
  have hu : ulpHalf 64 = 1 / 2 ^ 53 := ulp64
  obtain ⟨c0, c1, c2, c3, c4⟩ := coffD
  have z1 : |rv z * rv inv| ≤ 256 / 255 := by
    obtain ⟨a, b⟩ := abs_le.1 hzr
    rw [abs_le]; constructor <;> linarith
  obtain ⟨rf, re⟩ := fma_bd W_64 fm hzf hif (by decide +kernel : isFinite (0xbff0000000000000#64) = true) z1 (by rw [mone64]; norm_num : |rv (0xbff0000000000000#64)| ≤ 1) (S := 1 / 255) (by rw [mone64]; exact hzr) (by norm_num) (by norm_num)
  rw [← hr] at rf re
  rw [mone64, hu, ← sub_eq_add_neg] at re
  have re' : |rv r - (rv z * rv inv - 1)| ≤ ulpHalf 64 * (9 / 8) := by rw [hu]; refine le_trans re (by norm_num)
  have rb : |rv r| ≤ 1 / 254.9 := by
    have := abs_le_of_sub re hzr
    refine le_trans this (by norm_num)
  clear hr
  obtain ⟨r2f, r2e', r2b, yf, hy, yb, pb⟩ := yD fm rf rb
  have hq := prod_err hy r2e' pb r2b
  have hP := le_trans (polyD rb c0 c1 c2 c3 c4) (polyD' (abs_nonneg _) rb)
  refine log_core W_64 fm hk hz hinv (le_trans hzr (by norm_num)) (by decide +kernel) (by rw [hu]; exact le_trans ln2_err64 (by norm_num)) hcf hlc1 hlc rf re' yf r2f (le_trans hq (by rw [hu]; norm_num)) ?_ (by rw [hu]; refine le_trans hP (by norm_num))
  exact le_trans (mul_bd yb r2b) (by norm_num)
end Dpm.X86
