import Verif.Proofs.InvAsin
/-! Accuracy of `eval_asin` on one lane: the branch near one, and the whole function. -/
namespace Dpm.X86
open Dpm.Reg Dpm.Fp Dpm.Poly

/-- the last steps of the branch near one: the absolute errors of the sums added up -/
theorem big_real {u p4 off r p y1 y2 m y3 s G H B : ℝ} (hu : 0 < u) (hu1 : u ≤ 1 / 10 ^ 7) (q1 : 785 / 1000 ≤ p4) (q2 : p4 ≤ 786 / 1000) (o1 : 0 ≤ off) (o2 : off ≤ 0.6 * u)
    (hc : |2 * p4 + off - H| ≤ 0.74 * u) (s0 : 0 ≤ s) (s1 : s ≤ 0.8661) (G0 : 0 ≤ G) (G1 : G ≤ 0.035) (hr : |r - s| ≤ u * (2.001 * s)) (hp : |p - G| ≤ u * 0.36)
    (h1 : |y1 - (p4 - r)| ≤ u * |p4 - r|) (h2 : |y2 - (y1 + p4)| ≤ u * |y1 + p4|) (hm : |m - (r * p - off)| ≤ u * 0.062) (h3 : |y3 - (y2 - m)| ≤ u * |y2 - m|)
    (hB : |s * (1 + G) - B| ≤ u * (1.5 * s)) : |y3 - (H - B)| ≤ u * 8.2 := by
  have us : u * (2.001 * s) ≤ u * 1.7331 := mul_le_mul_of_nonneg_left (by norm_num at *; linarith) hu.le
  have us2 : u * (1.5 * s) ≤ u * 1.2992 := mul_le_mul_of_nonneg_left (by norm_num at *; linarith) hu.le
  have us3 : u * (2.001 * s) ≤ 1 / 10 ^ 7 * (2.001 * s) := mul_le_mul_of_nonneg_right hu1 (by positivity)
  have r0 := abs_le.1 hr
  have rp : 0 ≤ r := by norm_num at *; linarith
  have r1 : r ≤ 0.8662 := by norm_num at *; linarith
  have pb := abs_le.1 hp
  have pa : |p| ≤ 0.0351 := abs_le.2 ⟨by norm_num at *; linarith, by norm_num at *; linarith⟩
  have e1 : |r * p - s * G| ≤ u * 0.373 := by
    refine le_trans (prod_err (le_trans hr us) hp (show |s| ≤ 0.8661 by rw [abs_of_nonneg s0]; exact s1) pa) ?_
    norm_num; linarith
  have rpb : -0.00001 ≤ r * p ∧ r * p ≤ 0.0305 := by
    have k1 : 0 ≤ s * G := mul_nonneg s0 G0
    have k2 : s * G ≤ 0.8661 * 0.035 := mul_le_mul s1 G1 G0 (by norm_num)
    have := abs_le.1 e1
    constructor <;> norm_num at * <;> linarith
  have b1 : |p4 - r| ≤ 0.786 := abs_le.2 ⟨by norm_num at *; linarith, by norm_num at *; linarith⟩
  have h1' := le_trans h1 (mul_le_mul_of_nonneg_left b1 hu.le)
  have c1 := abs_le.1 h1'
  have b2 : |y1 + p4| ≤ 1.5721 := abs_le.2 ⟨by norm_num at *; linarith, by norm_num at *; linarith⟩
  have h2' := le_trans h2 (mul_le_mul_of_nonneg_left b2 hu.le)
  have c2 := abs_le.1 h2'
  have c3 := abs_le.1 hm
  generalize r * p = rpv at *
  have b3 : |y2 - m| ≤ 1.5723 := abs_le.2 ⟨by norm_num at *; linarith, by norm_num at *; linarith⟩
  have h3' := le_trans h3 (mul_le_mul_of_nonneg_left b3 hu.le)
  have c4 := abs_le.1 h3'
  have c5 := abs_le.1 hc
  have c6 := abs_le.1 e1
  have c7 := abs_le.1 hB
  have e : s * (1 + G) = s + s * G := by ring
  rw [e] at c7
  generalize s * G = sg at *
  rw [abs_le]
  constructor <;> norm_num at * <;> linarith
theorem one_rv' {w : Nat} (h : W w) : isFinite (oneBits w) = true ∧ rv (oneBits w) = 1 := by
  rcases h with h | h <;> subst h
  · have e : isFinite (oneBits 32) = true ∧ val (oneBits 32) = 1 * 2 ^ 149 := by decide +kernel
    exact ⟨e.1, by rw [rv_of_val e.2 (b := 0) rfl]; norm_num⟩
  · have e : isFinite (oneBits 64) = true ∧ val (oneBits 64) = 1 * 2 ^ 1074 := by decide +kernel
    exact ⟨e.1, by rw [rv_of_val e.2 (b := 0) rfl]; norm_num⟩
set_option maxHeartbeats 1600000 in
theorem asinBig_acc {w : Nat} (h : W w) (fm : Bool) {x : BitVec w} (fx : isFinite x = true) (hx0 : 0.625 ≤ rv x) (hx : rv x ≤ 1) :
    isFinite (asinBig fm x) = true ∧ |rv (asinBig fm x) - Real.arcsin (rv x)| ≤ ulpHalf w * 8.2 := by
  have hu := ulp_pos w
  have hu1 : ulpHalf w ≤ 1 / 10 ^ 7 := le_trans (ulp_le h) (by norm_num)
  have ht0 := tiny_pos w
  have ht := tiny_ulp h
  have hb : (2 : ℝ) ^ 20 ≤ 2 ^ bias w := pow_le_pow_right₀ (by norm_num) (by rcases h with h | h <;> subst h <;> decide)
  obtain ⟨f1, r1⟩ := one_rv' h
  obtain ⟨A, hAe⟩ : ∃ A, A = 1 - rv x := ⟨_, rfl⟩
  have hA0 : 0 ≤ A := by linarith
  have hA1 : A ≤ 0.375 := by norm_num at *; linarith
  obtain ⟨fa, ea⟩ := fsub_e h f1 fx (by rw [r1, ← hAe, abs_of_nonneg hA0]; norm_num at *; linarith)
  rw [r1, ← hAe, abs_of_nonneg hA0] at ea
  have hs := arccos_half (by norm_num at *; linarith) hx
  rw [← hAe] at hs
  have hsq : Real.sqrt (A / 2) ^ 2 = A / 2 := Real.sq_sqrt (by linarith)
  have cert := asinB_cert h (Real.sqrt_nonneg (A / 2)) (by rw [hsq]; norm_num at *; linarith)
  have hroot : Real.sqrt (2 * A) = 2 * Real.sqrt (A / 2) := by
    rw [show 2 * A = 2 ^ 2 * (A / 2) by ring, Real.sqrt_mul (by norm_num), Real.sqrt_sq (by norm_num)]
  unfold ratF at cert
  rw [hsq, evalP_dbl, evalP_dbl, show 2 * (A / 2) = A by ring] at cert
  obtain ⟨r2, r3, r4⟩ := asinB_rho h hA0 hA1
  unfold asinBig
  dsimp only
  generalize fsub (oneBits w) x = a at *
  obtain ⟨fr, er⟩ := root_acc h fa hA0 (le_trans hA1 (by norm_num)) ea
  have ea' : |rv a - A| ≤ ulpHalf w * A + tiny w := by linarith
  have ea2 := sq_acc_u h ea' hA1 (show (0.375:ℝ) + 1 / 1000000 ≤ 0.3751 by norm_num)
  obtain ⟨fp, ep⟩ := asinR_acc h fm fa hA0 (le_trans hA1 (by norm_num)) ea2
  obtain ⟨fq, eq⟩ := asinS_acc h fm fa hA0 (le_trans hA1 (by norm_num)) ea2
  have hpw := pow_if_pos w 58 32
  have cert' : |2 * Real.sqrt (A / 2) * (1 + A * (evalP (asinRI w) A / 2 ^ (if w = 64 then 58 else 32) / (evalP (asinSI w) A / 2 ^ (if w = 64 then 58 else 32)))) - Real.arccos (rv x)| ≤
      ulpHalf w * (1.5 * (2 * Real.sqrt (A / 2))) := by
    rw [div_div_div_cancel_right₀ hpw.ne', hs]
    have e : 2 * Real.sqrt (A / 2) * (1 + A * (evalP (asinRI w) A / evalP (asinSI w) A)) - 2 * Real.arcsin (Real.sqrt (A / 2)) =
        2 * (Real.sqrt (A / 2) * (1 + A / 2 * (2 ^ 1 * evalP (asinRI w) A / (2 ^ 0 * evalP (asinSI w) A))) - Real.arcsin (Real.sqrt (A / 2))) := by
      rw [pow_one, pow_zero, one_mul, mul_div_assoc]; ring
    rw [e, abs_mul, abs_two]
    linarith
  have s3 : 0 ≤ evalP (asinRI w) A / 2 ^ (if w = 64 then 58 else 32) := div_nonneg r2 hpw.le
  have s4 : evalP (asinRI w) A / 2 ^ (if w = 64 then 58 else 32) ≤ 0.093 * (evalP (asinSI w) A / 2 ^ (if w = 64 then 58 else 32)) := by
    rw [← mul_div_assoc]; exact div_le_div_of_nonneg_right r3 hpw.le
  have hq0 : 210 ≤ evalP (asinSI w) A / 2 ^ (if w = 64 then 58 else 32) := by rw [le_div_iff₀ hpw]; exact r4
  clear cert
  generalize evalP (asinRI w) A / 2 ^ (if w = 64 then 58 else 32) = P at *
  generalize evalP (asinSI w) A / 2 ^ (if w = 64 then 58 else 32) = Q at *
  have hQ : |Q| = Q := abs_of_nonneg (le_trans (by norm_num) hq0)
  have hP : |P| = P := abs_of_nonneg s3
  have hQp : 0 < Q := lt_of_lt_of_le (by norm_num) hq0
  obtain ⟨fg, eg⟩ := rat_step h (q0 := 210) (ρ := 0.093) (d := 0.67) fp fq fa ep eq (by norm_num) (by rw [hQ]; exact hq0) (by rw [hQ, hP]; exact s4) (by norm_num) (by norm_num) ea' hA0
    (le_trans hA1 (by norm_num)) (by norm_num) (by norm_num) (by norm_num) (by norm_num)
  have hPQ : 0 ≤ P / Q ∧ P / Q ≤ 0.093 := ⟨div_nonneg s3 hQp.le, by rw [div_le_iff₀ hQp]; exact s4⟩
  generalize P / Q = R at *
  have hG : 0 ≤ A * R ∧ A * R ≤ 0.035 := ⟨mul_nonneg hA0 hPQ.1, le_trans (mul_le_mul hA1 hPQ.2 hPQ.1 (by norm_num)) (by norm_num)⟩
  have hs0 := Real.sqrt_nonneg (2 * A)
  have hs1 : Real.sqrt (2 * A) ≤ 0.8661 := by
    rw [show (0.8661 : ℝ) = Real.sqrt (0.8661 ^ 2) by rw [Real.sqrt_sq (by norm_num)]]
    exact Real.sqrt_le_sqrt (by norm_num at *; linarith)
  rw [← hroot] at cert'
  have eg' : |rv (fmul a (fdiv (polL fm a (asinR w)) (polL fm a (asinS w)))) - A * R| ≤ ulpHalf w * 0.36 := by
    refine le_trans eg ?_
    have : ulpHalf w * (A * (0.67 + 3 * 0.093 + 0.01)) ≤ ulpHalf w * 0.3598 := mul_le_mul_of_nonneg_left (by norm_num at *; linarith) hu.le
    norm_num at *; linarith
  generalize fmul a (fdiv (polL fm a (asinR w)) (polL fm a (asinS w))) = pp at *
  generalize fsqrt (fadd a a) = rr at *
  generalize Real.sqrt (2 * A) = s at *
  generalize A * R = G at *
  obtain ⟨g1, _, _, g4, g5, _⟩ := pio4_consts h
  obtain ⟨o1, o2, o3, o4⟩ := asinOff_consts h
  -- magnitudes
  have us3 : ulpHalf w * (2.001 * s) ≤ 1 / 10 ^ 7 * (2.001 * s) := mul_le_mul_of_nonneg_right hu1 (by positivity)
  have rb := abs_le.1 er
  have rb0 : 0 ≤ rv rr := by norm_num at *; linarith
  have rb1 : rv rr ≤ 0.8662 := by norm_num at *; linarith
  have ppb : |rv pp| ≤ 0.0351 := by
    have := abs_le.1 eg'
    exact abs_le.2 ⟨by norm_num at *; linarith, by norm_num at *; linarith⟩
  have hrp : |rv rr * rv pp| ≤ 0.03041 := by
    rw [abs_mul, abs_of_nonneg rb0]
    exact le_trans (mul_le_mul rb1 ppb (abs_nonneg _) (by norm_num)) (by norm_num)
  obtain ⟨m1, e1, _⟩ := sub_bd_e h g1 fr (P := 1) (abs_le.2 ⟨by norm_num at *; linarith, by norm_num at *; linarith⟩) (by norm_num)
  have y1b : |rv (fsub (pio4 w) rr)| ≤ 1.1 := by
    have : |rv (pio4 w) - rv rr| ≤ 1 := abs_le.2 ⟨by norm_num at *; linarith, by norm_num at *; linarith⟩
    have k : ulpHalf w * |rv (pio4 w) - rv rr| ≤ 1 / 10 ^ 7 * 1 := mul_le_mul hu1 this (abs_nonneg _) (by norm_num)
    have := abs_le_of_sub (le_trans e1 k) this
    norm_num at *; linarith
  generalize fsub (pio4 w) rr = y1 at *
  have y1c := abs_le.1 y1b
  have y2a : |rv y1 + rv (pio4 w)| ≤ 2 := abs_le.2 ⟨by norm_num at *; linarith, by norm_num at *; linarith⟩
  obtain ⟨m2, e2, _⟩ := add_bd_e h m1 g1 y2a (by norm_num)
  have y2b : |rv (fadd y1 (pio4 w))| ≤ 2.1 := by
    have k : ulpHalf w * |rv y1 + rv (pio4 w)| ≤ 1 / 10 ^ 7 * 2 := mul_le_mul hu1 y2a (abs_nonneg _) (by norm_num)
    have := abs_le_of_sub (le_trans e2 k) y2a
    norm_num at *; linarith
  generalize fadd y1 (pio4 w) = y2 at *
  have ho : |rv (asinOff w)| ≤ 1 / 10 ^ 6 := by rw [abs_of_nonneg o2]; norm_num at *; linarith
  have hms : |rv rr * rv pp - rv (asinOff w)| ≤ 0.03042 := by
    have h1 := abs_le.1 hrp
    have h2 := abs_le.1 ho
    exact abs_le.2 ⟨by norm_num at *; linarith, by norm_num at *; linarith⟩
  obtain ⟨m3, e3⟩ := fms_bd h fm fr fg o1 hrp ho hms (by norm_num) (by norm_num)
  have e3' : |rv (fmsL fm rr pp (asinOff w)) - (rv rr * rv pp - rv (asinOff w))| ≤ ulpHalf w * 0.062 :=
    le_trans e3 (mul_le_mul_of_nonneg_left (by norm_num) hu.le)
  have mb : |rv (fmsL fm rr pp (asinOff w))| ≤ 0.04 := by
    have := abs_le_of_sub e3' hms
    norm_num at *; linarith
  generalize fmsL fm rr pp (asinOff w) = m at *
  have y2c := abs_le.1 y2b
  have mc := abs_le.1 mb
  obtain ⟨m4, e4, _⟩ := sub_bd_e h m2 m3 (P := 3) (abs_le.2 ⟨by norm_num at *; linarith, by norm_num at *; linarith⟩) (by norm_num)
  refine ⟨m4, ?_⟩
  have := big_real hu hu1 g4 g5 o2 o3 o4 hs0 hs1 hG.1 hG.2 er eg' e1 e2 e3' e4 cert'
  rw [Real.arccos_eq_pi_div_two_sub_arcsin, sub_sub_cancel] at this
  exact this

/-! ### The whole function -/
theorem asin_consts {w : Nat} (h : W w) : isFinite (asinPmin w) = true ∧ 0 < rv (asinPmin w) ∧ rv (asinPmin w) ≤ 1 / 1000 ∧ rv (asinPmin w) ^ 2 ≤ 1.2 * ulpHalf w ∧ isFinite (fiveEights w) = true ∧ rv (fiveEights w) = 0.625 := by
  rcases h with h | h <;> subst h
  · have e : isFinite (asinPmin 32) = true ∧ val (asinPmin 32) = 13743895 * 2 ^ 112 := by decide +kernel
    have r : rv (asinPmin 32) = 13743895 / 2 ^ 37 := by rw [rv_of_val e.2 (b := 37) rfl]; push_cast; ring
    have e2 : isFinite (fiveEights 32) = true ∧ val (fiveEights 32) = 5 * 2 ^ 146 := by decide +kernel
    have r2 : rv (fiveEights 32) = 5 / 2 ^ 3 := by rw [rv_of_val e2.2 (b := 3) rfl]; push_cast; ring
    rw [r, r2, ulp_32]
    refine ⟨e.1, by norm_num, by norm_num, by norm_num, e2.1, by norm_num⟩
  · have e : isFinite (asinPmin 64) = true ∧ val (asinPmin 64) = 3022314549036573 * 2 ^ 996 := by decide +kernel
    have r : rv (asinPmin 64) = 3022314549036573 / 2 ^ 78 := by rw [rv_of_val e.2 (b := 78) rfl]; push_cast; ring
    have e2 : isFinite (fiveEights 64) = true ∧ val (fiveEights 64) = 5 * 2 ^ 1071 := by decide +kernel
    have r2 : rv (fiveEights 64) = 5 / 2 ^ 3 := by rw [rv_of_val e2.2 (b := 3) rfl]; push_cast; ring
    rw [r, r2, ulp_64]
    refine ⟨e.1, by norm_num, by norm_num, by norm_num, e2.1, by norm_num⟩
theorem arcsin_near {x : ℝ} (h0 : 0 ≤ x) (h1 : x ≤ 1 / 1000) : x ≤ Real.arcsin x ∧ Real.arcsin x ≤ x + x ^ 2 / 3 * x := by
  have hp := Real.pi_gt_three
  constructor
  · rw [Real.le_arcsin_iff_sin_le' ⟨by linarith, by linarith⟩]; exact Real.sin_le h0
  · rcases h0.lt_or_eq with h2 | h2
    · have hx2 : x ^ 2 ≤ (1 / 1000) ^ 2 := pow_le_pow_left₀ h0 h1 2
      have hy : x + x ^ 2 / 3 * x ≤ 1.1 * x := by
        have : x ^ 2 / 3 * x ≤ 1 / 10 * x := mul_le_mul_of_nonneg_right (by norm_num at *; linarith) h0
        norm_num at *; linarith
      have hy0 : 0 < x + x ^ 2 / 3 * x := by positivity
      rw [Real.arcsin_le_iff_le_sin' ⟨by linarith, by norm_num at *; linarith⟩]
      have hk := Real.sin_gt_sub_cube hy0
      have h3 : (x + x ^ 2 / 3 * x) ^ 3 ≤ (1.1 * x) ^ 3 := pow_le_pow_left₀ hy0.le hy 3
      have e : (1.1 * x) ^ 3 = 1.331 * (x ^ 2 * x) := by ring
      have e2 : x ^ 2 / 3 * x = 1 / 3 * (x ^ 2 * x) := by ring
      have : 0 ≤ x ^ 2 * x := by positivity
      have h4 : 1.331 * (x ^ 2 * x) / 6 ≤ x ^ 2 / 3 * x := by rw [e2]; norm_num at *; linarith
      rw [e] at h3
      linarith
    · rw [← h2]; simp
/-- the arcsine of a number between zero and one: relative error below 5/8, absolute error above -/
theorem asinAbs_acc {w : Nat} (h : W w) (fm : Bool) {x : BitVec w} (fx : isFinite x = true) (hx0 : 0 ≤ rv x) (hx : rv x ≤ 1) :
    isFinite (asinAbs fm x) = true ∧ |rv (asinAbs fm x) - Real.arcsin (rv x)| ≤ (if rv x ≤ 0.625 then ulpHalf w * (5.7 * rv x) + 5 * tiny w else ulpHalf w * 8.2) := by
  have hu := ulp_pos w
  have ht := tiny_pos w
  obtain ⟨f1, p0, p1, p2, f2, p3⟩ := asin_consts h
  unfold asinAbs
  by_cases c1 : fLt x (asinPmin w) = true
  · rw [if_pos c1]
    rw [fLt_rv h fx f1] at c1
    rw [if_pos (by norm_num at *; linarith)]
    refine ⟨fx, ?_⟩
    obtain ⟨k1, k2⟩ := arcsin_near hx0 (by linarith)
    have k3 : rv x ^ 2 ≤ 1.2 * ulpHalf w := le_trans (pow_le_pow_left₀ hx0 c1.le 2) p2
    have k4 : rv x ^ 2 / 3 * rv x ≤ 0.4 * ulpHalf w * rv x := mul_le_mul_of_nonneg_right (by norm_num at *; linarith) hx0
    have e1 : 0.4 * ulpHalf w * rv x = 0.4 * (ulpHalf w * rv x) := by ring
    have e2 : ulpHalf w * (5.7 * rv x) = 5.7 * (ulpHalf w * rv x) := by ring
    have k5 : 0 ≤ ulpHalf w * rv x := by positivity
    rw [e1] at k4; rw [e2, abs_le]
    generalize ulpHalf w * rv x = y at *
    constructor <;> norm_num at * <;> linarith
  · rw [if_neg c1]
    by_cases c2 : fLt (fiveEights w) x = true
    · rw [if_pos c2]
      rw [fLt_rv h f2 fx, p3] at c2
      rw [if_neg (not_le.2 c2)]
      exact asinBig_acc h fm fx c2.le hx
    · rw [if_neg c2]
      rw [fLt_rv h f2 fx, p3, not_lt] at c2
      rw [if_pos c2]
      exact asinSmall_acc h fm fx hx0 c2
end Dpm.X86
