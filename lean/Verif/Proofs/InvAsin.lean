import Verif.Proofs.InvPol
/-! Accuracy of `eval_asin` on one lane. -/
namespace Dpm.X86
open Dpm.Reg Dpm.Fp Dpm.Poly

theorem fLt_rv {w : Nat} (h : W w) {x y : BitVec w} (hx : isFinite x = true) (hy : isFinite y = true) : fLt x y = true ↔ rv x < rv y := by
  rw [fLt_eq h]; unfold Fp.lt
  rw [(finite_cls hx).1, (finite_cls hy).1]
  unfold rv
  rw [div_lt_div_iff_of_pos_right (by positivity)]
  simp
theorem rv_zero_isZero {w : Nat} {x : BitVec w} (hx : rv x = 0) : isZero x = true := by
  unfold rv at hx
  rw [div_eq_zero_iff] at hx
  rcases hx with hx | hx
  · have : val x = 0 := by exact_mod_cast hx
    rw [zero_iff]; exact (val_zero_iff x).1 this
  · exact absurd hx (by positivity)
/-- the square root of a number that is not negative -/
theorem fsqrt_e0 {w : Nat} (h : W w) {x : BitVec w} (hx : isFinite x = true) (h0 : 0 ≤ rv x) :
    isFinite (fsqrt x) = true ∧ |rv (fsqrt x) - Real.sqrt (rv x)| ≤ ulpHalf w * Real.sqrt (rv x) := by
  rcases h0.lt_or_eq with h1 | h1
  · exact fsqrt_e h hx h1
  · have hz := rv_zero_isZero h1.symm
    have : fsqrt x = x := by unfold fsqrt; rw [if_neg (by rw [(finite_cls hx).1]; simp), if_pos hz]
    rw [this, ← h1]
    exact ⟨hx, by simp⟩

theorem asin_rho_cert {w : Nat} (h : W w) : posOk 128 0 25 (addP (mulC 207 (asinQI w)) (mulC (-1000) (asinPI w))) = true ∧ posOk 128 0 25 (asinPI w) = true ∧
    posOk 128 0 25 (addP (mulC 1 (asinQI w)) [-(13 * 2 ^ (if w = 64 then 60 else 28))]) = true := by
  rcases h with h | h <;> subst h <;> decide +kernel
theorem asin_rho {w : Nat} (h : W w) {t : ℝ} (t0 : 0 ≤ t) (t1 : t ≤ 0.390625) : 0 ≤ evalP (asinPI w) t ∧ evalP (asinPI w) t ≤ 0.207 * evalP (asinQI w) t ∧
    13 * 2 ^ (if w = 64 then 60 else 28) ≤ evalP (asinQI w) t := by
  obtain ⟨k1, k2, k3⟩ := asin_rho_cert h
  have p1 := pos_spec (by norm_num) (by norm_num) k1 (t := t) (by simp; linarith) (by norm_num at *; linarith)
  have p2 := pos_spec (by norm_num) (by norm_num) k2 (t := t) (by simp; linarith) (by norm_num at *; linarith)
  have p3 := pos_spec (by norm_num) (by norm_num) k3 (t := t) (by simp; linarith) (by norm_num at *; linarith)
  rw [evalP_add, evalP_mulC, evalP_mulC] at p1
  rw [evalP_add, evalP_mulC] at p3
  simp only [evalP] at p3
  push_cast at p1 p3
  refine ⟨p2, ?_, ?_⟩
  · norm_num at *; linarith
  · linarith
theorem asinSmall_acc {w : Nat} (h : W w) (fm : Bool) {x : BitVec w} (fx : isFinite x = true) (hx0 : 0 ≤ rv x) (hx : rv x ≤ 0.625) :
    isFinite (asinSmall fm x) = true ∧ |rv (asinSmall fm x) - Real.arcsin (rv x)| ≤ ulpHalf w * (5.7 * rv x) + 5 * tiny w := by
  have hu := ulp_pos w
  have ha : |rv x| = rv x := abs_of_nonneg hx0
  have hx1 : |rv x| ≤ 1 := by rw [ha]; exact le_trans hx (by norm_num)
  have ht0 : 0 ≤ rv x ^ 2 := sq_nonneg _
  have ht1' : rv x ^ 2 ≤ 0.390625 := le_trans (pow_le_pow_left₀ hx0 hx 2) (by norm_num)
  have ht1 : rv x ^ 2 ≤ 0.39063 := le_trans ht1' (by norm_num)
  obtain ⟨fz, ez⟩ := sq_acc h fx hx1
  have ez' := sq_acc_u h ez ht1 (show (0.39063:ℝ) + 1 / 1000000 ≤ 0.3907 by norm_num)
  have cert := asin_cert0 h hx0 hx
  unfold asinSmall
  dsimp only
  unfold ratF at cert
  generalize hZ : fmul x x = z at *
  generalize hT : rv x ^ 2 = t at *
  obtain ⟨fp, ep⟩ := asinP_acc h fm fz ht0 ht1 ez'
  obtain ⟨fq, eq⟩ := asinQ_acc h fm fz ht0 ht1 ez'
  obtain ⟨r1, r2, r5⟩ := asin_rho h ht0 ht1'
  have hpw := pow_if_pos w 60 28
  rw [← div_div_div_cancel_right₀ hpw.ne' (evalP (asinPI w) t)] at cert
  have r3 : 0 ≤ evalP (asinPI w) t / 2 ^ (if w = 64 then 60 else 28) := div_nonneg r1 hpw.le
  have r4 : evalP (asinPI w) t / 2 ^ (if w = 64 then 60 else 28) ≤ 0.207 * (evalP (asinQI w) t / 2 ^ (if w = 64 then 60 else 28)) := by
    rw [← mul_div_assoc]; exact div_le_div_of_nonneg_right r2 hpw.le
  have hq0 : 13 ≤ evalP (asinQI w) t / 2 ^ (if w = 64 then 60 else 28) := by rw [le_div_iff₀ hpw]; exact r5
  rw [← neg_div_neg_eq (evalP (asinPI w) t / _)] at cert
  generalize evalP (asinPI w) t / 2 ^ (if w = 64 then 60 else 28) = P at *
  generalize evalP (asinQI w) t / 2 ^ (if w = 64 then 60 else 28) = Q at *
  have hQ : |-Q| = Q := by rw [abs_neg, abs_of_nonneg (le_trans (by norm_num) hq0)]
  have hP : |-P| = P := by rw [abs_neg, abs_of_nonneg r3]
  have hQp : 0 < Q := lt_of_lt_of_le (by norm_num) hq0
  obtain ⟨fg, eg⟩ := rat_step h (q0 := 13) (ρ := 0.207) (d := 7.77) fp fq fz ep eq (by norm_num) (by rw [hQ]; exact hq0) (by rw [hQ, hP]; exact r4) (by norm_num) (by norm_num) ez ht0
    (le_trans ht1 (by norm_num)) (by norm_num) (by norm_num) (by norm_num) (by norm_num)
  have hPQ : 0 ≤ -P / -Q ∧ -P / -Q ≤ 0.207 := by
    rw [neg_div_neg_eq]
    exact ⟨div_nonneg r3 hQp.le, by rw [div_le_iff₀ hQp]; exact r4⟩
  generalize -P / -Q = R at *
  have hG : 0 ≤ t * R ∧ t * R ≤ 0.0809 := by
    constructor
    · exact mul_nonneg ht0 hPQ.1
    · exact le_trans (mul_le_mul ht1 hPQ.2 hPQ.1 (by norm_num)) (by norm_num)
  have eg' : |rv (fmul z (fdiv (polL fm z (asinP w)) (polL fm z (asinQ w)))) - t * R| ≤ ulpHalf w * 3.29 + 3 * tiny w := by
    refine le_trans eg ?_
    have : ulpHalf w * (t * (7.77 + 3 * 0.207 + 0.01)) ≤ ulpHalf w * 3.29 := mul_le_mul_of_nonneg_left (by norm_num at *; linarith) hu.le
    linarith
  obtain ⟨ff, ef⟩ := fin_step h fm (G := t * R) (a := 3.29) (γ := 0.0809) (s := 1.0809) fx fg eg' (abs_iv hG.1 hG.2 (by norm_num) (by norm_num)) (by norm_num)
    (abs_le.2 ⟨by norm_num at *; linarith, by norm_num at *; linarith⟩) (by norm_num) (by norm_num) hx1
  refine ⟨ff, le_trans (abs_sub_tri ef cert) ?_⟩
  rw [ha]
  have k : 0 ≤ ulpHalf w * rv x := mul_nonneg hu.le hx0
  have e1 : ulpHalf w * ((0.0809 + 1.0809 + 3.29 + 0.01) * rv x) = 4.4618 * (ulpHalf w * rv x) := by ring
  have e2 : 1.2 * ulpHalf w * rv x = 1.2 * (ulpHalf w * rv x) := by ring
  have e3 : ulpHalf w * (5.7 * rv x) = 5.7 * (ulpHalf w * rv x) := by ring
  rw [e1, e2, e3]
  generalize ulpHalf w * rv x = y at *
  norm_num at k ⊢; linarith

/-! ### Near one -/
theorem asinB_rho_cert {w : Nat} (h : W w) : posOk 64 0 13 (addP (mulC 93 (asinSI w)) (mulC (-1000) (asinRI w))) = true ∧ posOk 64 0 13 (asinRI w) = true ∧
    posOk 64 0 12 (addP (mulC 1 (asinSI w)) [-(210 * 2 ^ (if w = 64 then 58 else 32))]) = true := by
  rcases h with h | h <;> subst h <;> decide +kernel
theorem asinB_rho {w : Nat} (h : W w) {t : ℝ} (t0 : 0 ≤ t) (t1 : t ≤ 0.375) : 0 ≤ evalP (asinRI w) t ∧ evalP (asinRI w) t ≤ 0.093 * evalP (asinSI w) t ∧
    210 * 2 ^ (if w = 64 then 58 else 32) ≤ evalP (asinSI w) t := by
  obtain ⟨k1, k2, k3⟩ := asinB_rho_cert h
  have p1 := pos_spec (by norm_num) (by norm_num) k1 (t := t) (by simp; linarith) (by norm_num at *; linarith)
  have p2 := pos_spec (by norm_num) (by norm_num) k2 (t := t) (by simp; linarith) (by norm_num at *; linarith)
  have p3 := pos_spec (by norm_num) (by norm_num) k3 (t := t) (by simp; linarith) (by norm_num at *; linarith)
  rw [evalP_add, evalP_mulC, evalP_mulC] at p1
  rw [evalP_add, evalP_mulC] at p3
  simp only [evalP] at p3
  push_cast at p1 p3
  refine ⟨p2, ?_, ?_⟩
  · norm_num at *; linarith
  · linarith
theorem asinOff_consts {w : Nat} (h : W w) : isFinite (asinOff w) = true ∧ 0 ≤ rv (asinOff w) ∧ rv (asinOff w) ≤ 0.6 * ulpHalf w ∧ |2 * rv (pio4 w) + rv (asinOff w) - Real.pi / 2| ≤ 0.74 * ulpHalf w := by
  obtain ⟨p1, p2⟩ := quarter_pi
  rcases h with h | h <;> subst h
  · have e : isFinite (pio4 32) = true ∧ val (pio4 32) = 13176795 * 2 ^ 125 := by decide +kernel
    have r : rv (pio4 32) = 13176795 / 2 ^ 24 := by rw [rv_of_val e.2 (b := 24) rfl]; push_cast; ring
    have e2 : isFinite (asinOff 32) = true ∧ val (asinOff 32) = 4626585 * 2 ^ 73 := by decide +kernel
    have r2 : rv (asinOff 32) = 4626585 / 2 ^ 76 := by rw [rv_of_val e2.2 (b := 76) rfl]; push_cast; ring
    rw [r, r2, ulp_32]
    refine ⟨e2.1, by norm_num, by norm_num, ?_⟩
    rw [abs_le]; constructor <;> norm_num at * <;> linarith
  · have e : isFinite (pio4 64) = true ∧ val (pio4 64) = 884279719003555 * 2 ^ 1024 := by decide +kernel
    have r : rv (pio4 64) = 884279719003555 / 2 ^ 50 := by rw [rv_of_val e.2 (b := 50) rfl]; push_cast; ring
    have e2 : isFinite (asinOff 64) = true ∧ val (asinOff 64) = 4967757600021511 * 2 ^ 968 := by decide +kernel
    have r2 : rv (asinOff 64) = 4967757600021511 / 2 ^ 106 := by rw [rv_of_val e2.2 (b := 106) rfl]; push_cast; ring
    rw [r, r2, ulp_64]
    refine ⟨e2.1, by norm_num, by norm_num, ?_⟩
    rw [abs_le]; constructor <;> norm_num at * <;> linarith
theorem arccos_half {x : ℝ} (h0 : -1 ≤ x) (h1 : x ≤ 1) : Real.arccos x = 2 * Real.arcsin (Real.sqrt ((1 - x) / 2)) := by
  have hn : 0 ≤ (1 - x) / 2 := by linarith
  have hs0 := Real.sqrt_nonneg ((1 - x) / 2)
  have hs1 : Real.sqrt ((1 - x) / 2) ≤ 1 := Real.sqrt_le_one.2 (by linarith)
  have e1 : Real.cos (2 * Real.arcsin (Real.sqrt ((1 - x) / 2))) = x := by
    rw [Real.cos_two_mul, Real.cos_sq', Real.sin_arcsin (by linarith) hs1, Real.sq_sqrt hn]; ring
  have e2 : 0 ≤ Real.arcsin (Real.sqrt ((1 - x) / 2)) := Real.arcsin_nonneg.2 hs0
  have e3 := Real.arcsin_le_pi_div_two (Real.sqrt ((1 - x) / 2))
  rw [← e1, Real.arccos_cos (by linarith) (by linarith), e1]
/-- the square root of twice the distance to one -/
theorem root_acc {w : Nat} (h : W w) {a : BitVec w} {A : ℝ} (fa : isFinite a = true) (hA : 0 ≤ A) (hA1 : A ≤ 1) (ha : |rv a - A| ≤ ulpHalf w * A) :
    isFinite (fsqrt (fadd a a)) = true ∧ |rv (fsqrt (fadd a a)) - Real.sqrt (2 * A)| ≤ ulpHalf w * (2.001 * Real.sqrt (2 * A)) := by
  have hu := ulp_pos w
  have hu1 : ulpHalf w ≤ 1 / 10 ^ 7 := le_trans (ulp_le h) (by norm_num)
  have huA : ulpHalf w * A ≤ 1 / 10 ^ 7 * A := mul_le_mul_of_nonneg_right hu1 hA
  have h1 := abs_le.1 ha
  have h0 : 0 ≤ rv a := by norm_num at *; linarith
  have h2 : rv a ≤ A + ulpHalf w * A := by linarith
  have ab : |rv a + rv a| = 2 * rv a := by rw [abs_of_nonneg (by linarith)]; ring
  obtain ⟨fs, es, _⟩ := add_bd_e h fa fa (P := 4) (by rw [ab]; norm_num at *; linarith) (by norm_num)
  rw [ab] at es
  generalize fadd a a = s at *
  have k : ulpHalf w * (2 * rv a) ≤ ulpHalf w * (2 * (A + 1 / 10 ^ 7 * A)) := mul_le_mul_of_nonneg_left (by linarith) hu.le
  have e1 : |rv s - 2 * A| ≤ 2 * (1.0001 * ulpHalf w) * (2 * A) := by
    have := abs_sub_tri es (show |(rv a + rv a) - 2 * A| ≤ 2 * (ulpHalf w * A) by
      rw [show (rv a + rv a) - 2 * A = 2 * (rv a - A) by ring, abs_mul, abs_two]; linarith)
    refine le_trans this ?_
    have e : ulpHalf w * (2 * (A + 1 / 10 ^ 7 * A)) = 2 * (ulpHalf w * A) + 2 / 10 ^ 7 * (ulpHalf w * A) := by ring
    have : 0 ≤ ulpHalf w * A := by positivity
    have e' : 2 * (1.0001 * ulpHalf w) * (2 * A) = 4.0004 * (ulpHalf w * A) := by ring
    rw [e']; rw [e] at k
    generalize ulpHalf w * A = y at *
    norm_num at *; linarith
  have hs0 : 0 ≤ rv s := by
    have := (abs_le.1 e1).1
    have e' : 2 * (1.0001 * ulpHalf w) * (2 * A) = 4.0004 * (ulpHalf w * A) := by ring
    rw [e'] at this; norm_num at *; linarith
  have e2 := sqrt_rel (by linarith : 0 ≤ 2 * A) (by positivity) (by norm_num at *; linarith) e1
  obtain ⟨f, e3⟩ := fsqrt_e0 h fs hs0
  refine ⟨f, le_trans (abs_sub_tri e3 e2) ?_⟩
  have hq := Real.sqrt_nonneg (2 * A)
  generalize Real.sqrt (2 * A) = q at *
  have hc : (1.0001 * ulpHalf w + (1.0001 * ulpHalf w) ^ 2) ≤ 1.0002 * ulpHalf w := by
    have : ulpHalf w * ulpHalf w ≤ 1 / 10 ^ 7 * ulpHalf w := mul_le_mul_of_nonneg_right hu1 hu.le
    have e : (1.0001 * ulpHalf w) ^ 2 = 1.0001 ^ 2 * (ulpHalf w * ulpHalf w) := by ring
    rw [e]; norm_num at *; linarith
  have k2 : (1.0001 * ulpHalf w + (1.0001 * ulpHalf w) ^ 2) * q ≤ 1.0002 * ulpHalf w * q := mul_le_mul_of_nonneg_right hc hq
  have k3 : Real.sqrt (rv s) ≤ q + 1.0002 * ulpHalf w * q := by have := (abs_le.1 e2).2; linarith
  have k4 : 1.0002 * ulpHalf w * q ≤ 1.0002 * (1 / 10 ^ 7) * q := mul_le_mul_of_nonneg_right (by linarith) hq
  have k5 : ulpHalf w * Real.sqrt (rv s) ≤ ulpHalf w * (q + 1.0002 * (1 / 10 ^ 7) * q) := mul_le_mul_of_nonneg_left (by linarith) hu.le
  have k6 : 0 ≤ ulpHalf w * q := by positivity
  have e5 : ulpHalf w * (q + 1.0002 * (1 / 10 ^ 7) * q) = (1 + 1.0002 / 10 ^ 7) * (ulpHalf w * q) := by ring
  have e6 : 1.0002 * ulpHalf w * q = 1.0002 * (ulpHalf w * q) := by ring
  have e7 : ulpHalf w * (2.001 * q) = 2.001 * (ulpHalf w * q) := by ring
  rw [e5] at k5; rw [e6] at k2; rw [e7]
  generalize ulpHalf w * q = y at *
  norm_num at *; linarith
end Dpm.X86
