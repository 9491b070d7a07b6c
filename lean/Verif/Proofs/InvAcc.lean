import Verif.Proofs.InvRnd
/-! Accuracy of `atanPol`, `asinSmall` and `asinBig`. -/
namespace Dpm.X86
open Dpm.Reg Dpm.Fp Dpm.Poly

theorem crude {P t T M c C : ℝ} (h1 : |P| ≤ M) (t1 : |t| ≤ T) (hc : |c| ≤ C) : |P * t + c| ≤ M * T + C := by
  refine le_trans (abs_add_le _ _) (add_le_add ?_ hc)
  rw [abs_mul]; exact mul_le_mul h1 t1 (abs_nonneg _) (le_trans (abs_nonneg _) h1)
theorem abs_iv {c a b C : ℝ} (h0 : a ≤ c) (h1 : c ≤ b) (ha : -C ≤ a) (hb : b ≤ C) : |c| ≤ C := abs_le.2 ⟨le_trans ha h0, le_trans h1 hb⟩

theorem polL5 {w : Nat} (fm : Bool) (x c0 c1 c2 c3 c4 : BitVec w) :
    polL fm x [c0, c1, c2, c3, c4] = fmaL fm (fmaL fm (fmaL fm (fmaL fm c0 x c1) x c2) x c3) x c4 := rfl
theorem polL6' {w : Nat} (fm : Bool) (x c0 c1 c2 c3 c4 c5 : BitVec w) :
    polL fm x [c0, c1, c2, c3, c4, c5] = fmaL fm (fmaL fm (fmaL fm (fmaL fm (fmaL fm c0 x c1) x c2) x c3) x c4) x c5 := rfl

theorem pow_if_pos (w a b : Nat) : (0 : ℝ) < 2 ^ (if w = 64 then a else b) := by positivity

theorem atanP_acc {w : Nat} (h : W w) (fm : Bool) {z : BitVec w} {t : ℝ} (fz : isFinite z = true) (t0 : 0 ≤ t) (t1 : t ≤ 0.43627) (hz : |rv z - t| ≤ ulpHalf w * 0.4363) :
    isFinite (polL fm z (atanP w)) = true ∧ |rv (polL fm z (atanP w)) - evalP (atanPI w) t / 2 ^ (if w = 64 then 51 else 24)| ≤ ulpHalf w * 394 := by
  obtain ⟨c0, c1, c2, c3, c4, e, ⟨f0, l0, r0⟩, ⟨f1, l1, r1⟩, ⟨f2, l2, r2⟩, ⟨f3, l3, r3⟩, ⟨f4, l4, r4⟩, hp⟩ := atanP_co h
  rw [hp, mul_div_cancel_left₀ _ (pow_if_pos w 51 24).ne', e, polL5]
  have ht : |t| ≤ 0.43627 := abs_iv t0 t1 (by norm_num) (le_refl _)
  have ht' : |t| ≤ 0.4363 - 1 / 10 ^ 6 := le_trans ht (by norm_num)
  have b0 : |rv c0| ≤ 0.8751 := abs_iv l0 r0 (by norm_num) (by norm_num)
  have a1 : |rv c1| ≤ 16.16 := abs_iv l1 r1 (by norm_num) (by norm_num)
  have a2 : |rv c2| ≤ 75.01 := abs_iv l2 r2 (by norm_num) (by norm_num)
  have a3 : |rv c3| ≤ 122.9 := abs_iv l3 r3 (by norm_num) (by norm_num)
  have a4 : |rv c4| ≤ 64.86 := abs_iv l4 r4 (by norm_num) (by norm_num)
  have b1 := le_trans (crude b0 ht a1) (show _ ≤ 16.542 by norm_num)
  have b2 := le_trans (crude b1 ht a2) (show _ ≤ 82.227 by norm_num)
  have b3 := le_trans (crude b2 ht a3) (show _ ≤ 158.774 by norm_num)
  have b4 := le_trans (crude b3 ht a4) (show _ ≤ 134.13 by norm_num)
  obtain ⟨g1, e1⟩ := hstep h fm (e' := 17.4) f0 fz f1 (hstart c0) b0 hz ht' (by norm_num) (le_trans a1 (by norm_num)) b1 (by norm_num) (by norm_num) (by norm_num)
  obtain ⟨g2, e2⟩ := hstep h fm (e' := 104.5) g1 fz f2 e1 b1 hz ht' (by norm_num) (le_trans a2 (by norm_num)) b2 (by norm_num) (by norm_num) (by norm_num)
  obtain ⟨g3, e3⟩ := hstep h fm (e' := 276.5) g2 fz f3 e2 b2 hz ht' (by norm_num) (le_trans a3 (by norm_num)) b3 (by norm_num) (by norm_num) (by norm_num)
  exact hstep h fm (e' := 394) g3 fz f4 e3 b3 hz ht' (by norm_num) (le_trans a4 (by norm_num)) b4 (by norm_num) (by norm_num) (by norm_num)

theorem atanQ_acc {w : Nat} (h : W w) (fm : Bool) {z : BitVec w} {t : ℝ} (fz : isFinite z = true) (t0 : 0 ≤ t) (t1 : t ≤ 0.43627) (hz : |rv z - t| ≤ ulpHalf w * 0.4363) :
    isFinite (polL fm z (atanQ w)) = true ∧ |rv (polL fm z (atanQ w)) - evalP (atanQI w) t / 2 ^ (if w = 64 then 51 else 24)| ≤ ulpHalf w * 1771 ∧
    194.5 ≤ evalP (atanQI w) t / 2 ^ (if w = 64 then 51 else 24) := by
  obtain ⟨c0, c1, c2, c3, c4, c5, e, ⟨f0, l0, r0⟩, ⟨f1, l1, r1⟩, ⟨f2, l2, r2⟩, ⟨f3, l3, r3⟩, ⟨f4, l4, r4⟩, ⟨f5, l5, r5⟩, hp⟩ := atanQ_co h
  rw [hp, mul_div_cancel_left₀ _ (pow_if_pos w 51 24).ne', e, polL6']
  have ht : |t| ≤ 0.43627 := abs_iv t0 t1 (by norm_num) (le_refl _)
  have ht' : |t| ≤ 0.4363 - 1 / 10 ^ 6 := le_trans ht (by norm_num)
  have b0 : |rv c0| ≤ 1 := abs_iv l0 r0 (by norm_num) (by norm_num)
  have a1 : |rv c1| ≤ 24.86 := abs_iv l1 r1 (by norm_num) (by norm_num)
  have a2 : |rv c2| ≤ 165.1 := abs_iv l2 r2 (by norm_num) (by norm_num)
  have a3 : |rv c3| ≤ 432.9 := abs_iv l3 r3 (by norm_num) (by norm_num)
  have a4 : |rv c4| ≤ 485.4 := abs_iv l4 r4 (by norm_num) (by norm_num)
  have a5 : |rv c5| ≤ 194.6 := abs_iv l5 r5 (by norm_num) (by norm_num)
  have b1 := le_trans (crude b0 ht a1) (show _ ≤ 25.3 by norm_num)
  have b2 := le_trans (crude b1 ht a2) (show _ ≤ 176.14 by norm_num)
  have b3 := le_trans (crude b2 ht a3) (show _ ≤ 509.75 by norm_num)
  have b4 := le_trans (crude b3 ht a4) (show _ ≤ 707.8 by norm_num)
  have b5 := le_trans (crude b4 ht a5) (show _ ≤ 503.4 by norm_num)
  obtain ⟨g1, e1⟩ := hstep h fm (e' := 26.3) f0 fz f1 (hstart c0) b0 hz ht' (by norm_num) (le_trans a1 (by norm_num)) b1 (by norm_num) (by norm_num) (by norm_num)
  obtain ⟨g2, e2⟩ := hstep h fm (e' := 210) g1 fz f2 e1 b1 hz ht' (by norm_num) (le_trans a2 (by norm_num)) b2 (by norm_num) (by norm_num) (by norm_num)
  obtain ⟨g3, e3⟩ := hstep h fm (e' := 756) g2 fz f3 e2 b2 hz ht' (by norm_num) (le_trans a3 (by norm_num)) b3 (by norm_num) (by norm_num) (by norm_num)
  obtain ⟨g4, e4⟩ := hstep h fm (e' := 1484) g3 fz f4 e3 b3 hz ht' (by norm_num) (le_trans a4 (by norm_num)) b4 (by norm_num) (by norm_num) (by norm_num)
  obtain ⟨g5, e5⟩ := hstep h fm (e' := 1771) g4 fz f5 e4 b4 hz ht' (by norm_num) (le_trans a5 (by norm_num)) b5 (by norm_num) (by norm_num) (by norm_num)
  refine ⟨g5, e5, ?_⟩
  have k : 0 ≤ ((((rv c0 * t + rv c1) * t + rv c2) * t + rv c3) * t + rv c4) * t := by
    have n0 : (0:ℝ) ≤ rv c0 := by linarith
    have n1 : (0:ℝ) ≤ rv c1 := by linarith
    have n2 : (0:ℝ) ≤ rv c2 := by linarith
    have n3 : (0:ℝ) ≤ rv c3 := by linarith
    have n4 : (0:ℝ) ≤ rv c4 := by linarith
    positivity
  norm_num at *; linarith
theorem atan_rho_cert {w : Nat} (h : W w) : posOk 64 0 14 (addP (mulC 335 (atanQI w)) (mulC 1000 (atanPI w))) = true ∧ posOk 64 0 14 (mulC (-1) (atanPI w)) = true := by
  rcases h with h | h <;> subst h <;> decide +kernel
theorem atan_rho {w : Nat} (h : W w) {t : ℝ} (t0 : 0 ≤ t) (t1 : t ≤ 0.43627) : evalP (atanPI w) t ≤ 0 ∧ -evalP (atanPI w) t ≤ 0.335 * evalP (atanQI w) t := by
  obtain ⟨k1, k2⟩ := atan_rho_cert h
  have p1 := pos_spec (by norm_num) (by norm_num) k1 (t := t) (by simp; linarith) (by norm_num at *; linarith)
  have p2 := pos_spec (by norm_num) (by norm_num) k2 (t := t) (by simp; linarith) (by norm_num at *; linarith)
  rw [evalP_add, evalP_mulC, evalP_mulC] at p1
  rw [evalP_mulC] at p2
  push_cast at p1 p2
  constructor
  · linarith
  · norm_num at *; linarith
/-- the square of the argument -/
theorem sq_acc {w : Nat} (h : W w) {x : BitVec w} (fx : isFinite x = true) (hx : |rv x| ≤ 1) : isFinite (fmul x x) = true ∧ |rv (fmul x x) - rv x ^ 2| ≤ ulpHalf w * rv x ^ 2 + tiny w := by
  have hb : (2 : ℝ) ^ 0 ≤ 2 ^ bias w := pow_le_pow_right₀ (by norm_num) (by omega)
  have e : |rv x * rv x| = rv x ^ 2 := by rw [← sq, abs_of_nonneg (sq_nonneg _)]
  have : rv x ^ 2 ≤ 1 := by rw [← sq_abs]; exact pow_le_one₀ (abs_nonneg _) hx
  have := fmul_e h fx fx (by rw [e]; norm_num at hb; linarith)
  rw [e, ← sq] at this
  exact this
theorem sq_acc_u {w : Nat} (h : W w) {z : BitVec w} {t a T : ℝ} (hz : |rv z - t| ≤ ulpHalf w * t + tiny w) (ht : t ≤ a) (hT : a + 1 / 1000000 ≤ T) : |rv z - t| ≤ ulpHalf w * T := by
  have hu := ulp_pos w
  have h1 := tiny_ulp h
  have : ulpHalf w * (t + 1 / 1000000) ≤ ulpHalf w * T := mul_le_mul_of_nonneg_left (by linarith) hu.le
  linarith
theorem atanPol_acc {w : Nat} (h : W w) (fm : Bool) {x : BitVec w} (fx : isFinite x = true) (hx : |rv x| ≤ 0.6605) :
    isFinite (atanPol fm x) = true ∧ |rv (atanPol fm x) - Real.arctan (rv x)| ≤ ulpHalf w * (4.9 * |rv x|) + 5 * tiny w ∧ 0.853 * |rv x| ≤ |Real.arctan (rv x)| := by
  have hu := ulp_pos w
  have hx1 : |rv x| ≤ 1 := le_trans hx (by norm_num)
  have ht0 : 0 ≤ rv x ^ 2 := sq_nonneg _
  have ht1 : rv x ^ 2 ≤ 0.43627 := by
    rw [← sq_abs]; exact le_trans (pow_le_pow_left₀ (abs_nonneg _) hx 2) (by norm_num)
  obtain ⟨fz, ez⟩ := sq_acc h fx hx1
  have ez' := sq_acc_u h ez ht1 (show (0.43627:ℝ) + 1 / 1000000 ≤ 0.4363 by norm_num)
  have cert := atan_cert h hx
  unfold atanPol
  dsimp only
  unfold ratF at cert
  generalize hZ : fmul x x = z at *
  generalize hT : rv x ^ 2 = t at *
  obtain ⟨fp, ep⟩ := atanP_acc h fm fz ht0 ht1 ez'
  obtain ⟨fq, eq, hq0⟩ := atanQ_acc h fm fz ht0 ht1 ez'
  obtain ⟨r1, r2⟩ := atan_rho h ht0 ht1
  have hpw := pow_if_pos w 51 24
  rw [← div_div_div_cancel_right₀ hpw.ne' (evalP (atanPI w) t)] at cert
  have r3 : evalP (atanPI w) t / 2 ^ (if w = 64 then 51 else 24) ≤ 0 := div_nonpos_of_nonpos_of_nonneg r1 hpw.le
  have r4 : -(evalP (atanPI w) t / 2 ^ (if w = 64 then 51 else 24)) ≤ 0.335 * (evalP (atanQI w) t / 2 ^ (if w = 64 then 51 else 24)) := by
    rw [← neg_div, ← mul_div_assoc]; exact div_le_div_of_nonneg_right r2 hpw.le
  generalize evalP (atanPI w) t / 2 ^ (if w = 64 then 51 else 24) = P at *
  generalize evalP (atanQI w) t / 2 ^ (if w = 64 then 51 else 24) = Q at *
  have hQ : |Q| = Q := abs_of_nonneg (le_trans (by norm_num) hq0)
  have hP : |P| = -P := abs_of_nonpos r3
  have hQp : 0 < Q := lt_of_lt_of_le (by norm_num) hq0
  obtain ⟨fg, eg⟩ := rat_step h (q0 := 194.5) (ρ := 0.335) (d := 5.09) fp fq fz ep eq (by norm_num) (by rw [hQ]; exact hq0) (by rw [hQ, hP]; exact r4) (by norm_num) (by norm_num) ez ht0
    (le_trans ht1 (by norm_num)) (by norm_num) (by norm_num) (by norm_num) (by norm_num)
  have hPQ : P / Q ≤ 0 ∧ -0.335 ≤ P / Q := ⟨div_nonpos_of_nonpos_of_nonneg r3 hQp.le, by rw [le_div_iff₀ hQp]; norm_num at *; linarith⟩
  generalize P / Q = R at *
  have hG : -0.1463 ≤ t * R ∧ t * R ≤ 0 := by
    constructor
    · have : t * (-R) ≤ 0.43627 * 0.335 := mul_le_mul ht1 (by norm_num at *; linarith) (by norm_num at *; linarith) (by norm_num)
      have e : t * -R = -(t * R) := by ring
      rw [e] at this; norm_num at *; linarith
    · exact mul_nonpos_of_nonneg_of_nonpos ht0 hPQ.1
  have eg' : |rv (fmul z (fdiv (polL fm z (atanP w)) (polL fm z (atanQ w)))) - t * R| ≤ ulpHalf w * 2.67 + 3 * tiny w := by
    refine le_trans eg ?_
    have : ulpHalf w * (t * (5.09 + 3 * 0.335 + 0.01)) ≤ ulpHalf w * 2.67 := mul_le_mul_of_nonneg_left (by norm_num at *; linarith) hu.le
    linarith
  obtain ⟨ff, ef⟩ := fin_step h fm (G := t * R) (a := 2.67) (γ := 0.1463) (s := 1) fx fg eg' (abs_iv hG.1 hG.2 (by norm_num) (by norm_num)) (by norm_num)
    (abs_le.2 ⟨by norm_num at *; linarith, by norm_num at *; linarith⟩) (by norm_num) (by norm_num) hx1
  refine ⟨ff, le_trans (abs_sub_tri ef cert) ?_, ?_⟩
  rotate_left
  · have h1 : |rv x| * 0.8537 ≤ |rv x * (1 + t * R)| := by
      rw [abs_mul]; exact mul_le_mul_of_nonneg_left (le_trans (by norm_num at *; linarith) (le_abs_self _)) (abs_nonneg _)
    have h2 : |rv x * (1 + t * R)| ≤ 1.05 * ulpHalf w * |rv x| + |Real.arctan (rv x)| := abs_le_of_sub cert (le_refl _)
    have h3 : 1.05 * ulpHalf w * |rv x| ≤ 0.0007 * |rv x| := mul_le_mul_of_nonneg_right (by
      have : ulpHalf w ≤ 1 / 10 ^ 7 := le_trans (ulp_le h) (by norm_num)
      norm_num at *; linarith) (abs_nonneg _)
    generalize |rv x| = X at *
    norm_num at *; linarith
  have k : 0 ≤ ulpHalf w * |rv x| := mul_nonneg hu.le (abs_nonneg _)
  have e1 : ulpHalf w * ((0.1463 + 1 + 2.67 + 0.01) * |rv x|) = 3.8263 * (ulpHalf w * |rv x|) := by ring
  have e2 : 1.05 * ulpHalf w * |rv x| = 1.05 * (ulpHalf w * |rv x|) := by ring
  have e3 : ulpHalf w * (4.9 * |rv x|) = 4.9 * (ulpHalf w * |rv x|) := by ring
  rw [e1, e2, e3]
  generalize ulpHalf w * |rv x| = y at *
  norm_num at k ⊢; linarith
end Dpm.X86
