import Verif.Proofs.Log2Dbl
/-! `eval_log2<double>` against the real logarithm to base 2. -/
namespace Dpm.X86
open Dpm.Reg Dpm.Fp

theorem add_bd_e {w : Nat} (h : W w) {x y : BitVec w} (hx : isFinite x = true) (hy : isFinite y = true) {P : ℝ}
    (hp : |rv x + rv y| ≤ P) (hP : P ≤ 2 ^ 20) :
    isFinite (fadd x y) = true ∧ |rv (fadd x y) - (rv x + rv y)| ≤ ulpHalf w * |rv x + rv y| ∧ |rv (fadd x y)| ≤ 1.0001 * P := by
  have hb : (2 : ℝ) ^ 20 ≤ 2 ^ bias w := pow_le_pow_right₀ (by norm_num) (by rcases h with h | h <;> subst h <;> decide)
  obtain ⟨f, e⟩ := fadd_e h hx hy (le_trans hp (le_trans hP hb))
  refine ⟨f, e, ?_⟩
  have hu1 : ulpHalf w ≤ 0.0001 := le_trans (ulp_le h) (by norm_num)
  have := abs_le_of_sub e hp
  have h2 : ulpHalf w * |rv x + rv y| ≤ 0.0001 * P := mul_le_mul hu1 hp (abs_nonneg _) (by norm_num)
  linarith
theorem sub_bd_e {w : Nat} (h : W w) {x y : BitVec w} (hx : isFinite x = true) (hy : isFinite y = true) {P : ℝ}
    (hp : |rv x - rv y| ≤ P) (hP : P ≤ 2 ^ 20) :
    isFinite (fsub x y) = true ∧ |rv (fsub x y) - (rv x - rv y)| ≤ ulpHalf w * |rv x - rv y| ∧ |rv (fsub x y)| ≤ 1.0001 * P := by
  have hb : (2 : ℝ) ^ 20 ≤ 2 ^ bias w := pow_le_pow_right₀ (by norm_num) (by rcases h with h | h <;> subst h <;> decide)
  obtain ⟨f, e⟩ := fsub_e h hx hy (le_trans hp (le_trans hP hb))
  refine ⟨f, e, ?_⟩
  have hu1 : ulpHalf w ≤ 0.0001 := le_trans (ulp_le h) (by norm_num)
  have := abs_le_of_sub e hp
  have h2 : ulpHalf w * |rv x - rv y| ≤ 0.0001 * P := mul_le_mul hu1 hp (abs_nonneg _) (by norm_num)
  linarith
set_option maxHeartbeats 2000000 in
theorem kern2D {fm : Bool} {z inv lc r : BitVec 64} {k : Int} (hk : k.natAbs ≤ 1024) (hzf : isFinite z = true) (hz : 0 < rv z)
    (hif : isFinite inv = true) (hinv : 0 < rv inv) (hzr : |rv z * rv inv - 1| ≤ 1 / 23)
    (hcf : isFinite lc = true) (hlc1 : |rv lc| ≤ 3 / 5) (hlc : |rv lc * Real.log 2 + Real.log (rv inv)| ≤ ulpHalf 64 * 0.45)
    (hr : r = fmaL fm z inv (0xbff0000000000000#64)) :
    let c := fun i => log2coffD.getD i 0
    let t1 := fmul r invln2h
    let t2 := fmaL fm r invln2l (fmsL fm r invln2h t1)
    let t3 := fadd lc (ofInt 64 k)
    let hh := fadd t3 t1
    let ll := fadd (fsub t3 hh) (fadd t1 t2)
    let r2 := fmul r r
    let yy := fmaL fm r2 (fmaL fm r (c 3) (c 2)) (fmaL fm r (c 1) (fmaL fm (fmul r2 r2) (fmaL fm (c 5) r (c 4)) (c 0)))
    isFinite (fadd ll (fmaL fm r2 yy hh)) = true ∧
    |rv (fadd ll (fmaL fm r2 yy hh)) - (k + Real.log (rv z) / Real.log 2)| ≤ 0.0000000000036 + 5 * ulpHalf 64 * (1 + |k + Real.log (rv z) / Real.log 2|) := by
  have hu : ulpHalf 64 = 1 / 2 ^ 53 := ulp64
  have hu0 := ulp_pos 64
  intro c t1 t2 t3 hh ll r2 yy
  have z1 : |rv z * rv inv| ≤ 24 / 23 := by
    obtain ⟨a, b⟩ := abs_le.1 hzr
    rw [abs_le]; constructor <;> linarith
  obtain ⟨rf, re⟩ := fma_bd W_64 fm hzf hif (by decide +kernel : isFinite (0xbff0000000000000#64) = true) z1 (by rw [mone64]; norm_num : |rv (0xbff0000000000000#64)| ≤ 1) (S := 1 / 23) (by rw [mone64]; exact hzr) (by norm_num) (by norm_num)
  rw [← hr] at rf re
  rw [mone64, hu, ← sub_eq_add_neg] at re
  have re' : |rv r - (rv z * rv inv - 1)| ≤ ulpHalf 64 * (9 / 8) := by rw [hu]; refine le_trans re (by norm_num)
  have rb : |rv r| ≤ 0.0435 := by
    have := abs_le_of_sub re hzr
    refine le_trans this (by norm_num)
  clear hr
  obtain ⟨r2f, r2b, r2e', yf, hy, yb⟩ := y2D fm rf rb
  obtain ⟨c0, c1, c2, c3, c4, c5, ch, cl, cJ⟩ := coff2D
  obtain ⟨-, -, -, -, -, -, kh, kl⟩ := coff2D_fin
  have hPoly := poly2D rb c0 c1 c2 c3 c4 c5 cJ
  change isFinite r2 = true at r2f
  change |rv r2| ≤ 0.0019 at r2b
  change |rv r2 - rv r ^ 2| ≤ _ at r2e'
  change isFinite yy = true at yf
  change |rv yy - _| ≤ _ at hy
  change |rv yy| ≤ 0.75 at yb
  change |_ + (rv (c 0) + rv (c 1) * rv r + rv (c 2) * rv r ^ 2 + rv (c 3) * rv r ^ 3 + rv (c 4) * rv r ^ 4 + rv (c 5) * rv r ^ 5) * rv r ^ 2 - _| ≤ _ at hPoly
  change |rv yy - (rv (c 0) + rv (c 1) * rv r + rv (c 2) * rv r ^ 2 + rv (c 3) * rv r ^ 3 + rv (c 4) * rv r ^ 4 + rv (c 5) * rv r ^ 5)| ≤ _ at hy
  clear_value yy r2
  generalize rv (c 0) + rv (c 1) * rv r + rv (c 2) * rv r ^ 2 + rv (c 3) * rv r ^ 3 + rv (c 4) * rv r ^ 4 + rv (c 5) * rv r ^ 5 = Pc at *
  have hPc : |Pc| ≤ 0.76 := by
    have h1 : |Pc - rv yy| ≤ 1 / 2 ^ 53 * 4 := by rw [abs_sub_comm]; exact hy
    exact le_trans (abs_le_of_sub h1 yb) (by norm_num)
  have hq : |rv r2 * rv yy - rv r ^ 2 * Pc| ≤ 1 / 2 ^ 53 * 0.002 * 0.75 + 0.0435 ^ 2 * (1 / 2 ^ 53 * 4) := prod_err r2e' hy (pow_bd rb 2) yb
  have q1 : |rv r2 * rv yy| ≤ 0.0019 * 0.75 := mul_bd r2b yb
  have bh : |rv invln2h| ≤ 1.443 := by rw [abs_le]; constructor <;> linarith [ch.1, ch.2]
  have bl : |rv invln2l| ≤ 0.0000000002 := by rw [abs_le]; constructor <;> linarith [cl.1, cl.2]
  have mh := mul_bd rb bh
  have ml := mul_bd rb bl
  obtain ⟨t1f, t1e⟩ := mul_bd_e W_64 rf kh mh (by norm_num)
  change isFinite t1 = true at t1f
  change |rv t1 - _| ≤ _ at t1e
  rw [hu] at t1e
  have t1b : |rv t1| ≤ 0.0635 := le_trans (abs_le_of_sub t1e mh) (by norm_num)
  have sE : |rv r * rv invln2h - rv t1| ≤ 1 / 2 ^ 53 * 0.064 := by rw [abs_sub_comm]; exact le_trans t1e (by norm_num)
  obtain ⟨ef, ee⟩ := fms_bd W_64 fm rf kh t1f mh t1b sE (by norm_num) (by norm_num)
  rw [hu] at ee
  have eb : |rv (fmsL fm r invln2h t1)| ≤ 1 / 2 ^ 53 * 0.13 := le_trans (abs_le_of_sub ee sE) (by norm_num)
  have s2 : |rv r * rv invln2l + rv (fmsL fm r invln2h t1)| ≤ 0.00000000001 := le_trans (abs_add_le _ _) (le_trans (add_le_add ml eb) (by norm_num))
  obtain ⟨t2f, t2e⟩ := fma_bd W_64 fm rf kl ef ml eb s2 (by norm_num) (by norm_num)
  change isFinite t2 = true at t2f
  change |rv t2 - _| ≤ _ at t2e
  rw [hu] at t2e
  have t2b : |rv t2| ≤ 0.0000000001 := le_trans (abs_le_of_sub t2e s2) (by norm_num)
  have h12 : |rv t1 + rv t2 - (rv invln2h + rv invln2l) * rv r| ≤ ulpHalf 64 * 0.2 := by
    rw [show rv t1 + rv t2 - (rv invln2h + rv invln2l) * rv r = (rv t2 - (rv r * rv invln2l + rv (fmsL fm r invln2h t1))) + (rv (fmsL fm r invln2h t1) - (rv r * rv invln2h - rv t1)) by ring, hu]
    refine le_trans (abs_add_le _ _) (le_trans (add_le_add t2e ee) (by norm_num))
  clear t2e ee eb s2 ef
  obtain ⟨kf, kv⟩ := ofInt_rv W_64 hk
  have hkb : |(k : ℝ)| ≤ 1024 := by
    have : ((k.natAbs : Nat) : ℝ) ≤ 1024 := by exact_mod_cast hk
    rwa [Nat.cast_natAbs, Int.cast_abs] at this
  have hlk : |rv lc + rv (ofInt 64 k)| ≤ 1025 := by rw [kv]; exact le_trans (abs_add_le _ _) (by linarith)
  obtain ⟨t3f, t3e, t3b⟩ := add_bd_e W_64 hcf kf hlk (by norm_num)
  rw [kv] at t3e
  change isFinite t3 = true at t3f
  change |rv t3 - _| ≤ _ at t3e
  change |rv t3| ≤ _ at t3b
  obtain ⟨hhf, hhe, hhb⟩ := add_bd_e W_64 t3f t1f (le_trans (abs_add_le _ _) (add_le_add t3b t1b)) (by norm_num)
  change isFinite hh = true at hhf
  change |rv hh - _| ≤ _ at hhe
  change |rv hh| ≤ _ at hhb
  obtain ⟨gf, ge, gb⟩ := sub_bd_e W_64 t3f hhf (le_trans (abs_sub _ _) (add_le_add t3b hhb)) (by norm_num)
  obtain ⟨ff, fe, fb⟩ := add_bd_e W_64 t1f t2f (le_trans (abs_add_le _ _) (add_le_add t1b t2b)) (by norm_num)
  obtain ⟨lf, le, lb⟩ := add_bd_e W_64 gf ff (le_trans (abs_add_le _ _) (add_le_add gb fb)) (by norm_num)
  change isFinite ll = true at lf
  change |rv ll - _| ≤ _ at le
  change |rv ll| ≤ _ at lb
  have hb : (4 : ℝ) * 2 ^ 18 ≤ 2 ^ bias 64 := by
    have : (2:ℝ) ^ 20 ≤ 2 ^ bias 64 := pow_le_pow_right₀ (by norm_num) (by decide)
    refine le_trans ?_ this; norm_num
  obtain ⟨mf, me⟩ := fmaL_e W_64 fm r2f yf hhf hb (by norm_num) (le_trans q1 (by norm_num)) (le_trans hhb (by norm_num))
  have mbd : |rv (fmaL fm r2 yy hh)| ≤ 2 ^ 18 := by
    have hf := fma_bd W_64 fm r2f yf hhf q1 hhb (le_trans (abs_add_le _ _) (add_le_add q1 hhb)) (by norm_num) (by norm_num)
    have := abs_le_of_sub hf.2 (le_trans (abs_add_le _ _) (add_le_add q1 hhb))
    rw [hu] at this
    exact le_trans this (by norm_num)
  obtain ⟨of, oe, -⟩ := add_bd_e W_64 lf mf (le_trans (abs_add_le _ _) (add_le_add lb mbd)) (by norm_num)
  refine ⟨of, ?_⟩
  have htt : tiny 64 ≤ ulpHalf 64 / 2 ^ 20 := by rw [hu]; exact le_trans (tiny_le W_64) (by norm_num)
  exact log2D_assemble (P := rv r ^ 2 * Pc) (R1 := (rv invln2h + rv invln2l) * rv r) hu0 (by rw [hu]) htt hz hinv hzr hlc re' t1b h12 t2b t3e hhe ge fe le
    (le_trans hq (by rw [hu]; norm_num)) (le_trans q1 (by norm_num)) me oe (by rw [mul_comm (rv r ^ 2)]; exact hPoly)
theorem redD2 {x : BitVec 64} (hx : x.toNat < 0x7ff0000000000000) : ∃ z : BitVec 64, ∃ k : ℤ, ∃ i : Nat, i < 64 ∧ redZ x = z ∧ redK x = k ∧ redIdx log2tabBitsD x = i ∧ k.natAbs ≤ 1024 ∧
    isFinite z = true ∧ 0 < rv z ∧ Real.log (pvN 64 x.toNat) = k * Real.log 2 + Real.log (rv z) ∧
    (logOff 64).toNat + i * 2 ^ (mb 64 - 6) ≤ z.toNat ∧ z.toNat < (logOff 64).toNat + i * 2 ^ (mb 64 - 6) + 2 ^ (mb 64 - 6) ∧ z.msb = false ∧ (x.toNat : ℤ) = z.toNat + k * 2 ^ 52 := by
  obtain ⟨q, q1, q2, q3, q4, q5⟩ := red64 (bits := 6) (by norm_num) hx
  have hz1 : (redZ x).toNat < 0x7ff0000000000000 := by omega
  have hm : (redZ x).msb = false := msb_of_small (by change _ < 2 ^ 63; omega)
  have hp : rv (redZ x) = pvN 64 (redZ x).toNat := rv_pvN W_64 hm (by change 2 ^ 52 ≤ _; omega)
  have e : (x.toNat : ℤ) = (redZ x).toNat + redK x * 2 ^ 52 := by rw [q2]; exact q4
  refine ⟨_, _, _, ?_, rfl, rfl, rfl, by omega, fin_of_lt W_64 (by exact hz1), ?_, ?_, ?_, ?_, hm, e⟩
  · change redIdx 6 x < 64; rw [q3]; omega
  · rw [hp]; exact pvN_pos _ _
  · rw [hp]; exact log_pvN (w := 64) e
  · change 0x3fe6900900000000 + redIdx 6 x * 2 ^ 46 ≤ _; rw [q2, q3]; change 0x3fe6900900000000 + q / 2 ^ 46 * 2 ^ 46 ≤ _; omega
  · change _ < 0x3fe6900900000000 + redIdx 6 x * 2 ^ 46 + 2 ^ 46; rw [q2, q3]; change _ < 0x3fe6900900000000 + q / 2 ^ 46 * 2 ^ 46 + 2 ^ 46; omega
theorem evLog2D_acc (fm : Bool) {x : BitVec 64} (hx : x.toNat < 0x7ff0000000000000) :
    isFinite (evLog2D fm x) = true ∧ |rv (evLog2D fm x) - Real.logb 2 (pvN 64 x.toNat)| ≤ 0.0000000000036 + 5 * ulpHalf 64 * (1 + |Real.logb 2 (pvN 64 x.toNat)|) := by
  obtain ⟨z, k, i, hi, ez, ek, ei, hk, hzf, hz0, hlog, h1, h2, hm, he⟩ := redD2 hx
  obtain ⟨f1, f2, hr⟩ := rngOk_row log2tabD_rng (by norm_num) (i := i) (by exact hi) hm h1 h2.le
  obtain ⟨p1, p3, p2⟩ := tab2Ok_row log2tabD_ok log2tabD_le (by decide) (i := i) (by exact hi)
  have hl : Real.logb 2 (pvN 64 x.toNat) = k + Real.log (rv z) / Real.log 2 := by
    have : Real.log 2 ≠ 0 := by have := Real.log_two_gt_d9; linarith
    rw [logb_two, hlog, add_div, mul_div_assoc, div_self this, mul_one]
  rw [hl]
  unfold evLog2D
  simp only [ez, ek, ei]
  exact kern2D hk hzf hz0 f1 p1 (by exact_mod_cast hr) f2 p3 (le_trans p2 (by rw [ulp64]; norm_num)) rfl
end Dpm.X86
