import Verif.Proofs.TrigMain
/-! The argument reduction with fused multiply-add: in double precision its first two steps are exact up to `2^40`. -/
namespace Dpm.X86
open Dpm.Reg Dpm.Fp

/-- a fused multiply-add whose result is representable is exact -/
theorem ffma_exact {y d z : BitVec 64} (hy : isFinite y = true) (hd : isFinite d = true) (hz : isFinite z = true) {U : Nat} (hU : U = 2 ^ unitExp 64)
    {J g m : Int} {a : Nat} (ha : a ≤ 1060) (vy : val y = J * U) (vd : val d = g * 2 ^ a) (vz : val z = m * 2 ^ a) (hb : (J * g + m).natAbs ≤ 2 ^ 53) :
    isFinite (fmaL true y d z) = true ∧ val (fmaL true y d z) = (J * g + m) * 2 ^ a := by
  have h : W 64 := Or.inr rfl
  have hUp : 0 < U := by rw [hU]; exact Nat.two_pow_pos _
  have hs : sgn false (val y * val d) + sgn false (val z * 2 ^ unitExp 64) = (J * g + m) * 2 ^ a * U := by
    have e : ((2 : Int) ^ unitExp 64) = (U : Int) := by rw [hU]; push_cast; rfl
    rw [e, vy, vd, vz]; unfold sgn; simp only [Bool.false_eq_true, if_false]; ring
  rw [fmaL_true, ffmaG_fin false false hy hd hz, hs, ← hU]
  by_cases h0 : J * g + m = 0
  · have hz0 : (J * g + m) * 2 ^ a * U = 0 := by rw [h0, zero_mul, zero_mul]
    rw [if_pos hz0, h0, zero_mul]
    exact val_zeroPack h _
  · have h2 : (0 : Int) < 2 ^ a := by positivity
    have hU0 : (0 : Int) < U := by exact_mod_cast hUp
    have hne : (J * g + m) * 2 ^ a * U ≠ 0 := mul_ne_zero (mul_ne_zero h0 h2.ne') hU0.ne'
    rw [if_neg hne]
    have hbig : 2 ^ (mb 64 + 1) * 2 ^ 1060 < magVal (mb 64) (infMag 64) := by decide +kernel
    have hb2 : (J * g + m).natAbs ≤ 2 ^ (mb 64 + 1) := hb
    have hpa : 2 ^ a ≤ 2 ^ 1060 := Nat.pow_le_pow_right (Nat.succ_pos 1) ha
    generalize 2 ^ 1060 = P at hbig hpa
    obtain ⟨mm, hm, he⟩ := repr_mk (w := 64) (f := (J * g + m).natAbs) (k := a) hb2
      (Nat.lt_of_le_of_lt (Nat.mul_le_mul hb2 hpa) hbig)
    have hna : ((J * g + m) * 2 ^ a * U).natAbs = magVal (mb 64) mm * U := by
      rw [Int.natAbs_mul, Int.natAbs_mul, Int.natAbs_natCast, Int.natAbs_pow, ← he, show (2 : Int).natAbs = 2 from rfl]
    have hsg : decide ((J * g + m) * 2 ^ a * U < 0) = decide (J * g + m < 0) := by
      congr 1
      apply propext
      constructor
      · intro hlt; by_contra hc; push Not at hc
        have : 0 ≤ (J * g + m) * 2 ^ a * U := mul_nonneg (mul_nonneg hc h2.le) hU0.le
        omega
      · intro hlt; exact mul_neg_of_neg_of_pos (mul_neg_of_neg_of_pos hlt h2) hU0
    rw [hna, hsg]
    have hi := infMag_lt h
    have hr : _root_.Dpm.Fp.round 64 (decide (J * g + m < 0)) (magVal (mb 64) mm * U) U = pack 64 (decide (J * g + m < 0)) mm := by
      unfold _root_.Dpm.Fp.round; rw [rne_exact (Dpm.Fp.mb_pos 64) hUp, Nat.min_eq_left (by omega)]
    rw [hr, finite_iff h, mag_pack h (by omega), val_pack h (by omega), ← he]
    refine ⟨hm, ?_⟩
    push_cast
    by_cases hn : J * g + m < 0
    · rw [decide_eq_true hn]; simp only [if_true]
      rw [abs_of_neg hn]; ring
    · rw [decide_eq_false hn]; simp only [Bool.false_eq_true, if_false]
      rw [abs_of_nonneg (by omega)]

theorem dp64 {a b : Nat} (ha : a = 1039) (hb : b = 1029) : isFinite ((dpSincos 64).getD 0 0) = true ∧ isFinite ((dpSincos 64).getD 1 0) = true ∧ isFinite ((dpSincos 64).getD 2 0) = true ∧
      val ((dpSincos 64).getD 0 0) = (-6588397 * 4096) * 2 ^ a ∧ val ((dpSincos 64).getD 1 0) = -1328173 * 2 ^ b := by
  subst ha; subst hb; decide +kernel

/-- a double of at least `2^17` is a multiple of `2^-35` -/
theorem grid_of {x : BitVec 64} {a : Nat} (ha : a = 1039) (hs : x.msb = false) (hA : 2 ^ 17 ≤ rv x) : ∃ m : Int, val x = m * 2 ^ a ∧ rv x = m / 2 ^ 35 := by
  have h0 : val x = magVal 52 (mag x) := by unfold val neg; rw [hs]; simp; rfl
  obtain ⟨hgap, hdvd⟩ := magVal_gap 52 (mag x)
  have hge : 1040 * 2 ^ 52 ≤ mag x := by
    by_contra hc; push Not at hc
    have h1 : magVal 52 (mag x) < magVal 52 (1040 * 2 ^ 52) := magVal_lt.2 hc
    have h2 : magVal 52 (1040 * 2 ^ 52) = 2 ^ 17 * 2 ^ unitExp 64 := by decide +kernel
    rw [h2] at h1
    have h3 : rv x < 2 ^ 17 := by
      unfold rv
      rw [div_lt_iff₀ (by positivity), h0]
      exact_mod_cast h1
    linarith
  have he : a ≤ mag x / 2 ^ 52 - 1 := by
    have : 1040 ≤ mag x / 2 ^ 52 := (Nat.le_div_iff_mul_le (Nat.two_pow_pos _)).2 hge
    omega
  obtain ⟨q, hq⟩ := Nat.dvd_trans (Nat.pow_dvd_pow 2 he) hdvd
  have hv : val x = (q : Int) * 2 ^ a := by
    rw [h0, hq, Nat.mul_comm]; push_cast; ring
  refine ⟨q, hv, ?_⟩
  have := rv_of_val hv (b := 35) (by rw [ha]; rfl)
  exact this

theorem natAbs_of_real {n : Int} {b : Nat} {K : Nat} (h : |(n : ℝ) / 2 ^ b| ≤ K) (hK : K * 2 ^ b ≤ 2 ^ 53) : n.natAbs ≤ 2 ^ 53 := by
  rw [abs_div, abs_of_pos (by positivity : (0:ℝ) < 2 ^ b), div_le_iff₀ (by positivity)] at h
  have h1 : ((n.natAbs : Nat) : ℝ) ≤ ((K * 2 ^ b : Nat) : ℝ) := by
    push_cast; rw [Nat.cast_natAbs, Int.cast_abs]; exact h
  exact le_trans (by exact_mod_cast h1) hK

theorem rf_real {J A B P d3 : ℝ} (hJ0 : 0 ≤ J) (hJm : J ≤ 1.5 * 10 ^ 12) (h0 : 0 ≤ d3) (h1 : d3 ≤ 1 / 10 ^ 14 / 2) (hB : |A - J * P| ≤ B) (hB2 : B ≤ 3 / 2)
    (hδ : |6588397 / 2 ^ 23 + 1328173 / 2 ^ 45 + d3 - P| ≤ 1 / 10 ^ 28) :
    |A - J * (6588397 / 2 ^ 23)| ≤ ((131072 : Nat) : ℝ) ∧ |A - J * (6588397 / 2 ^ 23) - J * (1328173 / 2 ^ 45)| ≤ ((2 : Nat) : ℝ) ∧
    |A - J * (6588397 / 2 ^ 23) - J * (1328173 / 2 ^ 45) - J * d3| ≤ B + 1.5 / 10 ^ 16 ∧
    |A - J * (6588397 / 2 ^ 23) - J * (1328173 / 2 ^ 45) - J * d3 - (A - J * P)| ≤ 1.5 / 10 ^ 16 := by
  have hδ2 : |J * (6588397 / 2 ^ 23 + 1328173 / 2 ^ 45 + d3 - P)| ≤ 1.5 * 10 ^ 12 * (1 / 10 ^ 28) := by
    rw [abs_mul, abs_of_nonneg hJ0]; exact mul_le_mul hJm hδ (abs_nonneg _) (by norm_num)
  have hcs : J * (6588397 / 2 ^ 23 + 1328173 / 2 ^ 45 + d3 - P) = J * (6588397 / 2 ^ 23) + J * (1328173 / 2 ^ 45) + J * d3 - J * P := by ring
  rw [hcs] at hδ2
  have hk0 : 0 ≤ J * (1328173 / 2 ^ 45) := mul_nonneg hJ0 (by norm_num)
  have hk1 : J * (1328173 / 2 ^ 45) ≤ 1.5 * 10 ^ 12 * (1328173 / 2 ^ 45) := mul_le_mul_of_nonneg_right hJm (by norm_num)
  have hd0 : 0 ≤ J * d3 := mul_nonneg hJ0 h0
  have hd1 : J * d3 ≤ 1 / 100 := le_trans (mul_le_mul hJm h1 h0 (by norm_num)) (by norm_num)
  obtain ⟨b1, b2⟩ := abs_le.1 hB
  obtain ⟨c1, c2⟩ := abs_le.1 hδ2
  generalize J * (6588397 / 2 ^ 23) = a at *
  generalize J * (1328173 / 2 ^ 45) = k at *
  generalize J * d3 = d at *
  generalize J * P = q at *
  push_cast
  refine ⟨?_, ?_, ?_, ?_⟩ <;> rw [abs_le] <;> constructor <;> norm_num at * <;> linarith
theorem rf_fin {z e t B : ℝ} (ht : tiny 64 ≤ ulpHalf 64 / 1000000) (h1 : |z - e| ≤ ulpHalf 64 * |e| + tiny 64) (h2 : |e| ≤ B + 1.5 / 10 ^ 16) (h3 : |e - t| ≤ 1.5 / 10 ^ 16) :
    |z - t| ≤ ulpHalf 64 * (1.001 * B + 1.37) := by
  have eu : ulpHalf 64 = 1 / 2 ^ 53 := rfl
  have h4 := abs_sub_tri h1 h3
  generalize tiny 64 = τ at *
  rw [eu] at *
  norm_num at *
  have h0 := abs_nonneg e
  linarith

set_option maxHeartbeats 1000000 in
/-- the reduced argument with fused multiply-add, `2^17 <= |x| <= 2^40` -/
theorem red_fma {y ab : BitVec 64} (hy : isFinite y = true) {J : Nat} (hJ : val y = J * (2 ^ unitExp 64 : Nat)) (hJm : (J : ℝ) ≤ 1.5 * 10 ^ 12)
    (ha : isFinite ab = true) (hs : ab.msb = false) (hA1 : 2 ^ 17 ≤ rv ab) {B : ℝ} (hB : |rv ab - J * (Real.pi / 4)| ≤ B) (hB2 : B ≤ 3 / 2) :
    isFinite (redArg true y ab) = true ∧ |rv (redArg true y ab) - (rv ab - J * (Real.pi / 4))| ≤ ulpHalf 64 * (1.001 * B + 1.37) := by
  have h : W 64 := Or.inr rfl
  obtain ⟨ea, hea⟩ : ∃ ea, ea = 1039 := ⟨_, rfl⟩
  obtain ⟨eb, heb⟩ : ∃ eb, eb = 1029 := ⟨_, rfl⟩
  have hab : ea = 10 + eb := by omega
  have hUa : unitExp 64 = 35 + ea := by rw [hea]; rfl
  have hUb : unitExp 64 = 45 + eb := by rw [heb]; rfl
  obtain ⟨f0, f1, f2, v0, v1⟩ := dp64 hea heb
  obtain ⟨-, -, -, r0, r1, r2⟩ := dp_consts h
  obtain ⟨z0, z1, z2⟩ := dp_pi h
  rw [if_pos rfl] at z2
  have hyv := rv_nat hJ
  have hJ0 : (0 : ℝ) ≤ J := Nat.cast_nonneg J
  have hB0 : 0 ≤ B := le_trans (abs_nonneg _) hB
  obtain ⟨m, hm, hmr⟩ := grid_of hea hs hA1
  have hd3 : dp3 64 ≤ 1 / 10 ^ 14 / 2 := by unfold dp3; rw [if_pos rfl]; norm_num
  obtain ⟨n1, n2, n3, n5⟩ := rf_real hJ0 hJm z0.le hd3 hB hB2 z2
  have q1 : rv ab - J * (6588397 / 2 ^ 23) = (((J : Int) * (-6588397 * 4096) + m : Int) : ℝ) / 2 ^ 35 := by
    rw [hmr]; push_cast; ring
  have w1 := natAbs_of_real (by rw [← q1]; exact n1) (by norm_num)
  obtain ⟨g1, e1⟩ := ffma_exact hy f0 ha (U := 2 ^ unitExp 64) rfl (a := ea) (by omega) hJ v0 hm w1
  have s1v := rv_of_val e1 (b := 35) hUa
  unfold redArg
  generalize fmaL true y ((dpSincos 64).getD 0 0) ab = s1 at *
  have e1' : val s1 = (((J : Int) * (-6588397 * 4096) + m) * 1024) * 2 ^ eb := by
    rw [e1, hab, pow_add]; norm_num; ring
  have q2 : rv ab - J * (6588397 / 2 ^ 23) - J * (1328173 / 2 ^ 45) = (((J : Int) * -1328173 + ((J : Int) * (-6588397 * 4096) + m) * 1024 : Int) : ℝ) / 2 ^ 45 := by
    rw [q1]; push_cast; ring
  have w2 := natAbs_of_real (by rw [← q2]; exact n2) (by norm_num)
  obtain ⟨g2, e2⟩ := ffma_exact hy f1 g1 (U := 2 ^ unitExp 64) rfl (a := eb) (by omega) hJ v1 e1' w2
  have s2v := rv_of_val e2 (b := 45) hUb
  rw [← q2] at s2v
  generalize fmaL true y ((dpSincos 64).getD 1 0) s1 = s2 at *
  rw [fmaL_true]
  have e : ∀ a b : ℝ, sg false * a + sg false * b = a + b := by intro a b; simp [sg]
  have q3 : rv y * rv ((dpSincos 64).getD 2 0) + rv s2 = rv ab - J * (6588397 / 2 ^ 23) - J * (1328173 / 2 ^ 45) - J * dp3 64 := by
    rw [hyv, r2, s2v]; ring
  have hu := ulp_pos 64
  have ht := tiny_pos 64
  have ht1 := tiny_ulp h
  have hb : (2 : ℝ) ≤ 2 ^ bias 64 := le_self_pow₀ (by norm_num) (by decide)
  have k1 := ffmaG_finite h false false hy f2 g2 (by rw [e, q3]; exact le_trans n3 (le_trans (by linarith) hb))
  have k2 := ffmaG_rv h false false hy f2 g2 k1
  rw [e, q3] at k2
  exact ⟨k1, rf_fin ht1 (or_add hu.le ht.le k2) n3 n5⟩

/-! ### The octant number up to `2^41` -/
theorem cvtt_nat64 (s : ISA) (v : VSz) {y : BitVec 64} (hy : isFinite y = true) (hs : y.msb = false) (hv : rv y ≤ 2 ^ 41) :
    ∃ n : Nat, n ≤ 2 ^ 41 ∧ cvttLaneIF s v y = BitVec.ofNat 64 n ∧ -(octDist s 64 v - 1) ≤ rv y - n ∧ rv y - n ≤ 1 := by
  by_cases hsm : rv y ≤ 2 ^ 30
  · obtain ⟨n, a, b, c, d, -, -⟩ := cvtt_nat (Or.inr rfl) s v hy hs hsm
    exact ⟨n, le_trans a (by norm_num), b, c, d⟩
  obtain ⟨U, hU⟩ : ∃ U, U = 2 ^ unitExp 64 := ⟨_, rfl⟩
  have hUp : 0 < U := by rw [hU]; exact Nat.two_pow_pos _
  have hUr : (0 : ℝ) < U := by exact_mod_cast hUp
  have hUi : (0 : Int) < U := by exact_mod_cast hUp
  have hrv := rv_div (y := y) hU
  have h0 : 0 ≤ val y := by unfold val neg; rw [hs]; simp
  have hvi : val y ≤ ((2 ^ 41 : Nat) : Int) * U := by
    have : (val y : ℝ) ≤ ((2 ^ 41 : Nat) : ℝ) * U := by
      rw [← hrv]; push_cast; exact mul_le_mul_of_nonneg_right (le_trans hv (by norm_num)) hUr.le
    exact_mod_cast this
  have cast : ∀ a b : Int, a * U ≤ b → (a : ℝ) * U ≤ b := fun a b hab => by exact_mod_cast hab
  have castl : ∀ a b : Int, a < b * U → (a : ℝ) < b * U := fun a b hab => by exact_mod_cast hab
  have hK : ((2 ^ 41 : Nat) : Int) = 2199023255552 := by norm_num
  by_cases hT : v = .v128 ∧ s.dqvl = true
  · have hD : octDist s 64 v = 3 / 2 := by unfold octDist; rw [if_pos ⟨rfl, hT⟩]
    obtain ⟨hv128, hdq⟩ := hT
    subst hv128
    have hr := toInt_rint y
    rw [← hU] at hr
    obtain ⟨n0, nK⟩ := rint_le hUi h0 hvi hr
    have hc : cvttLaneIF s .v128 y = BitVec.ofInt 64 (toInt .nearest y) := by
      rw [cvttLaneIF_128, hdq, if_pos rfl]
      rw [hK] at nK
      exact cvtInt_of hy (by norm_num; omega) (by norm_num; omega)
    obtain ⟨n, hn⟩ := Int.eq_ofNat_of_zero_le n0
    rw [hn] at hr nK hc
    obtain ⟨r1, r2, r3⟩ := hr
    have r1' := cast _ _ r1
    have r2' : ((2 * val y : Int) : ℝ) ≤ (2 * n + 1) * U := by exact_mod_cast r2
    push_cast at r1' r2'
    rw [← hrv] at r1' r2'
    have l1 : 2 * (n : ℝ) - 1 ≤ 2 * rv y := by
      by_contra hcc; push Not at hcc
      have := mul_lt_mul_of_pos_right hcc hUr; linarith
    have l2 : 2 * rv y ≤ 2 * (n : ℝ) + 1 := by
      by_contra hcc; push Not at hcc
      have := mul_lt_mul_of_pos_right hcc hUr; linarith
    exact ⟨n, by exact_mod_cast nK, by rw [hc]; rfl, by rw [hD]; linarith, by linarith⟩
  · have hD : octDist s 64 v = 1 := by unfold octDist; rw [if_neg (fun hh => hT hh.2)]
    have hn := toInt_trunc y
    rw [← hU] at hn
    obtain ⟨n0, nK⟩ := trunc_le hUi h0 hvi hn
    have hc : cvttLaneIF s v y = BitVec.ofInt 64 (toInt .zero y) := by
      rw [hK] at nK
      have hi : -(2 ^ (64 - 1) : Int) ≤ toInt .zero y ∧ toInt .zero y < 2 ^ (64 - 1) := by constructor <;> norm_num <;> omega
      have hK2 : ((2251799813685248 : Nat) : Int) = 2251799813685248 := by norm_num
      have hfin : ∀ r : BitVec 64, isFinite r = true → val r = toInt .zero y * U → fadd r off64 - off64 = BitVec.ofInt 64 (toInt .zero y) :=
        fun r f e => off64_int f hU e (by rw [hK2]; omega) (by rw [hK2]; omega)
      cases v
      · rw [cvttLaneIF_128]
        have hdq : s.dqvl = false := by
          cases h : s.dqvl
          · rfl
          · exact absurd ⟨rfl, h⟩ hT
        rw [hdq]
        simp only [Bool.false_eq_true, if_false]
        have he : 1023 ≤ expF y := by
          by_contra hcc
          obtain ⟨-, -, -, g4⟩ := trunc1011_small hs (by omega) hU
          have hz := isTrunc_unique hUi hn g4
          obtain ⟨t1, t2⟩ := hn.1 h0
          rw [hz] at t2
          have t3 := castl _ _ t2
          push_cast at t3
          rw [← hrv] at t3
          have t4 : rv y < 0 + 1 := lt_of_mul_lt_mul_right (by linarith) hUr.le
          clear hfin; rw [not_le] at hsm; linarith
        have hfn : ∀ t, IsRoundFn IsTrunc y (truncLane t y) → fadd (truncLane t y) off64 - off64 = BitVec.ofInt 64 (toInt .zero y) := by
          intro t ht
          obtain ⟨f1, z, hz, hz2⟩ := ht.fin hy
          refine hfin _ f1 ?_
          rw [← hU] at hz hz2
          rw [hz2, isTrunc_unique hUi hz hn]
        split
        · exact hfn _ (truncLane_fn y)
        · exact hfn _ (truncLane_big _ (by omega) he)
      · rw [cvttLaneIF_256]
        split
        · exact cvtInt_of hy hi.1 hi.2
        · have := roundInt_spec (Or.inr rfl : W 64) .zero hy
          rw [← hU] at this
          exact hfin _ this.1 this.2.2
    obtain ⟨n, hnn⟩ := Int.eq_ofNat_of_zero_le n0
    rw [hnn] at hn nK hc
    obtain ⟨r1, r2⟩ := hn.1 h0
    have r1' := cast _ _ r1
    have r2' := castl _ _ r2
    push_cast at r1' r2'
    rw [← hrv] at r1' r2'
    have l1 : (n : ℝ) ≤ rv y := le_of_mul_le_mul_right r1' hUr
    have l2 : rv y < n + 1 := lt_of_mul_lt_mul_right r2' hUr.le
    exact ⟨n, by exact_mod_cast nK, by rw [hc]; rfl, by rw [hD]; linarith, by linarith⟩
theorem even_up64 {n : Nat} (hn : n ≤ 2 ^ 41) : (BitVec.ofNat 64 n + 1#64) &&& ~~~ 1#64 = BitVec.ofNat 64 (2 * ((n + 1) / 2)) := by
  have e1 : BitVec.ofNat 64 n + 1#64 = BitVec.ofNat 64 (n + 1) := by
    rw [BitVec.ofNat_add]
  apply BitVec.eq_of_toNat_eq
  rw [e1, BitVec.and_comm]
  have := andnot_low (w := 64) (j := 1) (BitVec.ofNat 64 (n + 1))
  rw [show (2 ^ 1 - 1 : Nat) = 1 from rfl] at this
  rw [this, BitVec.toNat_ofNat, BitVec.toNat_ofNat]
  rw [Nat.mod_eq_of_lt (show n + 1 < 2 ^ 64 by omega), Nat.mod_eq_of_lt (show 2 * ((n + 1) / 2) < 2 ^ 64 by omega)]
  omega
theorem cvt_nat64 {T : Ety} (s : ISA) (v : VSz) {J : Nat} (hJ : J ≤ 2 ^ 41 + 1) (hc : CvtOk s T v) :
    isFinite (cvtLaneIF s T v (BitVec.ofNat 64 J)) = true ∧ val (cvtLaneIF s T v (BitVec.ofNat 64 J)) = J * (2 ^ unitExp 64 : Nat) := by
  have hi : (BitVec.ofNat 64 J).toInt = J := by
    rw [BitVec.toInt_eq_toNat_of_lt, BitVec.toNat_ofNat, Nat.mod_eq_of_lt (by omega)]
    rw [BitVec.toNat_ofNat, Nat.mod_eq_of_lt (by omega)]; omega
  have hex := ofInt_exact (Or.inr rfl : W 64) (z := (J : Int)) (by
    rw [Int.natAbs_natCast]; refine le_trans hJ ?_; decide)
  unfold cvtLaneIF
  rw [if_pos hc, hi]; exact hex

theorem lf_quot {A p b : ℝ} (hA : A ≤ 2 ^ 40) (hp : 785 / 1000 ≤ p) (hb : 2 ^ 42 ≤ b) : A ≤ b * p := by nlinarith
theorem lf_oct {A τ y : ℝ} (hA : A ≤ 2 ^ 40) (ht : τ ≤ 1 / 10 ^ 20) (h : y ≤ 1.28 * A + τ) : y ≤ 2 ^ 41 := by norm_num at *; linarith
theorem lf_J {A n J : ℝ} (hA : A ≤ 2 ^ 40) (hJ : J ≤ n + 1) (h : n ≤ 1.28 * A + 1) : J ≤ 1.5 * 10 ^ 12 := by norm_num at *; linarith
theorem lf_dist {A D B τ u : ℝ} (eu : u = 1 / 2 ^ 53) (hA : A ≤ 2 ^ 40) (ht : τ ≤ 1 / 10 ^ 20) (hB : D + 196 / 1000000 ≤ B) : 1.6 * u * A + τ + D ≤ B := by
  have : 1.6 * u * A ≤ 1.6 * (1 / 2 ^ 53) * 2 ^ 40 := by rw [eu]; exact mul_le_mul_of_nonneg_left hA (by norm_num)
  norm_num at *; linarith
set_option maxHeartbeats 1000000 in
/-- one lane of a double up to `2^40`, whatever the error `E` of the reduced argument -/
theorem lane_far {T : Ety} (s : ISA) (v : VSz) (fm : Bool) {ab : BitVec 64} (ha : isFinite ab = true) (hs : ab.msb = false) (hA : rv ab ≤ 2 ^ 40)
    (hc : CvtOk s T v) {B E Z p K : ℝ} (hB : octDist s 64 v * (Real.pi / 4) + 196 / 1000000 ≤ B) (hZ : E + B ≤ Z)
    (hred : ∀ (y : BitVec 64) (J : Nat), isFinite y = true → val y = J * (2 ^ unitExp 64 : Nat) → (J : ℝ) ≤ 1.5 * 10 ^ 12 → |rv ab - J * (Real.pi / 4)| ≤ B →
      isFinite (redArg fm y ab) = true ∧ |rv (redArg fm y ab) - (rv ab - J * (Real.pi / 4))| ≤ E)
    (hp : ∀ z : BitVec 64, isFinite z = true → |rv z| ≤ Z → (isFinite (sinPol fm z) = true ∧ |rv (sinPol fm z) - Real.sin (rv z)| ≤ p) ∧
      (isFinite (cosPol fm z) = true ∧ |rv (cosPol fm z) - Real.cos (rv z)| ≤ p))
    (hK : p + E ≤ ulpHalf 64 * K) : SincosErr (cvttLaneIF s v) (cvtLaneIF s T v) fm ab K := by
  have h : W 64 := Or.inr rfl
  obtain ⟨g1, g2, g3, g4, g5, g6⟩ := pio4_consts h
  have hu := ulp_pos 64
  have hu1 := ulp_le h
  have ht := tiny_pos 64
  have ht1 := tiny_ulp h
  have eu : ulpHalf 64 = 1 / 2 ^ 53 := rfl
  have hpi : 0 < Real.pi / 4 := by have := Real.pi_pos; positivity
  have hA0 := rv_nonneg hs
  have hb : (2 : ℝ) ^ 42 ≤ 2 ^ bias 64 := pow_le_pow_right₀ (by norm_num) (by decide)
  have hp0 : 0 < rv (pio4 64) := by linarith
  have hq0 : 0 ≤ rv ab / rv (pio4 64) := div_nonneg hA0 hp0.le
  have hqb : |rv ab / rv (pio4 64)| ≤ 2 ^ bias 64 := by
    rw [abs_of_nonneg hq0, div_le_iff₀ hp0]
    exact lf_quot hA g4 hb
  obtain ⟨f1, e1⟩ := fdiv_e h ha g1 g2 hqb
  have hms := msb_div h ha g1 g2 (hs.trans g3.symm)
  obtain ⟨d1, d2⟩ := div_real hu hu1 ht hA0 g4 g5 g6 e1
  have ht2 : tiny 64 ≤ 1 / 10 ^ 20 := le_trans ht1 (by rw [eu]; norm_num)
  obtain ⟨n, hn, hct, n1, n2⟩ := cvtt_nat64 s v f1 hms (lf_oct hA ht2 d2)
  have hoct : octant (cvttLaneIF s v) ab = BitVec.ofNat 64 (2 * ((n + 1) / 2)) := by
    unfold octant; rw [hct, even_up64 hn]
  have hD : 1 ≤ octDist s 64 v ∧ octDist s 64 v ≤ 3 / 2 := by unfold octDist; split <;> norm_num
  have hnr : (n : ℝ) ≤ 1.28 * rv ab + 1 := by linarith
  have hJn : 2 * ((n + 1) / 2) ≤ n + 1 := by omega
  obtain ⟨c1, c2⟩ := cvt_nat64 (T := T) s v (J := 2 * ((n + 1) / 2)) (by omega) hc
  have hJ1 : ((2 * ((n + 1) / 2) : Nat) : ℝ) ≤ n + 1 := by exact_mod_cast hJn
  have hJ2 : (n : ℝ) ≤ ((2 * ((n + 1) / 2) : Nat) : ℝ) := by
    have : n ≤ 2 * ((n + 1) / 2) := by omega
    exact_mod_cast this
  have hjm : 2 * ((n + 1) / 2) % 2 = 0 := by omega
  generalize 2 * ((n + 1) / 2) = J at *
  have hd : |rv (fdiv ab (pio4 64)) - J| ≤ octDist s 64 v := abs_le.2 ⟨by linarith, by linarith⟩
  have e2 : |rv (fdiv ab (pio4 64)) * (Real.pi / 4) - J * (Real.pi / 4)| ≤ octDist s 64 v * (Real.pi / 4) := by
    rw [← sub_mul, abs_mul, abs_of_pos hpi]
    exact mul_le_mul_of_nonneg_right hd hpi.le
  have e3 := abs_sub_tri d1 e2
  have hB' : |rv ab - J * (Real.pi / 4)| ≤ B := le_trans e3 (lf_dist eu hA ht2 hB)
  obtain ⟨z1, z2⟩ := hred _ J c1 c2 (lf_J hA hJ1 hnr) hB'
  have hz : |rv (redArg fm (cvtLaneIF s T v (BitVec.ofNat 64 J)) ab)| ≤ Z := le_trans (abs_le_of_sub z2 hB') hZ
  obtain ⟨⟨p1, p2⟩, p3, p4⟩ := hp _ z1 hz
  intro b
  obtain ⟨⟨a, b⟩, c, d⟩ := sincos_err h hjm hoct z2 p1 p2 p3 p4 b
  exact ⟨⟨a, le_trans b hK⟩, c, le_trans d hK⟩
/-- one lane with fused multiply-add, `2^17 <= |x| <= 2^40` -/
theorem lane_fma {T : Ety} (s : ISA) (v : VSz) {ab : BitVec 64} (ha : isFinite ab = true) (hs : ab.msb = false) (hA : rv ab ≤ 2 ^ 40) (hA1 : 2 ^ 17 ≤ rv ab)
    (hc : CvtOk s T v) {Z p K : ℝ} (hZ : octDist s 64 v * (Real.pi / 4) + 21 / 100000 ≤ Z) (hZ2 : Z ≤ 3 / 2)
    (hp : ∀ z : BitVec 64, isFinite z = true → |rv z| ≤ Z → (isFinite (sinPol true z) = true ∧ |rv (sinPol true z) - Real.sin (rv z)| ≤ ulpHalf 64 * p) ∧
      (isFinite (cosPol true z) = true ∧ |rv (cosPol true z) - Real.cos (rv z)| ≤ ulpHalf 64 * p))
    (hK : p + (1.001 * Z + 1.37) ≤ K) : SincosErr (cvttLaneIF s v) (cvtLaneIF s T v) true ab K := by
  have hu := ulp_pos 64
  have eu : ulpHalf 64 = 1 / 2 ^ 53 := rfl
  refine lane_far s v true ha hs hA hc (B := Z - 1 / 100000) (E := ulpHalf 64 * (1.001 * (Z - 1 / 100000) + 1.37)) (Z := Z) (p := ulpHalf 64 * p) (by linarith) ?_ ?_ hp ?_
  · rw [eu]; norm_num at *; linarith
  · exact fun y J fy hy hJ hd => red_fma fy hy hJ ha hs hA1 hd (by linarith)
  · rw [← mul_add]; exact mul_le_mul_of_nonneg_left (by linarith) hu.le

/-! ### The reduction without fused multiply-add: the error grows with the argument -/
theorem rp_real {J A B P d3 s1 s2 z u τ : ℝ} (eu : u = 1 / 2 ^ 53) (ht : τ ≤ u / 1000000) (hA : 2 ^ 29 ≤ A) (hA2 : A ≤ 2 ^ 40)
    (hJ0 : 0 ≤ J) (hJm : J ≤ 1.5 * 10 ^ 12) (h0 : 0 ≤ d3) (hd3 : d3 ≤ 1 / 10 ^ 14 / 2) (hB : |A - J * P| ≤ B) (hB2 : B ≤ 3 / 2)
    (hδ : |6588397 / 2 ^ 23 + 1328173 / 2 ^ 45 + d3 - P| ≤ 1 / 10 ^ 28)
    (h1 : |s1 - (J * -(6588397 / 2 ^ 23) + A)| ≤ u * (1 + u) * |J * -(6588397 / 2 ^ 23)| + u * |J * -(6588397 / 2 ^ 23) + A| + 2 * τ)
    (h2 : |s2 - (J * -(1328173 / 2 ^ 45) + s1)| ≤ u * (1 + u) * |J * -(1328173 / 2 ^ 45)| + u * |J * -(1328173 / 2 ^ 45) + s1| + 2 * τ)
    (h3 : |z - (J * -d3 + s2)| ≤ u * (1 + u) * |J * -d3| + u * |J * -d3 + s2| + 2 * τ) :
    |z - (A - J * P)| ≤ u * (1.001 * A) := by
  obtain ⟨n1, n2, n3, n5⟩ := rf_real hJ0 hJm h0 hd3 hB hB2 hδ
  have ha0 : 0 ≤ J * (6588397 / 2 ^ 23) := mul_nonneg hJ0 (by norm_num)
  have hk0 : 0 ≤ J * (1328173 / 2 ^ 45) := mul_nonneg hJ0 (by norm_num)
  have hd0 : 0 ≤ J * d3 := mul_nonneg hJ0 h0
  have hk1 : J * (1328173 / 2 ^ 45) ≤ 60000 := le_trans (mul_le_mul_of_nonneg_right hJm (by norm_num)) (by norm_num)
  have hd1 : J * d3 ≤ 1 / 100 := le_trans (mul_le_mul hJm hd3 h0 (by norm_num)) (by norm_num)
  simp only [mul_neg, abs_neg] at h1 h2 h3
  rw [abs_of_nonneg ha0] at h1
  rw [abs_of_nonneg hk0] at h2
  rw [abs_of_nonneg hd0] at h3
  generalize J * (6588397 / 2 ^ 23) = a at *
  generalize J * (1328173 / 2 ^ 45) = k at *
  generalize J * d3 = d at *
  generalize J * P = q at *
  push_cast at n1 n2
  rw [eu] at *
  have x1 : |-a + A| ≤ 131072 := by rw [show -a + A = A - a by ring]; exact n1
  have hA3 : a ≤ A + 131072 := by have := (abs_le.1 n1).1; linarith
  have y1 : |s1 - (-a + A)| ≤ 1 / 100 := by norm_num at *; linarith
  have x2 : |-k + s1| ≤ 3 := by
    rw [abs_le] at n2 y1 ⊢; constructor <;> linarith [n2.1, n2.2, y1.1, y1.2]
  have y2 : |s2 - (-k + s1)| ≤ 1 / 100 := by norm_num at *; linarith
  have x3 : |-d + s2| ≤ 4 := by
    rw [abs_le] at x2 y2 ⊢; constructor <;> linarith [x2.1, x2.2, y2.1, y2.2]
  have z1 : |s1 - (-a + A)| ≤ 1 / 2 ^ 53 * (1.0001 * A + 300000) := by norm_num at *; linarith
  have z2 : |s2 - (-k + s1)| ≤ 1 / 2 ^ 53 * 60010 := by norm_num at *; linarith
  have z3 : |z - (-d + s2)| ≤ 1 / 2 ^ 53 * 5 := by norm_num at *; linarith
  have tot : |z - (A - q)| ≤ 1 / 2 ^ 53 * (1.0001 * A + 300000) + 1 / 2 ^ 53 * 60010 + 1 / 2 ^ 53 * 5 + 1.5 / 10 ^ 16 := by
    rw [abs_le] at z1 z2 z3 n5 ⊢; constructor <;> linarith [z1.1, z1.2, z2.1, z2.2, z3.1, z3.2, n5.1, n5.2]
  refine le_trans tot ?_
  norm_num at *; linarith
theorem rp_step {w : Nat} (h : W w) (fm : Bool) {x y z : BitVec w} (hx : isFinite x = true) (hy : isFinite y = true) (hz : isFinite z = true) (hp : |rv x * rv y| ≤ 2 ^ 50) (hq : |rv z| ≤ 2 ^ 50) (hw : w = 64) :
    isFinite (fmaL fm x y z) = true ∧
    |rv (fmaL fm x y z) - (rv x * rv y + rv z)| ≤ ulpHalf w * (1 + ulpHalf w) * |rv x * rv y| + ulpHalf w * |rv x * rv y + rv z| + 2 * tiny w :=
  fmaL_e h fm hx hy hz (M := 2 ^ 50) (by
    have : (2 : ℝ) ^ 52 ≤ 2 ^ bias w := pow_le_pow_right₀ (by norm_num) (by subst hw; decide)
    linarith) (by norm_num) hp hq
theorem rp_b1 {J A : ℝ} (hJ0 : 0 ≤ J) (hJm : J ≤ 1.5 * 10 ^ 12) : |J * -(6588397 / 2 ^ 23)| ≤ 2 ^ 50 := by
  rw [mul_neg, abs_neg, abs_of_nonneg (mul_nonneg hJ0 (by norm_num))]
  exact le_trans (mul_le_mul_of_nonneg_right hJm (by norm_num)) (by norm_num)
theorem rp_b2 {J : ℝ} (hJ0 : 0 ≤ J) (hJm : J ≤ 1.5 * 10 ^ 12) : |J * -(1328173 / 2 ^ 45)| ≤ 60000 := by
  rw [mul_neg, abs_neg, abs_of_nonneg (mul_nonneg hJ0 (by norm_num))]
  exact le_trans (mul_le_mul_of_nonneg_right hJm (by norm_num)) (by norm_num)
theorem rp_b3 {J d : ℝ} (hJ0 : 0 ≤ J) (hJm : J ≤ 1.5 * 10 ^ 12) (h0 : 0 ≤ d) (hd : d ≤ 1 / 10 ^ 14 / 2) : |J * -d| ≤ 2 ^ 50 := by
  rw [mul_neg, abs_neg, abs_of_nonneg (mul_nonneg hJ0 h0)]
  exact le_trans (mul_le_mul hJm hd h0 (by norm_num)) (by norm_num)
theorem rp_grow {u τ P z r b : ℝ} (eu : u = 1 / 2 ^ 53) (ht : τ ≤ u / 1000000) (hp : |P| ≤ 2 ^ 42) (hz : |z| ≤ b) (hb : b ≤ 2 ^ 49)
    (h : |r - (P + z)| ≤ u * (1 + u) * |P| + u * |P + z| + 2 * τ) : |r| ≤ |P| + b + 1 := by
  have h2 := abs_add_le P z
  have h3 := abs_le_of_sub h (le_refl |P + z|)
  rw [eu] at *
  norm_num at *; linarith
/-- the reduced argument, `2^29 <= |x| <= 2^40` -/
theorem red_plain (fm : Bool) {y ab : BitVec 64} (hy : isFinite y = true) {J : Nat} (hJ : val y = J * (2 ^ unitExp 64 : Nat)) (hJm : (J : ℝ) ≤ 1.5 * 10 ^ 12)
    (ha : isFinite ab = true) (hA1 : 2 ^ 29 ≤ rv ab) (hA2 : rv ab ≤ 2 ^ 40) {B : ℝ} (hB : |rv ab - J * (Real.pi / 4)| ≤ B) (hB2 : B ≤ 3 / 2) :
    isFinite (redArg fm y ab) = true ∧ |rv (redArg fm y ab) - (rv ab - J * (Real.pi / 4))| ≤ ulpHalf 64 * (1.001 * rv ab) := by
  have h : W 64 := Or.inr rfl
  obtain ⟨f0, f1, f2, r0, r1, r2⟩ := dp_consts h
  obtain ⟨z0, z1, z2⟩ := dp_pi h
  rw [if_pos rfl] at z2
  have hyv := rv_nat hJ
  have hJ0 : (0 : ℝ) ≤ J := Nat.cast_nonneg J
  have hd3 : dp3 64 ≤ 1 / 10 ^ 14 / 2 := by unfold dp3; rw [if_pos rfl]; norm_num
  have eu : ulpHalf 64 = 1 / 2 ^ 53 := rfl
  have ht1 := tiny_ulp h
  have hA0 : |rv ab| ≤ 2 ^ 40 := by rw [abs_of_nonneg (le_trans (by positivity) hA1)]; exact hA2
  have b1 := rp_b1 (A := 0) hJ0 hJm
  have b2 := rp_b2 hJ0 hJm
  have b3 := rp_b3 hJ0 hJm z0.le hd3
  have b1' : |(J : ℝ) * -(6588397 / 2 ^ 23)| ≤ 2 ^ 42 := by
    rw [mul_neg, abs_neg, abs_of_nonneg (mul_nonneg hJ0 (by norm_num))]
    exact le_trans (mul_le_mul_of_nonneg_right hJm (by norm_num)) (by norm_num)
  unfold redArg
  obtain ⟨g1, e1⟩ := rp_step h fm hy f0 ha (by rw [hyv, r0]; exact b1) (le_trans hA0 (by norm_num)) rfl
  rw [hyv, r0] at e1
  have c1 := rp_grow eu ht1 b1' hA0 (by norm_num) e1
  generalize fmaL fm y ((dpSincos 64).getD 0 0) ab = s1 at *
  have c1' : |rv s1| ≤ 2 ^ 43 := le_trans c1 (le_trans (add_le_add_left (add_le_add_left b1' _) _) (by norm_num))
  obtain ⟨g2, e2⟩ := rp_step h fm hy f1 g1 (by rw [hyv, r1]; exact le_trans b2 (by norm_num)) (le_trans c1' (by norm_num)) rfl
  rw [hyv, r1] at e2
  have c2 := rp_grow eu ht1 (le_trans b2 (by norm_num)) c1' (by norm_num) e2
  generalize fmaL fm y ((dpSincos 64).getD 1 0) s1 = s2 at *
  have c2' : |rv s2| ≤ 2 ^ 50 := le_trans c2 (le_trans (add_le_add_left (add_le_add_left b2 _) _) (by norm_num))
  obtain ⟨g3, e3⟩ := rp_step h fm hy f2 g2 (by rw [hyv, r2]; exact b3) c2' rfl
  rw [hyv, r2] at e3
  exact ⟨g3, rp_real eu ht1 hA1 hA2 hJ0 hJm z0.le hd3 hB hB2 z2 e1 e2 e3⟩
/-- one lane, `2^29 <= |x| <= 2^40` -/
theorem lane_plain {T : Ety} (s : ISA) (v : VSz) (fm : Bool) {ab : BitVec 64} (ha : isFinite ab = true) (hs : ab.msb = false) (hA : rv ab ≤ 2 ^ 40) (hA1 : 2 ^ 29 ≤ rv ab)
    (hc : CvtOk s T v) {Z p : ℝ} (hZ : octDist s 64 v * (Real.pi / 4) + 34 / 100000 ≤ Z) (hZ2 : Z ≤ 3 / 2)
    (hp : ∀ z : BitVec 64, isFinite z = true → |rv z| ≤ Z → (isFinite (sinPol fm z) = true ∧ |rv (sinPol fm z) - Real.sin (rv z)| ≤ ulpHalf 64 * p) ∧
      (isFinite (cosPol fm z) = true ∧ |rv (cosPol fm z) - Real.cos (rv z)| ≤ ulpHalf 64 * p))
    (hK : p ≤ 24650) : SincosErr (cvttLaneIF s v) (cvtLaneIF s T v) fm ab (1.002 * rv ab) := by
  have hu := ulp_pos 64
  have eu : ulpHalf 64 = 1 / 2 ^ 53 := rfl
  refine lane_far s v fm ha hs hA hc (B := Z - 14 / 100000) (E := ulpHalf 64 * (1.001 * rv ab)) (Z := Z) (p := ulpHalf 64 * p) (by linarith) ?_ ?_ hp ?_
  · rw [eu]; norm_num at *; linarith
  · exact fun y J fy hy hJ hd => red_plain fm fy hy hJ ha hA1 hA hd (by linarith)
  · rw [← mul_add]; exact mul_le_mul_of_nonneg_left (by norm_num at *; linarith) hu.le
end Dpm.X86
