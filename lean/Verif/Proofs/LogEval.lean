import Verif.Proofs.LogAcc
/-! `eval_log` against the real logarithm. -/
namespace Dpm.X86
open Dpm.Reg Dpm.Fp

theorem msb_of_small {w : Nat} {x : BitVec w} (h : x.toNat < 2 ^ (w - 1)) : x.msb = false := by
  rw [BitVec.msb_eq_decide, decide_eq_false_iff_not]; omega
theorem log_pvN {w n m : Nat} {k : ℤ} (e : (n : ℤ) = m + k * 2 ^ mb w) : Real.log (pvN w n) = k * Real.log 2 + Real.log (pvN w m) := by
  rw [pvN_add e, Real.log_mul (zpow_pos (by norm_num) _).ne' (pvN_pos _ _).ne', Real.log_zpow]
theorem fin_of_lt {w : Nat} (h : W w) {x : BitVec w} (hx : x.toNat < infMag w) : isFinite x = true := by
  have hm : x.msb = false := msb_of_small (by
    refine lt_trans hx ?_
    rcases h with h | h <;> subst h <;> decide)
  rw [finite_iff h, mag_eq_toNat hm]; exact hx

/-- what the reduction delivers to the float kernel -/
theorem redS {x : BitVec 32} (hx : x.toNat < 0x7f800000) : ∃ z : BitVec 32, ∃ k : ℤ, ∃ i : Nat, i < 16 ∧ redZ x = z ∧ redK x = k ∧ redIdx logtabBitsS x = i ∧ k.natAbs ≤ 1024 ∧
    isFinite z = true ∧ 0 < rv z ∧ Real.log (pvN 32 x.toNat) = k * Real.log 2 + Real.log (rv z) ∧
    (logOff 32).toNat + i * 2 ^ (mb 32 - 4) ≤ z.toNat ∧ z.toNat < (logOff 32).toNat + i * 2 ^ (mb 32 - 4) + 2 ^ (mb 32 - 4) ∧ z.msb = false ∧ (x.toNat : ℤ) = z.toNat + k * 2 ^ 23 := by
  obtain ⟨q, q1, q2, q3, q4, q5⟩ := red32 (bits := 4) (le_refl _) hx
  have hz1 : (redZ x).toNat < 0x7f800000 := by omega
  have hm : (redZ x).msb = false := msb_of_small (by change _ < 2 ^ 31; omega)
  have hp : rv (redZ x) = pvN 32 (redZ x).toNat := rv_pvN W_32 hm (by change 2 ^ 23 ≤ _; omega)
  have e : (x.toNat : ℤ) = (redZ x).toNat + redK x * 2 ^ 23 := by rw [q2]; exact q4
  refine ⟨_, _, _, ?_, rfl, rfl, rfl, by omega, fin_of_lt W_32 (by exact hz1), ?_, ?_, ?_, ?_, hm, e⟩
  · change redIdx 4 x < 16; rw [q3]; omega
  · rw [hp]; exact pvN_pos _ _
  · rw [hp]; exact log_pvN (w := 32) e
  · change 0x3f330000 + redIdx 4 x * 2 ^ 19 ≤ _; rw [q2, q3]; change 0x3f330000 + q / 2 ^ 19 * 2 ^ 19 ≤ _; omega
  · change _ < 0x3f330000 + redIdx 4 x * 2 ^ 19 + 2 ^ 19; rw [q2, q3]; change _ < 0x3f330000 + q / 2 ^ 19 * 2 ^ 19 + 2 ^ 19; omega
theorem redD {x : BitVec 64} (hx : x.toNat < 0x7ff0000000000000) : ∃ z : BitVec 64, ∃ k : ℤ, ∃ i : Nat, i < 128 ∧ redZ x = z ∧ redK x = k ∧ redIdx logtabBitsD x = i ∧ k.natAbs ≤ 1024 ∧
    isFinite z = true ∧ 0 < rv z ∧ Real.log (pvN 64 x.toNat) = k * Real.log 2 + Real.log (rv z) ∧
    (logOff 64).toNat + i * 2 ^ (mb 64 - 7) ≤ z.toNat ∧ z.toNat < (logOff 64).toNat + i * 2 ^ (mb 64 - 7) + 2 ^ (mb 64 - 7) ∧ z.msb = false ∧ (x.toNat : ℤ) = z.toNat + k * 2 ^ 52 := by
  obtain ⟨q, q1, q2, q3, q4, q5⟩ := red64 (bits := 7) (le_refl _) hx
  have hz1 : (redZ x).toNat < 0x7ff0000000000000 := by omega
  have hm : (redZ x).msb = false := msb_of_small (by change _ < 2 ^ 63; omega)
  have hp : rv (redZ x) = pvN 64 (redZ x).toNat := rv_pvN W_64 hm (by change 2 ^ 52 ≤ _; omega)
  have e : (x.toNat : ℤ) = (redZ x).toNat + redK x * 2 ^ 52 := by rw [q2]; exact q4
  refine ⟨_, _, _, ?_, rfl, rfl, rfl, by omega, fin_of_lt W_64 (by exact hz1), ?_, ?_, ?_, ?_, hm, e⟩
  · change redIdx 7 x < 128; rw [q3]; omega
  · rw [hp]; exact pvN_pos _ _
  · rw [hp]; exact log_pvN (w := 64) e
  · change 0x3fe6900900000000 + redIdx 7 x * 2 ^ 45 ≤ _; rw [q2, q3]; change 0x3fe6900900000000 + q / 2 ^ 45 * 2 ^ 45 ≤ _; omega
  · change _ < 0x3fe6900900000000 + redIdx 7 x * 2 ^ 45 + 2 ^ 45; rw [q2, q3]; change _ < 0x3fe6900900000000 + q / 2 ^ 45 * 2 ^ 45 + 2 ^ 45; omega
/-- `eval_log<float>` on every non-negative finite pattern -/
theorem evLogS_acc (fm : Bool) {x : BitVec 32} (hx : x.toNat < 0x7f800000) :
    isFinite (evLogS fm x) = true ∧ |rv (evLogS fm x) - Real.log (pvN 32 x.toNat)| ≤ 5 * ulpHalf 32 * (1 + |Real.log (pvN 32 x.toNat)|) := by
  obtain ⟨z, k, i, hi, ez, ek, ei, hk, hzf, hz0, hlog, h1, h2, hm, _⟩ := redS hx
  obtain ⟨f1, f2, hr⟩ := rngOk_row logtabS_rng (by norm_num) (i := i) (by exact hi) hm h1 h2.le
  obtain ⟨p1, p2⟩ := tabOk_row logtabS_ok (by decide) (i := i) (by exact hi)
  have p3 := logcSmall_row logtabS_small (i := i) (by exact hi)
  rw [hlog]
  unfold evLogS
  simp only [ez, ek, ei]
  exact kernS hk hzf hz0 f1 p1 (by exact_mod_cast hr) f2 p3 (le_trans p2 (by rw [ulp32]; norm_num)) rfl
theorem evLogD_acc (fm : Bool) {x : BitVec 64} (hx : x.toNat < 0x7ff0000000000000) :
    isFinite (evLogD fm x) = true ∧ |rv (evLogD fm x) - Real.log (pvN 64 x.toNat)| ≤ 5 * ulpHalf 64 * (1 + |Real.log (pvN 64 x.toNat)|) := by
  obtain ⟨z, k, i, hi, ez, ek, ei, hk, hzf, hz0, hlog, h1, h2, hm, _⟩ := redD hx
  obtain ⟨f1, f2, hr⟩ := rngOk_row logtabD_rng (by norm_num) (i := i) (by exact hi) hm h1 h2.le
  obtain ⟨p1, p2⟩ := tabOk_row logtabD_ok (by decide) (i := i) (by exact hi)
  have p3 := logcSmall_row logtabD_small (i := i) (by exact hi)
  rw [hlog]
  unfold evLogD
  simp only [ez, ek, ei]
  exact kernD hk hzf hz0 f1 p1 (by exact_mod_cast hr) f2 p3 (le_trans p2 (by rw [ulp64]; norm_num)) rfl
/-! ### relative error next to 1 -/
theorem near_assemble {u t d R s q P res : ℝ} (hu : 0 < u) (hu1 : u ≤ 1 / 2 ^ 24) (ht0 : 0 ≤ t) (ht : t ≤ u * |d| / 2 ^ 20) (hd : |d| ≤ 1 / 1024)
    (hR : |R - d| ≤ u * |d| + t) (hs : |s - R| ≤ u * |R|) (hq : |q - P| ≤ u / 16 * |d|) (hq1 : |q| ≤ |d| / 1000)
    (hP : |R + P - Real.log (1 + R)| ≤ u / 2 * |d|) (hres : |res - (q + s)| ≤ u * (1 + u) * |q| + u * |q + s| + 2 * t) :
    |res - Real.log (1 + d)| ≤ 4 * u * |Real.log (1 + d)| := by
  have hu2 : u ≤ 1 / 1000000 := le_trans hu1 (by norm_num)
  set a := |d| with ha
  have ha0 : 0 ≤ a := abs_nonneg _
  have hua : u * a ≤ a / 1000000 := by have := mul_le_mul_of_nonneg_right hu2 ha0; linarith
  have hua0 : 0 ≤ u * a := by positivity
  have hRb : |R| ≤ 1.0001 * a := by have := abs_le_of_sub hR (le_refl |d|); linarith
  have hsR : |s - R| ≤ u * a * 1.0001 := by
    refine le_trans hs ?_
    have := mul_le_mul_of_nonneg_left hRb hu.le; linarith
  have hqs : |q + s| ≤ 1.0012 * a := by
    have h1 := abs_le_of_sub hsR hRb
    have h2 := abs_add_le q s
    linarith
  have hres' : |res - (q + s)| ≤ u * a * 1.003 := by
    refine le_trans hres ?_
    have h1 : u * (1 + u) * |q| ≤ u * (1.0001 * (a / 1000)) := by
      rw [mul_assoc]
      exact mul_le_mul_of_nonneg_left (mul_le_mul (by linarith) hq1 (abs_nonneg _) (by norm_num)) hu.le
    have h2 := mul_le_mul_of_nonneg_left hqs hu.le
    linarith
  have hd1 := abs_le.1 hd
  have hR1 := abs_le.1 hRb
  have hlip : |Real.log (1 + R) - Real.log (1 + d)| ≤ u * a * 1.002 := by
    have := log_lip (a := 1 + R) (b := 1 + d) (m := 0.9985) (by norm_num) (by linarith [hR1.1]) (by linarith [hd1.1])
    rw [add_sub_add_left_eq_sub] at this
    refine le_trans this ?_
    rw [div_le_iff₀ (by norm_num)]
    linarith
  have hlow : a * 0.998 ≤ |Real.log (1 + d)| := by
    have := log1p_taylor (r := d) (by linarith) 1
    simp only [Finset.range_one, Finset.sum_singleton] at this
    norm_num at this
    have h5 : |d| ^ 2 / (1 - |d|) ≤ a * 0.002 := by
      rw [div_le_iff₀ (by linarith)]
      rw [← ha]; nlinarith
    have e : d = Real.log (1 + d) - (Real.log (1 + d) + -d) := by ring
    have h6 : |d| ≤ |Real.log (1 + d)| + |Real.log (1 + d) + -d| := by
      conv_lhs => rw [e]
      exact abs_sub _ _
    rw [sq_abs] at h5
    rw [← ha] at h6; linarith
  have h1 := abs_le.1 hres'; have h2 := abs_le.1 hsR; have h4 := abs_le.1 hq; have h5 := abs_le.1 hP; have h6 := abs_le.1 hlip
  have h7 := mul_le_mul_of_nonneg_left hlow hu.le
  rw [show res - Real.log (1 + d) = (res - (q + s)) + (s - R) + (q - P) + (R + P - Real.log (1 + R)) + (Real.log (1 + R) - Real.log (1 + d)) by ring]
  rw [abs_le]
  constructor <;> linarith [h1.1, h1.2, h2.1, h2.2, h4.1, h4.2, h5.1, h5.2, h6.1, h6.2]
theorem fmul_one_exact {w : Nat} (h : W w) {z o : BitVec w} (hz : isFinite z = true) (hzb : |rv z| ≤ 2) (ho : isFinite o = true) (hv : val o = (2 ^ unitExp w : Nat)) :
    isFinite (fmul z o) = true ∧ rv (fmul z o) = rv z := by
  have o1 : rv o = 1 := by unfold rv; rw [hv]; push_cast; field_simp
  have hb : (2 : ℝ) ≤ 2 ^ bias w := le_trans (by norm_num : (2:ℝ) ≤ 2 ^ 1) (pow_le_pow_right₀ (by norm_num) (by rcases h with h | h <;> subst h <;> decide))
  have f := fmul_finite h hz ho (by rw [o1, mul_one]; linarith)
  refine ⟨f, ?_⟩
  have := fmul_pow2_exact h (x := z) (y := o) (j := unitExp w) hz ho (by rw [hv, Int.natAbs_natCast]) f (Nat.dvd_mul_left _ _)
  rw [this, o1, mul_one]
theorem near_r {w : Nat} (h : W w) (fm : Bool) {z o m : BitVec w} (hz : isFinite z = true) (hzb : |rv z| ≤ 2) (ho : isFinite o = true) (hv : val o = (2 ^ unitExp w : Nat))
    (hm : isFinite m = true) (hmv : rv m = -1) : isFinite (fmaL fm z o m) = true ∧ |rv (fmaL fm z o m) - (rv z - 1)| ≤ ulpHalf w * |rv z - 1| + tiny w := by
  have o1 : rv o = 1 := by unfold rv; rw [hv]; push_cast; field_simp
  have hb : (4:ℝ) * 2 ≤ 2 ^ bias w := le_trans (by norm_num : (4:ℝ) * 2 ≤ 2 ^ 3) (pow_le_pow_right₀ (by norm_num) (by rcases h with h | h <;> subst h <;> decide))
  have hf := (fmaL_e h fm hz ho hm hb (by norm_num) (by rw [o1, mul_one]; exact hzb) (by rw [hmv]; norm_num)).1
  refine ⟨hf, ?_⟩
  cases fm
  · obtain ⟨a, b⟩ := fmul_one_exact h hz hzb ho hv
    have := fadd_rv h a hm (by simpa [fmaL] using hf)
    rw [b, hmv, ← sub_eq_add_neg] at this
    have ht := tiny_pos w
    simp only [fmaL, Bool.false_eq_true, if_false]; linarith
  · have := ffmaG_rv h false false hz ho hm (by simpa [fmaL] using hf)
    simp only [sg, Bool.false_eq_true, if_false, one_mul, o1, mul_one, hmv, ← sub_eq_add_neg] at this
    exact or_add (ulp_pos w).le (tiny_pos w).le (by simpa [fmaL] using this)
theorem near_rs {w : Nat} (h : W w) (fm : Bool) {z o m : BitVec w} (hz : isFinite z = true) (hzb : |rv z| ≤ 2) (ho : isFinite o = true) (hv : val o = (2 ^ unitExp w : Nat))
    (hm : isFinite m = true) (hmv : rv m = 1) : isFinite (fmsL fm z o m) = true ∧ |rv (fmsL fm z o m) - (rv z - 1)| ≤ ulpHalf w * |rv z - 1| + tiny w := by
  have o1 : rv o = 1 := by unfold rv; rw [hv]; push_cast; field_simp
  have hb : (4:ℝ) * 2 ≤ 2 ^ bias w := le_trans (by norm_num : (4:ℝ) * 2 ≤ 2 ^ 3) (pow_le_pow_right₀ (by norm_num) (by rcases h with h | h <;> subst h <;> decide))
  have hf := (fmsL_e h fm hz ho hm hb (by norm_num) (by rw [o1, mul_one]; exact hzb) (by rw [hmv]; norm_num)).1
  refine ⟨hf, ?_⟩
  cases fm
  · obtain ⟨a, b⟩ := fmul_one_exact h hz hzb ho hv
    have := fsub_rv h a hm (by simpa [fmsL] using hf)
    rw [b, hmv] at this
    have ht := tiny_pos w
    simp only [fmsL, Bool.false_eq_true, if_false]; linarith
  · have := ffmaG_rv h false true hz ho hm (by simpa [fmsL] using hf)
    simp only [sg, Bool.false_eq_true, if_false, if_true, one_mul, o1, mul_one, hmv, ← sub_eq_add_neg] at this
    exact or_add (ulp_pos w).le (tiny_pos w).le (by simpa [fmsL] using this)
/-- the last steps next to 1 -/
theorem near_core {w : Nat} (h : W w) (fm : Bool) {r y r2 y0 : BitVec w} {d P : ℝ} (hd : |d| ≤ 1 / 1024) (hd1 : ulpHalf w ≤ |d|)
    (hrf : isFinite r = true) (hr : |rv r - d| ≤ ulpHalf w * |d| + tiny w) (hyf : isFinite y = true) (hr2f : isFinite r2 = true)
    (h0f : isFinite y0 = true) (h0 : rv y0 = 0)
    (hq : |rv y * rv r2 - P| ≤ ulpHalf w / 16 * |d|) (hq1 : |rv y * rv r2| ≤ |d| / 1000) (hP : |rv r + P - Real.log (1 + rv r)| ≤ ulpHalf w / 2 * |d|) :
    |rv (fmaL fm y r2 (fadd y0 r)) - Real.log (1 + d)| ≤ 4 * ulpHalf w * |Real.log (1 + d)| := by
  have hu := ulp_pos w
  have hu1 := ulp_le h
  have hu2 : ulpHalf w ≤ 1 / 1000000 := le_trans hu1 (by norm_num)
  have ht := tiny_pos w
  have ht2 : tiny w ≤ ulpHalf w * |d| / 2 ^ 20 := by
    have h1 : tiny w ≤ ulpHalf w * ulpHalf w / 2 ^ 20 := by
      unfold tiny ulpHalf
      rw [one_div_mul_one_div, div_div, ← pow_add, ← pow_add]
      apply one_div_le_one_div_of_le (by positivity)
      exact pow_le_pow_right₀ (by norm_num) (by rcases h with h | h <;> subst h <;> decide)
    have h2 : ulpHalf w * ulpHalf w / 2 ^ 20 ≤ ulpHalf w * |d| / 2 ^ 20 := by gcongr
    linarith
  have hb : (4:ℝ) * 2 ≤ 2 ^ bias w := le_trans (by norm_num : (4:ℝ) * 2 ≤ 2 ^ 3) (pow_le_pow_right₀ (by norm_num) (by rcases h with h | h <;> subst h <;> decide))
  have htl : tiny w ≤ 0.1 := le_trans (tiny_le h) (by norm_num)
  have hrb : |rv r| ≤ 1 / 2 := by
    have := abs_le_of_sub hr hd
    have h3 : ulpHalf w * |d| ≤ 1 / 1000000 * (1 / 1024) := by gcongr
    norm_num at h3; linarith
  have e : rv y0 + rv r = rv r := by rw [h0, zero_add]
  obtain ⟨f1, e1⟩ := fadd_e h h0f hrf (by rw [e]; linarith)
  rw [e] at e1
  have hs : |rv (fadd y0 r)| ≤ 1 := by
    have := abs_le_of_sub (e := 1 / 4) (le_trans e1 (by
      have : ulpHalf w * |rv r| ≤ 1 / 1000000 * (1 / 2) := by gcongr
      linarith)) hrb
    linarith
  obtain ⟨f2, e2⟩ := fmaL_e h fm hyf hr2f f1 hb (by norm_num) (by linarith) (by linarith)
  exact near_assemble hu hu1 ht.le ht2 hd hr e1 hq hq1 hP e2
theorem u_le_d {w : Nat} (h : W w) {z : BitVec w} (hs : z.msb = false) (hne : z ≠ oneBits w) : ulpHalf w ≤ |rv z - 1| := by
  have hU : (0:ℝ) < 2 ^ unitExp w := by positivity
  have hne' : z.toNat ≠ (oneBits w).toNat := fun e => hne (BitVec.eq_of_toNat_eq e)
  have c1 : val (oneBits w - 1#w) * (2 ^ (mb w + 1) : Nat) = ((2 ^ (mb w + 1) - 1 : Nat) : Int) * (2 ^ unitExp w : Nat) ∧ (oneBits w - 1#w).msb = false ∧ (oneBits w - 1#w).toNat = (oneBits w).toNat - 1 := by
    rcases h with h | h <;> subst h <;> decide +kernel
  have c2 : val (oneBits w + 1#w) * (2 ^ (mb w + 1) : Nat) = ((2 ^ (mb w + 1) + 2 : Nat) : Int) * (2 ^ unitExp w : Nat) ∧ (oneBits w + 1#w).msb = false ∧ (oneBits w + 1#w).toNat = (oneBits w).toNat + 1 := by
    rcases h with h | h <;> subst h <;> decide +kernel
  have hu : ulpHalf w = 1 / 2 ^ (mb w + 1) := rfl
  have hM : (0:ℝ) < 2 ^ (mb w + 1) := by positivity
  rcases Nat.lt_or_gt_of_ne hne' with hl | hl
  · have h1 := rv_mono hs c1.2.1 (by omega)
    have h2 : rv (oneBits w - 1#w) = 1 - ulpHalf w := by
      have e : (val (oneBits w - 1#w) : ℝ) * 2 ^ (mb w + 1) = (2 ^ (mb w + 1) - 1) * 2 ^ unitExp w := by
        have := congrArg (fun z : Int => (z : ℝ)) c1.1
        rw [Int.cast_mul, Int.cast_mul, Int.cast_natCast, Int.cast_natCast, Int.cast_natCast, Nat.cast_sub Nat.one_le_two_pow] at this
        push_cast at this; exact this
      unfold rv; rw [hu, div_eq_iff hU.ne', ← mul_right_inj' hM.ne', mul_comm (2 ^ (mb w + 1) : ℝ), e]
      field_simp
    rw [abs_sub_comm]
    refine le_trans ?_ (le_abs_self _); linarith
  · have h1 := rv_mono c2.2.1 hs (by omega)
    have h2 : rv (oneBits w + 1#w) = 1 + 2 * ulpHalf w := by
      have e : (val (oneBits w + 1#w) : ℝ) * 2 ^ (mb w + 1) = (2 ^ (mb w + 1) + 2) * 2 ^ unitExp w := by
        have := congrArg (fun z : Int => (z : ℝ)) c2.1
        push_cast at this; exact this
      unfold rv; rw [hu, div_eq_iff hU.ne', ← mul_right_inj' hM.ne', mul_comm (2 ^ (mb w + 1) : ℝ), e]
      field_simp
    have := ulp_pos w
    refine le_trans ?_ (le_abs_self _); linarith
theorem near_kern {w : Nat} (h : W w) (fm : Bool) {r y y0 : BitVec w} {d Pc : ℝ} (hd : |d| ≤ 1 / 1024) (hd1 : ulpHalf w ≤ |d|)
    (hrf : isFinite r = true) (hr : |rv r - d| ≤ ulpHalf w * |d| + tiny w) (hyf : isFinite y = true) (hye : |rv y - Pc| ≤ ulpHalf w * 2) (hyb : |rv y| ≤ 0.53) (hPc : |Pc| ≤ 0.52)
    (h0f : isFinite y0 = true) (h0 : rv y0 = 0) (hP : |rv r| ≤ 1.001 * |d| → |rv r + Pc * rv r ^ 2 - Real.log (1 + rv r)| ≤ ulpHalf w / 2 * |d|) :
    |rv (fmaL fm y (fmul r r) (fadd y0 r)) - Real.log (1 + d)| ≤ 4 * ulpHalf w * |Real.log (1 + d)| := by
  have hu := ulp_pos w
  have hu1 := ulp_le h
  have hu2 : ulpHalf w ≤ 1 / 1000000 := le_trans hu1 (by norm_num)
  have ht := tiny_pos w
  have ht2 : tiny w ≤ ulpHalf w * |d| / 2 ^ 20 := by
    have h1 : tiny w ≤ ulpHalf w * ulpHalf w / 2 ^ 20 := by
      unfold tiny ulpHalf
      rw [one_div_mul_one_div, div_div, ← pow_add, ← pow_add]
      apply one_div_le_one_div_of_le (by positivity)
      exact pow_le_pow_right₀ (by norm_num) (by rcases h with h | h <;> subst h <;> decide)
    have h2 : ulpHalf w * ulpHalf w / 2 ^ 20 ≤ ulpHalf w * |d| / 2 ^ 20 := by gcongr
    linarith
  set a := |d| with ha
  have ha0 : 0 ≤ a := abs_nonneg _
  have hua : ulpHalf w * a ≤ a / 1000000 := by have := mul_le_mul_of_nonneg_right hu2 ha0; linarith
  have hua0 : 0 ≤ ulpHalf w * a := by positivity
  have hRb : |rv r| ≤ 1.001 * a := by have := abs_le_of_sub hr (le_refl |d|); linarith
  have hb : (1:ℝ) ≤ 2 ^ bias w := one_le_pow₀ (by norm_num)
  have hsq : |rv r * rv r| ≤ a / 1000 := by
    refine le_trans (mul_bd hRb hRb) ?_
    nlinarith
  obtain ⟨f2, e2⟩ := fmul_e h hrf hrf (le_trans hsq (by linarith))
  have e2' : |rv (fmul r r) - rv r ^ 2| ≤ ulpHalf w * a * 0.0011 := by
    rw [pow_two]
    have := mul_le_mul_of_nonneg_left hsq hu.le
    linarith
  have r2b : |rv (fmul r r)| ≤ a * 0.0011 := by
    rw [pow_two] at e2'
    have := abs_le_of_sub e2' hsq; linarith
  have hq := prod_err hye e2' hPc r2b
  refine near_core h fm hd hd1 hrf hr hyf f2 h0f h0 (le_trans hq ?_) (le_trans (mul_bd hyb r2b) ?_) (hP hRb)
  · linarith
  · linarith
theorem zero_y0S (fm : Bool) : isFinite (fmaL fm (ofInt 32 0) (ln2Bits 32) 0#32) = true ∧ val (fmaL fm (ofInt 32 0) (ln2Bits 32) 0#32) = 0 := by cases fm <;> decide +kernel
theorem zero_y0D (fm : Bool) : isFinite (fmaL fm (ofInt 64 0) (ln2Bits 64) 0#64) = true ∧ val (fmaL fm (ofInt 64 0) (ln2Bits 64) 0#64) = 0 := by cases fm <;> decide +kernel
theorem rv_zero_of {w : Nat} {x : BitVec w} (h : val x = 0) : rv x = 0 := by unfold rv; rw [h]; simp
theorem near_small {a : ℝ} (h0 : 0 ≤ a) (h : a ≤ 1.001 / 1024) : 0.0000000003 + a ^ 4 * 1.04 + a ^ 3 * 0.0009 + a ^ 2 * 0.00013 + a * 0.0000003 ≤ 0.0000000010 := by
  have p2 : a ^ 2 ≤ (1.001 / 1024) ^ 2 := pow_le_pow_left₀ h0 h 2
  have p3 : a ^ 3 ≤ (1.001 / 1024) ^ 3 := pow_le_pow_left₀ h0 h 3
  have p4 : a ^ 4 ≤ (1.001 / 1024) ^ 4 := pow_le_pow_left₀ h0 h 4
  norm_num at p2 p3 p4 h ⊢
  linarith
theorem near_smallD {a : ℝ} (h0 : 0 ≤ a) (h : a ≤ 1.001 / 1024) :
    1.02 * a ^ 7 + 0.00002 * a ^ 6 + 0.000004 * a ^ 5 + 0.0000000003 * a ^ 4 + 0.00000000003 * a ^ 3 + 0.000000000000001 * a ^ 2 ≤ 1 / 2 ^ 53 * 0.4 * a := by
  have p1 : a ^ 1 ≤ (1.001 / 1024) ^ 1 := pow_le_pow_left₀ h0 h 1
  have p2 : a ^ 2 ≤ (1.001 / 1024) ^ 2 := pow_le_pow_left₀ h0 h 2
  have p3 : a ^ 3 ≤ (1.001 / 1024) ^ 3 := pow_le_pow_left₀ h0 h 3
  have p4 : a ^ 4 ≤ (1.001 / 1024) ^ 4 := pow_le_pow_left₀ h0 h 4
  have p5 : a ^ 5 ≤ (1.001 / 1024) ^ 5 := pow_le_pow_left₀ h0 h 5
  have p6 : a ^ 6 ≤ (1.001 / 1024) ^ 6 := pow_le_pow_left₀ h0 h 6
  have key : 1.02 * a ^ 6 + 0.00002 * a ^ 5 + 0.000004 * a ^ 4 + 0.0000000003 * a ^ 3 + 0.00000000003 * a ^ 2 + 0.000000000000001 * a ^ 1 ≤ 1 / 2 ^ 53 * 0.4 := by
    norm_num at p1 p2 p3 p4 p5 p6 ⊢
    linarith
  have := mul_le_mul_of_nonneg_right key h0
  nlinarith
theorem near_kernS {fm : Bool} {z o r : BitVec 32} (hzf : isFinite z = true) (hs : z.msb = false) (hne : z ≠ oneBits 32) (hd : |rv z - 1| ≤ 1 / 1024)
    (ho : isFinite o = true) (hv : val o = (2 ^ unitExp 32 : Nat)) (hr : r = fmsL fm z o (oneBits 32)) :
    |rv (fmaL fm (fmaL fm (logcoffS.getD 0 0) (fmul r r) (fmaL fm (logcoffS.getD 1 0) r (logcoffS.getD 2 0))) (fmul r r) (fadd (fmaL fm (ofInt 32 0) (ln2Bits 32) 0#32) r)) - Real.log (rv z)| ≤
      4 * ulpHalf 32 * |Real.log (rv z)| := by
  have hd1 := u_le_d W_32 hs hne
  have hzb : |rv z| ≤ 2 := by obtain ⟨a, b⟩ := abs_le.1 hd; rw [abs_le]; constructor <;> linarith
  obtain ⟨rf, re⟩ := near_rs W_32 fm hzf hzb ho hv (by decide +kernel) one32
  rw [← hr] at rf re
  have rb0 : |rv r| ≤ 1.0001 / 1024 := by
    have h1 := abs_le_of_sub re hd
    have h2 := tiny_le W_32
    have h3 : ulpHalf 32 * |rv z - 1| ≤ 1 / 2 ^ 24 * (1 / 1024) := by rw [ulp32]; gcongr
    norm_num at h1 h2 h3 ⊢; linarith
  have rb : |rv r| ≤ 313 / 10000 := le_trans rb0 (by norm_num)
  obtain ⟨_, _, _, yf, hy, yb, pb⟩ := yS fm rf rb
  rw [← ulp32] at hy
  obtain ⟨y1, y2⟩ := zero_y0S fm
  have := near_kern W_32 fm (d := rv z - 1) hd hd1 rf re yf hy yb pb y1 (rv_zero_of y2) (by
    intro hR
    refine le_trans (polyS rb coffS.1 coffS.2.1 coffS.2.2).1 ?_
    have h1 := near_small (abs_nonneg (rv r)) (le_trans rb0 (by norm_num))
    have h2 := mul_le_mul_of_nonneg_left h1 (abs_nonneg (rv r))
    rw [ulp32]
    have := abs_nonneg (rv z - 1)
    norm_num at h2 hR ⊢; linarith)
  rwa [add_sub_cancel] at this
theorem near_kernD {fm : Bool} {z o r : BitVec 64} (hzf : isFinite z = true) (hs : z.msb = false) (hne : z ≠ oneBits 64) (hd : |rv z - 1| ≤ 1 / 1024)
    (ho : isFinite o = true) (hv : val o = (2 ^ unitExp 64 : Nat)) (hr : r = fmaL fm z o (0xbff0000000000000#64)) :
    |rv (fmaL fm (fmaL fm (fmaL fm (logcoffD.getD 4 0) (fmul r r) (fmaL fm (logcoffD.getD 3 0) r (logcoffD.getD 2 0))) (fmul r r) (fmaL fm (logcoffD.getD 1 0) r (logcoffD.getD 0 0))) (fmul r r) (fadd (fmaL fm (ofInt 64 0) (ln2Bits 64) 0#64) r)) - Real.log (rv z)| ≤
      4 * ulpHalf 64 * |Real.log (rv z)| := by
  have hd1 := u_le_d W_64 hs hne
  have hzb : |rv z| ≤ 2 := by obtain ⟨a, b⟩ := abs_le.1 hd; rw [abs_le]; constructor <;> linarith
  obtain ⟨rf, re⟩ := near_r W_64 fm hzf hzb ho hv (by decide +kernel) mone64
  rw [← hr] at rf re
  have rb0 : |rv r| ≤ 1.0001 / 1024 := by
    have h1 := abs_le_of_sub re hd
    have h2 := tiny_le W_64
    have h3 : ulpHalf 64 * |rv z - 1| ≤ 1 / 2 ^ 24 * (1 / 1024) := by gcongr; exact ulp_le W_64
    norm_num at h1 h2 h3 ⊢; linarith
  have rb : |rv r| ≤ 1 / 254.9 := le_trans rb0 (by norm_num)
  obtain ⟨_, _, _, yf, hy, yb, pb⟩ := yD fm rf rb
  rw [← ulp64] at hy
  obtain ⟨y1, y2⟩ := zero_y0D fm
  obtain ⟨c0, c1, c2, c3, c4⟩ := coffD
  have := near_kern W_64 fm (d := rv z - 1) hd hd1 rf re yf hy yb pb y1 (rv_zero_of y2) (by
    intro hR
    refine le_trans (polyD rb c0 c1 c2 c3 c4) ?_
    have h1 := near_smallD (abs_nonneg (rv r)) (le_trans rb0 (by norm_num))
    rw [ulp64]
    have := abs_nonneg (rv z - 1)
    norm_num at h1 hR ⊢; linarith)
  rwa [add_sub_cancel] at this
theorem evLogS_near (fm : Bool) {x : BitVec 32} (hs : x.msb = false) (hx : x.toNat < 0x7f800000) (hn : 0x800000 ≤ x.toNat) (hne : x ≠ oneBits 32) (hd : |rv x - 1| ≤ 1 / 1024) :
    |rv (evLogS fm x) - Real.log (rv x)| ≤ 4 * ulpHalf 32 * |Real.log (rv x)| := by
  obtain ⟨z, k, i, hi, ez, ek, ei, hk, hzf, hz0, hlog, h1, h2, hm, hxz⟩ := redS hx
  have b1 := rv_bound (0x3f7c0000#32) 0 1008 1024 (by norm_num) (by decide +kernel)
  have b2 := rv_bound (0x3f820000#32) 1040 1050 1024 (by norm_num) (by decide +kernel)
  obtain ⟨d1, d2⟩ := abs_le.1 hd
  have l1 : 0x3f7c0000 ≤ x.toNat := by
    by_contra hh
    have := rv_mono (x := x) (y := 0x3f7c0000#32) hs (by decide) (by change x.toNat ≤ 0x3f7c0000; omega)
    norm_num at b1; linarith [b1.2]
  have l2 : x.toNat ≤ 0x3f820000 := by
    by_contra hh
    have := rv_mono (y := x) (x := 0x3f820000#32) (by decide) hs (by change 0x3f820000 ≤ x.toNat; omega)
    norm_num at b2; linarith [b2.1]
  have ho : (logOff 32).toNat = 0x3f330000 := rfl
  have hmb : (2:Nat) ^ (mb 32 - 4) = 2 ^ 19 := rfl
  rw [ho, hmb] at h1 h2
  have k0 : k = 0 := by omega
  subst k0
  have i9 : i = 9 := by omega
  subst i9
  have zx : z = x := BitVec.eq_of_toNat_eq (by omega)
  subst zx
  unfold evLogS
  simp only [ez, ek, ei]
  have t1 : logtabS.getD (2 * 9 + 1) 0 = 0#32 := by decide
  rw [t1]
  exact near_kernS hzf hs hne hd (by decide +kernel) (by decide +kernel) rfl
theorem evLogD_near (fm : Bool) {x : BitVec 64} (hs : x.msb = false) (hx : x.toNat < 0x7ff0000000000000) (hne : x ≠ oneBits 64) (hd : |rv x - 1| ≤ 1 / 1024) :
    |rv (evLogD fm x) - Real.log (rv x)| ≤ 4 * ulpHalf 64 * |Real.log (rv x)| := by
  obtain ⟨z, k, i, hi, ez, ek, ei, hk, hzf, hz0, hlog, h1, h2, hm, hxz⟩ := redD hx
  have b1 := rv_bound (0x3feff00900000000#64) 0 10229 10240 (by norm_num) (by decide +kernel)
  have b2 := rv_bound (0x3ff0080000000000#64) 1026 1050 1024 (by norm_num) (by decide +kernel)
  obtain ⟨d1, d2⟩ := abs_le.1 hd
  have l1 : 0x3feff00900000000 ≤ x.toNat := by
    by_contra hh
    have := rv_mono (x := x) (y := 0x3feff00900000000#64) hs (by decide) (by change x.toNat ≤ 0x3feff00900000000; omega)
    norm_num at b1; linarith [b1.2]
  have l2 : x.toNat ≤ 0x3ff0080000000000 := by
    by_contra hh
    have := rv_mono (y := x) (x := 0x3ff0080000000000#64) (by decide) hs (by change 0x3ff0080000000000 ≤ x.toNat; omega)
    norm_num at b2; linarith [b2.1]
  have ho : (logOff 64).toNat = 0x3fe6900900000000 := rfl
  have hmb : (2:Nat) ^ (mb 64 - 7) = 2 ^ 45 := rfl
  rw [ho, hmb] at h1 h2
  have k0 : k = 0 := by omega
  subst k0
  have i9 : i = 75 := by omega
  subst i9
  have zx : z = x := BitVec.eq_of_toNat_eq (by omega)
  subst zx
  unfold evLogD
  simp only [ez, ek, ei]
  have t1 : logtabD.getD (2 * 75 + 1) 0 = 0#64 := by decide
  rw [t1]
  exact near_kernD hzf hs hne hd (by decide +kernel) (by decide +kernel) rfl
end Dpm.X86
