import Verif.Proofs.InvBig
/-! Accuracy of `asin`, `acos` and `atan` on one lane. -/
namespace Dpm.X86
open Dpm.Reg Dpm.Fp Dpm.Poly

/-! ### Constants -/
theorem inv_consts {w : Nat} (h : W w) : (isFinite (halfBits w) = true ∧ rv (halfBits w) = 1 / 2) ∧ (isFinite (mhalfBits w) = true ∧ rv (mhalfBits w) = -(1 / 2) ∧ ∃ j, (val (mhalfBits w)).natAbs = 2 ^ j ∧ unitExp w = j + 1) ∧
    (isFinite (twoBits w) = true ∧ rv (twoBits w) = 2) ∧ (isFinite (moneBits w) = true ∧ rv (moneBits w) = -1) ∧ (isFinite (0#w) = true ∧ rv (0#w) = 0) := by
  rcases h with h | h <;> subst h
  · have e : (isFinite (halfBits 32) = true ∧ val (halfBits 32) = 1 * 2 ^ 148) ∧ (isFinite (mhalfBits 32) = true ∧ val (mhalfBits 32) = -1 * 2 ^ 148) ∧
      (isFinite (twoBits 32) = true ∧ val (twoBits 32) = 2 * 2 ^ 149) ∧ (isFinite (moneBits 32) = true ∧ val (moneBits 32) = -1 * 2 ^ 149) ∧ (isFinite (0#32) = true ∧ val (0#32) = 0 * 2 ^ 149) := by decide +kernel
    obtain ⟨⟨a1, b1⟩, ⟨a2, b2⟩, ⟨a3, b3⟩, ⟨a4, b4⟩, a5, b5⟩ := e
    refine ⟨⟨a1, by rw [rv_of_val b1 (b := 1) rfl]; norm_num⟩, ⟨a2, by rw [rv_of_val b2 (b := 1) rfl]; norm_num, 148, by decide +kernel, rfl⟩, ⟨a3, by rw [rv_of_val b3 (b := 0) rfl]; norm_num⟩,
      ⟨a4, by rw [rv_of_val b4 (b := 0) rfl]; norm_num⟩, a5, by rw [rv_of_val b5 (b := 0) rfl]; norm_num⟩
  · have e : (isFinite (halfBits 64) = true ∧ val (halfBits 64) = 1 * 2 ^ 1073) ∧ (isFinite (mhalfBits 64) = true ∧ val (mhalfBits 64) = -1 * 2 ^ 1073) ∧
      (isFinite (twoBits 64) = true ∧ val (twoBits 64) = 2 * 2 ^ 1074) ∧ (isFinite (moneBits 64) = true ∧ val (moneBits 64) = -1 * 2 ^ 1074) ∧ (isFinite (0#64) = true ∧ val (0#64) = 0 * 2 ^ 1074) := by decide +kernel
    obtain ⟨⟨a1, b1⟩, ⟨a2, b2⟩, ⟨a3, b3⟩, ⟨a4, b4⟩, a5, b5⟩ := e
    refine ⟨⟨a1, by rw [rv_of_val b1 (b := 1) rfl]; norm_num⟩, ⟨a2, by rw [rv_of_val b2 (b := 1) rfl]; norm_num, 1073, by decide +kernel, rfl⟩, ⟨a3, by rw [rv_of_val b3 (b := 0) rfl]; norm_num⟩,
      ⟨a4, by rw [rv_of_val b4 (b := 0) rfl]; norm_num⟩, a5, by rw [rv_of_val b5 (b := 0) rfl]; norm_num⟩
theorem atan_consts {w : Nat} (h : W w) : (isFinite (p66 w) = true ∧ 0.66 ≤ rv (p66 w) ∧ rv (p66 w) ≤ 0.6601) ∧ (isFinite (tan3pio8 w) = true ∧ 2.41421 ≤ rv (tan3pio8 w) ∧ rv (tan3pio8 w) ≤ 2.41422) ∧
    (isFinite (pio2 w) = true ∧ 1.57 ≤ rv (pio2 w) ∧ rv (pio2 w) ≤ 1.571) ∧ (isFinite (asinOffHalf w) = true ∧ 0 ≤ rv (asinOffHalf w) ∧ rv (asinOffHalf w) ≤ 0.3 * ulpHalf w) ∧
    |rv (pio4 w) + rv (asinOffHalf w) - Real.pi / 4| ≤ 0.37 * ulpHalf w ∧ |rv (pio2 w) + 2 * rv (asinOffHalf w) - Real.pi / 2| ≤ 0.74 * ulpHalf w := by
  obtain ⟨p1, p2⟩ := quarter_pi
  rcases h with h | h <;> subst h
  · have e : (isFinite (p66 32) = true ∧ val (p66 32) = 11072963 * 2 ^ 125) ∧ (isFinite (tan3pio8 32) = true ∧ val (tan3pio8 32) = 10125946 * 2 ^ 127) ∧
      (isFinite (pio2 32) = true ∧ val (pio2 32) = 13176795 * 2 ^ 126) ∧ (isFinite (asinOffHalf 32) = true ∧ val (asinOffHalf 32) = 4626585 * 2 ^ 72) ∧ val (pio4 32) = 13176795 * 2 ^ 125 := by decide +kernel
    obtain ⟨⟨a1, b1⟩, ⟨a2, b2⟩, ⟨a3, b3⟩, ⟨a4, b4⟩, b5⟩ := e
    rw [rv_of_val b1 (b := 24) rfl, rv_of_val b2 (b := 22) rfl, rv_of_val b3 (b := 23) rfl, rv_of_val b4 (b := 77) rfl, rv_of_val b5 (b := 24) rfl, ulp_32]
    refine ⟨⟨a1, by norm_num, by norm_num⟩, ⟨a2, by norm_num, by norm_num⟩, ⟨a3, by norm_num, by norm_num⟩, ⟨a4, by norm_num, by norm_num⟩, ?_, ?_⟩ <;>
    · rw [abs_le]; constructor <;> norm_num at * <;> linarith
  · have e : (isFinite (p66 64) = true ∧ val (p66 64) = 5944751508129055 * 2 ^ 1021) ∧ (isFinite (tan3pio8 64) = true ∧ val (tan3pio8 64) = 2718162824974067 * 2 ^ 1024) ∧
      (isFinite (pio2 64) = true ∧ val (pio2 64) = 884279719003555 * 2 ^ 1025) ∧ (isFinite (asinOffHalf 64) = true ∧ val (asinOffHalf 64) = 4967757600021511 * 2 ^ 967) ∧ val (pio4 64) = 884279719003555 * 2 ^ 1024 := by decide +kernel
    obtain ⟨⟨a1, b1⟩, ⟨a2, b2⟩, ⟨a3, b3⟩, ⟨a4, b4⟩, b5⟩ := e
    rw [rv_of_val b1 (b := 53) rfl, rv_of_val b2 (b := 50) rfl, rv_of_val b3 (b := 49) rfl, rv_of_val b4 (b := 107) rfl, rv_of_val b5 (b := 50) rfl, ulp_64]
    refine ⟨⟨a1, by norm_num, by norm_num⟩, ⟨a2, by norm_num, by norm_num⟩, ⟨a3, by norm_num, by norm_num⟩, ⟨a4, by norm_num, by norm_num⟩, ?_, ?_⟩ <;>
    · rw [abs_le]; constructor <;> norm_num at * <;> linarith
theorem fadd_zero_rv {w : Nat} (h : W w) {x : BitVec w} (fx : isFinite x = true) : (isFinite (fadd x 0#w) = true ∧ rv (fadd x 0#w) = rv x) ∧ (isFinite (fadd 0#w x) = true ∧ rv (fadd 0#w x) = rv x) := by
  have fz := (inv_consts h).2.2.2.2.1
  have vz : val (0#w) = 0 := by rcases h with h | h <;> subst h <;> decide +kernel
  have hr : Repr w (val x).natAbs := ⟨mag x, by rw [finite_iff h] at fx; exact fx, natAbs_val x⟩
  constructor
  · obtain ⟨f, e⟩ := fadd_val h fx fz (by rw [vz, Int.add_zero]; exact hr)
    refine ⟨f, ?_⟩; unfold rv; rw [e, vz, Int.add_zero]
  · obtain ⟨f, e⟩ := fadd_val h fz fx (by rw [vz, Int.zero_add]; exact hr)
    refine ⟨f, ?_⟩; unfold rv; rw [e, vz, Int.zero_add]
theorem unitLane_id {w : Nat} (h : W w) (o : MathOpt) {x : BitVec w} (fx : isFinite x = true) (hx : rv x ≤ 1) : unitLane o x = x := by
  obtain ⟨f1, r1⟩ := one_rv' h
  unfold unitLane
  have : fLt (oneBits w) x = false := by
    cases hb : fLt (oneBits w) x
    · rfl
    · rw [fLt_rv h f1 fx, r1] at hb; linarith
  rw [this, Bool.and_false]; rfl
theorem arcsin_sg (b : Bool) (x : ℝ) : Real.arcsin (Fp.sg b * x) = Fp.sg b * Real.arcsin x := by cases b <;> simp [Fp.sg]
theorem arctan_sg (b : Bool) (x : ℝ) : Real.arctan (Fp.sg b * x) = Fp.sg b * Real.arctan x := by cases b <;> simp [Fp.sg]
theorem sg_err (b : Bool) (x y : ℝ) : |Fp.sg b * x - Fp.sg b * y| = |x - y| := by
  rw [← mul_sub, abs_mul]; cases b <;> simp [Fp.sg]
/-! ### The arcsine -/
theorem arcsin_58 : 0.66 ≤ Real.arcsin 0.625 := by
  have hp := Real.pi_gt_three
  rw [Real.le_arcsin_iff_sin_le' ⟨by norm_num; linarith, by norm_num; linarith⟩]
  have := Real.sin_bound (x := 0.66) (by rw [abs_of_nonneg] <;> norm_num)
  rw [abs_of_nonneg (show (0:ℝ) ≤ 0.66 by norm_num)] at this
  have := (abs_le.1 this).2
  norm_num at *; linarith
theorem le_arcsin {x : ℝ} (h0 : 0 ≤ x) (h1 : x ≤ 1) : x ≤ Real.arcsin x := by
  have hp := Real.pi_gt_three
  rw [Real.le_arcsin_iff_sin_le' ⟨by linarith, by linarith⟩]; exact Real.sin_le h0
theorem asinAbs_rel {w : Nat} (h : W w) (fm : Bool) {x : BitVec w} (fx : isFinite x = true) (hx0 : 0 ≤ rv x) (hx : rv x ≤ 1) :
    isFinite (asinAbs fm x) = true ∧ |rv (asinAbs fm x) - Real.arcsin (rv x)| ≤ 12.5 * ulpHalf w * Real.arcsin (rv x) + 5 * tiny w ∧
    (rv x ≤ 5 / 8 → |rv (asinAbs fm x) - Real.arcsin (rv x)| ≤ 5.7 * ulpHalf w * rv x + 5 * tiny w) ∧ |rv (asinAbs fm x) - Real.arcsin (rv x)| ≤ 8.2 * ulpHalf w := by
  have hu := ulp_pos w
  have ht := tiny_pos w
  have ht2 := tiny_ulp h
  obtain ⟨f, e⟩ := asinAbs_acc h fm fx hx0 hx
  refine ⟨f, ?_⟩
  have hA := le_arcsin hx0 hx
  by_cases hc : rv x ≤ 0.625
  · rw [if_pos hc] at e
    have k1 : ulpHalf w * (5.7 * rv x) ≤ ulpHalf w * (12.5 * Real.arcsin (rv x)) := mul_le_mul_of_nonneg_left (by norm_num at *; linarith) hu.le
    have k2 : ulpHalf w * (5.7 * rv x) ≤ ulpHalf w * 3.6 := mul_le_mul_of_nonneg_left (by norm_num at *; linarith) hu.le
    refine ⟨by linarith, fun _ => by linarith, by norm_num at *; linarith⟩
  · rw [if_neg hc] at e
    rw [not_le] at hc
    have k0 : Real.arcsin 0.625 ≤ Real.arcsin (rv x) := Real.monotone_arcsin hc.le
    have := arcsin_58
    have k1 : ulpHalf w * 8.2 ≤ ulpHalf w * (12.5 * Real.arcsin (rv x)) := mul_le_mul_of_nonneg_left (by norm_num at *; linarith) hu.le
    refine ⟨by linarith, fun hc2 => by norm_num at *; linarith, by linarith⟩
theorem asinF_acc {w : Nat} (h : W w) (o : MathOpt) (fm : Bool) {x : BitVec w} (fx : isFinite x = true) (hx : |rv x| ≤ 1) :
    isFinite (asinF o fm x) = true ∧ |rv (asinF o fm x) - Real.arcsin (rv x)| ≤ 12.5 * ulpHalf w * |Real.arcsin (rv x)| + 5 * tiny w ∧
    (|rv x| ≤ 5 / 8 → |rv (asinF o fm x) - Real.arcsin (rv x)| ≤ 5.7 * ulpHalf w * |rv x| + 5 * tiny w) := by
  obtain ⟨fa, -, ra, rs⟩ := abB_facts h fx
  unfold asinF
  rw [unitLane_id h o fa (by rw [ra]; exact hx), sgB_sb h]
  obtain ⟨f, e1, e2, -⟩ := asinAbs_rel h fm fa (by rw [ra]; exact abs_nonneg _) (by rw [ra]; exact hx)
  obtain ⟨f2, r2⟩ := flip_rv h f x.msb
  have hs : Real.arcsin (rv x) = Fp.sg x.msb * Real.arcsin (rv (abB x)) := by rw [← arcsin_sg, ← rs]
  have h0 : 0 ≤ Real.arcsin (rv (abB x)) := Real.arcsin_nonneg.2 (by rw [ra]; exact abs_nonneg _)
  rw [hs, r2, sg_err]
  refine ⟨f2, ?_, fun hc => ?_⟩
  · rw [show |Fp.sg x.msb * Real.arcsin (rv (abB x))| = Real.arcsin (rv (abB x)) by rw [abs_mul, abs_of_nonneg h0]; cases x.msb <;> simp [Fp.sg]]
    exact e1
  · rw [← ra] at hc ⊢; exact e2 hc
/-! ### The arccosine -/
theorem even_half {w : Nat} (h : W w) {x : BitVec w} (hx : 1 / 2 ≤ rv x) : ∃ k : Int, val x = 2 * k := by
  obtain ⟨f, e, hv, hf, he⟩ := val_split x
  have hU : mb w + 2 ≤ unitExp w := by rcases h with h | h <;> subst h <;> decide
  have hx2 : (2 : ℝ) ^ unitExp w ≤ 2 * ((val x).natAbs : ℝ) := by
    have : |rv x| = ((val x).natAbs : ℝ) / 2 ^ unitExp w := rv_abs x
    rw [abs_of_nonneg (by linarith)] at this
    rw [this, le_div_iff₀ (by positivity)] at hx
    linarith
  have hn : 2 ^ unitExp w ≤ 2 * (val x).natAbs := by exact_mod_cast hx2
  have he1 : e ≠ 0 := by
    intro h0
    rw [h0, Nat.pow_zero, Nat.mul_one] at hv
    have : 2 ^ (mb w + 2) ≤ 2 ^ unitExp w := Nat.pow_le_pow_right (by decide) hU
    rw [Nat.pow_succ] at this
    omega
  obtain ⟨e', rfl⟩ := Nat.exists_eq_succ_of_ne_zero he1
  rw [Nat.succ_eq_add_one, Nat.pow_succ] at hv
  refine ⟨val x / 2, ?_⟩
  have : (val x).natAbs = 2 * (f * 2 ^ e') := by rw [hv]; ring
  generalize f * 2 ^ e' = n at *
  omega
/-- `(1 - x) / 2` as computed by `acos`, exact up to the rounding of the sum -/
theorem half_acc {w : Nat} (h : W w) (fm : Bool) {x : BitVec w} (fx : isFinite x = true) (hx0 : 1 / 2 ≤ rv x) (hx1 : rv x ≤ 1) :
    isFinite (fmaL fm x (mhalfBits w) (halfBits w)) = true ∧ |rv (fmaL fm x (mhalfBits w) (halfBits w)) - (1 - rv x) / 2| ≤ ulpHalf w * ((1 - rv x) / 2) := by
  obtain ⟨⟨f1, r1⟩, ⟨f2, r2, j, hj, hU⟩, -, -, -⟩ := inv_consts h
  have hb : (2 : ℝ) ^ 20 ≤ 2 ^ bias w := pow_le_pow_right₀ (by norm_num) (by rcases h with h | h <;> subst h <;> decide)
  obtain ⟨k, hk⟩ := even_half h hx0
  have hn : 0 ≤ (1 - rv x) / 2 := by linarith
  have habs : |(1 - rv x) / 2| = (1 - rv x) / 2 := abs_of_nonneg hn
  have ex : rv x * rv (mhalfBits w) + rv (halfBits w) = (1 - rv x) / 2 := by rw [r1, r2]; ring
  cases fm
  · rw [fmaL_false]
    have hxm : |rv x * rv (mhalfBits w)| ≤ 1 := by rw [r2, abs_le]; constructor <;> linarith
    have hf := fmul_finite h fx f2 (by norm_num at *; linarith)
    have he := fmul_pow2_exact h fx f2 hj hf (by
      rw [hk, Int.natAbs_mul, show (2 : Int).natAbs = 2 from rfl, hU, Nat.pow_succ]
      exact ⟨k.natAbs, by ring⟩)
    have := fadd_e h hf f1 (by rw [he, ex, habs]; norm_num at *; linarith)
    rw [he, ex, habs] at this
    exact this
  · rw [fmaL_true]
    have ex2 : Fp.sg false * (rv x * rv (mhalfBits w)) + Fp.sg false * rv (halfBits w) = (1 - rv x) / 2 := by
      rw [← ex]; simp [Fp.sg]
    have hf := ffmaG_finite h false false fx f2 f1 (by rw [ex2, habs]; norm_num at *; linarith)
    have := ffmaG_rv h false false fx f2 f1 hf
    rw [ex2, habs] at this
    refine ⟨hf, ?_⟩
    rcases this with h1 | h1
    · -- both are multiples of the smallest subnormal
      generalize ffmaG false false x (mhalfBits w) (halfBits w) = r at *
      have e : (1 - rv x) / 2 = ((2 ^ j - k : Int) : ℝ) / 2 ^ unitExp w := by
        unfold rv; rw [hk, hU, pow_succ]; push_cast; field_simp
      rw [e] at h1 ⊢
      have e2 : rv r - ((2 ^ j - k : Int) : ℝ) / 2 ^ unitExp w = ((val r - (2 ^ j - k) : Int) : ℝ) / 2 ^ unitExp w := by
        unfold rv; push_cast; ring
      rw [e2] at h1 ⊢
      have e3 : val r - (2 ^ j - k) = 0 := by
        by_contra hne
        have h2 : (1 : ℝ) ≤ |((val r - (2 ^ j - k) : Int) : ℝ)| := by exact_mod_cast Int.one_le_abs hne
        rw [abs_div, abs_of_pos (show (0:ℝ) < 2 ^ unitExp w by positivity), div_le_iff₀ (by positivity)] at h1
        unfold tiny at h1
        rw [pow_succ, div_mul_eq_mul_div, one_mul, div_mul_cancel_left₀ (by positivity)] at h1
        norm_num at h1 h2; linarith
      rw [e3, ← e]
      simp only [Int.cast_zero, zero_div, abs_zero]
      exact mul_nonneg (ulp_pos w).le hn
    · exact h1
theorem arcsin_lip {a b : ℝ} (ha : 0 ≤ a) (hb : 0 ≤ b) (ha1 : a ≤ 0.51) (hb1 : b ≤ 0.51) : |Real.arcsin a - Real.arcsin b| ≤ 1.2 * |a - b| := by
  have key : ∀ x y : ℝ, 0 ≤ x → x ≤ y → y ≤ 0.51 → |Real.arcsin y - Real.arcsin x| ≤ 1.2 * (y - x) := by
    intro x y hx hxy hy
    refine seg_err (e := Real.arcsin) (e' := fun z => 1 / Real.sqrt (1 - z ^ 2)) hxy (fun z hz1 hz2 => Real.hasDerivAt_arcsin (by norm_num at *; linarith) (by norm_num at *; linarith)) ?_
    intro z hz1 hz2
    have hz0 : 0 ≤ z := le_trans hx hz1
    have hz3 : z ^ 2 ≤ 0.51 ^ 2 := pow_le_pow_left₀ hz0 (le_trans hz2 hy) 2
    have : 0.85 ≤ Real.sqrt (1 - z ^ 2) := Real.le_sqrt_of_sq_le (by norm_num at *; linarith)
    have hp : 0 < Real.sqrt (1 - z ^ 2) := lt_of_lt_of_le (by norm_num) this
    rw [abs_of_nonneg (by positivity), div_le_iff₀ hp]
    norm_num at *; linarith
  rcases le_total a b with h | h
  · rw [abs_sub_comm, abs_sub_comm a b, abs_of_nonneg (sub_nonneg.2 h)]; exact key a b ha h hb1
  · rw [abs_of_nonneg (sub_nonneg.2 h)]; exact key b a hb h ha1
end Dpm.X86
