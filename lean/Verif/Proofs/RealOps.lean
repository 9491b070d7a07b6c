import Verif.Spec.FloatCvt
import Verif.Proofs.Horner
import Verif.Proofs.Sqrt
/-! Error bounds of single operations in the form used for the accuracy of kernels: bounded operands give a finite result with
`|result - exact| ≤ u |exact| + tiny`. -/
namespace Dpm.Fp

theorem maxVal_eq {w : Nat} (h : W w) : maxVal w = ((2 ^ (mb w + 1) - 1 : Nat) : ℝ) * 2 ^ (emax w - 2) / 2 ^ unitExp w := by
  have e : bias w + unitExp w = mb w + (emax w - 2) := by rcases h with h | h <;> subst h <;> rfl
  have e' : (2:ℝ) ^ bias w * 2 ^ unitExp w = 2 ^ mb w * 2 ^ (emax w - 2) := by rw [← pow_add, ← pow_add, e]
  unfold maxVal ulpHalf
  rw [Nat.cast_sub (Nat.one_le_two_pow)]
  push_cast
  rw [eq_div_iff (by positivity)]
  calc (2:ℝ) ^ (bias w + 1) * (1 - 1 / 2 ^ (mb w + 1)) * 2 ^ unitExp w = 2 * (1 - 1 / 2 ^ (mb w + 1)) * (2 ^ bias w * 2 ^ unitExp w) := by ring
    _ = _ := by rw [e']; field_simp; ring
/-- no overflow up to the largest finite number -/
theorem round_finite2 {w : Nat} (h : W w) {s : Bool} {n d : Nat} (hd : 0 < d) (hX : (n : ℝ) / d / 2 ^ unitExp w ≤ maxVal w) :
    isFinite (round w s n d) = true := by
  have hi := infMag_lt h
  have hlt : min (rne (mb w) n d) (infMag w) < 2 ^ (w - 1) := by omega
  have hm : mag (round w s n d) = min (rne (mb w) n d) (infMag w) := mag_pack h hlt
  have hd' : (0:ℝ) < d := by exact_mod_cast hd
  have hU : (0:ℝ) < 2 ^ unitExp w := by positivity
  rw [finite_iff h, hm]
  have hb : 0 < mb w := Fp.mb_pos w
  have hn : n ≤ (2 ^ (mb w + 1) - 1) * 2 ^ (emax w - 2) * d := by
    have : (n : ℝ) ≤ ((2 ^ (mb w + 1) - 1 : Nat) : ℝ) * 2 ^ (emax w - 2) * d := by
      rw [maxVal_eq h, div_le_div_iff_of_pos_right hU, div_le_iff₀ hd'] at hX; exact hX
    exact_mod_cast this
  have hp := Nat.two_pow_pos (mb w)
  have hps : 2 ^ (mb w + 1) = 2 * 2 ^ mb w := by rw [Nat.pow_succ, Nat.mul_comm]
  have e2 : 0 < emax w ∧ infMag w = (emax w - 2) * 2 ^ mb w + 2 ^ mb w + 2 ^ mb w := by rcases h with h | h <;> subst h <;> decide
  have e1 := magVal_kf (b := mb w) (k := emax w - 2) (f := 2 ^ (mb w + 1) - 1) (Or.inr (by omega)) (by omega)
  rw [← e1] at hn
  have hmono := rne_mono hb hd hn
  rw [rne_exact hb hd] at hmono
  omega

/-- the value of a finite number and its significand -/
theorem val_split {w : Nat} (x : BitVec w) :
    ∃ f e, (val x).natAbs = f * 2 ^ e ∧ f < 2 ^ (mb w + 1) ∧ e = expF x - 1 := by
  have hm := manF_lt x
  have hps : 2 ^ (mb w + 1) = 2 * 2 ^ mb w := by rw [Nat.pow_succ, Nat.mul_comm]
  rw [natAbs_val]
  unfold magVal
  change ∃ f e, (if expF x = 0 then manF x else (2 ^ mb w + manF x) * 2 ^ (expF x - 1)) = f * 2 ^ e ∧ _
  split
  · exact ⟨manF x, 0, by simp, by omega, by omega⟩
  · exact ⟨2 ^ mb w + manF x, expF x - 1, rfl, by omega, rfl⟩
theorem fmul_comm {w : Nat} {x y : BitVec w} (hx : isFinite x = true) (hy : isFinite y = true) : fmul x y = fmul y x := by
  rw [fmul_fin hx hy, fmul_fin hy hx, Nat.mul_comm]
  congr 1
  cases neg x <;> cases neg y <;> rfl

section
variable {w : Nat} (h : W w) {x y z : BitVec w}
include h
/-- multiplication by a power of two has no rounding error above the subnormal range -/
theorem fmul_pow2_tiny {j : Nat} (hx : isFinite x = true) (hy : isFinite y = true) (hj : (val y).natAbs = 2 ^ j) (hr : isFinite (fmul x y) = true) :
    |rv (fmul x y) - rv x * rv y| ≤ tiny w := by
  obtain ⟨f, e, hf, hfl, -⟩ := val_split x
  rw [fmul_fin hx hy] at hr ⊢
  rw [rv_mul_val, rv_round h hr, ← mul_sub, abs_sg]
  have hb : 0 < mb w := Fp.mb_pos w
  have hU : (0:ℝ) < 2 ^ unitExp w := by positivity
  rw [hf, hj]
  have hn : f * 2 ^ e * 2 ^ j = f * 2 ^ (e + j) := by rw [Nat.mul_assoc, ← Nat.pow_add]
  rw [hn]
  by_cases hc : unitExp w ≤ e + j
  · obtain ⟨m, hm⟩ := magVal_surj (b := mb w) (k := e + j - unitExp w) (f := f) (by omega)
    have hn2 : f * 2 ^ (e + j) = magVal (mb w) m * 2 ^ unitExp w := by
      rw [hm, Nat.mul_assoc, ← Nat.pow_add]; congr 2; omega
    rw [hn2, rne_exact hb (Nat.two_pow_pos _)]
    push_cast
    rw [mul_div_assoc, div_self (by positivity), mul_one, sub_self, abs_zero]
    exact (tiny_pos w).le
  · have he := rne_err (n := f * 2 ^ (e + j)) (d := 2 ^ unitExp w) hb (Nat.two_pow_pos _)
    have hlt : f * 2 ^ (e + j) * 2 ≤ 2 ^ (mb w + 1) * 2 ^ unitExp w := by
      rw [Nat.mul_assoc, ← Nat.pow_succ]
      exact Nat.mul_le_mul (by omega) (Nat.pow_le_pow_right (by omega) (by omega))
    have he2 : 2 * dist (magVal (mb w) (rne (mb w) (f * 2 ^ (e + j)) (2 ^ unitExp w)) * 2 ^ unitExp w) (f * 2 ^ (e + j)) ≤ 2 ^ unitExp w := by
      rcases he with he | he
      · exact he
      · have hps : 2 ^ (mb w + 1) = 2 * 2 ^ mb w := by rw [Nat.pow_succ, Nat.mul_comm]
        have hp := Nat.two_pow_pos (mb w)
        rw [hps] at hlt
        generalize 2 ^ unitExp w = V at *
        generalize dist _ _ = E at *
        apply Nat.le_of_mul_le_mul_right (c := 2 ^ mb w) _ hp
        calc 2 * E * 2 ^ mb w ≤ f * 2 ^ (e + j) := he
          _ ≤ V * 2 ^ mb w := by
            apply Nat.le_of_mul_le_mul_right (c := 2) _ (by omega)
            calc _ ≤ _ := hlt
              _ = _ := by ring
    have hD := dist_cast (magVal (mb w) (rne (mb w) (f * 2 ^ (e + j)) (2 ^ unitExp w)) * 2 ^ unitExp w) (f * 2 ^ (e + j))
    generalize rne (mb w) (f * 2 ^ (e + j)) (2 ^ unitExp w) = m at *
    have he3 : 2 * ((dist (magVal (mb w) m * 2 ^ unitExp w) (f * 2 ^ (e + j)) : Nat) : ℝ) ≤ 2 ^ unitExp w := by exact_mod_cast he2
    rw [hD] at he3
    have e1 : (magVal (mb w) m : ℝ) / 2 ^ unitExp w - ((f * 2 ^ (e + j) : Nat) : ℝ) / ((2 ^ unitExp w : Nat) : ℝ) / 2 ^ unitExp w =
        (((magVal (mb w) m * 2 ^ unitExp w : Nat) : ℝ) - ((f * 2 ^ (e + j) : Nat) : ℝ)) / (2 ^ unitExp w * 2 ^ unitExp w) := by
      push_cast; field_simp
    rw [e1, abs_div, abs_of_pos (by positivity : (0:ℝ) < 2 ^ unitExp w * 2 ^ unitExp w)]
    unfold tiny
    rw [div_le_div_iff₀ (by positivity) (by positivity), pow_succ]
    nlinarith
omit h in
theorem rv_int_eq (a : Int) (ha : |rv x - (a : ℝ) / 2 ^ unitExp w| ≤ tiny w) : rv x = (a : ℝ) / 2 ^ unitExp w := by
  have hU : (0:ℝ) < 2 ^ unitExp w := by positivity
  unfold rv tiny at *
  rw [← sub_div, abs_div, abs_of_pos hU, div_le_div_iff₀ hU (by positivity), pow_succ] at ha
  have h1 : |((val x - a : Int) : ℝ)| * 2 ≤ 1 := by
    push_cast; nlinarith
  have h2 : |((val x - a : Int) : ℝ)| < 1 := by linarith
  have h3 : |val x - a| < 1 := by exact_mod_cast h2
  have h4 : val x = a := by have := Int.abs_lt_one_iff.1 h3; omega
  rw [h4]
/-- it is exact when the result is a multiple of the smallest subnormal -/
theorem fmul_pow2_exact {j : Nat} (hx : isFinite x = true) (hy : isFinite y = true) (hj : (val y).natAbs = 2 ^ j) (hr : isFinite (fmul x y) = true)
    (hd : 2 ^ unitExp w ∣ (val x).natAbs * 2 ^ j) : rv (fmul x y) = rv x * rv y := by
  obtain ⟨k, hk⟩ := hd
  have e : rv x * rv y = ((if neg x != neg y then -(k : Int) else k : Int) : ℝ) / 2 ^ unitExp w := by
    rw [rv_mul_val, hj, hk]
    push_cast
    rw [mul_div_assoc, mul_comm (2 ^ unitExp w : ℝ), div_mul_cancel₀ _ (by positivity)]
    cases (neg x != neg y) <;> simp [sg, neg_div]
  rw [e]
  apply rv_int_eq
  rw [← e]
  exact fmul_pow2_tiny h hx hy hj hr

/-! ### bounded operands -/
theorem fadd_e (hx : isFinite x = true) (hy : isFinite y = true) (hX : |rv x + rv y| ≤ 2 ^ bias w) :
    isFinite (fadd x y) = true ∧ |rv (fadd x y) - (rv x + rv y)| ≤ ulpHalf w * |rv x + rv y| :=
  ⟨fadd_finite h hx hy hX, fadd_rv h hx hy (fadd_finite h hx hy hX)⟩
theorem fsub_e (hx : isFinite x = true) (hy : isFinite y = true) (hX : |rv x - rv y| ≤ 2 ^ bias w) :
    isFinite (fsub x y) = true ∧ |rv (fsub x y) - (rv x - rv y)| ≤ ulpHalf w * |rv x - rv y| :=
  ⟨fsub_finite h hx hy hX, fsub_rv h hx hy (fsub_finite h hx hy hX)⟩
omit h in
theorem or_add {r X u t : ℝ} (hu : 0 ≤ u) (ht : 0 ≤ t) (he : |r - X| ≤ t ∨ |r - X| ≤ u * |X|) : |r - X| ≤ u * |X| + t := by
  rcases he with he | he
  · have := mul_nonneg hu (abs_nonneg X); linarith
  · linarith
theorem fmul_e (hx : isFinite x = true) (hy : isFinite y = true) (hX : |rv x * rv y| ≤ 2 ^ bias w) :
    isFinite (fmul x y) = true ∧ |rv (fmul x y) - rv x * rv y| ≤ ulpHalf w * |rv x * rv y| + tiny w :=
  ⟨fmul_finite h hx hy hX, or_add (ulp_pos w).le (tiny_pos w).le (fmul_rv h hx hy (fmul_finite h hx hy hX))⟩
theorem fdiv_e (hx : isFinite x = true) (hy : isFinite y = true) (h0 : isZero y = false) (hX : |rv x / rv y| ≤ 2 ^ bias w) :
    isFinite (fdiv x y) = true ∧ |rv (fdiv x y) - rv x / rv y| ≤ ulpHalf w * |rv x / rv y| + tiny w :=
  ⟨fdiv_finite h hx hy h0 hX, or_add (ulp_pos w).le (tiny_pos w).le (fdiv_rv h hx hy h0 (fdiv_finite h hx hy h0 hX))⟩
theorem ulp_le : ulpHalf w ≤ 1 / 2 ^ 24 := by
  unfold ulpHalf
  apply one_div_le_one_div_of_le (by positivity)
  exact pow_le_pow_right₀ (by norm_num) (by rcases h with h | h <;> subst h <;> decide)
theorem tiny_le : tiny w ≤ 1 / 2 ^ 150 := by
  unfold tiny
  apply one_div_le_one_div_of_le (by positivity)
  exact pow_le_pow_right₀ (by norm_num) (by rcases h with h | h <;> subst h <;> decide)
/-- `x * y + z`, with or without FMA -/
theorem fmaL_e (fm : Bool) (hx : isFinite x = true) (hy : isFinite y = true) (hz : isFinite z = true) {M : ℝ} (hM : 4 * M ≤ 2 ^ bias w) (hM1 : 1 ≤ M)
    (hp : |rv x * rv y| ≤ M) (hq : |rv z| ≤ M) :
    isFinite (X86.fmaL fm x y z) = true ∧
    |rv (X86.fmaL fm x y z) - (rv x * rv y + rv z)| ≤ ulpHalf w * (1 + ulpHalf w) * |rv x * rv y| + ulpHalf w * |rv x * rv y + rv z| + 2 * tiny w := by
  have hu := ulp_pos w
  have ht := tiny_pos w
  have hu1 := ulp_le h
  have hu4 : ulpHalf w ≤ 1 / 4 := le_trans hu1 (by norm_num)
  have ht1 : tiny w ≤ 1 / 4 := le_trans (tiny_le h) (by norm_num)
  have hXY := abs_add_le (rv x * rv y) (rv z)
  unfold X86.fmaL
  cases fm
  · simp only [Bool.false_eq_true, if_false]
    obtain ⟨f1, e1⟩ := fmul_e h hx hy (by linarith)
    have k1 : |rv (fmul x y)| ≤ 2 * M := by
      have := abs_sub_abs_le_abs_sub (rv (fmul x y)) (rv x * rv y)
      have : ulpHalf w * |rv x * rv y| ≤ 1 / 4 * M := mul_le_mul hu4 hp (abs_nonneg _) (by positivity)
      linarith
    have k2 := abs_add_le (rv (fmul x y)) (rv z)
    obtain ⟨f2, e2⟩ := fadd_e h f1 hz (by linarith)
    refine ⟨f2, ?_⟩
    generalize rv (fadd (fmul x y) z) = r at *
    generalize rv (fmul x y) = p at *
    have k3 : |p + rv z| ≤ |rv x * rv y + rv z| + |p - rv x * rv y| := by
      have := abs_add_le (rv x * rv y + rv z) (p - rv x * rv y)
      rwa [show rv x * rv y + rv z + (p - rv x * rv y) = p + rv z by ring] at this
    have k4 : |r - (rv x * rv y + rv z)| ≤ |r - (p + rv z)| + |p - rv x * rv y| := by
      have := abs_add_le (r - (p + rv z)) (p - rv x * rv y)
      rwa [show r - (p + rv z) + (p - rv x * rv y) = r - (rv x * rv y + rv z) by ring] at this
    have k5 : ulpHalf w * |p + rv z| ≤ ulpHalf w * (|rv x * rv y + rv z| + (ulpHalf w * |rv x * rv y| + tiny w)) :=
      mul_le_mul_of_nonneg_left (by linarith) hu.le
    have k6 : ulpHalf w * tiny w ≤ tiny w := by
      norm_num at hu1; nlinarith
    nlinarith
  · simp only [if_true]
    have e0 : sg false * (rv x * rv y) + sg false * rv z = rv x * rv y + rv z := by simp [sg]
    have f := ffmaG_finite h false false hx hy hz (by rw [e0]; linarith)
    refine ⟨f, ?_⟩
    have e1 := or_add hu.le ht.le (ffmaG_rv h false false hx hy hz f)
    rw [e0] at e1
    have : 0 ≤ ulpHalf w * (1 + ulpHalf w) * |rv x * rv y| := by positivity
    linarith
/-- `x * y - z`, with or without FMA -/
theorem fmsL_e (fm : Bool) (hx : isFinite x = true) (hy : isFinite y = true) (hz : isFinite z = true) {M : ℝ} (hM : 4 * M ≤ 2 ^ bias w) (hM1 : 1 ≤ M)
    (hp : |rv x * rv y| ≤ M) (hq : |rv z| ≤ M) :
    isFinite (X86.fmsL fm x y z) = true ∧
    |rv (X86.fmsL fm x y z) - (rv x * rv y - rv z)| ≤ ulpHalf w * (1 + ulpHalf w) * |rv x * rv y| + ulpHalf w * |rv x * rv y - rv z| + 2 * tiny w := by
  have hu := ulp_pos w
  have ht := tiny_pos w
  have hu1 := ulp_le h
  have hu4 : ulpHalf w ≤ 1 / 4 := le_trans hu1 (by norm_num)
  have ht1 : tiny w ≤ 1 / 4 := le_trans (tiny_le h) (by norm_num)
  have hXY := abs_sub (rv x * rv y) (rv z)
  unfold X86.fmsL
  cases fm
  · simp only [Bool.false_eq_true, if_false]
    obtain ⟨f1, e1⟩ := fmul_e h hx hy (by linarith)
    have k1 : |rv (fmul x y)| ≤ 2 * M := by
      have := abs_sub_abs_le_abs_sub (rv (fmul x y)) (rv x * rv y)
      have : ulpHalf w * |rv x * rv y| ≤ 1 / 4 * M := mul_le_mul hu4 hp (abs_nonneg _) (by positivity)
      linarith
    have k2 := abs_sub (rv (fmul x y)) (rv z)
    obtain ⟨f2, e2⟩ := fsub_e h f1 hz (by linarith)
    refine ⟨f2, ?_⟩
    generalize rv (fsub (fmul x y) z) = r at *
    generalize rv (fmul x y) = p at *
    have k3 : |p - rv z| ≤ |rv x * rv y - rv z| + |p - rv x * rv y| := by
      have := abs_add_le (rv x * rv y - rv z) (p - rv x * rv y)
      rwa [show rv x * rv y - rv z + (p - rv x * rv y) = p - rv z by ring] at this
    have k4 : |r - (rv x * rv y - rv z)| ≤ |r - (p - rv z)| + |p - rv x * rv y| := by
      have := abs_add_le (r - (p - rv z)) (p - rv x * rv y)
      rwa [show r - (p - rv z) + (p - rv x * rv y) = r - (rv x * rv y - rv z) by ring] at this
    have k5 : ulpHalf w * |p - rv z| ≤ ulpHalf w * (|rv x * rv y - rv z| + (ulpHalf w * |rv x * rv y| + tiny w)) :=
      mul_le_mul_of_nonneg_left (by linarith) hu.le
    have k6 : ulpHalf w * tiny w ≤ tiny w := by
      norm_num at hu1; nlinarith
    nlinarith
  · simp only [if_true]
    have e0 : sg false * (rv x * rv y) + sg true * rv z = rv x * rv y - rv z := by simp [sg]; ring
    have f := ffmaG_finite h false true hx hy hz (by rw [e0]; linarith)
    refine ⟨f, ?_⟩
    have e1 := or_add hu.le ht.le (ffmaG_rv h false true hx hy hz f)
    rw [e0] at e1
    have : 0 ≤ ulpHalf w * (1 + ulpHalf w) * |rv x * rv y| := by positivity
    linarith
end

/-- the number nearest to `s` is within `u s` of it -/
theorem nearest_err {w : Nat} (h : W w) {s : ℝ} {r : BitVec w} (hr : IsNearestReal s r) (h1 : 2 ^ (mb w + 1) ≤ s * 2 ^ unitExp w) (h2 : s ≤ 2 ^ bias w) :
    |rv r - s| ≤ ulpHalf w * s := by
  have hU : (0:ℝ) < 2 ^ unitExp w := by positivity
  have hb : 0 < mb w := Fp.mb_pos w
  have hS0 : 0 ≤ s * 2 ^ unitExp w := le_trans (by positivity) h1
  obtain ⟨p, p1, p2⟩ := exists_below (b := mb w) (n := ⌊s * 2 ^ unitExp w⌋₊) (d := 1) Nat.one_pos
  obtain ⟨k, hk, hk', hk''⟩ := magVal_step (mb w) p
  rw [Nat.mul_one] at p1 p2
  have q1 : (magVal (mb w) p : ℝ) ≤ s * 2 ^ unitExp w := le_trans (by exact_mod_cast p1) (Nat.floor_le hS0)
  have q2 : s * 2 ^ unitExp w < magVal (mb w) (p + 1) := by
    refine lt_of_lt_of_le (Nat.lt_floor_add_one _) ?_
    exact_mod_cast p2
  have hk0 : 2 ^ mb w * 2 ^ k ≤ magVal (mb w) p := by
    rcases hk' with h0 | h0
    · exfalso
      subst h0
      rw [Nat.pow_zero, Nat.mul_one] at hk''
      have : (magVal (mb w) (p + 1) : ℝ) ≤ 2 ^ (mb w + 1) := by exact_mod_cast hk''
      linarith
    · exact h0
  have hkr : (magVal (mb w) (p + 1) : ℝ) = magVal (mb w) p + 2 ^ k := by exact_mod_cast hk
  have hk1 : (2 ^ mb w : ℝ) * 2 ^ k ≤ magVal (mb w) p := by exact_mod_cast hk0
  have hpl : p + 1 < infMag w := by
    have e : bias w + unitExp w = mb w + (emax w - 2) := by rcases h with h | h <;> subst h <;> rfl
    have e1 := magVal_kf (b := mb w) (k := emax w - 2) (f := 2 ^ mb w) (Or.inr (Nat.le_refl _)) (Nat.pow_le_pow_right (by omega) (by omega))
    have : (magVal (mb w) p : ℝ) ≤ magVal (mb w) ((emax w - 2) * 2 ^ mb w + 2 ^ mb w) := by
      rw [e1]
      refine le_trans q1 ?_
      push_cast
      rw [← pow_add, ← e, pow_add]
      exact mul_le_mul_of_nonneg_right h2 hU.le
    have h3 : p ≤ (emax w - 2) * 2 ^ mb w + 2 ^ mb w := magVal_le.1 (by exact_mod_cast this)
    have e2 : 0 < emax w ∧ infMag w = (emax w - 2) * 2 ^ mb w + 2 ^ mb w + 2 ^ mb w := by rcases h with h | h <;> subst h <;> decide
    have h2p : 2 ≤ 2 ^ mb w := Nat.pow_le_pow_right (n := 2) (by omega) (by omega : 1 ≤ mb w)
    omega
  have hi := infMag_lt h
  have hval : ∀ m, m < infMag w → isFinite (pack w false m) = true ∧ rv (pack w false m) = (magVal (mb w) m : ℝ) / 2 ^ unitExp w := by
    intro m hm
    refine ⟨?_, ?_⟩
    · rw [finite_iff h, mag_pack h (by omega)]; exact hm
    · rw [rv_sg, natAbs_val, mag_pack h (by omega), show neg (pack w false m) = false from msb_pack h (by omega)]
      simp [sg]
  obtain ⟨f1, v1⟩ := hval p (by omega)
  obtain ⟨f2, v2⟩ := hval (p + 1) hpl
  have n1 := (hr.2 _ f1).1
  have n2 := (hr.2 _ f2).1
  rw [v1] at n1
  rw [v2, hkr] at n2
  have d1 : (magVal (mb w) p : ℝ) / 2 ^ unitExp w ≤ s := by rw [div_le_iff₀ hU]; exact q1
  have d2 : s ≤ ((magVal (mb w) p : ℝ) + 2 ^ k) / 2 ^ unitExp w := by rw [le_div_iff₀ hU]; rw [hkr] at q2; exact q2.le
  rw [abs_of_nonpos (by linarith : (magVal (mb w) p : ℝ) / 2 ^ unitExp w - s ≤ 0)] at n1
  rw [abs_of_nonneg (by linarith : 0 ≤ ((magVal (mb w) p : ℝ) + 2 ^ k) / 2 ^ unitExp w - s)] at n2
  have d3 : 2 * |rv r - s| ≤ 2 ^ k / 2 ^ unitExp w := by
    rw [add_div] at n2; linarith
  have d4 : (2:ℝ) ^ k / 2 ^ unitExp w ≤ s / 2 ^ mb w := by
    rw [div_le_div_iff₀ hU (by positivity)]
    linarith
  unfold ulpHalf
  rw [pow_succ, one_div_mul_eq_div, le_div_iff₀ (by positivity)]
  rw [le_div_iff₀ (by positivity)] at d4
  have : 0 ≤ |rv r - s| := abs_nonneg _
  nlinarith [pow_pos (by norm_num : (0:ℝ) < 2) (mb w)]

theorem rv_pos_iff {w : Nat} {x : BitVec w} : 0 < rv x ↔ 0 < val x := by
  unfold rv
  rw [div_pos_iff_of_pos_right (by positivity)]
  exact_mod_cast Iff.rfl
theorem rv_lt_max {w : Nat} (h : W w) {x : BitVec w} (hx : isFinite x = true) : |rv x| < 2 ^ (bias w + 1) := by
  have hU : (0:ℝ) < 2 ^ unitExp w := by positivity
  rw [rv_abs, div_lt_iff₀ hU, natAbs_val]
  have hm := (finite_iff h x).1 hx
  have e2 : 0 < emax w ∧ infMag w = (emax w - 2) * 2 ^ mb w + 2 ^ mb w + 2 ^ mb w := by rcases h with h | h <;> subst h <;> decide
  have e1 := magVal_kf (b := mb w) (k := emax w - 2) (f := 2 ^ mb w + 2 ^ mb w) (Or.inr (Nat.le_add_left _ _)) (by rw [Nat.pow_succ]; omega)
  have e : bias w + unitExp w = mb w + (emax w - 2) := by rcases h with h | h <;> subst h <;> rfl
  rw [← Nat.add_assoc, ← e2.2] at e1
  have : magVal (mb w) (mag x) < magVal (mb w) (infMag w) := magVal_lt.2 hm
  rw [e1] at this
  have h3 : (magVal (mb w) (mag x) : ℝ) < ((2 ^ mb w + 2 ^ mb w) * 2 ^ (emax w - 2) : Nat) := by exact_mod_cast this
  refine lt_of_lt_of_eq h3 ?_
  push_cast
  have e' : (2:ℝ) ^ bias w * 2 ^ unitExp w = 2 ^ mb w * 2 ^ (emax w - 2) := by rw [← pow_add, ← pow_add, e]
  rw [pow_succ, mul_assoc, mul_comm (2:ℝ) (2 ^ unitExp w), ← mul_assoc, e']; ring
/-- the square root has a relative error of at most `u` -/
theorem fsqrt_e {w : Nat} (h : W w) {x : BitVec w} (hx : isFinite x = true) (h0 : 0 < rv x) :
    isFinite (fsqrt x) = true ∧ |rv (fsqrt x) - Real.sqrt (rv x)| ≤ ulpHalf w * Real.sqrt (rv x) := by
  have hn := (fsqrt_nearest h hx (rv_pos_iff.1 h0)).1
  have hU : (0:ℝ) < 2 ^ unitExp w := by positivity
  have hUn : (2:ℝ) ^ (mb w + 1) * 2 ^ (mb w + 1) ≤ 2 ^ unitExp w := by
    rw [← pow_add]
    exact pow_le_pow_right₀ (by norm_num) (by rcases h with h | h <;> subst h <;> decide)
  refine ⟨hn.1, nearest_err h hn ?_ ?_⟩
  · have hv : (1:ℝ) ≤ val x := by exact_mod_cast rv_pos_iff.1 h0
    rw [show Real.sqrt (rv x) * 2 ^ unitExp w = Real.sqrt (rv x * (2 ^ unitExp w * 2 ^ unitExp w)) by
      rw [Real.sqrt_mul' _ (by positivity), Real.sqrt_mul_self hU.le]]
    apply Real.le_sqrt_of_sq_le
    unfold rv
    rw [← mul_assoc, div_mul_cancel₀ _ (ne_of_gt hU), pow_two]
    nlinarith
  · rw [Real.sqrt_le_left (by positivity)]
    have h1 := rv_lt_max h hx
    rw [abs_of_pos h0, pow_succ] at h1
    have h2 : (2:ℝ) ≤ 2 ^ bias w := by
      calc (2:ℝ) = 2 ^ 1 := by norm_num
        _ ≤ 2 ^ bias w := pow_le_pow_right₀ (by norm_num) (by rcases h with h | h <;> subst h <;> decide)
    nlinarith

/-! ### conversions between the formats -/
theorem widen_rv {x : BitVec 32} (hx : isFinite x = true) : isFinite (widen x) = true ∧ rv (widen x) = rv x := by
  have a := finite_cls hx
  obtain ⟨f, e, hf, hfl, he⟩ := val_split x
  have he2 : e < 254 := by
    have := expF_le (Or.inl rfl) x
    have h3 : expF x ≠ emax 32 := by simpa [isFinite] using hx
    have : emax 32 = 255 := rfl
    omega
  have hw : widen x = round 64 (neg x) ((val x).natAbs * 2 ^ (unitExp 64 - unitExp 32)) 1 := by
    unfold widen; rw [if_neg (by rw [a.1]; decide), if_neg (by rw [a.2]; decide)]
  rw [hw]
  have hn : (val x).natAbs * 2 ^ (unitExp 64 - unitExp 32) = f * 2 ^ (e + (unitExp 64 - unitExp 32)) := by
    rw [hf, Nat.mul_assoc, ← Nat.pow_add]
  have hR : Repr 64 (f * 2 ^ (e + (unitExp 64 - unitExp 32))) := by
    apply repr_mk
    · exact Nat.le_of_lt (Nat.lt_of_lt_of_le hfl (Nat.pow_le_pow_right (by omega) (by decide)))
    · have e1 := magVal_kf (b := mb 64) (k := 2046) (f := 2 ^ 52) (Or.inr (Nat.le_refl _)) (Nat.pow_le_pow_right (by omega) (by decide))
      rw [show infMag 64 = 2046 * 2 ^ mb 64 + 2 ^ 52 from rfl, e1]
      refine Nat.mul_lt_mul_of_lt_of_le (Nat.lt_of_lt_of_le hfl (Nat.pow_le_pow_right (by omega) (by decide))) (Nat.pow_le_pow_right (by omega) ?_) (Nat.two_pow_pos _)
      have : unitExp 64 - unitExp 32 = 925 := rfl
      omega
  obtain ⟨m, hm, hm2⟩ := hR
  obtain ⟨r1, r2⟩ := round_repr (Or.inr rfl) (s := neg x) hm (hn.trans hm2)
  refine ⟨r1, ?_⟩
  unfold rv
  rw [r2]
  have hs : ((if neg x then -(((val x).natAbs * 2 ^ (unitExp 64 - unitExp 32) : Nat) : Int) else (((val x).natAbs * 2 ^ (unitExp 64 - unitExp 32) : Nat) : Int) : Int) : ℝ)
      = (val x : ℝ) * 2 ^ (unitExp 64 - unitExp 32) := by
    have : (val x : ℝ) = if neg x then -((val x).natAbs : ℝ) else ((val x).natAbs : ℝ) := by
      rw [natAbs_val]; unfold val; cases neg x <;> simp
    rw [this]; push_cast; cases neg x <;> simp
  rw [hs, div_eq_div_iff (by positivity) (by positivity), mul_assoc, ← pow_add]
  rfl
theorem narrow_e {x : BitVec 64} (hx : isFinite x = true) (hX : |rv x| ≤ 2 ^ 127) :
    isFinite (narrow x) = true ∧ |rv (narrow x) - rv x| ≤ ulpHalf 32 * |rv x| + tiny 32 := by
  have a := finite_cls hx
  have hw : narrow x = round 32 (neg x) (val x).natAbs (2 ^ (unitExp 64 - unitExp 32)) := by
    unfold narrow; rw [if_neg (by rw [a.1]; decide), if_neg (by rw [a.2]; decide)]
  have e : ((val x).natAbs : ℝ) / ((2 ^ (unitExp 64 - unitExp 32) : Nat) : ℝ) / 2 ^ unitExp 32 = ((val x).natAbs : ℝ) / 2 ^ unitExp 64 := by
    push_cast
    rw [div_div, ← pow_add]; rfl
  rw [hw]
  have hf : isFinite (round 32 (neg x) (val x).natAbs (2 ^ (unitExp 64 - unitExp 32))) = true := by
    apply round_finite (Or.inl rfl) (Nat.two_pow_pos _)
    rw [e, ← rv_abs]; exact hX
  refine ⟨hf, ?_⟩
  have := or_add (ulp_pos 32).le (tiny_pos 32).le (rv_round_err (Or.inl rfl) (Nat.two_pow_pos _) hf)
  rw [e, ← rv_sg] at this
  exact this
end Dpm.Fp
