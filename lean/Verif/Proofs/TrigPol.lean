import Verif.Proofs.TrigTaylor
import Verif.Proofs.PolyCert
import Verif.Proofs.LogAcc
import Verif.Proofs.Log2Eval
import Verif.Proofs.Trig
/-! The sine and cosine polynomials of `eval_sincos` against sine and cosine. -/
namespace Dpm.X86
open Dpm.Reg Dpm.Fp Dpm.Poly

/-- the polynomial with the code's coefficients, exactly -/
noncomputable def polR {w : Nat} (c : List (BitVec w)) (t : ℝ) : ℝ :=
  ((((rv (c.getD 0 0) * t + rv (c.getD 1 0)) * t + rv (c.getD 2 0)) * t + rv (c.getD 3 0)) * t + rv (c.getD 4 0)) * t + rv (c.getD 5 0)
/-- `19! 2^unitExp` times `1 + t p(t)` minus the Taylor polynomial of sine, as a polynomial in `t = z^2` -/
def sinD (w : Nat) : List Int :=
  [0,
   val ((sincof w).getD 5 0) * 121645100408832000 + 20274183401472000 * 2 ^ unitExp w,
   val ((sincof w).getD 4 0) * 121645100408832000 - 1013709170073600 * 2 ^ unitExp w,
   val ((sincof w).getD 3 0) * 121645100408832000 + 24135932620800 * 2 ^ unitExp w,
   val ((sincof w).getD 2 0) * 121645100408832000 - 335221286400 * 2 ^ unitExp w,
   val ((sincof w).getD 1 0) * 121645100408832000 + 3047466240 * 2 ^ unitExp w,
   val ((sincof w).getD 0 0) * 121645100408832000 - 19535040 * 2 ^ unitExp w,
   93024 * 2 ^ unitExp w,
   -(342 * 2 ^ unitExp w),
   1 * 2 ^ unitExp w]
/-- `18! 2^unitExp` times `1 - t/2 + t^2 p(t)` minus the Taylor polynomial of cosine -/
def cosD (w : Nat) : List Int :=
  [0,
   0,
   val ((coscof w).getD 5 0) * 6402373705728000 - 266765571072000 * 2 ^ unitExp w,
   val ((coscof w).getD 4 0) * 6402373705728000 + 8892185702400 * 2 ^ unitExp w,
   val ((coscof w).getD 3 0) * 6402373705728000 - 158789030400 * 2 ^ unitExp w,
   val ((coscof w).getD 2 0) * 6402373705728000 + 1764322560 * 2 ^ unitExp w,
   val ((coscof w).getD 1 0) * 6402373705728000 - 13366080 * 2 ^ unitExp w,
   val ((coscof w).getD 0 0) * 6402373705728000 + 73440 * 2 ^ unitExp w,
   -(306 * 2 ^ unitExp w),
   1 * 2 ^ unitExp w]

theorem rv_val {w : Nat} (x : BitVec w) : (val x : ℝ) = rv x * 2 ^ unitExp w := by
  unfold rv; rw [div_mul_cancel₀]; positivity
theorem sinD_eq (w : Nat) (z : ℝ) :
    z * evalP (sinD w) (z ^ 2) = 121645100408832000 * 2 ^ unitExp w * (z + z * (z ^ 2 * polR (sincof w) (z ^ 2)) - sinT 10 z) := by
  unfold sinT sinD polR
  simp only [evalP, Finset.sum_range_succ, Finset.sum_range_zero]
  push_cast
  simp only [rv_val]
  generalize (2 : ℝ) ^ unitExp w = M
  norm_num [Nat.factorial]
  ring
theorem cosD_eq (w : Nat) (z : ℝ) :
    evalP (cosD w) (z ^ 2) = 6402373705728000 * 2 ^ unitExp w * (1 - z ^ 2 / 2 + z ^ 2 * z ^ 2 * polR (coscof w) (z ^ 2) - cosT 10 z) := by
  unfold cosT cosD polR
  simp only [evalP, Finset.sum_range_succ, Finset.sum_range_zero]
  push_cast
  simp only [rv_val]
  generalize (2 : ℝ) ^ unitExp w = M
  norm_num [Nat.factorial]
  ring

/-! ### certificates -/
theorem cert_bd {w : Nat} (h : W w) {S : Int} {N k F : Nat} {p : List Int} (hS : 0 < S) (hN : 0 < N) (hl : p.length = 10)
    (hb : boundOk S 0 N (k * F * S.toNat ^ 9 * 2 ^ (unitExp w - (mb w + 8))) p = true) {t : ℝ} (h0 : 0 ≤ t) (h1 : S * t ≤ 2 * N) :
    |evalP p t| ≤ k / 128 * ulpHalf w * (F * 2 ^ unitExp w) := by
  have hSR : (0 : ℝ) < S := by exact_mod_cast hS
  have hb := bound_spec hS hN hb (t := t) (by push_cast; rw [mul_zero]; positivity) (by push_cast; rw [zero_add]; exact h1)
  rw [hl] at hb
  have hST : ((S.toNat : Nat) : ℝ) = S := by
    have : ((S.toNat : Nat) : Int) = S := Int.toNat_of_nonneg hS.le
    exact_mod_cast this
  push_cast at hb
  rw [hST] at hb
  have hu : (2 : ℝ) ^ (unitExp w - (mb w + 8)) = 1 / 128 * ulpHalf w * 2 ^ unitExp w := by
    have hle : mb w + 8 ≤ unitExp w := by rcases h with h | h <;> subst h <;> decide
    have : (2 : ℝ) ^ unitExp w = 2 ^ (unitExp w - (mb w + 8)) * (2 ^ (mb w + 1) * 2 ^ 7) := by
      rw [← pow_add, ← pow_add]; congr 1; omega
    rw [this]; unfold ulpHalf
    field_simp; norm_num
  rw [hu] at hb
  have e : (S : ℝ) * (k * F * S ^ 9 * (1 / 128 * ulpHalf w * 2 ^ unitExp w)) = S ^ 10 * (k / 128 * ulpHalf w * (F * 2 ^ unitExp w)) := by ring
  rw [e] at hb
  exact le_of_mul_le_mul_left hb (pow_pos hSR _)

theorem sinC32 : boundOk 8 0 9 (20 * 121645100408832000 * (8:Int).toNat ^ 9 * 2 ^ (unitExp 32 - (mb 32 + 8))) (sinD 32) = true := by decide +kernel
theorem cosC32 : boundOk 8 0 9 (13 * 6402373705728000 * (8:Int).toNat ^ 9 * 2 ^ (unitExp 32 - (mb 32 + 8))) (cosD 32) = true := by decide +kernel
theorem sinC64 : boundOk 32 0 10 (18 * 121645100408832000 * (32:Int).toNat ^ 9 * 2 ^ (unitExp 64 - (mb 64 + 8))) (sinD 64) = true := by decide +kernel
theorem cosC64 : boundOk 32 0 10 (13 * 6402373705728000 * (32:Int).toNat ^ 9 * 2 ^ (unitExp 64 - (mb 64 + 8))) (cosD 64) = true := by decide +kernel
theorem sinC64' : boundOk 8 0 6 (128 * 20900 * 121645100408832000 * (8:Int).toNat ^ 9 * 2 ^ (unitExp 64 - (mb 64 + 8))) (sinD 64) = true := by decide +kernel
theorem cosC64' : boundOk 8 0 6 (128 * 1640 * 6402373705728000 * (8:Int).toNat ^ 9 * 2 ^ (unitExp 64 - (mb 64 + 8))) (cosD 64) = true := by decide +kernel

/-! ### the exact polynomials -/
theorem sin_ex_of {w : Nat} {z K R Z : ℝ} (hz : |z| ≤ Z) (hZ : Z ≤ 3 / 2)
    (hb : |evalP (sinD w) (z ^ 2)| ≤ K * ulpHalf w * ((121645100408832000 : Nat) * 2 ^ unitExp w)) (hR : Z ^ 19 * (2 / 2432902008176640000) ≤ R * ulpHalf w) :
    |z + z * (z ^ 2 * polR (sincof w) (z ^ 2)) - Real.sin z| ≤ (K + R) * ulpHalf w * |z| := by
  obtain ⟨hs, _⟩ := taylor_err (z := z) (n := 10) (le_trans (div_le_div_of_nonneg_right (le_trans hz hZ) (by norm_num)) (by norm_num))
  have h1 : |z| ^ (2 * 10) / ((2 * 10).factorial : ℝ) * 2 ≤ R * ulpHalf w * |z| := by
    have : |z| ^ (2 * 10) / ((2 * 10).factorial : ℝ) * 2 = |z| ^ 19 * (2 / 2432902008176640000) * |z| := by
      norm_num [Nat.factorial]; ring
    rw [this]
    refine mul_le_mul_of_nonneg_right (le_trans ?_ hR) (abs_nonneg _)
    exact mul_le_mul_of_nonneg_right (pow_le_pow_left₀ (abs_nonneg _) hz _) (by norm_num)
  have h2 := sinD_eq w z
  have hM : (0 : ℝ) < 2 ^ unitExp w := by positivity
  have h3 : |z + z * (z ^ 2 * polR (sincof w) (z ^ 2)) - sinT 10 z| ≤ K * ulpHalf w * |z| := by
    have : |121645100408832000 * 2 ^ unitExp w * (z + z * (z ^ 2 * polR (sincof w) (z ^ 2)) - sinT 10 z)| ≤ |z| * (K * ulpHalf w * ((121645100408832000 : Nat) * 2 ^ unitExp w)) := by
      rw [← h2, abs_mul]; exact mul_le_mul_of_nonneg_left hb (abs_nonneg _)
    rw [abs_mul, abs_of_pos (by positivity)] at this
    refine le_of_mul_le_mul_left (le_trans this (le_of_eq ?_)) (show (0:ℝ) < 121645100408832000 * 2 ^ unitExp w by positivity)
    push_cast; ring
  have h4 := le_trans (abs_sub_le (z + z * (z ^ 2 * polR (sincof w) (z ^ 2))) (sinT 10 z) (Real.sin z)) (add_le_add h3 (show |sinT 10 z - Real.sin z| ≤ R * ulpHalf w * |z| by rw [abs_sub_comm]; exact le_trans hs h1))
  refine le_trans h4 (le_of_eq (by ring))
theorem cos_ex_of {w : Nat} {z K R Z : ℝ} (hz : |z| ≤ Z) (hZ : Z ≤ 3 / 2)
    (hb : |evalP (cosD w) (z ^ 2)| ≤ K * ulpHalf w * ((6402373705728000 : Nat) * 2 ^ unitExp w)) (hR : Z ^ 20 * (2 / 2432902008176640000) ≤ R * ulpHalf w) :
    |1 - z ^ 2 / 2 + z ^ 2 * z ^ 2 * polR (coscof w) (z ^ 2) - Real.cos z| ≤ (K + R) * ulpHalf w := by
  obtain ⟨_, hs⟩ := taylor_err (z := z) (n := 10) (le_trans (div_le_div_of_nonneg_right (le_trans hz hZ) (by norm_num)) (by norm_num))
  have h1 : |z| ^ (2 * 10) / ((2 * 10).factorial : ℝ) * 2 ≤ R * ulpHalf w := by
    have : |z| ^ (2 * 10) / ((2 * 10).factorial : ℝ) * 2 = |z| ^ 20 * (2 / 2432902008176640000) := by
      norm_num [Nat.factorial]; ring
    rw [this]
    refine le_trans ?_ hR
    exact mul_le_mul_of_nonneg_right (pow_le_pow_left₀ (abs_nonneg _) hz _) (by norm_num)
  have h2 := cosD_eq w z
  have hM : (0 : ℝ) < 2 ^ unitExp w := by positivity
  have h3 : |1 - z ^ 2 / 2 + z ^ 2 * z ^ 2 * polR (coscof w) (z ^ 2) - cosT 10 z| ≤ K * ulpHalf w := by
    rw [h2] at hb
    rw [abs_mul, abs_of_pos (by positivity)] at hb
    refine le_of_mul_le_mul_left (le_trans hb (le_of_eq ?_)) (show (0:ℝ) < 6402373705728000 * 2 ^ unitExp w by positivity)
    push_cast; ring
  have h4 := le_trans (abs_sub_le (1 - z ^ 2 / 2 + z ^ 2 * z ^ 2 * polR (coscof w) (z ^ 2)) (cosT 10 z) (Real.cos z)) (add_le_add h3 (show |cosT 10 z - Real.cos z| ≤ R * ulpHalf w by rw [abs_sub_comm]; exact le_trans hs h1))
  refine le_trans h4 (le_of_eq (by ring))
/-- the arguments for which the polynomials are exact up to a fraction of `u` -/
noncomputable def zmax (w : Nat) : ℝ := if w = 32 then 3 / 2 else 786 / 1000
theorem sq_le {z Z : ℝ} (hz : |z| ≤ Z) : z ^ 2 ≤ Z ^ 2 := by
  rw [← sq_abs]; exact pow_le_pow_left₀ (abs_nonneg _) hz 2
theorem zmax32 : zmax 32 = 3 / 2 := if_pos rfl
theorem zmax64 : zmax 64 = 786 / 1000 := if_neg (by decide)
theorem sin_ex {w : Nat} (h : W w) {z : ℝ} (hz : |z| ≤ zmax w) :
    |z + z * (z ^ 2 * polR (sincof w) (z ^ 2)) - Real.sin z| ≤ 21 / 128 * ulpHalf w * |z| := by
  rcases h with h | h <;> subst h
  · rw [zmax32] at hz
    have hb := cert_bd W_32 (by norm_num) (by norm_num) rfl sinC32 (t := z ^ 2) (sq_nonneg z) (by have := sq_le hz; push_cast; linarith)
    have := sin_ex_of hz (by norm_num) (R := 1 / 128) hb (by rw [ulp32]; norm_num)
    refine le_trans this (le_of_eq ?_); push_cast; ring
  · rw [zmax64] at hz
    have hb := cert_bd W_64 (by norm_num) (by norm_num) rfl sinC64 (t := z ^ 2) (sq_nonneg z) (by have := sq_le hz; push_cast; linarith)
    have := sin_ex_of hz (by norm_num) (R := 3 / 128) hb (by rw [ulp64]; norm_num)
    refine le_trans this (le_of_eq ?_); push_cast; ring
theorem cos_ex {w : Nat} (h : W w) {z : ℝ} (hz : |z| ≤ zmax w) :
    |1 - z ^ 2 / 2 + z ^ 2 * z ^ 2 * polR (coscof w) (z ^ 2) - Real.cos z| ≤ 14 / 128 * ulpHalf w := by
  rcases h with h | h <;> subst h
  · rw [zmax32] at hz
    have hb := cert_bd W_32 (by norm_num) (by norm_num) rfl cosC32 (t := z ^ 2) (sq_nonneg z) (by have := sq_le hz; push_cast; linarith)
    have := cos_ex_of hz (by norm_num) (R := 1 / 128) hb (by rw [ulp32]; norm_num)
    refine le_trans this (le_of_eq ?_); push_cast; ring
  · rw [zmax64] at hz
    have hb := cert_bd W_64 (by norm_num) (by norm_num) rfl cosC64 (t := z ^ 2) (sq_nonneg z) (by have := sq_le hz; push_cast; linarith)
    have := cos_ex_of hz (by norm_num) (R := 1 / 128) hb (by rw [ulp64]; norm_num)
    refine le_trans this (le_of_eq ?_); push_cast; ring
/-- beyond `pi/4`, double precision -/
theorem sin_ex_wide {z : ℝ} (hz : |z| ≤ 12 / 10) :
    |z + z * (z ^ 2 * polR (sincof 64) (z ^ 2)) - Real.sin z| ≤ 20901 * ulpHalf 64 * |z| := by
  have hb := cert_bd W_64 (by norm_num) (by norm_num) rfl sinC64' (t := z ^ 2) (sq_nonneg z) (by have := sq_le hz; push_cast; linarith)
  have := sin_ex_of hz (by norm_num) (R := 1) hb (by rw [ulp64]; norm_num)
  refine le_trans this (le_of_eq ?_); push_cast; ring
theorem cos_ex_wide {z : ℝ} (hz : |z| ≤ 12 / 10) :
    |1 - z ^ 2 / 2 + z ^ 2 * z ^ 2 * polR (coscof 64) (z ^ 2) - Real.cos z| ≤ 1641 * ulpHalf 64 := by
  have hb := cert_bd W_64 (by norm_num) (by norm_num) rfl cosC64' (t := z ^ 2) (sq_nonneg z) (by have := sq_le hz; push_cast; linarith)
  have := cos_ex_of hz (by norm_num) (R := 1) hb (by rw [ulp64]; norm_num)
  refine le_trans this (le_of_eq ?_); push_cast; ring
end Dpm.X86
