import Mathlib.Data.Real.Basic
import Mathlib.Tactic.Ring
import Mathlib.Tactic.Linarith
import Mathlib.Tactic.Positivity
import Mathlib.Tactic.NormNum
import Mathlib.Algebra.Order.Floor.Ring
import Mathlib.Algebra.Order.Archimedean.Real.Basic
/-! Bounds of integer polynomials on an interval, by subdivision and Taylor shift, checked in integer arithmetic. -/
namespace Dpm.Poly

/-- value of the polynomial with the given coefficients, constant term first -/
noncomputable def evalP : List Int → ℝ → ℝ
  | [], _ => 0
  | a :: p, x => a + x * evalP p x
/-- coefficients of `c + (h + m) q(h)` -/
def goP (m : Int) : Int → List Int → List Int
  | c, [] => [c]
  | c, x :: xs => (c + m * x) :: goP m x xs
/-- coefficients of `p(m + h)` -/
def shiftP (m : Int) : List Int → List Int
  | [] => []
  | a :: p => goP m a (shiftP m p)
def sumAbs : List Int → Nat
  | [] => 0
  | a :: p => a.natAbs + sumAbs p
/-- coefficients of `S^n p(t/S)` -/
def scaleP (S : Int) : List Int → List Int
  | [] => []
  | a :: p => (a * S ^ p.length) :: scaleP S p

theorem evalP_go (m : Int) (h : ℝ) : ∀ (q : List Int) (c : Int), evalP (goP m c q) h = c + (h + m) * evalP q h := by
  intro q
  induction q with
  | nil => intro c; simp [goP, evalP]
  | cons x xs ih => intro c; simp only [goP, evalP]; rw [ih]; push_cast; ring
theorem evalP_shift (m : Int) (h : ℝ) : ∀ p : List Int, evalP (shiftP m p) h = evalP p (m + h) := by
  intro p
  induction p with
  | nil => rfl
  | cons a p ih => simp only [shiftP, evalP]; rw [evalP_go, ih]; ring
theorem evalP_abs {h : ℝ} (hh : |h| ≤ 1) : ∀ p : List Int, |evalP p h| ≤ sumAbs p := by
  intro p
  induction p with
  | nil => simp [evalP, sumAbs]
  | cons a p ih =>
    simp only [evalP, sumAbs]
    refine le_trans (abs_add_le _ _) ?_
    rw [abs_mul]; push_cast
    have h2 : |h| * |evalP p h| ≤ 1 * sumAbs p := mul_le_mul hh ih (abs_nonneg _) (by norm_num)
    have h1 : |(a : ℝ)| = (a.natAbs : ℝ) := by rw [Nat.cast_natAbs]; push_cast; rfl
    linarith
theorem evalP_scale (S : Int) (t : ℝ) : ∀ p : List Int, (S : ℝ) * evalP (scaleP S p) (S * t) = (S : ℝ) ^ p.length * evalP p t := by
  intro p
  induction p with
  | nil => simp [scaleP, evalP]
  | cons a p ih =>
    simp only [scaleP, evalP, List.length_cons]
    push_cast
    have : (S : ℝ) * (a * S ^ p.length + S * t * evalP (scaleP S p) (S * t)) = S * a * S ^ p.length + S * t * (S * evalP (scaleP S p) (S * t)) := by ring
    rw [this, ih]; ring

/-- `|p| ≤ E` on each of the intervals `[2i, 2i+2]/S`, `i0 ≤ i < i0 + N` -/
def boundOk (S : Int) (i0 N E : Nat) (p : List Int) : Bool :=
  (List.range N).all fun i => decide (sumAbs (shiftP (2 * ((i0 + i : Nat) : Int) + 1) (scaleP S p)) ≤ E)

theorem bound_spec {S : Int} {i0 N E : Nat} {p : List Int} (hS : 0 < S) (hN : 0 < N) (hb : boundOk S i0 N E p = true) {t : ℝ}
    (h0 : 2 * (i0 : ℝ) ≤ S * t) (h1 : S * t ≤ 2 * ((i0 + N : Nat) : ℝ)) : (S : ℝ) ^ p.length * |evalP p t| ≤ S * E := by
  have hSR : (0 : ℝ) < S := by exact_mod_cast hS
  -- the interval
  obtain ⟨i, hi, ha, hc⟩ : ∃ i, i < N ∧ 2 * ((i0 + i : Nat) : ℝ) ≤ S * t ∧ S * t ≤ 2 * ((i0 + i : Nat) : ℝ) + 2 := by
    by_cases he : (S : ℝ) * t = 2 * ((i0 + N : Nat) : ℝ)
    · refine ⟨N - 1, by omega, ?_, ?_⟩
      · rw [he]; push_cast [Nat.cast_sub (show 1 ≤ N from hN)]; linarith
      · rw [he]; push_cast [Nat.cast_sub (show 1 ≤ N from hN)]; linarith
    · have hlt : (S : ℝ) * t < 2 * ((i0 + N : Nat) : ℝ) := lt_of_le_of_ne h1 he
      have hnn : (0 : ℝ) ≤ (S * t - 2 * i0) / 2 := by linarith
      refine ⟨⌊(S * t - 2 * i0) / 2⌋₊, ?_, ?_, ?_⟩
      · rw [Nat.floor_lt hnn]; push_cast at hlt; linarith
      · have := Nat.floor_le hnn; push_cast; linarith
      · have := Nat.lt_floor_add_one ((S * t - 2 * i0) / 2); push_cast; linarith
  have hk := List.all_eq_true.1 hb i (List.mem_range.2 hi)
  rw [decide_eq_true_eq] at hk
  have he := evalP_shift (2 * ((i0 + i : Nat) : Int) + 1) (S * t - ((2 * ((i0 + i : Nat) : Int) + 1 : Int) : ℝ)) (scaleP S p)
  rw [add_sub_cancel] at he
  have hle := evalP_abs (h := S * t - ((2 * ((i0 + i : Nat) : Int) + 1 : Int) : ℝ)) (by
    rw [abs_le]; push_cast at ha hc ⊢; constructor <;> linarith) (shiftP (2 * ((i0 + i : Nat) : Int) + 1) (scaleP S p))
  rw [he] at hle
  have h2 : |evalP (scaleP S p) (S * t)| ≤ E := le_trans hle (by exact_mod_cast hk)
  have h3 := evalP_scale S t p
  have h4 : |(S : ℝ) ^ p.length * evalP p t| = S * |evalP (scaleP S p) (S * t)| := by rw [← h3, abs_mul, abs_of_pos hSR]
  rw [abs_mul, abs_of_pos (pow_pos hSR _)] at h4
  rw [h4]
  exact mul_le_mul_of_nonneg_left h2 hSR.le
end Dpm.Poly
