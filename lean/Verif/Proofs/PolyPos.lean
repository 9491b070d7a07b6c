import Verif.Proofs.PolyCert
import Mathlib.Analysis.Calculus.Deriv.Mul
import Mathlib.Analysis.Calculus.Deriv.Inv
import Mathlib.Analysis.Calculus.Deriv.Add
import Mathlib.Analysis.Calculus.MeanValue
import Mathlib.Analysis.SpecialFunctions.Trigonometric.ArctanDeriv
import Mathlib.Analysis.SpecialFunctions.Trigonometric.InverseDeriv
/-! Nonnegative integer polynomials on an interval, and rational approximations of the arctangent and the arcsine through their derivatives. -/
namespace Dpm.Poly

def addP : List Int → List Int → List Int
  | [], q => q
  | p, [] => p
  | a :: p, b :: q => (a + b) :: addP p q
def mulC (k : Int) (p : List Int) : List Int := p.map (k * ·)
def mulP : List Int → List Int → List Int
  | [], _ => []
  | a :: p, q => addP (mulC a q) (0 :: mulP p q)
/-- coefficients of the derivative of `sum a_i t^(k+i)`, divided by `t^(k-1)` -/
def derFrom (k : Int) : List Int → List Int
  | [] => []
  | a :: p => (k * a) :: derFrom (k + 1) p
def derP : List Int → List Int
  | [] => []
  | _ :: p => derFrom 1 p

theorem evalP_add (x : ℝ) : ∀ p q : List Int, evalP (addP p q) x = evalP p x + evalP q x
  | [], q => by simp [addP, evalP]
  | a :: p, [] => by simp [addP, evalP]
  | a :: p, b :: q => by simp only [addP, evalP]; rw [evalP_add x p q]; push_cast; ring
theorem evalP_mulC (k : Int) (x : ℝ) : ∀ p : List Int, evalP (mulC k p) x = k * evalP p x
  | [] => by simp [mulC, evalP]
  | a :: p => by
    have := evalP_mulC k x p
    simp only [mulC, List.map_cons, evalP] at *; rw [this]; push_cast; ring
theorem evalP_mul (x : ℝ) : ∀ p q : List Int, evalP (mulP p q) x = evalP p x * evalP q x
  | [], q => by simp [mulP, evalP]
  | a :: p, q => by
    simp only [mulP, evalP]; rw [evalP_add, evalP_mulC]; simp only [evalP]; rw [evalP_mul x p q]; push_cast; ring
theorem evalP_derFrom (x : ℝ) : ∀ (p : List Int) (k : Int), evalP (derFrom (k + 1) p) x = evalP (derFrom k p) x + evalP p x
  | [], k => by simp [derFrom, evalP]
  | a :: p, k => by simp only [derFrom, evalP]; rw [evalP_derFrom x p (k + 1)]; push_cast; ring
theorem evalP_derFrom0 (x : ℝ) : ∀ (p : List Int), evalP (derFrom 0 p) x = x * evalP (derP p) x
  | [] => by simp [derFrom, derP, evalP]
  | a :: p => by simp only [derFrom, derP, evalP]; push_cast; ring
theorem evalP_deriv (x : ℝ) : ∀ p : List Int, HasDerivAt (evalP p) (evalP (derP p) x) x
  | [] => by
    have : evalP [] = fun _ => (0 : ℝ) := by funext y; rfl
    rw [this]; exact hasDerivAt_const x 0
  | a :: p => by
    have e : evalP (a :: p) = fun y => (a : ℝ) + y * evalP p y := by funext y; rfl
    rw [e]
    have h := ((hasDerivAt_id x).mul (evalP_deriv x p)).const_add (a : ℝ)
    refine h.congr_deriv ?_
    show 1 * evalP p x + id x * evalP (derP p) x = evalP (derP (a :: p)) x
    have h2 := evalP_derFrom x p 0
    rw [evalP_derFrom0] at h2
    show _ = evalP (derFrom 1 p) x
    rw [show (1 : Int) = 0 + 1 from rfl, h2]; simp [id]; ring

/-- `p ≥ 0` on each of the intervals `[2i, 2i+2]/S`, `i0 ≤ i < i0 + N` -/
def headPos : List Int → Bool
  | [] => true
  | a :: p => decide ((sumAbs p : Int) ≤ a)
/-- evaluation of an integer and of a list before they are used (so that the kernel does not evaluate them again and again) -/
def forceI {α : Type} (x : Int) (f : Int → α) : α :=
  match x with
  | .ofNat n => match n with
    | 0 => f 0
    | k + 1 => f (.ofNat (k + 1))
  | .negSucc n => match n with
    | 0 => f (-1)
    | k + 1 => f (.negSucc (k + 1))
def forceL {α : Type} : List Int → (List Int → α) → α
  | [], f => f []
  | a :: p, f => forceI a fun a => forceL p fun p => f (a :: p)
theorem forceI_eq {α : Type} (x : Int) (f : Int → α) : forceI x f = f x := by
  unfold forceI
  rcases x with n | n <;> rcases n with _ | n <;> rfl
theorem forceL_eq {α : Type} : ∀ (p : List Int) (f : List Int → α), forceL p f = f p
  | [], f => rfl
  | a :: p, f => by simp only [forceL]; rw [forceI_eq, forceL_eq p]
def posOk (S : Int) (i0 N : Nat) (p : List Int) : Bool :=
  forceL (scaleP S p) fun q => (List.range N).all fun i => forceI (2 * ((i0 + i : Nat) : Int) + 1) fun m => headPos (shiftP m q)
theorem posOk_chunk {S : Int} {i0 N : Nat} {p : List Int} (n : Nat) (h1 : posOk S i0 n p = true) (hn : n ≤ N) (h2 : posOk S (i0 + n) (N - n) p = true) : posOk S i0 N p = true := by
  unfold posOk at *
  rw [forceL_eq] at *
  rw [List.all_eq_true] at *
  intro i hi
  rw [List.mem_range] at hi
  by_cases hlt : i < n
  · exact h1 i (List.mem_range.2 hlt)
  · have := h2 (i - n) (List.mem_range.2 (by omega))
    rwa [show i0 + n + (i - n) = i0 + i by omega] at this
theorem headPos_spec {h : ℝ} (hh : |h| ≤ 1) : ∀ p : List Int, headPos p = true → 0 ≤ evalP p h
  | [], _ => le_refl _
  | a :: p, hp => by
    have h1 : (sumAbs p : Int) ≤ a := of_decide_eq_true hp
    have h2 := evalP_abs hh p
    have h3 : ((sumAbs p : Nat) : ℝ) ≤ a := by exact_mod_cast h1
    have h4 : |h * evalP p h| ≤ 1 * sumAbs p := by rw [abs_mul]; exact mul_le_mul hh h2 (abs_nonneg _) (by norm_num)
    have h5 := (abs_le.1 h4).1
    show (0 : ℝ) ≤ a + h * evalP p h
    linarith
theorem pos_spec {S : Int} {i0 N : Nat} {p : List Int} (hS : 0 < S) (hN : 0 < N) (hb : posOk S i0 N p = true) {t : ℝ}
    (h0 : 2 * (i0 : ℝ) ≤ S * t) (h1 : S * t ≤ 2 * ((i0 + N : Nat) : ℝ)) : 0 ≤ evalP p t := by
  have hSR : (0 : ℝ) < S := by exact_mod_cast hS
  unfold posOk at hb
  rw [forceL_eq] at hb
  obtain ⟨i, hi, ha, hc⟩ : ∃ i, i < N ∧ 2 * ((i0 + i : Nat) : ℝ) ≤ S * t ∧ S * t ≤ 2 * ((i0 + i : Nat) : ℝ) + 2 := by
    by_cases he : (S : ℝ) * t = 2 * ((i0 + N : Nat) : ℝ)
    · refine ⟨N - 1, by omega, ?_, ?_⟩
      · rw [he]; push_cast [Nat.cast_sub (show 1 ≤ N from hN)]; linarith
      · rw [he]; push_cast [Nat.cast_sub (show 1 ≤ N from hN)]; linarith
    · have hlt : (S : ℝ) * t < 2 * ((i0 + N : Nat) : ℝ) := lt_of_le_of_ne h1 he
      have hnn : (0 : ℝ) ≤ (S * t - 2 * i0) / 2 := by linarith
      refine ⟨⌊(S * t - 2 * i0) / 2⌋₊, ?_, ?_, ?_⟩
      · rw [Nat.floor_lt hnn]; push_cast at hlt; linarith
      · have := Nat.floor_le hnn; push_cast; linarith
      · have := Nat.lt_floor_add_one ((S * t - 2 * i0) / 2); push_cast; linarith
  have hk := List.all_eq_true.1 hb i (List.mem_range.2 hi)
  rw [forceI_eq] at hk
  have he := evalP_shift (2 * ((i0 + i : Nat) : Int) + 1) (S * t - ((2 * ((i0 + i : Nat) : Int) + 1 : Int) : ℝ)) (scaleP S p)
  rw [add_sub_cancel] at he
  have hle := headPos_spec (h := S * t - ((2 * ((i0 + i : Nat) : Int) + 1 : Int) : ℝ)) (by
    rw [abs_le]; push_cast at ha hc ⊢; constructor <;> linarith) (shiftP (2 * ((i0 + i : Nat) : Int) + 1) (scaleP S p)) hk
  rw [he] at hle
  have h3 := evalP_scale S t p
  have h4 : 0 ≤ (S : ℝ) ^ p.length * evalP p t := by rw [← h3]; exact mul_nonneg hSR.le hle
  exact nonneg_of_mul_nonneg_right h4 (pow_pos hSR _)

/-! ### `x (1 + t P(t)/Q(t))`, `t = x^2` -/
noncomputable def ratF (P Q : List Int) (x : ℝ) : ℝ := x * (1 + x ^ 2 * (evalP P (x ^ 2) / evalP Q (x ^ 2)))
/-- numerator of the derivative over `Q^2` -/
def numP (P Q : List Int) : List Int :=
  addP (addP (mulP Q Q) (mulP (0 :: P) Q)) (mulC 2 (0 :: addP (mulP (derP (0 :: P)) Q) (mulC (-1) (mulP (0 :: P) (derP Q)))))
theorem ratF_deriv {P Q : List Int} {x : ℝ} (hQ : evalP Q (x ^ 2) ≠ 0) :
    HasDerivAt (ratF P Q) (evalP (numP P Q) (x ^ 2) / evalP Q (x ^ 2) ^ 2) x := by
  have hsq : HasDerivAt (fun y : ℝ => y ^ 2) (2 * x) x := by
    have := hasDerivAt_pow 2 x; simpa using this
  have h1 : HasDerivAt (fun y : ℝ => evalP (0 :: P) (y ^ 2)) (evalP (derP (0 :: P)) (x ^ 2) * (2 * x)) x :=
    HasDerivAt.comp x (h₂ := evalP (0 :: P)) (h := fun y : ℝ => y ^ 2) (evalP_deriv (x ^ 2) (0 :: P)) hsq
  have h2 : HasDerivAt (fun y : ℝ => evalP Q (y ^ 2)) (evalP (derP Q) (x ^ 2) * (2 * x)) x :=
    HasDerivAt.comp x (h₂ := evalP Q) (h := fun y : ℝ => y ^ 2) (evalP_deriv (x ^ 2) Q) hsq
  have h3 := (hasDerivAt_id x).mul ((h1.div h2 hQ).const_add (1 : ℝ))
  have e : ratF P Q = fun y => id y * (1 + evalP (0 :: P) (y ^ 2) / evalP Q (y ^ 2)) := by
    funext y; unfold ratF; simp only [evalP, id]; push_cast; ring
  rw [e]
  refine HasDerivAt.congr_deriv (f' := _) h3 ?_
  simp only [id, Pi.div_apply]
  unfold numP
  rw [evalP_add, evalP_add, evalP_mul, evalP_mul, evalP_mulC]
  have e0 : evalP (0 :: addP (mulP (derP (0 :: P)) Q) (mulC (-1) (mulP (0 :: P) (derP Q)))) (x ^ 2) =
      x ^ 2 * (evalP (derP (0 :: P)) (x ^ 2) * evalP Q (x ^ 2) - evalP (0 :: P) (x ^ 2) * evalP (derP Q) (x ^ 2)) := by
    show ((0 : Int) : ℝ) + x ^ 2 * evalP (addP (mulP (derP (0 :: P)) Q) (mulC (-1) (mulP (0 :: P) (derP Q)))) (x ^ 2) = _
    rw [evalP_add, evalP_mul, evalP_mulC, evalP_mul]; push_cast; ring
  rw [e0]
  field_simp
  push_cast; ring
/-- mean value: a derivative bounded by `δ` -/
theorem seg_err {e e' : ℝ → ℝ} {a b δ : ℝ} (hab : a ≤ b) (hd : ∀ x, a ≤ x → x ≤ b → HasDerivAt e (e' x) x) (hb : ∀ x, a ≤ x → x ≤ b → |e' x| ≤ δ) : |e b - e a| ≤ δ * (b - a) := by
  have := (convex_Icc a b).norm_image_sub_le_of_norm_hasDerivWithin_le (f := e) (f' := e') (C := δ) (x := a) (y := b)
    (fun x hx => (hd x hx.1 hx.2).hasDerivWithinAt) (fun x hx => by rw [Real.norm_eq_abs]; exact hb x hx.1 hx.2) ⟨le_refl _, hab⟩ ⟨hab, le_refl _⟩
  rw [Real.norm_eq_abs, Real.norm_eq_abs, abs_of_nonneg (sub_nonneg.2 hab)] at this
  exact this
/-- certificate for the arctangent on one segment: `|num (1+t) - Q^2| ≤ (kn/kd) Q^2 (1+t)` -/
def atanN (P Q : List Int) : List Int := addP (mulP (numP P Q) [1, 1]) (mulC (-1) (mulP Q Q))
def atanOk (P Q : List Int) (kn kd : Int) (S : Int) (i0 N : Nat) : Bool :=
  posOk S i0 N (addP (mulC kn (mulP (mulP Q Q) [1, 1])) (mulC kd (atanN P Q))) &&
  posOk S i0 N (addP (mulC kn (mulP (mulP Q Q) [1, 1])) (mulC (-kd) (atanN P Q))) &&
  posOk S i0 N (addP Q [-1])
theorem atan_seg {P Q : List Int} {kn kd S : Int} {i0 N : Nat} (hS : 0 < S) (hN : 0 < N) (hk : 0 < kd) (hb : atanOk P Q kn kd S i0 N = true) {a b : ℝ} (ha : 0 ≤ a) (hab : a ≤ b)
    (h0 : 2 * (i0 : ℝ) ≤ S * a ^ 2) (h1 : S * b ^ 2 ≤ 2 * ((i0 + N : Nat) : ℝ)) :
    |(ratF P Q b - Real.arctan b) - (ratF P Q a - Real.arctan a)| ≤ kn / kd * (b - a) := by
  unfold atanOk at hb
  rw [Bool.and_eq_true, Bool.and_eq_true] at hb
  obtain ⟨⟨c1, c2⟩, c3⟩ := hb
  have hSR : (0 : ℝ) < S := by exact_mod_cast hS
  have hkR : (0 : ℝ) < kd := by exact_mod_cast hk
  have rng : ∀ x, a ≤ x → x ≤ b → 2 * (i0 : ℝ) ≤ S * x ^ 2 ∧ S * x ^ 2 ≤ 2 * ((i0 + N : Nat) : ℝ) := by
    intro x h2 h3
    have h4 : a ^ 2 ≤ x ^ 2 := pow_le_pow_left₀ ha h2 2
    have h5 : x ^ 2 ≤ b ^ 2 := pow_le_pow_left₀ (le_trans ha h2) h3 2
    exact ⟨le_trans h0 (mul_le_mul_of_nonneg_left h4 hSR.le), le_trans (mul_le_mul_of_nonneg_left h5 hSR.le) h1⟩
  have Qpos : ∀ x, a ≤ x → x ≤ b → 1 ≤ evalP Q (x ^ 2) := by
    intro x h2 h3
    have := pos_spec hS hN c3 (rng x h2 h3).1 (rng x h2 h3).2
    rw [evalP_add] at this
    simp only [evalP] at this; push_cast at this; linarith
  refine seg_err (e := fun x => ratF P Q x - Real.arctan x) (e' := fun x => evalP (numP P Q) (x ^ 2) / evalP Q (x ^ 2) ^ 2 - 1 / (1 + x ^ 2)) hab ?_ ?_
  · intro x h2 h3
    exact (ratF_deriv (by have := Qpos x h2 h3; linarith)).sub (Real.hasDerivAt_arctan x)
  · intro x h2 h3
    have hq := Qpos x h2 h3
    have d1 := pos_spec hS hN c1 (rng x h2 h3).1 (rng x h2 h3).2
    have d2 := pos_spec hS hN c2 (rng x h2 h3).1 (rng x h2 h3).2
    rw [evalP_add, evalP_mulC, evalP_mulC, evalP_mul, evalP_mul] at d1 d2
    have e1 : evalP (atanN P Q) (x ^ 2) = evalP (numP P Q) (x ^ 2) * (1 + x ^ 2) - evalP Q (x ^ 2) * evalP Q (x ^ 2) := by
      unfold atanN
      rw [evalP_add, evalP_mulC, evalP_mul, evalP_mul]; simp only [evalP]; push_cast; ring
    have e2 : evalP [1, 1] (x ^ 2) = 1 + x ^ 2 := by simp only [evalP]; push_cast; ring
    rw [e1, e2] at d1 d2
    push_cast at d1 d2
    generalize evalP (numP P Q) (x ^ 2) = n at *
    generalize evalP Q (x ^ 2) = q at *
    have ht : 0 ≤ x ^ 2 := sq_nonneg x
    generalize x ^ 2 = t at *
    have hD : 0 < q * q * (1 + t) := by positivity
    have e3 : n / q ^ 2 - 1 / (1 + t) = (n * (1 + t) - q * q) / (q * q * (1 + t)) := by
      have : q ≠ 0 := by linarith
      have : 1 + t ≠ 0 := by linarith
      field_simp
    rw [e3, abs_div, abs_of_pos hD, div_le_iff₀ hD, abs_le, div_mul_eq_mul_div]
    constructor
    · rw [neg_le_iff_add_nonneg, ← sub_nonneg] 
      have : n * (1 + t) - q * q + kn * (q * q * (1 + t)) / kd = (kn * (q * q * (1 + t)) + kd * (n * (1 + t) - q * q)) / kd := by field_simp; ring
      rw [sub_zero, this]; exact div_nonneg (by linarith) hkR.le
    · rw [le_div_iff₀ hkR]; linarith

/-- certificate for the arcsine on one segment: `|num^2 (1-t) - Q^4| ≤ (kn/kd) Q^4`, `num ≥ 0` -/
def asinN (P Q : List Int) : List Int := addP (mulP (mulP (numP P Q) (numP P Q)) [1, -1]) (mulC (-1) (mulP (mulP Q Q) (mulP Q Q)))
def asinOk (P Q : List Int) (kn kd : Int) (S : Int) (i0 N : Nat) : Bool :=
  posOk S i0 N (addP (mulC kn (mulP (mulP Q Q) (mulP Q Q))) (mulC kd (asinN P Q))) &&
  posOk S i0 N (addP (mulC kn (mulP (mulP Q Q) (mulP Q Q))) (mulC (-kd) (asinN P Q))) &&
  posOk S i0 N (addP Q [-1]) && posOk S i0 N (numP P Q)
theorem asin_seg {P Q : List Int} {kn kd S : Int} {i0 N : Nat} (hS : 0 < S) (hN : 0 < N) (hk : 0 < kd) (hkn : 10 * kn ≤ kd) (hb : asinOk P Q kn kd S i0 N = true) {a b : ℝ} (ha : 0 ≤ a) (hab : a ≤ b)
    (h0 : 2 * (i0 : ℝ) ≤ S * a ^ 2) (h1 : S * b ^ 2 ≤ 2 * ((i0 + N : Nat) : ℝ)) (hb2 : b ^ 2 ≤ 2 / 5) :
    |(ratF P Q b - Real.arcsin b) - (ratF P Q a - Real.arcsin a)| ≤ 0.7 * (kn / kd) * (b - a) := by
  unfold asinOk at hb
  rw [Bool.and_eq_true, Bool.and_eq_true, Bool.and_eq_true] at hb
  obtain ⟨⟨⟨c1, c2⟩, c3⟩, c4⟩ := hb
  have hSR : (0 : ℝ) < S := by exact_mod_cast hS
  have hkR : (0 : ℝ) < kd := by exact_mod_cast hk
  have rng : ∀ x, a ≤ x → x ≤ b → 2 * (i0 : ℝ) ≤ S * x ^ 2 ∧ S * x ^ 2 ≤ 2 * ((i0 + N : Nat) : ℝ) ∧ x ^ 2 ≤ 2 / 5 := by
    intro x h2 h3
    have h4 : a ^ 2 ≤ x ^ 2 := pow_le_pow_left₀ ha h2 2
    have h5 : x ^ 2 ≤ b ^ 2 := pow_le_pow_left₀ (le_trans ha h2) h3 2
    exact ⟨le_trans h0 (mul_le_mul_of_nonneg_left h4 hSR.le), le_trans (mul_le_mul_of_nonneg_left h5 hSR.le) h1, le_trans h5 hb2⟩
  have Qpos : ∀ x, a ≤ x → x ≤ b → 1 ≤ evalP Q (x ^ 2) := by
    intro x h2 h3
    have := pos_spec hS hN c3 (rng x h2 h3).1 (rng x h2 h3).2.1
    rw [evalP_add] at this
    simp only [evalP] at this; push_cast at this; linarith
  refine seg_err (e := fun x => ratF P Q x - Real.arcsin x) (e' := fun x => evalP (numP P Q) (x ^ 2) / evalP Q (x ^ 2) ^ 2 - 1 / √(1 - x ^ 2)) hab ?_ ?_
  · intro x h2 h3
    have hx := (rng x h2 h3).2.2
    refine (ratF_deriv (by have := Qpos x h2 h3; linarith)).sub (Real.hasDerivAt_arcsin ?_ ?_)
    · intro hh; rw [hh] at hx; norm_num at hx
    · intro hh; rw [hh] at hx; norm_num at hx
  · intro x h2 h3
    have hq := Qpos x h2 h3
    have hx := (rng x h2 h3).2.2
    have d1 := pos_spec hS hN c1 (rng x h2 h3).1 (rng x h2 h3).2.1
    have d2 := pos_spec hS hN c2 (rng x h2 h3).1 (rng x h2 h3).2.1
    have d4 := pos_spec hS hN c4 (rng x h2 h3).1 (rng x h2 h3).2.1
    rw [evalP_add, evalP_mulC, evalP_mulC, evalP_mul, evalP_mul] at d1 d2
    have e1 : evalP (asinN P Q) (x ^ 2) = evalP (numP P Q) (x ^ 2) * evalP (numP P Q) (x ^ 2) * (1 - x ^ 2) - evalP Q (x ^ 2) * evalP Q (x ^ 2) * (evalP Q (x ^ 2) * evalP Q (x ^ 2)) := by
      unfold asinN
      rw [evalP_add, evalP_mulC, evalP_mul, evalP_mul, evalP_mul, evalP_mul]; simp only [evalP]; push_cast; ring
    rw [e1] at d1 d2
    push_cast at d1 d2
    generalize evalP (numP P Q) (x ^ 2) = n at *
    generalize evalP Q (x ^ 2) = q at *
    have ht : 0 ≤ x ^ 2 := sq_nonneg x
    generalize x ^ 2 = t at *
    have hr : 0 < 1 - t := by linarith
    have hs : 0.77 ≤ √(1 - t) := by
      apply Real.le_sqrt_of_sq_le; norm_num at *; linarith
    have hss : √(1 - t) * √(1 - t) = 1 - t := Real.mul_self_sqrt hr.le
    generalize √(1 - t) = r at *
    have hq0 : q ≠ 0 := by linarith
    have hr0 : 0 < r := by norm_num at hs; linarith
    have hε : (kn : ℝ) / kd ≤ 1 / 10 := by
      rw [div_le_iff₀ hkR]
      have : (10 : ℝ) * kn ≤ kd := by exact_mod_cast hkn
      linarith
    have hD : 0 < q * q * (q * q) := by positivity
    have hy0 : 0 ≤ n / q ^ 2 * r := by positivity
    have hy : |(n / q ^ 2 * r) ^ 2 - 1| ≤ (kn : ℝ) / kd := by
      have e3 : (n / q ^ 2 * r) ^ 2 - 1 = (n * n * (1 - t) - q * q * (q * q)) / (q * q * (q * q)) := by
        rw [← hss]; field_simp
      rw [e3, abs_div, abs_of_pos hD, div_le_iff₀ hD, abs_le, div_mul_eq_mul_div]
      constructor
      · rw [neg_le_iff_add_nonneg, ← sub_nonneg]
        have : n * n * (1 - t) - q * q * (q * q) + kn * (q * q * (q * q)) / kd = (kn * (q * q * (q * q)) + kd * (n * n * (1 - t) - q * q * (q * q))) / kd := by field_simp; ring
        rw [sub_zero, this]; exact div_nonneg (by linarith) hkR.le
      · rw [le_div_iff₀ hkR]; linarith
    have e4 : n / q ^ 2 - 1 / r = (n / q ^ 2 * r - 1) / r := by field_simp
    rw [e4, abs_div, abs_of_pos hr0, div_le_iff₀ hr0]
    generalize n / q ^ 2 * r = y at *
    generalize (kn : ℝ) / kd = ε at *
    have hy1 : 0.9 ≤ y := by
      have := (abs_le.1 hy).1
      by_contra hc
      push Not at hc
      have : y ^ 2 ≤ 0.9 ^ 2 := pow_le_pow_left₀ hy0 hc.le 2
      norm_num at *; linarith
    have hf : |y - 1| * 1.9 ≤ ε := by
      have : y ^ 2 - 1 = (y - 1) * (y + 1) := by ring
      rw [this, abs_mul, abs_of_nonneg (show 0 ≤ y + 1 by linarith)] at hy
      refine le_trans (mul_le_mul_of_nonneg_left ?_ (abs_nonneg _)) hy
      norm_num at *; linarith
    have hε0 : 0 ≤ ε := le_trans (by positivity) hf
    have : ε * 0.77 ≤ ε * r := mul_le_mul_of_nonneg_left hs hε0
    norm_num at *; linarith
end Dpm.Poly
