import Mathlib.Algebra.BigOperators.Ring.Finset
import Verif.Proofs.RealFp
/-! Horner's rule in floating point: the computed value is the exact value of a polynomial with slightly changed coefficients. -/
namespace Dpm.Fp

section back
variable {w : Nat} (h : W w) {x y z : BitVec w}
include h
omit h in
theorem not_fin_nan (hx : isNaN x = true) : isFinite x = false := by
  cases hf : isFinite x
  · rfl
  · rw [(finite_cls hf).1] at hx; cases hx
omit h in
theorem not_fin_inf (hx : isInf x = true) : isFinite x = false := by
  cases hf : isFinite x
  · rfl
  · rw [(finite_cls hf).2] at hx; cases hx
omit h in
theorem fin_cases (x : BitVec w) : isFinite x = true ∨ isNaN x = true ∨ (isInf x = true ∧ isNaN x = false) := by
  cases hn : isNaN x
  · cases hi : isInf x
    · left; rw [X86.finite_eq, hn, hi]; rfl
    · exact Or.inr (Or.inr ⟨rfl, rfl⟩)
  · exact Or.inr (Or.inl rfl)
theorem not_fin_packinf (s : Bool) : isFinite (pack w s (infMag w)) = false := by
  cases hf : isFinite (pack w s (infMag w))
  · rfl
  · rw [finite_iff h, mag_pack h (infMag_lt h)] at hf; omega
theorem fadd_back (hr : isFinite (fadd x y) = true) : isFinite x = true ∧ isFinite y = true := by
  rcases fin_cases x with hx | hx | ⟨hx, hx'⟩
  · refine ⟨hx, ?_⟩
    rcases fin_cases y with hy | hy | ⟨hy, hy'⟩
    · exact hy
    · rw [not_fin_nan (nan_fadd_r h hy)] at hr; cases hr
    · exfalso
      have a := finite_cls hx
      unfold fadd at hr
      simp only [a.1, a.2, hy, hy', Bool.false_eq_true, if_false, if_true] at hr
      rw [not_fin_inf hy] at hr; cases hr
  · rw [not_fin_nan (nan_fadd_l h hx)] at hr; cases hr
  · exfalso
    rcases fin_cases y with hy | hy | ⟨hy, hy'⟩
    · have a := finite_cls hy
      unfold fadd at hr
      simp only [a.1, a.2, hx, hx', Bool.false_eq_true, if_false, if_true, Bool.false_and] at hr
      rw [not_fin_inf hx] at hr; cases hr
    · rw [not_fin_nan (nan_fadd_r h hy)] at hr; cases hr
    · unfold fadd at hr
      simp only [hx, hx', hy, hy', Bool.false_eq_true, if_false, if_true, Bool.true_and] at hr
      split at hr
      · rw [not_fin_nan (nan_default h)] at hr; cases hr
      · rw [not_fin_inf hx] at hr; cases hr
theorem fmul_back (hr : isFinite (fmul x y) = true) : isFinite x = true ∧ isFinite y = true := by
  by_cases hxy : isFinite x = true ∧ isFinite y = true
  · exact hxy
  exfalso
  rcases Bool.eq_false_or_eq_true (isNaN x) with hx | hx
  · rw [not_fin_nan (nan_fmul_l h hx)] at hr; cases hr
  rcases Bool.eq_false_or_eq_true (isNaN y) with hy | hy
  · rw [not_fin_nan (nan_fmul_r h hy)] at hr; cases hr
  have hi : (isInf x || isInf y) = true := by
    rw [X86.finite_eq, X86.finite_eq, hx, hy] at hxy
    revert hxy; cases isInf x <;> cases isInf y <;> simp
  unfold fmul at hr
  rw [if_neg (by rw [hx]; decide), if_neg (by rw [hy]; decide), if_pos hi] at hr
  split at hr
  · rw [not_fin_nan (nan_default h)] at hr; cases hr
  · rw [not_fin_packinf h] at hr; cases hr
theorem ffmaG_back {np nz : Bool} (hr : isFinite (ffmaG np nz x y z) = true) : isFinite x = true ∧ isFinite y = true ∧ isFinite z = true := by
  by_cases hxy : isFinite x = true ∧ isFinite y = true ∧ isFinite z = true
  · exact hxy
  exfalso
  rcases Bool.eq_false_or_eq_true (isNaN x) with hx | hx
  · rw [not_fin_nan (nan_ffma_x h _ _ hx)] at hr; cases hr
  rcases Bool.eq_false_or_eq_true (isNaN y) with hy | hy
  · rw [not_fin_nan (nan_ffma_y h _ _ hy)] at hr; cases hr
  rcases Bool.eq_false_or_eq_true (isNaN z) with hz | hz
  · rw [not_fin_nan (nan_ffma_z h _ _ hz)] at hr; cases hr
  have hi : (isInf x || isInf y) = true ∨ ((isInf x || isInf y) = false ∧ isInf z = true) := by
    rw [X86.finite_eq, X86.finite_eq, X86.finite_eq, hx, hy, hz] at hxy
    revert hxy; cases isInf x <;> cases isInf y <;> cases isInf z <;> simp
  unfold ffmaG at hr
  rw [if_neg (by rw [hx]; decide), if_neg (by rw [hy]; decide), if_neg (by rw [hz]; decide)] at hr
  rcases hi with hi | ⟨hi, hi'⟩
  · rw [if_pos hi] at hr
    split at hr
    · rw [not_fin_nan (nan_default h)] at hr; cases hr
    · split at hr
      · rw [not_fin_nan (nan_default h)] at hr; cases hr
      · rw [not_fin_packinf h] at hr; cases hr
  · rw [if_neg (by rw [hi]; decide), if_pos hi'] at hr
    rw [not_fin_packinf h] at hr; cases hr
end back

/-- an error bound as factors -/
theorem err_split {X r u t : ℝ} (hu : 0 ≤ u) (ht : 0 ≤ t) (he : |r - X| ≤ t ∨ |r - X| ≤ u * |X|) :
    ∃ d e, |d| ≤ u ∧ |e| ≤ t ∧ r = X * (1 + d) + e := by
  rcases he with he | he
  · exact ⟨0, r - X, by simpa using hu, he, by ring⟩
  · by_cases hX : X = 0
    · subst hX
      refine ⟨0, 0, by simpa using hu, by simpa using ht, ?_⟩
      have : |r - 0| ≤ 0 := by simpa using he
      have := abs_nonpos_iff.1 this
      linarith
    · refine ⟨(r - X) / X, 0, ?_, by simpa using ht, by field_simp; ring⟩
      rw [abs_div, div_le_iff₀ (abs_pos.2 hX)]; exact he
theorem err_split0 {X r u : ℝ} (hu : 0 ≤ u) (he : |r - X| ≤ u * |X|) : ∃ d, |d| ≤ u ∧ r = X * (1 + d) := by
  by_cases hX : X = 0
  · subst hX
    refine ⟨0, by simpa using hu, ?_⟩
    have : |r - 0| ≤ 0 := by simpa using he
    have := abs_nonpos_iff.1 this
    linarith
  · refine ⟨(r - X) / X, ?_, by field_simp; ring⟩
    rw [abs_div, div_le_iff₀ (abs_pos.2 hX)]; exact he

/-- one multiply-add, fused or not -/
theorem fmaL_rv {w : Nat} (h : W w) (fm : Bool) {y x a : BitVec w} (hr : isFinite (X86.fmaL fm y x a) = true) :
    isFinite y = true ∧ isFinite x = true ∧ isFinite a = true ∧
    ∃ α β γ : ℝ, |α - 1| ≤ (1 + ulpHalf w) ^ 2 - 1 ∧ |β - 1| ≤ ulpHalf w ∧ |γ| ≤ (1 + ulpHalf w) * tiny w ∧
      rv (X86.fmaL fm y x a) = rv y * rv x * α + rv a * β + γ := by
  have hu := ulp_pos w
  have ht := tiny_pos w
  unfold X86.fmaL at hr ⊢
  cases fm
  · simp only [Bool.false_eq_true, if_false] at hr ⊢
    have b1 := fadd_back h hr
    have b2 := fmul_back h b1.1
    refine ⟨b2.1, b2.2, b1.2, ?_⟩
    obtain ⟨d, e, hd, he, hp⟩ := err_split hu.le ht.le (fmul_rv h b2.1 b2.2 b1.1)
    obtain ⟨d', hd', hs⟩ := err_split0 hu.le (fadd_rv h b1.1 b1.2 hr)
    refine ⟨(1 + d) * (1 + d'), 1 + d', e * (1 + d'), ?_, by simpa using hd', ?_, ?_⟩
    · have : (1 + d) * (1 + d') - 1 = d + d' + d * d' := by ring
      rw [this]
      have h1 := abs_add_le (d + d') (d * d')
      have h2 := abs_add_le d d'
      rw [abs_mul] at h1
      have h3 : |d| * |d'| ≤ ulpHalf w * ulpHalf w := mul_le_mul hd hd' (abs_nonneg _) hu.le
      nlinarith
    · rw [abs_mul, mul_comm]
      have h2 := abs_add_le 1 d'
      rw [abs_one] at h2
      exact mul_le_mul (by linarith) he (abs_nonneg _) (by linarith)
    · rw [hs, hp]; ring
  · simp only [if_true] at hr ⊢
    have b := ffmaG_back h hr
    refine ⟨b.1, b.2.1, b.2.2, ?_⟩
    obtain ⟨d, e, hd, he, hp⟩ := err_split hu.le ht.le (ffmaG_rv h false false b.1 b.2.1 b.2.2 hr)
    refine ⟨1 + d, 1 + d, e, ?_, by simpa using hd, ?_, ?_⟩
    · have : 1 + d - 1 = d := by ring
      rw [this]; nlinarith [hd]
    · nlinarith
    · rw [hp]; simp [sg]; ring

theorem polyval_succ (c : Nat → ℝ) (m : Nat) (x : ℝ) : polyval c (m + 1) x = polyval c m x * x + c m := by
  unfold polyval
  rw [Finset.sum_range_succ, Finset.sum_mul]
  congr 1
  · apply Finset.sum_congr rfl
    intro k hk
    rw [Finset.mem_range] at hk
    rw [mul_assoc, ← pow_succ]
    congr 2; omega
  · simp
theorem polyval_congr {c c' : Nat → ℝ} {m : Nat} (x : ℝ) (hc : ∀ k, k < m → c k = c' k) : polyval c m x = polyval c' m x := by
  unfold polyval
  exact Finset.sum_congr rfl fun k hk => by rw [hc k (Finset.mem_range.1 hk)]
theorem polyval_scale (c : Nat → ℝ) (m : Nat) (x a : ℝ) : polyval (fun k => c k * a) m x = polyval c m x * a := by
  unfold polyval
  rw [Finset.sum_mul]
  exact Finset.sum_congr rfl fun k _ => by ring

/-- how far coefficient `c'` may be from `c` after `e` roundings -/
def Near (w e : Nat) (c c' : ℝ) : Prop := |c' - c| ≤ ((1 + ulpHalf w) ^ e - 1) * |c| + (1 + ulpHalf w) ^ e * tiny w

theorem near_step {w e : Nat} {c c' α : ℝ} (hn : Near w e c c') (hα : |α - 1| ≤ (1 + ulpHalf w) ^ 2 - 1) : Near w (e + 2) c (c' * α) := by
  have hu := ulp_pos w
  have ht := tiny_pos w
  unfold Near at *
  have e1 : c' * α - c = (c' - c) * α + c * (α - 1) := by ring
  rw [e1]
  have h1 := abs_add_le ((c' - c) * α) (c * (α - 1))
  rw [abs_mul, abs_mul] at h1
  have ha : |α| ≤ (1 + ulpHalf w) ^ 2 := by
    have : α = 1 + (α - 1) := by ring
    rw [this]
    have := abs_add_le 1 (α - 1)
    rw [abs_one] at this
    linarith
  have hE : 1 ≤ (1 + ulpHalf w) ^ e := one_le_pow₀ (by linarith)
  rw [pow_add]
  generalize (1 + ulpHalf w) ^ e = E at *
  generalize (1 + ulpHalf w) ^ 2 = F at *
  have hR : 0 ≤ (E - 1) * |c| + E * tiny w := add_nonneg (mul_nonneg (by linarith) (abs_nonneg _)) (mul_nonneg (by linarith) ht.le)
  have h2 : |c' - c| * |α| ≤ ((E - 1) * |c| + E * tiny w) * F := mul_le_mul hn ha (abs_nonneg _) hR
  have h3 : |c| * |α - 1| ≤ |c| * (F - 1) := mul_le_mul_of_nonneg_left hα (abs_nonneg _)
  nlinarith
theorem near_new {w e : Nat} {a β γ : ℝ} (hβ : |β - 1| ≤ ulpHalf w) (hγ : |γ| ≤ (1 + ulpHalf w) * tiny w) : Near w (e + 2) a (a * β + γ) := by
  have hu := ulp_pos w
  have ht := tiny_pos w
  unfold Near
  have e1 : a * β + γ - a = a * (β - 1) + γ := by ring
  rw [e1]
  have h1 := abs_add_le (a * (β - 1)) γ
  rw [abs_mul] at h1
  have hE : 1 + ulpHalf w ≤ (1 + ulpHalf w) ^ (e + 2) := by
    have : 1 ≤ (1 + ulpHalf w) ^ (e + 1) := one_le_pow₀ (by linarith)
    rw [pow_succ]
    nlinarith
  have h2 : |a| * |β - 1| ≤ |a| * ulpHalf w := mul_le_mul_of_nonneg_left hβ (abs_nonneg _)
  generalize (1 + ulpHalf w) ^ (e + 2) = E at *
  have h3 : |a| * ulpHalf w ≤ (E - 1) * |a| := by nlinarith [abs_nonneg a]
  have h4 : (1 + ulpHalf w) * tiny w ≤ E * tiny w := mul_le_mul_of_nonneg_right hE ht.le
  linarith

theorem horner_rv {w : Nat} (h : W w) (fm : Bool) (x : BitVec w) : ∀ (cs : List (BitVec w)) (y : BitVec w) (m e : Nat) (c c' : Nat → ℝ),
    (∀ k, k < m → Near w e (c k) (c' k)) → rv y = polyval c' m (rv x) →
    isFinite (X86.horner (X86.fmaL fm) x y cs) = true →
    ∃ d : Nat → ℝ, (∀ k, k < m → Near w (e + 2 * cs.length) (c k) (d k)) ∧
      (∀ k (hk : k < cs.length), Near w (e + 2 * cs.length) (rv cs[k]) (d (m + k))) ∧
      rv (X86.horner (X86.fmaL fm) x y cs) = polyval d (m + cs.length) (rv x) := by
  intro cs
  induction cs with
  | nil =>
    intro y m e c c' hc hy _
    exact ⟨c', hc, fun k hk => absurd hk (Nat.not_lt_zero k), hy⟩
  | cons a cs ih =>
    intro y m e c c' hc hy hr
    rw [X86.horner] at hr ⊢
    -- the first step has a finite result
    have hfin : isFinite (X86.fmaL fm y x a) = true := by
      clear ih hc hy
      generalize X86.fmaL fm y x a = y' at *
      clear y
      induction cs generalizing y' with
      | nil => exact hr
      | cons b cs ih =>
        rw [X86.horner] at hr
        exact (fmaL_rv h fm (ih _ hr)).1
    obtain ⟨-, -, -, α, β, γ, hα, hβ, hγ, he⟩ := fmaL_rv h fm hfin
    let c2 : Nat → ℝ := fun k => if k < m then c' k * α else rv a * β + γ
    let c1 : Nat → ℝ := fun k => if k < m then c k else rv a
    have hp : rv (X86.fmaL fm y x a) = polyval c2 (m + 1) (rv x) := by
      rw [he, polyval_succ, hy]
      have e1 : polyval c2 m (rv x) = polyval (fun k => c' k * α) m (rv x) := polyval_congr _ fun k hk => if_pos hk
      have e2 : c2 m = rv a * β + γ := if_neg (lt_irrefl m)
      rw [e1, polyval_scale, e2]; ring
    obtain ⟨d, h1, h2, h3⟩ := ih (X86.fmaL fm y x a) (m + 1) (e + 2) c1 c2 (fun k hk => by
      by_cases hkm : k < m
      · show Near w (e + 2) (if k < m then c k else rv a) (if k < m then c' k * α else rv a * β + γ)
        rw [if_pos hkm, if_pos hkm]; exact near_step (hc k hkm) hα
      · show Near w (e + 2) (if k < m then c k else rv a) (if k < m then c' k * α else rv a * β + γ)
        rw [if_neg hkm, if_neg hkm]; exact near_new hβ hγ) hp hr
    have hl : e + 2 * (a :: cs).length = e + 2 + 2 * cs.length := by rw [List.length_cons]; omega
    refine ⟨d, fun k hk => ?_, fun k hk => ?_, ?_⟩
    · rw [hl]
      have := h1 k (by omega)
      rwa [show c1 k = c k from if_pos hk] at this
    · rw [hl]
      cases k with
      | zero =>
        have := h1 m (by omega)
        rwa [show c1 m = rv a from if_neg (lt_irrefl m)] at this
      | succ k =>
        have := h2 k (by simpa using hk)
        rwa [show m + 1 + k = m + (k + 1) by omega] at this
    · rw [h3, List.length_cons]; congr 1; omega
end Dpm.Fp
