import Verif.Proofs.TrigPol
/-! Rounding errors of the sine and cosine polynomials. -/
namespace Dpm.X86
open Dpm.Reg Dpm.Fp Dpm.Poly

/-- one step of Horner's rule -/
theorem horner_step {w : Nat} (h : W w) (fm : Bool) {y x c : BitVec w} (hy : isFinite y = true) (hx : isFinite x = true) (hc : isFinite c = true)
    {Y e B X C e' B' : ℝ} (h1 : |rv y - Y| ≤ ulpHalf w * e) (h2 : |Y| ≤ B) (h3 : |rv x| ≤ X) (h4 : |rv c| ≤ C)
    (hX : X ≤ 100) (hB : B + e / 2 ^ 20 ≤ 100) (hC : C ≤ 100) (he0 : 0 ≤ e)
    (he : e * X + 2.0001 * ((B + e / 2 ^ 20) * X) + C + 1 / 2 ^ 90 ≤ e') (hB' : B * X + C ≤ B') :
    isFinite (fmaL fm y x c) = true ∧ |rv (fmaL fm y x c) - (Y * rv x + rv c)| ≤ ulpHalf w * e' ∧ |Y * rv x + rv c| ≤ B' := by
  have hu := ulp_pos w
  have hu1 : ulpHalf w ≤ 1 / 2 ^ 20 := le_trans (ulp_le h) (by norm_num)
  have hX0 : 0 ≤ X := le_trans (abs_nonneg _) h3
  have hB0 : 0 ≤ B := le_trans (abs_nonneg _) h2
  have hyb : |rv y| ≤ B + e / 2 ^ 20 := by
    have := abs_le_of_sub h1 h2
    have h5 : ulpHalf w * e ≤ 1 / 2 ^ 20 * e := mul_le_mul_of_nonneg_right hu1 he0
    linarith
  have hp := mul_bd hyb h3
  have hs : |rv y * rv x + rv c| ≤ (B + e / 2 ^ 20) * X + C := le_trans (abs_add_le _ _) (add_le_add hp h4)
  have hP : (B + e / 2 ^ 20) * X ≤ 2 ^ 20 := by
    have : (B + e / 2 ^ 20) * X ≤ 100 * 100 := mul_le_mul hB hX hX0 (by norm_num)
    linarith
  obtain ⟨f, e1⟩ := fma_bd h fm hy hx hc hp h4 hs hP (by linarith)
  refine ⟨f, ?_, ?_⟩
  · have e2 : |rv y * rv x + rv c - (Y * rv x + rv c)| ≤ ulpHalf w * e * X := by
      rw [show rv y * rv x + rv c - (Y * rv x + rv c) = (rv y - Y) * rv x by ring]
      exact mul_bd h1 h3
    refine le_trans (abs_sub_le _ (rv y * rv x + rv c) _) (le_trans (add_le_add e1 e2) ?_)
    rw [show ulpHalf w * (1.0001 * ((B + e / 2 ^ 20) * X) + ((B + e / 2 ^ 20) * X + C) + 1 / 2 ^ 90) + ulpHalf w * e * X =
      ulpHalf w * (e * X + 2.0001 * ((B + e / 2 ^ 20) * X) + C + 1 / 2 ^ 90) by ring]
    exact mul_le_mul_of_nonneg_left he hu.le
  · exact le_trans (le_trans (abs_add_le _ _) (add_le_add (mul_bd h2 h3) h4)) hB'

def fin6 {w : Nat} (c : List (BitVec w)) : Bool := c.length == 6 && c.all isFinite
/-- `|val c_i| 10^12 ≤ b_i 2^unitExp` -/
def cofLe {w : Nat} (c : List (BitVec w)) (b : List Nat) : Bool :=
  (List.range 6).all fun i => decide ((val (c.getD i 0)).natAbs * 10 ^ 12 ≤ b.getD i 0 * 2 ^ unitExp w)
theorem cofLe_spec {w : Nat} {c : List (BitVec w)} {b : List Nat} (h : cofLe c b = true) {i : Nat} (hi : i < 6) :
    |rv (c.getD i 0)| ≤ b.getD i 0 / 10 ^ 12 := by
  have := List.all_eq_true.1 h i (List.mem_range.2 hi)
  rw [decide_eq_true_eq] at this
  have hM : (0 : ℝ) < 2 ^ unitExp w := by positivity
  have h2 : ((val (c.getD i 0)).natAbs : ℝ) * 10 ^ 12 ≤ b.getD i 0 * 2 ^ unitExp w := by exact_mod_cast this
  unfold rv
  rw [abs_div, abs_of_pos hM, div_le_div_iff₀ hM (by norm_num)]
  rw [Nat.cast_natAbs] at h2
  push_cast at h2; exact h2
theorem sin_cof {w : Nat} (h : W w) : fin6 (sincof w) = true ∧ cofLe (sincof w) [161, 25100, 2755800, 198420000, 8333400000, 166667000000] = true := by
  rcases h with h | h <;> subst h <;> decide +kernel
theorem cos_cof {w : Nat} (h : W w) : fin6 (coscof w) = true ∧ cofLe (coscof w) [12, 2100, 276000, 24802000, 1388900000, 41667000000] = true := by
  rcases h with h | h <;> subst h <;> decide +kernel
theorem fin6_spec {w : Nat} {c : List (BitVec w)} (h : fin6 c = true) {i : Nat} (hi : i < 6) : isFinite (c.getD i 0) = true := by
  unfold fin6 at h
  simp only [Bool.and_eq_true, beq_iff_eq, List.all_eq_true] at h
  have hl : i < c.length := by omega
  rw [List.getD, List.getElem?_eq_getElem hl, Option.getD_some]
  exact h.2 _ (List.getElem_mem hl)
theorem polL6 {w : Nat} (fm : Bool) (x : BitVec w) {c : List (BitVec w)} (h : fin6 c = true) :
    polL fm x c = fmaL fm (fmaL fm (fmaL fm (fmaL fm (fmaL fm (c.getD 0 0) x (c.getD 1 0)) x (c.getD 2 0)) x (c.getD 3 0)) x (c.getD 4 0)) x (c.getD 5 0) := by
  unfold fin6 at h
  simp only [Bool.and_eq_true, beq_iff_eq] at h
  match c, h.1 with
  | [a, b, d, e, f, g], _ => rfl

/-- the sine polynomial at a rounded argument -/
theorem sin_pol_rnd {w : Nat} (h : W w) (fm : Bool) {x : BitVec w} (hx : isFinite x = true) (hxb : |rv x| ≤ 9 / 4 + 1 / 1000) :
    isFinite (polL fm x (sincof w)) = true ∧ |rv (polL fm x (sincof w)) - polR (sincof w) (rv x)| ≤ ulpHalf w * (24 / 100) ∧
    |polR (sincof w) (rv x)| ≤ 187 / 1000 := by
  obtain ⟨hf, hc⟩ := sin_cof h
  rw [polL6 fm x hf]
  have c0 := cofLe_spec hc (i := 0) (by decide)
  have c1 := cofLe_spec hc (i := 1) (by decide)
  have c2 := cofLe_spec hc (i := 2) (by decide)
  have c3 := cofLe_spec hc (i := 3) (by decide)
  have c4 := cofLe_spec hc (i := 4) (by decide)
  have c5 := cofLe_spec hc (i := 5) (by decide)
  have f0 := fin6_spec hf (i := 0) (by decide)
  have f1 := fin6_spec hf (i := 1) (by decide)
  have f2 := fin6_spec hf (i := 2) (by decide)
  have f3 := fin6_spec hf (i := 3) (by decide)
  have f4 := fin6_spec hf (i := 4) (by decide)
  have f5 := fin6_spec hf (i := 5) (by decide)
  unfold polR
  simp only [List.getD_cons_zero, List.getD_cons_succ] at c0 c1 c2 c3 c4 c5
  push_cast at c0 c1 c2 c3 c4 c5
  generalize (sincof w).getD 0 0 = k0 at *
  generalize (sincof w).getD 1 0 = k1 at *
  generalize (sincof w).getD 2 0 = k2 at *
  generalize (sincof w).getD 3 0 = k3 at *
  generalize (sincof w).getD 4 0 = k4 at *
  generalize (sincof w).getD 5 0 = k5 at *
  obtain ⟨g1, e1, b1⟩ := horner_step h fm f0 hx f1 (Y := rv k0) (e := 0) (e' := 3 / 10 ^ 8) (B' := 3 / 10 ^ 8) (by simp) c0 hxb c1 (by norm_num) (by norm_num) (by norm_num) (by norm_num) (by norm_num) (by norm_num)
  obtain ⟨g2, e2, b2⟩ := horner_step h fm g1 hx f2 (e' := 4 / 10 ^ 6) (B' := 3 / 10 ^ 6) e1 b1 hxb c2 (by norm_num) (by norm_num) (by norm_num) (by norm_num) (by norm_num) (by norm_num)
  obtain ⟨g3, e3, b3⟩ := horner_step h fm g2 hx f3 (e' := 23 / 10 ^ 5) (B' := 206 / 10 ^ 6) e2 b2 hxb c3 (by norm_num) (by norm_num) (by norm_num) (by norm_num) (by norm_num) (by norm_num)
  obtain ⟨g4, e4, b4⟩ := horner_step h fm g3 hx f4 (e' := 98 / 10 ^ 4) (B' := 88 / 10 ^ 4) e3 b3 hxb c4 (by norm_num) (by norm_num) (by norm_num) (by norm_num) (by norm_num) (by norm_num)
  exact horner_step h fm g4 hx f5 e4 b4 hxb c5 (by norm_num) (by norm_num) (by norm_num) (by norm_num) (by norm_num) (by norm_num)
/-- the cosine polynomial at a rounded argument -/
theorem cos_pol_rnd {w : Nat} (h : W w) (fm : Bool) {x : BitVec w} (hx : isFinite x = true) (hxb : |rv x| ≤ 9 / 4 + 1 / 1000) :
    isFinite (polL fm x (coscof w)) = true ∧ |rv (polL fm x (coscof w)) - polR (coscof w) (rv x)| ≤ ulpHalf w * (54 / 1000) ∧
    |polR (coscof w) (rv x)| ≤ 45 / 1000 := by
  obtain ⟨hf, hc⟩ := cos_cof h
  rw [polL6 fm x hf]
  have c0 := cofLe_spec hc (i := 0) (by decide)
  have c1 := cofLe_spec hc (i := 1) (by decide)
  have c2 := cofLe_spec hc (i := 2) (by decide)
  have c3 := cofLe_spec hc (i := 3) (by decide)
  have c4 := cofLe_spec hc (i := 4) (by decide)
  have c5 := cofLe_spec hc (i := 5) (by decide)
  have f0 := fin6_spec hf (i := 0) (by decide)
  have f1 := fin6_spec hf (i := 1) (by decide)
  have f2 := fin6_spec hf (i := 2) (by decide)
  have f3 := fin6_spec hf (i := 3) (by decide)
  have f4 := fin6_spec hf (i := 4) (by decide)
  have f5 := fin6_spec hf (i := 5) (by decide)
  unfold polR
  simp only [List.getD_cons_zero, List.getD_cons_succ] at c0 c1 c2 c3 c4 c5
  push_cast at c0 c1 c2 c3 c4 c5
  generalize (coscof w).getD 0 0 = k0 at *
  generalize (coscof w).getD 1 0 = k1 at *
  generalize (coscof w).getD 2 0 = k2 at *
  generalize (coscof w).getD 3 0 = k3 at *
  generalize (coscof w).getD 4 0 = k4 at *
  generalize (coscof w).getD 5 0 = k5 at *
  obtain ⟨g1, e1, b1⟩ := horner_step h fm f0 hx f1 (Y := rv k0) (e := 0) (e' := 3 / 10 ^ 9) (B' := 3 / 10 ^ 9) (by simp) c0 hxb c1 (by norm_num) (by norm_num) (by norm_num) (by norm_num) (by norm_num) (by norm_num)
  obtain ⟨g2, e2, b2⟩ := horner_step h fm g1 hx f2 (e' := 4 / 10 ^ 7) (B' := 3 / 10 ^ 7) e1 b1 hxb c2 (by norm_num) (by norm_num) (by norm_num) (by norm_num) (by norm_num) (by norm_num)
  obtain ⟨g3, e3, b3⟩ := horner_step h fm g2 hx f3 (e' := 3 / 10 ^ 5) (B' := 26 / 10 ^ 6) e2 b2 hxb c3 (by norm_num) (by norm_num) (by norm_num) (by norm_num) (by norm_num) (by norm_num)
  obtain ⟨g4, e4, b4⟩ := horner_step h fm g3 hx f4 (e' := 16 / 10 ^ 4) (B' := 145 / 10 ^ 5) e3 b3 hxb c4 (by norm_num) (by norm_num) (by norm_num) (by norm_num) (by norm_num) (by norm_num)
  exact horner_step h fm g4 hx f5 e4 b4 hxb c5 (by norm_num) (by norm_num) (by norm_num) (by norm_num) (by norm_num) (by norm_num)

theorem lip_step {p q l B X C a b c l' B' : ℝ} (h1 : |p - q| ≤ l * |a - b|) (h2 : |q| ≤ B) (ha : |a| ≤ X) (hb : |b| ≤ X) (hc : |c| ≤ C)
    (hl : l * X + B ≤ l') (hB : B * X + C ≤ B') : |p * a + c - (q * b + c)| ≤ l' * |a - b| ∧ |q * b + c| ≤ B' := by
  refine ⟨?_, le_trans (le_trans (abs_add_le _ _) (add_le_add (mul_bd h2 hb) hc)) hB⟩
  rw [show p * a + c - (q * b + c) = (p - q) * a + q * (a - b) by ring]
  refine le_trans (abs_add_le _ _) (le_trans (add_le_add (mul_bd h1 ha) (mul_bd h2 (le_refl _))) ?_)
  rw [show l * |a - b| * X + B * |a - b| = (l * X + B) * |a - b| by ring]
  exact mul_le_mul_of_nonneg_right hl (abs_nonneg _)
theorem sin_lip {w : Nat} (h : W w) {a b : ℝ} (ha : |a| ≤ 9 / 4 + 1 / 1000) (hb : |b| ≤ 9 / 4 + 1 / 1000) :
    |polR (sincof w) a - polR (sincof w) b| ≤ 1 / 100 * |a - b| ∧ |polR (sincof w) b| ≤ 187 / 1000 := by
  obtain ⟨hf, hc⟩ := sin_cof h
  have c0 := cofLe_spec hc (i := 0) (by decide)
  have c1 := cofLe_spec hc (i := 1) (by decide)
  have c2 := cofLe_spec hc (i := 2) (by decide)
  have c3 := cofLe_spec hc (i := 3) (by decide)
  have c4 := cofLe_spec hc (i := 4) (by decide)
  have c5 := cofLe_spec hc (i := 5) (by decide)
  unfold polR
  simp only [List.getD_cons_zero, List.getD_cons_succ] at c0 c1 c2 c3 c4 c5
  push_cast at c0 c1 c2 c3 c4 c5
  generalize (sincof w).getD 0 0 = k0 at *
  generalize (sincof w).getD 1 0 = k1 at *
  generalize (sincof w).getD 2 0 = k2 at *
  generalize (sincof w).getD 3 0 = k3 at *
  generalize (sincof w).getD 4 0 = k4 at *
  generalize (sincof w).getD 5 0 = k5 at *
  obtain ⟨l1, b1⟩ := lip_step (p := rv k0) (q := rv k0) (l := 0) (l' := 2 / 10 ^ 10) (B' := 3 / 10 ^ 8) (by simp) c0 ha hb c1 (by norm_num) (by norm_num)
  obtain ⟨l2, b2⟩ := lip_step (l' := 4 / 10 ^ 8) (B' := 3 / 10 ^ 6) l1 b1 ha hb c2 (by norm_num) (by norm_num)
  obtain ⟨l3, b3⟩ := lip_step (l' := 4 / 10 ^ 6) (B' := 206 / 10 ^ 6) l2 b2 ha hb c3 (by norm_num) (by norm_num)
  obtain ⟨l4, b4⟩ := lip_step (l' := 22 / 10 ^ 5) (B' := 88 / 10 ^ 4) l3 b3 ha hb c4 (by norm_num) (by norm_num)
  exact lip_step l4 b4 ha hb c5 (by norm_num) (by norm_num)
theorem cos_lip {w : Nat} (h : W w) {a b : ℝ} (ha : |a| ≤ 9 / 4 + 1 / 1000) (hb : |b| ≤ 9 / 4 + 1 / 1000) :
    |polR (coscof w) a - polR (coscof w) b| ≤ 2 / 1000 * |a - b| ∧ |polR (coscof w) b| ≤ 45 / 1000 := by
  obtain ⟨hf, hc⟩ := cos_cof h
  have c0 := cofLe_spec hc (i := 0) (by decide)
  have c1 := cofLe_spec hc (i := 1) (by decide)
  have c2 := cofLe_spec hc (i := 2) (by decide)
  have c3 := cofLe_spec hc (i := 3) (by decide)
  have c4 := cofLe_spec hc (i := 4) (by decide)
  have c5 := cofLe_spec hc (i := 5) (by decide)
  unfold polR
  simp only [List.getD_cons_zero, List.getD_cons_succ] at c0 c1 c2 c3 c4 c5
  push_cast at c0 c1 c2 c3 c4 c5
  generalize (coscof w).getD 0 0 = k0 at *
  generalize (coscof w).getD 1 0 = k1 at *
  generalize (coscof w).getD 2 0 = k2 at *
  generalize (coscof w).getD 3 0 = k3 at *
  generalize (coscof w).getD 4 0 = k4 at *
  generalize (coscof w).getD 5 0 = k5 at *
  obtain ⟨l1, b1⟩ := lip_step (p := rv k0) (q := rv k0) (l := 0) (l' := 2 / 10 ^ 11) (B' := 3 / 10 ^ 9) (by simp) c0 ha hb c1 (by norm_num) (by norm_num)
  obtain ⟨l2, b2⟩ := lip_step (l' := 4 / 10 ^ 9) (B' := 3 / 10 ^ 7) l1 b1 ha hb c2 (by norm_num) (by norm_num)
  obtain ⟨l3, b3⟩ := lip_step (l' := 4 / 10 ^ 7) (B' := 26 / 10 ^ 6) l2 b2 ha hb c3 (by norm_num) (by norm_num)
  obtain ⟨l4, b4⟩ := lip_step (l' := 3 / 10 ^ 5) (B' := 145 / 10 ^ 5) l3 b3 ha hb c4 (by norm_num) (by norm_num)
  exact lip_step l4 b4 ha hb c5 (by norm_num) (by norm_num)
end Dpm.X86
