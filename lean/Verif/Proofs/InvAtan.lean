import Verif.Proofs.InvAcos
/-! Accuracy of `atan` on one lane. -/
namespace Dpm.X86
open Dpm.Reg Dpm.Fp Dpm.Poly

theorem arctan_lip (a b : ℝ) : |Real.arctan a - Real.arctan b| ≤ |a - b| := by
  have key : ∀ x y : ℝ, x ≤ y → |Real.arctan y - Real.arctan x| ≤ 1 * (y - x) := by
    intro x y hxy
    refine seg_err (e := Real.arctan) (e' := fun z => 1 / (1 + z ^ 2)) hxy (fun z _ _ => Real.hasDerivAt_arctan z) ?_
    intro z _ _
    have : 0 ≤ z ^ 2 := sq_nonneg z
    rw [abs_of_nonneg (by positivity), div_le_iff₀ (by positivity)]; linarith
  rcases le_total a b with h | h
  · rw [abs_sub_comm, abs_sub_comm a b, abs_of_nonneg (sub_nonneg.2 h)]; have := key a b h; linarith
  · rw [abs_of_nonneg (sub_nonneg.2 h)]; have := key b a h; linarith
theorem arctan_shift {x : ℝ} (h : 0 < x) : Real.arctan x = Real.pi / 4 + Real.arctan ((x - 1) / (x + 1)) := by
  have hp : x + 1 ≠ 0 := by positivity
  have h1 : 1 * ((x - 1) / (x + 1)) < 1 := by rw [one_mul, div_lt_one (by positivity)]; linarith
  rw [← Real.arctan_one, Real.arctan_add h1]
  congr 1
  field_simp
  ring
theorem arctan_flip {x : ℝ} (h : 0 < x) : Real.arctan x = Real.pi / 2 + Real.arctan (-1 / x) := by
  rw [neg_div, one_div, Real.arctan_neg, Real.arctan_inv_of_pos h]; ring
/-- the quotient `(x - 1) / (x + 1)` -/
theorem quot_acc {w : Nat} (h : W w) {n d : BitVec w} {N D : ℝ} (fn : isFinite n = true) (fd : isFinite d = true) (hn : |rv n - N| ≤ ulpHalf w * |N|) (hd : |rv d - D| ≤ ulpHalf w * D) (hD : 1 ≤ D)
    (hR : |N / D| ≤ 0.5) : isFinite (fdiv n d) = true ∧ |rv (fdiv n d) - N / D| ≤ ulpHalf w * (3.01 * |N / D|) + tiny w := by
  have hu := ulp_pos w
  have hu1 : ulpHalf w ≤ 1 / 10 ^ 7 := le_trans (ulp_le h) (by norm_num)
  have ht := tiny_pos w
  have hb : (2 : ℝ) ^ 20 ≤ 2 ^ bias w := pow_le_pow_right₀ (by norm_num) (by rcases h with h | h <;> subst h <;> decide)
  have hD0 : 0 < D := by linarith
  have uD : ulpHalf w * D ≤ 1 / 10 ^ 7 * D := mul_le_mul_of_nonneg_right hu1 hD0.le
  have dl : 0.999999 * D ≤ rv d := by have := (abs_le.1 hd).1; norm_num at *; linarith
  have dp : 0 < rv d := lt_of_lt_of_le (by positivity) dl
  have hz : isZero d = false := by
    cases hz : isZero d
    · rfl
    · exfalso
      have : val d = 0 := by rw [zero_iff] at hz; rw [val_zero_iff]; exact hz
      unfold rv at dp; rw [this] at dp; simp at dp
  have hN : |N| = |N / D| * D := by rw [abs_div, abs_of_pos hD0, div_mul_cancel₀ _ hD0.ne']
  have e1 : |rv n / rv d - N / D| ≤ ulpHalf w * (2.001 * |N / D|) := by
    have e : rv n / rv d - N / D = ((rv n - N) - N / D * (rv d - D)) / rv d := by field_simp; ring
    rw [e, abs_div, abs_of_pos dp, div_le_iff₀ dp]
    refine le_trans (abs_sub _ _) ?_
    rw [abs_mul]
    have k1 : |N / D| * |rv d - D| ≤ |N / D| * (ulpHalf w * D) := mul_le_mul_of_nonneg_left hd (abs_nonneg _)
    rw [hN] at hn
    have k2 : ulpHalf w * (2.001 * |N / D|) * (0.999999 * D) ≤ ulpHalf w * (2.001 * |N / D|) * rv d := mul_le_mul_of_nonneg_left dl (by positivity)
    have k3 : 0 ≤ ulpHalf w * (|N / D| * D) := by positivity
    have e3 : ulpHalf w * (2.001 * |N / D|) * (0.999999 * D) = 2.001 * 0.999999 * (ulpHalf w * (|N / D| * D)) := by ring
    have e4 : |N / D| * (ulpHalf w * D) = ulpHalf w * (|N / D| * D) := by ring
    rw [e3] at k2; rw [e4] at k1
    generalize ulpHalf w * (|N / D| * D) = q at *
    norm_num at *; linarith
  generalize N / D = R at *
  have hq : |rv n / rv d| ≤ 1.0001 * |R| := by
    have := abs_le_of_sub e1 (le_refl |R|)
    have : ulpHalf w * (2.001 * |R|) ≤ 1 / 10 ^ 7 * (2.001 * |R|) := mul_le_mul_of_nonneg_right hu1 (by positivity)
    have := abs_nonneg R
    generalize |R| = q at *
    norm_num at *; linarith
  obtain ⟨f, e⟩ := fdiv_e h fn fd hz (le_trans hq (by generalize |R| = q at *; norm_num at *; linarith))
  refine ⟨f, le_trans (abs_sub_tri e e1) ?_⟩
  have k : ulpHalf w * |rv n / rv d| ≤ ulpHalf w * (1.0001 * |R|) := mul_le_mul_of_nonneg_left hq hu.le
  have : 0 ≤ ulpHalf w * |R| := by positivity
  have e5 : ulpHalf w * (1.0001 * |R|) = 1.0001 * (ulpHalf w * |R|) := by ring
  have e6 : ulpHalf w * (2.001 * |R|) = 2.001 * (ulpHalf w * |R|) := by ring
  have e7 : ulpHalf w * (3.01 * |R|) = 3.01 * (ulpHalf w * |R|) := by ring
  rw [e5] at k; rw [e6, e7]
  generalize ulpHalf w * |R| = q at *
  norm_num at *; linarith
/-- the sums after the polynomial, in exact arithmetic -/
theorem atan_fin_real {u τ κ c pol R oh y1 y2 y3 base A T C : ℝ} (hu : 0 < u) (hu1 : u ≤ 1 / 10 ^ 7) (hτ : 0 < τ) (hτ2 : τ ≤ u / 1000000) (hR : |R| ≤ C) (hC0 : C ≤ 0.4143) (hκ0 : 0 ≤ κ) (hκ : κ ≤ 10) (hT : |T| ≤ |R|)
    (hp : |pol - T| ≤ u * (κ * |R|) + 7 * τ) (o0 : 0 ≤ oh) (o1 : oh ≤ 0.3 * u) (h1 : |y1 - (pol + oh)| ≤ u * |pol + oh|) {δ : ℝ} (hδ : δ = 0 ∨ δ = 1) (h2 : |y2 - (y1 + δ * oh)| ≤ δ * (u * |y1 + oh|))
    (hc : |base + (1 + δ) * oh - A| ≤ c * u) (hc0 : c ≤ 1) (h3 : |y3 - (base + y2)| ≤ u * |base + y2|) (hA : 0 ≤ A + T) :
    |y3 - (A + T)| ≤ u * ((κ + 1 + δ) * C + c + (A + T) + 0.01) := by
  have hR0 := abs_nonneg R
  have hC : 0 ≤ C := le_trans hR0 hR
  have uκ : u * (κ * |R|) ≤ u * (κ * C) := mul_le_mul_of_nonneg_left (mul_le_mul_of_nonneg_left hR hκ0) hu.le
  have κC : κ * C ≤ 10 * 0.4143 := mul_le_mul hκ hC0 hC (by norm_num)
  have uκ2 : u * (κ * C) ≤ 1 / 10 ^ 7 * (10 * 0.4143) := mul_le_mul hu1 κC (by positivity) (by norm_num)
  have hp' : |pol - T| ≤ u * (κ * C) + 7 * τ := le_trans hp (by linarith)
  have hTC : |T| ≤ C := le_trans hT hR
  have tb := abs_le.1 hTC
  have pb := abs_le.1 hp'
  have b1 : |pol + oh| ≤ C + 0.001 := abs_le.2 ⟨by norm_num at *; linarith, by norm_num at *; linarith⟩
  have h1' := le_trans h1 (mul_le_mul_of_nonneg_left b1 hu.le)
  have uC : u * (C + 0.001) ≤ 1 / 10 ^ 7 * 1 := mul_le_mul hu1 (by norm_num at *; linarith) (by positivity) (by norm_num)
  have c1 := abs_le.1 h1'
  have b2 : |y1 + oh| ≤ C + 0.002 := abs_le.2 ⟨by norm_num at *; linarith, by norm_num at *; linarith⟩
  have h2' : |y2 - (y1 + δ * oh)| ≤ δ * (u * (C + 0.002)) := by
    refine le_trans h2 (mul_le_mul_of_nonneg_left (mul_le_mul_of_nonneg_left b2 hu.le) ?_)
    rcases hδ with h | h <;> rw [h] <;> norm_num
  have uC2 : u * (C + 0.002) ≤ 1 / 10 ^ 7 * 1 := mul_le_mul hu1 (by norm_num at *; linarith) (by positivity) (by norm_num)
  have c2 := abs_le.1 h2'
  have c3 := abs_le.1 hc
  have cu : c * u ≤ 1 * u := mul_le_mul_of_nonneg_right hc0 hu.le
  have e1 : u * ((κ + 1 + δ) * C + c + (A + T) + 0.01) = u * (κ * C) + u * C + δ * (u * C) + c * u + u * (A + T) + 0.01 * u := by ring
  have e2 : u * (C + 0.001) = u * C + 0.001 * u := by ring
  have e3 : u * (C + 0.002) = u * C + 0.002 * u := by ring
  rw [e2] at c1 uC; rw [e3] at c2 uC2
  have b3 : |base + y2| ≤ (A + T) + 0.001 := by
    rw [abs_le]
    rcases hδ with h | h <;> rw [h] at c2 c3 <;> constructor <;> norm_num at * <;> linarith
  have h3' := le_trans h3 (mul_le_mul_of_nonneg_left b3 hu.le)
  have c4 := abs_le.1 h3'
  have e4 : u * ((A + T) + 0.001) = u * (A + T) + 0.001 * u := by ring
  rw [e4] at c4
  rw [e1, abs_le]
  clear h1 h2 h3 hc hp uκ κC hR hT
  rcases hδ with h | h <;> rw [h] at c2 c3 ⊢ <;> constructor <;> norm_num at * <;> linarith

theorem fEq_inf_fin {w : Nat} (h : W w) {x : BitVec w} (fx : isFinite x = true) : fEq x (infBits w) = false := by
  rw [fEq_eq h]; unfold Fp.eq
  have : ¬ val x = val (infBits w) := by
    intro hv
    have h1 : (val x).natAbs = (val (infBits w)).natAbs := by rw [hv]
    rw [natAbs_val, natAbs_val, show mag (infBits w) = infMag w by rcases h with h | h <;> subst h <;> decide +kernel] at h1
    rw [finite_iff h] at fx
    have := (magVal_lt (b := mb w)).2 fx
    omega
  simp [this]
theorem atan_tail {w : Nat} (h : W w) (fm : Bool) {r b : BitVec w} {R ρ A c C : ℝ} (δ : Bool) (fr : isFinite r = true) (hr : |rv r - R| ≤ ulpHalf w * (ρ * |R|) + tiny w) (hρ0 : 0 ≤ ρ) (hρ : ρ ≤ 4)
    (hR : |R| ≤ C) (hC : C ≤ 0.4143) (fb : isFinite b = true) (hb : |rv b| ≤ 2) (hc : |rv b + (1 + (if δ then 1 else 0)) * rv (asinOffHalf w) - A| ≤ c * ulpHalf w) (hc1 : c ≤ 1) (hA : 0 ≤ A + Real.arctan R) :
    isFinite (fadd b (fadd (fadd (atanPol fm r) (asinOffHalf w)) (if δ then asinOffHalf w else 0#w))) = true ∧
    |rv (fadd b (fadd (fadd (atanPol fm r) (asinOffHalf w)) (if δ then asinOffHalf w else 0#w))) - (A + Real.arctan R)| ≤
      ulpHalf w * ((4.901 + ρ + 1 + (if δ then 1 else 0)) * C + c + (A + Real.arctan R) + 0.01) := by
  have hu := ulp_pos w
  have hu1 : ulpHalf w ≤ 1 / 10 ^ 7 := le_trans (ulp_le h) (by norm_num)
  have ht := tiny_pos w
  have ht2 := tiny_ulp h
  have ht3 : tiny w ≤ 1 / 10 ^ 7 := le_trans (tiny_le h) (by norm_num)
  obtain ⟨-, -, -, ⟨foh, oh0, oh1⟩, -, -⟩ := atan_consts h
  have hR0 := abs_nonneg R
  have uR0 : 0 ≤ ulpHalf w * |R| := by positivity
  have uR : ulpHalf w * |R| ≤ 1 / 10 ^ 7 * |R| := mul_le_mul_of_nonneg_right hu1 hR0
  have uρ : ulpHalf w * (ρ * |R|) ≤ 4 * (ulpHalf w * |R|) := by
    have := mul_le_mul_of_nonneg_right hρ uR0
    have e : ulpHalf w * (ρ * |R|) = ρ * (ulpHalf w * |R|) := by ring
    linarith
  have hra : |rv r| ≤ 1.0001 * |R| + tiny w := by
    have := abs_le_of_sub hr (le_refl |R|)
    generalize ulpHalf w * (ρ * |R|) = q1 at *
    generalize ulpHalf w * |R| = q2 at *
    generalize |R| = q at *
    norm_num at *; linarith
  obtain ⟨fpol, epol, -⟩ := atanPol_acc h fm fr (by
    generalize |R| = q at *
    generalize |rv r| = q' at *
    norm_num at *; linarith)
  have hpol : |rv (atanPol fm r) - Real.arctan R| ≤ ulpHalf w * ((4.901 + ρ) * |R|) + 7 * tiny w := by
    refine le_trans (abs_sub_tri epol (arctan_lip (rv r) R)) ?_
    have k : ulpHalf w * (4.9 * |rv r|) ≤ ulpHalf w * (4.9 * (1.0001 * |R| + tiny w)) := mul_le_mul_of_nonneg_left (mul_le_mul_of_nonneg_left hra (by norm_num)) hu.le
    have e5 : ulpHalf w * (4.9 * (1.0001 * |R| + tiny w)) = 4.90049 * (ulpHalf w * |R|) + 4.9 * (ulpHalf w * tiny w) := by ring
    have e6 : ulpHalf w * ((4.901 + ρ) * |R|) = 4.901 * (ulpHalf w * |R|) + ulpHalf w * (ρ * |R|) := by ring
    have k7 : ulpHalf w * tiny w ≤ 1 / 10 ^ 7 * tiny w := mul_le_mul_of_nonneg_right hu1 ht.le
    rw [e5] at k; rw [e6]
    clear hra uR uρ epol
    generalize |rv r - R| = z at *
    generalize ulpHalf w * (ρ * |R|) = q0 at *
    generalize ulpHalf w * |R| = q at *
    generalize ulpHalf w * tiny w = q2 at *
    generalize ulpHalf w * (4.9 * |rv r|) = q3 at *
    norm_num at *; linarith
  have hT : |Real.arctan R| ≤ |R| := by
    have := arctan_lip R 0
    rwa [Real.arctan_zero, sub_zero, sub_zero] at this
  have polb : |rv (atanPol fm r)| ≤ 0.5 := by
    have := abs_le_of_sub hpol hT
    have e6 : ulpHalf w * ((4.901 + ρ) * |R|) = 4.901 * (ulpHalf w * |R|) + ulpHalf w * (ρ * |R|) := by ring
    rw [e6] at this
    clear hra
    generalize ulpHalf w * (ρ * |R|) = q1 at *
    generalize ulpHalf w * |R| = q2 at *
    generalize |R| = q at *
    norm_num at *; linarith
  clear epol hra
  generalize atanPol fm r = pol at *
  have pb := abs_le.1 polb
  have s1 : |rv pol + rv (asinOffHalf w)| ≤ 0.6 := abs_le.2 ⟨by norm_num at *; linarith, by norm_num at *; linarith⟩
  obtain ⟨m1, k1, b1⟩ := add_bd_e h fpol foh s1 (by norm_num)
  generalize fadd pol (asinOffHalf w) = y1 at *
  have b1' := abs_le.1 b1
  have bb := abs_le.1 hb
  cases δ
  · obtain ⟨⟨m2, k2⟩, -⟩ := fadd_zero_rv h m1
    simp only [Bool.false_eq_true, if_false] at hc ⊢
    generalize fadd y1 0#w = y2 at *
    have s3 : |rv b + rv y2| ≤ 4 := by rw [k2]; exact abs_le.2 ⟨by norm_num at *; linarith, by norm_num at *; linarith⟩
    obtain ⟨m3, k3, -⟩ := add_bd_e h fb m2 s3 (by norm_num)
    exact ⟨m3, atan_fin_real hu hu1 ht ht2 hR hC (by linarith) (by norm_num at *; linarith) hT hpol oh0 oh1 k1 (δ := 0) (Or.inl rfl) (by rw [k2]; simp) hc hc1 k3 hA⟩
  · simp only [if_true] at hc ⊢
    have s2 : |rv y1 + rv (asinOffHalf w)| ≤ 0.7 := abs_le.2 ⟨by norm_num at *; linarith, by norm_num at *; linarith⟩
    obtain ⟨m2, k2, b2⟩ := add_bd_e h m1 foh s2 (by norm_num)
    generalize fadd y1 (asinOffHalf w) = y2 at *
    have b2' := abs_le.1 b2
    have s3 : |rv b + rv y2| ≤ 4 := abs_le.2 ⟨by norm_num at *; linarith, by norm_num at *; linarith⟩
    obtain ⟨m3, k3, -⟩ := add_bd_e h fb m2 s3 (by norm_num)
    exact ⟨m3, atan_fin_real hu hu1 ht ht2 hR hC (by linarith) (by norm_num at *; linarith) hT hpol oh0 oh1 k1 (δ := 1) (Or.inr rfl) (by rw [one_mul, one_mul]; exact k2) hc hc1 k3 hA⟩
/-- the arctangent of a number that is not negative -/
theorem atanAbs_acc {w : Nat} (h : W w) (fm : Bool) {x : BitVec w} (fx : isFinite x = true) (hx0 : 0 ≤ rv x) :
    isFinite (atanAbs fm x) = true ∧ |rv (atanAbs fm x) - Real.arctan (rv x)| ≤ 6.5 * ulpHalf w * Real.arctan (rv x) + 5 * tiny w := by
  have hu := ulp_pos w
  have hu1 : ulpHalf w ≤ 1 / 10 ^ 7 := le_trans (ulp_le h) (by norm_num)
  have ht := tiny_pos w
  have ht2 := tiny_ulp h
  have hb : (2 : ℝ) ^ 20 ≤ 2 ^ bias w := pow_le_pow_right₀ (by norm_num) (by rcases h with h | h <;> subst h <;> decide)
  obtain ⟨⟨fp6, p61, p62⟩, ⟨ft, t1, t2⟩, ⟨fpi2, _, _⟩, ⟨foh, oh0, oh1⟩, q4, q2⟩ := atan_consts h
  obtain ⟨f1, r1⟩ := one_rv' h
  obtain ⟨-, -, -, ⟨fm1, rm1⟩, ⟨fz, rz⟩⟩ := inv_consts h
  obtain ⟨g1, _, _, g4, g5, _⟩ := pio4_consts h
  obtain ⟨P1, P2⟩ := pi_half_bd
  have hA0 : 0 ≤ Real.arctan (rv x) := Real.arctan_nonneg.2 hx0
  unfold atanAbs
  dsimp only
  by_cases c1 : fLt (tan3pio8 w) x = true
  · -- above tan(3 pi / 8)
    have hT := (fLt_rv h ft fx).1 c1
    have hX : 2.41421 < rv x := lt_of_le_of_lt t1 hT
    have hXp : 0 < rv x := lt_trans (by norm_num) hX
    have hne : fEq x 0#w = false := by
      rw [fEq_eq h]; unfold Fp.eq
      have : ¬ val x = val (0#w) := by
        intro hv
        have : rv x = rv (0#w) := by unfold rv; rw [hv]
        rw [rz] at this; linarith
      simp [this]
    have er : atanRed x = fdiv (moneBits w) x := by unfold atanRed; rw [if_pos c1, if_neg (by rw [hne]; simp)]
    have eb : atanBase x = pio2 w := by unfold atanBase; rw [if_pos c1]
    have hz : isZero x = false := by
      cases hz : isZero x
      · rfl
      · exfalso
        have : val x = 0 := by rw [zero_iff] at hz; rw [val_zero_iff]; exact hz
        unfold rv at hXp; rw [this] at hXp; simp at hXp
    have hRa : |-1 / rv x| ≤ 0.4143 := by
      rw [abs_div, abs_neg, abs_one, abs_of_pos hXp, div_le_iff₀ hXp]; norm_num at *; linarith
    obtain ⟨fr, e0⟩ := fdiv_e h fm1 fx hz (by rw [rm1]; refine le_trans hRa ?_; norm_num at *; linarith)
    rw [rm1] at e0
    rw [er, eb, c1, Bool.true_or, if_neg (by rw [fEq_inf_fin h fr]; simp)]
    have hsh := arctan_flip hXp
    have hlow : 1.15 ≤ Real.pi / 2 + Real.arctan (-1 / rv x) := by
      have k := arctan_lip (-1 / rv x) 0
      rw [Real.arctan_zero, sub_zero, sub_zero] at k
      have := (abs_le.1 (le_trans k hRa)).1
      norm_num at *; linarith
    obtain ⟨m, e⟩ := atan_tail h fm (A := Real.pi / 2) (c := 0.74) (C := 0.4143) (ρ := 1) true fr (by rw [one_mul]; exact e0) (by norm_num) (by norm_num) hRa (le_refl _) fpi2
      (abs_le.2 ⟨by norm_num at *; linarith, by norm_num at *; linarith⟩) (by rw [if_pos rfl, show (1 : ℝ) + 1 = 2 by norm_num]; exact q2) (by norm_num) (le_trans (by norm_num) hlow)
    refine ⟨m, ?_⟩
    rw [hsh]
    refine le_trans e ?_
    rw [if_pos rfl]
    have : ulpHalf w * ((4.901 + 1 + 1 + 1) * 0.4143 + 0.74 + (Real.pi / 2 + Real.arctan (-1 / rv x)) + 0.01) ≤ ulpHalf w * (6.5 * (Real.pi / 2 + Real.arctan (-1 / rv x))) :=
      mul_le_mul_of_nonneg_left (by norm_num at *; linarith) hu.le
    linarith
  · have hc1 : fLt (tan3pio8 w) x = false := by simpa using c1
    have hT : rv x ≤ rv (tan3pio8 w) := by rw [fLt_rv h ft fx, not_lt] at c1; exact c1
    rw [hc1, Bool.false_or]
    by_cases c2 : fLt (p66 w) x = true
    · have hP := (fLt_rv h fp6 fx).1 c2
      have er : atanRed x = fdiv (fadd x (moneBits w)) (fadd x (oneBits w)) := by unfold atanRed; rw [if_neg c1, if_pos c2]
      have eb : atanBase x = pio4 w := by unfold atanBase; rw [if_neg c1, if_pos c2]
      have hX1 : 0.66 < rv x := lt_of_le_of_lt p61 hP
      have hX2 : rv x ≤ 2.41422 := le_trans hT t2
      obtain ⟨fn, en⟩ := fadd_e h fx fm1 (by rw [rm1]; refine le_trans ?_ hb; rw [abs_le]; constructor <;> norm_num at * <;> linarith)
      obtain ⟨fd, ed⟩ := fadd_e h fx f1 (by rw [r1]; refine le_trans ?_ hb; rw [abs_le]; constructor <;> norm_num at * <;> linarith)
      rw [rm1, ← sub_eq_add_neg] at en
      rw [r1, abs_of_pos (by linarith : 0 < rv x + 1)] at ed
      have hDp : 0 < rv x + 1 := by linarith
      have hRa : |(rv x - 1) / (rv x + 1)| ≤ 0.4143 := by
        rw [abs_div, abs_of_pos hDp, div_le_iff₀ hDp, abs_le]; constructor <;> norm_num at * <;> linarith
      obtain ⟨fr, e0⟩ := quot_acc h fn fd en ed (by linarith) (le_trans hRa (by norm_num))
      rw [er, eb, c2, if_pos rfl, if_neg (by rw [fEq_inf_fin h fr]; simp)]
      have hsh := arctan_shift (by linarith : 0 < rv x)
      rw [hsh] at hA0 ⊢
      have hq4 : |rv (pio4 w) + (1 + (if false = true then 1 else 0)) * rv (asinOffHalf w) - Real.pi / 4| ≤ 0.37 * ulpHalf w := by
        rw [if_neg (by simp), add_zero, one_mul]; exact q4
      have hb4 : |rv (pio4 w)| ≤ 2 := abs_le.2 ⟨by norm_num at *; linarith, by norm_num at *; linarith⟩
      rcases le_total 1 (rv x) with hx1 | hx1
      · obtain ⟨m, e⟩ := atan_tail h fm (A := Real.pi / 4) (c := 0.37) (C := 0.4143) (ρ := 3.01) false fr e0 (by norm_num) (by norm_num) hRa (le_refl _) g1 hb4 hq4 (by norm_num) hA0
        refine ⟨m, le_trans e ?_⟩
        rw [if_neg (by simp)]
        have hl : 0 ≤ Real.arctan ((rv x - 1) / (rv x + 1)) := Real.arctan_nonneg.2 (div_nonneg (by linarith) hDp.le)
        have : ulpHalf w * ((4.901 + 3.01 + 1 + 0) * 0.4143 + 0.37 + (Real.pi / 4 + Real.arctan ((rv x - 1) / (rv x + 1))) + 0.01) ≤ ulpHalf w * (6.5 * (Real.pi / 4 + Real.arctan ((rv x - 1) / (rv x + 1)))) := by
          refine mul_le_mul_of_nonneg_left ?_ hu.le
          generalize Real.arctan ((rv x - 1) / (rv x + 1)) = T at *
          norm_num at *; linarith
        linarith
      · have hRb : |(rv x - 1) / (rv x + 1)| ≤ 0.205 := by
          rw [abs_div, abs_of_pos hDp, div_le_iff₀ hDp, abs_le]; constructor <;> norm_num at * <;> linarith
        obtain ⟨m, e⟩ := atan_tail h fm (A := Real.pi / 4) (c := 0.37) (C := 0.205) (ρ := 3.01) false fr e0 (by norm_num) (by norm_num) hRb (by norm_num) g1 hb4 hq4 (by norm_num) hA0
        refine ⟨m, le_trans e ?_⟩
        rw [if_neg (by simp)]
        have hl : -0.205 ≤ Real.arctan ((rv x - 1) / (rv x + 1)) := by
          have k := arctan_lip ((rv x - 1) / (rv x + 1)) 0
          rw [Real.arctan_zero, sub_zero, sub_zero] at k
          exact (abs_le.1 (le_trans k hRb)).1
        have : ulpHalf w * ((4.901 + 3.01 + 1 + 0) * 0.205 + 0.37 + (Real.pi / 4 + Real.arctan ((rv x - 1) / (rv x + 1))) + 0.01) ≤ ulpHalf w * (6.5 * (Real.pi / 4 + Real.arctan ((rv x - 1) / (rv x + 1)))) := by
          refine mul_le_mul_of_nonneg_left ?_ hu.le
          generalize Real.arctan ((rv x - 1) / (rv x + 1)) = T at *
          norm_num at *; linarith
        linarith
    · have hc2 : fLt (p66 w) x = false := by simpa using c2
      have hP : rv x ≤ rv (p66 w) := by rw [fLt_rv h fp6 fx, not_lt] at c2; exact c2
      have er : atanRed x = x := by unfold atanRed; rw [if_neg c1, if_neg c2]
      have eb : atanBase x = 0#w := by unfold atanBase; rw [if_neg c1, if_neg c2]
      rw [er, eb, hc2, if_neg (by rw [fEq_inf_fin h fx]; simp), if_neg (by simp)]
      have hxa : |rv x| = rv x := abs_of_nonneg hx0
      obtain ⟨f, e, hl⟩ := atanPol_acc h fm fx (by rw [hxa]; norm_num at *; linarith)
      rw [hxa] at e hl
      rw [abs_of_nonneg hA0] at hl
      obtain ⟨⟨m1, k1⟩, -⟩ := fadd_zero_rv h f
      obtain ⟨⟨m2, k2⟩, -⟩ := fadd_zero_rv h m1
      obtain ⟨-, m3, k3⟩ := fadd_zero_rv h m2
      refine ⟨m3, ?_⟩
      rw [k3, k2, k1]
      refine le_trans e ?_
      have : ulpHalf w * (4.9 * rv x) ≤ ulpHalf w * (6.5 * Real.arctan (rv x)) := mul_le_mul_of_nonneg_left (by norm_num at *; linarith) hu.le
      linarith
theorem atanF_acc {w : Nat} (h : W w) (fm : Bool) {x : BitVec w} (fx : isFinite x = true) :
    isFinite (atanF fm x) = true ∧ |rv (atanF fm x) - Real.arctan (rv x)| ≤ 6.5 * ulpHalf w * |Real.arctan (rv x)| + 5 * tiny w := by
  obtain ⟨fa, -, ra, rs⟩ := abB_facts h fx
  unfold atanF
  rw [sgB_sb h]
  obtain ⟨f, e1⟩ := atanAbs_acc h fm fa (by rw [ra]; exact abs_nonneg _)
  obtain ⟨f2, r2⟩ := flip_rv h f x.msb
  have hs : Real.arctan (rv x) = Fp.sg x.msb * Real.arctan (rv (abB x)) := by rw [← arctan_sg, ← rs]
  have h0 : 0 ≤ Real.arctan (rv (abB x)) := Real.arctan_nonneg.2 (by rw [ra]; exact abs_nonneg _)
  rw [hs, r2, sg_err]
  refine ⟨f2, ?_⟩
  rw [show |Fp.sg x.msb * Real.arctan (rv (abB x))| = Real.arctan (rv (abB x)) by rw [abs_mul, abs_of_nonneg h0]; cases x.msb <;> simp [Fp.sg]]
  exact e1
end Dpm.X86
