import Verif.Proofs.TrigCosAcc
import Verif.Props.X86Mbase
/-! The argument reduction of `eval_sincos`. -/
namespace Dpm.X86
open Dpm.Reg Dpm.Fp Dpm.Poly

/-- a representable product is exact -/
theorem fmul_repr {w : Nat} (h : W w) {x y : BitVec w} (hx : isFinite x = true) (hy : isFinite y = true) {n : Nat} (hr : Repr w n)
    (he : (val x).natAbs * (val y).natAbs = n * 2 ^ unitExp w) : isFinite (fmul x y) = true ∧ rv (fmul x y) = rv x * rv y := by
  obtain ⟨m, hm, hn⟩ := hr
  have h2 := infMag_lt h
  have hmag : mag (pack w (x.msb != y.msb) m) = m := mag_pack h (by omega)
  have e := fmul_exact h hx hy (z := pack w (x.msb != y.msb) m) (by rw [hmag]; omega) (msb_pack h (by omega)) (by rw [he, natAbs_val, hmag, hn])
  have hf : isFinite (fmul x y) = true := by rw [e, finite_iff h, hmag]; exact hm
  refine ⟨hf, ?_⟩
  rw [rv_mul_val]
  have hM : (0 : ℝ) < 2 ^ unitExp w := by positivity
  have : rv (fmul x y) = sg (neg x != neg y) * ((n : ℝ) / 2 ^ unitExp w) := by
    rw [e]; unfold rv
    rw [val_pack h (by omega), ← hn]
    show _ = sg (x.msb != y.msb) * _
    cases (x.msb != y.msb) <;> simp [sg, neg_div]
  rw [this]
  have hc : (((val x).natAbs * (val y).natAbs : Nat) : ℝ) = ((n * 2 ^ unitExp w : Nat) : ℝ) := by rw [he]
  push_cast at hc
  congr 1
  push_cast; rw [hc]; field_simp

/-- the three reduction steps, as real numbers: `A - J P` up to the error of the first step and the roundings of the other two -/
theorem red_real {u τ A J P D1 D2 D3 s1 s2 z B k d δ E1 : ℝ} (hu : 0 < u) (hu1 : u ≤ 1 / 2 ^ 24) (ht : 0 < τ) (ht1 : τ ≤ u / 1000000)
    (hB : |A - J * P| ≤ B) (hk : J * D2 = k) (hd : J * D3 = d) (hk0 : 0 ≤ k) (hd0 : 0 ≤ d) (hdk : d ≤ k / 1000) (hδ : |J * (D1 + D2 + D3 - P)| ≤ δ) (hδu : δ ≤ u / 1000)
    (h1 : |s1 - (J * -D1 + A)| ≤ E1)
    (h2 : |s2 - (J * -D2 + s1)| ≤ u * (1 + u) * |J * -D2| + u * |J * -D2 + s1| + 2 * τ)
    (h3 : |z - (J * -D3 + s2)| ≤ u * (1 + u) * |J * -D3| + u * |J * -D3 + s2| + 2 * τ) :
    |z - (A - J * P)| ≤ E1 * (1 + 3 * u) + u * (2.001 * B + 1.01 * k + 0.01) := by
  have hE1 : 0 ≤ E1 := le_trans (abs_nonneg _) h1
  have hB0 : 0 ≤ B := le_trans (abs_nonneg _) hB
  have e2 : |J * -D2| = k := by rw [mul_neg, hk, abs_neg, abs_of_nonneg hk0]
  have e3 : |J * -D3| = d := by rw [mul_neg, hd, abs_neg, abs_of_nonneg hd0]
  have q2 : J * -D2 = -k := by rw [mul_neg, hk]
  have q3 : J * -D3 = -d := by rw [mul_neg, hd]
  rw [e2, q2] at h2
  rw [e3, q3] at h3
  have hJ : J * (D1 + D2 + D3 - P) = J * D1 + k + d - J * P := by rw [← hk, ← hd]; ring
  rw [hJ] at hδ
  have q1 : J * -D1 + A = A - J * D1 := by ring
  rw [q1] at h1
  generalize J * D1 = a at *
  generalize J * P = p at *
  obtain ⟨b1, b2⟩ := abs_le.1 hB
  obtain ⟨c1, c2⟩ := abs_le.1 hδ
  obtain ⟨a1, a2⟩ := abs_le.1 h1
  have hδ0 : 0 ≤ δ := le_trans (abs_nonneg _) hδ
  have m2 : |-k + s1| ≤ B + d + δ + E1 := abs_le.2 ⟨by linarith, by linarith⟩
  have hub : u * (1 + u) ≤ 1.0001 * u := by nlinarith
  have huk := mul_le_mul_of_nonneg_right hub hk0
  have hud := mul_le_mul_of_nonneg_right hub hd0
  have hm2 := mul_le_mul_of_nonneg_left m2 hu.le
  have h2' : |s2 - (-k + s1)| ≤ 1.0001 * (u * k) + (u * B + u * d + u * δ + u * E1) + 2 * τ := by
    refine le_trans h2 ?_
    have : u * (B + d + δ + E1) = u * B + u * d + u * δ + u * E1 := by ring
    have : 1.0001 * u * k = 1.0001 * (u * k) := by ring
    linarith
  have pk : 0 ≤ u * k := mul_nonneg hu.le hk0
  have pd : 0 ≤ u * d := mul_nonneg hu.le hd0
  have pB : 0 ≤ u * B := mul_nonneg hu.le hB0
  have pδ : 0 ≤ u * δ := mul_nonneg hu.le hδ0
  have pE : 0 ≤ u * E1 := mul_nonneg hu.le hE1
  obtain ⟨E2, hE2⟩ : ∃ E2, E2 = 1.0001 * (u * k) + (u * B + u * d + u * δ + u * E1) + 2 * τ := ⟨_, rfl⟩
  rw [← hE2] at h2'
  have hE20 : 0 ≤ E2 := le_trans (abs_nonneg _) h2'
  obtain ⟨d1, d2⟩ := abs_le.1 h2'
  have m3 : |-d + s2| ≤ B + δ + E1 + E2 := abs_le.2 ⟨by linarith, by linarith⟩
  have hm3 := mul_le_mul_of_nonneg_left m3 hu.le
  have hx : u * (B + δ + E1 + E2) = u * B + u * δ + u * E1 + u * E2 := by ring
  have hE2u := mul_le_mul_of_nonneg_right hu1 hE20
  have hdu : u * d ≤ u * (k / 1000) := mul_le_mul_of_nonneg_left hdk hu.le
  have hδu2 : u * δ ≤ 1 / 2 ^ 24 * (u / 1000) := mul_le_mul hu1 hδu hδ0 (by norm_num)
  obtain ⟨g1, g2⟩ := abs_le.1 h3
  have f1 : E1 * (1 + 3 * u) = E1 + 3 * (u * E1) := by ring
  have f2 : u * (2.001 * B + 1.01 * k + 0.01) = 2.001 * (u * B) + 1.01 * (u * k) + 0.01 * u := by ring
  have f3 : u * (k / 1000) = (u * k) / 1000 := by ring
  have f4 : 1.0001 * u * d = 1.0001 * (u * d) := by ring
  rw [f1, f2]
  rw [f3] at hdu
  rw [f4] at hud
  rw [hx] at hm3
  norm_num at *
  exact abs_le.2 ⟨by linarith, by linarith⟩

/-! ### The three parts of `pi/4` -/
theorem rv_of_val {w : Nat} {x : BitVec w} {m : Int} {a b : Nat} (hv : val x = m * 2 ^ a) (hu : unitExp w = b + a) : rv x = m / 2 ^ b := by
  unfold rv
  rw [hv, hu, pow_add]
  push_cast
  rw [mul_div_mul_right _ _ (by positivity)]
noncomputable def dp3 (w : Nat) : ℝ := if w = 64 then 427063790847255 / 2 ^ 97 else 12727493 / 2 ^ 72
theorem dp_consts {w : Nat} (h : W w) : isFinite ((dpSincos w).getD 0 0) = true ∧ isFinite ((dpSincos w).getD 1 0) = true ∧ isFinite ((dpSincos w).getD 2 0) = true ∧
    rv ((dpSincos w).getD 0 0) = -(6588397 / 2 ^ 23) ∧ rv ((dpSincos w).getD 1 0) = -(1328173 / 2 ^ 45) ∧ rv ((dpSincos w).getD 2 0) = -dp3 w := by
  rcases h with h | h <;> subst h
  · have e : isFinite ((dpSincos 32).getD 0 0) = true ∧ isFinite ((dpSincos 32).getD 1 0) = true ∧ isFinite ((dpSincos 32).getD 2 0) = true ∧
      val ((dpSincos 32).getD 0 0) = -6588397 * 2 ^ 126 ∧ val ((dpSincos 32).getD 1 0) = -1328173 * 2 ^ 104 ∧ val ((dpSincos 32).getD 2 0) = -12727493 * 2 ^ 77 := by decide +kernel
    refine ⟨e.1, e.2.1, e.2.2.1, ?_, ?_, ?_⟩
    · unfold rv; rw [e.2.2.2.1, show unitExp 32 = 149 from rfl]; norm_num
    · unfold rv; rw [e.2.2.2.2.1, show unitExp 32 = 149 from rfl]; norm_num
    · unfold rv dp3; rw [e.2.2.2.2.2, show unitExp 32 = 149 from rfl]; norm_num
  · have e : isFinite ((dpSincos 64).getD 0 0) = true ∧ isFinite ((dpSincos 64).getD 1 0) = true ∧ isFinite ((dpSincos 64).getD 2 0) = true ∧
      val ((dpSincos 64).getD 0 0) = -6588397 * 2 ^ 1051 ∧ val ((dpSincos 64).getD 1 0) = -1328173 * 2 ^ 1029 ∧ val ((dpSincos 64).getD 2 0) = -427063790847255 * 2 ^ 977 := by decide +kernel
    refine ⟨e.1, e.2.1, e.2.2.1, ?_, ?_, ?_⟩
    · rw [rv_of_val e.2.2.2.1 (b := 23) rfl]; push_cast; ring
    · rw [rv_of_val e.2.2.2.2.1 (b := 45) rfl]; push_cast; ring
    · rw [rv_of_val e.2.2.2.2.2 (b := 97) rfl]; unfold dp3; rw [if_pos rfl]; push_cast; ring
theorem dp_pi {w : Nat} (h : W w) : 0 < dp3 w ∧ dp3 w ≤ 1328173 / 2 ^ 45 / 1000 ∧
    |6588397 / 2 ^ 23 + 1328173 / 2 ^ 45 + dp3 w - Real.pi / 4| ≤ (if w = 64 then 1 / 10 ^ 28 else 1 / 10 ^ 21) := by
  obtain ⟨p1, p2⟩ := quarter_pi
  rcases h with h | h <;> subst h
  · unfold dp3
    rw [if_neg (by decide), if_neg (by decide)]
    refine ⟨by norm_num, by norm_num, abs_le.2 ⟨?_, ?_⟩⟩ <;> norm_num at * <;> linarith
  · unfold dp3
    rw [if_pos rfl, if_pos rfl]
    refine ⟨by norm_num, by norm_num, abs_le.2 ⟨?_, ?_⟩⟩ <;> norm_num at * <;> linarith
/-- bound on the octant number -/
def jmax (w : Nat) : Nat := if w = 64 then 2 ^ 30 else 2 ^ 24
/-- 1 where the products of the first reduction step are rounded, 0 where they are not -/
noncomputable def rndC (w : Nat) (fm : Bool) : ℝ := if w = 64 ∨ fm = true then 0 else 1

theorem repr_bd {w f k : Nat} (hf : f ≤ 2 ^ (mb w + 1)) (hb : 2 ^ (mb w + 1) * 2 ^ k < magVal (mb w) (infMag w)) : Repr w (f * 2 ^ k) :=
  repr_mk hf (Nat.lt_of_le_of_lt (Nat.mul_le_mul_right _ hf) hb)

theorem big1051 : 2 ^ (mb 64 + 1) * 2 ^ 1051 < magVal (mb 64) (infMag 64) := by decide +kernel
/-- an integer times a short constant is exact -/
theorem fmul_int {w : Nat} (h : W w) {y d : BitVec w} (hy : isFinite y = true) (hd : isFinite d = true) {J f a : Nat} (hJ : val y = J * (2 ^ unitExp w : Nat))
    (hv : (val d).natAbs = f * 2 ^ a) (hf : J * f ≤ 2 ^ (mb w + 1)) (hb : 2 ^ (mb w + 1) * 2 ^ a < magVal (mb w) (infMag w)) :
    isFinite (fmul y d) = true ∧ rv (fmul y d) = rv y * rv d :=
  fmul_repr h hy hd (repr_bd hf hb) (by rw [hv, hJ, Int.natAbs_mul, Int.natAbs_natCast, Int.natAbs_natCast]; ring)

theorem jmax_fl {J : Nat} (h : J ≤ jmax 64) : J * 6588397 ≤ 2 ^ (mb 64 + 1) := by
  have h1 : J ≤ 1073741824 := h
  have h2 : 2 ^ (mb 64 + 1) = 9007199254740992 := by decide +kernel
  omega
theorem fmaL_false {w : Nat} (a b c : BitVec w) : fmaL false a b c = fadd (fmul a b) c := rfl
theorem fmaL_true {w : Nat} (a b c : BitVec w) : fmaL true a b c = ffmaG false false a b c := rfl
theorem dp0_val : (val ((dpSincos 64).getD 0 0)).natAbs = 6588397 * 2 ^ 1051 := by decide +kernel

set_option maxHeartbeats 1000000 in
theorem red_first {w : Nat} (h : W w) (fm : Bool) {y ab : BitVec w} (hy : isFinite y = true) {J : Nat} (hJ : val y = J * (2 ^ unitExp w : Nat)) (hJm : J ≤ jmax w)
    (ha : isFinite ab = true) (hA : |rv ab| ≤ 2 ^ 31) :
    isFinite (fmaL fm y ((dpSincos w).getD 0 0) ab) = true ∧
    |rv (fmaL fm y ((dpSincos w).getD 0 0) ab) - (J * -(6588397 / 2 ^ 23) + rv ab)| ≤
      rndC w fm * (ulpHalf w * (1 + ulpHalf w) * (J * (6588397 / 2 ^ 23))) + ulpHalf w * |J * -(6588397 / 2 ^ 23) + rv ab| + 2 * tiny w := by
  obtain ⟨f0, -, -, r0, -, -⟩ := dp_consts h
  have hyv : rv y = J := by
    unfold rv; rw [hJ]; push_cast; exact mul_div_cancel_right₀ _ (by positivity)
  have hb : (2 : ℝ) ^ 35 ≤ 2 ^ bias w := pow_le_pow_right₀ (by norm_num) (by rcases h with h | h <;> subst h <;> decide)
  have hJr : (J : ℝ) ≤ 2 ^ 30 := by
    have : J ≤ 2 ^ 30 := le_trans hJm (by rcases h with h | h <;> subst h <;> decide)
    exact_mod_cast this
  have hJ0 : (0 : ℝ) ≤ J := Nat.cast_nonneg J
  have hu := ulp_pos w
  have ht := tiny_pos w
  have hp : |rv y * rv ((dpSincos w).getD 0 0)| ≤ 2 ^ 31 := by
    rw [hyv, r0, mul_neg, abs_neg, abs_of_nonneg (by positivity)]
    calc (J : ℝ) * (6588397 / 2 ^ 23) ≤ 2 ^ 30 * (6588397 / 2 ^ 23) := mul_le_mul_of_nonneg_right hJr (by norm_num)
      _ ≤ 2 ^ 31 := by norm_num
  have hsum : |rv y * rv ((dpSincos w).getD 0 0) + rv ab| ≤ 2 ^ bias w := le_trans (abs_add_le _ _) (by linarith)
  by_cases hc : w = 64 ∨ fm = true
  · have hr : rndC w fm = 0 := by unfold rndC; rw [if_pos hc]
    rw [hr, zero_mul, zero_add, ← r0, ← hyv]
    cases fm
    · have h64 : w = 64 := by rcases hc with h | h; exact h; cases h
      subst h64
      rw [fmaL_false]
      have hfl := jmax_fl hJm
      obtain ⟨g1, g2⟩ := fmul_int h hy f0 hJ dp0_val hfl big1051
      obtain ⟨k1, k2⟩ := fadd_e h g1 ha (by rw [g2]; exact hsum)
      rw [g2] at k2
      exact ⟨k1, le_trans k2 (by linarith)⟩
    · rw [fmaL_true]
      have e : ∀ a b : ℝ, sg false * a + sg false * b = a + b := by intro a b; simp [sg]
      have k1 := ffmaG_finite h false false hy f0 ha (by rw [e]; exact hsum)
      have k2 := ffmaG_rv h false false hy f0 ha k1
      rw [e] at k2
      refine ⟨k1, le_trans (or_add hu.le ht.le k2) (by linarith)⟩
  · have hr : rndC w fm = 1 := by unfold rndC; rw [if_neg hc]
    rw [hr, one_mul]
    obtain ⟨k1, k2⟩ := fmaL_e h fm hy f0 ha (M := 2 ^ 31) (by linarith) (by norm_num) hp hA
    refine ⟨k1, ?_⟩
    have hq : |(J : ℝ) * -(6588397 / 2 ^ 23)| = (J : ℝ) * (6588397 / 2 ^ 23) := by rw [mul_neg, abs_neg, abs_of_nonneg (by positivity)]
    rw [hyv, r0, hq] at k2
    exact k2

theorem red_pre {J A B δ P d3 : ℝ} (hJ : J = 0 ∨ 1 ≤ J) (hA : 0 ≤ A) (hd : 0 < d3) (hd1 : d3 ≤ 1328173 / 2 ^ 45 / 1000) (hB : |A - J * P| ≤ B)
    (hδ : |J * (6588397 / 2 ^ 23 + 1328173 / 2 ^ 45 + d3 - P)| ≤ δ) (hδ1 : δ ≤ 1 / 10 ^ 9) :
    J * (6588397 / 2 ^ 23) ≤ A + B ∧ J * (1328173 / 2 ^ 45) ≤ (A + B) * (0.81 / 2 ^ 24) ∧ |J * -(6588397 / 2 ^ 23) + A| ≤ B + J * (1328173 / 2 ^ 45) + J * d3 + δ ∧
    0 ≤ J * (1328173 / 2 ^ 45) ∧ 0 ≤ J * d3 ∧ J * d3 ≤ J * (1328173 / 2 ^ 45) / 1000 := by
  have hJ0 : 0 ≤ J := by rcases hJ with h | h <;> linarith
  have hB0 : 0 ≤ B := le_trans (abs_nonneg _) hB
  obtain ⟨b1, b2⟩ := abs_le.1 hB
  obtain ⟨c1, c2⟩ := abs_le.1 hδ
  have hd0 : 0 ≤ J * d3 := mul_nonneg hJ0 hd.le
  have hdk := mul_le_mul_of_nonneg_left hd1 hJ0
  have hcs : J * (6588397 / 2 ^ 23 + 1328173 / 2 ^ 45 + d3 - P) = J * (6588397 / 2 ^ 23) + J * (1328173 / 2 ^ 45) + J * d3 - J * P := by ring
  rw [hcs] at c1 c2
  have hJD : J * (6588397 / 2 ^ 23) ≤ A + B := by
    rcases hJ with h0 | h1
    · rw [h0]; linarith
    · have : (1328173 / 2 ^ 45 : ℝ) ≤ J * (1328173 / 2 ^ 45) := by
        have := mul_le_mul_of_nonneg_right h1 (show (0:ℝ) ≤ 1328173 / 2 ^ 45 by norm_num); linarith
      have h3 : (1 / 10 ^ 9 : ℝ) ≤ 1328173 / 2 ^ 45 := by norm_num
      linarith
  refine ⟨hJD, ?_, ?_, by positivity, hd0, by linarith⟩
  · have : J * (1328173 / 2 ^ 45) ≤ J * (6588397 / 2 ^ 23) * (0.81 / 2 ^ 24) := by
      rw [mul_assoc]; exact mul_le_mul_of_nonneg_left (by norm_num) hJ0
    exact le_trans this (mul_le_mul_of_nonneg_right hJD (by norm_num))
  · rw [mul_neg]; exact abs_le.2 ⟨by linarith, by linarith⟩
theorem red_fin {u τ A B a k d δ m c E1 : ℝ} (hu : 0 < u) (hu1 : u ≤ 1 / 2 ^ 24) (ht : 0 < τ) (ht1 : τ ≤ u / 1000000) (hA : 0 ≤ A) (hB : 0 ≤ B) (hB2 : B ≤ 3 / 2)
    (ha0 : 0 ≤ a) (ha : a ≤ A + B) (hk0 : 0 ≤ k) (hk : k ≤ (A + B) * (0.81 / 2 ^ 24)) (hdk : d ≤ k / 1000) (hδ : δ ≤ u / 1000) (hm0 : 0 ≤ m) (hm : m ≤ B + k + d + δ)
    (hc0 : 0 ≤ c) (hE : E1 = c * (u * (1 + u) * a) + u * m + 2 * τ) :
    E1 * (1 + 3 * u) + u * (2.001 * B + 1.01 * k + 0.01) ≤ u * (c * (1.001 * (A + B)) + 3.01 * B + A / 2 ^ 23 + 0.02) := by
  have h1 : 1 + 3 * u ≤ 1.0001 := by norm_num at *; linarith
  have h2 : (1 + u) * (1 + 3 * u) ≤ 1.001 := by nlinarith
  have e1 : c * (u * (1 + u) * a) * (1 + 3 * u) ≤ u * (c * (1.001 * (A + B))) := by
    have e : c * (u * (1 + u) * a) * (1 + 3 * u) = (c * u) * (((1 + u) * (1 + 3 * u)) * a) := by ring
    have e' : u * (c * (1.001 * (A + B))) = (c * u) * (1.001 * (A + B)) := by ring
    rw [e, e']
    exact mul_le_mul_of_nonneg_left (mul_le_mul h2 ha ha0 (by norm_num)) (by positivity)
  have e2 : u * m * (1 + 3 * u) ≤ u * (1.0001 * (B + 1.001 * k + 1 / 1000)) := by
    rw [mul_assoc]
    apply mul_le_mul_of_nonneg_left _ hu.le
    rw [mul_comm]
    have : u / 1000 ≤ 1 / 1000 := by norm_num at *; linarith
    exact mul_le_mul h1 (by linarith) hm0 (by norm_num)
  have e3 : 2 * τ * (1 + 3 * u) ≤ u * 0.001 := by
    have := mul_le_mul_of_nonneg_left h1 (show 0 ≤ 2 * τ by linarith)
    norm_num at *; linarith
  have e4 : u * (1.0001 * (B + 1.001 * k + 1 / 1000)) + u * 0.001 + u * (2.001 * B + 1.01 * k + 0.01) ≤ u * (3.01 * B + A / 2 ^ 23 + 0.02) := by
    rw [← mul_add, ← mul_add]
    apply mul_le_mul_of_nonneg_left _ hu.le
    norm_num at *; linarith
  have e5 : u * (c * (1.001 * (A + B)) + 3.01 * B + A / 2 ^ 23 + 0.02) = u * (c * (1.001 * (A + B))) + u * (3.01 * B + A / 2 ^ 23 + 0.02) := by ring
  rw [hE, e5, add_mul, add_mul]
  linarith

theorem red_delta {w : Nat} (h : W w) {J : Nat} (hJm : J ≤ jmax w) : (J : ℝ) * (if w = 64 then 1 / 10 ^ 28 else 1 / 10 ^ 21) ≤ ulpHalf w / 1000 := by
  rcases h with h | h <;> subst h
  · have : (J : ℝ) ≤ 2 ^ 24 := by have : J ≤ 2 ^ 24 := hJm; exact_mod_cast this
    rw [if_neg (by decide), show ulpHalf 32 = 1 / 2 ^ 24 from rfl]
    exact le_trans (mul_le_mul_of_nonneg_right this (by norm_num)) (by norm_num)
  · have : (J : ℝ) ≤ 2 ^ 30 := by have : J ≤ 2 ^ 30 := hJm; exact_mod_cast this
    rw [if_pos rfl, show ulpHalf 64 = 1 / 2 ^ 53 from rfl]
    exact le_trans (mul_le_mul_of_nonneg_right this (by norm_num)) (by norm_num)
theorem tiny_ulp {w : Nat} (h : W w) : tiny w ≤ ulpHalf w / 1000000 := by
  have h1 : tiny w ≤ ulpHalf w * (1 / 2 ^ 30) := by
    unfold tiny ulpHalf
    rw [div_mul_div_comm, ← pow_add, one_mul]
    exact one_div_le_one_div_of_le (by positivity) (pow_le_pow_right₀ (by norm_num) (by rcases h with h | h <;> subst h <;> decide))
  have := ulp_pos w
  norm_num at *; linarith
theorem rv_nat {w : Nat} {y : BitVec w} {J : Nat} (hJ : val y = J * (2 ^ unitExp w : Nat)) : rv y = J := by
  unfold rv; rw [hJ]; push_cast; exact mul_div_cancel_right₀ _ (by positivity)

set_option maxHeartbeats 1000000 in
/-- the reduced argument is `|x| - J pi/4` up to rounding -/
theorem red_acc {w : Nat} (h : W w) (fm : Bool) {y ab : BitVec w} (hy : isFinite y = true) {J : Nat} (hJ : val y = J * (2 ^ unitExp w : Nat)) (hJm : J ≤ jmax w)
    (ha : isFinite ab = true) (hA0 : 0 ≤ rv ab) (hA : rv ab ≤ 2 ^ 30) {B : ℝ} (hB : |rv ab - J * (Real.pi / 4)| ≤ B) (hB2 : B ≤ 3 / 2) :
    isFinite (redArg fm y ab) = true ∧
    |rv (redArg fm y ab) - (rv ab - J * (Real.pi / 4))| ≤ ulpHalf w * (rndC w fm * (1.001 * (rv ab + B)) + 3.01 * B + rv ab / 2 ^ 23 + 0.02) := by
  obtain ⟨-, f1, f2, -, r1, r2⟩ := dp_consts h
  obtain ⟨z0, z1, z2⟩ := dp_pi h
  have hyv := rv_nat hJ
  have hu := ulp_pos w
  have hu1 := ulp_le h
  have ht := tiny_pos w
  have ht1 := tiny_ulp h
  have hb : (2 : ℝ) ^ 35 ≤ 2 ^ bias w := pow_le_pow_right₀ (by norm_num) (by rcases h with h | h <;> subst h <;> decide)
  have hJ0 : (0 : ℝ) ≤ J := Nat.cast_nonneg J
  have hJ1 : (J : ℝ) = 0 ∨ 1 ≤ (J : ℝ) := by
    by_cases h0 : J = 0
    · left; rw [h0]; norm_num
    · right; exact_mod_cast Nat.pos_of_ne_zero h0
  have hJr : (J : ℝ) ≤ 2 ^ 30 := by
    have : J ≤ 2 ^ 30 := le_trans hJm (by rcases h with h | h <;> subst h <;> decide)
    exact_mod_cast this
  have hδu := red_delta h hJm
  have hδb : |(J : ℝ) * (6588397 / 2 ^ 23 + 1328173 / 2 ^ 45 + dp3 w - Real.pi / 4)| ≤ (J : ℝ) * (if w = 64 then 1 / 10 ^ 28 else 1 / 10 ^ 21) := by
    rw [abs_mul, abs_of_nonneg hJ0]; exact mul_le_mul_of_nonneg_left z2 hJ0
  generalize (J : ℝ) * (if w = 64 then 1 / 10 ^ 28 else 1 / 10 ^ 21) = δ at *
  have hδ1 : δ ≤ 1 / 10 ^ 9 := le_trans hδu (by linarith)
  have hB0 : 0 ≤ B := le_trans (abs_nonneg _) hB
  obtain ⟨k1, k2, k3, k4, k5, k6⟩ := red_pre hJ1 hA0 z0 z1 hB hδb hδ1
  obtain ⟨g1, e1⟩ := red_first h fm hy hJ hJm ha (by rw [abs_of_nonneg hA0]; linarith)
  unfold redArg
  generalize fmaL fm y ((dpSincos w).getD 0 0) ab = s1 at *
  have hc : 0 ≤ rndC w fm ∧ rndC w fm ≤ 1 := by unfold rndC; split <;> norm_num
  obtain ⟨E1, hE1⟩ : ∃ E1, E1 = rndC w fm * (ulpHalf w * (1 + ulpHalf w) * (J * (6588397 / 2 ^ 23))) + ulpHalf w * |J * -(6588397 / 2 ^ 23) + rv ab| + 2 * tiny w := ⟨_, rfl⟩
  rw [← hE1] at e1
  have hfin := red_fin hu hu1 ht ht1 hA0 hB0 hB2 (by positivity) k1 k4 k2 k6 hδu (abs_nonneg _) k3 hc.1 hE1
  have hkb : (J : ℝ) * (1328173 / 2 ^ 45) ≤ 100 := by
    refine le_trans k2 (le_trans (mul_le_mul_of_nonneg_right (show rv ab + B ≤ 2 ^ 30 + 3 / 2 by linarith) (by norm_num)) (by norm_num))
  have hdb : (J : ℝ) * dp3 w ≤ 100 := by linarith
  have hE1b : E1 ≤ 2 ^ 31 := by
    have hY : 0 ≤ 1.001 * (rv ab + B) := by positivity
    have hcY := mul_le_mul_of_nonneg_right hc.2 hY
    have hcY0 := mul_nonneg hc.1 hY
    have hE0 : 0 ≤ E1 := le_trans (abs_nonneg _) e1
    have x1 : 0 ≤ ulpHalf w * (2.001 * B + 1.01 * (J * (1328173 / 2 ^ 45)) + 0.01) := by positivity
    have x2 : 0 ≤ E1 * (3 * ulpHalf w) := by positivity
    have x3 : ulpHalf w * (rndC w fm * (1.001 * (rv ab + B)) + 3.01 * B + rv ab / 2 ^ 23 + 0.02) ≤
      1 * (rndC w fm * (1.001 * (rv ab + B)) + 3.01 * B + rv ab / 2 ^ 23 + 0.02) := by
      apply mul_le_mul_of_nonneg_right (le_trans hu1 (by norm_num))
      positivity
    have x4 : E1 * (1 + 3 * ulpHalf w) = E1 + E1 * (3 * ulpHalf w) := by ring
    rw [x4] at hfin
    have x5 : rv ab / 2 ^ 23 ≤ 2 ^ 30 / 2 ^ 23 := div_le_div_of_nonneg_right hA (by positivity)
    norm_num at *
    linarith
  have hs1 : |rv s1| ≤ 2 ^ 32 := le_trans (abs_le_of_sub e1 k3) (by linarith)
  have a1 : |(J : ℝ) * -(1328173 / 2 ^ 45)| ≤ 100 := by rw [mul_neg, abs_neg, abs_of_nonneg k4]; exact hkb
  have a2 : |(J : ℝ) * -dp3 w| ≤ 100 := by rw [mul_neg, abs_neg, abs_of_nonneg k5]; exact hdb
  have hp1 : |rv y * rv ((dpSincos w).getD 1 0)| ≤ 2 ^ 33 := by rw [hyv, r1]; exact le_trans a1 (by norm_num)
  have hp2 : |rv y * rv ((dpSincos w).getD 2 0)| ≤ 2 ^ 33 := by rw [hyv, r2]; exact le_trans a2 (by norm_num)
  obtain ⟨g2, e2⟩ := fmaL_e h fm hy f1 g1 (M := 2 ^ 33) (by linarith) (by norm_num) hp1 (le_trans hs1 (by norm_num))
  generalize fmaL fm y ((dpSincos w).getD 1 0) s1 = s2 at *
  rw [hyv, r1] at e2
  have hs2 : |rv s2| ≤ 2 ^ 33 := by
    have b1 : |(J : ℝ) * -(1328173 / 2 ^ 45) + rv s1| ≤ 100 + 2 ^ 32 := le_trans (abs_add_le _ _) (add_le_add a1 hs1)
    have b2 : ulpHalf w * |(J : ℝ) * -(1328173 / 2 ^ 45) + rv s1| ≤ 1 / 2 ^ 24 * (100 + 2 ^ 32) := mul_le_mul hu1 b1 (abs_nonneg _) (by norm_num)
    have b3 : ulpHalf w * (1 + ulpHalf w) ≤ 1 / 2 ^ 24 * 2 := mul_le_mul hu1 (by linarith) (by positivity) (by norm_num)
    have b4 : ulpHalf w * (1 + ulpHalf w) * |(J : ℝ) * -(1328173 / 2 ^ 45)| ≤ 1 / 2 ^ 24 * 2 * 100 := mul_le_mul b3 a1 (abs_nonneg _) (by norm_num)
    exact le_trans (abs_le_of_sub e2 b1) (by linarith)
  obtain ⟨g3, e3⟩ := fmaL_e h fm hy f2 g2 (M := 2 ^ 33) (by linarith) (by norm_num) hp2 hs2
  rw [hyv, r2] at e3
  refine ⟨g3, le_trans (red_real hu hu1 ht ht1 hB rfl rfl k4 k5 k6 hδb hδu e1 e2 e3) hfin⟩
end Dpm.X86
