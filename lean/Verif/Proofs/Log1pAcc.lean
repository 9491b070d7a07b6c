import Verif.Props.X86Log10Acc
/-! Accuracy of `log1p`: the rounded sum `1 + x` and the correction term. -/
namespace Dpm.X86
open Dpm.Reg Dpm.Fp

theorem one_add_fin {w : Nat} (h : W w) {x : BitVec w} (hx : isFinite x = true) (h0 : -((2 ^ unitExp w : Nat) : Int) < val x) :
    isFinite (fadd x (oneBits w)) = true := by
  obtain ⟨-, -, -, c4, -⟩ := log_consts h
  have ho := one_fin h
  rw [fadd_fin hx ho, c4, if_neg (by omega)]
  have hi := infMag_lt h
  have hlt : min (rne (mb w) (val x + (2 ^ unitExp w : Nat)).natAbs 1) (infMag w) < 2 ^ (w - 1) := by omega
  have hm : mag (Fp.round w (decide (val x + (2 ^ unitExp w : Nat) < 0)) (val x + (2 ^ unitExp w : Nat)).natAbs 1) = min (rne (mb w) (val x + (2 ^ unitExp w : Nat)).natAbs 1) (infMag w) := mag_pack h hlt
  rw [finite_iff h, hm]
  have hmx := (finite_iff h x).1 hx
  have hv : (val x).natAbs ≤ magVal (mb w) (infMag w - 1) := by
    rw [natAbs_val]; exact magVal_le.2 (by omega)
  have hle : (val x + (2 ^ unitExp w : Nat)).natAbs ≤ magVal (mb w) (infMag w - 1) + 2 ^ unitExp w := by omega
  have hr : rne (mb w) (magVal (mb w) (infMag w - 1) + 2 ^ unitExp w) 1 = infMag w - 1 := by
    rcases h with h | h <;> subst h <;> decide +kernel
  have := rne_mono (Fp.mb_pos w) Nat.one_pos hle
  rw [hr] at this
  have : 0 < infMag w := infMag_pos h
  omega

/-- below 1/2 the sum is a small multiple of the spacing at 1 -/
theorem near_mone {w : Nat} (h : W w) {x : BitVec w} (h0 : -((2 ^ unitExp w : Nat) : Int) < val x) (h1 : val x + (2 ^ unitExp w : Nat) ≤ (2 ^ (unitExp w - 1) : Nat)) :
    ∃ n : Nat, 0 < n ∧ n ≤ 2 ^ (mb w + 1) ∧ val x + (2 ^ unitExp w : Nat) = ((n * 2 ^ (unitExp w - 1 - mb w) : Nat) : Int) := by
  obtain ⟨f, e, hv, hf, -⟩ := val_split x
  have hc : unitExp w - 1 - mb w + (mb w + 1) = unitExp w ∧ 0 < unitExp w := by rcases h with h | h <;> subst h <;> decide
  obtain ⟨hc1, hc2⟩ := hc
  have hp : (2:Nat) ^ unitExp w = 2 ^ (mb w + 1) * 2 ^ (unitExp w - 1 - mb w) := by rw [← Nat.pow_add]; congr 1; omega
  have hp' : (2:Nat) ^ unitExp w = 2 * 2 ^ (unitExp w - 1) := by rw [← Nat.pow_succ']; congr 1; omega
  have hge : 2 ^ (unitExp w - 1) ≤ (val x).natAbs := by omega
  have hneg : val x = -((val x).natAbs : Int) := by
    have := Nat.two_pow_pos (unitExp w - 1)
    omega
  have he : unitExp w - 1 - mb w ≤ e := by
    by_contra hh
    have a : 2 ^ e * 2 ≤ 2 ^ (unitExp w - 1 - mb w) := by rw [← Nat.pow_succ]; exact Nat.pow_le_pow_right (by omega) (by omega)
    have b : f * 2 ^ e < 2 ^ (mb w + 1) * 2 ^ e := Nat.mul_lt_mul_of_pos_right hf (Nat.two_pow_pos _)
    have d : 2 ^ (mb w + 1) * (2 ^ e * 2) ≤ 2 ^ (mb w + 1) * 2 ^ (unitExp w - 1 - mb w) := Nat.mul_le_mul_left _ a
    rw [← Nat.mul_assoc] at d
    omega
  obtain ⟨j, rfl⟩ := Nat.exists_eq_add_of_le he
  have hv' : (val x).natAbs = f * 2 ^ j * 2 ^ (unitExp w - 1 - mb w) := by rw [hv, Nat.pow_add]; ring
  generalize hq : (2:Nat) ^ (unitExp w - 1 - mb w) = q at *
  have hqp : 0 < q := by rw [← hq]; exact Nat.two_pow_pos _
  have hlt : f * 2 ^ j < 2 ^ (mb w + 1) := by
    have : f * 2 ^ j * q < 2 ^ (mb w + 1) * q := by omega
    exact Nat.lt_of_mul_lt_mul_right this
  refine ⟨2 ^ (mb w + 1) - f * 2 ^ j, by omega, by omega, ?_⟩
  rw [Nat.sub_mul]
  have : f * 2 ^ j * q ≤ 2 ^ (mb w + 1) * q := Nat.mul_le_mul_right _ hlt.le
  omega

theorem neg_one_rv {w : Nat} {x : BitVec w} : -1 < rv x ↔ -((2 ^ unitExp w : Nat) : Int) < val x := by
  have hU : (0:ℝ) < 2 ^ unitExp w := by positivity
  unfold rv
  rw [lt_div_iff₀ hU]
  constructor
  · intro hh; have : ((-((2 ^ unitExp w : Nat) : Int) : Int) : ℝ) < (val x : ℝ) := by push_cast; linarith
    exact_mod_cast this
  · intro hh; have : ((-((2 ^ unitExp w : Nat) : Int) : Int) : ℝ) < (val x : ℝ) := by exact_mod_cast hh
    push_cast at this; linarith
theorem fsub_one_fin {w : Nat} (h : W w) {x : BitVec w} (hx : isFinite x = true) (h0 : 0 ≤ val x) :
    isFinite (fsub x (oneBits w)) = true := by
  obtain ⟨-, -, -, c4, -⟩ := log_consts h
  have ho := one_fin h
  rw [fsub_fin h hx ho, c4]
  have hi := infMag_lt h
  split
  · exact finite_pack_zero h _
  have hlt : min (rne (mb w) (val x - (2 ^ unitExp w : Nat)).natAbs 1) (infMag w) < 2 ^ (w - 1) := by omega
  have hm : mag (Fp.round w (decide (val x - (2 ^ unitExp w : Nat) < 0)) (val x - (2 ^ unitExp w : Nat)).natAbs 1) = min (rne (mb w) (val x - (2 ^ unitExp w : Nat)).natAbs 1) (infMag w) := mag_pack h hlt
  rw [finite_iff h, hm]
  have hmx := (finite_iff h x).1 hx
  have hv : (val x).natAbs ≤ magVal (mb w) (infMag w - 1) := by
    rw [natAbs_val]; exact magVal_le.2 (by omega)
  have hge : 2 ^ unitExp w ≤ magVal (mb w) (infMag w - 1) := by rcases h with h | h <;> subst h <;> decide +kernel
  have hle : (val x - (2 ^ unitExp w : Nat)).natAbs ≤ magVal (mb w) (infMag w - 1) := by
    generalize (2:Nat) ^ unitExp w = U at *
    omega
  have hr : rne (mb w) (magVal (mb w) (infMag w - 1)) 1 = infMag w - 1 := by
    rcases h with h | h <;> subst h <;> decide +kernel
  have := rne_mono (Fp.mb_pos w) Nat.one_pos hle
  rw [hr] at this
  have : 0 < infMag w := infMag_pos h
  omega
theorem repr_fin {w : Nat} (h : W w) {x : BitVec w} (hx : isFinite x = true) : Repr w (val x).natAbs :=
  ⟨mag x, (finite_iff h x).1 hx, natAbs_val x⟩
theorem corr_c1 {u x X E : ℝ} (hu0 : 0 ≤ u) (hu : u ≤ 1 / 2 ^ 24) (hV : 1 / 2 ≤ 1 + x) (hX : (1 - u) * (1 + x) ≤ X)
    (ha : -(u * (1 + x)) ≤ X - (1 + x) ∧ X - (1 + x) ≤ u * (1 + x))
    (hd : -(u * (1 + x + u * (1 + x))) ≤ E - (X - 1) ∧ E - (X - 1) ≤ u * (1 + x + u * (1 + x))) :
    |x - E| ≤ 3 * (u * (1 + x)) ∧ |x - E| * (1 + 1 / 2 ^ 24) ≤ 3.01 * u * X := by
  obtain ⟨a1, a2⟩ := ha
  obtain ⟨d1, d2⟩ := hd
  have hq : 0 ≤ u * (1 + x) := mul_nonneg hu0 (by linarith)
  have hq2 : u * (u * (1 + x)) ≤ 1 / 2 ^ 24 * (u * (1 + x)) := mul_le_mul_of_nonneg_right hu hq
  norm_num at hq2
  have hX' : u * ((1 - u) * (1 + x)) ≤ u * X := mul_le_mul_of_nonneg_left hX hu0
  have k : |x - E| ≤ 2.0001 * (u * (1 + x)) := by rw [abs_le]; constructor <;> nlinarith
  refine ⟨by linarith, ?_⟩
  norm_num
  nlinarith
theorem corr_c0 {u x X E : ℝ} (hu0 : 0 ≤ u) (hu : u ≤ 1 / 2 ^ 24) (hV : 1 / 2 ≤ 1 + x) (hX : (1 - u) * (1 + x) ≤ X)
    (ha : -(u * (1 + x)) ≤ X - (1 + x) ∧ X - (1 + x) ≤ u * (1 + x))
    (hd : -(u * (1 + u * (1 + x))) ≤ E - (X - x) ∧ E - (X - x) ≤ u * (1 + u * (1 + x))) :
    |1 - E| ≤ 3.001 * (u * (1 + x)) ∧ |1 - E| * (1 + 1 / 2 ^ 24) ≤ 3.01 * u * X := by
  obtain ⟨a1, a2⟩ := ha
  obtain ⟨d1, d2⟩ := hd
  have hq : 0 ≤ u * (1 + x) := mul_nonneg hu0 (by linarith)
  have hq1 : u * 1 ≤ u * (2 * (1 + x)) := mul_le_mul_of_nonneg_left (by linarith) hu0
  have hq2 : u * (u * (1 + x)) ≤ 1 / 2 ^ 24 * (u * (1 + x)) := mul_le_mul_of_nonneg_right hu hq
  norm_num at hq2
  have hX' : u * ((1 - u) * (1 + x)) ≤ u * X := mul_le_mul_of_nonneg_left hX hu0
  have k : |1 - E| ≤ 3.0001 * (u * (1 + x)) := by rw [abs_le]; constructor <;> nlinarith
  refine ⟨by linarith, ?_⟩
  norm_num
  nlinarith
/-- the sum and the correction term -/
theorem corr {w : Nat} (h : W w) {x : BitVec w} (hx : isFinite x = true) (h0 : -1 < rv x) :
    isFinite (fadd x (oneBits w)) = true ∧ |rv (fadd x (oneBits w)) - (1 + rv x)| ≤ ulpHalf w * (1 + rv x) ∧
    1 / 2 ^ (mb w + 1) ≤ 1 + rv x ∧ isFinite (c1p x) = true ∧ |rv (c1p x)| ≤ 3.01 * ulpHalf w * rv (fadd x (oneBits w)) := by
  have hv := neg_one_rv.1 h0
  have hF := one_add_fin h hx hv
  have ho := one_fin h
  have h1v : val (oneBits w) = (2 ^ unitExp w : Nat) := (log_consts h).2.2.2.1
  have h1 := one_rv h
  have hu := ulp_le h
  have hup := ulp_pos w
  have hV : 0 < 1 + rv x := by linarith
  have e1 := fadd_rv h hx ho hF
  rw [h1, add_comm (rv x) 1, abs_of_pos hV] at e1
  have hU : (0:ℝ) < 2 ^ unitExp w := by positivity
  by_cases hs : val x + (2 ^ unitExp w : Nat) ≤ (2 ^ (unitExp w - 1) : Nat)
  · obtain ⟨n, n0, n1, n2⟩ := near_mone h hv hs
    have hrep : Repr w (val x + val (oneBits w)).natAbs := by
      rw [h1v, n2, Int.natAbs_natCast]
      refine repr_mk n1 ?_
      have : n * 2 ^ (unitExp w - 1 - mb w) ≤ 2 ^ (unitExp w - 1) := by exact_mod_cast n2 ▸ hs
      refine lt_of_le_of_lt this ?_
      rcases h with h | h <;> subst h <;> decide +kernel
    obtain ⟨-, vU⟩ := fadd_val h hx ho hrep
    have hc : isFinite (c1p x) = true ∧ val (c1p x) = 0 := by
      have hz : isFinite (0#w) = true ∧ val (0#w) = 0 := by rcases h with h | h <;> subst h <;> decide
      unfold c1p
      split
      · exact hz
      split
      · obtain ⟨a, b⟩ := fsub_val h hF ho (by rw [vU, add_sub_cancel_right]; exact repr_fin h hx)
        rw [vU, add_sub_cancel_right] at b
        have := fsub_val h hx a (by rw [b, sub_self]; exact ⟨0, infMag_pos h, by rw [magVal_zero]; rfl⟩)
        rwa [b, sub_self] at this
      · obtain ⟨a, b⟩ := fsub_val h hF hx (by rw [vU, add_sub_cancel_left]; exact repr_fin h ho)
        rw [vU, add_sub_cancel_left] at b
        have := fsub_val h ho a (by rw [b, sub_self]; exact ⟨0, infMag_pos h, by rw [magVal_zero]; rfl⟩)
        rwa [b, sub_self] at this
    refine ⟨hF, e1, ?_, hc.1, ?_⟩
    · have : (1:ℝ) + rv x = ((val x + (2 ^ unitExp w : Nat) : Int) : ℝ) / 2 ^ unitExp w := by
        unfold rv; push_cast; field_simp; ring
      rw [this, n2, div_le_div_iff₀ (by positivity) hU]
      have hp : (2:ℝ) ^ unitExp w = 2 ^ (mb w + 1) * 2 ^ (unitExp w - 1 - mb w) := by
        rw [← pow_add]; congr 1
        have : mb w + 1 ≤ unitExp w := by rcases h with h | h <;> subst h <;> decide
        omega
      push_cast
      rw [hp]
      have : (1:ℝ) ≤ n := by exact_mod_cast n0
      nlinarith [mul_pos (pow_pos (by norm_num : (0:ℝ) < 2) (mb w + 1)) (pow_pos (by norm_num : (0:ℝ) < 2) (unitExp w - 1 - mb w))]
    · rw [rv_zero_of hc.2, abs_zero]
      have : 0 ≤ rv (fadd x (oneBits w)) := by
        obtain ⟨a, b⟩ := abs_le.1 e1
        nlinarith
      positivity
  · have hhalf : 1 / 2 ≤ 1 + rv x := by
      have hp' : (2:Nat) ^ unitExp w = 2 * 2 ^ (unitExp w - 1) := by
        rw [← Nat.pow_succ']; congr 1
        have : 0 < unitExp w := by rcases h with h | h <;> subst h <;> decide
        omega
      have hge : (2 ^ unitExp w : Nat) ≤ 2 * (val x + (2 ^ unitExp w : Nat)) := by omega
      have : ((2 ^ unitExp w : Nat) : ℝ) ≤ 2 * ((val x : ℝ) + (2 ^ unitExp w : Nat)) := by exact_mod_cast hge
      push_cast at this
      have e : rv x = val x / 2 ^ unitExp w := rfl
      rw [e, show (1:ℝ) + val x / 2 ^ unitExp w = (2 ^ unitExp w + val x) / 2 ^ unitExp w from by field_simp, div_le_div_iff₀ (by norm_num) hU]
      linarith
    have hbig : (2:ℝ) ≤ 2 ^ bias w := by
      have : (2:ℝ) ^ 1 ≤ 2 ^ bias w := pow_le_pow_right₀ (by norm_num) (by rcases h with h | h <;> subst h <;> decide)
      linarith
    have hmax := rv_lt_max h hx
    rw [pow_succ] at hmax
    obtain ⟨m1, m2⟩ := abs_lt.1 hmax
    obtain ⟨a1, a2⟩ := abs_le.1 e1
    generalize hXe : fadd x (oneBits w) = X at *
    have hV2 : ulpHalf w * (1 + rv x) ≤ 1 / 8 * 2 ^ bias w := by
      have : ulpHalf w * (1 + rv x) ≤ 1 / 2 ^ 24 * (1 + rv x) := mul_le_mul_of_nonneg_right hu hV.le
      norm_num at this ⊢
      linarith
    have hXV : (1 - ulpHalf w) * (1 + rv x) ≤ rv X := by linarith
    have hX0 : 0 < rv X := lt_of_lt_of_le (mul_pos (by norm_num at hu; linarith) hV) hXV
    have hc : isFinite (c1p x) = true ∧ |rv (c1p x)| ≤ 3.01 * ulpHalf w * rv X := by
      unfold c1p
      rw [hXe]
      split
      · refine ⟨by rcases h with h | h <;> subst h <;> decide, ?_⟩
        rw [rv_zero_of (by rcases h with h | h <;> subst h <;> decide), abs_zero]; positivity
      split
      · -- x - (u - 1)
        have hXh : 0 ≤ val X := (rv_pos_iff.1 hX0).le
        have eF := fsub_one_fin h hF hXh
        have ee := fsub_rv h hF ho eF
        rw [h1] at ee
        generalize fsub X (oneBits w) = E at *
        have b1 : |rv X - 1| ≤ 1 + rv x + ulpHalf w * (1 + rv x) := by rw [abs_le]; constructor <;> linarith
        have b2 : ulpHalf w * |rv X - 1| ≤ ulpHalf w * (1 + rv x + ulpHalf w * (1 + rv x)) := mul_le_mul_of_nonneg_left b1 hup.le
        obtain ⟨d1, d2⟩ := abs_le.1 (le_trans ee b2)
        obtain ⟨g1, g2⟩ := corr_c1 hup.le hu hhalf hXV ⟨a1, a2⟩ ⟨d1, d2⟩
        obtain ⟨k1, k2⟩ := fsub_e h hx eF (le_trans g1 (by linarith))
        exact ⟨k1, le_trans (abs_le_of_sub k2 (le_refl _)) (le_trans (by linarith [mul_le_mul_of_nonneg_right hu (abs_nonneg (rv x - rv E))]) g2)⟩
      · have b1 : |rv X - rv x| ≤ 1 + ulpHalf w * (1 + rv x) := by rw [abs_le]; constructor <;> linarith
        obtain ⟨eF, ee⟩ := fsub_e h hF hx (le_trans b1 (by linarith))
        generalize fsub X x = E at *
        have b2 : ulpHalf w * |rv X - rv x| ≤ ulpHalf w * (1 + ulpHalf w * (1 + rv x)) := mul_le_mul_of_nonneg_left b1 hup.le
        obtain ⟨d1, d2⟩ := abs_le.1 (le_trans ee b2)
        obtain ⟨g1, g2⟩ := corr_c0 hup.le hu hhalf hXV ⟨a1, a2⟩ ⟨d1, d2⟩
        obtain ⟨k1, k2⟩ := fsub_e h ho eF (by rw [h1]; exact le_trans g1 (by linarith))
        rw [h1] at k2
        exact ⟨k1, le_trans (abs_le_of_sub k2 (le_refl _)) (le_trans (by linarith [mul_le_mul_of_nonneg_right hu (abs_nonneg (1 - rv E))]) g2)⟩
    refine ⟨hF, e1, le_trans (le_trans ?_ (by norm_num : (1:ℝ) / 2 ^ 1 ≤ 1 / 2)) hhalf, hc⟩
    exact one_div_le_one_div_of_le (by norm_num) (pow_le_pow_right₀ (by norm_num) (by omega))
theorem tiny_le_ulp {w : Nat} (h : W w) : tiny w ≤ 1 / 1000000 * ulpHalf w := by
  unfold tiny ulpHalf
  have e : unitExp w + 1 = (mb w + 1) + (unitExp w - mb w) ∧ 24 ≤ unitExp w - mb w := by rcases h with h | h <;> subst h <;> decide
  rw [e.1, pow_add]
  have : (2:ℝ) ^ 24 ≤ 2 ^ (unitExp w - mb w) := pow_le_pow_right₀ (by norm_num) e.2
  rw [div_mul_div_comm, div_le_div_iff₀ (by positivity) (by positivity)]
  have p : (0:ℝ) < 2 ^ (mb w + 1) := by positivity
  norm_num at this
  nlinarith
theorem log_total {u V U L r q : ℝ} (hu0 : 0 ≤ u) (hu : u ≤ 1 / 2 ^ 24) (hL : |L - Real.log U| ≤ 5 * u * (1 + |Real.log U|))
    (hlip : |Real.log U - Real.log V| ≤ 1.001 * u) (hq : |q| ≤ 3.02 * u) (hr : |r - (L + q)| ≤ u * |L + q|) :
    |r - Real.log V| ≤ 10 * u * (1 + |Real.log V|) := by
  generalize Real.log U = a at *
  generalize Real.log V = b at *
  norm_num at hu
  have h1 : |a| ≤ 1.001 * u + |b| := abs_le_of_sub hlip (le_refl _)
  have h2 : |L - b| ≤ 5 * u * (1 + |a|) + 1.001 * u := le_trans (abs_sub_le _ a _) (add_le_add hL hlip)
  have h3 : |L + q - b| ≤ 5 * u * (1 + |a|) + 1.001 * u + 3.02 * u := by
    have : L + q - b = (L - b) + q := by ring
    rw [this]; exact le_trans (abs_add_le _ _) (add_le_add h2 hq)
  have h4 : |L + q| ≤ 5 * u * (1 + |a|) + 1.001 * u + 3.02 * u + |b| := abs_le_of_sub h3 (le_refl _)
  have h5 : |r - b| ≤ u * |L + q| + (5 * u * (1 + |a|) + 1.001 * u + 3.02 * u) := le_trans (abs_sub_le _ (L + q) _) (add_le_add hr h3)
  have hb := abs_nonneg b
  have hua : u * |a| ≤ u * (1.001 * u + |b|) := mul_le_mul_of_nonneg_left h1 hu0
  have huu : u * u ≤ 0.0000001 * u := mul_le_mul_of_nonneg_right (by linarith) hu0
  have hub : 0 ≤ u * |b| := mul_nonneg hu0 hb
  have h6 : u * |L + q| ≤ u * (5 * u * (1 + |a|) + 1.001 * u + 3.02 * u + |b|) := mul_le_mul_of_nonneg_left h4 hu0
  have h7 : u * (u * |a|) ≤ 0.0000001 * (u * |a|) := mul_le_mul_of_nonneg_right (by linarith) (mul_nonneg hu0 (abs_nonneg _))
  nlinarith
theorem log_abs_le {U : ℝ} {n m : Nat} (h1 : 1 / 2 ^ m ≤ U) (h2 : U ≤ 2 ^ n) (hm : m ≤ 1024) (hn : n ≤ 1024) : |Real.log U| ≤ 1024 := by
  have hp : (0:ℝ) < 1 / 2 ^ m := by positivity
  have l2 := Real.log_two_lt_d9
  have l0 : 0 < Real.log 2 := Real.log_pos (by norm_num)
  have a := Real.log_le_log hp h1
  have b := Real.log_le_log (lt_of_lt_of_le hp h1) h2
  rw [Real.log_div (by norm_num) (by positivity), Real.log_one, Real.log_pow] at a
  rw [Real.log_pow] at b
  have m' : (m:ℝ) ≤ 1024 := by exact_mod_cast hm
  have n' : (n:ℝ) ≤ 1024 := by exact_mod_cast hn
  have m0 : (0:ℝ) ≤ m := by positivity
  have n0 : (0:ℝ) ≤ n := by positivity
  rw [abs_le]; constructor <;> nlinarith
theorem pos_normal {w : Nat} (h : W w) {x : BitVec w} (hx : isFinite x = true) (hr : 1 / 2 ^ (mb w + 2) ≤ rv x) :
    x.msb = false ∧ 2 ^ mb w ≤ x.toNat ∧ x.toNat < infMag w := by
  have h0 : 0 < rv x := lt_of_lt_of_le (by positivity) hr
  have hv := rv_pos_iff.1 h0
  have hs : x.msb = false := by
    by_contra hh
    rw [Bool.not_eq_false] at hh
    unfold val neg at hv
    rw [if_pos hh] at hv
    omega
  refine ⟨hs, ?_, ?_⟩
  · by_contra hh
    push Not at hh
    rw [rv_sub h hh] at hr
    have hb : mb w + 2 + 1 ≤ bias w := by rcases h with h | h <;> subst h <;> decide
    have e : (2:ℝ) ^ (-(bias w : ℤ)) = 1 / 2 ^ bias w := by rw [zpow_neg, zpow_natCast, one_div]
    have hl : (x.toNat : ℝ) / 2 ^ mb w < 1 := by
      rw [div_lt_one (by positivity)]; exact_mod_cast hh
    have h3 : (1:ℝ) / 2 ^ bias w ≤ 1 / 2 ^ (mb w + 2 + 1) := one_div_le_one_div_of_le (by positivity) (pow_le_pow_right₀ (by norm_num) hb)
    rw [pow_succ _ (mb w + 2), ← div_div] at h3
    rw [e] at hr
    have hp : (0:ℝ) < 1 / 2 ^ bias w := by positivity
    nlinarith
  · have := (finite_iff h x).1 hx
    rwa [mag_eq_toNat hs] at this
/-- the value `log1p` computes -/
theorem ev1p_acc {w : Nat} (h : W w) (fm : Bool) {x : BitVec w} (hx : isFinite x = true) (h0 : -1 < rv x) :
    isFinite (fadd (evLog fm (fadd x (oneBits w))) (fdiv (c1p x) (fadd x (oneBits w)))) = true ∧
    |rv (fadd (evLog fm (fadd x (oneBits w))) (fdiv (c1p x) (fadd x (oneBits w)))) - Real.log (1 + rv x)| ≤ 10 * ulpHalf w * (1 + |Real.log (1 + rv x)|) := by
  obtain ⟨hF, e1, hV, cF, ce⟩ := corr h hx h0
  have hu := ulp_le h
  have hup := ulp_pos w
  have ht := tiny_le_ulp h
  have hVp : 0 < 1 + rv x := by linarith
  generalize fadd x (oneBits w) = X at *
  obtain ⟨a1, a2⟩ := abs_le.1 e1
  have hX2 : (1 - ulpHalf w) * (1 + rv x) ≤ rv X := by linarith
  have hXlow : 1 / 2 ^ (mb w + 2) ≤ rv X := by
    rw [pow_succ, ← div_div]
    norm_num at hu
    have : (1:ℝ) / 2 ^ (mb w + 1) / 2 ≤ (1 + rv x) / 2 := by linarith
    nlinarith
  obtain ⟨hs, hn, hi⟩ := pos_normal h hF hXlow
  have hX0 : 0 < rv X := lt_of_lt_of_le (by positivity) hXlow
  obtain ⟨lF, le⟩ := evLog_acc' h fm hi
  rw [← rv_pvN h hs hn] at le
  have hb : mb w + 2 ≤ 1024 ∧ bias w + 1 ≤ 1024 ∧ 11 ≤ bias w := by rcases h with h | h <;> subst h <;> decide
  have hlog := log_abs_le hXlow (le_trans (le_abs_self _) (rv_lt_max h hF).le) hb.1 hb.2.1
  have hbig : (2:ℝ) ^ 11 ≤ 2 ^ bias w := pow_le_pow_right₀ (by norm_num) hb.2.2
  norm_num at hbig
  have hz : isZero X = false := by
    by_contra hh
    rw [Bool.not_eq_false] at hh
    have := (rv_pos_iff.1 hX0)
    have := (zero_fin h hh).2
    omega
  have hq : |rv (c1p x) / rv X| ≤ 3.01 * ulpHalf w := by
    rw [abs_div, abs_of_pos hX0, div_le_iff₀ hX0]; exact ce
  norm_num at hu
  obtain ⟨qF, qe⟩ := fdiv_e h cF hF hz (le_trans hq (by linarith))
  have hq2 : |rv (fdiv (c1p x) X)| ≤ 3.02 * ulpHalf w := by
    refine le_trans (abs_le_of_sub qe hq) ?_
    have : ulpHalf w * |rv (c1p x) / rv X| ≤ ulpHalf w * (3.01 * ulpHalf w) := mul_le_mul_of_nonneg_left hq hup.le
    nlinarith
  generalize fdiv (c1p x) X = Q at *
  generalize evLog fm X = L at *
  have hL : |rv L| ≤ 1030 := by
    refine le_trans (abs_le_of_sub le hlog) ?_
    nlinarith [abs_nonneg (Real.log (rv X))]
  obtain ⟨rF, re⟩ := fadd_e h lF qF (le_trans (abs_add_le _ _) (le_trans (add_le_add hL hq2) (by linarith)))
  refine ⟨rF, log_total hup.le (by norm_num; linarith) le ?_ hq2 re⟩
  have hm : 0 < (1 - ulpHalf w) * (1 + rv x) := mul_pos (by linarith) hVp
  refine le_trans (log_lip hm hX2 (by nlinarith)) ?_
  rw [div_le_iff₀ hm]
  refine le_trans e1 ?_
  nlinarith [mul_pos hup hVp]
end Dpm.X86
