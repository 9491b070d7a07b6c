import Verif.Model.Rcp
import Verif.Spec.Approx
import Verif.Proofs.RealOps
import Verif.Props.X86FloatExpr
import Verif.Props.GenericMath
/-
C64: reciprocals and reciprocal square roots.
-/
namespace Dpm.X86
open Dpm.Fp Dpm.Reg Dpm.GenericMath Dpm.Generic

section lanes
variable {w : Nat} (h : W w)
include h
theorem one_sm : isFinite (oneBits w) = true ∧ isZero (oneBits w) = false ∧ (oneBits w).msb = false ∧ val (oneBits w) = 2 ^ unitExp w ∧
    oneBits w = ofInt w 1 := by
  rcases h with h | h <;> subst h <;> decide +kernel
theorem one_rv : rv (oneBits w) = 1 := by
  unfold rv; rw [(one_sm h).2.2.2.1]; push_cast; exact div_self (by positivity)
theorem rv_ne_zero {x : BitVec w} (h0 : isZero x = false) : rv x ≠ 0 := by
  have hU : (0:ℝ) < 2 ^ unitExp w := by positivity
  have : val x ≠ 0 := by rw [Ne, val_zero_iff, ← zero_iff, h0]; decide
  unfold rv; exact div_ne_zero (by exact_mod_cast this) hU.ne'
theorem fdiv_one_acc {x : BitVec w} (hx : isFinite x = true) (h0 : isZero x = false) (hX : 1 ≤ 2 ^ bias w * |rv x|) :
    isFinite (fdiv (oneBits w) x) = true ∧ |rv (fdiv (oneBits w) x) * rv x - 1| ≤ ulpHalf w + tiny w * |rv x| := by
  have hne := rv_ne_zero h h0
  have hp := abs_pos.2 hne
  have e := fdiv_e h (one_sm h).1 hx h0 (by
    rw [one_rv h, abs_div, abs_one, div_le_iff₀ hp]; exact hX)
  rw [one_rv h] at e
  refine ⟨e.1, ?_⟩
  have : rv (fdiv (oneBits w) x) * rv x - 1 = (rv (fdiv (oneBits w) x) - 1 / rv x) * rv x := by field_simp
  rw [this, abs_mul]
  calc _ ≤ (ulpHalf w * |1 / rv x| + tiny w) * |rv x| := mul_le_mul_of_nonneg_right e.2 hp.le
    _ = ulpHalf w * (|1 / rv x| * |rv x|) + tiny w * |rv x| := by ring
    _ = _ := by rw [abs_div, abs_one, div_mul_cancel₀ _ hp.ne', mul_one]
theorem pos_sqrt_zero {x : BitVec w} (hx : isFinite x = true) (h0 : 0 < rv x) : isZero (fsqrt x) = false ∧ 0 < rv (fsqrt x) ∧
    |rv (fsqrt x) - Real.sqrt (rv x)| ≤ ulpHalf w * Real.sqrt (rv x) ∧ isFinite (fsqrt x) = true := by
  have e := fsqrt_e h hx h0
  have hs := Real.sqrt_pos.2 h0
  have hu := ulp_le h
  have hpos : 0 < rv (fsqrt x) := by
    have := (abs_le.1 e.2).1
    nlinarith
  refine ⟨?_, hpos, e.2, e.1⟩
  cases hz : isZero (fsqrt x)
  · rfl
  · have := (val_zero_iff _).2 ((zero_iff _).1 hz)
    unfold rv at hpos; rw [this] at hpos; simp at hpos
theorem rv_le_max {x : BitVec w} (hx : isFinite x = true) : |rv x| ≤ 2 ^ (bias w + 1) := by
  have hU : (0:ℝ) < 2 ^ unitExp w := by positivity
  have hm := (finite_iff h x).1 hx
  have h1 : (val x).natAbs ≤ magVal (mb w) (infMag w) := by rw [natAbs_val]; exact magVal_le.2 hm.le
  have h2 : magVal (mb w) (infMag w) = 2 ^ (bias w + 1) * 2 ^ unitExp w := by rcases h with h | h <;> subst h <;> decide +kernel
  unfold rv
  rw [abs_div, abs_of_pos hU, div_le_iff₀ hU, ← Int.cast_abs, Int.abs_eq_natAbs]
  rw [h2] at h1
  exact_mod_cast h1
/-- the smallest positive number is `2^-unitExp` -/
theorem rv_ge_min {x : BitVec w} (h0 : 0 < rv x) : 1 / 2 ^ unitExp w ≤ rv x := by
  have hv : (1:ℝ) ≤ val x := by exact_mod_cast rv_pos_iff.1 h0
  unfold rv
  exact div_le_div_of_nonneg_right hv (by positivity)
theorem fdiv_one_sqrt {x : BitVec w} (hx : isFinite x = true) (h0 : 0 < rv x) :
    Approx (2 * ulpHalf w + 4 * ulpHalf w ^ 2) (Real.sqrt (rv x)) (fdiv (oneBits w) (fsqrt x)) := by
  obtain ⟨hz, hp, he, hf⟩ := pos_sqrt_zero h hx h0
  have hs := Real.sqrt_pos.2 h0
  have hu := ulp_le h
  have hu0 := ulp_pos w
  -- lower and upper bounds of the square root
  have lowS : 1 ≤ 2 ^ bias w * |rv (fsqrt x)| := by
    rw [abs_of_pos hp]
    have h1 : 1 / 2 ^ (bias w - 1) ≤ Real.sqrt (rv x) := by
      apply Real.le_sqrt_of_sq_le
      refine le_trans ?_ (rv_ge_min h h0)
      rw [div_pow, one_pow, ← pow_mul]
      apply one_div_le_one_div_of_le (by positivity)
      exact pow_le_pow_right₀ (by norm_num) (by rcases h with h | h <;> subst h <;> decide)
    have h2 : (1 / 2) * Real.sqrt (rv x) ≤ rv (fsqrt x) := by
      have := (abs_le.1 he).1
      nlinarith
    have h3 : (2:ℝ) ^ bias w = 2 * 2 ^ (bias w - 1) := by
      rw [← pow_succ']; congr 1; rcases h with h | h <;> subst h <;> decide
    have h4 : (0:ℝ) < 2 ^ (bias w - 1) := by positivity
    rw [div_le_iff₀ h4] at h1
    rw [h3]; nlinarith
  have upS : tiny w * |rv (fsqrt x)| ≤ ulpHalf w ^ 2 := by
    rw [abs_of_pos hp]
    have h1 : Real.sqrt (rv x) ≤ 2 ^ ((bias w + 1) / 2) := by
      apply Real.sqrt_le_iff.2 ⟨by positivity, ?_⟩
      refine ((le_abs_self _).trans (rv_le_max h hx)).trans ?_
      rw [← pow_mul]
      exact pow_le_pow_right₀ (by norm_num) (by rcases h with h | h <;> subst h <;> decide)
    have h2 : rv (fsqrt x) ≤ 2 * Real.sqrt (rv x) := by
      have := (abs_le.1 he).2
      nlinarith
    have h3 : tiny w * (2 * 2 ^ ((bias w + 1) / 2)) ≤ ulpHalf w ^ 2 * 1 := by
      unfold tiny ulpHalf
      rw [← pow_succ', div_pow, one_pow, ← pow_mul, mul_one, div_mul_eq_mul_div, one_mul, div_le_div_iff₀ (by positivity) (by positivity), one_mul, ← pow_add]
      exact pow_le_pow_right₀ (by norm_num) (by rcases h with h | h <;> subst h <;> decide)
    have := tiny_pos w
    nlinarith
  obtain ⟨f1, f2⟩ := fdiv_one_acc h hf hz lowS
  refine ⟨f1, ?_⟩
  generalize rv (fdiv (oneBits w) (fsqrt x)) = r at *
  generalize hS : rv (fsqrt x) = s at *
  generalize hR : Real.sqrt (rv x) = t at *
  generalize ulpHalf w = u at *
  have hu' : u ≤ 1 / 16 := hu.trans (by norm_num)
  -- |t - s| <= u t <= u/(1-u) s
  have f3 : |r * s - 1| ≤ u + u ^ 2 := by linarith
  have ht : |t - s| ≤ u * t := by rw [abs_sub_comm]; exact he
  have hrs : |r * s| ≤ 1 + u + u ^ 2 := by
    have := abs_le.1 f3
    rw [abs_le]; constructor <;> nlinarith
  -- s * (r t - 1) = (r s - 1) t + (t - s)
  have key : s * (r * t - 1) = (r * s - 1) * t + (t - s) := by ring
  have hb : s * |r * t - 1| ≤ (2 * u + u ^ 2) * t := by
    rw [← abs_of_pos hp, ← abs_mul, key]
    refine (abs_add_le _ _).trans ?_
    rw [abs_mul, abs_of_pos hs]
    nlinarith [mul_le_mul_of_nonneg_right f3 hs.le]
  have hst : (1 - u) * t ≤ s := by
    have := (abs_le.1 he).1
    nlinarith
  have hq : 0 ≤ |r * t - 1| := abs_nonneg _
  have h5 : (1 - u) * t * |r * t - 1| ≤ (2 * u + u ^ 2) * t := (mul_le_mul_of_nonneg_right hst hq).trans hb
  have h6 : (1 - u) * |r * t - 1| ≤ 2 * u + u ^ 2 := by
    have : t * ((1 - u) * |r * t - 1|) ≤ t * (2 * u + u ^ 2) := by linarith
    exact le_of_mul_le_mul_left this hs
  by_contra hc
  push Not at hc
  have : (1 - u) * (2 * u + 4 * u ^ 2) < (1 - u) * |r * t - 1| := mul_lt_mul_of_pos_left hc (by linarith)
  nlinarith
/-- `1 / sqrt(x)` with both operations rounded: the special values -/
theorem fdiv_one_sqrt_special (x : BitVec w) :
    (isNaN x = true → isNaN (fdiv (oneBits w) (fsqrt x)) = true) ∧ (isZero x = true → InfLike x (fdiv (oneBits w) (fsqrt x))) ∧
    (isZero x = false → x.msb = true → isNaN (fdiv (oneBits w) (fsqrt x)) = true) ∧
    (isInf x = true → x.msb = false → ZeroLike x (fdiv (oneBits w) (fsqrt x))) := by
  have o := one_sm h
  have on := (finite_cls o.1)
  have q := fun y => fdiv_ieee h (oneBits w) y
  refine ⟨fun hn => nan_fdiv_r h (nan_fsqrt h hn), fun hz => ?_, fun hz hs => ?_, fun hi hs => ?_⟩
  · have hc := zero_cls h hz
    have e : fsqrt x = x := by unfold fsqrt; rw [hc.1, hz]; simp
    rw [e]
    have := ((q x).2 on.1 hc.1).2.1 (Or.inr ⟨o.1, o.2.1, hz⟩)
    exact ⟨this.1, by rw [this.2, o.2.2.1, Bool.false_xor]⟩
  · cases hn : isNaN x
    · have e : fsqrt x = defaultNaN w := by unfold fsqrt neg; rw [hn, hz, hs]; simp
      rw [e]; exact nan_fdiv_r h (by rcases h with h | h <;> subst h <;> decide)
    · exact nan_fdiv_r h (nan_fsqrt h hn)
  · have hc := inf_cls h hi
    have e : fsqrt x = x := by unfold fsqrt neg; rw [hc.1, hc.2.1, hs, hi]; simp
    rw [e]
    have := ((q x).2 on.1 hc.1).2.2.1 on.2 hi
    exact ⟨this.1, by rw [this.2, o.2.2.1, Bool.false_xor]⟩
theorem sub_cls {x : BitVec w} (hs : isSubnormal x = true) : isFinite x = true ∧ isZero x = false ∧ |rv x| ≤ 1 := by
  unfold isSubnormal at hs
  simp only [Bool.and_eq_true, decide_eq_true_eq] at hs
  refine ⟨?_, ?_, ?_⟩
  · unfold isFinite; rw [hs.1]; rcases h with h | h <;> subst h <;> decide
  · unfold isZero; simp [hs.2]
  · have e : (val x).natAbs ≤ 2 ^ unitExp w := by
      rw [natAbs_val]; unfold magVal
      have : mag x / 2 ^ mb w = 0 := hs.1
      rw [if_pos this]
      refine (Nat.mod_lt _ (Nat.two_pow_pos _)).le.trans (Nat.pow_le_pow_right (by norm_num) ?_)
      rcases h with h | h <;> subst h <;> decide
    have hU : (0:ℝ) < 2 ^ unitExp w := by positivity
    unfold rv
    rw [abs_div, abs_of_pos hU, div_le_one hU, ← Int.cast_abs, Int.abs_eq_natAbs]
    exact_mod_cast e
theorem normal_cls {x : BitVec w} (hs : isNormal x = true) : isFinite x = true ∧ isNaN x = false ∧ isInf x = false ∧ isZero x = false ∧ isSubnormal x = false ∧
    1 ≤ 2 ^ bias w * |rv x| := by
  have hs' := hs
  unfold isNormal at hs'
  simp only [Bool.and_eq_true, decide_eq_true_eq] at hs'
  have hf : isFinite x = true := by unfold isFinite; simp [hs'.1]
  refine ⟨hf, (finite_cls hf).1, (finite_cls hf).2, by unfold isZero; simp [hs'.2], by unfold isSubnormal; simp [hs'.2], ?_⟩
  have e : 2 ^ mb w ≤ (val x).natAbs := by
    rw [natAbs_val]; unfold magVal
    have : ¬ mag x / 2 ^ mb w = 0 := hs'.2
    rw [if_neg this]
    exact (Nat.le_add_right _ _).trans (Nat.le_mul_of_pos_right _ (Nat.two_pow_pos _))
  have hU : (0:ℝ) < 2 ^ unitExp w := by positivity
  unfold rv
  rw [abs_div, abs_of_pos hU, ← Int.cast_abs, Int.abs_eq_natAbs, ← mul_div_assoc, le_div_iff₀ hU, one_mul]
  have e2 : (2:ℝ) ^ mb w ≤ ((val x).natAbs : ℝ) := by exact_mod_cast e
  calc (2:ℝ) ^ unitExp w ≤ 2 ^ bias w * 2 ^ mb w := by
        rw [← pow_add]; exact pow_le_pow_right₀ (by norm_num) (by rcases h with h | h <;> subst h <;> decide)
    _ ≤ _ := by
        have : (0:ℝ) < 2 ^ bias w := by positivity
        exact mul_le_mul_of_nonneg_left (by exact_mod_cast e2) this.le
end lanes

/-! ### The generic backend -/
section generic
variable {w N : Nat} (h : W w)
include h
theorem gRcp_eq (x : GSimd (BitVec w) N) : ∃ g, gRcp (fpScalar w) x = some g ∧ ∀ i, i < N → g.get i = fdiv (oneBits w) (x.get i) := by
  have hc := C58_rcp (fpScalar w) x
  rcases hc with ⟨⟨i, hi, h1⟩, h2⟩ | ⟨q, hq, h2⟩
  · exact absurd h1 (by simp [fpScalar])
  · cases hg : gRcp (fpScalar w) x with
    | none => rw [hg] at hq; exact absurd hq (by simp [Out.ofUb])
    | some g =>
      refine ⟨g, rfl, fun i hi => ?_⟩
      rw [hg] at hq
      have hgq : g = q := by simpa [Out.ofUb] using hq
      subst hgq
      have := h2 i hi
      simp only [fpScalar, Option.some.injEq] at this
      rw [(one_sm h).2.2.2.2]; exact this.symm
/-- C64 (generic vectors, `rcp`): every element is the correctly rounded quotient of 1 and the element. -/
theorem C64_generic_rcp (x : GSimd (BitVec w) N) :
    ∃ g, gRcp (fpScalar w) x = some g ∧ ∀ i, i < N → IsIeeeQuot (ofInt w 1) (x.get i) (g.get i) := by
  obtain ⟨g, hg, e⟩ := gRcp_eq h x
  refine ⟨g, hg, fun i hi => ?_⟩
  rw [e i hi, ← (one_sm h).2.2.2.2]; exact fdiv_ieee h _ _
/-- C64 (generic vectors, `rsqrt`), for a C library whose `std::sqrt` is correctly rounded: relative error at most `2u + 4u^2` for every
positive finite element, and the usual special values. -/
theorem C64_generic_rsqrt (L : Cmath w) (hL : ∀ x, L.fn1 .sqrt x = fsqrt x) (x : GSimd (BitVec w) N) :
    ∃ g, gRsqrt (fpScalar w) L x = .ok g ∧ ∀ i, i < N → (isNaN (x.get i) = true → isNaN (g.get i) = true) ∧
      (isZero (x.get i) = true → InfLike (x.get i) (g.get i)) ∧ (isInf (x.get i) = true → (x.get i).msb = false → ZeroLike (x.get i) (g.get i)) ∧
      (isZero (x.get i) = false → (x.get i).msb = true → isNaN (g.get i) = true) ∧
      (isFinite (x.get i) = true → 0 < rv (x.get i) → Approx (2 * ulpHalf w + 4 * ulpHalf w ^ 2) (Real.sqrt (rv (x.get i))) (g.get i)) := by
  obtain ⟨r, hr, hk⟩ := C58_unary L x .sqrt (by decide)
  dsimp only at hk
  obtain ⟨g, hg, e⟩ := gRcp_eq h r
  refine ⟨g, by rw [gRsqrt, hr]; change Out.ofUb (gRcp (fpScalar w) r) = _; rw [hg]; rfl, fun i hi => ?_⟩
  rw [e i hi, hk i hi, hL]
  have sp := fdiv_one_sqrt_special h (x.get i)
  exact ⟨sp.1, sp.2.1, sp.2.2.2, sp.2.2.1, fun h1 h2 => fdiv_one_sqrt h h1 h2⟩
end generic

/-! ### Lanes to vectors -/
variable {c : Cfg} (hc : c.Ok)
include hc
theorem w32_lane (f : BitVec c.w → BitVec c.w) (a : c.Data) :
    Yields c (.ok (vectorize1 c (fun _ x => map1 c.w f x) (zeroData c) a)) (fun i => f (elt c a i)) :=
  ok_vec1 hc _ f a fun x _ hi => lane_map1 _ _ (lane_bound hc.ety hi)
theorem rcp_yield32 (hf : c.w = 32) (rc : BitVec c.w → BitVec c.w) (a : c.Data) : Yields c (vRcp c rc a) (fun i => rc (elt c a i)) := by
  unfold vRcp rcpV; simp only [if_pos hf]; exact w32_lane hc rc a
theorem rcp_yield64 (hf : c.w = 64) (rc : BitVec c.w → BitVec c.w) (a : c.Data) :
    Yields c (vRcp c rc a) (fun i => fdiv (oneBits c.w) (elt c a i)) := by
  unfold vRcp rcpV; simp only [if_neg (by omega : ¬ c.w = 32)]
  refine ok_vec1 hc _ (fun y => fdiv (oneBits c.w) y) a fun x i hi => ?_
  refine (fdivL_lane hc.ety hi _ _).trans ?_
  rw [fillV_lane hc.ety _ hi]
theorem rsqrt_yield32 (hf : c.w = 32) (rs : BitVec c.w → BitVec c.w) (junk a : c.Data) : Yields c (vRsqrt c rs junk a) (fun i => rs (elt c a i)) := by
  unfold vRsqrt; rw [if_pos hf]; exact w32_lane hc rs a
theorem rsqrt_yield64 (hf : c.w = 64) (ht : c.T.flt = true) (rs : BitVec c.w → BitVec c.w) (junk a : c.Data) :
    Yields c (vRsqrt c rs junk a) (fun i => fdiv (oneBits c.w) (fsqrt (elt c a i))) := by
  unfold vRsqrt; rw [if_neg (by omega : ¬ c.w = 32)]
  obtain ⟨y, hy, e⟩ := sqrt_yield hc a
  rw [hy]
  obtain ⟨r, hr, e2⟩ := (fops_yield hc ht (vbroadcast c (oneBits c.w) junk) y).2.2.2
  refine ⟨r, hr, fun i hi => ?_⟩
  rw [e2 i hi]; dsimp only; rw [elt_vbroadcast hc _ _ hi, e i hi]

/-! ### C64 -/
/-- C64 (`rcp`, `double`): every element is the correctly rounded quotient of 1 and the element (IEEE 754 division, all special values
included). -/
theorem C64_rcp_double (hf : c.w = 64) (rc : BitVec c.w → BitVec c.w) (x : c.Data) :
    EachElt c (fun a r => IsIeeeQuot (ofInt c.w 1) a r) x (vRcp c rc x) := by
  have hw : W c.w := Or.inr hf
  obtain ⟨r, hr, e⟩ := rcp_yield64 hc hf rc x
  refine ⟨r, hr, fun i hi => ?_⟩
  rw [e i hi, ← (one_sm hw).2.2.2.2]; exact fdiv_ieee hw _ _
/-- C64 (`rcp`, `float`), proved part: for every processor, normal numbers up to `2^126 - 3 * 2^113` give a reciprocal with relative
error at most `1.5 * 2^-12`; zeros, infinities and NaN give infinities, zeros (of the same sign) and NaN. -/
theorem C64_rcp_float_partial (hf : c.w = 32) (rc : BitVec c.w → BitVec c.w) (hw : RcpHw rc) (x : c.Data) :
    EachElt c (fun a r => (isNaN a = true → isNaN r = true) ∧ (isZero a = true → InfLike a r) ∧ (isInf a = true → ZeroLike a r) ∧
      (isNormal a = true → |rv a| ≤ 2 ^ 126 - 3 * 2 ^ 113 → Approx hwEps (rv a) r)) x (vRcp c rc x) := by
  obtain ⟨r, hr, e⟩ := rcp_yield32 hc hf rc x
  refine ⟨r, hr, fun i hi => ?_⟩
  rw [e i hi]
  exact ⟨hw.nan _, fun h => hw.zero _ (Or.inl h), hw.inf _, hw.normal _⟩
/-- C64 (`rsqrt`, `float`), proved part: for every processor, positive normal numbers give a reciprocal square root with relative error
at most `1.5 * 2^-12`; `+-0`, `+inf`, negative normal numbers and NaN give `+-inf`, `+0`, NaN and NaN. -/
theorem C64_rsqrt_float_partial (hf : c.w = 32) (rs : BitVec c.w → BitVec c.w) (hw : RsqrtHw rs) (junk x : c.Data) :
    EachElt c (fun a r => (isNaN a = true → isNaN r = true) ∧ (isZero a = true → InfLike a r) ∧ (isInf a = true → a.msb = false → ZeroLike a r) ∧
      (isNormal a = true ∨ isInf a = true → a.msb = true → isNaN r = true) ∧
      (isNormal a = true → a.msb = false → Approx hwEps (Real.sqrt (rv a)) r)) x (vRsqrt c rs junk x) := by
  obtain ⟨r, hr, e⟩ := rsqrt_yield32 hc hf rs junk x
  refine ⟨r, hr, fun i hi => ?_⟩
  rw [e i hi]
  exact ⟨hw.nan _, fun h => hw.zero _ (Or.inl h), hw.inf _, hw.neg _, hw.normal _⟩
/-- C64 (`rsqrt`, `double`): every positive finite element (subnormals included) gives its reciprocal square root with a relative error of
at most `2u + 4u^2`, `u = 2^-53`; `+-0`, `+inf`, negative numbers and NaN give `+-inf`, `+0`, NaN and NaN. -/
theorem C64_rsqrt_double (hf : c.w = 64) (ht : c.T.flt = true) (rs : BitVec c.w → BitVec c.w) (junk x : c.Data) :
    EachElt c (fun a r => (isNaN a = true → isNaN r = true) ∧ (isZero a = true → InfLike a r) ∧ (isInf a = true → a.msb = false → ZeroLike a r) ∧
      (isZero a = false → a.msb = true → isNaN r = true) ∧
      (isFinite a = true → 0 < rv a → Approx (2 * (1 / 2 ^ 53) + 4 * (1 / 2 ^ 53) ^ 2) (Real.sqrt (rv a)) r)) x (vRsqrt c rs junk x) := by
  have hw : W c.w := Or.inr hf
  obtain ⟨r, hr, e⟩ := rsqrt_yield64 hc hf ht rs junk x
  refine ⟨r, hr, fun i hi => ?_⟩
  rw [e i hi]
  have sp := fdiv_one_sqrt_special hw (elt c x i)
  refine ⟨sp.1, sp.2.1, sp.2.2.2, sp.2.2.1, fun h1 h2 => ?_⟩
  have := fdiv_one_sqrt hw h1 h2
  have hu : ulpHalf c.w = 1 / 2 ^ 53 := by unfold ulpHalf; rw [hf]; rfl
  rwa [hu] at this

/-! ### Subnormal arguments and results on x86 -/
/-- C64 violated (`rcp`, subnormal arguments): on every processor, a `float` subnormal `x` gives infinity, although for `|x| >= 2^-127`
the reciprocal is representable and the generic vectors return it with relative error `2^-23`. -/
theorem C64_rcp_subnormal_violated (hf : c.w = 32) (rc : BitVec c.w → BitVec c.w) (hw : RcpHw rc) (x : c.Data) (i : Nat) (hi : i < c.N)
    (hs : isSubnormal (elt c x i) = true) (hl : 1 / 2 ^ 127 ≤ |rv (elt c x i)|) :
    (∃ r, vRcp c rc x = .ok r ∧ isInf (elt c r i) = true) ∧
    ∃ g, gRcp (fpScalar c.w) (⟨elt c x⟩ : GSimd (BitVec c.w) c.N) = some g ∧ Approx (1 / 2 ^ 23) (rv (elt c x i)) (g.get i) := by
  have h : W c.w := Or.inl hf
  obtain ⟨r, hr, e⟩ := rcp_yield32 hc hf rc x
  obtain ⟨g, hg, e2⟩ := gRcp_eq h (⟨elt c x⟩ : GSimd (BitVec c.w) c.N)
  refine ⟨⟨r, hr, by rw [e i hi]; exact (hw.zero _ (Or.inr hs)).1⟩, g, hg, ?_⟩
  rw [e2 i hi]
  have sc := sub_cls h hs
  have hb : bias c.w = 127 := by rw [hf]; rfl
  have hfd := fdiv_one_acc h sc.1 sc.2.1 (by rw [hb]; rw [div_le_iff₀ (by positivity)] at hl; rw [mul_comm]; exact hl)
  refine ⟨hfd.1, hfd.2.trans ?_⟩
  have hu := ulp_le h
  have ht := tiny_le h
  have : tiny c.w * |rv (elt c x i)| ≤ 1 / 2 ^ 150 * 1 := mul_le_mul ht sc.2.2 (abs_nonneg _) (by positivity)
  have hn : (1:ℝ) / 2 ^ 24 + 1 / 2 ^ 150 * 1 ≤ 1 / 2 ^ 23 := by norm_num
  linarith
/-- C64 violated (`rcp`, subnormal results): on every processor, `float` numbers of magnitude `2^127` and more give zero, although the
reciprocal is a nonzero subnormal number and the generic vectors return it. -/
theorem C64_rcp_huge_violated (hf : c.w = 32) (rc : BitVec c.w → BitVec c.w) (hw : RcpHw rc) (x : c.Data) (i : Nat) (hi : i < c.N)
    (hs : isNormal (elt c x i) = true) (hl : 2 ^ 127 ≤ |rv (elt c x i)|) :
    (∃ r, vRcp c rc x = .ok r ∧ isZero (elt c r i) = true) ∧
    ∃ g, gRcp (fpScalar c.w) (⟨elt c x⟩ : GSimd (BitVec c.w) c.N) = some g ∧ isZero (g.get i) = false ∧
      Approx (1 / 2 ^ 21) (rv (elt c x i)) (g.get i) := by
  have h : W c.w := Or.inl hf
  obtain ⟨r, hr, e⟩ := rcp_yield32 hc hf rc x
  obtain ⟨g, hg, e2⟩ := gRcp_eq h (⟨elt c x⟩ : GSimd (BitVec c.w) c.N)
  refine ⟨⟨r, hr, by rw [e i hi]; exact (hw.huge _ hs (le_trans (by norm_num) hl)).1⟩, g, hg, ?_⟩
  rw [e2 i hi]
  have sc := normal_cls h hs
  have hfd := fdiv_one_acc h sc.1 sc.2.2.2.1 sc.2.2.2.2.2
  have hu := ulp_le h
  have ht := tiny_le h
  have hm := rv_le_max h sc.1
  have hb : bias c.w + 1 = 128 := by rw [hf]; rfl
  rw [hb] at hm
  have : tiny c.w * |rv (elt c x i)| ≤ 1 / 2 ^ 150 * 2 ^ 128 := mul_le_mul ht hm (abs_nonneg _) (by positivity)
  have hn : (1:ℝ) / 2 ^ 24 + 1 / 2 ^ 150 * 2 ^ 128 ≤ 1 / 2 ^ 21 := by norm_num
  have hA : |rv (fdiv (oneBits c.w) (elt c x i)) * rv (elt c x i) - 1| ≤ 1 / 2 ^ 21 := hfd.2.trans (by linarith)
  refine ⟨?_, hfd.1, hA⟩
  cases hz : isZero (fdiv (oneBits c.w) (elt c x i))
  · exact hz
  · exfalso
    have h0 : rv (fdiv (oneBits c.w) (elt c x i)) = 0 := by
      unfold rv; rw [(val_zero_iff _).2 ((zero_iff _).1 hz)]; simp
    rw [h0] at hA; norm_num at hA
/-- C64 violated (`rsqrt`, subnormal arguments): on every processor every positive `float` subnormal gives infinity, although its
reciprocal square root is below `2^75`; the generic vectors return it with relative error `2^-22`. -/
theorem C64_rsqrt_subnormal_violated (hf : c.w = 32) (rs : BitVec c.w → BitVec c.w) (hw : RsqrtHw rs) (L : Cmath c.w)
    (hL : ∀ x, L.fn1 .sqrt x = fsqrt x) (junk x : c.Data) (i : Nat) (hi : i < c.N)
    (hs : isSubnormal (elt c x i) = true) (hp : (elt c x i).msb = false) :
    (∃ r, vRsqrt c rs junk x = .ok r ∧ isInf (elt c r i) = true) ∧
    ∃ g, gRsqrt (fpScalar c.w) L (⟨elt c x⟩ : GSimd (BitVec c.w) c.N) = .ok g ∧ Approx (1 / 2 ^ 22) (Real.sqrt (rv (elt c x i))) (g.get i) := by
  have h : W c.w := Or.inl hf
  obtain ⟨r, hr, e⟩ := rsqrt_yield32 hc hf rs junk x
  obtain ⟨g, hg, e2⟩ := C64_generic_rsqrt h L hL (⟨elt c x⟩ : GSimd (BitVec c.w) c.N)
  refine ⟨⟨r, hr, by rw [e i hi]; exact (hw.zero _ (Or.inr hs)).1⟩, g, hg, ?_⟩
  have sc := sub_cls h hs
  have hv : 0 < rv (elt c x i) := by
    rw [rv_pos_iff]
    have h1 : val (elt c x i) ≠ 0 := by rw [Ne, val_zero_iff, ← zero_iff, sc.2.1]; decide
    have h2 := val_neg_iff h1
    rw [hp] at h2
    have : ¬ val (elt c x i) < 0 := fun h => by simpa using h2.1 h
    omega
  have := (e2 i hi).2.2.2.2 sc.1 hv
  refine ⟨this.1, this.2.trans ?_⟩
  have hu := ulp_le h
  have h0 := ulp_pos c.w
  generalize ulpHalf c.w = u at *
  have h2 : u ^ 2 ≤ (1 / 2 ^ 24) ^ 2 := pow_le_pow_left₀ h0.le hu 2
  have : (2:ℝ) * (1 / 2 ^ 24) + 4 * (1 / 2 ^ 24) ^ 2 ≤ 1 / 2 ^ 22 := by norm_num
  linarith
omit hc

/-! ### Instances -/
/-- A processor: exact division, subnormals and tiny results flushed. -/
def exRcp (x : BitVec 32) : BitVec 32 :=
  if isNaN x then defaultNaN 32 else if isZero x || isSubnormal x then pack 32 x.msb (infMag 32) else if isInf x then pack 32 x.msb 0
  else if (val x).natAbs ≤ 2 ^ 275 then fdiv (oneBits 32) x else pack 32 x.msb 0
def exRsqrt (x : BitVec 32) : BitVec 32 :=
  if isNaN x then defaultNaN 32 else if isZero x || isSubnormal x then pack 32 x.msb (infMag 32) else fdiv (oneBits 32) (fsqrt x)
theorem rv_le_iff {x : BitVec 32} {n : Nat} : |rv x| ≤ 2 ^ n ↔ (val x).natAbs ≤ 2 ^ (n + 149) := by
  have hU : (0:ℝ) < 2 ^ unitExp 32 := by positivity
  unfold rv
  rw [abs_div, abs_of_pos hU, div_le_iff₀ hU, ← Int.cast_abs, Int.abs_eq_natAbs, ← pow_add]
  constructor <;> intro h
  · exact_mod_cast h
  · exact_mod_cast h
theorem exRcp_hw : RcpHw exRcp := by
  have h : W 32 := Or.inl rfl
  have acc : ∀ x : BitVec 32, isNormal x = true → (val x).natAbs ≤ 2 ^ 275 → Approx hwEps (rv x) (fdiv (oneBits 32) x) := by
    intro x hn hv
    have sc := normal_cls h hn
    have hfd := fdiv_one_acc h sc.1 sc.2.2.2.1 sc.2.2.2.2.2
    have hm : |rv x| ≤ 2 ^ 126 := rv_le_iff.2 hv
    refine ⟨hfd.1, hfd.2.trans ?_⟩
    have hu := ulp_le h
    have ht := tiny_le h
    have : tiny 32 * |rv x| ≤ 1 / 2 ^ 150 * 2 ^ 126 := mul_le_mul ht hm (abs_nonneg _) (by positivity)
    have hn : (1:ℝ) / 2 ^ 24 + 1 / 2 ^ 150 * 2 ^ 126 ≤ 3 / 2 ^ 13 := by norm_num
    unfold hwEps; linarith
  have ez : ∀ x : BitVec 32, isNormal x = true → exRcp x = if (val x).natAbs ≤ 2 ^ 275 then fdiv (oneBits 32) x else pack 32 x.msb 0 := by
    intro x hn
    have sc := normal_cls h hn
    unfold exRcp
    simp only [sc.2.1, sc.2.2.1, sc.2.2.2.1, sc.2.2.2.2.1, Bool.false_eq_true, if_false, Bool.or_self]
  refine ⟨fun x hn => ?_, fun x hz => ?_, fun x hi => ?_, fun x hn hl => ?_, fun x hn => ?_, fun x hn hl => ?_⟩
  · unfold exRcp; rw [if_pos hn]; decide
  · have hn : isNaN x = false := by
      rcases hz with hz | hz
      · exact (zero_cls h hz).1
      · exact (finite_cls (sub_cls h hz).1).1
    unfold exRcp
    rw [hn, if_neg (by simp), if_pos (by simpa using hz)]
    exact pack_inf h _
  · have hc := inf_cls h hi
    have hs : isSubnormal x = false := by
      cases hs : isSubnormal x
      · rfl
      · have := (sub_cls h hs).1; rw [hc.2.2] at this; exact absurd this (by decide)
    unfold exRcp
    simp only [hc.1, hc.2.1, hs, hi, Bool.false_eq_true, if_false, if_true, Bool.or_self]
    exact pack_zero' h _
  · have hv : (val x).natAbs ≤ 2 ^ 275 := (rv_le_iff (n := 126)).1 (hl.trans (by norm_num))
    rw [ez x hn, if_pos hv]; exact acc x hn hv
  · rw [ez x hn]
    by_cases hv : (val x).natAbs ≤ 2 ^ 275
    · rw [if_pos hv]; exact Or.inl (acc x hn hv)
    · rw [if_neg hv]; exact Or.inr (pack_zero' h _)
  · rw [ez x hn, if_neg fun hv => ?_]
    · exact pack_zero' h _
    · have := (rv_le_iff (n := 126)).2 hv
      have h2 := hl.trans this
      norm_num at h2
theorem exRsqrt_hw : RsqrtHw exRsqrt := by
  have h : W 32 := Or.inl rfl
  have ez : ∀ x : BitVec 32, isNormal x = true ∨ isInf x = true → exRsqrt x = fdiv (oneBits 32) (fsqrt x) := by
    intro x hn
    unfold exRsqrt
    rcases hn with hn | hn
    · have sc := normal_cls h hn
      simp only [sc.2.1, sc.2.2.1, sc.2.2.2.1, sc.2.2.2.2.1, Bool.false_eq_true, if_false, Bool.or_self]
    · have hc := inf_cls h hn
      have hs : isSubnormal x = false := by
        cases hs : isSubnormal x
        · rfl
        · have := (sub_cls h hs).1; rw [hc.2.2] at this; exact absurd this (by decide)
      simp only [hc.1, hc.2.1, hs, Bool.false_eq_true, if_false, Bool.or_self]
  refine ⟨fun x hn => ?_, fun x hz => ?_, fun x hn hs => ?_, fun x hi hs => ?_, fun x hn hs => ?_⟩
  · unfold exRsqrt; rw [if_pos hn]; decide
  · have hn : isNaN x = false := by
      rcases hz with hz | hz
      · exact (zero_cls h hz).1
      · exact (finite_cls (sub_cls h hz).1).1
    unfold exRsqrt
    rw [hn, if_neg (by simp), if_pos (by simpa using hz)]
    exact pack_inf h _
  · rw [ez x hn]
    refine (fdiv_one_sqrt_special h x).2.2.1 ?_ hs
    rcases hn with hn | hn
    · exact (normal_cls h hn).2.2.2.1
    · exact (inf_cls h hn).2.1
  · rw [ez x (Or.inr hi)]; exact (fdiv_one_sqrt_special h x).2.2.2 hi hs
  · rw [ez x (Or.inl hn)]
    have sc := normal_cls h hn
    have hv : 0 < rv x := by
      rw [rv_pos_iff]
      have h1 : val x ≠ 0 := by rw [Ne, val_zero_iff, ← zero_iff, sc.2.2.2.1]; decide
      have h2 := val_neg_iff h1
      rw [hs] at h2
      have : ¬ val x < 0 := fun h => by simpa using h2.1 h
      omega
    have := fdiv_one_sqrt h sc.1 hv
    refine ⟨this.1, this.2.trans ?_⟩
    have hu := ulp_le h
    have h0 := ulp_pos 32
    generalize ulpHalf 32 = u at *
    have h2 : u ^ 2 ≤ (1 / 2 ^ 24) ^ 2 := pow_le_pow_left₀ h0.le hu 2
    have : (2:ℝ) * (1 / 2 ^ 24) + 4 * (1 / 2 ^ 24) ^ 2 ≤ 3 / 2 ^ 13 := by norm_num
    unfold hwEps; linarith
/-- six `float`s `2^-127`: infinity on that processor, `2^127` with generic vectors -/
example : ∃ r, vRcp exF32 exRcp (vbroadcast exF32 0x00400000 (zeroData exF32)) = .ok r ∧ isInf (elt exF32 r 4) = true := by
  have e := elt_vbroadcast exF32_ok 0x00400000 (zeroData exF32) (i := 4) (by decide)
  refine (C64_rcp_subnormal_violated exF32_ok rfl exRcp exRcp_hw (vbroadcast exF32 0x00400000 (zeroData exF32)) 4 (by decide) ?_ ?_).1
  · rw [e]; decide
  · rw [e]
    have : rv (0x00400000 : BitVec exF32.w) = 1 / 2 ^ 127 := by
      unfold rv
      rw [show val (0x00400000 : BitVec exF32.w) = 2 ^ 22 by decide +kernel, show unitExp exF32.w = 149 by rfl]; norm_num
    rw [this, abs_of_pos (by positivity)]
example : ∃ r, vRcp exF32 exRcp (vbroadcast exF32 0x7f000000 (zeroData exF32)) = .ok r ∧ isZero (elt exF32 r 4) = true := by
  have e := elt_vbroadcast exF32_ok 0x7f000000 (zeroData exF32) (i := 4) (by decide)
  refine (C64_rcp_huge_violated exF32_ok rfl exRcp exRcp_hw (vbroadcast exF32 0x7f000000 (zeroData exF32)) 4 (by decide) ?_ ?_).1
  · rw [e]; decide
  · rw [e]
    have : rv (0x7f000000 : BitVec exF32.w) = 2 ^ 127 := by
      unfold rv
      rw [show val (0x7f000000 : BitVec exF32.w) = 2 ^ 276 by decide +kernel, show unitExp exF32.w = 149 by rfl, Int.cast_pow, div_eq_iff (by positivity), ← pow_add]; rfl
    rw [this, abs_of_pos (by positivity)]
/-- six `float`s `4`: a quarter, up to the error of the instruction, and a half -/
example : (∃ r, vRcp exF32 exRcp (vbroadcast exF32 0x40800000 (zeroData exF32)) = .ok r ∧ |rv (elt exF32 r 5) * 4 - 1| ≤ 3 / 2 ^ 13) ∧
    (∃ r, vRsqrt exF32 exRsqrt (zeroData exF32) (vbroadcast exF32 0x40800000 (zeroData exF32)) = .ok r ∧ |rv (elt exF32 r 5) * Real.sqrt 4 - 1| ≤ 3 / 2 ^ 13) := by
  have e := elt_vbroadcast exF32_ok 0x40800000 (zeroData exF32) (i := 5) (by decide)
  have hv : rv (0x40800000 : BitVec exF32.w) = 4 := by
    unfold rv
    rw [show val (0x40800000 : BitVec exF32.w) = 2 ^ 151 by decide +kernel, show unitExp exF32.w = 149 by rfl]; norm_num
  constructor
  · obtain ⟨r, hr, k⟩ := C64_rcp_float_partial exF32_ok rfl exRcp exRcp_hw (vbroadcast exF32 0x40800000 (zeroData exF32))
    have := (k 5 (by decide)).2.2.2
    rw [e] at this
    rw [hv] at this
    exact ⟨r, hr, (this (by decide) (by rw [abs_of_pos (by norm_num)]; norm_num)).2⟩
  · obtain ⟨r, hr, k⟩ := C64_rsqrt_float_partial exF32_ok rfl exRsqrt exRsqrt_hw (zeroData exF32) (vbroadcast exF32 0x40800000 (zeroData exF32))
    have := (k 5 (by decide)).2.2.2.2
    rw [e] at this
    rw [hv] at this
    exact ⟨r, hr, (this (by decide) (by decide)).2⟩
/-- four `double`s `4` -/
example (rc : BitVec 64 → BitVec 64) : ∃ r, vRcp exF64 rc (vbroadcast exF64 0x4010000000000000 (zeroData exF64)) = .ok r ∧
    IsIeeeQuot (ofInt 64 1) 0x4010000000000000 (elt exF64 r 3) := by
  have e := elt_vbroadcast exF64_ok 0x4010000000000000 (zeroData exF64) (i := 3) (by decide)
  obtain ⟨r, hr, k⟩ := C64_rcp_double exF64_ok rfl rc (vbroadcast exF64 0x4010000000000000 (zeroData exF64))
  have := k 3 (by decide)
  rw [e] at this
  exact ⟨r, hr, this⟩
end Dpm.X86
