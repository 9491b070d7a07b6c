import Verif.Proofs.TrigMain
import Verif.Props.X86Trig
/-!
C56: accuracy of the trigonometric functions of the x86 backend (SVML not used) against the real sine, cosine and tangent.
`rv x` is the real number a finite pattern denotes, `ulpHalf` is `2^-24` or `2^-53`.  `L` is the C library, used for
`|x| > 2^22` (`2^51`) only; `fm` says whether DPM_HAS_FMA is defined.
-/
namespace Dpm.X86
open Dpm.Reg Dpm.Fp

/-- the number of half units in the last place of 1.0 the results may be off, for `|x| = A` -/
noncomputable def trigK (c : Cfg) (fm : Bool) (A : ℝ) : ℝ :=
  if c.w = 64 then (if c.v = .v128 ∧ c.s.dqvl = true then 24660 else 4.6) + A / 2 ^ 23 else if fm then 10.4 else 11.6 + 1.001 * A
/-- the arguments the bounds are for: `|x| <= 2^22` in single precision (beyond it the C library is called), `|x| <= 2^29` in double
precision; `|x| <= 2^15` where dpm's conversion of 64-bit integers to double is wrong from `2^16` on (SSE4.1 without AVX-512DQ and VL,
resp. without AVX2 for 256-bit vectors) -/
def TrigArg (c : Cfg) (x : BitVec c.w) : Prop :=
  isFinite x = true ∧ |rv x| ≤ (if c.w = 64 then 2 ^ 29 else 2 ^ 22) ∧
  (c.w = 64 → c.s.sse41 = true → c.s.dqvl = false → ¬ (c.v = .v256 ∧ c.s.avx2 = true) → |rv x| ≤ 2 ^ 15)

theorem finLane_fin {w : Nat} (h : W w) (o : MathOpt) {x : BitVec w} (hx : isFinite x = true) : finLane o (abB x) = abB x := by
  unfold finLane
  have : fEq (abB x) (infBits w) = false := by
    have e := isinf_lane h x
    rw [(finite_cls hx).2] at e
    have e2 : abB x = x &&& BitVec.intMax w := by
      apply ext_mag h.pos
      · rw [(abB_facts h hx).2.1, (abs_sm h.pos x).1]
      · rw [(abB_sm h x).2, (abs_sm h.pos x).2]
    rw [e2]; exact e
  rw [this]; simp
theorem not_over {w : Nat} (h : W w) (o : MathOpt) {x : BitVec w} (ha : |rv x| ≤ 2 ^ (mb w - 1)) : fLt (cvtMax w) (finLane o (abB x)) = false := by
  by_contra hc
  have hl := large_of h (by simpa using hc)
  unfold Large at hl
  rw [rv_abs, div_le_iff₀ (by positivity)] at ha
  have : (val x).natAbs ≤ 2 ^ (mb w - 1) * 2 ^ unitExp w := by exact_mod_cast ha
  omega

/-! ### where the accuracy is lost -/
theorem cos_wide_val {w : Nat} (h : w = 64) (s : ISA) (T : Ety) (hs : s.dqvl = true) (fm : Bool) :
    cosLane (cvttLaneIF s .v128) (cvtLaneIF s T .v128) fm (abB (BitVec.ofNat w 0x3fd923a29c779a6b)) = BitVec.ofNat w 0x3fed901aced87b94 := by
  subst h
  have e1 : (cvttLaneIF s .v128 : BitVec 64 → BitVec 64) = cvtInt 64 .nearest := by
    funext a; rw [cvttLaneIF_128, hs, if_pos rfl]
  have e2 : (cvtLaneIF s T .v128 : BitVec 64 → BitVec 64) = fun a => ofInt 64 a.toInt := by
    funext a; unfold cvtLaneIF; rw [if_pos (show CvtOk s T .v128 from Or.inr (Or.inl hs))]
  rw [e1, e2]
  cases fm <;> decide +kernel
theorem wide_vals {w : Nat} (h : w = 64) : rv (BitVec.ofNat w 0x3fd923a29c779a6b) = 7076055734524523 / 2 ^ 54 ∧ rv (BitVec.ofNat w 0x3fed901aced87b94) = 8321219138452372 / 2 ^ 53 := by
  subst h
  have e : val (BitVec.ofNat 64 0x3fd923a29c779a6b) = 7076055734524523 * 2 ^ 1020 ∧ val (BitVec.ofNat 64 0x3fed901aced87b94) = 8321219138452372 * 2 ^ 1021 := by decide +kernel
  rw [rv_of_val e.1 (b := 54) rfl, rv_of_val e.2 (b := 53) rfl]; norm_num
theorem cos_wide_real : |Real.cos (7076055734524523 / 2 ^ 54) - 8321219138440404 / 2 ^ 53| ≤ 1 / 10 ^ 15 := by
  have hz : |(7076055734524523 : ℝ) / 2 ^ 54| ≤ 1 := by rw [abs_of_nonneg (by norm_num)]; norm_num
  obtain ⟨-, hc⟩ := taylor_err (z := 7076055734524523 / 2 ^ 54) (n := 8) (le_trans (div_le_div_of_nonneg_right hz (by norm_num)) (by norm_num))
  have hb : |(7076055734524523 : ℝ) / 2 ^ 54| ^ (2 * 8) / ((2 * 8).factorial : ℝ) * 2 ≤ 1 / 10 ^ 16 := by
    rw [abs_of_nonneg (by norm_num)]; norm_num [Nat.factorial]
  have ht : |cosT 8 (7076055734524523 / 2 ^ 54) - 8321219138440404 / 2 ^ 53| ≤ 1 / 10 ^ 16 := by
    rw [abs_le]; unfold cosT
    constructor <;> norm_num [Finset.sum_range_succ, Nat.factorial]
  have := abs_sub_tri (le_trans hc hb) ht
  norm_num at this ⊢; linarith
theorem cos_bad_val {w : Nat} (h : w = 64) (s : ISA) (T : Ety) (v : VSz) (h3 : s.sse3 = true) (hq : s.dqvl = false) (hs : ¬ CvtOk s T v) (fm : Bool) :
    cosLane (cvttLaneIF s v) (cvtLaneIF s T v) fm (abB (BitVec.ofNat w 0x40e9300000000000)) = BitVec.ofNat w 0xca9e3ebc3e30afc2 := by
  subst h
  have e2 : (cvtLaneIF s T v : BitVec 64 → BitVec 64) = i64f64Bad := by
    funext a; unfold cvtLaneIF; rw [if_neg hs, BitVec.setWidth_eq, BitVec.setWidth_eq]
  rw [e2]
  cases v
  · have e1 : (cvttLaneIF s .v128 : BitVec 64 → BitVec 64) = fun a => fadd (truncLane 1023 a) off64 - off64 := by
      funext a; rw [cvttLaneIF_128, hq, if_neg (by simp), h3, if_pos rfl]
    rw [e1]
    cases fm <;> decide +kernel
  · have e1 : (cvttLaneIF s .v256 : BitVec 64 → BitVec 64) = fun a => fadd (roundInt .zero a) off64 - off64 := by
      funext a; rw [cvttLaneIF_256, hq, if_neg (by simp)]
    rw [e1]
    cases fm <;> decide +kernel
theorem bad_vals {w : Nat} (h : w = 64) : isFinite (BitVec.ofNat w 0x40e9300000000000) = true ∧ rv (BitVec.ofNat w 0x40e9300000000000) = 51584 ∧ rv (BitVec.ofNat w 0xca9e3ebc3e30afc2) = -(8513227519471554 * 2 ^ 118) := by
  subst h
  have e : isFinite (BitVec.ofNat 64 0x40e9300000000000) = true ∧ val (BitVec.ofNat 64 0x40e9300000000000) = 51584 * 2 ^ 1074 ∧ val (BitVec.ofNat 64 0xca9e3ebc3e30afc2) = -(8513227519471554 * 2 ^ 118) * 2 ^ 1074 := by decide +kernel
  rw [rv_of_val e.2.1 (b := 0) rfl, rv_of_val e.2.2 (b := 0) rfl]
  refine ⟨e.1, ?_, ?_⟩ <;> norm_num

section C56
variable {c : Cfg} (hc : c.Ok) (hf : c.T.flt = true) (L : Libm) (o : MathOpt) (fm : Bool)
include hc hf
theorem arg_spec {x : BitVec c.w} (hx : TrigArg c x) : isFinite (abB x) = true ∧ (abB x).msb = false ∧ rv (abB x) = |rv x| ∧ rv x = Fp.sg x.msb * rv (abB x) ∧
    rv (abB x) ≤ amax c.T.w ∧ (CvtOk c.s c.T c.v ∨ rv (abB x) ≤ 2 ^ 15) ∧ fLt (cvtMax c.w) (finLane o (abB x)) = false ∧ finLane o (abB x) = abB x := by
  have h : W c.w := fltW hc.ety hf
  obtain ⟨h1, h2, h3⟩ := hx
  obtain ⟨a1, a2, a3, a4⟩ := abB_facts h h1
  have hb : (if c.w = 64 then (2 : ℝ) ^ 29 else 2 ^ 22) ≤ 2 ^ (mb c.w - 1) := by
    rcases h with h | h <;> rw [h]
    · rw [if_neg (by norm_num), show mb 32 = 23 from rfl]
    · rw [if_pos rfl, show mb 64 = 52 from rfl]; norm_num
  refine ⟨a1, a2, a3, a4, by rw [a3]; exact h2, ?_, not_over h o (le_trans h2 hb), finLane_fin h o h1⟩
  by_cases hk : CvtOk c.s c.T c.v
  · exact Or.inl hk
  · right
    rw [a3]
    unfold CvtOk at hk
    push Not at hk
    obtain ⟨k1, k2, k3, k4⟩ := hk
    have h64 : c.w = 64 := by
      rcases (hc.ety.2 hf).1 with h4 | h8
      · exact absurd h4 k1
      · show c.T.w = 64; unfold Ety.w; rw [h8]
    exact h3 h64 (by simpa using k3) (by simpa using k2) (fun hh => k4 hh.1 hh.2)
theorem sincos_all {x : BitVec c.w} (hx : TrigArg c x) : SincosErr (cvttLaneIF c.s c.v) (cvtLaneIF c.s c.T c.v) fm (abB x) (trigK c fm |rv x|) := by
  have h : W c.w := fltW hc.ety hf
  obtain ⟨a1, a2, a3, a4, a5, a6, a7, a8⟩ := arg_spec hc hf ⟨false, false⟩ hx
  unfold trigK
  rw [← a3]
  by_cases h64 : c.w = 64
  · rw [if_pos h64]
    by_cases hw : c.v = .v128 ∧ c.s.dqvl = true
    · rw [if_pos hw]
      exact sincos_wide hc.ety hf h64 c.s c.v fm a1 a2 a5 a6
    · rw [if_neg hw]
      exact sincos_tight hc.ety hf c.s c.v fm a1 a2 a5 a6 (by unfold octDist; rw [if_neg (fun hh => hw hh.2)]) (Or.inl h64)
  · rw [if_neg h64]
    have := sincos_float hc.ety hf (h.resolve_right h64) c.s c.v fm a1 a2 a5 a6
    cases fm
    · simp only [Bool.false_eq_true, if_false] at this ⊢
      convert this using 1; ring
    · simp only [if_true, add_zero] at this ⊢
      exact this

/-- C56 (`sin`, `cos`): the error of every element is at most `trigK` half units in the last place of 1.0: `4.6 + |x|/2^23` in double
precision (`24660 + |x|/2^23` in 128-bit vectors with AVX-512DQ and VL, where the octant is found by rounding instead of truncating);
in single precision `10.4` with FMA, `11.6 + 1.001 |x|` without. -/
theorem C56_sin (x : c.Data) : EachElt c (fun a r => TrigArg c a →
    isFinite r = true ∧ |rv r - Real.sin (rv a)| ≤ ulpHalf c.w * trigK c fm |rv a|) x (vSin c L o fm x) := by
  refine each_imp (vSin_elt hc hf L o fm x) fun a r hr ha => ?_
  have h : W c.w := fltW hc.ety hf
  obtain ⟨a1, a2, a3, a4, a5, a6, a7, a8⟩ := arg_spec hc hf o ha
  obtain ⟨⟨b1, b2⟩, -⟩ := sincos_all hc hf fm ha a.msb
  have e : r = sinLane (cvttLaneIF c.s c.v) (cvtLaneIF c.s c.T c.v) fm (sb c.w a.msb) (abB a) := by
    rw [hr]; unfold sinF; dsimp only; rw [if_neg (by rw [a7]; simp), a8, sgB_sb h]
  rw [e]
  refine ⟨b1, ?_⟩
  have : Real.sin (rv a) = Fp.sg a.msb * Real.sin (rv (abB a)) := by
    rw [a4]; cases a.msb <;> simp [Fp.sg]
  rw [this]; exact b2
theorem C56_cos (x : c.Data) : EachElt c (fun a r => TrigArg c a →
    isFinite r = true ∧ |rv r - Real.cos (rv a)| ≤ ulpHalf c.w * trigK c fm |rv a|) x (vCos c L o fm x) := by
  refine each_imp (vCos_elt hc hf L o fm x) fun a r hr ha => ?_
  have h : W c.w := fltW hc.ety hf
  obtain ⟨a1, a2, a3, a4, a5, a6, a7, a8⟩ := arg_spec hc hf o ha
  obtain ⟨-, b1, b2⟩ := sincos_all hc hf fm ha false
  have e : r = cosLane (cvttLaneIF c.s c.v) (cvtLaneIF c.s c.T c.v) fm (abB a) := by
    rw [hr]; unfold cosF; dsimp only; rw [if_neg (by rw [a7]; simp), a8]
  rw [e]
  refine ⟨b1, ?_⟩
  have : Real.cos (rv a) = Real.cos (rv (abB a)) := by
    rw [a4]; cases a.msb <;> simp [Fp.sg]
  rw [this]; exact b2
/-- C56 (`sin`, `cos` in single precision with FMA, `|x| <= 2048`): the error is at most 4.7 half units in the last place of 1.0. -/
theorem C56_float_fma (x : c.Data) (h32 : c.w = 32) :
    EachElt c (fun a r => isFinite a = true → |rv a| ≤ 2048 → isFinite r = true ∧ |rv r - Real.sin (rv a)| ≤ 4.7 * ulpHalf c.w) x (vSin c L o true x) ∧
    EachElt c (fun a r => isFinite a = true → |rv a| ≤ 2048 → isFinite r = true ∧ |rv r - Real.cos (rv a)| ≤ 4.7 * ulpHalf c.w) x (vCos c L o true x) := by
  have h : W c.w := fltW hc.ety hf
  have hu := ulp_pos c.w
  have key : ∀ a : BitVec c.w, isFinite a = true → |rv a| ≤ 2048 → TrigArg c a ∧ SincosErr (cvttLaneIF c.s c.v) (cvtLaneIF c.s c.T c.v) true (abB a) 4.7 := by
    intro a ha hA
    have hT : TrigArg c a := ⟨ha, le_trans hA (by rw [if_neg (by omega)]; norm_num), fun h => by omega⟩
    obtain ⟨a1, a2, a3, a4, a5, a6, a7, a8⟩ := arg_spec hc hf o hT
    refine ⟨hT, ?_⟩
    have h1 := sincos_tight hc.ety hf c.s c.v true a1 a2 a5 a6 (by unfold octDist; rw [if_neg (fun hh => by have : c.w = 64 := hh.1; omega)]) (Or.inr ⟨rfl, by rw [a3]; exact hA⟩)
    have h2 : ulpHalf c.w * (4.6 + rv (abB a) / 2 ^ 23) ≤ ulpHalf c.w * 4.7 := by
      apply mul_le_mul_of_nonneg_left _ hu.le
      rw [a3]; norm_num at *; linarith
    intro b
    obtain ⟨⟨b1, b2⟩, b3, b4⟩ := h1 b
    exact ⟨⟨b1, le_trans b2 h2⟩, b3, le_trans b4 h2⟩
  constructor
  · refine each_imp (vSin_elt hc hf L o true x) fun a r hr ha hA => ?_
    obtain ⟨hT, hk⟩ := key a ha hA
    obtain ⟨a1, a2, a3, a4, a5, a6, a7, a8⟩ := arg_spec hc hf o hT
    obtain ⟨⟨b1, b2⟩, -⟩ := hk a.msb
    have e : r = sinLane (cvttLaneIF c.s c.v) (cvtLaneIF c.s c.T c.v) true (sb c.w a.msb) (abB a) := by
      rw [hr]; unfold sinF; dsimp only; rw [if_neg (by rw [a7]; simp), a8, sgB_sb h]
    rw [e]
    refine ⟨b1, ?_⟩
    have : Real.sin (rv a) = Fp.sg a.msb * Real.sin (rv (abB a)) := by
      rw [a4]; cases a.msb <;> simp [Fp.sg]
    rw [this, mul_comm 4.7]; exact b2
  · refine each_imp (vCos_elt hc hf L o true x) fun a r hr ha hA => ?_
    obtain ⟨hT, hk⟩ := key a ha hA
    obtain ⟨a1, a2, a3, a4, a5, a6, a7, a8⟩ := arg_spec hc hf o hT
    obtain ⟨-, b1, b2⟩ := hk false
    have e : r = cosLane (cvttLaneIF c.s c.v) (cvtLaneIF c.s c.T c.v) true (abB a) := by
      rw [hr]; unfold cosF; dsimp only; rw [if_neg (by rw [a7]; simp), a8]
    rw [e]
    refine ⟨b1, ?_⟩
    have : Real.cos (rv a) = Real.cos (rv (abB a)) := by
      rw [a4]; cases a.msb <;> simp [Fp.sg]
    rw [this, mul_comm 4.7]; exact b2
/-- C56 (`sin`, small arguments): relative accuracy.  For `|x| <= 0.785` (0.392 in 128-bit vectors of double with AVX-512DQ and VL) the error is at most
`1.7 ulpHalf |x|`, plus six times half the smallest subnormal. -/
theorem C56_sin_small (x : c.Data) : EachElt c (fun a r => isFinite a = true → |rv a| ≤ (if c.w = 64 ∧ c.v = .v128 ∧ c.s.dqvl = true then 392 / 1000 else 785 / 1000) →
    |rv r - Real.sin (rv a)| ≤ 1.7 * ulpHalf c.w * |rv a| + 6 * tiny c.w) x (vSin c L o fm x) := by
  refine each_imp (vSin_elt hc hf L o fm x) fun a r hr ha hA => ?_
  have h : W c.w := fltW hc.ety hf
  have hA1 : |rv a| ≤ 785 / 1000 := le_trans hA (by split <;> norm_num)
  have hT : TrigArg c a := ⟨ha, le_trans hA1 (by split <;> norm_num), fun _ _ _ _ => by norm_num; linarith⟩
  obtain ⟨a1, a2, a3, a4, a5, a6, a7, a8⟩ := arg_spec hc hf o hT
  have e : r = sinLane (cvttLaneIF c.s c.v) (cvtLaneIF c.s c.T c.v) fm (sb c.w a.msb) (abB a) := by
    rw [hr]; unfold sinF; dsimp only; rw [if_neg (by rw [a7]; simp), a8, sgB_sb h]
  have hs := sin_first hc.ety hf c.s c.v fm a1 a2 (by
    rw [a3]
    by_cases hw : c.w = 64 ∧ c.v = .v128 ∧ c.s.dqvl = true
    · rw [if_pos hw] at hA; exact Or.inl hA
    · right; exact ⟨by unfold octDist; exact if_neg hw, hA1⟩) a.msb
  rw [e]
  have : Real.sin (rv a) = Fp.sg a.msb * Real.sin (rv (abB a)) := by
    rw [a4]; cases a.msb <;> simp [Fp.sg]
  rw [this, ← a3]; exact hs
omit hc hf in
theorem trigK_bd (h : W c.w) {a : BitVec c.w} (ha : TrigArg c a) : 4 * ulpHalf c.w ≤ ulpHalf c.w * trigK c fm |rv a| ∧ ulpHalf c.w * trigK c fm |rv a| ≤ 0.27 := by
  have hA := ha.2.1
  have hA0 := abs_nonneg (rv a)
  unfold trigK
  generalize |rv a| = A at *
  rcases h with h | h
  · have e : ulpHalf c.w = 1 / 2 ^ 24 := by unfold ulpHalf; rw [h]; rfl
    rw [if_neg (by omega)] at hA ⊢
    rw [e]
    cases fm
    · simp only [Bool.false_eq_true, if_false]
      constructor <;> norm_num at hA hA0 ⊢ <;> linarith
    · simp only [if_true]
      constructor <;> norm_num
  · have e : ulpHalf c.w = 1 / 2 ^ 53 := by unfold ulpHalf; rw [h]; rfl
    rw [if_pos h] at hA ⊢
    rw [e]
    split <;> constructor <;> norm_num at hA hA0 ⊢ <;> linarith
/-- C56 (`tan`): for `|x|` from the constant `pi/32` on, unless `|cos x|` is within the error of `cos`, the result `r` satisfies
`|r cos x - sin x| <= (trigK + 1.3) ulpHalf (1 + |r|)`. -/
theorem C56_tan (u1 u2 : Vec c.v) (x : c.Data) : EachElt c (fun a r => TrigArg c a → 1 / 10 ≤ |rv a| →
    2 * (ulpHalf c.w * trigK c fm |rv a|) ≤ |Real.cos (rv a)| →
    isFinite r = true ∧ |rv r * Real.cos (rv a) - Real.sin (rv a)| ≤ (trigK c fm |rv a| + 1.3) * ulpHalf c.w * (1 + |rv r|)) x (vTan c L o fm u1 u2 x) := by
  refine each_imp (vTan_elt hc hf L o fm u1 u2 x) fun a r hr ha hlo hcos => ?_
  have h : W c.w := fltW hc.ety hf
  obtain ⟨a1, a2, a3, a4, a5, a6, a7, a8⟩ := arg_spec hc hf o ha
  obtain ⟨⟨b1, b2⟩, b3, b4⟩ := sincos_all hc hf fm ha a.msb
  obtain ⟨k1, k2⟩ := trigK_bd fm h ha
  have hp : fLt (abB a) (pio32 c.w) = false := by
    rw [fLt_eq h]; unfold Fp.lt
    have : ¬ val (abB a) < val (pio32 c.w) := by
      intro hlt
      have h1 : rv (abB a) < rv (pio32 c.w) := by
        unfold rv; exact div_lt_div_of_pos_right (by exact_mod_cast hlt) (by positivity)
      have h2 := pio32_le h
      rw [a3] at h1; linarith
    simp [this]
  have e : r = fdiv (sinLane (cvttLaneIF c.s c.v) (cvtLaneIF c.s c.T c.v) fm (sb c.w a.msb) (abB a)) (cosLane (cvttLaneIF c.s c.v) (cvtLaneIF c.s c.T c.v) fm (abB a)) := by
    rw [hr]; unfold tanF; dsimp only; rw [if_neg (by rw [a7]; simp), a8, if_neg (by rw [hp]; simp), sgB_sb h]
  have es : Real.sin (rv a) = Fp.sg a.msb * Real.sin (rv (abB a)) := by
    rw [a4]; cases a.msb <;> simp [Fp.sg]
  have ec : Real.cos (rv a) = Real.cos (rv (abB a)) := by
    rw [a4]; cases a.msb <;> simp [Fp.sg]
  rw [← es] at b2
  rw [← ec] at b4
  obtain ⟨r1, r2⟩ := tan_err h b1 b3 (Real.abs_sin_le_one _) (Real.abs_cos_le_one _) b2 b4 k1 k2 hcos
  rw [← e] at r1 r2
  refine ⟨r1, le_trans r2 (le_of_eq (by ring))⟩
/-- C56 (`tan`, violated): the coefficients used for `|x| < pi/32` are in the wrong order.  Every element with `0 < |x| < 0.098` comes out below
`|x|/40`, although `|tan x| >= |x|`. -/
theorem C56_tan_small_violated (u1 u2 : Vec c.v) (x : c.Data) : EachElt c (fun a r => isFinite a = true → |rv a| ≤ 98 / 1000 →
    isFinite r = true ∧ |rv r| ≤ |rv a| / 40 + tiny c.w ∧ |rv a| ≤ |Real.tan (rv a)|) x (vTan c L o fm u1 u2 x) := by
  refine each_imp (vTan_elt hc hf L o fm u1 u2 x) fun a r hr ha hA => ?_
  have h : W c.w := fltW hc.ety hf
  have hT : TrigArg c a := ⟨ha, le_trans hA (by split <;> norm_num), fun _ _ _ _ => by norm_num; linarith⟩
  obtain ⟨a1, a2, a3, a4, a5, a6, a7, a8⟩ := arg_spec hc hf o hT
  have hp : fLt (abB a) (pio32 c.w) = true := by
    rw [fLt_eq h]; unfold Fp.lt
    have : val (abB a) < val (pio32 c.w) := by
      have h2 := pio32_gt h
      have h1 : rv (abB a) < rv (pio32 c.w) := by rw [a3]; linarith
      unfold rv at h1
      have := (div_lt_div_iff_of_pos_right (by positivity)).1 h1
      exact_mod_cast this
    rw [(finite_cls a1).1, (finite_cls (pio32_fin h)).1]; simp [this]
  have e : r = fmul (polL fm (fmul a a) (tancof c.w)) a := by
    rw [hr]; unfold tanF; dsimp only; rw [if_neg (by rw [a7]; simp), a8, if_pos hp]
  obtain ⟨p1, p2⟩ := tanPol_le h fm ha hA
  rw [e]
  refine ⟨p1, p2, ?_⟩
  have hx : |Real.tan (rv a)| = Real.tan |rv a| := by
    rcases le_total 0 (rv a) with h0 | h0
    · rw [abs_of_nonneg h0, abs_of_nonneg (Real.tan_nonneg_of_nonneg_of_le_pi_div_two h0 (by have := Real.pi_gt_three; rw [abs_of_nonneg h0] at hA; linarith))]
    · rw [abs_of_nonpos h0, Real.tan_neg, abs_of_nonpos (Real.tan_nonpos_of_nonpos_of_neg_pi_div_two_le h0 (by have := Real.pi_gt_three; rw [abs_of_nonpos h0] at hA; linarith))]
  rw [hx]
  exact Real.le_tan (abs_nonneg _) (by have := Real.pi_gt_three; linarith)
/-- C56 (`cos`, violated bound): in 128-bit vectors of double with AVX-512DQ and VL the octant is rounded to nearest instead of truncated, and
`cos(0.3928)` is off by more than 11900 half units in the last place of 1.0 (the bound is 4.6 with every other instruction set). -/
theorem C56_wide_violated (x : c.Data) (h64 : c.w = 64) (hv : c.v = .v128) (hd : c.s.dqvl = true) :
    EachElt c (fun a r => a = BitVec.ofNat c.w 0x3fd923a29c779a6b → 11900 * ulpHalf c.w < |rv r - Real.cos (rv a)|) x (vCos c L o fm x) := by
  refine each_imp (vCos_elt hc hf L o fm x) fun a r hr ha => ?_
  have h : W c.w := fltW hc.ety hf
  have hfin : isFinite a = true := by rw [ha, h64]; decide
  have hw := wide_vals h64
  have hT : TrigArg c a := ⟨hfin, by rw [ha, hw.1, abs_of_nonneg (by norm_num)]; split <;> norm_num, fun _ _ hq => by rw [hd] at hq; simp at hq⟩
  obtain ⟨a1, a2, a3, a4, a5, a6, a7, a8⟩ := arg_spec hc hf o hT
  have e : r = cosLane (cvttLaneIF c.s c.v) (cvtLaneIF c.s c.T c.v) fm (abB a) := by
    rw [hr]; unfold cosF; dsimp only; rw [if_neg (by rw [a7]; simp), a8]
  rw [e, ha, hv, cos_wide_val h64 c.s c.T hd fm, hw.1, hw.2]
  have eu : ulpHalf c.w = 1 / 2 ^ 53 := by unfold ulpHalf; rw [h64]; rfl
  rw [eu]
  have hr := (abs_le.1 cos_wide_real).2
  refine lt_of_lt_of_le ?_ (le_abs_self _)
  norm_num at hr ⊢; linarith
/-- C56 (`cos`, violated): with SSE4.1 but neither AVX-512DQ and VL nor (in 256-bit vectors) AVX2, dpm's conversion of 64-bit integers to double is
wrong from `2^16` on, and `cos(51584.0)` is below `-10^50`. -/
theorem C56_large_violated (x : c.Data) (h64 : c.w = 64) (h41 : c.s.sse41 = true) (hd : c.s.dqvl = false) (h2 : ¬ (c.v = .v256 ∧ c.s.avx2 = true)) :
    EachElt c (fun a r => a = BitVec.ofNat c.w 0x40e9300000000000 → rv a = 51584 ∧ rv r < - 10 ^ 50) x (vCos c L o fm x) := by
  refine each_imp (vCos_elt hc hf L o fm x) fun a r hr ha => ?_
  have h : W c.w := fltW hc.ety hf
  obtain ⟨hfin, hw, hw2⟩ := bad_vals h64
  have hb8 : c.T.bytes ≠ 4 := by
    intro hb
    have : c.T.w = 64 := h64
    unfold Ety.w at this; omega
  have hk : ¬ CvtOk c.s c.T c.v := by
    unfold CvtOk; rw [hd, h41]; simp only [Bool.false_eq_true, Bool.true_eq_false, false_or, not_or]
    exact ⟨hb8, h2⟩
  have h3 : c.s.sse3 = true := by
    exact hc.wf.1 (hc.wf.2.1 h41)
  have e : r = cosLane (cvttLaneIF c.s c.v) (cvtLaneIF c.s c.T c.v) fm (abB a) := by
    have n1 := not_over h o (x := a) (by rw [ha, hw, h64, show mb 64 = 52 from rfl]; norm_num [abs_of_nonneg])
    have n2 := finLane_fin h o (x := a) (by rw [ha]; exact hfin)
    rw [hr]; unfold cosF; dsimp only; rw [if_neg (by rw [n1]; simp), n2]
  rw [e, ha, cos_bad_val h64 c.s c.T c.v h3 hd hk fm]
  refine ⟨hw, ?_⟩
  rw [hw2]; norm_num
end C56

/-! ### examples -/
/-- `sin(2.0)` and `cos(2.0)` in 4 x double on AVX -/
example : ∃ r, vSin exF64 exLibm ⟨true, true⟩ true (vbroadcast exF64 0x4000000000000000 (zeroData exF64)) = .ok r ∧
    ∀ i, i < 4 → |rv (elt exF64 r i) - Real.sin 2| ≤ 5 / 2 ^ 53 := by
  have e : isFinite (0x4000000000000000 : BitVec 64) = true ∧ val (0x4000000000000000 : BitVec 64) = 2 * 2 ^ 1074 := by decide +kernel
  have e2 : rv (0x4000000000000000 : BitVec exF64.w) = 2 := by
    have := rv_of_val e.2 (b := 0) rfl
    norm_num at this; exact this
  obtain ⟨r, hr, h⟩ := each_bcast exF64_ok _ (C56_sin exF64_ok rfl exLibm ⟨true, true⟩ true (vbroadcast exF64 0x4000000000000000 (zeroData exF64)))
  refine ⟨r, hr, fun i hi => ?_⟩
  have hT : TrigArg exF64 (0x4000000000000000 : BitVec exF64.w) := ⟨e.1, by rw [e2]; split <;> norm_num, fun _ _ _ _ => by rw [e2]; norm_num⟩
  have := (h i hi hT).2
  rw [e2] at this
  refine le_trans this ?_
  unfold trigK
  rw [if_pos (show exF64.w = 64 from rfl), if_neg (show ¬ (exF64.v = .v128 ∧ exF64.s.dqvl = true) by decide)]
  have eu : ulpHalf exF64.w = 1 / 2 ^ 53 := rfl
  rw [eu]; norm_num
/-- `tan(0.05)` in 6 x float on SSE2 -/
example : ∃ r, vTan exF32 exLibm ⟨true, true⟩ false 0 0 (vbroadcast exF32 0x3d4ccccd (zeroData exF32)) = .ok r ∧
    ∀ i, i < 6 → |rv (elt exF32 r i)| ≤ 1 / 700 := by
  have e : isFinite (0x3d4ccccd : BitVec 32) = true ∧ val (0x3d4ccccd : BitVec 32) = 13421773 * 2 ^ 121 := by decide +kernel
  have e2 : rv (0x3d4ccccd : BitVec exF32.w) = 13421773 / 2 ^ 28 := by
    have := rv_of_val e.2 (b := 28) rfl
    norm_num at this ⊢; exact this
  obtain ⟨r, hr, h⟩ := each_bcast exF32_ok _ (C56_tan_small_violated exF32_ok rfl exLibm ⟨true, true⟩ false 0 0 (vbroadcast exF32 0x3d4ccccd (zeroData exF32)))
  refine ⟨r, hr, fun i hi => ?_⟩
  have h1 := (h i hi e.1 (by rw [e2]; norm_num [abs_of_nonneg])).2.1
  refine le_trans h1 ?_
  have h2 := tiny_le (w := exF32.w) (Or.inl rfl)
  rw [e2, abs_of_nonneg (by norm_num)]
  norm_num at h2 ⊢; linarith
/-- 2 x double with AVX-512DQ and VL: `cos(0.3928)` -/
def exDqvl : Cfg := ⟨⟨true, true, true, true, true, true, true, true⟩, .f64, 2, .v128⟩
theorem exDqvl_ok : exDqvl.Ok := ⟨by decide, by decide, by decide, by decide, by decide⟩
example : ∃ r, vCos exDqvl exLibm ⟨true, true⟩ true (vbroadcast exDqvl 0x3fd923a29c779a6b (zeroData exDqvl)) = .ok r ∧
    ∀ i, i < 2 → 11900 * ulpHalf 64 < |rv (elt exDqvl r i) - Real.cos (rv (0x3fd923a29c779a6b : BitVec 64))| := by
  obtain ⟨r, hr, h⟩ := each_bcast exDqvl_ok _ (C56_wide_violated exDqvl_ok rfl exLibm ⟨true, true⟩ true (vbroadcast exDqvl 0x3fd923a29c779a6b (zeroData exDqvl)) rfl rfl rfl)
  exact ⟨r, hr, fun i hi => h i hi rfl⟩
/-- 4 x double with AVX: `cos(51584)` -/
example : ∃ r, vCos exF64 exLibm ⟨true, true⟩ true (vbroadcast exF64 0x40e9300000000000 (zeroData exF64)) = .ok r ∧
    ∀ i, i < 4 → rv (elt exF64 r i) < - 10 ^ 50 := by
  obtain ⟨r, hr, h⟩ := each_bcast exF64_ok _ (C56_large_violated exF64_ok rfl exLibm ⟨true, true⟩ true (vbroadcast exF64 0x40e9300000000000 (zeroData exF64)) rfl rfl rfl (by decide))
  exact ⟨r, hr, fun i hi => (h i hi rfl).2⟩
end Dpm.X86
