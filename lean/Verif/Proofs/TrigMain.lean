import Verif.Proofs.TrigAcc
/-! One lane of `eval_sincos`: the error bounds. -/
namespace Dpm.X86
open Dpm.Reg Dpm.Fp

/-- both results of one lane are within `K` half units of the true values -/
def SincosErr (ct cv : BitVec w → BitVec w) (fm : Bool) (ab : BitVec w) (K : ℝ) : Prop := ∀ b : Bool,
  (isFinite (sinLane ct cv fm (sb w b) ab) = true ∧ |rv (sinLane ct cv fm (sb w b) ab) - Fp.sg b * Real.sin (rv ab)| ≤ ulpHalf w * K) ∧
  (isFinite (cosLane ct cv fm ab) = true ∧ |rv (cosLane ct cv fm ab) - Real.cos (rv ab)| ≤ ulpHalf w * K)
theorem lane_gen {T : Ety} (hT : T.Ok) (hf : T.flt = true) (s : ISA) (v : VSz) (fm : Bool) {ab : BitVec T.w} (ha : isFinite ab = true) (hs : ab.msb = false) (hA : rv ab ≤ amax T.w)
    (hc : CvtOk s T v ∨ rv ab ≤ 2 ^ 15) {B Z p K : ℝ} (hB : octDist s T.w v * (Real.pi / 4) + 1.6 * ulpHalf T.w * rv ab + tiny T.w ≤ B) (hB2 : B ≤ 3 / 2)
    (hZ : B + ulpHalf T.w * (rndC T.w fm * (1.001 * (rv ab + B)) + 3.01 * B + rv ab / 2 ^ 23 + 0.02) ≤ Z)
    (hp : ∀ z : BitVec T.w, isFinite z = true → |rv z| ≤ Z → (isFinite (sinPol fm z) = true ∧ |rv (sinPol fm z) - Real.sin (rv z)| ≤ ulpHalf T.w * p) ∧
      (isFinite (cosPol fm z) = true ∧ |rv (cosPol fm z) - Real.cos (rv z)| ≤ ulpHalf T.w * p))
    (hK : p + (rndC T.w fm * (1.001 * (rv ab + B)) + 3.01 * B + rv ab / 2 ^ 23 + 0.02) ≤ K) :
    SincosErr (cvttLaneIF s v) (cvtLaneIF s T v) fm ab K := by
  have h := fltW hT hf
  obtain ⟨J, j1, j2, j3, j4, j5, j6, -, -⟩ := oct_spec hT hf s v ha hs hA hc
  have hA2 : rv ab ≤ 2 ^ 30 := le_trans hA (by unfold amax; split <;> norm_num)
  have jB := le_trans j6 hB
  obtain ⟨z1, z2⟩ := red_acc h fm j4 j5 j3 ha (rv_nonneg hs) hA2 jB hB2
  have hz : |rv (redArg fm (cvtLaneIF s T v (BitVec.ofNat T.w J)) ab)| ≤ Z := by
    have := abs_le_of_sub z2 jB; linarith
  obtain ⟨⟨p1, p2⟩, p3, p4⟩ := hp _ z1 hz
  intro b
  have hKu : ulpHalf T.w * p + ulpHalf T.w * (rndC T.w fm * (1.001 * (rv ab + B)) + 3.01 * B + rv ab / 2 ^ 23 + 0.02) ≤ ulpHalf T.w * K := by
    rw [← mul_add]; exact mul_le_mul_of_nonneg_left hK (ulp_pos _).le
  obtain ⟨⟨a, b⟩, c, d⟩ := sincos_err h j1 j2 z2 p1 p2 p3 p4 b
  exact ⟨⟨a, le_trans b hKu⟩, c, le_trans d hKu⟩
/-- the polynomials on the reduced range, and on the range of the argument reduction of large floats -/
theorem pol_tight {w : Nat} (h : W w) (fm : Bool) (z : BitVec w) (hz : isFinite z = true) (hb : |rv z| ≤ 786 / 1000) :
    (isFinite (sinPol fm z) = true ∧ |rv (sinPol fm z) - Real.sin (rv z)| ≤ ulpHalf w * 2.2) ∧
    (isFinite (cosPol fm z) = true ∧ |rv (cosPol fm z) - Real.cos (rv z)| ≤ ulpHalf w * 2.2) := by
  have hm : (786 / 1000 : ℝ) ≤ zmax w := by rcases h with h | h <;> subst h; · rw [zmax32]; norm_num
                                            · rw [zmax64]
  obtain ⟨s1, s2⟩ := sinPol_acc h fm hz (le_trans hb hm)
  obtain ⟨c1, -, c3⟩ := cosPol_acc h fm hz (le_trans hb hm)
  refine ⟨⟨s1, le_trans s2 ?_⟩, c1, c3 hb⟩
  have hu := ulp_pos w
  have ht := tiny_ulp h
  have hq : rv z ^ 2 ≤ (786 / 1000) ^ 2 := by rw [← sq_abs]; exact pow_le_pow_left₀ (abs_nonneg _) hb 2
  have : |rv z| * (1.17 + 0.85 * rv z ^ 2) ≤ 786 / 1000 * (1.17 + 0.85 * (786 / 1000) ^ 2) :=
    mul_le_mul hb (by linarith) (by positivity) (by norm_num)
  have := mul_le_mul_of_nonneg_left this hu.le
  rw [mul_assoc]
  norm_num at *; linarith
theorem pol_loose (fm : Bool) (z : BitVec 32) (hz : isFinite z = true) (hb : |rv z| ≤ 3 / 2) :
    (isFinite (sinPol fm z) = true ∧ |rv (sinPol fm z) - Real.sin (rv z)| ≤ ulpHalf 32 * 6.2) ∧
    (isFinite (cosPol fm z) = true ∧ |rv (cosPol fm z) - Real.cos (rv z)| ≤ ulpHalf 32 * 6.2) := by
  have hm : (3 / 2 : ℝ) ≤ zmax 32 := by rw [zmax32]
  have h : W 32 := Or.inl rfl
  obtain ⟨s1, s2⟩ := sinPol_acc h fm hz (le_trans hb hm)
  obtain ⟨c1, c2, -⟩ := cosPol_acc h fm hz (le_trans hb hm)
  refine ⟨⟨s1, le_trans s2 ?_⟩, c1, c2⟩
  have hu := ulp_pos 32
  have ht := tiny_ulp h
  have hq : rv z ^ 2 ≤ (3 / 2) ^ 2 := by rw [← sq_abs]; exact pow_le_pow_left₀ (abs_nonneg _) hb 2
  have : |rv z| * (1.17 + 0.85 * rv z ^ 2) ≤ 3 / 2 * (1.17 + 0.85 * (3 / 2) ^ 2) :=
    mul_le_mul hb (by linarith) (by positivity) (by norm_num)
  have := mul_le_mul_of_nonneg_left this hu.le
  rw [mul_assoc]
  norm_num at *; linarith
theorem pol_wide (fm : Bool) (z : BitVec 64) (hz : isFinite z = true) (hb : |rv z| ≤ 1.179) :
    (isFinite (sinPol fm z) = true ∧ |rv (sinPol fm z) - Real.sin (rv z)| ≤ ulpHalf 64 * 24650) ∧
    (isFinite (cosPol fm z) = true ∧ |rv (cosPol fm z) - Real.cos (rv z)| ≤ ulpHalf 64 * 24650) := by
  obtain ⟨s1, s2⟩ := sinPol_wide fm hz (le_trans hb (by norm_num))
  obtain ⟨c1, c2⟩ := cosPol_wide fm hz (le_trans hb (by norm_num))
  have hu := ulp_pos 64
  have ht := tiny_ulp (w := 64) (Or.inr rfl)
  refine ⟨⟨s1, le_trans s2 ?_⟩, c1, le_trans c2 (by linarith)⟩
  have := mul_le_mul_of_nonneg_left hb hu.le
  rw [mul_assoc]
  norm_num at *; linarith
theorem ulpA {w : Nat} {A k : ℝ} (hA : A ≤ k) : ulpHalf w * A ≤ ulpHalf w * k := mul_le_mul_of_nonneg_left hA (ulp_pos w).le
set_option maxHeartbeats 1000000 in
/-- double precision, and single precision with FMA up to 2048 -/
theorem sincos_tight {T : Ety} (hT : T.Ok) (hf : T.flt = true) (s : ISA) (v : VSz) (fm : Bool) {ab : BitVec T.w} (ha : isFinite ab = true) (hs : ab.msb = false)
    (hA : rv ab ≤ amax T.w) (hc : CvtOk s T v ∨ rv ab ≤ 2 ^ 15) (hd : octDist s T.w v = 1) (hr : T.w = 64 ∨ fm = true ∧ rv ab ≤ 2048) :
    SincosErr (cvttLaneIF s v) (cvtLaneIF s T v) fm ab (4.6 + rv ab / 2 ^ 23) := by
  have h := fltW hT hf
  have hu := ulp_pos T.w
  have ht := tiny_ulp h
  have hr0 : rndC T.w fm = 0 := by unfold rndC; rw [if_pos (by rcases hr with h | h; exact Or.inl h; exact Or.inr h.1)]
  have hA0 := rv_nonneg hs
  obtain ⟨pi1, pi2⟩ := quarter_pi
  have hua : ulpHalf T.w * rv ab ≤ 123 / 10 ^ 6 ∧ ulpHalf T.w * (rv ab / 2 ^ 23) ≤ 1 / 10 ^ 10 ∧ ulpHalf T.w ≤ 1 / 2 ^ 24 := by
    refine ⟨?_, ?_, ulp_le h⟩
    · rcases h with h | h
      · have : rv ab ≤ 2048 := (hr.resolve_left (by omega)).2
        have e : ulpHalf T.w = 1 / 2 ^ 24 := by unfold ulpHalf; rw [h]; rfl
        refine le_trans (ulpA this) ?_; rw [e]; norm_num
      · have e : ulpHalf T.w = 1 / 2 ^ 53 := by unfold ulpHalf; rw [h]; rfl
        have : rv ab ≤ 2 ^ 29 := le_trans hA (by unfold amax; split <;> norm_num)
        refine le_trans (ulpA this) ?_; rw [e]; norm_num
    · rcases h with h | h
      · have : rv ab ≤ 2048 := (hr.resolve_left (by omega)).2
        have e : ulpHalf T.w = 1 / 2 ^ 24 := by unfold ulpHalf; rw [h]; rfl
        refine le_trans (ulpA (div_le_div_of_nonneg_right this (by norm_num))) ?_; rw [e]; norm_num
      · have e : ulpHalf T.w = 1 / 2 ^ 53 := by unfold ulpHalf; rw [h]; rfl
        have : rv ab ≤ 2 ^ 29 := le_trans hA (by unfold amax; split <;> norm_num)
        refine le_trans (ulpA (div_le_div_of_nonneg_right this (by norm_num))) ?_; rw [e]; norm_num
  obtain ⟨u1, u2, u3⟩ := hua
  refine lane_gen hT hf s v fm ha hs hA hc (B := 0.7856) (Z := 786 / 1000) (p := 2.2) ?_ (by norm_num) ?_ (pol_tight h fm) ?_
  · rw [hd]
    have : 1.6 * ulpHalf T.w * rv ab = 1.6 * (ulpHalf T.w * rv ab) := by ring
    rw [this]; norm_num at *; linarith
  · rw [hr0]
    have : ulpHalf T.w * (0 * (1.001 * (rv ab + 0.7856)) + 3.01 * 0.7856 + rv ab / 2 ^ 23 + 0.02) = ulpHalf T.w * (3.01 * 0.7856 + 0.02) + ulpHalf T.w * (rv ab / 2 ^ 23) := by ring
    rw [this]; norm_num at *; linarith
  · rw [hr0]; norm_num; linarith
set_option maxHeartbeats 1000000 in
/-- single precision, up to the arguments left to the C library -/
theorem sincos_float {T : Ety} (hT : T.Ok) (hf : T.flt = true) (h32 : T.w = 32) (s : ISA) (v : VSz) (fm : Bool) {ab : BitVec T.w} (ha : isFinite ab = true) (hs : ab.msb = false)
    (hA : rv ab ≤ amax T.w) (hc : CvtOk s T v ∨ rv ab ≤ 2 ^ 15) :
    SincosErr (cvttLaneIF s v) (cvtLaneIF s T v) fm ab (10.4 + if fm then 0 else 1.001 * rv ab + 1.2) := by
  have h := fltW hT hf
  have hu := ulp_pos T.w
  have ht := tiny_ulp h
  have e : ulpHalf T.w = 1 / 2 ^ 24 := by unfold ulpHalf; rw [h32]; rfl
  have hA2 : rv ab ≤ 2 ^ 22 := by
    have : amax T.w = 2 ^ 22 := by unfold amax; rw [h32]; norm_num
    rw [← this]; exact hA
  have hd : octDist s T.w v = 1 := by unfold octDist; rw [if_neg (by rintro ⟨h, _⟩; omega)]
  have hA0 := rv_nonneg hs
  have hA3 : rv ab / 2 ^ 23 ≤ 1 / 2 := by norm_num at *; linarith
  obtain ⟨pi1, pi2⟩ := quarter_pi
  have hp : ∀ z : BitVec T.w, isFinite z = true → |rv z| ≤ 3 / 2 → (isFinite (sinPol fm z) = true ∧ |rv (sinPol fm z) - Real.sin (rv z)| ≤ ulpHalf T.w * 6.2) ∧
      (isFinite (cosPol fm z) = true ∧ |rv (cosPol fm z) - Real.cos (rv z)| ≤ ulpHalf T.w * 6.2) := by
    rw [h32]; exact pol_loose fm
  have hB : octDist s T.w v * (Real.pi / 4) + 1.6 * ulpHalf T.w * rv ab + tiny T.w ≤ 1.1856 := by
    rw [e] at ht
    rw [hd, e]; norm_num at *; linarith
  cases fm
  · have hr : rndC T.w false = 1 := by unfold rndC; rw [if_neg (by rintro (h | h); omega; cases h)]
    refine lane_gen hT hf s v _ ha hs hA hc hB (by norm_num) (Z := 3 / 2) (p := 6.2) ?_ hp ?_
    · rw [hr, e]; norm_num at *; linarith
    · rw [hr]; norm_num at *; linarith
  · have hr : rndC T.w true = 0 := by unfold rndC; rw [if_pos (Or.inr rfl)]
    refine lane_gen hT hf s v _ ha hs hA hc hB (by norm_num) (Z := 3 / 2) (p := 6.2) ?_ hp ?_
    · rw [hr, e]; norm_num at *; linarith
    · rw [hr]; norm_num at *; linarith
set_option maxHeartbeats 1000000 in
/-- double precision in 128-bit vectors with AVX-512DQ and VL -/
theorem sincos_wide {T : Ety} (hT : T.Ok) (hf : T.flt = true) (h64 : T.w = 64) (s : ISA) (v : VSz) (fm : Bool) {ab : BitVec T.w} (ha : isFinite ab = true) (hs : ab.msb = false)
    (hA : rv ab ≤ amax T.w) (hc : CvtOk s T v ∨ rv ab ≤ 2 ^ 15) :
    SincosErr (cvttLaneIF s v) (cvtLaneIF s T v) fm ab (24660 + rv ab / 2 ^ 23) := by
  have h := fltW hT hf
  have hu := ulp_pos T.w
  have ht := tiny_ulp h
  have e : ulpHalf T.w = 1 / 2 ^ 53 := by unfold ulpHalf; rw [h64]; rfl
  have hA2 : rv ab ≤ 2 ^ 29 := by
    have : amax T.w = 2 ^ 29 := by unfold amax; rw [h64]; norm_num
    rw [← this]; exact hA
  have hd : octDist s T.w v ≤ 3 / 2 := by unfold octDist; split <;> norm_num
  have hA0 := rv_nonneg hs
  obtain ⟨pi1, pi2⟩ := quarter_pi
  have hp : ∀ z : BitVec T.w, isFinite z = true → |rv z| ≤ 1.179 → (isFinite (sinPol fm z) = true ∧ |rv (sinPol fm z) - Real.sin (rv z)| ≤ ulpHalf T.w * 24650) ∧
      (isFinite (cosPol fm z) = true ∧ |rv (cosPol fm z) - Real.cos (rv z)| ≤ ulpHalf T.w * 24650) := by
    rw [h64]; exact pol_wide fm
  have hpi : octDist s T.w v * (Real.pi / 4) ≤ 3 / 2 * (Real.pi / 4) := mul_le_mul_of_nonneg_right hd (by have := Real.pi_pos; positivity)
  have hB : octDist s T.w v * (Real.pi / 4) + 1.6 * ulpHalf T.w * rv ab + tiny T.w ≤ 1.1782 := by
    rw [e] at ht
    rw [e]; norm_num at *; linarith
  have hr : rndC T.w fm = 0 := by unfold rndC; rw [if_pos (Or.inl h64)]
  refine lane_gen hT hf s v _ ha hs hA hc hB (by norm_num) (Z := 1.179) (p := 24650) ?_ hp ?_
  · rw [hr, e]; norm_num at *; linarith
  · rw [hr]; norm_num at *; linarith
/-! ### Small arguments, and the tangent -/
theorem fma_zero {w : Nat} (h : W w) (fm : Bool) {y d z : BitVec w} (hy : isFinite y = true) (hd : isFinite d = true) (hz : isFinite z = true) (h0 : val y = 0) (h1 : |rv z| ≤ 1) :
    isFinite (fmaL fm y d z) = true ∧ rv (fmaL fm y d z) = rv z := by
  have hb : (2 : ℝ) ^ 35 ≤ 2 ^ bias w := pow_le_pow_right₀ (by norm_num) (by rcases h with h | h <;> subst h <;> decide)
  have hr : rv y = 0 := by unfold rv; rw [h0]; simp
  refine ⟨(fmaL_e h fm hy hd hz (M := 1) (by linarith) (le_refl _) (by rw [hr]; simp) h1).1, ?_⟩
  unfold rv; rw [fma_zero_val h fm hy hd hz (Or.inl h0)]
theorem red_zero {w : Nat} (h : W w) (fm : Bool) {y ab : BitVec w} (hy : isFinite y = true) (h0 : val y = 0) (ha : isFinite ab = true) (h1 : |rv ab| ≤ 1) :
    isFinite (redArg fm y ab) = true ∧ rv (redArg fm y ab) = rv ab := by
  obtain ⟨f0, f1, f2, -, -, -⟩ := dp_consts h
  obtain ⟨a1, a2⟩ := fma_zero h fm hy f0 ha h0 h1
  obtain ⟨b1, b2⟩ := fma_zero h fm hy f1 a1 h0 (by rw [a2]; exact h1)
  obtain ⟨c1, c2⟩ := fma_zero h fm hy f2 b1 h0 (by rw [b2, a2]; exact h1)
  exact ⟨c1, by unfold redArg; rw [c2, b2, a2]⟩
/-- in the first octant nothing is subtracted -/
theorem sin_first {T : Ety} (hT : T.Ok) (hf : T.flt = true) (s : ISA) (v : VSz) (fm : Bool) {ab : BitVec T.w} (ha : isFinite ab = true) (hs : ab.msb = false)
    (hA : rv ab ≤ 392 / 1000 ∨ octDist s T.w v = 1 ∧ rv ab ≤ 785 / 1000) (b : Bool) :
    |rv (sinLane (cvttLaneIF s v) (cvtLaneIF s T v) fm (sb T.w b) ab) - Fp.sg b * Real.sin (rv ab)| ≤ 1.7 * ulpHalf T.w * rv ab + 6 * tiny T.w := by
  have h := fltW hT hf
  have hA1 : rv ab ≤ 785 / 1000 := by rcases hA with h | h; · linarith
                                      · exact h.2
  have hA0 := rv_nonneg hs
  have hu := ulp_pos T.w
  have hab : |rv ab| ≤ 785 / 1000 := by rw [abs_of_nonneg hA0]; exact hA1
  obtain ⟨J, j1, j2, j3, j4, j5, -, j6, j7⟩ := oct_spec hT hf s v ha hs (le_trans hA1 (by unfold amax; split <;> norm_num)) (Or.inr (by norm_num; linarith))
  have hJ : J = 0 := by
    rcases hA with h | h
    · exact j6 h
    · exact j7 h.1 h.2
  subst hJ
  obtain ⟨z1, z2⟩ := red_zero h fm j4 (by rw [j5]; simp) ha (le_trans hab (by norm_num))
  have hm : (786 / 1000 : ℝ) ≤ zmax T.w := by rcases h with h | h <;> rw [h]; · rw [zmax32]; norm_num
                                              · rw [zmax64]
  have hz : |rv (redArg fm (cvtLaneIF s T v (BitVec.ofNat T.w 0)) ab)| ≤ zmax T.w := by rw [z2]; linarith
  obtain ⟨s1, s2⟩ := sinPol_acc h fm z1 hz
  have hl : sinLane (cvttLaneIF s v) (cvtLaneIF s T v) fm (sb T.w b) ab = sinPol fm (redArg fm (cvtLaneIF s T v (BitVec.ofNat T.w 0)) ab) ^^^ sb T.w b := by
    unfold sinLane; dsimp only
    rw [j2]
    obtain ⟨q1, q2⟩ := quad_bits (w := T.w) h (J := 0)
    rw [q1, q2, sb_xor]
    simp [sb]
  rw [hl, (flip_rv h s1 b).2, sg_sub]
  rw [z2] at s2
  refine le_trans s2 ?_
  rw [abs_of_nonneg hA0]
  have hq : rv ab ^ 2 ≤ (785 / 1000) ^ 2 := pow_le_pow_left₀ hA0 hA1 2
  have : ulpHalf T.w * rv ab * (1.17 + 0.85 * rv ab ^ 2) ≤ ulpHalf T.w * rv ab * 1.7 := by
    apply mul_le_mul_of_nonneg_left _ (by positivity)
    norm_num at *; linarith
  linarith
/-- a quotient of approximations -/
theorem tan_err {w : Nat} (h : W w) {s c : BitVec w} (fs : isFinite s = true) (fc : isFinite c = true) {S C ε : ℝ} (hS : |S| ≤ 1) (hC : |C| ≤ 1) (hs : |rv s - S| ≤ ε) (hcc : |rv c - C| ≤ ε)
    (h1 : 4 * ulpHalf w ≤ ε) (h2 : ε ≤ 0.27) (hlo : 2 * ε ≤ |C|) :
    isFinite (fdiv s c) = true ∧ |rv (fdiv s c) * C - S| ≤ (ε + 1.3 * ulpHalf w) * (1 + |rv (fdiv s c)|) := by
  have hu := ulp_pos w
  have ht := tiny_pos w
  have ht1 := tiny_ulp h
  have hε : 0 < ε := by linarith
  have hc1 : ε ≤ |rv c| := by
    have : |C| ≤ |C - rv c| + |rv c| := by have := abs_add_le (C - rv c) (rv c); rwa [sub_add_cancel] at this
    rw [abs_sub_comm] at this; linarith
  have hc2 : |rv c| ≤ 1.27 := by have := abs_le_of_sub hcc hC; linarith
  have hs2 : |rv s| ≤ 1.27 := by have := abs_le_of_sub hs hS; linarith
  have hcp : 0 < |rv c| := by linarith
  have hz : isZero c = false := by
    cases hz : isZero c
    · rfl
    · exfalso
      have : val c = 0 := by rw [zero_iff] at hz; rw [val_zero_iff]; exact hz
      unfold rv at hcp; rw [this] at hcp; simp at hcp
  have hq : |rv s / rv c| ≤ 2 ^ bias w := by
    rw [abs_div, div_le_iff₀ hcp]
    have hp : (1 : ℝ) ≤ 2 ^ bias w * ulpHalf w := by
      unfold ulpHalf
      rw [mul_one_div, one_le_div (by positivity)]
      exact pow_le_pow_right₀ (by norm_num) (by rcases h with h | h <;> subst h <;> decide)
    have : 2 ^ bias w * (4 * ulpHalf w) ≤ 2 ^ bias w * |rv c| := mul_le_mul_of_nonneg_left (by linarith) (by positivity)
    linarith
  obtain ⟨f, e⟩ := fdiv_e h fs fc hz hq
  refine ⟨f, ?_⟩
  generalize rv (fdiv s c) = r at *
  have hne : rv c ≠ 0 := abs_pos.1 hcp
  have e1 : |r * rv c - rv s| ≤ ulpHalf w * |rv s| + tiny w * |rv c| := by
    have a : r * rv c - rv s = (r - rv s / rv c) * rv c := by field_simp
    have b : ulpHalf w * |rv s| + tiny w * |rv c| = (ulpHalf w * |rv s / rv c| + tiny w) * |rv c| := by rw [abs_div]; field_simp
    rw [a, b, abs_mul]
    exact mul_le_mul_of_nonneg_right e hcp.le
  have e2 : |r * C - r * rv c| ≤ |r| * ε := by
    rw [← mul_sub, abs_mul, abs_sub_comm]; exact mul_le_mul_of_nonneg_left hcc (abs_nonneg _)
  have e3 := abs_sub_tri (abs_sub_tri e2 e1) hs
  have g1 : ulpHalf w * |rv s| ≤ ulpHalf w * 1.27 := mul_le_mul_of_nonneg_left hs2 hu.le
  have g2 : tiny w * |rv c| ≤ tiny w * 1.27 := mul_le_mul_of_nonneg_left hc2 ht.le
  have g3 : 0 ≤ 1.3 * ulpHalf w * |r| := by positivity
  have g4 : (ε + 1.3 * ulpHalf w) * (1 + |r|) = ε + 1.3 * ulpHalf w + |r| * ε + 1.3 * ulpHalf w * |r| := by ring
  rw [g4]
  norm_num at *; linarith

/-! ### The polynomial of the tangent -/
theorem pio32_vals {w : Nat} (h : W w) : isFinite (pio32 w) = true ∧ rv (pio32 w) ≤ 1 / 10 ∧ 98 / 1000 < rv (pio32 w) := by
  rcases h with h | h <;> subst h
  · have e : isFinite (pio32 32) = true ∧ val (pio32 32) = 13176795 * 2 ^ 122 := by decide +kernel
    have r : rv (pio32 32) = 13176795 / 2 ^ 27 := by rw [rv_of_val e.2 (b := 27) rfl]; push_cast; ring
    rw [r]; refine ⟨e.1, ?_, ?_⟩ <;> norm_num
  · have e : isFinite (pio32 64) = true ∧ val (pio32 64) = 7074237752028440 * 2 ^ 1018 := by decide +kernel
    have r : rv (pio32 64) = 7074237752028440 / 2 ^ 56 := by rw [rv_of_val e.2 (b := 56) rfl]; push_cast; ring
    rw [r]; refine ⟨e.1, ?_, ?_⟩ <;> norm_num
theorem pio32_fin {w : Nat} (h : W w) : isFinite (pio32 w) = true := (pio32_vals h).1
theorem pio32_le {w : Nat} (h : W w) : rv (pio32 w) ≤ 1 / 10 := (pio32_vals h).2.1
theorem pio32_gt {w : Nat} (h : W w) : 98 / 1000 < rv (pio32 w) := (pio32_vals h).2.2
theorem fma_le {w : Nat} (h : W w) (fm : Bool) {x y z : BitVec w} (hx : isFinite x = true) (hy : isFinite y = true) (hz : isFinite z = true) {a b d m : ℝ}
    (h1 : |rv x| ≤ a) (h2 : |rv y| ≤ b) (h3 : |rv z| ≤ d) (hm : 1.001 * (a * b + d) + 1 / 10 ^ 20 ≤ m) (hm2 : a * b ≤ 1) (hd : d ≤ 1) :
    isFinite (fmaL fm x y z) = true ∧ |rv (fmaL fm x y z)| ≤ m := by
  have hu := ulp_pos w
  have hu1 := ulp_le h
  have ht1 := tiny_le h
  have hb : (2 : ℝ) ^ 35 ≤ 2 ^ bias w := pow_le_pow_right₀ (by norm_num) (by rcases h with h | h <;> subst h <;> decide)
  have hp : |rv x * rv y| ≤ a * b := by rw [abs_mul]; exact mul_le_mul h1 h2 (abs_nonneg _) (le_trans (abs_nonneg _) h1)
  obtain ⟨f, e⟩ := fmaL_e h fm hx hy hz (M := 1) (by linarith) (le_refl _) (le_trans hp hm2) (le_trans h3 hd)
  refine ⟨f, ?_⟩
  have hs : |rv x * rv y + rv z| ≤ a * b + d := le_trans (abs_add_le _ _) (add_le_add hp h3)
  have g := abs_le_of_sub e hs
  have d0 : 0 ≤ d := le_trans (abs_nonneg _) h3
  have p0 : 0 ≤ a * b := le_trans (abs_nonneg _) hp
  have k1 : ulpHalf w * (1 + ulpHalf w) * |rv x * rv y| ≤ 1 / 2 ^ 24 * 2 * (a * b) :=
    mul_le_mul (mul_le_mul hu1 (by linarith) (by positivity) (by norm_num)) hp (abs_nonneg _) (by norm_num)
  have k2 : ulpHalf w * |rv x * rv y + rv z| ≤ 1 / 2 ^ 24 * (a * b + d) := mul_le_mul hu1 hs (abs_nonneg _) (by norm_num)
  norm_num at *; linarith
theorem tan_coefs {w : Nat} (h : W w) : ∃ c0 c1 c2 c3 c4 : BitVec w, tancof w = [c0, c1, c2, c3, c4] ∧ (isFinite c0 = true ∧ |rv c0| ≤ 1) ∧ (isFinite c1 = true ∧ |rv c1| ≤ 34 / 100) ∧
    (isFinite c2 = true ∧ |rv c2| ≤ 14 / 100) ∧ (isFinite c3 = true ∧ |rv c3| ≤ 54 / 1000) ∧ (isFinite c4 = true ∧ |rv c4| ≤ 221 / 10000) := by
  rcases h with h | h <;> subst h
  · refine ⟨0x3f800000#32, 0x3eaaaaab#32, 0x3e088889#32, 0x3d5d0c05#32, 0x3cb4e054#32, by decide, ?_⟩
    have e : (isFinite (0x3f800000#32) = true ∧ val (0x3f800000#32) = 1 * 2 ^ 149) ∧ (isFinite (0x3eaaaaab#32) = true ∧ val (0x3eaaaaab#32) = 11184811 * 2 ^ 124) ∧
      (isFinite (0x3e088889#32) = true ∧ val (0x3e088889#32) = 8947849 * 2 ^ 123) ∧ (isFinite (0x3d5d0c05#32) = true ∧ val (0x3d5d0c05#32) = 14486533 * 2 ^ 121) ∧
      (isFinite (0x3cb4e054#32) = true ∧ val (0x3cb4e054#32) = 2963477 * 2 ^ 122) := by decide +kernel
    obtain ⟨⟨a1, a2⟩, ⟨b1, b2⟩, ⟨c1, c2⟩, ⟨d1, d2⟩, e1, e2⟩ := e
    refine ⟨⟨a1, ?_⟩, ⟨b1, ?_⟩, ⟨c1, ?_⟩, ⟨d1, ?_⟩, e1, ?_⟩
    · rw [rv_of_val a2 (b := 0) rfl]; norm_num
    · rw [rv_of_val b2 (b := 25) rfl]; norm_num [abs_of_nonneg]
    · rw [rv_of_val c2 (b := 26) rfl]; norm_num [abs_of_nonneg]
    · rw [rv_of_val d2 (b := 28) rfl]; norm_num [abs_of_nonneg]
    · rw [rv_of_val e2 (b := 27) rfl]; norm_num [abs_of_nonneg]
  · refine ⟨0x3ff0000000000000#64, 0x3fd555555553d022#64, 0x3fc111111ce442c1#64, 0x3faba180a6bbdecd#64, 0x3f969c0a88a0b71f#64, by decide, ?_⟩
    have e : (isFinite (0x3ff0000000000000#64) = true ∧ val (0x3ff0000000000000#64) = 1 * 2 ^ 1074) ∧
      (isFinite (0x3fd555555553d022#64) = true ∧ val (0x3fd555555553d022#64) = 3002399751530513 * 2 ^ 1021) ∧
      (isFinite (0x3fc111111ce442c1#64) = true ∧ val (0x3fc111111ce442c1#64) = 4803839800918721 * 2 ^ 1019) ∧
      (isFinite (0x3faba180a6bbdecd#64) = true ∧ val (0x3faba180a6bbdecd#64) = 7777398296403661 * 2 ^ 1017) ∧
      (isFinite (0x3f969c0a88a0b71f#64) = true ∧ val (0x3f969c0a88a0b71f#64) = 6364018543474463 * 2 ^ 1016) := by decide +kernel
    obtain ⟨⟨a1, a2⟩, ⟨b1, b2⟩, ⟨c1, c2⟩, ⟨d1, d2⟩, e1, e2⟩ := e
    refine ⟨⟨a1, ?_⟩, ⟨b1, ?_⟩, ⟨c1, ?_⟩, ⟨d1, ?_⟩, e1, ?_⟩
    · rw [rv_of_val a2 (b := 0) rfl]; norm_num
    · rw [rv_of_val b2 (b := 53) rfl]; norm_num [abs_of_nonneg]
    · rw [rv_of_val c2 (b := 55) rfl]; norm_num [abs_of_nonneg]
    · rw [rv_of_val d2 (b := 57) rfl]; norm_num [abs_of_nonneg]
    · rw [rv_of_val e2 (b := 58) rfl]; norm_num [abs_of_nonneg]
theorem tanPol_le {w : Nat} (h : W w) (fm : Bool) {x : BitVec w} (hx : isFinite x = true) (hA : |rv x| ≤ 98 / 1000) :
    isFinite (fmul (polL fm (fmul x x) (tancof w)) x) = true ∧ |rv (fmul (polL fm (fmul x x) (tancof w)) x)| ≤ |rv x| / 40 + tiny w := by
  have hu := ulp_pos w
  have hu1 := ulp_le h
  have ht1 := tiny_le h
  have hb : (2 : ℝ) ^ 35 ≤ 2 ^ bias w := pow_le_pow_right₀ (by norm_num) (by rcases h with h | h <;> subst h <;> decide)
  have hsq : |rv x * rv x| ≤ 98 / 1000 * (98 / 1000) := by rw [abs_mul]; exact mul_le_mul hA hA (abs_nonneg _) (by norm_num)
  obtain ⟨t1, t2⟩ := fmul_e h hx hx (by linarith)
  have t3 : |rv (fmul x x)| ≤ 97 / 10000 := by
    have := abs_le_of_sub t2 hsq
    have k : ulpHalf w * |rv x * rv x| ≤ 1 / 2 ^ 24 * (98 / 1000 * (98 / 1000)) := mul_le_mul hu1 hsq (abs_nonneg _) (by norm_num)
    norm_num at *; linarith
  obtain ⟨c0, c1, c2, c3, c4, hcs, ⟨f0, g0⟩, ⟨f1, g1⟩, ⟨f2, g2⟩, ⟨f3, g3⟩, f4, g4⟩ := tan_coefs h
  rw [hcs]
  show isFinite (fmul (fmaL fm (fmaL fm (fmaL fm (fmaL fm c0 (fmul x x) c1) (fmul x x) c2) (fmul x x) c3) (fmul x x) c4) x) = true ∧
    |rv (fmul (fmaL fm (fmaL fm (fmaL fm (fmaL fm c0 (fmul x x) c1) (fmul x x) c2) (fmul x x) c3) (fmul x x) c4) x)| ≤ _
  obtain ⟨k1, l1⟩ := fma_le h fm f0 t1 f1 g0 t3 g1 (m := 36 / 100) (by norm_num) (by norm_num) (by norm_num)
  obtain ⟨k2, l2⟩ := fma_le h fm k1 t1 f2 l1 t3 g2 (m := 15 / 100) (by norm_num) (by norm_num) (by norm_num)
  obtain ⟨k3, l3⟩ := fma_le h fm k2 t1 f3 l2 t3 g3 (m := 56 / 1000) (by norm_num) (by norm_num) (by norm_num)
  obtain ⟨k4, l4⟩ := fma_le h fm k3 t1 f4 l3 t3 g4 (m := 227 / 10000) (by norm_num) (by norm_num) (by norm_num)
  generalize fmaL fm (fmaL fm (fmaL fm (fmaL fm c0 (fmul x x) c1) (fmul x x) c2) (fmul x x) c3) (fmul x x) c4 = p at *
  have hp : |rv p * rv x| ≤ 227 / 10000 * |rv x| := by rw [abs_mul]; exact mul_le_mul_of_nonneg_right l4 (abs_nonneg _)
  have hq : |rv p * rv x| ≤ 2 ^ bias w := by
    have h9 : (1 : ℝ) ≤ 2 ^ 35 := by norm_num
    linarith
  obtain ⟨m1, m2⟩ := fmul_e h k4 hx hq
  refine ⟨m1, ?_⟩
  have := abs_le_of_sub m2 hp
  have k : ulpHalf w * |rv p * rv x| ≤ 1 / 2 ^ 24 * (227 / 10000 * |rv x|) := mul_le_mul hu1 hp (abs_nonneg _) (by norm_num)
  have h0 := abs_nonneg (rv x)
  have h1 : (1 : ℝ) / 2 ^ 24 ≤ 1 / 1000 := by norm_num
  have h2 : (1 : ℝ) / 2 ^ 24 * (227 / 10000 * |rv x|) ≤ 1 / 1000 * (227 / 10000 * |rv x|) := mul_le_mul_of_nonneg_right h1 (by linarith)
  linarith
end Dpm.X86
