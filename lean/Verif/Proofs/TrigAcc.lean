import Mathlib.Analysis.SpecialFunctions.Trigonometric.Bounds
import Verif.Proofs.TrigOct
/-! Accuracy of one lane of `eval_sincos`. -/
namespace Dpm.X86
open Dpm.Reg Dpm.Fp

/-! ### Quadrants -/
theorem quad_trig (θ : ℝ) {J : Nat} (hJ : J % 2 = 0) :
    Real.sin (θ + J * (Real.pi / 4)) = Fp.sg (J.testBit 2) * (if J.testBit 1 then Real.cos θ else Real.sin θ) ∧
    Real.cos (θ + J * (Real.pi / 4)) = Fp.sg (J.testBit 2 != J.testBit 1) * (if J.testBit 1 then Real.sin θ else Real.cos θ) := by
  obtain ⟨q, r, hr, e⟩ : ∃ q r, r < 4 ∧ J = 8 * q + 2 * r := ⟨J / 8, J % 8 / 2, by omega, by omega⟩
  have e1 : θ + (J : ℝ) * (Real.pi / 4) = θ + r * (Real.pi / 2) + q * (2 * Real.pi) := by rw [e]; push_cast; ring
  rw [e1, Real.sin_add_nat_mul_two_pi, Real.cos_add_nat_mul_two_pi]
  have b1 : J.testBit 1 = decide (r % 2 = 1) := by
    rw [Nat.testBit_eq_decide_div_mod_eq]; congr 1; simp only [eq_iff_iff]; omega
  have b2 : J.testBit 2 = decide (r / 2 = 1) := by
    rw [Nat.testBit_eq_decide_div_mod_eq]; congr 1; simp only [eq_iff_iff]; omega
  rw [b1, b2]
  have h2 : θ + ((2 : Nat) : ℝ) * (Real.pi / 2) = θ + Real.pi := by push_cast; ring
  have h3 : θ + ((3 : Nat) : ℝ) * (Real.pi / 2) = θ + Real.pi / 2 + Real.pi := by push_cast; ring
  have h1 : θ + ((1 : Nat) : ℝ) * (Real.pi / 2) = θ + Real.pi / 2 := by push_cast; ring
  have h0 : θ + ((0 : Nat) : ℝ) * (Real.pi / 2) = θ := by push_cast; ring
  rcases (show r = 0 ∨ r = 1 ∨ r = 2 ∨ r = 3 by omega) with h | h | h | h <;> subst h
  · rw [h0]; simp [Fp.sg]
  · rw [h1]; simp [Fp.sg, Real.sin_add_pi_div_two, Real.cos_add_pi_div_two]
  · rw [h2]; simp [Fp.sg, Real.sin_add_pi, Real.cos_add_pi]
  · rw [h3]; simp [Fp.sg, Real.sin_add_pi, Real.cos_add_pi, Real.sin_add_pi_div_two, Real.cos_add_pi_div_two]
/-- a sign bit -/
def sb (w : Nat) (b : Bool) : BitVec w := if b then BitVec.intMin w else 0#w
theorem sb_xor {w : Nat} (a b : Bool) : sb w a ^^^ sb w b = sb w (a != b) := by cases a <;> cases b <;> simp [sb]
theorem quad_bits {w : Nat} (h : W w) {J : Nat} : (BitVec.ofNat w J &&& 2#w) <<< (w - 2) = sb w (J.testBit 1) ∧
    (BitVec.ofNat w J &&& 4#w) <<< (w - 3) = sb w (J.testBit 2) := by
  have a1 : 2#w = BitVec.twoPow w 1 := by rcases h with h | h <;> subst h <;> rfl
  have a2 : 4#w = BitVec.twoPow w 2 := by rcases h with h | h <;> subst h <;> rfl
  have l1 : (BitVec.ofNat w J).getLsbD 1 = J.testBit 1 := by
    rw [BitVec.getLsbD_ofNat]; rcases h with h | h <;> subst h <;> simp
  have l2 : (BitVec.ofNat w J).getLsbD 2 = J.testBit 2 := by
    rw [BitVec.getLsbD_ofNat]; rcases h with h | h <;> subst h <;> simp
  rw [a1, a2, BitVec.and_twoPow, BitVec.and_twoPow, l1, l2]
  unfold sb
  constructor
  · split
    · rcases h with h | h <;> subst h <;> decide
    · simp
  · split
    · rcases h with h | h <;> subst h <;> decide
    · simp
theorem sb_zero {w : Nat} (h : W w) {b : Bool} : sb w b = 0#w ↔ b = false := by
  cases b
  · simp [sb]
  · rcases h with h | h <;> subst h <;> simp [sb] <;> decide
theorem flip_rv {w : Nat} (h : W w) {x : BitVec w} (hx : isFinite x = true) (b : Bool) : isFinite (x ^^^ sb w b) = true ∧ rv (x ^^^ sb w b) = Fp.sg b * rv x := by
  cases b
  · simp [sb, Fp.sg, hx]
  · have e : x ^^^ sb w true = x ^^^ BitVec.intMin w := rfl
    rw [e]
    constructor
    · rw [finite_iff h] at hx ⊢; rw [(flip_sm h x).2]; exact hx
    · unfold rv; rw [val_flip h]; push_cast; simp [Fp.sg, neg_div]
theorem sgB_sb {w : Nat} (h : W w) (x : BitVec w) : sgB x = sb w x.msb := by
  unfold sgB sb; exact and_intMin h.pos x
theorem abB_facts {w : Nat} (h : W w) {x : BitVec w} (hx : isFinite x = true) : isFinite (abB x) = true ∧ (abB x).msb = false ∧ rv (abB x) = |rv x| ∧ rv x = Fp.sg x.msb * rv (abB x) := by
  have e : abB x = x ^^^ sb w x.msb := by unfold abB; rw [sgB_sb h]
  obtain ⟨f, r⟩ := flip_rv h hx x.msb
  rw [← e] at f r
  have hs : (abB x).msb = false := by
    rw [e]; cases hm : x.msb
    · simp [sb, hm]
    · show (x ^^^ BitVec.intMin w).msb = false
      rw [(flip_sm h x).1, hm]; rfl
  have hn := rv_nonneg hs
  refine ⟨f, hs, ?_, ?_⟩
  · rw [← abs_of_nonneg hn, r, abs_sg]
  · rw [r, ← mul_assoc]; cases x.msb <;> simp [Fp.sg]


/-! ### The octant and the reduced argument -/
noncomputable def amax (w : Nat) : ℝ := if w = 64 then 2 ^ 29 else 2 ^ 22
set_option maxHeartbeats 1000000 in
theorem oct_spec {T : Ety} (hT : T.Ok) (hf : T.flt = true) (s : ISA) (v : VSz) {ab : BitVec T.w} (ha : isFinite ab = true) (hs : ab.msb = false) (hA : rv ab ≤ amax T.w)
    (hc : CvtOk s T v ∨ rv ab ≤ 2 ^ 15) :
    ∃ J : Nat, J % 2 = 0 ∧ octant (cvttLaneIF s v) ab = BitVec.ofNat T.w J ∧ J ≤ jmax T.w ∧ isFinite (cvtLaneIF s T v (BitVec.ofNat T.w J)) = true ∧
      val (cvtLaneIF s T v (BitVec.ofNat T.w J)) = J * (2 ^ unitExp T.w : Nat) ∧
      |rv ab - J * (Real.pi / 4)| ≤ octDist s T.w v * (Real.pi / 4) + 1.6 * ulpHalf T.w * rv ab + tiny T.w ∧
      (rv ab ≤ 392 / 1000 → J = 0) ∧ (octDist s T.w v = 1 → rv ab ≤ 785 / 1000 → J = 0) := by
  have h := fltW hT hf
  obtain ⟨g1, g2, g3, g4, g5, g6⟩ := pio4_consts h
  have hu := ulp_pos T.w
  have hu1 := ulp_le h
  have ht := tiny_pos T.w
  have ht1 : tiny T.w ≤ 1 / 10 ^ 6 := le_trans (tiny_le h) (by norm_num)
  have hpi : 0 < Real.pi / 4 := by have := Real.pi_pos; positivity
  have hpi2 : 7853 / 10000 < Real.pi / 4 := lt_trans (by norm_num) quarter_pi.1
  have hA0 := rv_nonneg hs
  have hA2 : rv ab ≤ 2 ^ 29 := le_trans hA (by unfold amax; split <;> norm_num)
  have hb : (2 : ℝ) ^ 35 ≤ 2 ^ bias T.w := pow_le_pow_right₀ (by norm_num) (by rcases h with h | h <;> rw [h] <;> decide)
  have hp0 : 0 < rv (pio4 T.w) := by linarith
  have hq0 : 0 ≤ rv ab / rv (pio4 T.w) := div_nonneg hA0 hp0.le
  have hqb : |rv ab / rv (pio4 T.w)| ≤ 2 ^ bias T.w := by
    rw [abs_of_nonneg hq0, div_le_iff₀ hp0]
    nlinarith
  obtain ⟨f1, e1⟩ := fdiv_e h ha g1 g2 hqb
  have hms := msb_div h ha g1 g2 (hs.trans g3.symm)
  obtain ⟨d1, d2⟩ := div_real hu hu1 ht hA0 g4 g5 g6 e1
  have hy0 := rv_nonneg hms
  obtain ⟨n, hn, hct, n1, n2, n3, n4⟩ := cvtt_nat h s v f1 hms (by norm_num at *; linarith)
  have hoct : octant (cvttLaneIF s v) ab = BitVec.ofNat T.w (2 * ((n + 1) / 2)) := by
    unfold octant; rw [hct, even_up h hn]
  have hD : 1 ≤ octDist s T.w v ∧ octDist s T.w v ≤ 3 / 2 := by unfold octDist; split <;> norm_num
  have hnr : (n : ℝ) ≤ 1.28 * rv ab + 1 := by linarith
  have hJn : 2 * ((n + 1) / 2) ≤ n + 1 := by omega
  have hjm : 2 * ((n + 1) / 2) ≤ jmax T.w := by
    refine le_trans hJn ?_
    have : ((n + 1 : Nat) : ℝ) ≤ (jmax T.w : Nat) := by
      push_cast
      rcases h with h | h
      · have e1 : amax T.w = 2 ^ 22 := by unfold amax; rw [h]; norm_num
        have e2 : (jmax T.w : Nat) = 2 ^ 24 := by unfold jmax; rw [h]; norm_num
        rw [e1] at hA; rw [e2]; push_cast; norm_num at *; linarith
      · have e2 : (jmax T.w : Nat) = 2 ^ 30 := by unfold jmax; rw [h]; norm_num
        rw [e2]; push_cast; norm_num at *; linarith
    exact_mod_cast this
  have hco : CvtOk s T v ∨ 2 * ((n + 1) / 2) < 2 ^ 16 := by
    rcases hc with hc | hc
    · exact Or.inl hc
    · right
      have : ((n + 1 : Nat) : ℝ) < (2 ^ 16 : Nat) := by push_cast; norm_num at *; linarith
      have : n + 1 < 2 ^ 16 := by exact_mod_cast this
      omega
  obtain ⟨c1, c2⟩ := cvt_nat hT hf s v hjm hco
  refine ⟨2 * ((n + 1) / 2), by omega, hoct, hjm, c1, c2, ?_, ?_, ?_⟩
  · have hJ1 : ((2 * ((n + 1) / 2) : Nat) : ℝ) ≤ n + 1 := by exact_mod_cast hJn
    have hJ2 : (n : ℝ) ≤ ((2 * ((n + 1) / 2) : Nat) : ℝ) := by
      have : n ≤ 2 * ((n + 1) / 2) := by omega
      exact_mod_cast this
    generalize ((2 * ((n + 1) / 2) : Nat) : ℝ) = J at *
    have hd : |rv (fdiv ab (pio4 T.w)) - J| ≤ octDist s T.w v := abs_le.2 ⟨by linarith, by linarith⟩
    have e2 : |rv (fdiv ab (pio4 T.w)) * (Real.pi / 4) - J * (Real.pi / 4)| ≤ octDist s T.w v * (Real.pi / 4) := by
      rw [← sub_mul, abs_mul, abs_of_pos hpi]
      exact mul_le_mul_of_nonneg_right hd hpi.le
    have := abs_sub_tri d1 e2
    linarith
  · intro hlt
    have : rv (fdiv ab (pio4 T.w)) < 1 / 2 := by
      by_contra hcc; push Not at hcc
      have := mul_le_mul_of_nonneg_right hcc hpi.le
      have := (abs_le.1 d1).1
      have : 1.6 * ulpHalf T.w * rv ab ≤ 1.6 * (1 / 2 ^ 24) * 1 := mul_le_mul (by linarith) (by linarith) hA0 (by norm_num)
      norm_num at *; linarith
    have := n3 this
    omega
  · intro hd hlt
    have : rv (fdiv ab (pio4 T.w)) < 1 := by
      by_contra hcc; push Not at hcc
      have := mul_le_mul_of_nonneg_right hcc hpi.le
      have := (abs_le.1 d1).1
      have : 1.6 * ulpHalf T.w * rv ab ≤ 1.6 * (1 / 2 ^ 24) * 1 := mul_le_mul (by linarith) (by linarith) hA0 (by norm_num)
      norm_num at *; linarith
    have := n4 hd this
    omega

/-! ### Sine and cosine from the reduced argument -/
theorem sg_sub {b : Bool} {x y : ℝ} : |Fp.sg b * x - Fp.sg b * y| = |x - y| := by rw [← mul_sub, abs_sg]
theorem sincos_err {w : Nat} (h : W w) {ct cv : BitVec w → BitVec w} {fm : Bool} {ab : BitVec w} {J : Nat} (hJ : J % 2 = 0) (ho : octant ct ab = BitVec.ofNat w J)
    {e p : ℝ} (he : |rv (redArg fm (cv (BitVec.ofNat w J)) ab) - (rv ab - J * (Real.pi / 4))| ≤ e)
    (fs : isFinite (sinPol fm (redArg fm (cv (BitVec.ofNat w J)) ab)) = true) (hs : |rv (sinPol fm (redArg fm (cv (BitVec.ofNat w J)) ab)) - Real.sin (rv (redArg fm (cv (BitVec.ofNat w J)) ab))| ≤ p)
    (fc : isFinite (cosPol fm (redArg fm (cv (BitVec.ofNat w J)) ab)) = true) (hc : |rv (cosPol fm (redArg fm (cv (BitVec.ofNat w J)) ab)) - Real.cos (rv (redArg fm (cv (BitVec.ofNat w J)) ab))| ≤ p)
    (b : Bool) :
    (isFinite (sinLane ct cv fm (sb w b) ab) = true ∧ |rv (sinLane ct cv fm (sb w b) ab) - Fp.sg b * Real.sin (rv ab)| ≤ p + e) ∧
    (isFinite (cosLane ct cv fm ab) = true ∧ |rv (cosLane ct cv fm ab) - Real.cos (rv ab)| ≤ p + e) := by
  obtain ⟨t1, t2⟩ := quad_trig (rv ab - J * (Real.pi / 4)) hJ
  rw [sub_add_cancel] at t1 t2
  obtain ⟨q1, q2⟩ := quad_bits (w := w) h (J := J)
  have es := abs_sub_tri hs (le_trans (Real.abs_sin_sub_sin_le _ _) he)
  have ec := abs_sub_tri hc (le_trans (Real.abs_cos_sub_cos_le _ _) he)
  unfold sinLane cosLane
  dsimp only
  rw [ho, q1, q2, sb_xor, sb_xor, t1, t2]
  simp only [sb_zero h]
  generalize redArg fm (cv (BitVec.ofNat w J)) ab = z at *
  have hx : ∀ a b : Bool, Fp.sg (a != b) = Fp.sg b * Fp.sg a := by intro a b; cases a <;> cases b <;> simp [Fp.sg]
  cases h1 : J.testBit 1
  · simp only [if_true, Bool.false_eq_true, if_false]
    obtain ⟨a1, a2⟩ := flip_rv h fs (J.testBit 2 != b)
    obtain ⟨b1, b2⟩ := flip_rv h fc (J.testBit 2 != false)
    refine ⟨⟨a1, ?_⟩, b1, ?_⟩
    · rw [a2, hx, mul_assoc, sg_sub, sg_sub]; exact es
    · rw [b2, sg_sub]; exact ec
  · simp only [Bool.true_eq_false, if_false, if_true]
    obtain ⟨a1, a2⟩ := flip_rv h fc (J.testBit 2 != b)
    obtain ⟨b1, b2⟩ := flip_rv h fs (J.testBit 2 != true)
    refine ⟨⟨a1, ?_⟩, b1, ?_⟩
    · rw [a2, hx, mul_assoc, sg_sub, sg_sub]; exact ec
    · rw [b2, sg_sub]; exact es
end Dpm.X86
