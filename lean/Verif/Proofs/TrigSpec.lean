import Verif.Proofs.FloatNan
import Verif.Spec.Trig
/-! Signs, zeros, NaN and domain of the one-lane trigonometric functions. -/
namespace Dpm.X86
open Dpm.Reg Dpm.Fp

/-! ### comparisons with positive constants -/
theorem cvtMax_val {w : Nat} (h : W w) : (cvtMax w).msb = false ∧ magVal (mb w) (mag (cvtMax w)) = 2 ^ (mb w - 1) * 2 ^ unitExp w := by
  rcases h with h | h <;> subst h <;> decide +kernel
theorem val_abs' {w : Nat} (_h : W w) {x : BitVec w} (hs : x.msb = false) : val x = ((val x).natAbs : Int) := by
  unfold val neg; rw [hs]; simp
theorem large_of {w : Nat} (h : W w) {o : MathOpt} {x : BitVec w} (hl : fLt (cvtMax w) (finLane o (abB x)) = true) : Large x := by
  have h1 : finLane o (abB x) = abB x := by
    unfold finLane
    split
    · rename_i hc
      exfalso
      have : isNaN (finLane o (abB x)) = true := by
        unfold finLane; rw [if_pos hc]
        apply nan_fdiv_l h
        rw [Bool.and_eq_true, fEq_eq h] at hc
        have hi : isInf (abB x) = true := by
          have := hc.2
          have e := isinf_lane h x
          rw [← abB_eq, fEq_eq h, this] at e
          rw [inf_of_mag' (abB_sm h x).2]; exact e.symm
        have hn := inf_not_nan' h hi
        unfold fsub fadd
        rw [hn, nan_flip h, hn, hi, inf_flip h, hi, neg_flip h]
        simp
        exact nan_default h
      rw [fLt_eq h] at hl
      unfold Fp.lt at hl
      rw [this] at hl; simp at hl
    · rfl
  rw [h1, fLt_eq h] at hl
  unfold Fp.lt at hl
  simp only [Bool.and_eq_true, decide_eq_true_eq] at hl
  have h2 := hl.2
  have hc := cvtMax_val h
  rw [val_abs' h (abB_sm h x).1, natAbs_val, (abB_sm h x).2, val_abs' h hc.1, natAbs_val, hc.2] at h2
  unfold Large
  rw [natAbs_val]
  exact Int.ofNat_lt.1 h2

/-! ### parity -/
theorem sinLane_flip {w : Nat} (ct cv : BitVec w → BitVec w) (fm : Bool) (sg ab : BitVec w) :
    sinLane ct cv fm (sg ^^^ BitVec.intMin w) ab = sinLane ct cv fm sg ab ^^^ BitVec.intMin w := by
  unfold sinLane; dsimp only
  simp only [BitVec.xor_assoc]
theorem sinF_flip {w : Nat} (h : W w) (f ct cv : BitVec w → BitVec w) (o : MathOpt) (fm : Bool) (x : BitVec w)
    (hL : Large x → f (x ^^^ BitVec.intMin w) = f x ^^^ BitVec.intMin w) :
    sinF f ct cv o fm (x ^^^ BitVec.intMin w) = sinF f ct cv o fm x ^^^ BitVec.intMin w := by
  unfold sinF
  dsimp only
  rw [abB_flip, sgB_flip]
  split
  · rename_i hl; exact hL (large_of h hl)
  · exact sinLane_flip _ _ _ _ _
theorem cosF_flip {w : Nat} (h : W w) (f ct cv : BitVec w → BitVec w) (o : MathOpt) (fm : Bool) (x : BitVec w)
    (hL : Large x → f (x ^^^ BitVec.intMin w) = f x) : cosF f ct cv o fm (x ^^^ BitVec.intMin w) = cosF f ct cv o fm x := by
  unfold cosF
  dsimp only
  rw [abB_flip]
  split
  · rename_i hl; exact hL (large_of h hl)
  · rfl
theorem pio32_lt_nan {w : Nat} (h : W w) {o : MathOpt} {x : BitVec w} (hl : fLt (finLane o (abB x)) (pio32 w) = true) : isNaN x = false := by
  cases hn : isNaN x
  · rfl
  · exfalso
    have : isNaN (finLane o (abB x)) = true := by
      unfold finLane
      split
      · exact nan_fdiv_l h (nan_fsub_l h (by rw [abB_nan h, hn]))
      · rw [abB_nan h, hn]
    rw [fLt_eq h] at hl
    unfold Fp.lt at hl
    rw [this] at hl; simp at hl
theorem tanF_flip {w : Nat} (h : W w) (f ct cv : BitVec w → BitVec w) (o : MathOpt) (fm : Bool) (x : BitVec w)
    (hL : Large x → f (x ^^^ BitVec.intMin w) = f x ^^^ BitVec.intMin w) :
    tanF f ct cv o fm (x ^^^ BitVec.intMin w) = tanF f ct cv o fm x ^^^ BitVec.intMin w ∨
    (isNaN (tanF f ct cv o fm x) = true ∧ isNaN (tanF f ct cv o fm (x ^^^ BitVec.intMin w)) = true) := by
  unfold tanF
  dsimp only
  rw [abB_flip, sgB_flip]
  split
  · rename_i hl; exact Or.inl (hL (large_of h hl))
  · split
    · rename_i hl
      rw [fmul_flip_both h (pio32_lt_nan h hl)]
      exact fmul_flip_r h _ _
    · rw [sinLane_flip]; exact fdiv_flip_l h _ _
theorem asinF_flip {w : Nat} (o : MathOpt) (fm : Bool) (x : BitVec w) : asinF o fm (x ^^^ BitVec.intMin w) = asinF o fm x ^^^ BitVec.intMin w := by
  unfold asinF
  rw [abB_flip, sgB_flip, BitVec.xor_assoc]
theorem atanF_flip {w : Nat} (fm : Bool) (x : BitVec w) : atanF fm (x ^^^ BitVec.intMin w) = atanF fm x ^^^ BitVec.intMin w := by
  unfold atanF
  rw [abB_flip, sgB_flip, BitVec.xor_assoc]

/-! ### zero -/
theorem zero_sign {w : Nat} (h : W w) {x : BitVec w} (hx : isZero x = true) : x = sgB x ∧ abB x = 0#w := by
  have hm := (zero_iff x).1 hx
  constructor
  · rw [sgB_eq h]
    have e := pack_eta h x
    rw [hm] at e
    cases hs : x.msb <;> rw [hs] at e
    · rw [← e]; rcases h with h | h <;> subst h <;> decide
    · rw [← e]; rcases h with h | h <;> subst h <;> decide
  · have a := abB_sm h x
    have e := pack_eta h (abB x)
    rw [a.1, a.2, hm] at e
    rw [← e]; rcases h with h | h <;> subst h <;> decide
theorem zero_lt {w : Nat} (h : W w) : fLt (cvtMax w) 0#w = false ∧ fLt 0#w (pio32 w) = true ∧ fLt 0#w (asinPmin w) = true ∧ fEq 0#w (infBits w) = false ∧
    fLt (oneBits w) 0#w = false := by
  rcases h with h | h <;> subst h <;> decide
theorem ct_zero {w : Nat} (h : W w) (s : ISA) (v : VSz) : cvttLaneIF s v 0#w = 0#w := by
  rcases h with h | h <;> subst h
  · rw [cvttLaneIF_32]; decide +kernel
  · cases v
    · rw [cvttLaneIF_128]
      unfold off64
      cases s.dqvl <;> cases s.sse3 <;> decide +kernel
    · rw [cvttLaneIF_256]
      unfold off64
      cases s.dqvl <;> decide +kernel
theorem cv_zero {w : Nat} (h : W w) (s : ISA) (T : Ety) (v : VSz) : cvtLaneIF s T v 0#w = 0#w := by
  unfold cvtLaneIF
  split
  · rcases h with h | h <;> subst h <;> decide +kernel
  · rw [BitVec.setWidth_zero, i64f64Bad_eq]
    rcases h with h | h <;> subst h <;> decide +kernel
theorem kernel_zero {w : Nat} (h : W w) (fm : Bool) : fdiv 0#w (pio4 w) = 0#w ∧ (0#w + 1#w) &&& ~~~ 1#w = 0#w ∧ redArg fm 0#w 0#w = 0#w ∧
    sinPol fm 0#w = 0#w ∧ cosPol fm 0#w = oneBits w ∧ (0#w &&& 2#w) <<< (w - 2) = 0#w ∧ (0#w &&& 4#w) <<< (w - 3) = 0#w := by
  rcases h with h | h <;> subst h <;> cases fm <;> decide +kernel
section
variable {w : Nat} (h : W w) (f ct cv : BitVec w → BitVec w) (hct : ct 0#w = 0#w) (hcv : cv 0#w = 0#w) (o : MathOpt) (fm : Bool)
include h
theorem finLane_zero : finLane o 0#w = 0#w := by
  unfold finLane; rw [(zero_lt h).2.2.2.1]; simp
theorem unitLane_zero : unitLane o 0#w = 0#w := by
  unfold unitLane; rw [(zero_lt h).2.2.2.2]; simp
include hct hcv
theorem octant_zero : octant ct 0#w = 0#w := by
  unfold octant; rw [(kernel_zero h false).1, hct, (kernel_zero h false).2.1]
theorem sinF_zero {x : BitVec w} (hx : isZero x = true) : sinF f ct cv o fm x = x := by
  obtain ⟨h1, h2⟩ := zero_sign h hx
  obtain ⟨-, -, k3, k4, k5, k6, k7⟩ := kernel_zero h fm
  unfold sinF
  dsimp only
  rw [h2, finLane_zero h, (zero_lt h).1]
  unfold sinLane
  dsimp only
  rw [octant_zero h ct cv hct hcv, hcv, k3, k4, k6, k7]
  simp only [if_true, Bool.false_eq_true, if_false]
  rw [BitVec.zero_xor, BitVec.zero_xor, ← h1]
theorem cosF_zero {x : BitVec w} (hx : isZero x = true) : cosF f ct cv o fm x = oneBits w := by
  obtain ⟨h1, h2⟩ := zero_sign h hx
  obtain ⟨-, -, k3, k4, k5, k6, k7⟩ := kernel_zero h fm
  unfold cosF
  dsimp only
  rw [h2, finLane_zero h, (zero_lt h).1]
  unfold cosLane
  dsimp only
  rw [octant_zero h ct cv hct hcv, hcv, k3, k5, k6, k7]
  simp
omit hct hcv in
theorem tanF_zero {x : BitVec w} (hx : isZero x = true) : tanF f ct cv o fm x = x := by
  obtain ⟨h1, h2⟩ := zero_sign h hx
  unfold tanF
  dsimp only
  rw [h2, finLane_zero h, (zero_lt h).1, (zero_lt h).2.1]
  simp only [if_true, Bool.false_eq_true, if_false]
  have e := sgB_eq h x
  rw [← h1] at e
  rw [e]
  cases x.msb
  · rcases h with h | h <;> subst h <;> cases fm <;> decide +kernel
  · rcases h with h | h <;> subst h <;> cases fm <;> decide +kernel
omit f ct cv hct hcv in
theorem asinF_zero {x : BitVec w} (hx : isZero x = true) : asinF o fm x = x := by
  obtain ⟨h1, h2⟩ := zero_sign h hx
  unfold asinF
  rw [h2, unitLane_zero h]
  unfold asinAbs
  rw [(zero_lt h).2.2.1, if_pos rfl, BitVec.zero_xor, ← h1]
omit f ct cv hct hcv o in
theorem atanF_zero {x : BitVec w} (hx : isZero x = true) : atanF fm x = x := by
  obtain ⟨h1, h2⟩ := zero_sign h hx
  unfold atanF
  rw [h2]
  have : atanAbs fm 0#w = 0#w := by rcases h with h | h <;> subst h <;> cases fm <;> decide +kernel
  rw [this, BitVec.zero_xor, ← h1]
end

/-! ### NaN -/
section nan
variable {w : Nat} (h : W w) (f ct cv : BitVec w → BitVec w) (o : MathOpt) (fm : Bool) {x : BitVec w} (hx : isNaN x = true)
include h
theorem fLt_nan_r {a b : BitVec w} (hb : isNaN b = true) : fLt a b = false := by rw [fLt_eq h]; unfold Fp.lt; rw [hb]; simp
theorem fLt_nan_l {a b : BitVec w} (ha : isNaN a = true) : fLt a b = false := by rw [fLt_eq h]; unfold Fp.lt; rw [ha]; simp
theorem fEq_nan_l {a b : BitVec w} (ha : isNaN a = true) : fEq a b = false := by rw [fEq_eq h]; unfold Fp.eq; rw [ha]; simp
theorem redArg_nan (y : BitVec w) {ab : BitVec w} (ha : isNaN ab = true) : isNaN (redArg fm y ab) = true :=
  nan_fmaL_z h _ (nan_fmaL_z h _ (nan_fmaL_z h _ ha))
theorem sinPol_nan {z : BitVec w} (hz : isNaN z = true) : isNaN (sinPol fm z) = true := nan_fmaL_z h _ hz
theorem fmaL_nan_y {a b c : BitVec w} (hb : isNaN b = true) : isNaN (fmaL fm a b c) = true := by
  unfold fmaL; cases fm
  · exact nan_fadd_l h (nan_fmul_r h hb)
  · exact nan_ffma_y h _ _ hb
theorem cosPol_nan {z : BitVec w} (hz : isNaN z = true) : isNaN (cosPol fm z) = true :=
  nan_fadd_l h (fmaL_nan_y h _ (nan_fmul_l h hz))
theorem sinLane_nan {sg ab : BitVec w} (hs : IsSign sg) (ha : isNaN ab = true) : isNaN (sinLane ct cv fm sg ab) = true := by
  unfold sinLane
  dsimp only
  rw [nan_xor_sign h (isSign_xor (isSign_shl h 3 _ (Or.inr rfl)) hs)]
  split
  · exact sinPol_nan h _ (redArg_nan h _ _ ha)
  · exact cosPol_nan h _ (redArg_nan h _ _ ha)
theorem cosLane_nan {ab : BitVec w} (ha : isNaN ab = true) : isNaN (cosLane ct cv fm ab) = true := by
  unfold cosLane
  dsimp only
  rw [nan_xor_sign h (isSign_xor (isSign_shl h 3 _ (Or.inr rfl)) (isSign_shl h 2 _ (Or.inl rfl)))]
  split
  · exact cosPol_nan h _ (redArg_nan h _ _ ha)
  · exact sinPol_nan h _ (redArg_nan h _ _ ha)
theorem asinSmall_nan {a : BitVec w} (ha : isNaN a = true) : isNaN (asinSmall fm a) = true := nan_fmaL_z h _ ha
theorem asinAbs_nan {a : BitVec w} (ha : isNaN a = true) : isNaN (asinAbs fm a) = true := by
  unfold asinAbs
  rw [fLt_nan_l h ha, fLt_nan_r h ha]
  exact asinSmall_nan h _ ha
theorem atanAbs_nan {a : BitVec w} (ha : isNaN a = true) : isNaN (atanAbs fm a) = true := by
  have hr : atanRed a = a := by unfold atanRed; rw [fLt_nan_r h ha, fLt_nan_r h ha]; rfl
  unfold atanAbs
  dsimp only
  rw [hr, fEq_nan_l h ha]
  exact nan_fadd_r h (nan_fadd_l h (nan_fadd_l h (nan_fmaL_z h _ ha)))
/-- the argument after the domain check is a NaN: so are all results -/
theorem sinF_nan_of (ha : isNaN (finLane o (abB x)) = true) : isNaN (sinF f ct cv o fm x) = true := by
  unfold sinF
  dsimp only
  rw [fLt_nan_r h ha]
  exact sinLane_nan h _ _ _ (isSign_sgB h x) ha
theorem cosF_nan_of (ha : isNaN (finLane o (abB x)) = true) : isNaN (cosF f ct cv o fm x) = true := by
  unfold cosF
  dsimp only
  rw [fLt_nan_r h ha]
  exact cosLane_nan h _ _ _ ha
theorem tanF_nan_of (ha : isNaN (finLane o (abB x)) = true) : isNaN (tanF f ct cv o fm x) = true := by
  unfold tanF
  dsimp only
  rw [fLt_nan_r h ha, fLt_nan_l h ha]
  exact nan_fdiv_l h (sinLane_nan h _ _ _ (isSign_sgB h x) ha)
theorem asinF_nan_of (ha : isNaN (unitLane o (abB x)) = true) : isNaN (asinF o fm x) = true := by
  unfold asinF
  rw [nan_xor_sign h (isSign_sgB h x)]; exact asinAbs_nan h _ ha
theorem acosF_nan_of (ha : isNaN (unitLane o (abB x)) = true) : isNaN (acosF o fm x) = true := by
  unfold acosF
  dsimp only
  split
  · exact nan_fmul_r h (asinAbs_nan h _ (nan_fsqrt h (nan_fmaL_x h _ ha)))
  · refine nan_fadd_l h (nan_fadd_l h (nan_fsub_r h ?_))
    rw [nan_xor_sign h (isSign_sgB h x)]; exact asinAbs_nan h _ ha
include hx
theorem finLane_nan : isNaN (finLane o (abB x)) = true := by
  unfold finLane
  split
  · exact nan_fdiv_l h (nan_fsub_l h (by rw [abB_nan h, hx]))
  · rw [abB_nan h, hx]
theorem unitLane_nan : isNaN (unitLane o (abB x)) = true := by
  unfold unitLane
  split
  · exact nan_fdiv_l h (nan_fsub_l h (by rw [abB_nan h, hx]))
  · rw [abB_nan h, hx]
theorem atanF_nan : isNaN (atanF fm x) = true := by
  unfold atanF
  rw [nan_xor_sign h (isSign_sgB h x)]; exact atanAbs_nan h _ (by rw [abB_nan h, hx])
end nan

/-! ### infinite arguments -/
theorem finLane_inf {w : Nat} (h : W w) {o : MathOpt} (ho : o.handleErr = true) {x : BitVec w} (hx : isInf x = true) :
    isNaN (finLane o (abB x)) = true := by
  have hi : isInf (abB x) = true := by rw [inf_of_mag' (abB_sm h x).2, hx]
  have hn := inf_not_nan' h hi
  have he : fEq (abB x) (infBits w) = true := by
    have := isinf_lane h x
    rw [← abB_eq] at this; rw [this, hx]
  unfold finLane
  rw [ho, he]
  apply nan_fdiv_l h
  unfold fsub fadd
  rw [hn, nan_flip h, hn, hi, inf_flip h, hi, neg_flip h]
  simp
  exact nan_default h
theorem finLane_noerr {o : MathOpt} (ho : o.handleErr = false) {w : Nat} (x : BitVec w) : finLane o x = x := by
  unfold finLane; rw [ho]; rfl
theorem inf_eq {w : Nat} (h : W w) {x : BitVec w} (hx : isInf x = true) : abB x = infBits w := by
  have a := abB_sm h x
  have b := infBits_sm h
  refine ext_mag h.pos (by rw [a.1, b.1]) ?_
  rw [a.2, (inf_iff h x).1 hx, b.2]; rfl
theorem inf_large {w : Nat} (h : W w) {o : MathOpt} (ho : o.handleErr = false) {x : BitVec w} (hx : isInf x = true) :
    fLt (cvtMax w) (finLane o (abB x)) = true := by
  rw [finLane_noerr ho, inf_eq h hx]
  rcases h with h | h <;> subst h <;> decide
theorem atanF_inf {w : Nat} (h : W w) (fm : Bool) {x : BitVec w} (hx : isInf x = true) : atanF fm x = halfPiPat w ^^^ sgB x := by
  unfold atanF
  rw [inf_eq h hx]
  refine congrArg (· ^^^ _) ?_
  rcases h with h | h <;> subst h <;> cases fm <;> decide +kernel

/-! ### outside [-1, 1] -/
theorem fsqrt_neg {w : Nat} (h : W w) {a : BitVec w} (hn : neg a = true) (hz : isZero a = false) : isNaN (fsqrt a) = true := by
  unfold fsqrt
  split
  · rename_i hx; exact quiet_nan h hx
  · rw [if_neg (by rw [hz]; simp)]
    exact nan_default h
/-- negative, not zero, not NaN -/
def Neg {w : Nat} (a : BitVec w) : Prop := neg a = true ∧ isZero a = false ∧ isNaN a = false
theorem round_neg {w : Nat} (h : W w) {n d : Nat} (hd : 0 < d) (hn : d ≤ n) : Neg (round w true n d) := by
  have hi := infMag_lt h
  have h1 : 1 ≤ rne (mb w) n d := by
    have := rne_mono (b := mb w) (Fp.mb_pos w) hd hn
    have e := rne_exact (b := mb w) (m := 1) (Fp.mb_pos w) hd
    have e1 : magVal (mb w) 1 = 1 := by rcases h with h | h <;> subst h <;> decide
    rw [e1, Nat.one_mul] at e
    omega
  have hp : 1 ≤ infMag w := by rcases h with h | h <;> subst h <;> decide
  have hm : mag (round w true n d) = min (rne (mb w) n d) (infMag w) := mag_pack h (by omega)
  refine ⟨msb_pack h (by omega), ?_, ?_⟩
  · cases hz : isZero (round w true n d)
    · rfl
    · rw [zero_iff, hm] at hz; omega
  · cases hz : isNaN (round w true n d)
    · rfl
    · rw [nan_iff h, hm] at hz; omega
theorem val_of_Neg {w : Nat} {a : BitVec w} (ha : Neg a) : val a < 0 := by
  have h1 := ha.1
  have h2 : mag a ≠ 0 := fun h0 => by have h3 := ha.2.1; rw [(zero_iff a).2 h0] at h3; cases h3
  have := magVal_pos (b := mb w) (m := mag a)
  unfold val; rw [if_pos h1]; omega
theorem fin_or_inf {w : Nat} {a : BitVec w} (hn : isNaN a = false) : isFinite a = true ∨ isInf a = true := by
  rw [X86.finite_eq]; cases hi : isInf a <;> simp [hn]
theorem fadd_Neg {w : Nat} (h : W w) {a b : BitVec w} (ha : isFinite a = true) (hb : isFinite b = true) (hs : val a + val b < 0) : Neg (fadd a b) := by
  rw [fadd_fin ha hb, if_neg (by omega), decide_eq_true hs]
  exact round_neg h (by decide) (by omega)
theorem fadd_self_Neg {w : Nat} (h : W w) {a : BitVec w} (ha : Neg a) : Neg (fadd a a) := by
  rcases fin_or_inf ha.2.2 with hf | hi
  · have := val_of_Neg ha
    exact fadd_Neg h hf hf (by omega)
  · have : fadd a a = a := by
      unfold fadd; rw [ha.2.2, hi]; simp
    rw [this]; exact ha
theorem inf_Neg {w : Nat} (h : W w) {a : BitVec w} (hi : isInf a = true) (hn : neg a = true) : Neg a := by
  have hp : 1 ≤ infMag w := by rcases h with h | h <;> subst h <;> decide
  refine ⟨hn, ?_, inf_not_nan' h hi⟩
  cases hz : isZero a
  · rfl
  · rw [zero_iff, (inf_iff h a).1 hi] at hz; omega
theorem consts {w : Nat} (h : W w) : isFinite (oneBits w) = true ∧ val (oneBits w) = ((2 ^ unitExp w : Nat) : Int) ∧ (oneBits w).msb = false ∧
    mag (oneBits w) = bias w * 2 ^ mb w ∧ isFinite (halfBits w) = true ∧ isFinite (mhalfBits w) = true ∧ 2 * val (halfBits w) = ((2 ^ unitExp w : Nat) : Int) ∧
    2 * val (mhalfBits w) = - ((2 ^ unitExp w : Nat) : Int) ∧
    magVal (mb w) (bias w * 2 ^ mb w) = 2 ^ unitExp w ∧ magVal (mb w) (bias w * 2 ^ mb w + 1) = 2 ^ unitExp w + 2 ^ (unitExp w - mb w) ∧
    2 * magVal (mb w) (bias w * 2 ^ mb w - 2 ^ mb w + 1) = 2 ^ unitExp w + 2 ^ (unitExp w - mb w) ∧ neg (mhalfBits w) = true ∧ 4 ≤ 2 ^ (unitExp w - mb w) := by
  rcases h with h | h <;> subst h <;> decide +kernel
theorem lt_consts {w : Nat} (h : W w) : (fiveEights w).msb = false ∧ mag (fiveEights w) < bias w * 2 ^ mb w ∧ (asinPmin w).msb = false ∧ mag (asinPmin w) < bias w * 2 ^ mb w ∧
   isNaN (fiveEights w) = false ∧ isNaN (asinPmin w) = false ∧ isNaN (oneBits w) = false ∧ (halfBits w).msb = false ∧ mag (halfBits w) < bias w * 2 ^ mb w ∧ isNaN (halfBits w) = false := by
  rcases h with h | h <;> subst h <;> decide +kernel
theorem lt_of_mag {w : Nat} (h : W w) {a b : BitVec w} (ha : a.msb = false) (hb : b.msb = false) (na : isNaN a = false) (nb : isNaN b = false) :
    fLt a b = decide (mag a < mag b) := by
  rw [fLt_eq h]
  unfold Fp.lt val neg
  rw [na, nb, ha, hb]
  have := magVal_lt (b := mb w) (m := mag a) (n := mag b)
  simp only [Bool.not_false, Bool.and_self, Bool.true_and, Bool.false_eq_true, if_false, Int.ofNat_lt, this]
/-- `x - x` divided by zero is NaN -/
theorem invalid_nan {w : Nat} (h : W w) (a : BitVec w) : isNaN (fdiv (fsub a a) 0#w) = true := by
  cases hn : isNaN a
  · rcases fin_or_inf hn with hf | hi
    · have e : fsub a a = pack w (neg a && !neg a) 0 := by rw [fsub_fin h hf hf, if_pos (by omega)]
      have e2 : (neg a && !neg a) = false := by cases neg a <;> rfl
      rw [e, e2]
      rcases h with h | h <;> subst h <;> decide +kernel
    · apply nan_fdiv_l h
      unfold fsub fadd
      rw [hn, nan_flip h, hn, hi, inf_flip h, hi, neg_flip h]
      simp
      exact nan_default h
  · exact nan_fdiv_l h (nan_fsub_l h hn)
section above
variable {w : Nat} (h : W w) {x : BitVec w} (hn : isNaN x = false) (hx : 2 ^ unitExp w < (val x).natAbs)
include h hn hx
theorem above_mag : bias w * 2 ^ mb w < mag x := by
  rw [natAbs_val, ← (consts h).2.2.2.2.2.2.2.2.1] at hx
  exact magVal_lt.1 hx
/-- `1 - |x|` is negative -/
theorem one_sub_Neg {ab : BitVec w} (ha : ab.msb = false) (hm : mag ab = mag x) : Neg (fsub (oneBits w) ab) := by
  have hna : isNaN ab = false := by rw [nan_of_mag' hm, hn]
  have hc := consts h
  have hv : (2 ^ unitExp w : Nat) < (val ab).natAbs := by rw [natAbs_val, hm, ← natAbs_val]; exact hx
  rcases fin_or_inf hna with hf | hi
  · have hlt : val (oneBits w) - val ab < 0 := by rw [hc.2.1, val_abs' h ha]; omega
    rw [fsub_fin h hc.1 hf, if_neg (by omega), decide_eq_true hlt]
    exact round_neg h (by decide) (by omega)
  · have h1 := finite_cls hc.1
    have e : fsub (oneBits w) ab = ab ^^^ BitVec.intMin w := by
      unfold fsub fadd; rw [h1.1, h1.2, hna, nan_flip h, hna, inf_flip h, hi]; simp
    rw [e]
    refine inf_Neg h ?_ ?_
    · rw [inf_flip h, hi]
    · rw [neg_flip h]; unfold neg; rw [ha]; rfl
theorem asinAbs_above (fm : Bool) : isNaN (asinAbs fm (abB x)) = true := by
  have ha := abB_sm h x
  have hna : isNaN (abB x) = false := by rw [abB_nan h, hn]
  have hm := above_mag h hn hx
  have hc := lt_consts h
  unfold asinAbs
  rw [lt_of_mag h ha.1 hc.2.2.1 hna hc.2.2.2.2.2.1, lt_of_mag h hc.1 ha.1 hc.2.2.2.2.1 hna, ha.2, decide_eq_false (by omega), decide_eq_true (by omega)]
  simp only [Bool.false_eq_true, if_false, if_true]
  have hN := fadd_self_Neg h (one_sub_Neg h hn hx ha.1 ha.2)
  have hq := fsqrt_neg h hN.1 hN.2.1
  unfold asinBig
  exact nan_fsub_l h (nan_fadd_l h (nan_fsub_r h hq))
/-- `0.5 - 0.5 |x|` is negative -/
theorem half_sub_Neg (fm : Bool) {ab : BitVec w} (ha : ab.msb = false) (hm : mag ab = mag x) : Neg (fmaL fm ab (mhalfBits w) (halfBits w)) := by
  obtain ⟨c1, c2, c3, c4, c5, c6, c7, c8, c9, c10, c11, c12, c13⟩ := consts h
  have hna : isNaN ab = false := by rw [nan_of_mag' hm, hn]
  have hmx := above_mag h hn hx
  have hge : 2 ^ unitExp w + 2 ^ (unitExp w - mb w) ≤ (val ab).natAbs := by
    rw [natAbs_val, hm, ← c10]
    exact magVal_le.2 hmx
  have hva : val ab = ((val ab).natAbs : Int) := val_abs' h ha
  have hnh := finite_cls c6
  have hh := finite_cls c5
  rcases fin_or_inf hna with hf | hi
  · have hfa := finite_cls hf
    cases fm
    · show Neg (fadd (fmul ab (mhalfBits w)) (halfBits w))
      have hz0 : neg ab = false := ha
      have hp : fmul ab (mhalfBits w) = round w true ((val ab).natAbs * (val (mhalfBits w)).natAbs) (2 ^ unitExp w) := by
        rw [fmul_fin hf c6, hz0, c12]; rfl
      have hD : 0 < 2 ^ unitExp w := Nat.two_pow_pos _
      have hi := infMag_lt h
      -- the product is at most -(0.5 + ulp)
      have hr : bias w * 2 ^ mb w - 2 ^ mb w + 1 ≤ rne (mb w) ((val ab).natAbs * (val (mhalfBits w)).natAbs) (2 ^ unitExp w) := by
        have e := rne_exact (b := mb w) (m := bias w * 2 ^ mb w - 2 ^ mb w + 1) (d := 2 ^ unitExp w) (Fp.mb_pos w) hD
        rw [← e]
        apply rne_mono (Fp.mb_pos w) hD
        have hv2 : 2 * (val (mhalfBits w)).natAbs = 2 ^ unitExp w := by omega
        have : (2 * magVal (mb w) (bias w * 2 ^ mb w - 2 ^ mb w + 1)) * 2 ^ unitExp w ≤ (val ab).natAbs * (2 * (val (mhalfBits w)).natAbs) := by
          rw [c11, hv2]; exact Nat.mul_le_mul_right _ hge
        rw [Nat.mul_assoc, Nat.mul_left_comm (val ab).natAbs] at this
        omega
      have hinf : bias w * 2 ^ mb w - 2 ^ mb w + 1 ≤ infMag w := by
        have : bias w ≤ emax w := by rcases h with h | h <;> subst h <;> decide
        have := Nat.mul_le_mul_right (2 ^ mb w) this
        have := Nat.two_pow_pos (mb w)
        unfold infMag
        have : 2 ^ mb w ≤ bias w * 2 ^ mb w := by rcases h with h | h <;> subst h <;> decide
        omega
      have hmp : bias w * 2 ^ mb w - 2 ^ mb w + 1 ≤ mag (fmul ab (mhalfBits w)) := by
        rw [hp]; unfold round; rw [mag_pack h (by omega)]; omega
      have hsp : neg (fmul ab (mhalfBits w)) = true := by
        rw [hp]; exact msb_pack h (by omega)
      have hnp : isNaN (fmul ab (mhalfBits w)) = false := by
        cases hq : isNaN (fmul ab (mhalfBits w))
        · rfl
        · rw [nan_iff h, hp] at hq; unfold round at hq; rw [mag_pack h (by omega)] at hq; omega
      generalize fmul ab (mhalfBits w) = p at *
      rcases fin_or_inf hnp with hfp | hip
      · refine fadd_Neg h hfp c5 ?_
        have h1 : magVal (mb w) (bias w * 2 ^ mb w - 2 ^ mb w + 1) ≤ (val p).natAbs := by rw [natAbs_val]; exact magVal_le.2 hmp
        have h2 : val p ≤ 0 := by unfold val; rw [if_pos hsp]; omega
        omega
      · have e : fadd p (halfBits w) = p := by
          unfold fadd; rw [hnp, hh.1, hip, hh.2]; simp
        rw [e]; exact inf_Neg h hip hsp
    · show Neg (ffmaG false false ab (mhalfBits w) (halfBits w))
      have hs : 2 * (val ab * val (mhalfBits w) + val (halfBits w) * ((2 ^ unitExp w : Nat) : Int)) ≤ -(2 * ((2 ^ unitExp w : Nat) : Int)) := by
        have e1 : 2 * (val ab * val (mhalfBits w) + val (halfBits w) * ((2 ^ unitExp w : Nat) : Int)) =
            -((val ab - ((2 ^ unitExp w : Nat) : Int)) * ((2 ^ unitExp w : Nat) : Int)) := by
          have : 2 * (val ab * val (mhalfBits w) + val (halfBits w) * ((2 ^ unitExp w : Nat) : Int)) =
            val ab * (2 * val (mhalfBits w)) + (2 * val (halfBits w)) * ((2 ^ unitExp w : Nat) : Int) := by
              rw [Int.mul_add, Int.mul_left_comm, Int.mul_assoc]
          rw [this, c7, c8, Int.sub_mul, Int.mul_neg]; omega
        rw [e1]
        have hd : (4 : Int) ≤ val ab - ((2 ^ unitExp w : Nat) : Int) := by omega
        have hP : (0 : Int) ≤ ((2 ^ unitExp w : Nat) : Int) := Int.natCast_nonneg _
        have := Int.mul_le_mul_of_nonneg_right hd hP
        omega
      have hD : 0 < 2 ^ unitExp w := Nat.two_pow_pos _
      unfold ffmaG
      rw [hna, hnh.1, hh.1, hfa.2, hnh.2, hh.2]
      simp only [Bool.false_eq_true, if_false, Bool.or_self]
      unfold sgn
      simp only [Bool.false_eq_true, if_false]
      have hcast : ((2 : Int) ^ unitExp w) = ((2 ^ unitExp w : Nat) : Int) := by rw [Int.natCast_pow]; rfl
      rw [hcast]
      generalize val ab * val (mhalfBits w) + val (halfBits w) * ((2 ^ unitExp w : Nat) : Int) = S at *
      rw [if_neg (by omega), decide_eq_true (show S < 0 by omega)]
      exact round_neg h hD (by omega)
  · have hz : isZero ab = false := by
      cases hz : isZero ab
      · rfl
      · rw [zero_iff, hm] at hz; omega
    have hzm : isZero (mhalfBits w) = false := by rcases h with h | h <;> subst h <;> decide
    have hinf : Neg (pack w true (infMag w)) := by
      refine inf_Neg h ?_ (msb_pack h (infMag_lt h))
      rw [inf_iff h, mag_pack h (infMag_lt h)]
    have hna2 : neg ab = false := ha
    cases fm
    · show Neg (fadd (fmul ab (mhalfBits w)) (halfBits w))
      have e : fmul ab (mhalfBits w) = pack w true (infMag w) := by
        unfold fmul; rw [hna, hnh.1, hi, hz, hzm, hna2, c12]; simp
      have hip : isInf (pack w true (infMag w)) = true := by rw [inf_iff h, mag_pack h (infMag_lt h)]
      rw [e]
      have e2 : fadd (pack w true (infMag w)) (halfBits w) = pack w true (infMag w) := by
        unfold fadd; rw [hinf.2.2, hh.1, hip, hh.2]; simp
      rw [e2]; exact hinf
    · have e : fmaL true ab (mhalfBits w) (halfBits w) = pack w true (infMag w) := by
        show ffmaG false false _ _ _ = _
        unfold ffmaG; rw [hna, hnh.1, hh.1, hi, hz, hzm, hna2, c12, hh.2]; simp
      rw [e]; exact hinf
theorem unit_above {o : MathOpt} : (o.handleErr = true → isNaN (unitLane o (abB x)) = true) ∧ (o.handleErr = false → unitLane o (abB x) = abB x) := by
  have ha := abB_sm h x
  have hna : isNaN (abB x) = false := by rw [abB_nan h, hn]
  have hm := above_mag h hn hx
  have hc := consts h
  have hc2 := lt_consts h
  constructor
  · intro ho
    unfold unitLane
    rw [ho, lt_of_mag h hc.2.2.1 ha.1 hc2.2.2.2.2.2.2.1 hna, ha.2, hc.2.2.2.1, decide_eq_true (by omega)]
    exact invalid_nan h _
  · intro ho
    unfold unitLane; rw [ho]; rfl
/-- `asin(x)` is NaN for `|x| > 1` -/
theorem asinF_above (o : MathOpt) (fm : Bool) : isNaN (asinF o fm x) = true := by
  have hu := unit_above h hn hx (o := o)
  cases ho : o.handleErr
  · unfold asinF
    rw [hu.2 ho, nan_xor_sign h (isSign_sgB h x)]; exact asinAbs_above h hn hx fm
  · exact asinF_nan_of h o fm (hu.1 ho)
/-- `acos(x)` is NaN for `|x| > 1` -/
theorem acosF_above (o : MathOpt) (fm : Bool) : isNaN (acosF o fm x) = true := by
  have hu := unit_above h hn hx (o := o)
  have ha := abB_sm h x
  cases ho : o.handleErr
  · unfold acosF
    dsimp only
    rw [hu.2 ho]
    split
    · have hN := half_sub_Neg h hn hx fm ha.1 ha.2
      exact nan_fmul_r h (asinAbs_nan h _ (fsqrt_neg h hN.1 hN.2.1))
    · refine nan_fadd_l h (nan_fadd_l h (nan_fsub_r h ?_))
      rw [nan_xor_sign h (isSign_sgB h x)]; exact asinAbs_above h hn hx fm
  · exact acosF_nan_of h o fm (hu.1 ho)
end above
end Dpm.X86
