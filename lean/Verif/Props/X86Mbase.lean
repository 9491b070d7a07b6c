import Verif.Spec.Mbase
import Verif.Proofs.Horner
import Verif.Proofs.Sqrt
import Verif.Props.X86Trig
/-!
C52 (fused multiply-add), C53 (square root), C54 (linear interpolation) of the x86 backend.
-/
namespace Dpm.X86
open Dpm.Reg Dpm.Fp

/-- the call compiles and each element of its result is related by `P` to the elements of `a`, `b`, `d` at the same index -/
def EachElt3 (c : Cfg) (P : BitVec c.w → BitVec c.w → BitVec c.w → BitVec c.w → Prop) (a b d : c.Data) (out : Out c.Data) : Prop :=
  ∃ r, out = .ok r ∧ ∀ i, i < c.N → P (elt c a i) (elt c b i) (elt c d i) (elt c r i)

theorem elt_vec3 {c : Cfg} (hc : c.Ok) (k : Vec c.v → Vec c.v → Vec c.v → Vec c.v) (a b d : c.Data) {i : Nat} (hi : i < c.N) :
    elt c (vectorize3 c k a b d) i = lane c.w (k (a (i / c.e)) (b (i / c.e)) (d (i / c.e))) (i % c.e) := by
  unfold elt vectorize3
  rw [forRange_store]
  dsimp only
  rw [if_pos (idx_lt hc hi)]
theorem each3_of_lane {c : Cfg} (hc : c.Ok) (k : Vec c.v → Vec c.v → Vec c.v → Vec c.v) {P : BitVec c.w → BitVec c.w → BitVec c.w → BitVec c.w → Prop}
    (a b d : c.Data) (hk : ∀ x y z i, i < c.e → P (lane c.w x i) (lane c.w y i) (lane c.w z i) (lane c.w (k x y z) i)) :
    EachElt3 c P a b d (.ok (vectorize3 c k a b d)) :=
  ⟨_, rfl, fun i hi => by rw [elt_vec3 hc _ _ _ _ hi]; exact hk _ _ _ _ (idx_mod hc i)⟩

theorem finite_zero {w : Nat} (h : W w) : isFinite (0#w) = true := by rcases h with h | h <;> subst h <;> decide
theorem infMag_pos {w : Nat} (h : W w) : 0 < infMag w := by rcases h with h | h <;> subst h <;> decide
theorem xor_bne (a b : Bool) : (a != b) = (a ^^ b) := by cases a <;> cases b <;> rfl
theorem ffmaG_isFma {w : Nat} (h : W w) (np nz : Bool) {a b d : BitVec w} (ha : isFinite a = true) (hb : isFinite b = true) (hd : isFinite d = true) :
    IsFma np nz a b d (ffmaG np nz a b d) := by
  have e : ∀ (n : Bool) (z : Int), (if n then -1 else 1) * z = sgn n z := by intro n z; cases n <;> simp [sgn]
  unfold IsFma
  rw [ffmaG_fin np nz ha hb hd]
  simp only [e]
  constructor
  · intro hX; rw [if_neg hX]; exact round_isRounded h _ (Nat.two_pow_pos _)
  · intro hX
    rw [if_pos hX]
    refine ⟨?_, ?_⟩
    · rw [zero_iff, mag_pack h (Nat.two_pow_pos _)]
    · rw [msb_pack h (Nat.two_pow_pos _)]; unfold neg; simp only [xor_bne]
theorem fmul_isProd {w : Nat} (h : W w) {a b : BitVec w} (ha : isFinite a = true) (hb : isFinite b = true) : IsProd a b (fmul a b) := by
  unfold IsProd
  rw [fmul_fin ha hb, ← xor_bne]
  exact round_isRounded h _ (Nat.two_pow_pos _)
theorem fadd_isSum {w : Nat} (h : W w) {a b : BitVec w} (ha : isFinite a = true) (hb : isFinite b = true) : IsSum false false a b (fadd a b) := by
  unfold IsSum
  rw [fadd_fin ha hb]
  simp only [Bool.false_eq_true, if_false, one_mul, Bool.xor_false]
  constructor
  · intro hX; rw [if_neg hX]; exact round_isRounded h _ Nat.one_pos
  · intro hX
    rw [if_pos hX]
    refine ⟨?_, ?_⟩
    · rw [zero_iff, mag_pack h (Nat.two_pow_pos _)]
    · rw [msb_pack h (Nat.two_pow_pos _)]; rfl
theorem fsub_isSum {w : Nat} (h : W w) {a b : BitVec w} (ha : isFinite a = true) (hb : isFinite b = true) : IsSum false true a b (fsub a b) := by
  unfold IsSum
  rw [fsub_fin h ha hb]
  simp only [Bool.false_eq_true, if_false, if_true, one_mul, Bool.xor_false, Bool.xor_true, neg_mul, ← sub_eq_add_neg]
  constructor
  · intro hX; rw [if_neg hX]; exact round_isRounded h _ Nat.one_pos
  · intro hX
    rw [if_pos hX]
    refine ⟨?_, ?_⟩
    · rw [zero_iff, mag_pack h (Nat.two_pow_pos _)]
    · rw [msb_pack h (Nat.two_pow_pos _)]; rfl

section C52
variable {c : Cfg} (hc : c.Ok) (hf : c.T.flt = true) (a b d : c.Data)
include hc hf
/-- C52 with DPM_HAS_FMA: `fma`, `fmadd`, `fmsub`, `fnmadd`, `fnmsub` round once, for all finite operands. -/
theorem C52_fused :
    EachElt3 c (fun x y z r => isFinite x = true → isFinite y = true → isFinite z = true → IsFma false false x y z r) a b d (vFma c true a b d) ∧
    EachElt3 c (fun x y z r => isFinite x = true → isFinite y = true → isFinite z = true → IsFma false false x y z r) a b d (vFmadd c true a b d) ∧
    EachElt3 c (fun x y z r => isFinite x = true → isFinite y = true → isFinite z = true → IsFma false true x y z r) a b d (vFmsub c true a b d) ∧
    EachElt3 c (fun x y z r => isFinite x = true → isFinite y = true → isFinite z = true → IsFma true false x y z r) a b d (vFnmadd c true a b d) ∧
    EachElt3 c (fun x y z r => isFinite x = true → isFinite y = true → isFinite z = true → IsFma true true x y z r) a b d (vFnmsub c true a b d) := by
  have h := fltW hc.ety hf
  have key : ∀ np nz, EachElt3 c (fun x y z r => isFinite x = true → isFinite y = true → isFinite z = true → IsFma np nz x y z r) a b d
      (.ok (vectorize3 c (fun x y z => map3 c.w (ffmaG np nz) x y z) a b d)) := by
    intro np nz
    refine each3_of_lane hc _ a b d fun x y z i hi h1 h2 h3 => ?_
    rw [lane_map3 _ _ _ _ (lane_bound hc.ety hi)]
    exact ffmaG_isFma h np nz h1 h2 h3
  exact ⟨key false false, key false false, key false true, key true false, key true true⟩
/-- C52: a NaN operand gives NaN, with and without FMA. -/
theorem C52_nan (fm : Bool) : EachElt3 c (fun x y z r => isNaN x = true ∨ isNaN y = true ∨ isNaN z = true → isNaN r = true) a b d (vFma c fm a b d) := by
  have h := fltW hc.ety hf
  refine each3_of_lane hc _ a b d fun x y z i hi hn => ?_
  have e := fmaddV_lane hc.ety hi fm x y z
  refine (congrArg isNaN e).trans ?_
  rcases hn with hn | hn | hn
  · exact nan_fmaL_x h fm hn
  · unfold fmaL; cases fm
    · exact nan_fadd_l h (nan_fmul_r h hn)
    · exact nan_ffma_y h _ _ hn
  · exact nan_fmaL_z h fm hn
/-- C52 without DPM_HAS_FMA: product and sum are rounded separately (whenever the rounded product is finite); `fnmsub` subtracts
the rounded `a * b + c` from +0. -/
theorem C52_unfused :
    EachElt3 c (fun x y z r => isFinite x = true → isFinite y = true → isFinite z = true →
      ∃ p, IsProd x y p ∧ (isFinite p = true → IsSum false false p z r)) a b d (vFma c false a b d) ∧
    EachElt3 c (fun x y z r => isFinite x = true → isFinite y = true → isFinite z = true →
      ∃ p, IsProd x y p ∧ (isFinite p = true → IsSum false true p z r)) a b d (vFmsub c false a b d) ∧
    EachElt3 c (fun x y z r => isFinite x = true → isFinite y = true → isFinite z = true →
      ∃ p, IsProd x y p ∧ (isFinite p = true → IsSum false true z p r)) a b d (vFnmadd c false a b d) ∧
    EachElt3 c (fun x y z r => isFinite x = true → isFinite y = true → isFinite z = true →
      ∃ p s, IsProd x y p ∧ (isFinite p = true → IsSum false false p z s ∧ (isFinite s = true → IsSum false true 0#c.w s r))) a b d (vFnmsub c false a b d) := by
  have h := fltW hc.ety hf
  have hz : isFinite (0#c.w) = true := finite_zero h
  refine ⟨?_, ?_, ?_, ?_⟩ <;> refine each3_of_lane hc _ a b d fun x y z i hi h1 h2 h3 => ?_
  · refine ⟨_, fmul_isProd h h1 h2, fun hp => ?_⟩
    have e : lane c.w (fmaddV false c.w x y z) i = _ := fmaddV_lane hc.ety hi false x y z
    rw [e]
    exact fadd_isSum h hp h3
  · refine ⟨_, fmul_isProd h h1 h2, fun hp => ?_⟩
    have e : lane c.w (fmsubV false c.w x y z) i = _ := fmsubV_lane hc.ety hi false x y z
    rw [e]
    exact fsub_isSum h hp h3
  · refine ⟨_, fmul_isProd h h1 h2, fun hp => ?_⟩
    have e : lane c.w (fnmaddV false c.w x y z) i = fsub (lane c.w z i) (fmul (lane c.w x i) (lane c.w y i)) :=
      (fsubL_lane hc.ety hi _ _).trans (congrArg (fsub _) (fmulL_lane hc.ety hi _ _))
    rw [e]
    exact fsub_isSum h h3 hp
  · refine ⟨_, fadd (fmul (lane c.w x i) (lane c.w y i)) (lane c.w z i), fmul_isProd h h1 h2, fun hp => ⟨fadd_isSum h hp h3, fun hs => ?_⟩⟩
    have e : lane c.w (fnmsubV false c.w x y z) i = fsub 0#c.w (fadd (fmul (lane c.w x i) (lane c.w y i)) (lane c.w z i)) := by
      refine (fsubL_lane hc.ety hi _ _).trans ?_
      have e1 : lane c.T.w (0#c.v.bits) i = 0#c.w := lane_zero _ _ _
      have e2 : lane c.T.w (faddL c.T.w (fmulL c.T.w x y) z) i = fadd (fmul (lane c.w x i) (lane c.w y i)) (lane c.w z i) :=
        (faddL_lane hc.ety hi _ _).trans (congrArg (fadd · _) (fmulL_lane hc.ety hi _ _))
      exact (congrArg (fsub · _) e1).trans (congrArg (fsub _) e2)
    rw [e]
    exact fsub_isSum h hz hs
end C52
/-- `1 + 2^-12`, `1 + 2^-27`: its square does not fit in a significand -/
def oneUp (w : Nat) : BitVec w := if w = 32 then BitVec.ofNat w 0x3f800800 else BitVec.ofNat w 0x3ff0000002000000
/-- `-(1 + 2^-11)`, `-(1 + 2^-26)`: minus the square, rounded -/
def mSq (w : Nat) : BitVec w := if w = 32 then BitVec.ofNat w 0xbf801000 else BitVec.ofNat w 0xbff0000004000000
theorem fma_cex {w : Nat} (h : W w) : fadd (fmul (oneUp w) (oneUp w)) (mSq w) = 0#w ∧
    val (oneUp w) * val (oneUp w) + val (mSq w) * 2 ^ unitExp w ≠ 0 ∧ (isFinite (oneUp w) && isFinite (mSq w)) = true ∧
    mag (ffmaG false false (oneUp w) (oneUp w) (mSq w)) ≠ 0 := by
  rcases h with h | h <;> subst h <;> decide +kernel
/-- C52 violated without DPM_HAS_FMA, for every vector type: the call compiles and `fma(1+e, 1+e, -(1+2e))` is 0 in every element
instead of `e^2`, which is a (normal) floating-point number. -/
theorem C52_violated {c : Cfg} (hc : c.Ok) (hf : c.T.flt = true) :
    ∃ r, vFma c false (vbroadcast c (oneUp c.w) (zeroData c)) (vbroadcast c (oneUp c.w) (zeroData c)) (vbroadcast c (mSq c.w) (zeroData c)) = .ok r ∧
      ∀ i, i < c.N → isZero (elt c r i) = true ∧ ¬ IsFma false false (oneUp c.w) (oneUp c.w) (mSq c.w) (elt c r i) := by
  have h := fltW hc.ety hf
  obtain ⟨h1, h2, h3, h4⟩ := fma_cex h
  simp only [Bool.and_eq_true] at h3
  refine ⟨_, rfl, fun i hi => ?_⟩
  have e : elt c (vectorize3 c (fun x y z => fmaddV false c.w x y z) (vbroadcast c (oneUp c.w) (zeroData c)) (vbroadcast c (oneUp c.w) (zeroData c))
      (vbroadcast c (mSq c.w) (zeroData c))) i = 0#c.w := by
    rw [elt_vec3 hc _ _ _ _ hi]
    refine (fmaddV_lane hc.ety (idx_mod hc i) false _ _ _).trans ?_
    have e1 := elt_vbroadcast hc (oneUp c.w) (zeroData c) hi
    have e2 := elt_vbroadcast hc (mSq c.w) (zeroData c) hi
    unfold elt at e1 e2
    refine Eq.trans ?_ h1
    exact (congrArg (fun q => fadd (fmul q q) _) e1).trans (congrArg (fadd _) e2)
  rw [e]
  refine ⟨by rw [zero_iff]; unfold mag; simp, fun hfm => ?_⟩
  have hr := ffmaG_isFma h false false h3.1 h3.1 h3.2
  unfold IsFma at hfm hr
  simp only [Bool.false_eq_true, if_false, one_mul] at hfm hr
  have a1 := isRounded_unique h (Nat.two_pow_pos _) (hfm.1 h2)
  have a2 := isRounded_unique h (Nat.two_pow_pos _) (hr.1 h2)
  rw [← a1] at a2
  rw [a2] at h4
  exact h4 (by unfold mag; simp)

/-! ### Square root -/
/-- C53: `sqrt` of a positive finite number is the floating-point number nearest to the real square root, zeros are returned
unchanged, `sqrt(+inf) = +inf`, and negative numbers and NaN give NaN. -/
theorem C53_sqrt {c : Cfg} (hc : c.Ok) (hf : c.T.flt = true) (x : c.Data) :
    EachElt c (fun a r => (isFinite a = true → 0 < val a → IsNearestReal (Real.sqrt (rv a)) r ∧ r.msb = false) ∧
      (isZero a = true → r = a) ∧ (isInf a = true → a.msb = false → r = a) ∧
      (isNaN a = true ∨ (a.msb = true ∧ isZero a = false) → isNaN r = true)) x (vSqrt c x) := by
  have h := fltW hc.ety hf
  refine each_of_lane hc _ x fun y i hi => ?_
  have e : lane c.w (sqrtL c.w y) i = fsqrt (lane c.w y i) := sqrtL_lane hc.ety hi y
  rw [e]
  generalize lane c.w y i = a
  refine ⟨fun h1 h2 => fsqrt_nearest h h1 h2, fun hz => ?_, fun hi hs => ?_, fun hn => ?_⟩
  · have hn : isNaN a = false := by
      have : isFinite a = true := by rw [finite_iff h, (zero_iff a).1 hz]; exact infMag_pos h
      exact (finite_cls this).1
    unfold fsqrt
    rw [hn, hz]; rfl
  · have hn : isNaN a = false := by
      cases hn : isNaN a
      · rfl
      · rw [nan_iff h, (inf_iff h a).1 hi] at hn; omega
    have hz : isZero a = false := by
      cases hz : isZero a
      · rfl
      · rw [inf_iff h, (zero_iff a).1 hz] at hi
        have := infMag_pos h
        omega
    unfold fsqrt neg
    rw [hn, hz, hs, hi]; rfl
  · rcases hn with hn | ⟨hs, hz⟩
    · exact nan_fsqrt h hn
    · by_cases hn : isNaN a = true
      · exact nan_fsqrt h hn
      · unfold fsqrt neg
        rw [if_neg hn, hz, hs]
        exact nan_default h
/-- the hypotheses of C53 hold: 2.0 is finite and positive -/
example : isFinite 0x40000000#32 = true ∧ 0 < val 0x40000000#32 := by decide

/-! ### Linear interpolation -/
/-- C54 violated: `lerp` does not compile for any x86 vector. -/
theorem C54_lerp_violated (c : Cfg) (a b f : c.Data) (s : BitVec c.w) : vLerp c a b f = .illFormed ∧ vLerpS c a b s = .illFormed := ⟨rfl, rfl⟩
theorem lerpV_lane {c : Cfg} (hc : c.Ok) (fm : Bool) (x y z : Vec c.v) {i : Nat} (hi : i < c.e) :
    lane c.w (lerpV c fm x y z) i = fmaL fm (fsub (lane c.w y i) (lane c.w x i)) (lane c.w z i) (lane c.w x i) :=
  (fmaddV_lane hc.ety hi fm _ _ _).trans (congrArg (fmaL fm · _ _) (fsubL_lane hc.ety hi _ _))
theorem fsub_fin_back {w : Nat} (h : W w) {x y : BitVec w} (hr : isFinite (fsub x y) = true) : isFinite x = true ∧ isFinite y = true := by
  rcases Bool.eq_false_or_eq_true (isNaN x) with hx | hx
  · rw [not_fin_nan (nan_fsub_l h hx)] at hr; cases hr
  rcases Bool.eq_false_or_eq_true (isNaN y) with hy | hy
  · rw [not_fin_nan (nan_fsub_r h hy)] at hr; cases hr
  unfold fsub at hr
  rw [hx, hy] at hr
  have := fadd_back h hr
  refine ⟨this.1, ?_⟩
  have := this.2
  rw [finite_iff h, (flip_sm h y).2, ← finite_iff h] at this
  exact this
theorem fma_zero_val {w : Nat} (h : W w) (fm : Bool) {x y z : BitVec w} (hx : isFinite x = true) (hy : isFinite y = true) (hz : isFinite z = true)
    (h0 : val x = 0 ∨ val y = 0) : val (fmaL fm x y z) = val z := by
  have hmz : val x * val y = 0 := by rcases h0 with h | h <;> rw [h] <;> simp
  have h0' : (val x).natAbs * (val y).natAbs = 0 := by rcases h0 with h | h <;> rw [h] <;> simp
  have hzv : ∀ s, val (pack w s 0) = 0 := fun s => by rw [val_zero_iff, mag_pack h (Nat.two_pow_pos _)]
  have hmag : mag z ≤ infMag w := Nat.le_of_lt ((finite_iff h z).1 hz)
  unfold fmaL
  cases fm
  · simp only [Bool.false_eq_true, if_false]
    have hp : val (fmul x y) = 0 := by
      rw [fmul_fin hx hy, h0', val_zero_iff]
      unfold Fp.round
      have : rne (mb w) 0 (2 ^ unitExp w) = 0 := by
        have := rne_exact (b := mb w) (m := 0) (d := 2 ^ unitExp w) (Fp.mb_pos w) (Nat.two_pow_pos _)
        rwa [magVal_zero, Nat.zero_mul] at this
      rw [this, Nat.zero_min, mag_pack h (Nat.two_pow_pos _)]
    have hpf : isFinite (fmul x y) = true := by
      rw [finite_iff h, (val_zero_iff _).1 hp]; exact infMag_pos h
    by_cases hz0 : val z = 0
    · rw [fadd_fin hpf hz, hp, hz0, if_pos (by simp), hzv]
    · rw [fadd_exact h hpf hz hmag hz0 (by rw [hp]; simp)]
  · simp only [if_true]
    rw [ffmaG_fin false false hx hy hz]
    simp only [sgn, Bool.false_eq_true, if_false, hmz, zero_add]
    have hp : (0:Int) < 2 ^ unitExp w := by positivity
    by_cases hz0 : val z = 0
    · rw [hz0, if_pos (by simp), hzv]
    · rw [if_neg (by simp [hz0])]
      rw [round_val h hmag (Nat.two_pow_pos _)]
      · have hneg := val_neg_iff hz0
        cases hs : z.msb
        · have : ¬ val z < 0 := fun hh => by rw [hneg.1 hh] at hs; cases hs
          simp only [decide_eq_false_iff_not, not_lt]
          exact mul_nonneg (by omega) hp.le
        · simp only [decide_eq_true_eq]
          exact mul_neg_of_neg_of_pos (hneg.2 hs) hp
      · rw [Int.natAbs_mul]; congr 1
/-- C54 (the run-time expression of `lerp`, in every lane): `f = 0` and `a = b` give `a`, provided `b - a` does not overflow; in
general the result is within three roundings of `a + (b - a) f`. -/
theorem C54_kernel_partial {c : Cfg} (hc : c.Ok) (hf : c.T.flt = true) (fm : Bool) (x y z : Vec c.v) {i : Nat} (hi : i < c.e) :
    (isFinite (fsub (lane c.w y i) (lane c.w x i)) = true → isZero (lane c.w z i) = true → val (lane c.w (lerpV c fm x y z) i) = val (lane c.w x i)) ∧
    (isFinite (lane c.w x i) = true → isFinite (lane c.w z i) = true → lane c.w y i = lane c.w x i → val (lane c.w (lerpV c fm x y z) i) = val (lane c.w x i)) ∧
    (isFinite (lane c.w (lerpV c fm x y z) i) = true →
      |rv (lane c.w (lerpV c fm x y z) i) - (rv (lane c.w x i) + (rv (lane c.w y i) - rv (lane c.w x i)) * rv (lane c.w z i))| ≤
        ((1 + ulpHalf c.w) ^ 3 - 1) * |(rv (lane c.w y i) - rv (lane c.w x i)) * rv (lane c.w z i)| + ulpHalf c.w * |rv (lane c.w x i)| +
          (1 + ulpHalf c.w) * tiny c.w) := by
  have h := fltW hc.ety hf
  rw [lerpV_lane hc fm x y z hi]
  generalize lane c.w x i = a
  generalize lane c.w y i = b
  generalize lane c.w z i = f
  refine ⟨fun hs hz => ?_, fun ha hff hab => ?_, fun hr => ?_⟩
  · have hb := fsub_fin_back h hs
    have hff : isFinite f = true := by rw [finite_iff h, (zero_iff f).1 hz]; exact infMag_pos h
    exact fma_zero_val h fm hs hff hb.2 (Or.inr (by rw [val_zero_iff, ← zero_iff]; exact hz))
  · subst hab
    have e : fsub b b = pack c.w (neg b && !neg b) 0 := by rw [fsub_fin h ha ha, if_pos (by omega)]
    have hv : val (fsub b b) = 0 := by rw [e, val_zero_iff, mag_pack h (Nat.two_pow_pos _)]
    have hs : isFinite (fsub b b) = true := by rw [finite_iff h, (val_zero_iff _).1 hv]; exact infMag_pos h
    exact fma_zero_val h fm hs hff ha (Or.inl hv)
  · obtain ⟨hs, hff, ha, α, β, γ, hα, hβ, hγ, he⟩ := fmaL_rv h fm hr
    have hb := fsub_fin_back h hs
    have hu := ulp_pos c.w
    obtain ⟨d, hd, hse⟩ := err_split0 hu.le (fsub_rv h hb.1 hb.2 hs)
    rw [he, hse]
    generalize rv a = A at *
    generalize rv b = B at *
    generalize rv f = F at *
    have e : (B - A) * (1 + d) * F * α + A * β + γ - (A + (B - A) * F) = (B - A) * F * ((1 + d) * α - 1) + A * (β - 1) + γ := by ring
    rw [e]
    have t1 := abs_add_le ((B - A) * F * ((1 + d) * α - 1) + A * (β - 1)) γ
    have t2 := abs_add_le ((B - A) * F * ((1 + d) * α - 1)) (A * (β - 1))
    rw [abs_mul, abs_mul A] at t2
    have t3 : |(1 + d) * α - 1| ≤ (1 + ulpHalf c.w) ^ 3 - 1 := by
      have e3 : (1 + d) * α - 1 = (α - 1) + d * (α - 1) + d := by ring
      rw [e3]
      have s1 := abs_add_le ((α - 1) + d * (α - 1)) d
      have s2 := abs_add_le (α - 1) (d * (α - 1))
      rw [abs_mul] at s2
      have s3 : |d| * |α - 1| ≤ ulpHalf c.w * ((1 + ulpHalf c.w) ^ 2 - 1) := mul_le_mul hd hα (abs_nonneg _) hu.le
      nlinarith
    have t4 := mul_le_mul_of_nonneg_left t3 (abs_nonneg ((B - A) * F))
    have t5 := mul_le_mul_of_nonneg_left hβ (abs_nonneg A)
    linarith
/-- `2^30`, `2^60` -/
def bigP (w : Nat) : BitVec w := if w = 32 then BitVec.ofNat w 0x4e800000 else BitVec.ofNat w 0x43b0000000000000
/-- the largest finite number -/
def maxFin (w : Nat) : BitVec w := if w = 32 then BitVec.ofNat w 0x7f7fffff else BitVec.ofNat w 0x7fefffffffffffff
/-- C54 violated by the run-time expression as well: `lerp(2^30, 1, 1)` is 0, and `lerp(-max, max, 0)` is NaN. -/
theorem C54_kernel_violated {w : Nat} (h : W w) (fm : Bool) :
    isZero (fmaL fm (fsub (oneBits w) (bigP w)) (oneBits w) (bigP w)) = true ∧
    isNaN (fmaL fm (fsub (maxFin w) (maxFin w ^^^ BitVec.intMin w)) 0#w (maxFin w ^^^ BitVec.intMin w)) = true := by
  rcases h with h | h <;> subst h <;> cases fm <;> decide +kernel
end Dpm.X86
