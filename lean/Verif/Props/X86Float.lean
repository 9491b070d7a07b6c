import Verif.Proofs.Nextafter
import Verif.Props.X86Int
/-
Properties of x86 floating-point vectors that depend on bit patterns only: C31 (classification), C32 (comparisons),
C33 (sign manipulation), C38 (nextafter), C49 (fdim, fmax, fmin), and the masks these calls produce (C17).
The IEEE vocabulary (`Fp.isNaN`, `Fp.val`, `Fp.lt`, ...) is that of Spec/Float.lean.
-/
namespace Dpm.X86
open Dpm.Reg Dpm.Util Dpm.Generic Dpm.Spec Dpm.Fp

/-- example configurations: 6 x float on SSE2 (two native vectors, padding), 4 x double on AVX -/
def exF32 : Cfg := ⟨.sse2L, .f32, 6, .v128⟩
def exF64 : Cfg := ⟨.avxL, .f64, 4, .v256⟩
theorem exF32_ok : exF32.Ok := ⟨by decide, by decide, by decide, by decide, by decide⟩
theorem exF64_ok : exF64.Ok := ⟨by decide, by decide, by decide, by decide, by decide⟩

/-! ### C31: classification -/
section C31
variable {c : Cfg} (hc : c.Ok) (hf : c.T.flt = true) (a : c.Data)
include hc hf

/-- C31 (`isnan`, `isinf`, `isfinite`): the IEEE classes of every bit pattern, on every ISA level, as canonical masks. -/
theorem C31_nan_inf_finite :
    YieldsMask c (vIsnan c a) (fun i => isNaN (elt c a i)) ∧
    YieldsMask c (vIsinf c a) (fun i => isInf (elt c a i)) ∧
    YieldsMask c (vIsfinite c a) (fun i => isFinite (elt c a i)) := by
  have hw := fltW hc.ety hf
  refine ⟨mask_vec1 hc _ (fun x => isNaN x) a (fun x i hi => ?_), mask_vec1 hc _ (fun x => isInf x) a (fun x i hi => ?_),
    mask_vec1 hc _ (fun x => isFinite x) a (fun x i hi => ?_)⟩
  · rw [show lane c.w _ i = _ from isunordV_lane hc.ety hi x x, Bool.or_self, fNaN_eq hw]
  · rw [show lane c.w _ i = _ from isinfAbs_lane hc.ety hi _, fabsV_lane hc.ety hi, isinf_lane hw]
  · rw [show lane c.w _ i = _ from isfiniteAbs_lane hc.ety hi c.s _, fabsV_lane hc.ety hi, isfinite_lane hw]
/-- what `isnormal` computes: normal or NaN -/
theorem C31_isnormal_exact : YieldsMask c (vIsnormal c a) (fun i => isNormal (elt c a i) || isNaN (elt c a i)) := by
  have hw := fltW hc.ety hf
  refine mask_vec1 hc _ (fun x => isNormal x || isNaN x) a (fun x i hi => ?_)
  rw [show lane c.w _ i = _ from isnormalAbs_lane hc.ety hi _, fabsV_lane hc.ety hi, isnormal_lane hw]
/-- C31 (`isnormal`), proved for elements that are not NaN. -/
theorem C31_isnormal_partial : ∃ r, vIsnormal c a = .ok r ∧ ∀ i, i < c.N → isNaN (elt c a i) = false → mget c r i = isNormal (elt c a i) := by
  obtain ⟨r, hr, h⟩ := C31_isnormal_exact hc hf a
  exact ⟨r, hr, fun i hi hn => by rw [(h i hi).1]; dsimp only; rw [hn, Bool.or_false]⟩
/-- C31 violated: `isnormal(NaN)` is true, for every NaN in every lane. -/
theorem C31_isnormal_violated : ∃ r, vIsnormal c a = .ok r ∧ ∀ i, i < c.N → isNaN (elt c a i) = true → mget c r i = true ∧ isNormal (elt c a i) = false := by
  obtain ⟨r, hr, h⟩ := C31_isnormal_exact hc hf a
  refine ⟨r, hr, fun i hi hn => ⟨by rw [(h i hi).1]; dsimp only; rw [hn, Bool.or_true], ?_⟩⟩
  unfold isNaN at hn; unfold isNormal
  simp only [Bool.and_eq_true, decide_eq_true_eq] at hn
  simp [hn.1]
/-- what `signbit` stores in lane `i` -/
theorem signbit_elt : ∃ r, vSignbit c a = .ok r ∧ ∀ i, i < c.N → elt c r i = if neg (elt c a i) then BitVec.intMin c.w else 0#c.w := by
  have hw := fltW hc.ety hf
  refine ok_vec1 hc _ (fun x => if neg x then BitVec.intMin c.w else 0#c.w) a (fun x i hi => ?_)
  rw [show lane c.w _ i = _ from masksign_lane hc.ety hi _]; exact and_intMin hw.pos _
/-- C31 (`signbit`): element access gives the sign bit (also of NaN and zero); the stored lanes are not canonical, see
`C17_signbit_violated`. -/
theorem C31_signbit_partial : ∃ r, vSignbit c a = .ok r ∧ ∀ i, i < c.N → mget c r i = neg (elt c a i) := by
  have hw := fltW hc.ety hf
  obtain ⟨r, hr, h⟩ := signbit_elt hc hf a
  refine ⟨r, hr, fun i hi => ?_⟩
  unfold mget; rw [h i hi]
  have : BitVec.intMin c.w ≠ 0#c.w := fun e => by
    have := congrArg BitVec.msb e; rw [(intMin_sm (w := c.w) hw.pos).1] at this; simp at this
  cases neg (elt c a i)
  · simp
  · simp [this]
/-- C17 (hence C31) violated: the mask returned by `signbit` is not canonical.  For every negative element `m[i]` is true,
and `(!m)[i]` is true as well; lane `i` is neither all zeros nor all ones. -/
theorem C17_signbit_violated : ∃ r, vSignbit c a = .ok r ∧ ∀ i, i < c.N → neg (elt c a i) = true →
    mget c r i = true ∧ mget c (Mask.not c r) i = true ∧ elt c r i ≠ 0 ∧ elt c r i ≠ BitVec.allOnes _ := by
  have hw := fltW hc.ety hf
  obtain ⟨r, hr, h⟩ := signbit_elt hc hf a
  have hz : BitVec.intMin c.w ≠ 0#c.w := fun e => by
    have := congrArg BitVec.msb e; rw [(intMin_sm (w := c.w) hw.pos).1] at this; simp at this
  have h1 : BitVec.intMin c.w ≠ BitVec.allOnes c.w := by
    show BitVec.intMin c.T.w ≠ BitVec.allOnes c.T.w
    rcases hw with hw | hw <;> rw [hw] <;> decide
  refine ⟨r, hr, fun i hi hn => ?_⟩
  have he : elt c r i = BitVec.intMin c.w := by rw [h i hi, hn]; rfl
  refine ⟨?_, ?_, ?_, ?_⟩
  · unfold mget; rw [he]; simp [hz]
  · unfold mget Mask.not; rw [elt_compl hc r hi, he]
    simp only [decide_eq_true_eq]
    intro e
    apply h1
    have := congrArg (fun x => ~~~ x) e
    simpa using this
  · rw [he]; exact hz
  · rw [he]; exact h1
end C31
/-- a signalling NaN, an infinity, a subnormal and `-0.0` -/
example : ∃ r, vIsnan exF32 (vbroadcast exF32 0x7f800001 (zeroData exF32)) = .ok r ∧ mget exF32 r 5 = true := by
  obtain ⟨r, hr, h⟩ := (C31_nan_inf_finite exF32_ok rfl (vbroadcast exF32 0x7f800001 (zeroData exF32))).1
  refine ⟨r, hr, ?_⟩
  rw [(h 5 (by decide)).1]; dsimp only; rw [elt_vbroadcast exF32_ok _ _ (by decide)]; decide
example : ∃ r, vIsinf exF64 (vbroadcast exF64 0xfff0000000000000 (zeroData exF64)) = .ok r ∧ mget exF64 r 3 = true := by
  obtain ⟨r, hr, h⟩ := (C31_nan_inf_finite exF64_ok rfl (vbroadcast exF64 0xfff0000000000000 (zeroData exF64))).2.1
  refine ⟨r, hr, ?_⟩
  rw [(h 3 (by decide)).1]; dsimp only; rw [elt_vbroadcast exF64_ok _ _ (by decide)]; decide
example : ∃ r, vIsnormal exF32 (vbroadcast exF32 0x007fffff (zeroData exF32)) = .ok r ∧ mget exF32 r 0 = false := by
  obtain ⟨r, hr, h⟩ := C31_isnormal_partial exF32_ok rfl (vbroadcast exF32 0x007fffff (zeroData exF32))
  refine ⟨r, hr, ?_⟩
  rw [h 0 (by decide) (by rw [elt_vbroadcast exF32_ok _ _ (by decide)]; decide), elt_vbroadcast exF32_ok _ _ (by decide)]; decide
theorem C31_counterexample : ∃ r, vIsnormal exF32 (vbroadcast exF32 0x7fc00000 (zeroData exF32)) = .ok r ∧ mget exF32 r 0 = true := by
  obtain ⟨r, hr, h⟩ := C31_isnormal_violated exF32_ok rfl (vbroadcast exF32 0x7fc00000 (zeroData exF32))
  exact ⟨r, hr, (h 0 (by decide) (by rw [elt_vbroadcast exF32_ok _ _ (by decide)]; decide)).1⟩
theorem C17_counterexample : ∃ r, vSignbit exF32 (vbroadcast exF32 0x80000000 (zeroData exF32)) = .ok r ∧
    mget exF32 r 4 = true ∧ mget exF32 (Mask.not exF32 r) 4 = true := by
  obtain ⟨r, hr, h⟩ := C17_signbit_violated exF32_ok rfl (vbroadcast exF32 0x80000000 (zeroData exF32))
  have := h 4 (by decide) (by rw [elt_vbroadcast exF32_ok _ _ (by decide)]; decide)
  exact ⟨r, hr, this.1, this.2.1⟩

/-! ### C32: comparisons -/
section C32
variable {c : Cfg} (hc : c.Ok) (hf : c.T.flt = true) (a b : c.Data)
include hc hf

/-- C32 (all but `islessgreater`): the IEEE relations between the elements, false on NaN (`isunordered`: true iff one is NaN). -/
theorem C32_quiet_partial :
    YieldsMask c (vIsgreater c a b) (fun i => Fp.lt (elt c b i) (elt c a i)) ∧
    YieldsMask c (vIsgreaterequal c a b) (fun i => Fp.le (elt c b i) (elt c a i)) ∧
    YieldsMask c (vIsless c a b) (fun i => Fp.lt (elt c a i) (elt c b i)) ∧
    YieldsMask c (vIslessequal c a b) (fun i => Fp.le (elt c a i) (elt c b i)) ∧
    YieldsMask c (vIsunordered c a b) (fun i => isNaN (elt c a i) || isNaN (elt c b i)) := by
  have hw := fltW hc.ety hf
  refine ⟨mask_vec2 hc _ (fun x y => Fp.lt y x) a b (fun x y i hi => ?_), mask_vec2 hc _ (fun x y => Fp.le y x) a b (fun x y i hi => ?_),
    mask_vec2 hc _ (fun x y => Fp.lt x y) a b (fun x y i hi => ?_), mask_vec2 hc _ (fun x y => Fp.le x y) a b (fun x y i hi => ?_),
    mask_vec2 hc _ (fun x y => isNaN x || isNaN y) a b (fun x y i hi => ?_)⟩
  · rw [show lane c.w _ i = _ from cmpF_lane hc.ety hi _ _ _, fLt_eq hw]
  · rw [show lane c.w _ i = _ from cmpF_lane hc.ety hi _ _ _, fLe_eq hw]
  · rw [show lane c.w _ i = _ from cmpF_lane hc.ety hi _ _ _, fLt_eq hw]
  · rw [show lane c.w _ i = _ from cmpF_lane hc.ety hi _ _ _, fLe_eq hw]
  · rw [show lane c.w _ i = _ from isunordV_lane hc.ety hi x y, fNaN_eq hw, fNaN_eq hw]
/-- what `islessgreater` computes: both operands are numbers -/
theorem C32_islessgreater_exact :
    YieldsMask c (vIslessgreater c a b) (fun i => !isNaN (elt c a i) && !isNaN (elt c b i)) := by
  have hw := fltW hc.ety hf
  refine mask_vec2 hc _ (fun x y => !isNaN x && !isNaN y) a b (fun x y i hi => ?_)
  unfold bitOr
  rw [lane_or, show lane c.w (cmpF (fun {w} => fLe) c.T c.v y x) i = _ from cmpF_lane hc.ety hi _ _ _,
    show lane c.w (cmpF (fun {w} p q => fLe q p) c.T c.v y x) i = _ from cmpF_lane hc.ety hi _ _ _, laneMask_or, fLe_eq hw, fLe_eq hw]
  congr 1
  unfold Fp.le
  cases isNaN (lane c.T.w x i) <;> cases isNaN (lane c.T.w y i) <;> simp
  omega
/-- C32 (`islessgreater`), proved where the operands are unordered or different. -/
theorem C32_islessgreater_partial : ∃ r, vIslessgreater c a b = .ok r ∧ ∀ i, i < c.N → Fp.eq (elt c a i) (elt c b i) = false →
    mget c r i = (Fp.lt (elt c a i) (elt c b i) || Fp.lt (elt c b i) (elt c a i)) := by
  obtain ⟨r, hr, h⟩ := C32_islessgreater_exact hc hf a b
  refine ⟨r, hr, fun i hi hn => ?_⟩
  rw [(h i hi).1]; dsimp only
  unfold Fp.eq at hn
  unfold Fp.lt
  revert hn
  generalize val (elt c a i) = p
  generalize val (elt c b i) = q
  generalize isNaN (elt c a i) = na
  generalize isNaN (elt c b i) = nb
  cases na <;> cases nb <;> simp
  intro h1
  rcases Int.lt_or_gt_of_ne h1 with h2 | h2
  · exact Or.inl h2
  · exact Or.inr h2
/-- C32 violated: `islessgreater(a, b)` is true wherever `a == b`. -/
theorem C32_islessgreater_violated : ∃ r, vIslessgreater c a b = .ok r ∧ ∀ i, i < c.N → Fp.eq (elt c a i) (elt c b i) = true →
    mget c r i = true ∧ Fp.lt (elt c a i) (elt c b i) = false ∧ Fp.lt (elt c b i) (elt c a i) = false := by
  obtain ⟨r, hr, h⟩ := C32_islessgreater_exact hc hf a b
  refine ⟨r, hr, fun i hi hn => ?_⟩
  rw [(h i hi).1]; dsimp only
  unfold Fp.eq at hn
  unfold Fp.lt
  revert hn
  cases isNaN (elt c a i) <;> cases isNaN (elt c b i) <;> simp
  intro h1; rw [h1]; exact ⟨Int.le_refl _, Int.le_refl _⟩
/-- C32 (operators): `==`, `!=`, `<`, `<=`, `>`, `>=`, `!` of float vectors are the IEEE relations; `!=` is true on NaN. -/
theorem C32_operators :
    YieldsMask c (opEq c a b) (fun i => Fp.eq (elt c a i) (elt c b i)) ∧
    YieldsMask c (opNe c a b) (fun i => !Fp.eq (elt c a i) (elt c b i)) ∧
    YieldsMask c (opLt c a b) (fun i => Fp.lt (elt c a i) (elt c b i)) ∧
    YieldsMask c (opLe c a b) (fun i => Fp.le (elt c a i) (elt c b i)) ∧
    YieldsMask c (opGt c a b) (fun i => Fp.lt (elt c b i) (elt c a i)) ∧
    YieldsMask c (opGe c a b) (fun i => Fp.le (elt c b i) (elt c a i)) ∧
    YieldsMask c (opLNot c a) (fun i => isZero (elt c a i)) := by
  have hw := fltW hc.ety hf
  have hle : ∀ x y : BitVec c.T.w, laneEq c.T x y = Fp.eq x y := fun x y => by unfold laneEq; rw [if_pos hf, fEq_eq hw]
  refine ⟨mask_vec2 hc _ (fun x y => Fp.eq x y) a b (fun x y i hi => ?_), mask_vec2 hc _ (fun x y => !Fp.eq x y) a b (fun x y i hi => ?_),
    ?_, ?_, ?_, ?_, mask_vec1 hc _ (fun x => isZero x) a (fun x i hi => ?_)⟩
  · rw [show lane c.w _ i = _ from cmpEq_lane c.s hc.ety c.v x y hi, hle]
  · rw [show lane c.w _ i = _ from cmpNe_lane c.s hc.ety c.v x y hi, hle]
  · unfold opLt; rw [if_pos hf]
    refine mask_vec2 hc _ (fun x y => Fp.lt x y) a b (fun x y i hi => ?_)
    rw [show lane c.w _ i = _ from cmpF_lane hc.ety hi _ _ _, fLt_eq hw]
  · unfold opLe; rw [if_pos hf]
    refine mask_vec2 hc _ (fun x y => Fp.le x y) a b (fun x y i hi => ?_)
    rw [show lane c.w _ i = _ from cmpF_lane hc.ety hi _ _ _, fLe_eq hw]
  · unfold opGt; rw [if_pos (Or.inl hf)]
    refine mask_vec2 hc _ (fun x y => Fp.lt y x) a b (fun x y i hi => ?_)
    unfold cmpGtV; rw [if_pos hf]
    rw [show lane c.w _ i = _ from cmpF_lane hc.ety hi _ _ _, fLt_eq hw]
  · unfold opGe; rw [if_pos hf]
    refine mask_vec2 hc _ (fun x y => Fp.le y x) a b (fun x y i hi => ?_)
    rw [show lane c.w _ i = _ from cmpF_lane hc.ety hi _ _ _, fLe_eq hw]
  · rw [show lane c.w _ i = _ from cmpEq_lane c.s hc.ety c.v x _ hi, hle, setzero_lane]
    congr 1
    generalize lane c.T.w x i = y
    unfold Fp.eq
    have h0 : isNaN (0#c.T.w) = false := by rcases hw with hw | hw <;> rw [hw] <;> decide
    have hv : val (0#c.T.w) = 0 := by rcases hw with hw | hw <;> rw [hw] <;> decide
    rw [h0, hv]
    have hval : val y = 0 ↔ mag y = 0 := by
      unfold val
      have := magVal_pos (b := mb c.T.w) (m := mag y)
      split <;> omega
    simp only [hval]
    have hm := mag_fields y
    have hz : mag y = 0 ↔ expF y = 0 ∧ manF y = 0 := by
      rw [hm]
      have hp := Nat.two_pow_pos (mb c.T.w)
      constructor
      · intro h
        have h1 : expF y * 2 ^ mb c.T.w = 0 := by omega
        rcases Nat.mul_eq_zero.1 h1 with h1 | h1 <;> omega
      · rintro ⟨h1, h2⟩; rw [h1, h2]; simp
    unfold isNaN isZero
    have : emax c.T.w ≠ 0 := by unfold emax; split <;> decide
    by_cases h1 : expF y = 0 <;> by_cases h2 : manF y = 0 <;> simp [hz, h1, h2, this.symm]
end C32
example : ∃ r, vIsless exF32 (vbroadcast exF32 0x80000001 (zeroData exF32)) (vbroadcast exF32 0x00000000 (zeroData exF32)) = .ok r ∧ mget exF32 r 5 = true := by
  obtain ⟨r, hr, h⟩ := (C32_quiet_partial exF32_ok rfl (vbroadcast exF32 0x80000001 (zeroData exF32)) (vbroadcast exF32 0x00000000 (zeroData exF32))).2.2.1
  refine ⟨r, hr, ?_⟩
  rw [(h 5 (by decide)).1]; dsimp only; rw [elt_vbroadcast exF32_ok _ _ (by decide), elt_vbroadcast exF32_ok _ _ (by decide)]; decide
theorem C32_counterexample : ∃ r, vIslessgreater exF32 (vbroadcast exF32 0x3f800000 (zeroData exF32)) (vbroadcast exF32 0x3f800000 (zeroData exF32)) = .ok r ∧ mget exF32 r 0 = true := by
  obtain ⟨r, hr, h⟩ := C32_islessgreater_violated exF32_ok rfl (vbroadcast exF32 0x3f800000 (zeroData exF32)) (vbroadcast exF32 0x3f800000 (zeroData exF32))
  refine ⟨r, hr, (h 0 (by decide) ?_).1⟩
  rw [elt_vbroadcast exF32_ok _ _ (by decide)]; decide

/-! ### C33: sign manipulation -/
/-- `r` is `x` with the sign bit replaced by `s`: every other bit (NaN payloads included) is kept -/
def WithSign {w : Nat} (x : BitVec w) (s : Bool) (r : BitVec w) : Prop := r.msb = s ∧ ∀ k, k + 1 < w → r.getLsbD k = x.getLsbD k
section C33
variable {c : Cfg} (hc : c.Ok) (hf : c.T.flt = true) (a b : c.Data) (s : BitVec c.w)
include hc hf

/-- C33: `abs`/`fabs`, `copysign` (vector and scalar sign) and unary `-`. -/
theorem C33_sign :
    (∃ r, vAbs c a = .ok r ∧ ∀ i, i < c.N → WithSign (elt c a i) false (elt c r i)) ∧
    (∃ r, vFabs c a = .ok r ∧ ∀ i, i < c.N → WithSign (elt c a i) false (elt c r i)) ∧
    (∃ r, vCopysign c a b = .ok r ∧ ∀ i, i < c.N → WithSign (elt c a i) (elt c b i).msb (elt c r i)) ∧
    (∃ r, vCopysignS c a s = .ok r ∧ ∀ i, i < c.N → WithSign (elt c a i) s.msb (elt c r i)) ∧
    (∃ r, opNeg c a = .ok r ∧ ∀ i, i < c.N → WithSign (elt c a i) (!(elt c a i).msb) (elt c r i)) := by
  have hw := fltW hc.ety hf
  have habs : ∀ x : BitVec c.T.w, WithSign x false (x &&& BitVec.intMax c.T.w) := fun x =>
    ⟨(abs_sm hw.pos x).1, fun k hk => by rw [BitVec.getLsbD_and, BitVec.getLsbD_intMax]; simp [hk]⟩
  have hcs : ∀ x y : BitVec c.T.w, WithSign x y.msb ((x &&& BitVec.intMax c.T.w) ||| (y &&& BitVec.intMin c.T.w)) := fun x y => by
    refine ⟨?_, fun k hk => ?_⟩
    · rw [BitVec.msb_or, (abs_sm hw.pos x).1, BitVec.msb_and, (intMin_sm hw.pos).1]; simp
    · rw [BitVec.getLsbD_or, BitVec.getLsbD_and, BitVec.getLsbD_and, BitVec.getLsbD_intMax, BitVec.getLsbD_intMin]
      have : ¬ k + 1 = c.T.w := by omega
      simp [hk, this]
  have hneg : ∀ x : BitVec c.T.w, WithSign x (!x.msb) (x ^^^ BitVec.intMin c.T.w) := fun x => by
    refine ⟨?_, fun k hk => ?_⟩
    · rw [BitVec.msb_xor, (intMin_sm hw.pos).1]; simp
    · rw [BitVec.getLsbD_xor, BitVec.getLsbD_intMin]
      have : ¬ k + 1 = c.T.w := by omega
      simp [this]
  have h1 : ∃ r, vAbs c a = .ok r ∧ ∀ i, i < c.N → WithSign (elt c a i) false (elt c r i) := by
    refine rel_vec1 hc (fun x => absV c.s c.T c.v x) (fun x r => WithSign x false r) a (fun x => ⟨bitAnd x (fillV c.v (BitVec.intMax c.T.w)), by unfold absV; rw [if_pos hf], fun i hi => ?_⟩)
    rw [show lane c.w (bitAnd x (fillV c.v (BitVec.intMax c.T.w))) i = _ from fabsV_lane hc.ety hi x]; exact habs _
  refine ⟨h1, h1, ?_, ?_, ?_⟩
  · obtain ⟨r, hr, h⟩ := ok_vec2 hc (fun x s => copysignV c.T c.v x (masksign c.T c.v s)) (fun x y => (x &&& BitVec.intMax c.T.w) ||| (y &&& BitVec.intMin c.T.w)) a b
      (fun x y i hi => by
        unfold copysignV bitOr
        rw [lane_or, show lane c.w (fabsV c.T c.v x) i = _ from fabsV_lane hc.ety hi x, show lane c.w (masksign c.T c.v y) i = _ from masksign_lane hc.ety hi y])
    exact ⟨r, hr, fun i hi => by rw [h i hi]; exact hcs _ _⟩
  · obtain ⟨r, hr, h⟩ := ok_vec1 hc (fun x => copysignV c.T c.v x (masksign c.T c.v (fillV c.v s))) (fun x => (x &&& BitVec.intMax c.T.w) ||| (s &&& BitVec.intMin c.T.w)) a
      (fun x i hi => by
        unfold copysignV bitOr
        rw [lane_or, show lane c.w (fabsV c.T c.v x) i = _ from fabsV_lane hc.ety hi x,
          show lane c.w (masksign c.T c.v (fillV c.v s)) i = _ from masksign_lane hc.ety hi _, fillV_lane hc.ety s hi])
    exact ⟨r, hr, fun i hi => by rw [h i hi]; exact hcs _ _⟩
  · obtain ⟨r, hr, h⟩ := ok_vec1 hc (fun x => negV c.s c.T c.v x) (fun x => x ^^^ BitVec.intMin c.T.w) a
      (fun x i hi => by
        unfold negV bitXor; rw [if_pos hf, show lane c.w (x ^^^ fillV c.v (BitVec.intMin c.T.w)) i = _ from lane_xor _ _ _ _, fillV_lane hc.ety _ hi])
    exact ⟨r, hr, fun i hi => by rw [h i hi]; exact hneg _⟩
/-- C33: in particular values and classes transform accordingly: the magnitude is kept, NaN stays NaN. -/
theorem C33_values {x r : BitVec c.w} {sg : Bool} (h : WithSign x sg r) :
    mag r = mag x ∧ isNaN r = isNaN x ∧ val r = if sg then -((val x).natAbs : Int) else ((val x).natAbs : Int) := by
  have hw := fltW hc.ety hf
  have hm : mag r = mag x := by
    unfold mag
    have : r &&& BitVec.intMax c.w = x &&& BitVec.intMax c.w := by
      apply BitVec.eq_of_getLsbD_eq
      intro k hk
      rw [BitVec.getLsbD_and, BitVec.getLsbD_and, BitVec.getLsbD_intMax]
      by_cases h1 : k + 1 < c.w
      · rw [h.2 k h1]
      · simp [h1]
    have := congrArg BitVec.toNat this
    rw [BitVec.toNat_and, BitVec.toNat_and, BitVec.toNat_intMax, Nat.and_two_pow_sub_one_eq_mod, Nat.and_two_pow_sub_one_eq_mod] at this
    exact this
  refine ⟨hm, ?_, ?_⟩
  · unfold isNaN expF manF; rw [hm]
  · unfold val neg; rw [hm, h.1]
    generalize (magVal (mb c.w) (mag x)) = p
    cases sg <;> cases x.msb <;> simp
end C33
example : ∃ r, vCopysign exF32 (vbroadcast exF32 0x7f800001 (zeroData exF32)) (vbroadcast exF32 0x80000000 (zeroData exF32)) = .ok r ∧ (elt exF32 r 5).msb = true := by
  obtain ⟨r, hr, h⟩ := (C33_sign exF32_ok rfl (vbroadcast exF32 0x7f800001 (zeroData exF32)) (vbroadcast exF32 0x80000000 (zeroData exF32)) 0).2.2.1
  refine ⟨r, hr, ?_⟩
  rw [(h 5 (by decide)).1, elt_vbroadcast exF32_ok _ _ (by decide)]; decide

/-! ### C38: nextafter -/
/-- C38: with NaN propagation configured (`DPM_PROPAGATE_NAN`), for every pair of bit patterns. -/
theorem C38_nextafter {c : Cfg} (hc : c.Ok) (hf : c.T.flt = true) (o : MathOpt) (hp : o.propNan = true) (a b : c.Data) :
    ∃ r, vNextafter c o a b = .ok r ∧ ∀ i, i < c.N →
      (isNaN (elt c a i) = false → isNaN (elt c b i) = false → IsNextafter (elt c a i) (elt c b i) (elt c r i)) ∧
      (isNaN (elt c a i) = true ∨ isNaN (elt c b i) = true → isNaN (elt c r i) = true) := by
  have hw := fltW hc.ety hf
  obtain ⟨r, hr, h⟩ := ok_vec2 hc (fun x y => nextafterV o c.s c.T c.v x y) (fun x y => naLane o.propNan x y) a b
    (fun x y i hi => nextafterV_lane o c.s hc.ety hf hi x y)
  refine ⟨r, hr, fun i hi => ⟨fun ha hb => ?_, fun hn => ?_⟩⟩
  · rw [h i hi]; exact naLane_spec hw _ ha hb
  · rw [h i hi, hp]; exact naLane_nan hw hn
/-- C38 without NaN propagation: numbers only. -/
theorem C38_nextafter_numbers {c : Cfg} (hc : c.Ok) (hf : c.T.flt = true) (o : MathOpt) (a b : c.Data) :
    ∃ r, vNextafter c o a b = .ok r ∧ ∀ i, i < c.N →
      isNaN (elt c a i) = false → isNaN (elt c b i) = false → IsNextafter (elt c a i) (elt c b i) (elt c r i) := by
  have hw := fltW hc.ety hf
  obtain ⟨r, hr, h⟩ := ok_vec2 hc (fun x y => nextafterV o c.s c.T c.v x y) (fun x y => naLane o.propNan x y) a b
    (fun x y i hi => nextafterV_lane o c.s hc.ety hf hi x y)
  exact ⟨r, hr, fun i hi ha hb => by rw [h i hi]; exact naLane_spec hw _ ha hb⟩
/-- the smallest subnormal is next to zero -/
example : ∃ r, vNextafter exF32 ⟨true, true⟩ (vbroadcast exF32 0x80000000 (zeroData exF32)) (vbroadcast exF32 0x3f800000 (zeroData exF32)) = .ok r ∧
    val (elt exF32 r 2) = 1 := by
  obtain ⟨r, hr, h⟩ := C38_nextafter exF32_ok rfl ⟨true, true⟩ rfl (vbroadcast exF32 0x80000000 (zeroData exF32)) (vbroadcast exF32 0x3f800000 (zeroData exF32))
  refine ⟨r, hr, ?_⟩
  have h2 := (h 2 (by decide)).1 (by rw [elt_vbroadcast exF32_ok _ _ (by decide)]; decide) (by rw [elt_vbroadcast exF32_ok _ _ (by decide)]; decide)
  rw [elt_vbroadcast exF32_ok _ _ (by decide), elt_vbroadcast exF32_ok _ _ (by decide)] at h2
  obtain ⟨_, h4, _, h6⟩ := h2.2.1 (by decide)
  have h7 := h6 1#32 (by decide) (by decide)
  have e1 : val (1#32 : BitVec 32) = 1 := by decide
  have e2 : val (0x80000000 : BitVec exF32.w) = 0 := by decide
  have h8 : val (elt exF32 r 2) ≤ val (1#32 : BitVec 32) := h7
  omega

/-! ### C49: fdim, fmax, fmin; min and max of floats -/
section C49
variable (fp : FpOps) {c : Cfg} (hc : c.Ok) (hf : c.T.flt = true) (a b : c.Data) (s : BitVec c.w)

/-- `r` is `d` or zero, whichever is larger; a NaN `d` is returned unchanged -/
def IsPosPart {w : Nat} (d r : BitVec w) : Prop :=
  (isNaN d = true → r = d) ∧ (isNaN d = false → isNaN r = false ∧ (r = d ∨ r = 0#w) ∧ val d ≤ val r ∧ 0 ≤ val r)
theorem fmaxLane_zero {w : Nat} (hw : W w) (d : BitVec w) : IsPosPart d (fmaxLane (0#w) d) := by
  have h0 : isNaN (0#w) = false := by rcases hw with hw | hw <;> subst hw <;> decide
  have hv : val (0#w) = 0 := by rcases hw with hw | hw <;> subst hw <;> decide
  unfold fmaxLane
  rw [fLt_eq hw]
  unfold Fp.lt
  rw [h0, hv]
  refine ⟨fun h => by simp [h], fun h => ?_⟩
  rw [h]
  by_cases h1 : val d < 0
  · simp [h1, h0, hv]; omega
  · simp [h1, h]; omega
include hc hf in
/-- C49 (`fdim`): the positive part of the hardware difference, NaN propagated; `fp.sub` is any subtraction. -/
theorem C49_fdim :
    (∃ r, vFdim c fp a b = .ok r ∧ ∀ i, i < c.N → IsPosPart (fp.sub c.w (elt c a i) (elt c b i)) (elt c r i)) ∧
    (∃ r, vFdimS c fp a s = .ok r ∧ ∀ i, i < c.N → IsPosPart (fp.sub c.w (elt c a i) s) (elt c r i)) := by
  have hw := fltW hc.ety hf
  have hsub : ∀ (x y : Vec c.v) i, i < c.e → lane c.w (map2 c.w fmaxLane (setzero c.v) (subV fp c.s c.T c.v x y)) i =
      fmaxLane 0#c.w (fp.sub c.w (lane c.w x i) (lane c.w y i)) := by
    intro x y i hi
    rw [lane_map2 _ _ _ (lane_bound hc.ety hi), setzero_lane]
    unfold subV; rw [if_pos hf]
    congr 1
    exact lane_map2 _ _ _ (lane_bound hc.ety hi)
  constructor
  · obtain ⟨r, hr, h⟩ := ok_vec2 hc (fun x y => map2 c.w fmaxLane (setzero c.v) (subV fp c.s c.T c.v x y))
      (fun x y => fmaxLane 0#c.w (fp.sub c.w x y)) a b hsub
    exact ⟨r, hr, fun i hi => by rw [h i hi]; exact fmaxLane_zero hw _⟩
  · obtain ⟨r, hr, h⟩ := ok_vec1 hc (fun x => map2 c.w fmaxLane (setzero c.v) (subV fp c.s c.T c.v x (fillV c.v s)))
      (fun x => fmaxLane 0#c.w (fp.sub c.w x s)) a (fun x i hi => by rw [hsub x _ i hi, fillV_lane hc.ety s hi])
    exact ⟨r, hr, fun i hi => by rw [h i hi]; exact fmaxLane_zero hw _⟩
/-- C49 violated: `fmax` and `fmin` do not compile for any x86 vector. -/
theorem C49_fmax_fmin_violated : vFmax c a b = .illFormed ∧ vFmin c a b = .illFormed := ⟨rfl, rfl⟩
include hc hf in
/-- C49 (`min`, `max` of floats, which do compile): an operand; the smaller/larger one unless an operand is NaN, and
the second operand when one is NaN. -/
theorem C49_min_max :
    (∃ r, vMin c a b = .ok r ∧ ∀ i, i < c.N →
      (isNaN (elt c a i) = false → isNaN (elt c b i) = false → (elt c r i = elt c a i ∨ elt c r i = elt c b i) ∧
        val (elt c r i) ≤ val (elt c a i) ∧ val (elt c r i) ≤ val (elt c b i)) ∧
      (isNaN (elt c a i) = true ∨ isNaN (elt c b i) = true → elt c r i = elt c b i)) ∧
    (∃ r, vMax c a b = .ok r ∧ ∀ i, i < c.N →
      (isNaN (elt c a i) = false → isNaN (elt c b i) = false → (elt c r i = elt c a i ∨ elt c r i = elt c b i) ∧
        val (elt c a i) ≤ val (elt c r i) ∧ val (elt c b i) ≤ val (elt c r i)) ∧
      (isNaN (elt c a i) = true ∨ isNaN (elt c b i) = true → elt c r i = elt c b i)) := by
  have hw := fltW hc.ety hf
  constructor
  · unfold vMin; rw [if_pos (Or.inl hf)]
    refine rel_vec2 hc _ (fun x y r => (isNaN x = false → isNaN y = false → (r = x ∨ r = y) ∧ val r ≤ val x ∧ val r ≤ val y) ∧
      (isNaN x = true ∨ isNaN y = true → r = y)) a b (fun x y => ⟨map2 c.T.w fminLane x y, by unfold minV; rw [if_pos hf], fun i hi => ?_⟩)
    rw [show lane c.w (map2 c.T.w fminLane x y) i = _ from lane_map2 _ _ _ (lane_bound hc.ety hi)]
    generalize lane c.T.w x i = p
    generalize lane c.T.w y i = q
    show (isNaN p = false → _) ∧ _
    unfold fminLane
    rw [fLt_eq hw]
    unfold Fp.lt
    refine ⟨fun h1 h2 => ?_, fun h => ?_⟩
    · rw [h1, h2]
      by_cases h3 : val p < val q
      · simp [h3]; omega
      · simp [h3]; omega
    · rcases h with h | h <;> simp [h]
  · unfold vMax; rw [if_pos (Or.inl hf)]
    refine rel_vec2 hc _ (fun x y r => (isNaN x = false → isNaN y = false → (r = x ∨ r = y) ∧ val x ≤ val r ∧ val y ≤ val r) ∧
      (isNaN x = true ∨ isNaN y = true → r = y)) a b (fun x y => ⟨map2 c.T.w fmaxLane x y, by unfold maxV; rw [if_pos hf], fun i hi => ?_⟩)
    rw [show lane c.w (map2 c.T.w fmaxLane x y) i = _ from lane_map2 _ _ _ (lane_bound hc.ety hi)]
    generalize lane c.T.w x i = p
    generalize lane c.T.w y i = q
    show (isNaN p = false → _) ∧ _
    unfold fmaxLane
    rw [fLt_eq hw]
    unfold Fp.lt
    refine ⟨fun h1 h2 => ?_, fun h => ?_⟩
    · rw [h1, h2]
      by_cases h3 : val q < val p
      · simp [h3]; omega
      · simp [h3]; omega
    · rcases h with h | h <;> simp [h]
end C49
/-- with a subtraction that returns its first operand -/
example (fp : FpOps) (h : ∀ x y, fp.sub exF32.w x y = x) :
    ∃ r, vFdim exF32 fp (vbroadcast exF32 0x40000000 (zeroData exF32)) (vbroadcast exF32 0x3f800000 (zeroData exF32)) = .ok r ∧ val (elt exF32 r 5) ≥ 2 ^ 150 := by
  obtain ⟨r, hr, h'⟩ := (C49_fdim fp exF32_ok rfl (vbroadcast exF32 0x40000000 (zeroData exF32)) (vbroadcast exF32 0x3f800000 (zeroData exF32)) 0).1
  refine ⟨r, hr, ?_⟩
  have h2 := h' 5 (by decide)
  rw [h, elt_vbroadcast exF32_ok _ _ (by decide)] at h2
  have h3 := (h2.2 (by decide)).2.2.1
  have e : val (0x40000000 : BitVec exF32.w) = 2 ^ 150 := by decide
  rw [← e]; exact h3

end Dpm.X86
