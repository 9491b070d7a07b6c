import Verif.Proofs.RoundTie
import Verif.Props.X86Logb
/-!
C39: ceil, floor, trunc, nearbyint, rint and round of the x86 backend (Spec/Round.lean: `IsRoundFn`).
-/
namespace Dpm.X86
open Dpm.Reg Dpm.Fp

theorem roundL_lane {T : Ety} (h : T.Ok) {v : VSz} {i : Nat} (hi : i < extent T v) (m : RMode) (x : Vec v) :
    lane T.w (roundL T.w m x) i = roundInt m (lane T.w x i) := lane_map1 _ _ (lane_bound h hi)
theorem faddL_lane {T : Ety} (h : T.Ok) {v : VSz} {i : Nat} (hi : i < extent T v) (a b : Vec v) :
    lane T.w (faddL T.w a b) i = fadd (lane T.w a i) (lane T.w b i) := lane_map2 _ _ _ (lane_bound h hi)
/-- lane-wise relation for a total kernel -/
theorem rel_of_lane {c : Cfg} (hc : c.Ok) (k : Vec c.v → Vec c.v) (P : BitVec c.w → BitVec c.w → Prop) (a : c.Data)
    (hk : ∀ x i, i < c.e → P (lane c.w x i) (lane c.w (k x) i)) :
    ∃ r, (.ok (vectorize1 c (fun _ x => k x) (zeroData c) a) : Out c.Data) = .ok r ∧ ∀ i, i < c.N → P (elt c a i) (elt c r i) :=
  ⟨_, rfl, fun i hi => by rw [elt_vec1 hc _ _ _ hi]; exact hk _ _ (idx_mod hc i)⟩

/-- the call compiles and every element of its result is the rounded element of `x` -/
def RoundsAll (c : Cfg) (R : Int → Int → Int → Prop) (x : c.Data) (out : Out c.Data) : Prop :=
  ∃ r, out = .ok r ∧ ∀ i, i < c.N → IsRoundFn R (elt c x i) (elt c r i)

section C39
variable {c : Cfg} (hc : c.Ok) (hf : c.T.flt = true)
include hc hf
theorem sse41_rounds (h4 : c.s.sse41 = true) (m : RMode) {R : Int → Int → Int → Prop}
    (hR : ∀ x : BitVec c.w, R (val x) (2 ^ unitExp c.w : Nat) (toInt m x)) (k : Vec c.v → Vec c.v) (hk : ∀ x, k x = roundL c.T.w m x) (x : c.Data) :
    RoundsAll c R x (.ok (vectorize1 c (fun _ x => k x) (zeroData c) x)) := by
  refine rel_of_lane hc k (fun a r => IsRoundFn R a r) x fun y i hi => ?_
  rw [hk]
  have e := roundL_lane hc.ety (v := c.v) hi m y
  show IsRoundFn R (lane c.T.w y i) (lane c.T.w (roundL c.T.w m y) i)
  rw [e]
  exact roundInt_fn (fltW hc.ety hf) m hR _
/-- C39, from SSE4.1 on: ceil, floor, trunc, nearbyint and rint are right for every input of every length. -/
theorem C39_sse41 (h4 : c.s.sse41 = true) (x : c.Data) :
    RoundsAll c IsCeil x (vCeil c x) ∧ RoundsAll c IsFloor x (vFloor c x) ∧ RoundsAll c IsTrunc x (vTrunc c x) ∧
      RoundsAll c IsRint x (vNearbyint c x) ∧ RoundsAll c IsRint x (vRint c x) :=
  ⟨sse41_rounds hc hf h4 .up toInt_ceil (ceilV c.s c.T c.v) (fun x => by unfold ceilV; rw [if_pos h4]) x,
   sse41_rounds hc hf h4 .down toInt_floor (floorV c.s c.T c.v) (fun x => by unfold floorV; rw [if_pos h4]) x,
   sse41_rounds hc hf h4 .zero toInt_trunc (truncV c.s c.T c.v) (fun x => by unfold truncV; rw [if_pos h4]) x,
   sse41_rounds hc hf h4 .nearest toInt_rint (rintV c.s c.T c.v) (fun x => by unfold rintV; rw [if_pos h4]) x,
   sse41_rounds hc hf h4 .nearest toInt_rint (rintV c.s c.T c.v) (fun x => by unfold rintV; rw [if_pos h4]) x⟩
/-- C39, round from SSE4.1 on, except for 32-byte float vectors: to nearest, halves away from zero, for every input. -/
theorem C39_round_sse41_partial (h4 : c.s.sse41 = true) (hv : ¬ (c.T.bytes = 4 ∧ c.v = .v256)) (x : c.Data) :
    RoundsAll c IsRoundAway x (vRound c x) := by
  refine rel_of_lane hc (roundV c.s c.T c.v) (fun a r => IsRoundFn IsRoundAway a r) x fun y i hi => ?_
  show IsRoundFn IsRoundAway (lane c.T.w y i) (lane c.T.w (roundV c.s c.T c.v y) i)
  have e : lane c.T.w (roundV c.s c.T c.v y) i
      = roundInt .zero (fadd (lane c.T.w y i) ((lane c.T.w y i &&& BitVec.intMin c.T.w) ||| nearHalf c.T.w)) := by
    unfold roundV
    rw [if_pos h4]
    dsimp only
    rw [if_neg hv]
    refine (roundL_lane hc.ety hi _ _).trans (congrArg _ ((faddL_lane hc.ety hi _ _).trans (congrArg _ ?_)))
    refine (lane_or _ _ _ _).trans ?_
    rw [fillV_lane hc.ety _ hi]
    refine congrArg (· ||| _) ((lane_and _ _ _ _).trans ?_)
    rw [fillV_lane hc.ety _ hi]
  rw [e]
  exact roundAdd_fn (fltW hc.ety hf) _
/-- C39, round of 32-byte float vectors: every element of the result is zero, whatever the argument. -/
theorem C39_round_avx_violated (hv : c.T.bytes = 4 ∧ c.v = .v256) (x : c.Data) :
    ∃ r, vRound c x = .ok r ∧ ∀ i, i < c.N → isZero (elt c r i) = true := by
  have h4 : c.s.sse41 = true := hc.wf.2.2.1 (hc.avx hv.2)
  refine rel_of_lane hc (roundV c.s c.T c.v) (fun _ r => isZero r = true) x fun y i hi => ?_
  show isZero (lane c.T.w (roundV c.s c.T c.v y) i) = true
  have hw := fltW hc.ety hf
  have e : lane c.T.w (roundV c.s c.T c.v y) i
      = roundInt .zero (lane c.T.w y i &&& ((lane c.T.w y i &&& BitVec.intMin c.T.w) ||| nearHalf c.T.w)) := by
    unfold roundV
    rw [if_pos h4]
    dsimp only
    rw [if_pos hv]
    refine (roundL_lane hc.ety hi _ _).trans (congrArg _ ((lane_and _ _ _ _).trans (congrArg _ ?_)))
    refine (lane_or _ _ _ _).trans ?_
    rw [fillV_lane hc.ety _ hi]
    refine congrArg (· ||| _) ((lane_and _ _ _ _).trans ?_)
    rw [fillV_lane hc.ety _ hi]
  rw [e]
  exact roundAnd_zero hw _
end C39

/-! ### Before SSE4.1 -/
section sse2lanes
variable {s : ISA} {T : Ety} (h : T.Ok) (hf : T.flt = true) {v : VSz} {i : Nat} (hi : i < extent T v)
include h hi
theorem cvttBack_lane (x : Vec v) : lane T.w (cvttBack T.w x) i = cvttLane (lane T.w x i) := lane_map1 _ _ (lane_bound h hi)
theorem maskOne_lane (a b : Vec v) : lane T.w (bitAnd (cmpF fLt T v a b) (fillV v (oneBits T.w))) i =
    if fLt (lane T.w a i) (lane T.w b i) then oneBits T.w else 0#T.w := by
  refine (lane_and _ _ _ _).trans ?_
  rw [fillV_lane h _ hi, cmpF_lane h hi, mask_and]
theorem ceilV_old (hs : s.sse41 = false) (x : Vec v) : lane T.w (ceilV s T v x) i = ceilLane (lane T.w x i) := by
  unfold ceilV
  rw [if_neg (by simp [hs])]
  refine (faddL_lane h hi _ _).trans ?_
  rw [maskOne_lane h hi, cvttBack_lane h hi]; rfl
theorem floorV_old (hs : s.sse41 = false) (x : Vec v) : lane T.w (floorV s T v x) i = floorLane (lane T.w x i) := by
  unfold floorV
  rw [if_neg (by simp [hs])]
  refine (fsubL_lane h hi _ _).trans ?_
  rw [maskOne_lane h hi, cvttBack_lane h hi]; rfl
theorem truncV_old4 (hs : s.sse41 = false) (h4 : T.bytes = 4) (x : Vec v) : lane T.w (truncV s T v x) i = cvttLane (lane T.w x i) := by
  unfold truncV
  rw [if_neg (by simp [hs]), if_neg (by omega)]
  exact cvttBack_lane h hi x
theorem roundV_old (hs : s.sse41 = false) (x : Vec v) : lane T.w (roundV s T v x) i = roundLane (lane T.w x i) := by
  unfold roundV
  rw [if_neg (by simp [hs])]
  refine (faddL_lane h hi _ _).trans ?_
  rw [cvttBack_lane h hi, cvttBack_lane h hi]
  unfold roundLane
  refine congrArg (fun z => fadd _ (cvttLane z)) ((fmulL_lane h hi _ _).trans ?_)
  rw [fillV_lane h _ hi, fsubL_lane h hi, cvttBack_lane h hi]
theorem rintV_old (hs : s.sse41 = false) (x : Vec v) : lane T.w (rintV s T v x) i =
    if T.bytes = 8 then rintTmp (lane T.w x i)
    else if fLe (offsetBits T.w) (lane T.w x i &&& BitVec.intMax T.w) then lane T.w x i else rintTmp (lane T.w x i) := by
  unfold rintV
  rw [if_neg (by simp [hs])]
  extract_lets sg off ab m tmp
  have hsg : lane T.w sg i = lane T.w x i &&& BitVec.intMin T.w := by
    refine (lane_and _ _ _ _).trans ?_
    rw [fillV_lane h _ hi]
  have hoff : lane T.w off i = offsetBits T.w := fillV_lane h _ hi
  have hab : lane T.w ab i = lane T.w x i ^^^ (lane T.w x i &&& BitVec.intMin T.w) := by
    refine (lane_xor _ _ _ _).trans ?_
    rw [hsg]
  have hm : lane T.w m i = laneMask T.w (fLe (offsetBits T.w) (lane T.w x i &&& BitVec.intMax T.w)) := by
    refine (cmpF_lane h hi _ _ _).trans ?_
    rw [hoff, hab, Fp.xor_sign]
  have htmp : lane T.w tmp i = rintTmp (lane T.w x i) := by
    refine (lane_or _ _ _ _).trans ?_
    rw [fsubL_lane h hi, faddL_lane h hi, hab, hoff, hsg]; rfl
  split
  · refine (lane_or _ _ _ _).trans ?_
    rw [andnot_lane h hi, bitAnd_lane, htmp, hm, andnot_mask, mask_and]
    split <;> simp
  · refine (lane_or _ _ _ _).trans ?_
    rw [andnot_lane h hi, bitAnd_lane, htmp, hm, andnot_mask, mask_and]
    split <;> simp
end sse2lanes

/-- `|x| < 2^31` -/
def Below31 {w : Nat} (x : BitVec w) : Prop := isFinite x = true ∧ (val x).natAbs < 2 ^ 31 * 2 ^ unitExp w
/-- NaN, infinity, or truncated value outside the 32-bit range -/
def Beyond31 {w : Nat} (x : BitVec w) : Prop := isNaN x = true ∨ isInf x = true ∨ 2 ^ 31 * (2 ^ unitExp w : Nat) ≤ val x ∨ val x ≤ (-2 ^ 31 - 1) * (2 ^ unitExp w : Nat)
/-- the elements of `x` meeting `P` are rounded to the right value -/
def RoundsVals (c : Cfg) (R : Int → Int → Int → Prop) (P : BitVec c.w → Prop) (x : c.Data) (out : Out c.Data) : Prop :=
  ∃ r, out = .ok r ∧ ∀ i, i < c.N → P (elt c x i) → RoundsVal R (elt c x i) (elt c r i)
/-- all elements of the result are related to those of the argument -/
def EachElt (c : Cfg) (P : BitVec c.w → BitVec c.w → Prop) (x : c.Data) (out : Out c.Data) : Prop :=
  ∃ r, out = .ok r ∧ ∀ i, i < c.N → P (elt c x i) (elt c r i)

theorem each_of_lane {c : Cfg} (hc : c.Ok) (k : Vec c.v → Vec c.v) {P : BitVec c.w → BitVec c.w → Prop} (x : c.Data)
    (hk : ∀ y i, i < c.e → P (lane c.w y i) (lane c.w (k y) i)) : EachElt c P x (.ok (vectorize1 c (fun _ x => k x) (zeroData c) x)) :=
  rel_of_lane hc k P x hk
theorem Below31.fits {w : Nat} {x : BitVec w} (h : Below31 x) : Fits32 x := by
  have hq : (val x).natAbs / 2 ^ unitExp w < 2 ^ 31 := Nat.div_lt_of_lt_mul (by rw [Nat.mul_comm]; exact h.2)
  have : (toInt .zero x).natAbs < 2 ^ 31 := by rw [natAbs_toInt]; unfold roundNat; exact hq
  exact ⟨h.1, by omega, by omega⟩
theorem Beyond31.unfit {w : Nat} {x : BitVec w} (h : Beyond31 x) : ¬ Fits32 x := by
  rintro ⟨hf, h1, h2⟩
  have hc := finite_cls hf
  have ht := toInt_trunc x
  unfold Beyond31 at h
  have hD : (0 : Int) < (2 ^ unitExp w : Nat) := by exact_mod_cast Nat.two_pow_pos _
  generalize ((2 ^ unitExp w : Nat) : Int) = D at *
  rcases h with h | h | h | h
  · rw [hc.1] at h; cases h
  · rw [hc.2] at h; cases h
  · have hp : 0 ≤ 2 ^ 31 * D := Int.mul_nonneg (by omega) (by omega)
    have := (ht.1 (by omega)).2
    have h3 : (toInt .zero x + 1) * D ≤ 2 ^ 31 * D := Int.mul_le_mul_of_nonneg_right (by omega) (by omega)
    omega
  · have hp : (-2 ^ 31 - 1) * D < 0 := Int.mul_neg_of_neg_of_pos (by omega) hD
    have := (ht.2 (by omega)).1
    have h3 : (-2 ^ 31 - 1) * D ≤ (toInt .zero x - 1) * D := Int.mul_le_mul_of_nonneg_right (by omega) (by omega)
    omega

section C39sse2
variable {c : Cfg} (hc : c.Ok) (hf : c.T.flt = true) (hs : c.s.sse41 = false)
include hc hf hs
/-- C39, before SSE4.1, elements with `|x| < 2^31`: ceil, floor, and trunc of floats give the right value (the sign of a zero result is covered
by `C39_zero_sign_violated`). -/
theorem C39_sse2_partial (x : c.Data) :
    RoundsVals c IsCeil Below31 x (vCeil c x) ∧ RoundsVals c IsFloor Below31 x (vFloor c x) ∧
      (c.T.bytes = 4 → RoundsVals c IsTrunc Below31 x (vTrunc c x)) := by
  have hw := fltW hc.ety hf
  refine ⟨?_, ?_, fun h4 => ?_⟩
  · refine rel_of_lane hc (ceilV c.s c.T c.v) (fun a r => Below31 a → RoundsVal IsCeil a r) x fun y i hi hb => ?_
    show RoundsVal IsCeil (lane c.T.w y i) (lane c.T.w (ceilV c.s c.T c.v y) i)
    rw [ceilV_old hc.ety hi hs]
    exact ceilLane_fits hw hb.fits
  · refine rel_of_lane hc (floorV c.s c.T c.v) (fun a r => Below31 a → RoundsVal IsFloor a r) x fun y i hi hb => ?_
    show RoundsVal IsFloor (lane c.T.w y i) (lane c.T.w (floorV c.s c.T c.v y) i)
    rw [floorV_old hc.ety hi hs]
    exact floorLane_fits hw hb.fits
  · refine rel_of_lane hc (truncV c.s c.T c.v) (fun a r => Below31 a → RoundsVal IsTrunc a r) x fun y i hi hb => ?_
    show RoundsVal IsTrunc (lane c.T.w y i) (lane c.T.w (truncV c.s c.T c.v y) i)
    rw [truncV_old4 hc.ety hi hs h4]
    exact cvttLane_trunc hw hb.fits
/-- C39, before SSE4.1, everything else: about `-2^31`, also for NaN, +inf and large positive numbers. -/
theorem C39_range_violated (x : c.Data) :
    EachElt c (fun a r => Beyond31 a → isFinite r = true ∧ -(2 ^ 32 * 2 ^ unitExp c.w : Nat) ≤ val r ∧ val r ≤ -((2 ^ 30 * 2 ^ unitExp c.w : Nat) : Int)) x (vCeil c x) ∧
    EachElt c (fun a r => Beyond31 a → isFinite r = true ∧ -(2 ^ 32 * 2 ^ unitExp c.w : Nat) ≤ val r ∧ val r ≤ -((2 ^ 30 * 2 ^ unitExp c.w : Nat) : Int)) x (vFloor c x) ∧
    (c.T.bytes = 4 → EachElt c (fun a r => Beyond31 a → r = ofInt c.w (-2 ^ 31)) x (vTrunc c x)) := by
  have hw := fltW hc.ety hf
  refine ⟨?_, ?_, fun h4 => ?_⟩
  · refine each_of_lane hc (ceilV c.s c.T c.v) x ?_
    intro y i hi hb
    have e : lane c.w (ceilV c.s c.T c.v y) i = ceilLane (lane c.w y i) := ceilV_old hc.ety hi hs y
    rw [e]
    exact ceilLane_unfit hw (hb.unfit)
  · refine each_of_lane hc (floorV c.s c.T c.v) x ?_
    intro y i hi hb
    have e : lane c.w (floorV c.s c.T c.v y) i = floorLane (lane c.w y i) := floorV_old hc.ety hi hs y
    rw [e]
    exact floorLane_unfit hw (hb.unfit)
  · refine each_of_lane hc (truncV c.s c.T c.v) x ?_
    intro y i hi hb
    have e : lane c.w (truncV c.s c.T c.v y) i = cvttLane (lane c.w y i) := truncV_old4 hc.ety hi hs h4 y
    rw [e]
    exact cvttLane_unfit (hb.unfit)
/-- C39, before SSE4.1: `-1 < x <= -0` gives `+0` instead of `-0`, for ceil and for trunc of floats. -/
theorem C39_zero_sign_violated (x : c.Data) :
    EachElt c (fun a r => a.msb = true → (val a).natAbs < 2 ^ unitExp c.w → r = 0#c.w) x (vCeil c x) ∧
    (c.T.bytes = 4 → EachElt c (fun a r => a.msb = true → (val a).natAbs < 2 ^ unitExp c.w → r = 0#c.w) x (vTrunc c x)) := by
  have hw := fltW hc.ety hf
  have fits : ∀ a : BitVec c.w, (val a).natAbs < 2 ^ unitExp c.w → Fits32 a ∧ toInt .zero a = 0 := by
    intro a ha
    have hfin : isFinite a = true := by
      rw [finite_iff hw]
      rw [natAbs_val] at ha
      have := bigInt hw
      refine magVal_lt.1 (Nat.lt_trans ha (Nat.lt_of_le_of_lt ?_ this))
      exact Nat.le_mul_of_pos_left _ (Nat.two_pow_pos _)
    have h0 : toInt .zero a = 0 := by
      have := natAbs_toInt .zero a
      unfold roundNat at this
      rw [Nat.div_eq_of_lt ha] at this
      dsimp only at this
      omega
    exact ⟨⟨hfin, by omega, by omega⟩, h0⟩
  refine ⟨?_, fun h4 => ?_⟩
  · refine each_of_lane hc (ceilV c.s c.T c.v) x ?_
    intro y i hi hm ha
    have e : lane c.w (ceilV c.s c.T c.v y) i = ceilLane (lane c.w y i) := ceilV_old hc.ety hi hs y
    rw [e]
    obtain ⟨f1, f2⟩ := fits _ ha
    have hz := (cvttLane_fits hw f1).2.2 f2
    generalize lane c.w y i = X at *
    unfold ceilLane
    rw [hz, lt_fin hw (zeroBits_fin hw).1 f1.1, (zeroBits_fin hw).2]
    have hneg : ¬ 0 < val X := by unfold val neg; rw [hm]; simp
    rw [if_neg (by simpa using hneg)]
    have hz2 := zeroBits_fin hw
    rw [fadd_fin hz2.1 hz2.1, if_pos (by rw [hz2.2]; rfl)]
    have : neg (0#c.w) = false := by unfold neg; simp
    rw [this]
    show pack c.w false 0 = 0#c.w
    unfold pack; simp
  · refine each_of_lane hc (truncV c.s c.T c.v) x ?_
    intro y i hi hm ha
    have e : lane c.w (truncV c.s c.T c.v y) i = cvttLane (lane c.w y i) := truncV_old4 hc.ety hi hs h4 y
    rw [e]
    obtain ⟨f1, f2⟩ := fits _ ha
    exact (cvttLane_fits hw f1).2.2 f2
/-- C39, rint and nearbyint before SSE4.1: right for every float. -/
theorem C39_rint_float (h4 : c.T.bytes = 4) (x : c.Data) : RoundsAll c IsRint x (vRint c x) ∧ RoundsAll c IsRint x (vNearbyint c x) := by
  have hw := fltW hc.ety hf
  have key : RoundsAll c IsRint x (vRint c x) := by
    refine each_of_lane hc (rintV c.s c.T c.v) x ?_
    intro y i hi
    have e : lane c.w (rintV c.s c.T c.v y) i = _ := rintV_old hc.ety hi hs y
    rw [e, if_neg (by omega)]
    exact rint_sel hw _
  exact ⟨key, key⟩
/-- C39, rint and nearbyint of doubles before SSE4.1: right up to `2^52` and for infinities and NaN. -/
theorem C39_rint_double_partial (h8 : c.T.bytes = 8) (x : c.Data) :
    EachElt c (fun a r => (isFinite a = true → (val a).natAbs ≤ 2 ^ 52 * 2 ^ unitExp c.w) → IsRoundFn IsRint a r) x (vRint c x) ∧
    EachElt c (fun a r => (isFinite a = true → (val a).natAbs ≤ 2 ^ 52 * 2 ^ unitExp c.w) → IsRoundFn IsRint a r) x (vNearbyint c x) := by
  have hw := fltW hc.ety hf
  have hm : mb c.w = 52 := by have : c.w = 64 := hx_w64 h8; rw [this]; rfl
  have key : EachElt c (fun a r => (isFinite a = true → (val a).natAbs ≤ 2 ^ 52 * 2 ^ unitExp c.w) → IsRoundFn IsRint a r) x (vRint c x) := by
    refine each_of_lane hc (rintV c.s c.T c.v) x ?_
    intro y i hi hb
    have e : lane c.w (rintV c.s c.T c.v y) i = _ := rintV_old hc.ety hi hs y
    rw [e, if_pos h8]
    rw [← hm] at hb
    exact ⟨fun hfin => (rintTmp_small hw hfin (hb hfin)).1, fun hfin => (rintTmp_small hw hfin (hb hfin)).2, rintTmp_inf hw, rintTmp_nan hw⟩
  exact ⟨key, key⟩
/-- C39, round before SSE4.1, elements with `|x| < 2^31` that are not half-way between two integers: the right value. -/
theorem C39_round_sse2_partial (x : c.Data) :
    RoundsVals c IsRoundAway (fun a => Below31 a ∧ 2 * ((val a).natAbs % 2 ^ unitExp c.w) ≠ 2 ^ unitExp c.w) x (vRound c x) := by
  have hw := fltW hc.ety hf
  refine rel_of_lane hc (roundV c.s c.T c.v) (fun a r => (Below31 a ∧ 2 * ((val a).natAbs % 2 ^ unitExp c.w) ≠ 2 ^ unitExp c.w) → RoundsVal IsRoundAway a r) x fun y i hi hb => ?_
  have e : lane c.w (roundV c.s c.T c.v y) i = roundLane (lane c.w y i) := roundV_old hc.ety hi hs y
  rw [e]
  generalize lane c.w y i = X at *
  obtain ⟨r1, z, hz, hv⟩ := roundLane_fits hw hb.1.fits
  refine ⟨r1, z, ?_, hv⟩
  exact away_of_toward (by exact_mod_cast Nat.two_pow_pos _) hz (fun k hk => hb.2 (tie_of_odd (Nat.two_pow_pos _) hk))
/-- C39, round before SSE4.1, halves: truncated instead of rounded away from zero. -/
theorem C39_round_tie_violated (x : c.Data) :
    EachElt c (fun a r => Below31 a → 2 * ((val a).natAbs % 2 ^ unitExp c.w) = 2 ^ unitExp c.w → RoundsVal IsTrunc a r ∧ ¬ RoundsVal IsRoundAway a r) x (vRound c x) := by
  have hw := fltW hc.ety hf
  refine each_of_lane hc (roundV c.s c.T c.v) x ?_
  intro y i hi hb ht
  have e : lane c.w (roundV c.s c.T c.v y) i = roundLane (lane c.w y i) := roundV_old hc.ety hi hs y
  rw [e]
  generalize lane c.w y i = X at *
  obtain ⟨r1, z, hz, hv⟩ := roundLane_fits hw hb.fits
  have hD : ((2 ^ unitExp c.w : Nat) : Int) ≠ 0 := by have := Nat.two_pow_pos (unitExp c.w); exact_mod_cast Nat.ne_of_gt this
  obtain ⟨t1, t2⟩ := tie_trunc (Nat.two_pow_pos _) ht hz
  refine ⟨⟨r1, z, t1, hv⟩, ?_⟩
  rintro ⟨-, z', hz', hv'⟩
  rw [hv] at hv'
  have : z = z' := Int.eq_of_mul_eq_mul_right hD hv'
  subst this
  exact t2 hz'
/-- C39, round before SSE4.1: NaN and infinities become `-2^32`. -/
theorem C39_round_nan_violated (x : c.Data) :
    EachElt c (fun a r => isNaN a = true ∨ isInf a = true → isFinite r = true ∧ val r = -(2 ^ 32 * 2 ^ unitExp c.w : Nat)) x (vRound c x) := by
  have hw := fltW hc.ety hf
  refine each_of_lane hc (roundV c.s c.T c.v) x ?_
  intro y i hi hb
  have e : lane c.w (roundV c.s c.T c.v y) i = roundLane (lane c.w y i) := roundV_old hc.ety hi hs y
  rw [e]
  exact roundLane_special hw hb

theorem lane_trunc8 (h8 : c.T.bytes = 8) (P : {w : Nat} → BitVec w → BitVec w → Prop)
    (hP : ∀ X : BitVec 64, P X (truncLane (if c.s.sse3 then 1023 else 1011) X)) {i : Nat} (hi : i < c.e) (y : Vec c.v) :
    P (lane c.w y i) (lane c.w (truncV c.s c.T c.v y) i) := by
  have hv : c.v = .v128 := by
    rcases hvv : c.v with _ | _
    · rfl
    · have := hc.wf.2.2.1 (hc.avx hvv)
      rw [hs] at this; cases this
  obtain ⟨s, ⟨b, f, sg⟩, N, v⟩ := c
  dsimp only at h8 hf hs hv hP
  subst h8; subst hf; subst hv
  have hi2 : i < 2 := by have : i < 16 / 8 := hi; omega
  have e : truncV s ⟨8, true, sg⟩ .v128 y = truncSse2 s y := by unfold truncV; rw [if_neg (by simp [hs]), if_pos rfl]
  show P (lane 64 y i) (lane 64 (truncV s ⟨8, true, sg⟩ .v128 y) i)
  rw [e]
  have := hP (lane 64 y i)
  rw [← truncSse2_lane s y hi2] at this
  exact this
/-- C39, trunc of doubles with SSE3 but without SSE4.1: right for every input. -/
theorem C39_trunc_sse3 (h8 : c.T.bytes = 8) (h3 : c.s.sse3 = true) (x : c.Data) : RoundsAll c IsTrunc x (vTrunc c x) := by
  refine each_of_lane hc (truncV c.s c.T c.v) x ?_
  intro y i hi
  exact lane_trunc8 hc hf hs h8 (fun a r => IsRoundFn IsTrunc a r) (fun X => by rw [if_pos h3]; exact truncLane_fn X) hi y
/-- C39, trunc of doubles with neither: right for `|x| >= 1` (biased exponent at least 1023) and below `2^-12`, for infinities and NaN. -/
theorem C39_trunc_sse2_partial (h8 : c.T.bytes = 8) (x : c.Data) :
    EachElt c (fun a r => 1023 ≤ expF a ∨ expF a < 1011 → IsRoundFn IsTrunc a r) x (vTrunc c x) := by
  refine each_of_lane hc (truncV c.s c.T c.v) x ?_
  intro y i hi
  refine lane_trunc8 hc hf hs h8 (fun a r => 1023 ≤ expF a ∨ expF a < 1011 → IsRoundFn IsTrunc a r) (fun X hX => ?_) hi y
  rcases hX with hX | hX
  · exact truncLane_big _ (by split <;> omega) hX
  · exact truncLane_small (by omega) (by split <;> omega)
/-- C39, trunc of doubles with neither, `2^-9 <= |x| < 1`: the result is not zero, and not even an integer. -/
theorem C39_trunc_violated (h8 : c.T.bytes = 8) (h3 : c.s.sse3 = false) (x : c.Data) :
    EachElt c (fun a r => 1014 ≤ expF a → expF a < 1023 → isFinite r = true ∧ ∀ z : Int, val r ≠ z * (2 ^ unitExp c.w : Nat)) x (vTrunc c x) := by
  refine each_of_lane hc (truncV c.s c.T c.v) x ?_
  intro y i hi
  refine lane_trunc8 hc hf hs h8 (fun {w} a r => 1014 ≤ expF a → expF a < 1023 → isFinite r = true ∧ ∀ z : Int, val r ≠ z * (2 ^ unitExp w : Nat)) (fun X h1 h2 => ?_) hi y
  rw [if_neg (by simp [h3])]
  obtain ⟨b1, b2, b3⟩ := truncLane_bad h1 h2
  refine ⟨b1, fun z hz => ?_⟩
  have hsm := small_of_bias (Or.inr rfl) b3
  rw [hz, Int.natAbs_mul] at hsm
  rcases Nat.eq_zero_or_pos z.natAbs with h0 | h0
  · have : z = 0 := by omega
    rw [this, Int.zero_mul] at hz
    exact b2 hz
  · have h1 : 1 ≤ z.natAbs := by omega
    have : 1 * 2 ^ unitExp 64 ≤ z.natAbs * ((2 ^ unitExp 64 : Nat) : Int).natAbs := Nat.mul_le_mul h1 (Nat.le_of_eq (Int.natAbs_natCast _).symm)
    rw [Nat.one_mul] at this
    exact Nat.lt_irrefl _ (Nat.lt_of_lt_of_le hsm this)
omit hf in
/-- C39, rint of doubles before SSE4.1: `2^53 - 1`, an odd integer, becomes `2^53`. -/
theorem C39_rint_double_violated (h8 : c.T.bytes = 8) (x : c.Data) :
    EachElt c (fun a r => a = BitVec.ofNat c.w 0x433fffffffffffff → r = BitVec.ofNat c.w 0x4340000000000000) x (vRint c x) := by
  refine each_of_lane hc (rintV c.s c.T c.v) x ?_
  intro y i hi ha
  have e : lane c.w (rintV c.s c.T c.v y) i = _ := rintV_old hc.ety hi hs y
  rw [e, if_pos h8]
  have key : ∀ {w : Nat}, w = 64 → rintTmp (BitVec.ofNat w 0x433fffffffffffff) = BitVec.ofNat w 0x4340000000000000 := by
    intro w hw; subst hw; decide +kernel
  have ha' : lane c.T.w y i = BitVec.ofNat c.T.w 0x433fffffffffffff := ha
  rw [ha']
  exact key (hx_w64 h8)
end C39sse2

/-! ### Concrete cases -/
/-- 6 doubles on plain SSE2, 5 doubles on SSE3, 8 floats on AVX -/
def exR2 : Cfg := ⟨.sse2L, .f64, 6, .v128⟩
def exR3 : Cfg := ⟨.sse3L, .f64, 5, .v128⟩
def exRA : Cfg := ⟨.avxL, .f32, 8, .v256⟩
theorem exR2_ok : exR2.Ok := ⟨by decide, by decide, by decide, by decide, by decide⟩
theorem exR3_ok : exR3.Ok := ⟨by decide, by decide, by decide, by decide, by decide⟩
theorem exRA_ok : exRA.Ok := ⟨by decide, by decide, by decide, by decide, by decide⟩
/-- what a call does on `k` copies of one number -/
theorem each_bcast {c : Cfg} (hc : c.Ok) {P : BitVec c.w → BitVec c.w → Prop} (b : BitVec c.w) {out : Out c.Data}
    (h : EachElt c P (vbroadcast c b (zeroData c)) out) : ∃ r, out = .ok r ∧ ∀ i, i < c.N → P b (elt c r i) := by
  obtain ⟨r, hr, h⟩ := h
  refine ⟨r, hr, fun i hi => ?_⟩
  have := h i hi
  rwa [elt_vbroadcast hc _ _ hi] at this
/-- trunc(0.75) on SSE2 -/
example : ∃ r, vTrunc exR2 (vbroadcast exR2 0x3fe8000000000000 (zeroData exR2)) = .ok r ∧ ∀ i, i < 6 → ∀ z : Int, val (elt exR2 r i) ≠ z * (2 ^ unitExp exR2.w : Nat) := by
  obtain ⟨r, hr, h⟩ := each_bcast exR2_ok _ (C39_trunc_violated exR2_ok rfl rfl rfl rfl (vbroadcast exR2 0x3fe8000000000000 (zeroData exR2)))
  exact ⟨r, hr, fun i hi => (h i hi (by decide) (by decide)).2⟩
/-- trunc(-1e300) on SSE3 -/
example : ∃ r, vTrunc exR3 (vbroadcast exR3 0xfe37e43c8800759c (zeroData exR3)) = .ok r ∧ ∀ i, i < 5 → (elt exR3 r i).msb = true := by
  obtain ⟨r, hr, h⟩ := each_bcast exR3_ok _ (C39_trunc_sse3 exR3_ok rfl rfl rfl rfl (vbroadcast exR3 0xfe37e43c8800759c (zeroData exR3)))
  exact ⟨r, hr, fun i hi => ((h i hi).sign (by decide)).trans (by decide)⟩
/-- rint(2^53 - 1) on SSE2 -/
example : ∃ r, vRint exR2 (vbroadcast exR2 0x433fffffffffffff (zeroData exR2)) = .ok r ∧ ∀ i, i < 6 → elt exR2 r i = 0x4340000000000000 := by
  obtain ⟨r, hr, h⟩ := each_bcast exR2_ok _ (C39_rint_double_violated exR2_ok rfl rfl (vbroadcast exR2 0x433fffffffffffff (zeroData exR2)))
  exact ⟨r, hr, fun i hi => h i hi rfl⟩
/-- ceil(-0.5f) on SSE2 -/
example : ∃ r, vCeil exF32 (vbroadcast exF32 0xbf000000 (zeroData exF32)) = .ok r ∧ ∀ i, i < 6 → elt exF32 r i = 0 := by
  obtain ⟨r, hr, h⟩ := each_bcast exF32_ok _ (C39_zero_sign_violated exF32_ok rfl rfl (vbroadcast exF32 0xbf000000 (zeroData exF32))).1
  exact ⟨r, hr, fun i hi => h i hi (by decide) (by decide +kernel)⟩
/-- round(2.5f) and floor(NaN) on SSE2, round(7) on AVX -/
example : ∃ r, vRound exF32 (vbroadcast exF32 0x40200000 (zeroData exF32)) = .ok r ∧ ∀ i, i < 6 → ¬ RoundsVal IsRoundAway (0x40200000 : BitVec exF32.w) (elt exF32 r i) := by
  obtain ⟨r, hr, h⟩ := each_bcast exF32_ok _ (C39_round_tie_violated exF32_ok rfl rfl (vbroadcast exF32 0x40200000 (zeroData exF32)))
  exact ⟨r, hr, fun i hi => (h i hi ⟨by decide, by decide +kernel⟩ (by decide +kernel)).2⟩
example : ∃ r, vFloor exF32 (vbroadcast exF32 0x7fc00000 (zeroData exF32)) = .ok r ∧ ∀ i, i < 6 → isFinite (elt exF32 r i) = true := by
  obtain ⟨r, hr, h⟩ := each_bcast exF32_ok _ (C39_range_violated exF32_ok rfl rfl (vbroadcast exF32 0x7fc00000 (zeroData exF32))).2.1
  exact ⟨r, hr, fun i hi => (h i hi (Or.inl (by decide))).1⟩
example : ∃ r, vRound exRA (vbroadcast exRA 0x40e00000 (zeroData exRA)) = .ok r ∧ ∀ i, i < 8 → isZero (elt exRA r i) = true :=
  C39_round_avx_violated exRA_ok rfl ⟨rfl, rfl⟩ _
example : RoundsAll exF64 IsRoundAway (vbroadcast exF64 0x4004000000000000 (zeroData exF64)) (vRound exF64 (vbroadcast exF64 0x4004000000000000 (zeroData exF64))) :=
  C39_round_sse41_partial exF64_ok rfl rfl (by decide) _
end Dpm.X86
