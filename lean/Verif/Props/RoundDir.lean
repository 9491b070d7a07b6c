import Verif.Proofs.RintDir
import Verif.Proofs.RoundAway
import Verif.Props.X86Round
import Verif.Props.X86FloatExpr
/-!
C83: the rounding direction (`fesetround`).  The operators and `rint`, `nearbyint` are to use it, `ceil`, `floor`, `trunc` and `round` are not to
depend on it.
-/
namespace Dpm.X86
open Dpm.Reg Dpm.Fp

/-! ### the model for rounding to nearest -/
/-- C83: rounding to nearest, the calls are those of Model/Round.lean (C39). -/
theorem C83_nearest (c : Cfg) (x : c.Data) :
    mCeil .nearest c x = vCeil c x ∧ mFloor .nearest c x = vFloor c x ∧ mTrunc .nearest c x = vTrunc c x ∧ mRint .nearest c x = vRint c x ∧
      mNearbyint .nearest c x = vNearbyint c x ∧ mRound .nearest c x = vRound c x ∧ dirOps .nearest = ieee := by
  have e1 : ∀ w, (faddM .nearest : BitVec w → BitVec w → BitVec w) = fadd := fun w => funext fun _ => funext fun _ => faddM_nearest _ _
  have e2 : ∀ w, (fsubM .nearest : BitVec w → BitVec w → BitVec w) = fsub := fun w => funext fun _ => funext fun _ => fsubM_nearest _ _
  have e3 : ∀ w, (fmulM .nearest : BitVec w → BitVec w → BitVec w) = fmul := fun w => funext fun _ => funext fun _ => fmulM_nearest _ _
  have e4 : ∀ w, (fdivM .nearest : BitVec w → BitVec w → BitVec w) = fdiv := fun w => funext fun _ => funext fun _ => fdivM_nearest _ _
  have a1 : ∀ (w : Nat) {n : Nat} (a b : BitVec n), faddLM .nearest w a b = faddL w a b := fun w _ a b => by unfold faddLM faddL; rw [e1]
  have a2 : ∀ (w : Nat) {n : Nat} (a b : BitVec n), fsubLM .nearest w a b = fsubL w a b := fun w _ a b => by unfold fsubLM fsubL; rw [e2]
  have a3 : ∀ (w : Nat) {n : Nat} (a b : BitVec n), fmulLM .nearest w a b = fmulL w a b := fun w _ a b => by unfold fmulLM fmulL; rw [e3]
  have a4 : ∀ (w : Nat) {n : Nat} (a : BitVec n), cvttBackM .nearest w a = cvttBack w a := fun w _ a => by
    unfold cvttBackM cvttBack; simp only [ofIntM_nearest]
  refine ⟨?_, ?_, ?_, ?_, ?_, ?_, ?_⟩
  · unfold mCeil vCeil ceilM ceilV; simp only [a1, a4]
  · unfold mFloor vFloor floorM floorV; simp only [a2, a4]
  · unfold mTrunc vTrunc truncM truncV; simp only [a4]
  · unfold mRint vRint rintM rintV; simp only [a1, a2]
  · unfold mNearbyint vNearbyint rintM rintV; simp only [a1, a2]
  · unfold mRound vRound roundM roundV; simp only [a1, a2, a3, a4]
  · unfold dirOps ieee; simp only [e1, e2, e3, e4]

/-! ### lanes -/
section lanes
variable {s : ISA} {T : Ety} (h : T.Ok) {v : VSz} {i : Nat} (hi : i < extent T v) (m : RMode)
include h hi
theorem faddLM_lane (a b : Vec v) : lane T.w (faddLM m T.w a b) i = faddM m (lane T.w a i) (lane T.w b i) := lane_map2 _ _ _ (lane_bound h hi)
theorem fsubLM_lane (a b : Vec v) : lane T.w (fsubLM m T.w a b) i = fsubM m (lane T.w a i) (lane T.w b i) := lane_map2 _ _ _ (lane_bound h hi)
theorem cvttBackM_lane (x : Vec v) : lane T.w (cvttBackM m T.w x) i = cvttLaneM m (lane T.w x i) := lane_map1 _ _ (lane_bound h hi)
theorem ceilM_old (hs : s.sse41 = false) (x : Vec v) : lane T.w (ceilM m s T v x) i = ceilLaneM m (lane T.w x i) := by
  unfold ceilM
  rw [if_neg (by simp [hs])]
  refine (faddLM_lane h hi m _ _).trans ?_
  rw [maskOne_lane h hi, cvttBackM_lane h hi]; rfl
theorem floorM_old (hs : s.sse41 = false) (x : Vec v) : lane T.w (floorM m s T v x) i = floorLaneM m (lane T.w x i) := by
  unfold floorM
  rw [if_neg (by simp [hs])]
  refine (fsubLM_lane h hi m _ _).trans ?_
  rw [maskOne_lane h hi, cvttBackM_lane h hi]; rfl
theorem rintM_old (hs : s.sse41 = false) (x : Vec v) : lane T.w (rintM m s T v x) i =
    if T.bytes = 8 then rintTmpM m (lane T.w x i)
    else if fLe (offsetBits T.w) (lane T.w x i &&& BitVec.intMax T.w) then lane T.w x i else rintTmpM m (lane T.w x i) := by
  unfold rintM
  rw [if_neg (by simp [hs])]
  extract_lets sg off ab mk tmp
  have hsg : lane T.w sg i = lane T.w x i &&& BitVec.intMin T.w := by
    refine (lane_and _ _ _ _).trans ?_
    rw [fillV_lane h _ hi]
  have hoff : lane T.w off i = offsetBits T.w := fillV_lane h _ hi
  have hab : lane T.w ab i = lane T.w x i ^^^ (lane T.w x i &&& BitVec.intMin T.w) := by
    refine (lane_xor _ _ _ _).trans ?_
    rw [hsg]
  have hm : lane T.w mk i = laneMask T.w (fLe (offsetBits T.w) (lane T.w x i &&& BitVec.intMax T.w)) := by
    refine (cmpF_lane h hi _ _ _).trans ?_
    rw [hoff, hab, Fp.xor_sign]
  have htmp : lane T.w tmp i = rintTmpM m (lane T.w x i) := by
    refine (lane_or _ _ _ _).trans ?_
    rw [fsubLM_lane h hi, faddLM_lane h hi, hab, hoff, hsg]; rfl
  split
  · refine (lane_or _ _ _ _).trans ?_
    rw [andnot_lane h hi, bitAnd_lane, htmp, hm, andnot_mask, mask_and]
    split <;> simp
  · refine (lane_or _ _ _ _).trans ?_
    rw [andnot_lane h hi, bitAnd_lane, htmp, hm, andnot_mask, mask_and]
    split <;> simp
theorem roundM_new (h4 : s.sse41 = true) (hv : ¬ (T.bytes = 4 ∧ v = .v256)) (x : Vec v) : lane T.w (roundM m s T v x) i = roundAddM m (lane T.w x i) := by
  unfold roundM
  rw [if_pos h4]
  dsimp only
  rw [if_neg hv]
  refine (roundL_lane h hi _ _).trans (congrArg _ ((faddLM_lane h hi m _ _).trans (congrArg _ ?_)))
  refine (lane_or _ _ _ _).trans ?_
  rw [fillV_lane h _ hi]
  refine congrArg (· ||| _) ((lane_and _ _ _ _).trans ?_)
  rw [fillV_lane h _ hi]
theorem fmulLM_lane (a b : Vec v) : lane T.w (fmulLM m T.w a b) i = fmulM m (lane T.w a i) (lane T.w b i) := lane_map2 _ _ _ (lane_bound h hi)
theorem roundM_old (hs : s.sse41 = false) (x : Vec v) : lane T.w (roundM m s T v x) i = roundLaneM m (lane T.w x i) := by
  unfold roundM
  rw [if_neg (by simp [hs])]
  refine (faddLM_lane h hi m _ _).trans ?_
  rw [cvttBackM_lane h hi, cvttBackM_lane h hi, fmulLM_lane h hi, fsubLM_lane h hi, cvttBackM_lane h hi, fillV_lane h _ hi]
  rfl
end lanes

/-! ### operators -/
section C83
variable {c : Cfg} (hc : c.Ok) (hf : c.T.flt = true) (m : RMode)
include hc hf
/-- C83: sums, differences, products and quotients of finite elements are rounded in the current direction. -/
theorem C83_operators (a b : c.Data) :
    (∃ r, opAdd (dirOps m) c a b = .ok r ∧ ∀ i, i < c.N → isFinite (elt c a i) = true → isFinite (elt c b i) = true → val (elt c a i) + val (elt c b i) ≠ 0 →
      IsRoundedDir m (decide (val (elt c a i) + val (elt c b i) < 0)) (val (elt c a i) + val (elt c b i)).natAbs 1 (elt c r i)) ∧
    (∃ r, opSub (dirOps m) c a b = .ok r ∧ ∀ i, i < c.N → isFinite (elt c a i) = true → isFinite (elt c b i) = true → val (elt c a i) - val (elt c b i) ≠ 0 →
      IsRoundedDir m (decide (val (elt c a i) - val (elt c b i) < 0)) (val (elt c a i) - val (elt c b i)).natAbs 1 (elt c r i)) ∧
    (∃ r, opMul (dirOps m) c a b = .ok r ∧ ∀ i, i < c.N → isFinite (elt c a i) = true → isFinite (elt c b i) = true →
      IsRoundedDir m (neg (elt c a i) != neg (elt c b i)) ((val (elt c a i)).natAbs * (val (elt c b i)).natAbs) (2 ^ unitExp c.w) (elt c r i)) ∧
    (∃ r, opDiv (dirOps m) c a b = .ok r ∧ ∀ i, i < c.N → isFinite (elt c a i) = true → isFinite (elt c b i) = true → val (elt c b i) ≠ 0 →
      IsRoundedDir m (neg (elt c a i) != neg (elt c b i)) ((val (elt c a i)).natAbs * 2 ^ unitExp c.w) (val (elt c b i)).natAbs (elt c r i)) := by
  have hw := fltW hc.ety hf
  have l2 : ∀ (f : BitVec c.w → BitVec c.w → BitVec c.w) (x y : Vec c.v) {i : Nat}, i < c.e →
      lane c.w (map2 c.w f x y) i = f (lane c.w x i) (lane c.w y i) := fun f x y i hi => lane_map2 f x y (lane_bound hc.ety hi)
  refine ⟨?_, ?_, ?_, ?_⟩
  · obtain ⟨r, hr, hk⟩ : Yields c (opAdd (dirOps m) c a b) (fun i => faddM m (elt c a i) (elt c b i)) :=
      ok_vec2 hc _ (faddM m) a b fun x y i hi => by unfold addV; rw [if_pos hf]; exact l2 _ x y hi
    refine ⟨r, hr, fun i hi h1 h2 h0 => ?_⟩
    rw [hk i hi]; dsimp only; rw [faddM_fin h1 h2, if_neg h0]
    exact roundDir_isRounded hw m _ Nat.one_pos
  · obtain ⟨r, hr, hk⟩ : Yields c (opSub (dirOps m) c a b) (fun i => fsubM m (elt c a i) (elt c b i)) :=
      ok_vec2 hc _ (fsubM m) a b fun x y i hi => by unfold subV; rw [if_pos hf]; exact l2 _ x y hi
    refine ⟨r, hr, fun i hi h1 h2 h0 => ?_⟩
    rw [hk i hi]; dsimp only; rw [fsubM_fin hw h1 h2, if_neg h0]
    exact roundDir_isRounded hw m _ Nat.one_pos
  · obtain ⟨r, hr, hk⟩ : Yields c (opMul (dirOps m) c a b) (fun i => fmulM m (elt c a i) (elt c b i)) := by
      unfold opMul; rw [if_pos (Or.inl hf)]
      exact rel_vec2 hc _ (fun x y r => r = fmulM m x y) a b fun x y => ⟨_, by unfold mulV; rw [if_pos hf]; rfl, fun i hi => l2 _ x y hi⟩
    refine ⟨r, hr, fun i hi h1 h2 => ?_⟩
    have a1 := finite_cls h1; have b1 := finite_cls h2
    have : fmulM m (elt c a i) (elt c b i) = roundDir c.w m (neg (elt c a i) != neg (elt c b i)) ((val (elt c a i)).natAbs * (val (elt c b i)).natAbs) (2 ^ unitExp c.w) := by
      unfold fmulM; simp [a1.1, a1.2, b1.1, b1.2]
    rw [hk i hi]; dsimp only; rw [this]
    exact roundDir_isRounded hw m _ (Nat.two_pow_pos _)
  · obtain ⟨r, hr, hk⟩ : Yields c (opDiv (dirOps m) c a b) (fun i => fdivM m (elt c a i) (elt c b i)) := by
      unfold opDiv; rw [if_pos hf]
      exact rel_vec2 hc _ (fun x y r => r = fdivM m x y) a b fun x y => ⟨_, rfl, fun i hi => l2 _ x y hi⟩
    refine ⟨r, hr, fun i hi h1 h2 h0 => ?_⟩
    have a1 := finite_cls h1; have b1 := finite_cls h2
    have hz : isZero (elt c b i) = false := by
      cases hq : isZero (elt c b i)
      · rfl
      · exact absurd ((val_zero_iff _).2 ((zero_iff _).1 hq)) h0
    have : fdivM m (elt c a i) (elt c b i) = roundDir c.w m (neg (elt c a i) != neg (elt c b i)) ((val (elt c a i)).natAbs * 2 ^ unitExp c.w) (val (elt c b i)).natAbs := by
      unfold fdivM; simp [a1.1, a1.2, b1.1, b1.2, hz]
    rw [hk i hi]; dsimp only; rw [this]
    exact roundDir_isRounded hw m _ (by omega)

/-! ### SSE4.1 -/
/-- C83, from SSE4.1 on: ceil, floor and trunc do not depend on the direction, rint and nearbyint round every element in it. -/
theorem C83_sse41 (h4 : c.s.sse41 = true) (x : c.Data) :
    (mCeil m c x = vCeil c x ∧ mFloor m c x = vFloor c x ∧ mTrunc m c x = vTrunc c x) ∧
      RoundsAll c (IsInDir m) x (mRint m c x) ∧ RoundsAll c (IsInDir m) x (mNearbyint m c x) := by
  refine ⟨⟨?_, ?_, ?_⟩, ?_, ?_⟩
  · unfold mCeil vCeil ceilM ceilV; simp only [h4, if_true]
  · unfold mFloor vFloor floorM floorV; simp only [h4, if_true]
  · unfold mTrunc vTrunc truncM truncV; simp only [h4, if_true]
  · exact sse41_rounds hc hf h4 m (toInt_inDir m) (rintM m c.s c.T c.v) (fun x => by unfold rintM; rw [if_pos h4]) x
  · exact sse41_rounds hc hf h4 m (toInt_inDir m) (rintM m c.s c.T c.v) (fun x => by unfold rintM; rw [if_pos h4]) x
/-- C83, round from SSE4.1 on (except 32-byte float vectors), in a direction that does not point away from zero for the element: right except
that halves go towards zero. -/
theorem C83_round_partial (h4 : c.s.sse41 = true) (hv : ¬ (c.T.bytes = 4 ∧ c.v = .v256)) (hm : m ≠ .nearest) (x : c.Data) :
    EachElt c (fun a r => isFinite a = true → m = .zero ∨ m = .down ∧ a.msb = false ∨ m = .up ∧ a.msb = true →
      r.msb = a.msb ∧ (2 * ((val a).natAbs % 2 ^ unitExp c.w) ≠ 2 ^ unitExp c.w → RoundsVal IsRoundAway a r)) x (mRound m c x) := by
  have hw := fltW hc.ety hf
  refine each_of_lane hc (roundM m c.s c.T c.v) x fun y i hi hfin hd => ?_
  have e : lane c.w (roundM m c.s c.T c.v y) i = roundAddM m (lane c.w y i) := roundM_new hc.ety hi m h4 hv y
  rw [e]
  generalize lane c.w y i = X at *
  have ha : away m X.msb = false := by
    rcases hd with rfl | ⟨rfl, h⟩ | ⟨rfl, h⟩
    · rfl
    · rw [h]; rfl
    · rw [h]; rfl
  obtain ⟨⟨r1, z, hz, hvz⟩, r2⟩ := roundAddM_toward hw hm hfin ha
  refine ⟨r2, fun hn => ⟨r1, z, ?_, hvz⟩⟩
  exact away_of_toward (by exact_mod_cast Nat.two_pow_pos _) hz (fun k hk => hn (tie_of_odd (Nat.two_pow_pos _) hk))
/-- C83, round from SSE4.1 on, in a direction that does not point away from zero: halves are truncated (`round(0.5)` is 0). -/
theorem C83_round_tie_violated (h4 : c.s.sse41 = true) (hv : ¬ (c.T.bytes = 4 ∧ c.v = .v256)) (x : c.Data) :
    EachElt c (fun a r => isFinite a = true → m = .zero ∨ m = .down ∧ a.msb = false ∨ m = .up ∧ a.msb = true →
      2 * ((val a).natAbs % 2 ^ unitExp c.w) = 2 ^ unitExp c.w → RoundsVal IsTrunc a r ∧ ¬ RoundsVal IsRoundAway a r) x (mRound m c x) := by
  have hw := fltW hc.ety hf
  refine each_of_lane hc (roundM m c.s c.T c.v) x fun y i hi hfin hd ht => ?_
  have e : lane c.w (roundM m c.s c.T c.v y) i = roundAddM m (lane c.w y i) := roundM_new hc.ety hi m h4 hv y
  rw [e]
  generalize lane c.w y i = X at *
  have ha : m ≠ .nearest ∧ away m X.msb = false := by
    rcases hd with rfl | ⟨rfl, h⟩ | ⟨rfl, h⟩
    · exact ⟨by simp, rfl⟩
    · rw [h]; exact ⟨by simp, rfl⟩
    · rw [h]; exact ⟨by simp, rfl⟩
  obtain ⟨⟨r1, z, hz, hvz⟩, r2⟩ := roundAddM_toward hw ha.1 hfin ha.2
  have hD : ((2 ^ unitExp c.w : Nat) : Int) ≠ 0 := by have := Nat.two_pow_pos (unitExp c.w); exact_mod_cast Nat.ne_of_gt this
  obtain ⟨t1, t2⟩ := tie_trunc (Nat.two_pow_pos _) ht hz
  refine ⟨⟨r1, z, t1, hvz⟩, ?_⟩
  rintro ⟨-, z', hz', hv'⟩
  rw [hvz] at hv'
  have : z = z' := Int.eq_of_mul_eq_mul_right hD hv'
  subst this
  exact t2 hz'
/-- C83, round from SSE4.1 on, in a direction that points away from zero: from `2^23` (`2^52`) on, where every number is an integer, the result is
the next larger one - infinity for the largest. -/
theorem C83_round_big_violated (h4 : c.s.sse41 = true) (hv : ¬ (c.T.bytes = 4 ∧ c.v = .v256)) (x : c.Data) :
    EachElt c (fun a r => isFinite a = true → m = .up ∧ a.msb = false ∨ m = .down ∧ a.msb = true →
      2 ^ mb c.w * 2 ^ unitExp c.w ≤ (val a).natAbs → r.msb = a.msb ∧ mag r = mag a + 1) x (mRound m c x) := by
  have hw := fltW hc.ety hf
  refine each_of_lane hc (roundM m c.s c.T c.v) x fun y i hi hfin hd hb => ?_
  have e : lane c.w (roundM m c.s c.T c.v y) i = roundAddM m (lane c.w y i) := roundM_new hc.ety hi m h4 hv y
  rw [e]
  generalize lane c.w y i = X at *
  refine roundAddM_big hw hfin ?_ hb
  rcases hd with ⟨rfl, h⟩ | ⟨rfl, h⟩
  · rw [h]; rfl
  · rw [h]; rfl

/-- C83, round from SSE4.1 on, in a direction that points away from zero: right below `2^23` (`2^52`), halves included. -/
theorem C83_round_away_partial (h4 : c.s.sse41 = true) (hv : ¬ (c.T.bytes = 4 ∧ c.v = .v256)) (x : c.Data) :
    EachElt c (fun a r => isFinite a = true → m = .up ∧ a.msb = false ∨ m = .down ∧ a.msb = true →
      (val a).natAbs < 2 ^ mb c.w * 2 ^ unitExp c.w → RoundsVal IsRoundAway a r ∧ r.msb = a.msb) x (mRound m c x) := by
  have hw := fltW hc.ety hf
  refine each_of_lane hc (roundM m c.s c.T c.v) x fun y i hi hfin hd hb => ?_
  have e : lane c.w (roundM m c.s c.T c.v y) i = roundAddM m (lane c.w y i) := roundM_new hc.ety hi m h4 hv y
  rw [e]
  generalize lane c.w y i = X at *
  refine roundAddM_away hw hfin ?_ hb
  rcases hd with ⟨rfl, h⟩ | ⟨rfl, h⟩
  · rw [h]; rfl
  · rw [h]; rfl

/-! ### before SSE4.1 -/
/-- C83, before SSE4.1, elements below `2^31`: the result of round is the same in every direction. -/
theorem C83_round_sse2_partial (hs : c.s.sse41 = false) (x : c.Data) :
    ∃ r r', mRound m c x = .ok r ∧ vRound c x = .ok r' ∧ ∀ i, i < c.N → Below31 (elt c x i) → elt c r i = elt c r' i := by
  have hw := fltW hc.ety hf
  have k1 : ∀ i, i < c.N → elt c (vectorize1 c (fun _ x => roundM m c.s c.T c.v x) (zeroData c) x) i = roundLaneM m (elt c x i) := fun i hi => by
    rw [elt_vec1 hc _ _ _ hi]; exact roundM_old hc.ety (idx_mod hc i) m hs _
  have k2 : ∀ i, i < c.N → elt c (vectorize1 c (fun _ x => roundV c.s c.T c.v x) (zeroData c) x) i = roundLane (elt c x i) := fun i hi => by
    rw [elt_vec1 hc _ _ _ hi]; exact roundV_old hc.ety (idx_mod hc i) hs _
  refine ⟨_, _, rfl, rfl, fun i hi hb => ?_⟩
  rw [k1 i hi, k2 i hi]; exact roundLaneM_eq hw m hb.fits
/-- C83: trunc does not depend on the direction on any target. -/
theorem C83_trunc (x : c.Data) : mTrunc m c x = vTrunc c x := by
  have hw := fltW hc.ety hf
  have a4 : ∀ {n : Nat} (a : BitVec n), cvttBackM m c.T.w a = cvttBack c.T.w a := fun a => by
    have : (fun b : BitVec c.T.w => ofIntM m c.T.w (cvtInt 32 .zero b).toInt) = fun b => ofInt c.T.w (cvtInt 32 .zero b).toInt :=
      funext fun b => cvttLaneM_eq hw m b
    unfold cvttBackM cvttBack; rw [this]
  unfold mTrunc vTrunc truncM truncV; simp only [a4]
/-- C83, before SSE4.1, elements below `2^31`: the result of ceil is the same in every direction, and so is the value of floor, in all directions but
downwards every bit. -/
theorem C83_ceil_floor_partial (hs : c.s.sse41 = false) (x : c.Data) :
    (∃ r r', mCeil m c x = .ok r ∧ vCeil c x = .ok r' ∧ ∀ i, i < c.N → Below31 (elt c x i) → elt c r i = elt c r' i) ∧
    RoundsVals c IsCeil Below31 x (mCeil m c x) ∧ RoundsVals c IsFloor Below31 x (mFloor m c x) ∧
    (∃ r r', mFloor m c x = .ok r ∧ vFloor c x = .ok r' ∧ ∀ i, i < c.N → Below31 (elt c x i) →
      m ≠ .down ∨ val (elt c x i) < 0 ∨ (2 ^ unitExp c.w : Nat) ≤ val (elt c x i) → elt c r i = elt c r' i) := by
  have hw := fltW hc.ety hf
  have k1 : ∀ i, i < c.N → elt c (vectorize1 c (fun _ x => ceilM m c.s c.T c.v x) (zeroData c) x) i = ceilLaneM m (elt c x i) := fun i hi => by
    rw [elt_vec1 hc _ _ _ hi]; exact ceilM_old hc.ety (idx_mod hc i) m hs _
  have k2 : ∀ i, i < c.N → elt c (vectorize1 c (fun _ x => ceilV c.s c.T c.v x) (zeroData c) x) i = ceilLane (elt c x i) := fun i hi => by
    rw [elt_vec1 hc _ _ _ hi]; exact ceilV_old hc.ety (idx_mod hc i) hs _
  have k3 : ∀ i, i < c.N → elt c (vectorize1 c (fun _ x => floorM m c.s c.T c.v x) (zeroData c) x) i = floorLaneM m (elt c x i) := fun i hi => by
    rw [elt_vec1 hc _ _ _ hi]; exact floorM_old hc.ety (idx_mod hc i) m hs _
  have k4 : ∀ i, i < c.N → elt c (vectorize1 c (fun _ x => floorV c.s c.T c.v x) (zeroData c) x) i = floorLane (elt c x i) := fun i hi => by
    rw [elt_vec1 hc _ _ _ hi]; exact floorV_old hc.ety (idx_mod hc i) hs _
  refine ⟨⟨_, _, rfl, rfl, fun i hi hb => ?_⟩, ⟨_, rfl, fun i hi hb => ?_⟩, ⟨_, rfl, fun i hi hb => ?_⟩, ⟨_, _, rfl, rfl, fun i hi hb hd => ?_⟩⟩
  · rw [k1 i hi, k2 i hi]; exact ceilLaneM_eq hw m hb.fits
  · rw [k1 i hi, ceilLaneM_eq hw m hb.fits]; exact ceilLane_fits hw hb.fits
  · rw [k3 i hi]; exact (floorLaneM_val hw m hb.fits).1
  · rw [k3 i hi, k4 i hi]; exact (floorLaneM_val hw m hb.fits).2.1 hd
/-- C83, before SSE4.1, rounding downwards: floor of `0 <= x < 1` is `-0`. -/
theorem C83_floor_zero_violated (hs : c.s.sse41 = false) (x : c.Data) :
    EachElt c (fun a r => 0 ≤ val a → val a < (2 ^ unitExp c.w : Nat) → isFinite a = true → r = BitVec.intMin c.w) x (mFloor .down c x) := by
  have hw := fltW hc.ety hf
  refine each_of_lane hc (floorM .down c.s c.T c.v) x fun y i hi h0 h1 hfin => ?_
  have e : lane c.w (floorM .down c.s c.T c.v y) i = floorLaneM .down (lane c.w y i) := floorM_old hc.ety hi .down hs y
  rw [e]
  generalize lane c.w y i = X at *
  refine (floorLaneM_val hw .down (Below31.fits ⟨hfin, ?_⟩)).2.2 rfl h0 h1
  have : 0 < 2 ^ unitExp c.w := Nat.two_pow_pos _
  have h2 : 1 * 2 ^ unitExp c.w ≤ 2 ^ 31 * 2 ^ unitExp c.w := Nat.mul_le_mul_right _ (by omega)
  change (val X).natAbs < 2 ^ 31 * 2 ^ unitExp c.w
  generalize 2 ^ unitExp c.w = U at *
  omega
/-- C83, rint and nearbyint before SSE4.1, floats, and doubles below `2^52`: right in every direction for elements that are not negative, and rounding
towards zero for all; except for the sign of a zero result rounding downwards. -/
theorem C83_rint_partial (hs : c.s.sse41 = false) (hm : m ≠ .nearest) (x : c.Data) :
    EachElt c (fun a r => c.T.bytes = 4 ∨ (val a).natAbs < 2 ^ 52 * 2 ^ unitExp c.w → isFinite a = true → m = .zero ∨ a.msb = false →
      RoundsVal (IsInDir m) a r ∧ (m ≠ .down → r.msb = a.msb)) x (mRint m c x) ∧ mNearbyint m c x = mRint m c x ∧
    EachElt c (fun a r => isNaN a = true → isNaN r = true) x (mRint m c x) := by
  have hw := fltW hc.ety hf
  refine ⟨?_, rfl, ?_⟩
  · refine each_of_lane hc (rintM m c.s c.T c.v) x fun y i hi hr hfin hd => ?_
    have e : lane c.w (rintM m c.s c.T c.v y) i = _ := rintM_old hc.ety hi m hs y
    rw [e]
    change (RoundsVal (IsInDir m) (lane c.T.w y i) _ ∧ (m ≠ .down → _ = (lane c.T.w y i).msb))
    change (c.T.bytes = 4 ∨ (val (lane c.T.w y i)).natAbs < 2 ^ 52 * 2 ^ unitExp c.T.w) at hr
    change isFinite (lane c.T.w y i) = true at hfin
    change m = .zero ∨ (lane c.T.w y i).msb = false at hd
    generalize lane c.T.w y i = X at *
    have ha : absDir m X.msb = m := by
      rcases hd with rfl | h
      · cases X.msb <;> rfl
      · rw [h]; cases m <;> rfl
    have small : (val X).natAbs < 2 ^ mb c.T.w * 2 ^ unitExp c.T.w → RoundsVal (IsInDir m) X (rintTmpM m X) ∧ (m ≠ .down → (rintTmpM m X).msb = X.msb) := by
      intro hl
      have := rintTmpM_small hw hm hfin hl
      rw [ha] at this
      exact ⟨this.1, this.2.1⟩
    by_cases h8 : c.T.bytes = 8
    · rw [if_pos h8]
      have hmb : mb c.T.w = 52 := by have : c.T.w = 64 := hx_w64 h8; rw [this]; rfl
      rw [← hmb] at hr
      exact small (hr.resolve_left (by omega))
    · rw [if_neg h8, le_offset hw (finite_cls hfin).1]
      split
      · next hb =>
        obtain ⟨z, hz⟩ := big_int hw (of_decide_eq_true hb)
        exact ⟨⟨hfin, z, inDir_int m (by exact_mod_cast Nat.two_pow_pos _) hz, hz⟩, fun _ => rfl⟩
      · next hb => exact small (by simpa using hb)
  · refine each_of_lane hc (rintM m c.s c.T c.v) x fun y i hi hn => ?_
    have e : lane c.w (rintM m c.s c.T c.v y) i = _ := rintM_old hc.ety hi m hs y
    rw [e]
    change isNaN (lane c.T.w y i) = true at hn
    generalize lane c.T.w y i = X at *
    split
    · exact rintTmpM_nan hw m hn
    · split
      · exact hn
      · exact rintTmpM_nan hw m hn
/-- C83, rint and nearbyint before SSE4.1: negative elements are rounded down when the direction is upwards, and towards zero when it is downwards:
unless the element is an integer, the wrong way. -/
theorem C83_rint_violated (hs : c.s.sse41 = false) (x : c.Data) :
    EachElt c (fun a r => isFinite a = true → a.msb = true → (val a).natAbs < 2 ^ mb c.w * 2 ^ unitExp c.w →
      RoundsVal IsFloor a r ∧ (¬ ((2 ^ unitExp c.w : Nat) : Int) ∣ val a → ¬ RoundsVal IsCeil a r)) x (mRint .up c x) ∧
    EachElt c (fun a r => isFinite a = true → a.msb = true → (val a).natAbs < 2 ^ mb c.w * 2 ^ unitExp c.w →
      RoundsVal IsTrunc a r ∧ (¬ ((2 ^ unitExp c.w : Nat) : Int) ∣ val a → ¬ RoundsVal IsFloor a r)) x (mRint .down c x) := by
  have hw := fltW hc.ety hf
  have hD : (0 : Int) < (2 ^ unitExp c.T.w : Nat) := by exact_mod_cast Nat.two_pow_pos _
  have lanes : ∀ (m : RMode) (y : Vec c.v) (i : Nat), i < c.e → isFinite (lane c.T.w y i) = true → (val (lane c.T.w y i)).natAbs < 2 ^ mb c.T.w * 2 ^ unitExp c.T.w →
      lane c.T.w (rintM m c.s c.T c.v y) i = rintTmpM m (lane c.T.w y i) := by
    intro m y i hi hfin hl
    rw [rintM_old hc.ety hi m hs y]
    split
    · rfl
    · rw [le_offset hw (finite_cls hfin).1, if_neg (by simpa using hl)]
  constructor
  · refine each_of_lane hc (rintM .up c.s c.T c.v) x fun y i hi hfin hn hl => ?_
    have e := lanes .up y i hi hfin hl
    change (RoundsVal IsFloor (lane c.T.w y i) (lane c.T.w (rintM .up c.s c.T c.v y) i) ∧
      (¬ ((2 ^ unitExp c.T.w : Nat) : Int) ∣ val (lane c.T.w y i) → ¬ RoundsVal IsCeil (lane c.T.w y i) (lane c.T.w (rintM .up c.s c.T c.v y) i)))
    rw [e]
    have h1 := (rintTmpM_small hw (m := .up) (by simp) hfin hl).1
    change (lane c.T.w y i).msb = true at hn
    rw [hn] at h1
    generalize rintTmpM .up (lane c.T.w y i) = r at *
    generalize lane c.T.w y i = X at *
    refine ⟨h1, fun hnd => ?_⟩
    rintro ⟨-, z', hz', hv'⟩
    obtain ⟨-, z, hz, hv⟩ := h1
    rw [hv] at hv'
    have : z = z' := Int.eq_of_mul_eq_mul_right (by omega) hv'
    subst this
    refine hnd ⟨z, ?_⟩
    have h2 : z * ((2 ^ unitExp c.T.w : Nat) : Int) ≤ val X := hz.1
    have h3 : val X ≤ z * ((2 ^ unitExp c.T.w : Nat) : Int) := hz'.2
    rw [Int.mul_comm]; omega
  · refine each_of_lane hc (rintM .down c.s c.T c.v) x fun y i hi hfin hn hl => ?_
    have e := lanes .down y i hi hfin hl
    change (RoundsVal IsTrunc (lane c.T.w y i) (lane c.T.w (rintM .down c.s c.T c.v y) i) ∧
      (¬ ((2 ^ unitExp c.T.w : Nat) : Int) ∣ val (lane c.T.w y i) → ¬ RoundsVal IsFloor (lane c.T.w y i) (lane c.T.w (rintM .down c.s c.T c.v y) i)))
    rw [e]
    have h1 := (rintTmpM_small hw (m := .down) (by simp) hfin hl).1
    change (lane c.T.w y i).msb = true at hn
    rw [hn] at h1
    generalize rintTmpM .down (lane c.T.w y i) = r at *
    have hneg : val (lane c.T.w y i) ≤ 0 := by unfold val neg; rw [hn]; simp
    generalize lane c.T.w y i = X at *
    refine ⟨h1, fun hnd => ?_⟩
    rintro ⟨-, z', hz', hv'⟩
    obtain ⟨-, z, hz, hv⟩ := h1
    rw [hv] at hv'
    have : z = z' := Int.eq_of_mul_eq_mul_right (by omega) hv'
    subst this
    refine hnd ⟨z, ?_⟩
    have h2 : z * ((2 ^ unitExp c.T.w : Nat) : Int) ≤ val X := hz'.1
    have hne : val X ≠ 0 := by intro h0; exact hnd (h0 ▸ Int.dvd_zero _)
    have h3 : val X ≤ z * ((2 ^ unitExp c.T.w : Nat) : Int) := (hz.2 (by omega)).2
    rw [Int.mul_comm]; omega
/-- C83, rint before SSE4.1, rounding downwards: `0 <= x < 1` gives `-0`. -/
theorem C83_rint_zero_violated (hs : c.s.sse41 = false) (x : c.Data) :
    EachElt c (fun a r => isFinite a = true → (val a).natAbs < 2 ^ unitExp c.w → r = BitVec.intMin c.w) x (mRint .down c x) := by
  have hw := fltW hc.ety hf
  refine each_of_lane hc (rintM .down c.s c.T c.v) x fun y i hi hfin hl => ?_
  have e : lane c.w (rintM .down c.s c.T c.v y) i = _ := rintM_old hc.ety hi .down hs y
  rw [e]
  change isFinite (lane c.T.w y i) = true at hfin
  change (val (lane c.T.w y i)).natAbs < 2 ^ unitExp c.T.w at hl
  generalize lane c.T.w y i = X at *
  have hb : (val X).natAbs < 2 ^ mb c.T.w * 2 ^ unitExp c.T.w := Nat.lt_of_lt_of_le hl (Nat.le_mul_of_pos_left _ (Nat.two_pow_pos _))
  have := (rintTmpM_small hw (m := .down) (by simp) hfin hb).2.2 rfl hl
  split
  · exact this
  · rw [le_offset hw (finite_cls hfin).1, if_neg (by simpa using hb)]; exact this
end C83

/-! ### cases that meet the hypotheses -/
/-- 1 + 2^-30 of floats, rounded upwards, is above 1: the sum of the values is not 0 and both operands are finite -/
example : ∃ r, opAdd (dirOps .up) exF32 (vbroadcast exF32 0x3f800000 (zeroData exF32)) (vbroadcast exF32 0x30800000 (zeroData exF32)) = .ok r ∧
    ∀ i, i < 6 → mag (elt exF32 r i) = 0x3f800001 := by
  obtain ⟨r, hr, h⟩ := (C83_operators exF32_ok rfl .up (vbroadcast exF32 0x3f800000 (zeroData exF32)) (vbroadcast exF32 0x30800000 (zeroData exF32))).1
  refine ⟨r, hr, fun i hi => ?_⟩
  have e1 : elt exF32 (vbroadcast exF32 0x3f800000 (zeroData exF32)) i = 0x3f800000#32 := elt_vbroadcast exF32_ok _ _ hi
  have e2 : elt exF32 (vbroadcast exF32 0x30800000 (zeroData exF32)) i = 0x30800000#32 := elt_vbroadcast exF32_ok _ _ hi
  have := h i hi
  rw [e1, e2] at this
  obtain ⟨-, p, hp, ho⟩ := this (by decide) (by decide) (by decide +kernel)
  have : p = 0x3f800001 := by
    have q : ∀ q, (val (0x3f800000#32) + val (0x30800000#32)).natAbs ≤ magVal (mb 32) q * 1 → p ≤ q := hp.2
    have h1 := q 0x3f800001 (by decide +kernel)
    have h2 : (val (0x3f800000#32) + val (0x30800000#32)).natAbs ≤ magVal (mb 32) p * 1 := hp.1
    by_contra hne
    have h3 : p ≤ 0x3f800000 := by omega
    have h4 : magVal (mb 32) p ≤ magVal (mb 32) 0x3f800000 := magVal_le.2 h3
    have h5 : magVal (mb 32) 0x3f800000 * 1 < (val (0x3f800000#32) + val (0x30800000#32)).natAbs := by decide +kernel
    omega
  rcases ho with ⟨-, ho⟩ | ⟨hl, -⟩
  · exact ho.trans this
  · rw [this] at hl; exact absurd hl (by decide)
/-- rint(-1.5) rounding upwards, SSE2: -2, not -1 -/
example : ∃ r, mRint .up exR2 (vbroadcast exR2 0xbff8000000000000 (zeroData exR2)) = .ok r ∧
    ∀ i, i < 6 → ¬ RoundsVal IsCeil (0xbff8000000000000 : BitVec exR2.w) (elt exR2 r i) := by
  obtain ⟨r, hr, h⟩ := each_bcast exR2_ok _ (C83_rint_violated exR2_ok rfl rfl (vbroadcast exR2 0xbff8000000000000 (zeroData exR2))).1
  exact ⟨r, hr, fun i hi => (h i hi (by decide) (by decide) (by decide +kernel)).2 (by decide +kernel)⟩
/-- rint(1.5f) rounding upwards, SSE2, is right; rint(-1.5f) rounding towards zero is right -/
example : ∃ r, mRint .up exF32 (vbroadcast exF32 0x3fc00000 (zeroData exF32)) = .ok r ∧
    ∀ i, i < 6 → RoundsVal IsCeil (0x3fc00000 : BitVec exF32.w) (elt exF32 r i) := by
  obtain ⟨r, hr, h⟩ := each_bcast exF32_ok _ (C83_rint_partial exF32_ok rfl .up rfl (by simp) (vbroadcast exF32 0x3fc00000 (zeroData exF32))).1
  exact ⟨r, hr, fun i hi => (h i hi (Or.inl rfl) (by decide) (Or.inr (by decide))).1⟩
example : ∃ r, mRint .zero exF32 (vbroadcast exF32 0xbfc00000 (zeroData exF32)) = .ok r ∧
    ∀ i, i < 6 → RoundsVal IsTrunc (0xbfc00000 : BitVec exF32.w) (elt exF32 r i) := by
  obtain ⟨r, hr, h⟩ := each_bcast exF32_ok _ (C83_rint_partial exF32_ok rfl .zero rfl (by simp) (vbroadcast exF32 0xbfc00000 (zeroData exF32))).1
  exact ⟨r, hr, fun i hi => (h i hi (Or.inl rfl) (by decide) (Or.inl rfl)).1⟩
/-- rint(0.25f) and floor(0.25f) rounding downwards, SSE2: -0 -/
example : ∃ r, mRint .down exF32 (vbroadcast exF32 0x3e800000 (zeroData exF32)) = .ok r ∧ ∀ i, i < 6 → elt exF32 r i = 0x80000000#32 := by
  obtain ⟨r, hr, h⟩ := each_bcast exF32_ok _ (C83_rint_zero_violated exF32_ok rfl rfl (vbroadcast exF32 0x3e800000 (zeroData exF32)))
  exact ⟨r, hr, fun i hi => h i hi (by decide) (by decide +kernel)⟩
example : ∃ r, mFloor .down exF32 (vbroadcast exF32 0x3e800000 (zeroData exF32)) = .ok r ∧ ∀ i, i < 6 → elt exF32 r i = 0x80000000#32 := by
  obtain ⟨r, hr, h⟩ := each_bcast exF32_ok _ (C83_floor_zero_violated exF32_ok rfl rfl (vbroadcast exF32 0x3e800000 (zeroData exF32)))
  exact ⟨r, hr, fun i hi => h i hi (by decide +kernel) (by decide +kernel) (by decide)⟩
/-- floor(1.5f) rounding downwards, SSE2, is right -/
example : ∃ r, mFloor .down exF32 (vbroadcast exF32 0x3fc00000 (zeroData exF32)) = .ok r ∧ ∀ i, i < 6 →
    Below31 (elt exF32 (vbroadcast exF32 0x3fc00000 (zeroData exF32)) i) → RoundsVal IsFloor (elt exF32 (vbroadcast exF32 0x3fc00000 (zeroData exF32)) i) (elt exF32 r i) :=
  (C83_ceil_floor_partial exF32_ok rfl .down rfl _).2.2.1
example : Below31 (0x3fc00000 : BitVec exF32.w) := ⟨by decide, by decide +kernel⟩
/-- doubles, AVX: round(2.5) rounding towards zero is 2; round(2.25) and round(2.75) are right; round(2^53) rounding upwards is 2^53 + 2 -/
example : ∃ r, mRound .zero exF64 (vbroadcast exF64 0x4004000000000000 (zeroData exF64)) = .ok r ∧
    ∀ i, i < 4 → ¬ RoundsVal IsRoundAway (0x4004000000000000 : BitVec exF64.w) (elt exF64 r i) := by
  obtain ⟨r, hr, h⟩ := each_bcast exF64_ok _ (C83_round_tie_violated exF64_ok rfl .zero rfl (by decide) (vbroadcast exF64 0x4004000000000000 (zeroData exF64)))
  exact ⟨r, hr, fun i hi => (h i hi (by decide) (Or.inl rfl) (by decide +kernel)).2⟩
example : ∃ r, mRound .down exF64 (vbroadcast exF64 0x4006000000000000 (zeroData exF64)) = .ok r ∧
    ∀ i, i < 4 → RoundsVal IsRoundAway (0x4006000000000000 : BitVec exF64.w) (elt exF64 r i) := by
  obtain ⟨r, hr, h⟩ := each_bcast exF64_ok _ (C83_round_partial exF64_ok rfl .down rfl (by decide) (by simp) (vbroadcast exF64 0x4006000000000000 (zeroData exF64)))
  exact ⟨r, hr, fun i hi => (h i hi (by decide) (Or.inr (Or.inl ⟨rfl, by decide⟩))).2 (by decide +kernel)⟩
example : ∃ r, mRound .up exF64 (vbroadcast exF64 0x4340000000000000 (zeroData exF64)) = .ok r ∧ ∀ i, i < 4 → mag (elt exF64 r i) = 0x4340000000000001 := by
  obtain ⟨r, hr, h⟩ := each_bcast exF64_ok _ (C83_round_big_violated exF64_ok rfl .up rfl (by decide) (vbroadcast exF64 0x4340000000000000 (zeroData exF64)))
  exact ⟨r, hr, fun i hi => (h i hi (by decide) (Or.inl ⟨rfl, by decide⟩) (by decide +kernel)).2⟩
/-- round(-2.5) rounding downwards, AVX: right; round(-2.5f), SSE2: the same in every direction -/
example : ∃ r, mRound .down exF64 (vbroadcast exF64 0xc004000000000000 (zeroData exF64)) = .ok r ∧
    ∀ i, i < 4 → RoundsVal IsRoundAway (0xc004000000000000 : BitVec exF64.w) (elt exF64 r i) := by
  obtain ⟨r, hr, h⟩ := each_bcast exF64_ok _ (C83_round_away_partial exF64_ok rfl .down rfl (by decide) (vbroadcast exF64 0xc004000000000000 (zeroData exF64)))
  exact ⟨r, hr, fun i hi => (h i hi (by decide) (Or.inr ⟨rfl, by decide⟩) (by decide +kernel)).1⟩
example : ∃ r r', mRound .up exF32 (vbroadcast exF32 0xc0200000 (zeroData exF32)) = .ok r ∧ vRound exF32 (vbroadcast exF32 0xc0200000 (zeroData exF32)) = .ok r' ∧
    ∀ i, i < 6 → elt exF32 r i = elt exF32 r' i := by
  obtain ⟨r, r', h1, h2, h⟩ := C83_round_sse2_partial exF32_ok rfl .up rfl (vbroadcast exF32 0xc0200000 (zeroData exF32))
  refine ⟨r, r', h1, h2, fun i hi => h i hi ?_⟩
  rw [elt_vbroadcast exF32_ok _ _ hi]
  exact ⟨by decide, by decide +kernel⟩
/-- SSE4.1 -/
example (x : exF64.Data) : RoundsAll exF64 IsCeil x (mRint .up exF64 x) := (C83_sse41 exF64_ok rfl .up rfl x).2.1
example (x : exR3.Data) : mTrunc .up exR3 x = vTrunc exR3 x := C83_trunc exR3_ok rfl .up x
end Dpm.X86
