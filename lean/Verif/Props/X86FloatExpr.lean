import Verif.Spec.FloatExpr
import Verif.Spec.FloatArith
import Verif.Props.Backends
import Verif.Props.X86Mbase
import Verif.Props.X86Hypot
import Verif.Props.GenericMath
/-!
C63: floating-point arithmetic of x86 vectors is IEEE arithmetic element by element, whole expressions included.
-/
namespace Dpm.X86
open Dpm.Reg Dpm.Util Dpm.Generic Dpm.Spec Dpm.Fp Dpm.GenericMath

/-! ### the arithmetic -/
section arith
variable {w : Nat} (h : W w)
include h
theorem inf_cls {x : BitVec w} (hi : isInf x = true) : isNaN x = false ∧ isZero x = false ∧ isFinite x = false := by
  have hp := infMag_pos h
  have hm := (inf_iff h x).1 hi
  refine ⟨?_, ?_, ?_⟩
  · cases hn : isNaN x
    · rfl
    · rw [nan_iff h, hm] at hn; omega
  · cases hn : isZero x
    · rfl
    · rw [zero_iff, hm] at hn; omega
  · cases hn : isFinite x
    · rfl
    · rw [finite_iff h, hm] at hn; omega
theorem zero_cls {x : BitVec w} (hz : isZero x = true) : isNaN x = false ∧ isInf x = false ∧ isFinite x = true := by
  have hf : isFinite x = true := by rw [finite_iff h, (zero_iff x).1 hz]; exact infMag_pos h
  exact ⟨(finite_cls hf).1, (finite_cls hf).2, hf⟩
theorem pack_inf (s : Bool) : isInf (pack w s (infMag w)) = true ∧ (pack w s (infMag w)).msb = s := by
  have hl : infMag w < 2 ^ (w - 1) := by rcases h with h | h <;> subst h <;> decide
  exact ⟨by rw [inf_iff h, mag_pack h hl], msb_pack h hl⟩
theorem pack_zero' (s : Bool) : isZero (pack w s 0) = true ∧ (pack w s 0).msb = s :=
  ⟨by rw [zero_iff, mag_pack h (Nat.two_pow_pos _)], msb_pack h (Nat.two_pow_pos _)⟩

theorem fadd_ieee (x y : BitVec w) : IsIeeeSum false x y (fadd x y) := by
  refine ⟨?_, fun hx hy => ⟨fun h1 h2 h3 => ?_, fun h1 h2 => ?_, fun h1 h2 => ?_, fun h1 h2 => fadd_isSum h h1 h2⟩⟩
  · rintro (hn | hn)
    · exact nan_fadd_l h hn
    · exact nan_fadd_r h hn
  · have h4 : (neg x != neg y) = true := by unfold neg; rw [xor_bne]; simpa using h3
    unfold fadd; rw [if_neg (by rw [hx]; decide), if_neg (by rw [hy]; decide), if_pos h1, h2, h4]
    exact nan_default h
  · unfold fadd; rw [if_neg (by rw [hx]; decide), if_neg (by rw [hy]; decide), if_pos h1, if_neg]
    intro h5
    rw [Bool.and_eq_true] at h5
    have := h2 h5.1
    have h4 := h5.2
    unfold neg at h4; rw [xor_bne] at h4
    simp [h4] at this
  · unfold fadd; rw [if_neg (by rw [hx]; decide), if_neg (by rw [hy]; decide), if_neg (by rw [h1]; decide), if_pos h2]
    exact ⟨h2, by simp⟩
theorem flip_cls (y : BitVec w) : isNaN (y ^^^ BitVec.intMin w) = isNaN y ∧ isInf (y ^^^ BitVec.intMin w) = isInf y ∧
    (y ^^^ BitVec.intMin w).msb = !y.msb := by
  exact ⟨nan_flip h y, inf_flip h y, neg_flip h y⟩
theorem fsub_ieee (x y : BitVec w) : IsIeeeSum true x y (fsub x y) := by
  obtain ⟨c1, c2, c3⟩ := flip_cls h y
  have hs : isNaN x = false → isNaN y = false → fsub x y = fadd x (y ^^^ BitVec.intMin w) := fun hx hy => by
    unfold fsub; rw [if_neg (by rw [hx]; decide), if_neg (by rw [hy]; decide)]
  refine ⟨?_, fun hx hy => ?_⟩
  · rintro (hn | hn)
    · exact nan_fsub_l h hn
    · exact nan_fsub_r h hn
  · have ha := (fadd_ieee h x (y ^^^ BitVec.intMin w)).2 hx (c1.trans hy)
    rw [c2, c3] at ha
    rw [hs hx hy]
    refine ⟨fun h1 h2 h3 => ha.1 h1 h2 (by simpa using h3), fun h1 h2 => ha.2.1 h1 (fun h3 => by simpa using h2 h3), fun h1 h2 => ?_, fun h1 h2 => ?_⟩
    · have := ha.2.2.1 h1 h2
      exact ⟨this.1, by rw [this.2]; simp⟩
    · rw [← hs hx hy]; exact fsub_isSum h h1 h2
theorem fmul_ieee (x y : BitVec w) : IsIeeeProd x y (fmul x y) := by
  refine ⟨?_, fun hx hy => ⟨fun h1 => ?_, fun h1 => ?_, fun h1 h2 => fmul_isProd h h1 h2⟩⟩
  · rintro (hn | hn)
    · exact nan_fmul_l h hn
    · exact nan_fmul_r h hn
  · unfold fmul; rw [if_neg (by rw [hx]; decide), if_neg (by rw [hy]; decide)]
    have a : (isInf x || isInf y) = true ∧ (isZero x || isZero y) = true := by
      rcases h1 with ⟨a, b⟩ | ⟨a, b⟩ <;> rw [a, b] <;> simp
    rw [if_pos a.1, if_pos a.2]; exact nan_default h
  · unfold fmul; rw [if_neg (by rw [hx]; decide), if_neg (by rw [hy]; decide)]
    have a : (isInf x || isInf y) = true ∧ (isZero x || isZero y) = false := by
      rcases h1 with ⟨a, b⟩ | ⟨a, b⟩
      · rw [a, b, (inf_cls h a).2.1]; simp
      · rw [a, b, (inf_cls h a).2.1]; simp
    rw [if_pos a.1, if_neg (by rw [a.2]; decide)]
    have := pack_inf h (neg x != neg y)
    refine ⟨this.1, this.2.trans ?_⟩
    unfold neg; rw [xor_bne]
theorem fdiv_ieee (x y : BitVec w) : IsIeeeQuot x y (fdiv x y) := by
  refine ⟨?_, fun hx hy => ?_⟩
  · rintro (hn | hn)
    · exact nan_fdiv_l h hn
    · exact nan_fdiv_r h hn
  have e : fdiv x y = if isInf x then if isInf y then defaultNaN w else pack w (neg x != neg y) (infMag w)
      else if isInf y then pack w (neg x != neg y) 0
      else if isZero y then if isZero x then defaultNaN w else pack w (neg x != neg y) (infMag w)
      else Fp.round w (neg x != neg y) ((val x).natAbs * 2 ^ unitExp w) (val y).natAbs := by
    unfold fdiv; rw [if_neg (by rw [hx]; decide), if_neg (by rw [hy]; decide)]
  have hs : (neg x != neg y) = (x.msb ^^ y.msb) := by unfold neg; rw [xor_bne]
  rw [e, hs]
  refine ⟨?_, ?_, fun h1 h2 => ?_, fun h1 h2 h3 => ?_⟩
  · rintro (⟨a, b⟩ | ⟨a, b⟩)
    · rw [if_pos a, if_pos b]; exact nan_default h
    · rw [if_neg (by rw [(zero_cls h a).2.1]; decide), if_neg (by rw [(zero_cls h b).2.1]; decide), if_pos b, if_pos a]; exact nan_default h
  · rintro (⟨a, b⟩ | ⟨a, b, d⟩)
    · rw [if_pos a, if_neg (by rw [b]; decide)]; exact pack_inf h _
    · rw [if_neg (by rw [(finite_cls a).2]; decide), if_neg (by rw [(zero_cls h d).2.1]; decide), if_pos d, if_neg (by rw [b]; decide)]
      exact pack_inf h _
  · rw [if_neg (by rw [h1]; decide), if_pos h2]; exact pack_zero' h _
  · rw [if_neg (by rw [(finite_cls h1).2]; decide), if_neg (by rw [(finite_cls h2).2]; decide), if_neg (by rw [h3]; decide)]
    exact round_isRounded h _ (natAbs_pos h3)
end arith

/-! ### operators of x86 vectors -/
section ops
variable {c : Cfg} (hc : c.Ok) (hf : c.T.flt = true) (a b : c.Data) (s : BitVec c.w)
include hc hf
theorem fops_yield :
    Yields c (opAdd ieee c a b) (fun i => fadd (elt c a i) (elt c b i)) ∧
    Yields c (opSub ieee c a b) (fun i => fsub (elt c a i) (elt c b i)) ∧
    Yields c (opMul ieee c a b) (fun i => fmul (elt c a i) (elt c b i)) ∧
    Yields c (opDiv ieee c a b) (fun i => fdiv (elt c a i) (elt c b i)) := by
  have l2 : ∀ (f : BitVec c.w → BitVec c.w → BitVec c.w) (x y : Vec c.v) {i : Nat}, i < c.e →
      lane c.w (map2 c.w f x y) i = f (lane c.w x i) (lane c.w y i) := fun f x y i hi => lane_map2 f x y (lane_bound hc.ety hi)
  refine ⟨ok_vec2 hc _ fadd a b fun x y i hi => ?_, ok_vec2 hc _ fsub a b fun x y i hi => ?_, ?_, ?_⟩
  · unfold addV; rw [if_pos hf]; exact l2 _ x y hi
  · unfold subV; rw [if_pos hf]; exact l2 _ x y hi
  · unfold opMul; rw [if_pos (Or.inl hf)]
    exact rel_vec2 hc _ (fun x y r => r = fmul x y) a b fun x y => ⟨_, by unfold mulV; rw [if_pos hf]; rfl, fun i hi => l2 _ x y hi⟩
  · unfold opDiv; rw [if_pos hf]
    exact rel_vec2 hc _ (fun x y r => r = fdiv x y) a b fun x y => ⟨_, rfl, fun i hi => l2 _ x y hi⟩
theorem fopsS_yield :
    Yields c (opAddS ieee c a s) (fun i => fadd (elt c a i) s) ∧
    Yields c (opSubS ieee c a s) (fun i => fsub (elt c a i) s) ∧
    Yields c (opMulS ieee c a s) (fun i => fmul (elt c a i) s) ∧
    Yields c (opDivS ieee c a s) (fun i => fdiv (elt c a i) s) ∧
    Yields c (opNeg c a) (fun i => elt c a i ^^^ BitVec.intMin c.w) := by
  have l2 : ∀ (f : BitVec c.w → BitVec c.w → BitVec c.w) (x : Vec c.v) {i : Nat}, i < c.e →
      lane c.w (map2 c.w f x (fillV c.v s)) i = f (lane c.w x i) s := fun f x i hi =>
    (lane_map2 f x _ (lane_bound hc.ety hi)).trans (congrArg (f _) (fillV_lane hc.ety s hi))
  refine ⟨ok_vec1 hc _ (fadd · s) a fun x i hi => ?_, ok_vec1 hc _ (fsub · s) a fun x i hi => ?_, ?_, ?_,
    ok_vec1 hc _ (fun x => x ^^^ BitVec.intMin c.w) a fun x i hi => ?_⟩
  · unfold addV; rw [if_pos hf]; exact l2 _ x hi
  · unfold subV; rw [if_pos hf]; exact l2 _ x hi
  · unfold opMulS; rw [if_pos (Or.inl hf)]
    exact rel_vec1 hc _ (fun x r => r = fmul x s) a fun x => ⟨_, by unfold mulV; rw [if_pos hf]; rfl, fun i hi => l2 _ x hi⟩
  · unfold opDivS; rw [if_pos hf]
    exact rel_vec1 hc _ (fun x r => r = fdiv x s) a fun x => ⟨_, rfl, fun i hi => l2 _ x hi⟩
  · unfold negV; rw [if_pos hf]
    refine (lane_xor _ _ _ _).trans (congrArg _ (fillV_lane hc.ety _ hi))

/-- C63 (operators): `+`, `-`, `*`, `/` of `float` and `double` vectors compile and give in every element the result IEEE 754 requires for the
elements at that index, for every pair of patterns (NaNs, infinities, zeros and subnormals included), on every instruction set and
vector width; unary `-` flips the sign bit and nothing else. -/
theorem C63_operators :
    EachElt2 c (IsIeeeSum false) a b (opAdd ieee c a b) ∧ EachElt2 c (IsIeeeSum true) a b (opSub ieee c a b) ∧
    EachElt2 c IsIeeeProd a b (opMul ieee c a b) ∧ EachElt2 c IsIeeeQuot a b (opDiv ieee c a b) ∧
    EachElt c (fun x r => ∀ k, k < c.w → r.getLsbD k = (x.getLsbD k ^^ decide (k + 1 = c.w))) a (opNeg c a) := by
  have hw := fltW hc.ety hf
  have h := fops_yield hc hf a b
  have h2 := fopsS_yield hc hf a 0
  refine ⟨?_, ?_, ?_, ?_, ?_⟩
  · obtain ⟨r, hr, hk⟩ := h.1; exact ⟨r, hr, fun i hi => by rw [hk i hi]; exact fadd_ieee hw _ _⟩
  · obtain ⟨r, hr, hk⟩ := h.2.1; exact ⟨r, hr, fun i hi => by rw [hk i hi]; exact fsub_ieee hw _ _⟩
  · obtain ⟨r, hr, hk⟩ := h.2.2.1; exact ⟨r, hr, fun i hi => by rw [hk i hi]; exact fmul_ieee hw _ _⟩
  · obtain ⟨r, hr, hk⟩ := h.2.2.2; exact ⟨r, hr, fun i hi => by rw [hk i hi]; exact fdiv_ieee hw _ _⟩
  · obtain ⟨r, hr, hk⟩ := h2.2.2.2.2
    refine ⟨r, hr, fun i hi k hk' => ?_⟩
    rw [hk i hi]
    simp only [BitVec.getLsbD_xor]
    rw [BitVec.intMin, BitVec.getLsbD_twoPow]
    have hk'' : k < c.w := hk'
    have hp : 0 < c.w := W.pos hw
    congr 1
    rw [Bool.eq_iff_iff, Bool.and_eq_true, decide_eq_true_eq, decide_eq_true_eq, decide_eq_true_eq]
    clear h h2 hk hr
    revert hk'' hp
    generalize c.w = n
    intro _ _
    omega
/-- C63 (scalar operands): the same for `x + s`, `x - s`, `x * s`, `x / s`. -/
theorem C63_operators_scalar :
    EachElt c (fun x r => IsIeeeSum false x s r) a (opAddS ieee c a s) ∧ EachElt c (fun x r => IsIeeeSum true x s r) a (opSubS ieee c a s) ∧
    EachElt c (fun x r => IsIeeeProd x s r) a (opMulS ieee c a s) ∧ EachElt c (fun x r => IsIeeeQuot x s r) a (opDivS ieee c a s) := by
  have hw := fltW hc.ety hf
  have h := fopsS_yield hc hf a s
  refine ⟨?_, ?_, ?_, ?_⟩
  · obtain ⟨r, hr, hk⟩ := h.1; exact ⟨r, hr, fun i hi => by rw [hk i hi]; exact fadd_ieee hw _ _⟩
  · obtain ⟨r, hr, hk⟩ := h.2.1; exact ⟨r, hr, fun i hi => by rw [hk i hi]; exact fsub_ieee hw _ _⟩
  · obtain ⟨r, hr, hk⟩ := h.2.2.1; exact ⟨r, hr, fun i hi => by rw [hk i hi]; exact fmul_ieee hw _ _⟩
  · obtain ⟨r, hr, hk⟩ := h.2.2.2.1; exact ⟨r, hr, fun i hi => by rw [hk i hi]; exact fdiv_ieee hw _ _⟩
end ops

/-! ### minimum and maximum of comparable numbers -/
theorem zero_val {w : Nat} {x : BitVec w} (h : val x = 0) : isZero x = true := by rw [zero_iff, ← val_zero_iff]; exact h
theorem comparable_eq {w : Nat} (h : W w) {x y : BitVec w} (hc : Comparable x y) (hv : val x = val y) : x = y := by
  by_cases h0 : val x = 0
  · exact hc.2.2 (zero_val h0) (zero_val (hv ▸ h0))
  · exact Fp.val_inj h h0 hv
theorem min_lane {w : Nat} (h : W w) {x y : BitVec w} (hc : Comparable x y) : fminLane x y = sfBin .vmin x y := by
  have h1 : fLt x y = decide (val x < val y) := by rw [fLt_eq h]; unfold Fp.lt; rw [hc.1, hc.2.1]; simp
  have h2 : Fp.lt y x = decide (val y < val x) := by unfold Fp.lt; rw [hc.1, hc.2.1]; simp
  unfold fminLane; simp only [sfBin]; rw [h1, h2]
  by_cases a : val x < val y
  · have b : ¬ val y < val x := by omega
    simp [a, b]
  · by_cases b : val y < val x
    · simp [a, b]
    · simp only [a, b, decide_false, Bool.false_eq_true, if_false]
      exact (comparable_eq h hc (by omega)).symm
theorem max_lane {w : Nat} (h : W w) {x y : BitVec w} (hc : Comparable x y) : fmaxLane x y = sfBin .vmax x y := by
  have h1 : fLt y x = decide (val y < val x) := by rw [fLt_eq h]; unfold Fp.lt; rw [hc.1, hc.2.1]; simp
  have h2 : Fp.lt x y = decide (val x < val y) := by unfold Fp.lt; rw [hc.1, hc.2.1]; simp
  unfold fmaxLane; simp only [sfBin]; rw [h1, h2]
  by_cases a : val y < val x
  · have b : ¬ val x < val y := by omega
    simp [a, b]
  · by_cases b : val x < val y
    · simp [a, b]
    · simp only [a, b, decide_false, Bool.false_eq_true, if_false]
      exact (comparable_eq h hc (by omega)).symm

section mm
variable {c : Cfg} (hc : c.Ok) (hf : c.T.flt = true) (a b : c.Data) (s : BitVec c.w)
include hc hf
theorem fminmax_yield :
    Yields c (vMin c a b) (fun i => fminLane (elt c a i) (elt c b i)) ∧ Yields c (vMax c a b) (fun i => fmaxLane (elt c a i) (elt c b i)) ∧
    Yields c (vMinS c a s) (fun i => fminLane (elt c a i) s) ∧ Yields c (vMaxS c a s) (fun i => fmaxLane (elt c a i) s) := by
  have l2 : ∀ (f : BitVec c.w → BitVec c.w → BitVec c.w) (x y : Vec c.v) {i : Nat}, i < c.e →
      lane c.w (map2 c.w f x y) i = f (lane c.w x i) (lane c.w y i) := fun f x y i hi => lane_map2 f x y (lane_bound hc.ety hi)
  have l1 : ∀ (f : BitVec c.w → BitVec c.w → BitVec c.w) (x : Vec c.v) {i : Nat}, i < c.e →
      lane c.w (map2 c.w f x (fillV c.v s)) i = f (lane c.w x i) s := fun f x i hi =>
    (lane_map2 f x _ (lane_bound hc.ety hi)).trans (congrArg (f _) (fillV_lane hc.ety s hi))
  refine ⟨?_, ?_, ?_, ?_⟩
  · unfold vMin; rw [if_pos (Or.inl hf)]
    exact rel_vec2 hc _ (fun x y r => r = fminLane x y) a b fun x y => ⟨_, by unfold minV; rw [if_pos hf], fun i hi => l2 _ x y hi⟩
  · unfold vMax; rw [if_pos (Or.inl hf)]
    exact rel_vec2 hc _ (fun x y r => r = fmaxLane x y) a b fun x y => ⟨_, by unfold maxV; rw [if_pos hf], fun i hi => l2 _ x y hi⟩
  · unfold vMinS; rw [if_pos (Or.inl hf)]
    exact rel_vec1 hc _ (fun x r => r = fminLane x s) a fun x => ⟨_, by unfold minV; rw [if_pos hf], fun i hi => l1 _ x hi⟩
  · unfold vMaxS; rw [if_pos (Or.inl hf)]
    exact rel_vec1 hc _ (fun x r => r = fmaxLane x s) a fun x => ⟨_, by unfold maxV; rw [if_pos hf], fun i hi => l1 _ x hi⟩
theorem fclamp_yield (x lo hi : c.Data) :
    Yields c (vClamp c x lo hi) (fun i => fminLane (fmaxLane (elt c x i) (elt c lo i)) (elt c hi i)) := by
  have l2 : ∀ (f : BitVec c.w → BitVec c.w → BitVec c.w) (x y : Vec c.v) {i : Nat}, i < c.e →
      lane c.w (map2 c.w f x y) i = f (lane c.w x i) (lane c.w y i) := fun f x y i hi => lane_map2 f x y (lane_bound hc.ety hi)
  unfold vClamp; rw [if_pos (Or.inl hf)]
  obtain ⟨t, ht, h1⟩ := rel_vec2 hc (fun x y => maxV c.s c.T c.v x y) (fun x y r => r = fmaxLane x y) x lo
    fun x y => ⟨_, by unfold maxV; rw [if_pos hf], fun i hi => l2 _ x y hi⟩
  obtain ⟨r, hr, h2⟩ := rel_vec2 hc (fun x y => minV c.s c.T c.v x y) (fun x y r => r = fminLane x y) t hi
    fun x y => ⟨_, by unfold minV; rw [if_pos hf], fun i hi => l2 _ x y hi⟩
  refine ⟨r, by rw [ht]; exact hr, fun i hi => ?_⟩
  rw [h2 i hi, h1 i hi]
end mm
theorem clamp_lane {w : Nat} (h : W w) {x l u : BitVec w} (h1 : Comparable x l) (h2 : Comparable x u) (h3 : Comparable l u) (h4 : Fp.lt u l = false) :
    fminLane (fmaxLane x l) u = if Fp.lt x l then l else if Fp.lt u x then u else x := by
  rw [max_lane h h1]
  have e : ∀ {p q : BitVec w}, isNaN p = false → isNaN q = false → Fp.lt p q = decide (val p < val q) := by
    intro p q a b; unfold Fp.lt; rw [a, b]; simp
  have a1 := e h1.1 h1.2.1
  have a2 := e h2.2.1 h2.1
  have a3 := e h3.2.1 h3.1
  rw [a3, decide_eq_false_iff_not] at h4
  simp only [sfBin]
  rw [a1, a2]
  by_cases b : val x < val l
  · simp only [b, decide_true, if_true]
    rw [min_lane h h3]
    simp only [sfBin]
    rw [a3, if_neg]
    simpa using h4
  · simp only [b, decide_false, Bool.false_eq_true, if_false]
    rw [min_lane h h2]
    simp only [sfBin]
    rw [a2]

/-! ### whole expressions -/
/-- element `i` of an x86 object of the given kind has the value `v`; a mask element is moreover stored as all ones or all zeros -/
def Holds (c : Cfg) : (k : Kind) → c.Data → Nat → SVal c.w k → Prop
  | .vec, r, i, v => elt c r i = v
  | .msk, r, i, v => mget c r i = v ∧ (elt c r i = 0 ∨ elt c r i = BitVec.allOnes c.w)
/-- element `i` of a generic object -/
def GHolds (w N : Nat) : (k : Kind) → GVal w N k → Nat → SVal w k → Prop
  | .vec, r, i, v => GSimd.get (N := N) r i = v
  | .msk, r, i, v => GSimd.get (N := N) r i = v
theorem holds_mask {c : Cfg} {out : Out c.Data} {p : Nat → Bool} (h : YieldsMask c out p) : ∃ r, out = .ok r ∧ ∀ i, i < c.N → Holds c .msk r i (p i) := by
  obtain ⟨r, hr, hk⟩ := h
  refine ⟨r, hr, fun i hi => ⟨(hk i hi).1, ?_⟩⟩
  rw [(hk i hi).2]
  cases p i
  · exact Or.inl rfl
  · exact Or.inr rfl
theorem xfBin_ok {c : Cfg} (hc : c.Ok) (hf : c.T.flt = true) (o : FBin) (a b : c.Data)
    (hk : o.isOrd → ∀ i, i < c.N → Comparable (elt c a i) (elt c b i)) :
    Yields c (xfBin c o a b) (fun i => sfBin o (elt c a i) (elt c b i)) := by
  have hw := fltW hc.ety hf
  cases o with
  | add => exact (fops_yield hc hf a b).1
  | sub => exact (fops_yield hc hf a b).2.1
  | mul => exact (fops_yield hc hf a b).2.2.1
  | div => exact (fops_yield hc hf a b).2.2.2
  | vmin => obtain ⟨r, hr, h⟩ := (fminmax_yield hc hf a b 0).1; exact ⟨r, hr, fun i hi => (h i hi).trans (min_lane hw (hk trivial i hi))⟩
  | vmax => obtain ⟨r, hr, h⟩ := (fminmax_yield hc hf a b 0).2.1; exact ⟨r, hr, fun i hi => (h i hi).trans (max_lane hw (hk trivial i hi))⟩
theorem xfBinS_ok {c : Cfg} (hc : c.Ok) (hf : c.T.flt = true) (o : FBin) (a : c.Data) (s : BitVec c.w)
    (hk : o.isOrd → ∀ i, i < c.N → Comparable (elt c a i) s) :
    Yields c (xfBinS c o a s) (fun i => sfBin o (elt c a i) s) := by
  have hw := fltW hc.ety hf
  cases o with
  | add => exact (fopsS_yield hc hf a s).1
  | sub => exact (fopsS_yield hc hf a s).2.1
  | mul => exact (fopsS_yield hc hf a s).2.2.1
  | div => exact (fopsS_yield hc hf a s).2.2.2.1
  | vmin => obtain ⟨r, hr, h⟩ := (fminmax_yield hc hf a a s).2.2.1; exact ⟨r, hr, fun i hi => (h i hi).trans (min_lane hw (hk trivial i hi))⟩
  | vmax => obtain ⟨r, hr, h⟩ := (fminmax_yield hc hf a a s).2.2.2; exact ⟨r, hr, fun i hi => (h i hi).trans (max_lane hw (hk trivial i hi))⟩
theorem xfCmp_ok {c : Cfg} (hc : c.Ok) (hf : c.T.flt = true) (o : Cmp) (a b : c.Data) :
    YieldsMask c (xCmp c o a b) (fun i => sfCmp o (elt c a i) (elt c b i)) := by
  have h := C32_operators hc hf a b
  cases o with
  | eq => exact h.1
  | ne => exact h.2.1
  | lt => exact h.2.2.1
  | gt => exact h.2.2.2.2.1
  | le => exact h.2.2.2.1
  | ge => exact h.2.2.2.2.2.1
theorem sqrt_yield {c : Cfg} (hc : c.Ok) (a : c.Data) : Yields c (vSqrt c a) (fun i => fsqrt (elt c a i)) :=
  ok_vec1 hc _ fsqrt a fun x _ hi => sqrtL_lane hc.ety hi x

/-- C63 (x86, whole expressions): every floating-point expression — any nesting of variables, constructors, `+ - * /` with vectors and
scalars, unary `-`, `sqrt`, `min`, `max`, `clamp`, comparisons, `!`, mask operators, `blend` and element writes — compiles and is defined
on x86 vectors of every instruction set, width and size, and its element `i` is the value of the scalar expression on the elements `i` of the
variables.  Excluded are `m && m` (wrong, C16), writes outside the vector, and `min`/`max`/`clamp` of operands that are not comparable. -/
theorem C63_expressions_partial {c : Cfg} (hc : c.Ok) (hf : c.T.flt = true) (ρ : XEnv c) (hρ : ∀ k, Canon c (ρ.msk k)) {k : Kind} (e : FEx c.w k)
    (hr : e.InRange c.N) (ha : e.Avoids False True)
    (ht : ∀ i, i < c.N → Tame (fun k => elt c (ρ.vec k) i) (fun k => mget c (ρ.msk k) i) i e) :
    ∃ r, evalXF c ρ e = .ok r ∧ ∀ i, i < c.N → Holds c k r i (sEval (fun k => elt c (ρ.vec k) i) (fun k => mget c (ρ.msk k) i) i e) := by
  have hw := fltW hc.ety hf
  induction e with
  | var k => exact ⟨_, rfl, fun i _ => rfl⟩
  | mvar k => exact ⟨_, rfl, fun i hi => ⟨rfl, hρ k i hi⟩⟩
  | bcast s => exact ⟨_, rfl, fun i hi => elt_vbroadcast hc s ρ.junk hi⟩
  | gen f => exact ⟨_, rfl, fun i hi => elt_vgenerate hc f ρ.junk hi⟩
  | mbcast b => exact ⟨_, rfl, fun i hi => ⟨(C17_constructors hc b (fun _ => b) ρ.junk ρ.junk 0 hi).1, C17_canonical hc (.ofBool b ρ.junk) i hi⟩⟩
  | mgen f => exact ⟨_, rfl, fun i hi => ⟨(C17_constructors hc true f ρ.junk ρ.junk 0 hi).2.1, C17_canonical hc (.ofGen f ρ.junk) i hi⟩⟩
  | neg a iha =>
    obtain ⟨x, hx, ax⟩ := iha hr ha ht
    obtain ⟨r, hr', h⟩ := (fopsS_yield hc hf x 0).2.2.2.2
    exact ⟨r, by simp only [evalXF, hx, Out.bind, hr'], fun i hi => (h i hi).trans (congrArg (· ^^^ BitVec.intMin c.w) (ax i hi))⟩
  | sqrt a iha =>
    obtain ⟨x, hx, ax⟩ := iha hr ha ht
    obtain ⟨r, hr', h⟩ := sqrt_yield hc x
    exact ⟨r, by simp only [evalXF, hx, Out.bind, hr'], fun i hi => (h i hi).trans (congrArg fsqrt (ax i hi))⟩
  | bin o a b iha ihb =>
    obtain ⟨x, hx, ax⟩ := iha hr.1 ha.1 (fun i hi => (ht i hi).1)
    obtain ⟨y, hy, ay⟩ := ihb hr.2 ha.2 (fun i hi => (ht i hi).2.1)
    obtain ⟨r, hr', h⟩ := xfBin_ok hc hf o x y (fun ho i hi => by
      have := (ht i hi).2.2 ho
      rw [show elt c x i = _ from ax i hi, show elt c y i = _ from ay i hi]; exact this)
    exact ⟨r, by simp only [evalXF, hx, hy, Out.bind, hr'], fun i hi => (h i hi).trans (congrArg₂ (sfBin o) (ax i hi) (ay i hi))⟩
  | binS o a s iha =>
    obtain ⟨x, hx, ax⟩ := iha hr ha (fun i hi => (ht i hi).1)
    obtain ⟨r, hr', h⟩ := xfBinS_ok hc hf o x s (fun ho i hi => by
      have := (ht i hi).2 ho
      rw [show elt c x i = _ from ax i hi]; exact this)
    exact ⟨r, by simp only [evalXF, hx, Out.bind, hr'], fun i hi => (h i hi).trans (congrArg (sfBin o · s) (ax i hi))⟩
  | clamp x lo hi ihx ihl ihh =>
    obtain ⟨x, hx, ax⟩ := ihx hr.1 ha.1 (fun i hi => (ht i hi).1)
    obtain ⟨l, hl, al⟩ := ihl hr.2.1 ha.2.1 (fun i hi => (ht i hi).2.1)
    obtain ⟨u, hu, au⟩ := ihh hr.2.2 ha.2.2 (fun i hi => (ht i hi).2.2.1)
    obtain ⟨r, hr', h⟩ := fclamp_yield hc hf x l u
    refine ⟨r, by simp only [evalXF, hx, hl, hu, Out.bind, hr'], fun i hi => (h i hi).trans ?_⟩
    obtain ⟨_, _, _, t1, t2, t3, t4⟩ := ht i hi
    dsimp only
    rw [show elt c x i = _ from ax i hi, show elt c l i = _ from al i hi, show elt c u i = _ from au i hi]
    exact clamp_lane hw t1 t2 t3 t4
  | blend m a b ihm iha ihb =>
    obtain ⟨m, hm, am⟩ := ihm hr.1 ha.1 (fun i hi => (ht i hi).1)
    obtain ⟨x, hx, ax⟩ := iha hr.2.1 ha.2.1 (fun i hi => (ht i hi).2.1)
    obtain ⟨y, hy, ay⟩ := ihb hr.2.2 ha.2.2 (fun i hi => (ht i hi).2.2)
    refine ⟨Mask.blend c m x y, by simp only [evalXF, hx, hy, hm, Out.bind], fun i hi => ?_⟩
    refine (C21_blend hc m x y hi).1.trans ?_
    rw [(am i hi).1, show elt c x i = _ from ax i hi, show elt c y i = _ from ay i hi]
    simp only [sEval, cond_eq_ite]
  | put x k s ihx =>
    obtain ⟨x, hx, ax⟩ := ihx hr.2 ha ht
    refine ⟨vset c x k s, by simp only [evalXF, hx, Out.bind, if_pos hr.1], fun i hi => ?_⟩
    refine (elt_setElt hc x k s i).trans ?_
    rw [show elt c x i = _ from ax i hi]
    rfl
  | cmp o a b iha ihb =>
    obtain ⟨x, hx, ax⟩ := iha hr.1 ha.1 (fun i hi => (ht i hi).1)
    obtain ⟨y, hy, ay⟩ := ihb hr.2 ha.2 (fun i hi => (ht i hi).2)
    obtain ⟨r, hr', h⟩ := holds_mask (xfCmp_ok hc hf o x y)
    refine ⟨r, by simp only [evalXF, hx, hy, Out.bind, hr'], fun i hi => ?_⟩
    have := h i hi
    rw [show elt c x i = _ from ax i hi, show elt c y i = _ from ay i hi] at this
    exact this
  | isZero a iha =>
    obtain ⟨x, hx, ax⟩ := iha hr ha ht
    obtain ⟨r, hr', h⟩ := holds_mask (C32_operators hc hf x x).2.2.2.2.2.2
    refine ⟨r, by simp only [evalXF, hx, Out.bind, hr'], fun i hi => ?_⟩
    have := h i hi
    rw [show elt c x i = _ from ax i hi] at this
    exact this
  | mun o m ihm =>
    obtain ⟨m, hm, am⟩ := ihm hr ha.2 ht
    refine ⟨xMUn c o m, by simp only [evalXF, hm, Out.bind], fun i hi => ?_⟩
    have h := xMUn_ok hc o (fun i hi => (am i hi).2) i hi
    refine ⟨h.1.trans ?_, h.2⟩
    rw [(am i hi).1]
    cases o <;> rfl
  | mbin o a b iha ihb =>
    obtain ⟨x, hx, ax⟩ := iha hr.1 ha.2.1 (fun i hi => (ht i hi).1)
    obtain ⟨y, hy, ay⟩ := ihb hr.2 ha.2.2 (fun i hi => (ht i hi).2)
    refine ⟨xMBin c o x y, by simp only [evalXF, hx, hy, Out.bind], fun i hi => ?_⟩
    have hb : ¬ badMBin o := by
      have := ha.1 trivial
      cases o <;> first | exact fun h => h | exact absurd rfl this
    have h := xMBin_ok hc hb (fun i hi => (ax i hi).2) (fun i hi => (ay i hi).2) i hi
    refine ⟨h.1.trans ?_, h.2⟩
    rw [(ax i hi).1, (ay i hi).1]
    simp only [sEval]
    cases o <;> rfl
  | mblend m a b ihm iha ihb =>
    obtain ⟨m, hm, am⟩ := ihm hr.1 ha.1 (fun i hi => (ht i hi).1)
    obtain ⟨x, hx, ax⟩ := iha hr.2.1 ha.2.1 (fun i hi => (ht i hi).2.1)
    obtain ⟨y, hy, ay⟩ := ihb hr.2.2 ha.2.2 (fun i hi => (ht i hi).2.2)
    refine ⟨Mask.blend c m x y, by simp only [evalXF, hx, hy, hm, Out.bind], fun i hi => ⟨?_, ?_⟩⟩
    · refine (C21_blend hc m x y hi).2.trans ?_
      rw [(am i hi).1, (ax i hi).1, (ay i hi).1]
      simp only [sEval, cond_eq_ite]
    · rw [(C21_blend hc m x y hi).1]
      split
      · exact (ax i hi).2
      · exact (ay i hi).2
  | mput m k b ihm =>
    obtain ⟨m, hm, am⟩ := ihm hr.2 ha ht
    refine ⟨Mask.setElem c m k b, by simp only [evalXF, hm, Out.bind, if_pos hr.1], fun i hi => ⟨?_, ?_⟩⟩
    · rw [(C17_constructors hc b (fun _ => b) m m k hi).2.2, (am i hi).1]
      rfl
    · unfold Mask.setElem
      rw [elt_setElt hc, extendBool_eq]
      by_cases h : i = k
      · rw [if_pos h]; cases b
        · exact Or.inl rfl
        · exact Or.inr rfl
      · rw [if_neg h]; exact (am i hi).2

/-! ### the generic backend, and agreement -/
section generic
variable {w N : Nat}
theorem ofUb_lane {f : Nat → BitVec w} {res : Option (GSimd (BitVec w) N)} (h : EachLane (Out.ofUb res) f) :
    ∃ r, Out.ofUb res = .ok r ∧ ∀ i, i < N → GHolds w N .vec r i (f i) := h
theorem lw1_total {f : BitVec w → BitVec w} {a : GSimd (BitVec w) N} {res : Option (GSimd (BitVec w) N)}
    (h : LaneWise1 N (fun x => some (f x)) a.get (res.map GSimd.get)) : ∃ r, Out.ofUb res = .ok r ∧ ∀ i, i < N → r.get i = f (a.get i) := by
  cases hr : res with
  | none =>
    rw [hr] at h
    obtain ⟨i, _, hn⟩ := h.1.1 rfl
    cases hn
  | some r =>
    rw [hr] at h
    exact ⟨r, rfl, fun i hi => (Option.some.inj (h.2 r.get rfl i hi)).symm⟩
theorem lw2_total {f : BitVec w → BitVec w → BitVec w} {a b : GSimd (BitVec w) N} {res : Option (GSimd (BitVec w) N)}
    (h : LaneWise2 N (fun x y => some (f x y)) a.get b.get (res.map GSimd.get)) : ∃ r, Out.ofUb res = .ok r ∧ ∀ i, i < N → r.get i = f (a.get i) (b.get i) := by
  cases hr : res with
  | none =>
    rw [hr] at h
    obtain ⟨i, _, hn⟩ := h.1.1 rfl
    cases hn
  | some r =>
    rw [hr] at h
    exact ⟨r, rfl, fun i hi => (Option.some.inj (h.2 r.get rfl i hi)).symm⟩
theorem gfBin_ok (o : FBin) (a b : GSimd (BitVec w) N) : ∃ r, Out.ofUb (gfBin o a b) = .ok r ∧ ∀ i, i < N → r.get i = sfBin o (a.get i) (b.get i) := by
  apply lw2_total
  cases o <;> exact lift2_spec _ _ a b
theorem gfBinS_ok (o : FBin) (a : GSimd (BitVec w) N) (s : BitVec w) : ∃ r, Out.ofUb (gfBinS o a s) = .ok r ∧ ∀ i, i < N → r.get i = sfBin o (a.get i) s := by
  apply lw1_total (f := fun x => sfBin o x s)
  cases o
  · exact liftS_spec _ _ a s
  · exact liftS_spec _ _ a s
  · exact liftS_spec _ _ a s
  · exact liftS_spec _ _ a s
  · exact liftS_spec (fpScalar w).zero (fun x y => some (stdMin (fpScalar w).lt x y)) a s
  · exact liftS_spec (fpScalar w).zero (fun x y => some (stdMax (fpScalar w).lt x y)) a s
theorem gfCmp_ok (o : Cmp) (a b : GSimd (BitVec w) N) {i : Nat} (hi : i < N) : (gfCmp o a b).get i = sfCmp o (a.get i) (b.get i) := by
  cases o <;> exact cmpLift_get a b _ hi
end generic
/-- C63 (generic backend, whole expressions): with a C library whose `sqrt` is correctly rounded, element `i` of every expression is the
value of the scalar expression on the elements `i` of the variables.  Excluded are `~m` (wrong, C03), writes outside the vector and
`clamp` with bounds out of order. -/
theorem C63_generic_partial {w N : Nat} (L : Cmath w) (hL : ∀ x, L.fn1 .sqrt x = fsqrt x) (σ : GEnv w N) {k : Kind} (e : FEx w k)
    (hr : e.InRange N) (ha : e.Avoids True False)
    (ht : ∀ i, i < N → Tame (fun k => (σ.vec k).get i) (fun k => (σ.msk k).get i) i e) :
    ∃ g, evalGF L σ e = .ok g ∧ ∀ i, i < N → GHolds w N k g i (sEval (fun k => (σ.vec k).get i) (fun k => (σ.msk k).get i) i e) := by
  induction e with
  | var k => exact ⟨_, rfl, fun i _ => rfl⟩
  | mvar k => exact ⟨_, rfl, fun i hi => rfl⟩
  | bcast s => exact ⟨_, rfl, fun i hi => (C06_constructors (σ.vec 0) σ.junk σ.junk s (fun _ => s) i hi).1⟩
  | gen f => exact ⟨_, rfl, fun i hi => (C06_constructors (σ.vec 0) σ.junk σ.junk 0 f i hi).2.1⟩
  | mbcast b => exact ⟨_, rfl, fun i hi => (C06_constructors (σ.msk 0) σ.mjunk σ.mjunk b (fun _ => b) i hi).1⟩
  | mgen f => exact ⟨_, rfl, fun i hi => (C06_constructors (σ.msk 0) σ.mjunk σ.mjunk true f i hi).2.1⟩
  | neg a iha =>
    obtain ⟨x, hx, ax⟩ := iha hr ha ht
    obtain ⟨r, hr', h⟩ := lw1_total (f := fun v => v ^^^ BitVec.intMin w) (lift1_spec (fpScalar w).zero (fpScalar w).neg x)
    exact ⟨r, by simp only [evalGF, hx, Out.bind]; exact hr', fun i hi => (h i hi).trans (congrArg (· ^^^ BitVec.intMin w) (ax i hi))⟩
  | sqrt a iha =>
    obtain ⟨x, hx, ax⟩ := iha hr ha ht
    obtain ⟨r, hr', h⟩ := C58_unary L x .sqrt (by decide)
    exact ⟨r, by simp only [evalGF, hx, Out.bind]; exact hr', fun i hi => ((h i hi).trans (hL _)).trans (congrArg fsqrt (ax i hi))⟩
  | bin o a b iha ihb =>
    obtain ⟨x, hx, ax⟩ := iha hr.1 ha.1 (fun i hi => (ht i hi).1)
    obtain ⟨y, hy, ay⟩ := ihb hr.2 ha.2 (fun i hi => (ht i hi).2.1)
    obtain ⟨r, hr', h⟩ := gfBin_ok o x y
    exact ⟨r, by simp only [evalGF, hx, hy, Out.bind]; exact hr', fun i hi => (h i hi).trans (congrArg₂ (sfBin o) (ax i hi) (ay i hi))⟩
  | binS o a s iha =>
    obtain ⟨x, hx, ax⟩ := iha hr ha (fun i hi => (ht i hi).1)
    obtain ⟨r, hr', h⟩ := gfBinS_ok o x s
    exact ⟨r, by simp only [evalGF, hx, Out.bind]; exact hr', fun i hi => (h i hi).trans (congrArg (sfBin o · s) (ax i hi))⟩
  | clamp x lo hi ihx ihl ihh =>
    obtain ⟨x, hx, ax⟩ := ihx hr.1 ha.1 (fun i hi => (ht i hi).1)
    obtain ⟨l, hl, al⟩ := ihl hr.2.1 ha.2.1 (fun i hi => (ht i hi).2.1)
    obtain ⟨u, hu, au⟩ := ihh hr.2.2 ha.2.2 (fun i hi => (ht i hi).2.2.1)
    have hsp := vclamp_spec (fpScalar w) (N := N) x l u
    have hcl : ∀ i, i < N → Fp.lt (GSimd.get (N := N) u i) (GSimd.get (N := N) l i) = false := fun i hi => by
      rw [show GSimd.get (N := N) u i = _ from au i hi, show GSimd.get (N := N) l i = _ from al i hi]; exact (ht i hi).2.2.2.2.2.2
    cases hv : vclamp (fpScalar w) (N := N) x l u with
    | none =>
      rw [hv] at hsp
      obtain ⟨i, hi, hn⟩ := hsp.1.1 rfl
      unfold stdClamp at hn
      rw [if_neg (by rw [show (fpScalar w).lt = Fp.lt from rfl, hcl i hi]; decide)] at hn
      cases hn
    | some r =>
      rw [hv] at hsp
      refine ⟨r, by simp only [evalGF, hx, hl, hu, Out.bind]; rw [show vclamp (fpScalar w) (N := N) x l u = _ from hv]; rfl, fun i hi => ?_⟩
      have hn := hsp.2 r.get rfl i hi
      unfold stdClamp at hn
      rw [if_neg (by rw [show (fpScalar w).lt = Fp.lt from rfl, hcl i hi]; decide)] at hn
      refine (Option.some.inj hn).symm.trans ?_
      rw [show GSimd.get (N := N) x i = _ from ax i hi, show GSimd.get (N := N) l i = _ from al i hi, show GSimd.get (N := N) u i = _ from au i hi]
      rfl
  | blend m a b ihm iha ihb =>
    obtain ⟨m, hm, am⟩ := ihm hr.1 ha.1 (fun i hi => (ht i hi).1)
    obtain ⟨x, hx, ax⟩ := iha hr.2.1 ha.2.1 (fun i hi => (ht i hi).2.1)
    obtain ⟨y, hy, ay⟩ := ihb hr.2.2 ha.2.2 (fun i hi => (ht i hi).2.2)
    refine ⟨_, by simp only [evalGF, hx, hy, hm, Out.bind]; rfl, fun i hi => ?_⟩
    refine (C04_blend_lanewise _ m x y i hi).trans ?_
    rw [show GSimd.get (N := N) m i = _ from am i hi, show GSimd.get (N := N) x i = _ from ax i hi, show GSimd.get (N := N) y i = _ from ay i hi]
    simp only [sEval, cond_eq_ite]
  | put x k s ihx =>
    obtain ⟨x, hx, ax⟩ := ihx hr.2 ha ht
    refine ⟨GSimd.setAt (N := N) x k s, by simp only [evalGF, hx, Out.bind, if_pos hr.1], fun i hi => ?_⟩
    refine ((C06_constructors x σ.junk σ.junk s (fun _ => s) k hr.1).2.2.2 i).trans ?_
    rw [show GSimd.get (N := N) x i = _ from ax i hi]
    rfl
  | cmp o a b iha ihb =>
    obtain ⟨x, hx, ax⟩ := iha hr.1 ha.1 (fun i hi => (ht i hi).1)
    obtain ⟨y, hy, ay⟩ := ihb hr.2 ha.2 (fun i hi => (ht i hi).2)
    refine ⟨gfCmp (N := N) o x y, by simp only [evalGF, hx, hy, Out.bind], fun i hi => ?_⟩
    refine (gfCmp_ok (N := N) o x y hi).trans ?_
    rw [show GSimd.get (N := N) x i = _ from ax i hi, show GSimd.get (N := N) y i = _ from ay i hi]
    rfl
  | isZero a iha =>
    obtain ⟨x, hx, ax⟩ := iha hr ha ht
    refine ⟨Generic.opLNot (fpScalar w) (N := N) x, by simp only [evalGF, hx, Out.bind], fun i hi => ?_⟩
    refine (C01_compare_lanewise (fpScalar w) (N := N) x x i hi).2.2.2.2.2.2.trans ?_
    rw [show GSimd.get (N := N) x i = _ from ax i hi]
    rfl
  | mun o m ihm =>
    obtain ⟨m, hm, am⟩ := ihm hr ha.2 ht
    refine ⟨gMUn (N := N) o m, by simp only [evalGF, hm, Out.bind], fun i hi => ?_⟩
    have hb : ¬ badMUn o := by
      have := ha.1 trivial
      cases o <;> first | exact fun h => h | exact absurd rfl this
    refine (gMUn_get hb m hi).trans ?_
    rw [show GSimd.get (N := N) m i = _ from am i hi]
    cases o <;> rfl
  | mbin o a b iha ihb =>
    obtain ⟨x, hx, ax⟩ := iha hr.1 ha.2.1 (fun i hi => (ht i hi).1)
    obtain ⟨y, hy, ay⟩ := ihb hr.2 ha.2.2 (fun i hi => (ht i hi).2)
    refine ⟨gMBin (N := N) o x y, by simp only [evalGF, hx, hy, Out.bind], fun i hi => ?_⟩
    refine (gMBin_get o x y hi).trans ?_
    rw [show GSimd.get (N := N) x i = _ from ax i hi, show GSimd.get (N := N) y i = _ from ay i hi]
    cases o <;> rfl
  | mblend m a b ihm iha ihb =>
    obtain ⟨m, hm, am⟩ := ihm hr.1 ha.1 (fun i hi => (ht i hi).1)
    obtain ⟨x, hx, ax⟩ := iha hr.2.1 ha.2.1 (fun i hi => (ht i hi).2.1)
    obtain ⟨y, hy, ay⟩ := ihb hr.2.2 ha.2.2 (fun i hi => (ht i hi).2.2)
    refine ⟨maskBlend (N := N) m x y, by simp only [evalGF, hx, hy, hm, Out.bind], fun i hi => ?_⟩
    refine (C04_mask_ops_lanewise (N := N) m x y i hi).2.2.2.2.2.2.2.2.2.2.2.trans ?_
    rw [show GSimd.get (N := N) m i = _ from am i hi, show GSimd.get (N := N) x i = _ from ax i hi, show GSimd.get (N := N) y i = _ from ay i hi]
    simp only [sEval, cond_eq_ite]
  | mput m k b ihm =>
    obtain ⟨m, hm, am⟩ := ihm hr.2 ha ht
    refine ⟨GSimd.setAt (N := N) m k b, by simp only [evalGF, hm, Out.bind, if_pos hr.1], fun i hi => ?_⟩
    refine ((C06_constructors m σ.mjunk σ.mjunk b (fun _ => b) k hr.1).2.2.2 i).trans ?_
    rw [show GSimd.get (N := N) m i = _ from am i hi]
    rfl

/-- C63 (agreement): on every such expression the two backends return the same elements, bit for bit. -/
theorem C63_agree_partial {c : Cfg} (hc : c.Ok) (hf : c.T.flt = true) (L : Cmath c.w) (hL : ∀ x, L.fn1 .sqrt x = fsqrt x)
    (ρ : XEnv c) (σ : GEnv c.w c.N) (hρ : AgreeEnv c ρ σ) {k : Kind} (e : FEx c.w k) (hr : e.InRange c.N) (ha : e.Avoids True True)
    (ht : ∀ i, i < c.N → Tame (fun k => elt c (ρ.vec k) i) (fun k => mget c (ρ.msk k) i) i e) :
    ∃ r g, evalXF c ρ e = .ok r ∧ evalGF L σ e = .ok g ∧ Agree c k r g := by
  have av : ∀ {k : Kind} (e : FEx c.w k), e.Avoids True True → e.Avoids False True ∧ e.Avoids True False := by
    intro k e
    induction e <;> simp_all [FEx.Avoids]
  have ev : ∀ i, i < c.N → (fun k => elt c (ρ.vec k) i) = (fun k => (σ.vec k).get i) ∧ (fun k => mget c (ρ.msk k) i) = (fun k => (σ.msk k).get i) :=
    fun i hi => ⟨funext fun k => hρ.1 k i hi, funext fun k => (hρ.2 k i hi).1⟩
  obtain ⟨r, h1, h2⟩ := C63_expressions_partial hc hf ρ (fun k i hi => (hρ.2 k i hi).2) e hr (av e ha).1 ht
  obtain ⟨g, h3, h4⟩ := C63_generic_partial L hL σ e hr (av e ha).2 (fun i hi => by rw [← (ev i hi).1, ← (ev i hi).2]; exact ht i hi)
  refine ⟨r, g, h1, h3, ?_⟩
  cases k with
  | vec =>
    intro i hi
    have a := h2 i hi
    have b := h4 i hi
    rw [(ev i hi).1, (ev i hi).2] at a
    exact Eq.trans a (Eq.symm b)
  | msk =>
    intro i hi
    have a := h2 i hi
    have b := h4 i hi
    rw [(ev i hi).1, (ev i hi).2] at a
    exact ⟨Eq.trans a.1 (Eq.symm b), a.2⟩

/-- C63 violated: when the first operand of `min`, `max` or `clamp` is NaN the generic backend returns the NaN (as `std::min`, `std::max`,
`std::clamp` do) and the x86 backend the other operand, for every element type, width and size; and for the zeros of opposite signs they return
different zeros. -/
theorem C63_minmax_violated {c : Cfg} (hc : c.Ok) (hf : c.T.flt = true) (x y : c.Data) (i : Nat) (hi : i < c.N)
    (h : (isNaN (elt c x i) = true ∧ isNaN (elt c y i) = false) ∨ (elt c x i = 0 ∧ elt c y i = BitVec.intMin c.w)) :
    (∃ r, vMin c x y = .ok r ∧ elt c r i = elt c y i) ∧ (∃ r, vMax c x y = .ok r ∧ elt c r i = elt c y i) ∧
    (∃ g, Generic.vmin (fpScalar c.w) (⟨elt c x⟩ : GSimd (BitVec c.w) c.N) ⟨elt c y⟩ = some g ∧ g.get i = elt c x i) ∧
    (∃ g, Generic.vmax (fpScalar c.w) (⟨elt c x⟩ : GSimd (BitVec c.w) c.N) ⟨elt c y⟩ = some g ∧ g.get i = elt c x i) ∧ elt c x i ≠ elt c y i := by
  have hw : W c.w := fltW hc.ety hf
  have hl : Fp.lt (elt c x i) (elt c y i) = false ∧ Fp.lt (elt c y i) (elt c x i) = false ∧ elt c x i ≠ elt c y i := by
    rcases h with ⟨h1, h2⟩ | ⟨h1, h2⟩
    · refine ⟨by unfold Fp.lt; rw [h1]; simp, by unfold Fp.lt; rw [h1]; simp, fun he => ?_⟩
      rw [he, h2] at h1; cases h1
    · rw [h1, h2]
      generalize c.w = w at hw
      rcases hw with hw | hw <;> subst hw <;> decide
  have hs : fminLane (elt c x i) (elt c y i) = elt c y i ∧ fmaxLane (elt c x i) (elt c y i) = elt c y i := by
    unfold fminLane fmaxLane
    rw [fLt_eq hw, fLt_eq hw, hl.1, hl.2.1]; exact ⟨rfl, rfl⟩
  obtain ⟨⟨r1, a1, b1⟩, ⟨r2, a2, b2⟩, _⟩ := fminmax_yield hc hf x y 0
  obtain ⟨g1, d1, f1⟩ := total_lane (f := stdMin (fpScalar c.w).lt) (fpScalar c.w).zero (⟨elt c x⟩ : GSimd (BitVec c.w) c.N) ⟨elt c y⟩
  obtain ⟨g2, d2, f2⟩ := total_lane (f := stdMax (fpScalar c.w).lt) (fpScalar c.w).zero (⟨elt c x⟩ : GSimd (BitVec c.w) c.N) ⟨elt c y⟩
  refine ⟨⟨r1, a1, (b1 i hi).trans hs.1⟩, ⟨r2, a2, (b2 i hi).trans hs.2⟩, ⟨g1, d1, (f1 i hi).trans ?_⟩, ⟨g2, d2, (f2 i hi).trans ?_⟩, hl.2.2⟩
  · unfold stdMin
    rw [if_neg]; · rfl
    show ¬ Fp.lt (elt c y i) (elt c x i) = true
    rw [hl.2.1]; decide
  · unfold stdMax
    rw [if_neg]; · rfl
    show ¬ Fp.lt (elt c x i) (elt c y i) = true
    rw [hl.1]; decide
/-- a NaN and a number, in six `float`s -/
example : ∃ r, vMin exF32 (vbroadcast exF32 0x7fc00000 (zeroData exF32)) (vbroadcast exF32 0x3f800000 (zeroData exF32)) = .ok r ∧ elt exF32 r 5 = 0x3f800000 := by
  have e1 := elt_vbroadcast exF32_ok 0x7fc00000 (zeroData exF32) (i := 5) (by decide)
  have e2 := elt_vbroadcast exF32_ok 0x3f800000 (zeroData exF32) (i := 5) (by decide)
  obtain ⟨⟨r, hr, h⟩, _⟩ := C63_minmax_violated exF32_ok rfl (vbroadcast exF32 0x7fc00000 (zeroData exF32)) (vbroadcast exF32 0x3f800000 (zeroData exF32)) 5
    (by decide) (Or.inl ⟨by rw [e1]; decide, by rw [e2]; decide⟩)
  exact ⟨r, hr, h.trans e2⟩
/-- `blend(v0 < v1, sqrt(max(v0, 1.0f) * v1), -v0)` -/
def exFEx : FEx 32 .vec :=
  .blend (.cmp .lt (.var 0) (.var 1)) (.sqrt (.bin .mul (.binS .vmax (.var 0) 0x3f800000) (.var 1))) (.neg (.var 0))
/-- with `v0 = 4` and `v1 = 9` in every element it is `6` -/
example : ∃ r, evalXF exF32 ⟨fun k => vbroadcast exF32 (if k = 0 then 0x40800000 else 0x41100000) (zeroData exF32), fun _ => Mask.ofBool exF32 false (zeroData exF32), zeroData exF32⟩ exFEx = .ok r ∧
    elt exF32 r 5 = 0x40c00000 := by
  have e1 : ∀ i, i < exF32.N → elt exF32 (vbroadcast exF32 0x40800000 (zeroData exF32)) i = 0x40800000 := fun i hi =>
    elt_vbroadcast exF32_ok 0x40800000 (zeroData exF32) hi
  have e2 := elt_vbroadcast exF32_ok 0x41100000 (zeroData exF32) (i := 5) (by decide)
  obtain ⟨r, hr, h⟩ := C63_expressions_partial exF32_ok rfl
    ⟨fun k => vbroadcast exF32 (if k = 0 then 0x40800000 else 0x41100000) (zeroData exF32), fun _ => Mask.ofBool exF32 false (zeroData exF32), zeroData exF32⟩
    (fun k => C17_canonical exF32_ok (.ofBool false _)) exFEx (by simp [exFEx, FEx.InRange]) (by simp [exFEx, FEx.Avoids]) (fun i hi => by
      simp only [exFEx, Tame, FBin.isOrd, sEval, true_and, and_true, if_true]
      refine ⟨fun _ => ?_, fun h => h.elim⟩
      rw [e1 i hi]; exact ⟨by decide, by decide, fun h => absurd h (by decide)⟩)
  refine ⟨r, hr, (h 5 (by decide)).trans ?_⟩
  simp only [exFEx, sEval, sfCmp, sfBin, if_true, if_neg (by decide : ¬ (1 : Nat) = 0)]
  rw [e1 5 (by decide), e2]
  decide +kernel

/-- C51 (`x / s`, `x % s` with a scalar on the right, integers), proved when `size()` is a multiple of the native extent. -/
theorem C51_scalar_partial (fp : FpOps) {c : Cfg} (hc : c.Ok) (hint : c.T.flt = false) (hN : c.N % c.e = 0) (a : c.Data) (s : BitVec c.w) :
    YieldsIfDefined c (opDivS fp c a s) (fun i => c.T.ity.div (elt c a i) s) ∧
    YieldsIfDefined c (opRemS c a s) (fun i => c.T.ity.rem (elt c a i) s) := by
  refine ⟨?_, template1_ok hc hN _ a⟩
  unfold opDivS; rw [hint]; exact template1_ok hc hN _ a
/-- C51 violated: for every other width they read past a buffer of `size()` elements. -/
theorem C51_scalar_violated (fp : FpOps) {c : Cfg} (hc : c.Ok) (hint : c.T.flt = false) (hN : c.N % c.e ≠ 0) (a : c.Data) (s : BitVec c.w) :
    opDivS fp c a s = .ub ∧ opRemS c a s = .ub := by
  refine ⟨?_, template1_ub hc hN _ a⟩
  unfold opDivS; rw [hint]; exact template1_ub hc hN _ a
example (fp : FpOps) : ∃ r, opDivS fp exU16 (vbroadcast exU16 7 (zeroData exU16)) 2 = .ok r ∧ elt exU16 r 3 = 3 := by
  have e : ∀ i, i < exU16.N → elt exU16 (vbroadcast exU16 7 (zeroData exU16)) i = 7 := fun i hi => elt_vbroadcast exU16_ok 7 (zeroData exU16) hi
  obtain ⟨r, hr, h⟩ := (C51_scalar_partial fp exU16_ok rfl (by decide) (vbroadcast exU16 7 (zeroData exU16)) 2).1 (fun i hi => by
    dsimp only; rw [e i hi]; decide)
  refine ⟨r, hr, ?_⟩
  have := h 3 (by decide)
  dsimp only at this
  rw [e 3 (by decide)] at this
  exact (Option.some.inj ((show some (3 : BitVec exU16.w) = _ by decide).trans this)).symm
end Dpm.X86
