import Verif.Proofs.Trig
/-! Lane-wise form of `sin`, `cos`, `tan`, `asin`, `acos`, `atan`. -/
namespace Dpm.X86
open Dpm.Reg Dpm.Fp

theorem maskInvoke_lane {w n : Nat} (f : BitVec w → BitVec w) (x : BitVec n) : ∀ (k i : Nat) (m : BitVec 64) (y : BitVec n) (j : Nat),
    (j + 1) * w ≤ n → k ≤ 64 →
    lane w (maskInvoke w f x k i m y) j = if i ≤ j ∧ j < i + k ∧ m.getLsbD (j - i) = true then f (lane w x j) else lane w y j := by
  intro k
  induction k with
  | zero => intro i m y j hj _; rw [maskInvoke, if_neg (by omega)]
  | succ k ih =>
    intro i m y j hj hk
    rw [maskInvoke]
    split
    · rename_i hm
      rw [if_neg (by rw [hm]; simp)]
    · rw [ih _ _ _ _ hj (by omega)]
      have hb : (m &&& 1 = 0) ↔ m.getLsbD 0 = false := by
        constructor
        · intro h
          have := congrArg (fun b : BitVec 64 => b.getLsbD 0) h
          simpa using this
        · intro h
          apply BitVec.eq_of_getLsbD_eq
          intro t ht
          by_cases h0 : t = 0
          · subst h0; rw [BitVec.getLsbD_and, h]; simp
          · simp [BitVec.getLsbD_one, h0]
      by_cases hij : j = i
      · subst hij
        rw [if_neg (by omega)]
        by_cases h0 : m &&& 1 = 0
        · rw [if_pos h0, if_neg]
          rintro ⟨_, _, h3⟩
          rw [Nat.sub_self, hb.1 h0] at h3; cases h3
        · rw [if_neg h0, lane_ofLanes _ hj, if_pos rfl, if_pos]
          refine ⟨Nat.le_refl _, by omega, ?_⟩
          rw [Nat.sub_self]
          cases h : m.getLsbD 0
          · exact absurd (hb.2 h) h0
          · rfl
      · have e : lane w (if m &&& 1 = 0 then y else ofLanes n w (fun j => if j = i then f (lane w x i) else lane w y j)) j = lane w y j := by
          split
          · rfl
          · rw [lane_ofLanes _ hj, if_neg hij]
        rw [e]
        by_cases hlt : i ≤ j
        · have e1 : (m >>> 1).getLsbD (j - (i + 1)) = m.getLsbD (j - i) := by
            rw [BitVec.getLsbD_ushiftRight]; congr 1; omega
          rw [e1]
          have : (i + 1 ≤ j ∧ j < i + 1 + k ∧ m.getLsbD (j - i) = true) ↔ (i ≤ j ∧ j < i + (k + 1) ∧ m.getLsbD (j - i) = true) := by
            constructor
            · rintro ⟨a, b, c⟩; exact ⟨by omega, by omega, c⟩
            · rintro ⟨a, b, c⟩; exact ⟨by omega, by omega, c⟩
          simp only [this]
        · rw [if_neg (by omega), if_neg (by omega)]

theorem movemask_f (s : ISA) {T : Ety} (h : T.Ok) (hf : T.flt = true) (v : VSz) (x : Vec v) (p : Nat → Bool)
    (hp : ∀ i, i < extent T v → lane T.w x i = laneMask T.w (p i)) {k : Nat} (hk : k < 64) :
    (movemask s T v x).getLsbD k = (decide (k < extent T v) && p k) := by
  have hb : movemaskBits T = 1 := by
    unfold movemaskBits; rcases (h.2 hf).1 with h | h <;> simp [h]
  have hw : ¬ wideMask s T v := by
    rintro ⟨_, h2, _⟩; rcases (h.2 hf).1 with h | h <;> omega
  rw [movemask_canon s h v x p hp k hk, hb, Nat.mul_one, Nat.div_one, if_neg hw]
  by_cases h : k < extent T v <;> simp [h]
theorem extent_le64 {T : Ety} (h : T.Ok) (v : VSz) : extent T v ≤ 64 := by
  have hb := h.bytes_pos
  unfold extent
  cases v
  · exact Nat.le_trans (Nat.div_le_self _ _) (by decide)
  · exact Nat.le_trans (Nat.div_le_self _ _) (by decide)
/-- `if (m) mask_invoke(f, m, x, y)` -/
theorem special_lane (s : ISA) {T : Ety} (h : T.Ok) (hf : T.flt = true) {v : VSz} (f : BitVec T.w → BitVec T.w) (msk x y : Vec v) (p : Nat → Bool)
    (hp : ∀ i, i < extent T v → lane T.w msk i = laneMask T.w (p i)) {i : Nat} (hi : i < extent T v) :
    lane T.w (if movemask s T v msk ≠ 0 then maskInvoke T.w f x (extent T v) 0 (movemask s T v msk) y else y) i =
      if p i then f (lane T.w x i) else lane T.w y i := by
  have he := extent_le64 h v
  have hm := movemask_f s h hf v msk p hp (k := i) (by omega)
  rw [decide_eq_true hi, Bool.true_and] at hm
  split
  · rw [maskInvoke_lane _ _ _ _ _ _ _ (lane_bound h hi) he]
    by_cases hpi : p i = true
    · rw [if_pos hpi, if_pos ⟨by omega, by omega, by rw [Nat.sub_zero, hm, hpi]⟩]
    · rw [if_neg hpi, if_neg (by rintro ⟨_, _, h3⟩; rw [Nat.sub_zero, hm] at h3; exact hpi h3)]
  · rename_i h0
    have h0 : movemask s T v msk = 0 := Decidable.not_not.1 h0
    rw [h0] at hm
    rw [if_neg (by rw [← hm]; simp)]

/-! ### One-lane versions -/
/-- the domain check of `sin`, `cos`, `tan` -/
def finLane (o : MathOpt) {w : Nat} (ab : BitVec w) : BitVec w :=
  if o.handleErr && fEq ab (infBits w) then fdiv (fsub ab ab) 0#w else ab
/-- the domain check of `asin`, `acos` -/
def unitLane (o : MathOpt) {w : Nat} (ab : BitVec w) : BitVec w :=
  if o.handleErr && fLt (oneBits w) ab then fdiv (fsub ab ab) 0#w else ab
/-- the sign of `x` and `x` without it -/
def sgB {w : Nat} (x : BitVec w) : BitVec w := x &&& BitVec.intMin w
def abB {w : Nat} (x : BitVec w) : BitVec w := x ^^^ sgB x

def sinF (f : BitVec w → BitVec w) (ct cv : BitVec w → BitVec w) (o : MathOpt) (fm : Bool) (x : BitVec w) : BitVec w :=
  let ab := finLane o (abB x)
  if fLt (cvtMax w) ab then f x else sinLane ct cv fm (sgB x) ab
def cosF (f : BitVec w → BitVec w) (ct cv : BitVec w → BitVec w) (o : MathOpt) (fm : Bool) (x : BitVec w) : BitVec w :=
  let ab := finLane o (abB x)
  if fLt (cvtMax w) ab then f x else cosLane ct cv fm ab
def tanF (f : BitVec w → BitVec w) (ct cv : BitVec w → BitVec w) (o : MathOpt) (fm : Bool) (x : BitVec w) : BitVec w :=
  let ab := finLane o (abB x)
  if fLt (cvtMax w) ab then f x
  else if fLt ab (pio32 w) then fmul (polL fm (fmul x x) (tancof w)) x
  else fdiv (sinLane ct cv fm (sgB x) ab) (cosLane ct cv fm ab)
/-- `eval_asin` for `|x| > 0.625`, and for smaller `|x|` -/
def asinBig (fm : Bool) {w : Nat} (ab : BitVec w) : BitVec w :=
  let a := fsub (oneBits w) ab
  let p := fmul a (fdiv (polL fm a (asinR w)) (polL fm a (asinS w)))
  let r := fsqrt (fadd a a)
  fsub (fadd (fsub (pio4 w) r) (pio4 w)) (fmsL fm r p (asinOff w))
def asinSmall (fm : Bool) {w : Nat} (ab : BitVec w) : BitVec w :=
  let a := fmul ab ab
  fmaL fm ab (fmul a (fdiv (polL fm a (asinP w)) (polL fm a (asinQ w)))) ab
def asinAbs (fm : Bool) {w : Nat} (ab : BitVec w) : BitVec w :=
  if fLt ab (asinPmin w) then ab else if fLt (fiveEights w) ab then asinBig fm ab else asinSmall fm ab
def asinF (o : MathOpt) (fm : Bool) {w : Nat} (x : BitVec w) : BitVec w := asinAbs fm (unitLane o (abB x)) ^^^ sgB x
def acosF (o : MathOpt) (fm : Bool) {w : Nat} (x : BitVec w) : BitVec w :=
  let ab := unitLane o (abB x)
  if fLt (halfBits w) x then fmul (twoBits w) (asinAbs fm (fsqrt (fmaL fm ab (mhalfBits w) (halfBits w))))
  else fadd (fadd (fsub (pio4 w) (asinAbs fm ab ^^^ sgB x)) (asinOff w)) (pio4 w)
/-- the reduced argument of `atan`, what is added to the arctangent of it, and the arctangent of it -/
def atanRed {w : Nat} (ab : BitVec w) : BitVec w :=
  if fLt (tan3pio8 w) ab then fdiv (moneBits w) (if fEq ab 0#w then oneBits w else ab)
  else if fLt (p66 w) ab then fdiv (fadd ab (moneBits w)) (fadd ab (oneBits w)) else ab
def atanBase {w : Nat} (ab : BitVec w) : BitVec w :=
  if fLt (tan3pio8 w) ab then pio2 w else if fLt (p66 w) ab then pio4 w else 0#w
def atanPol (fm : Bool) {w : Nat} (r : BitVec w) : BitVec w :=
  let z := fmul r r
  fmaL fm r (fmul z (fdiv (polL fm z (atanP w)) (polL fm z (atanQ w)))) r
def atanAbs (fm : Bool) {w : Nat} (ab : BitVec w) : BitVec w :=
  let r := atanRed ab
  if fEq r (infBits w) then pio2 w
  else fadd (atanBase ab)
    (fadd (fadd (atanPol fm r) (if fLt (tan3pio8 w) ab || fLt (p66 w) ab then asinOffHalf w else 0#w))
      (if fLt (tan3pio8 w) ab then asinOffHalf w else 0#w))
def atanF (fm : Bool) {w : Nat} (x : BitVec w) : BitVec w := atanAbs fm (abB x) ^^^ sgB x

/-! ### The kernels, lane by lane -/
section lanes
variable {T : Ety} (h : T.Ok) {v : VSz}
include h
theorem absX_lane {i : Nat} (hi : i < extent T v) (x : Vec v) : lane T.w (bitXor x (masksign T v x)) i = abB (lane T.w x i) := by
  unfold bitXor
  rw [lane_xor, masksign_lane h hi]; rfl
theorem invalid_lane {i : Nat} (hi : i < extent T v) (x : Vec v) :
    lane T.w (fdivL T.w (fsubL T.w x x) (setzero v)) i = fdiv (fsub (lane T.w x i) (lane T.w x i)) 0#T.w := by
  rw [fdivL_lane h hi, fsubL_lane h hi, setzero_lane]
theorem enforceFinite_lane (o : MathOpt) (s : ISA) {i : Nat} (hi : i < extent T v) (x : Vec v) :
    lane T.w (enforceFinite o s T v x) i = finLane o (lane T.w x i) := by
  unfold enforceFinite finLane
  cases o.handleErr
  · rfl
  · simp only [if_true, Bool.true_and]
    rw [exceptInvalid, guard_lane s h hi _ _ _ _ (isinfAbs_lane h hi x), invalid_lane h hi]
theorem enforceUnit_lane (o : MathOpt) (s : ISA) {i : Nat} (hi : i < extent T v) (x : Vec v) :
    lane T.w (enforceUnit o s T v x) i = unitLane o (lane T.w x i) := by
  unfold enforceUnit unitLane
  cases o.handleErr
  · rfl
  · simp only [if_true, Bool.true_and]
    have hm : lane T.w (cmpF fLt T v (fillV v (oneBits T.w)) x) i = laneMask T.w (fLt (oneBits T.w) (lane T.w x i)) := by
      rw [cmpF_lane h hi, fillV_lane h _ hi]
    rw [exceptInvalid, guard_lane s h hi _ _ _ _ hm, invalid_lane h hi]
theorem cvtHasOverflow_lane {i : Nat} (hi : i < extent T v) (x : Vec v) :
    lane T.w (cvtHasOverflow T v x) i = laneMask T.w (fLt (cvtMax T.w) (lane T.w x i)) := by
  unfold cvtHasOverflow
  rw [cmpF_lane h hi, fillV_lane h _ hi]

variable (hf : T.flt = true) {s : ISA} (hw : s.Wf) (ha : v = .v256 → s.avx = true)
include hf hw ha
theorem implSincos_lane (fs fc : {w : Nat} → BitVec w → BitVec w) (o : MathOpt) (fm : Bool) (x : Vec v) {i : Nat} (hi : i < extent T v) :
    lane T.w (implSincos fs fc o s fm T v x).1 i = sinF fs (cvttLaneIF s v) (cvtLaneIF s T v) o fm (lane T.w x i) ∧
    lane T.w (implSincos fs fc o s fm T v x).2 i = cosF fc (cvttLaneIF s v) (cvtLaneIF s T v) o fm (lane T.w x i) := by
  unfold implSincos
  extract_lets sg ab of y m
  have e_ab : ∀ j, j < extent T v → lane T.w ab j = finLane o (abB (lane T.w x j)) := fun j hj => by
    refine (enforceFinite_lane h o s hj _).trans ?_
    rw [absX_lane h hj]
  have e_of : ∀ j, j < extent T v → lane T.w of j = laneMask T.w (fLt (cvtMax T.w) (finLane o (abB (lane T.w x j)))) := fun j hj => by
    refine (cvtHasOverflow_lane h hj _).trans ?_
    rw [e_ab j hj]
  have e_sg : lane T.w sg i = sgB (lane T.w x i) := masksign_lane h hi x
  have hy := evalSincos_lane s fm h hf hw ha sg (bitAndnot of ab) hi
  rw [andnot_lane h hi, e_of i hi, andnot_mask, e_ab i hi, e_sg] at hy
  have h1 := special_lane s h hf (fs (w := T.w)) of x y.1 _ e_of hi
  have h2 := special_lane s h hf (fc (w := T.w)) of x y.2 _ e_of hi
  have r1 : (if m ≠ 0 then (maskInvoke T.w fs x (extent T v) 0 m y.1, maskInvoke T.w fc x (extent T v) 0 m y.2) else y).1 =
      if m ≠ 0 then maskInvoke T.w fs x (extent T v) 0 m y.1 else y.1 := by split <;> rfl
  have r2 : (if m ≠ 0 then (maskInvoke T.w fs x (extent T v) 0 m y.1, maskInvoke T.w fc x (extent T v) 0 m y.2) else y).2 =
      if m ≠ 0 then maskInvoke T.w fc x (extent T v) 0 m y.2 else y.2 := by split <;> rfl
  rw [r1, r2]
  refine ⟨h1.trans ?_, h2.trans ?_⟩
  · unfold sinF
    dsimp only
    split
    · rfl
    · rename_i hov
      rw [if_neg hov] at hy
      exact hy.1
  · unfold cosF
    dsimp only
    split
    · rfl
    · rename_i hov
      rw [if_neg hov] at hy
      exact hy.2
theorem implTan_lane (L : Libm) (u1 u2 : Vec v) (o : MathOpt) (fm : Bool) (x : Vec v) {i : Nat} (hi : i < extent T v) :
    lane T.w (implTan L u1 u2 o s fm T x) i = tanF L.tan (cvttLaneIF s v) (cvtLaneIF s T v) o fm (lane T.w x i) := by
  unfold implTan
  extract_lets -merge w sg ab pm bits sc p1 p2 y m
  have e_ab : ∀ j, j < extent T v → lane T.w ab j = finLane o (abB (lane T.w x j)) := fun j hj => by
    refine (enforceFinite_lane h o s hj _).trans ?_
    rw [absX_lane h hj]
  have e_of : ∀ j, j < extent T v → lane T.w (cvtHasOverflow T v ab) j = laneMask T.w (fLt (cvtMax T.w) (finLane o (abB (lane T.w x j)))) := fun j hj => by
    refine (cvtHasOverflow_lane h hj _).trans ?_
    rw [e_ab j hj]
  have e_pm : ∀ j, j < extent T v → lane T.w pm j = laneMask T.w (fLt (finLane o (abB (lane T.w x j))) (pio32 T.w)) := fun j hj => by
    refine (cmpF_lane h hj _ _ _).trans ?_
    rw [fillV_lane h _ hj, e_ab j hj]
  have e_sg : lane T.w sg i = sgB (lane T.w x i) := masksign_lane h hi x
  have he := extent_le64 h v
  have e_bit : bits.getLsbD i = fLt (finLane o (abB (lane T.w x i))) (pio32 T.w) := by
    refine (movemask_f s h hf v pm _ e_pm (k := i) (by omega)).trans ?_
    rw [decide_eq_true hi, Bool.true_and]
  refine (special_lane s h hf (L.tan (w := T.w)) (cvtHasOverflow T v ab) x y _ e_of hi).trans ?_
  have e_y : lane T.w y i = if fLt (finLane o (abB (lane T.w x i))) (pio32 T.w) then lane T.w p2 i else lane T.w p1 i := blendv_lane s h v _ _ _ hi _ (e_pm i hi)
  unfold tanF
  dsimp only
  split
  · rfl
  · rw [e_y]
    split
    · rename_i hp
      have hb : bits ≠ 0 := by intro h0; rw [h0, hp] at e_bit; simp at e_bit
      have : p2 = fmulL w (polevlV fm w v (fmulL w x x) (tancof w)) x := if_pos hb
      rw [this]
      refine (fmulL_lane h hi _ _).trans ?_
      rw [polevlV_lane h hi, fmulL_lane h hi]
    · rename_i hp
      have hb : bits ≠ BitVec.ofNat 64 (2 ^ extent T v - 1) := by
        intro h0
        have hp2 : fLt (finLane o (abB (lane T.w x i))) (pio32 T.w) = false := by
          cases hq : fLt (finLane o (abB (lane T.w x i))) (pio32 T.w)
          · rfl
          · exact absurd hq hp
        rw [h0, hp2, BitVec.getLsbD_ofNat, Nat.testBit_two_pow_sub_one, decide_eq_true hi, decide_eq_true (by omega)] at e_bit
        cases e_bit
      have : p1 = fdivL w sc.1 sc.2 := if_pos hb
      rw [this]
      refine (fdivL_lane h hi _ _).trans ?_
      have hsc := evalSincos_lane s fm h hf hw ha sg ab hi
      rw [e_sg, e_ab i hi] at hsc
      rw [hsc.1, hsc.2]
end lanes
section lanes2
variable {T : Ety} (h : T.Ok) {v : VSz} {s : ISA}
include h
theorem evalAsin_lane (fm : Bool) (ab sg : Vec v) {i : Nat} (hi : i < extent T v) :
    lane T.w (evalAsin s fm T v ab sg) i = asinAbs fm (lane T.w ab i) ^^^ lane T.w sg i := by
  unfold evalAsin
  extract_lets -merge w pi4 pm xm a1 q1 r1 b1 a3 p1 a2 q2 p2 p3 p4
  have e_pm : lane T.w pm i = laneMask T.w (fLt (fiveEights T.w) (lane T.w ab i)) := by
    refine (cmpF_lane h hi _ _ _).trans ?_; rw [fillV_lane h _ hi]
  have e_xm : lane T.w xm i = laneMask T.w (fLt (lane T.w ab i) (asinPmin T.w)) := by
    refine (cmpF_lane h hi _ _ _).trans ?_; rw [fillV_lane h _ hi]
  have e_a1 : lane T.w a1 i = fsub (oneBits T.w) (lane T.w ab i) := by
    refine (fsubL_lane h hi _ _).trans ?_; rw [fillV_lane h _ hi]
  have e_q1 : lane T.w q1 i = fmul (lane T.w a1 i) (fdiv (polL fm (lane T.w a1 i) (asinR T.w)) (polL fm (lane T.w a1 i) (asinS T.w))) := by
    refine (fmulL_lane h hi _ _).trans (congrArg (fmul _) ((fdivL_lane h hi _ _).trans ?_))
    rw [polevlV_lane h hi, polevlV_lane h hi]
  have e_r1 : lane T.w r1 i = fsqrt (fadd (lane T.w a1 i) (lane T.w a1 i)) :=
    (sqrtL_lane h hi _).trans (congrArg fsqrt (faddL_lane h hi _ _))
  have e_pi4 : lane T.w pi4 i = pio4 T.w := fillV_lane h _ hi
  have e_b1 : lane T.w b1 i = fsub (pio4 T.w) (lane T.w r1 i) := by
    refine (fsubL_lane h hi _ _).trans ?_; rw [e_pi4]
  have e_a3 : lane T.w a3 i = fmsL fm (lane T.w r1 i) (lane T.w q1 i) (asinOff T.w) := by
    refine (fmsubV_lane h hi fm _ _ _).trans ?_; rw [fillV_lane h _ hi]
  have e_p1 : lane T.w p1 i = asinBig fm (lane T.w ab i) := by
    refine (fsubL_lane h hi _ _).trans ?_
    rw [e_a3, faddL_lane h hi, e_b1, e_pi4, e_q1, e_r1, e_a1]; rfl
  have e_a2 : lane T.w a2 i = fmul (lane T.w ab i) (lane T.w ab i) := fmulL_lane h hi _ _
  have e_q2 : lane T.w q2 i = fdiv (polL fm (lane T.w a2 i) (asinP T.w)) (polL fm (lane T.w a2 i) (asinQ T.w)) := by
    refine (fdivL_lane h hi _ _).trans ?_
    rw [polevlV_lane h hi, polevlV_lane h hi]
  have e_p2 : lane T.w p2 i = asinSmall fm (lane T.w ab i) := by
    refine (fmaddV_lane h hi fm _ _ _).trans ?_
    rw [fmulL_lane h hi, e_q2, e_a2]; rfl
  have e_p4 : lane T.w p4 i = asinAbs fm (lane T.w ab i) := by
    refine (blendv_lane s h v _ _ _ hi _ e_xm).trans ?_
    unfold asinAbs
    split
    · rfl
    · refine (blendv_lane s h v _ _ _ hi _ e_pm).trans ?_
      rw [e_p1, e_p2]
  refine (lane_xor _ _ _ _).trans ?_
  rw [e_p4]
theorem implAsin_lane (o : MathOpt) (fm : Bool) (x : Vec v) {i : Nat} (hi : i < extent T v) :
    lane T.w (implAsin o s fm T v x) i = asinF o fm (lane T.w x i) := by
  unfold implAsin asinF
  dsimp only
  rw [evalAsin_lane h fm _ _ hi, enforceUnit_lane h o s hi, absX_lane h hi, masksign_lane h hi]; rfl
theorem implAcos_lane (o : MathOpt) (fm : Bool) (x : Vec v) {i : Nat} (hi : i < extent T v) :
    lane T.w (implAcos o s fm T v x) i = acosF o fm (lane T.w x i) := by
  unfold implAcos
  extract_lets w pi4 sg ab cm a1 a2
  have e_pi4 : lane T.w pi4 i = pio4 T.w := fillV_lane h _ hi
  have e_ab : lane T.w ab i = unitLane o (abB (lane T.w x i)) := by
    refine (enforceUnit_lane h o s hi _).trans ?_
    rw [absX_lane h hi]
  have e_sg : lane T.w sg i = sgB (lane T.w x i) := masksign_lane h hi x
  have e_cm : lane T.w cm i = laneMask T.w (fLt (halfBits T.w) (lane T.w x i)) := by
    refine (cmpF_lane h hi _ _ _).trans ?_; rw [fillV_lane h _ hi]
  have e_a1 : lane T.w a1 i = fmul (twoBits T.w) (asinAbs fm (fsqrt (fmaL fm (lane T.w ab i) (mhalfBits T.w) (halfBits T.w)))) := by
    refine (fmulL_lane h hi _ _).trans ?_
    rw [fillV_lane h _ hi, evalAsin_lane h fm _ _ hi, setzero_lane, sqrtL_lane h hi, fmaddV_lane h hi, fillV_lane h _ hi, fillV_lane h _ hi,
      BitVec.xor_zero]
  have e_a2 : lane T.w a2 i = fadd (fadd (fsub (pio4 T.w) (asinAbs fm (lane T.w ab i) ^^^ lane T.w sg i)) (asinOff T.w)) (pio4 T.w) := by
    refine (faddL_lane h hi _ _).trans ?_
    rw [e_pi4]
    refine congrArg (fadd · _) ((faddL_lane h hi _ _).trans ?_)
    rw [fillV_lane h _ hi]
    refine congrArg (fadd · _) ((fsubL_lane h hi _ _).trans ?_)
    rw [e_pi4, evalAsin_lane h fm _ _ hi]
  refine (blendv_lane s h v _ _ _ hi _ e_cm).trans ?_
  unfold acosF
  rw [e_a1, e_a2, e_ab, e_sg]
theorem implAtan_lane (fm : Bool) (x : Vec v) {i : Nat} (hi : i < extent T v) :
    lane T.w (implAtan s fm T v x) i = atanF fm (lane T.w x i) := by
  unfold implAtan
  extract_lets -merge w pi4 pi2 mone one sg ab m2 m4 y0 xz x4 x2 ab1 ab2 y1 y2 z0 p0 p1 z1 z2 zo z3 z4 y3 im y4
  have e_pi4 : lane T.w pi4 i = pio4 T.w := fillV_lane h _ hi
  have e_pi2 : lane T.w pi2 i = pio2 T.w := fillV_lane h _ hi
  have e_mone : lane T.w mone i = moneBits T.w := fillV_lane h _ hi
  have e_one : lane T.w one i = oneBits T.w := fillV_lane h _ hi
  have e_zo : lane T.w zo i = asinOffHalf T.w := fillV_lane h _ hi
  have e_sg : lane T.w sg i = sgB (lane T.w x i) := masksign_lane h hi x
  have e_ab : lane T.w ab i = abB (lane T.w x i) := absX_lane h hi x
  have e_m2 : lane T.w m2 i = laneMask T.w (fLt (tan3pio8 T.w) (lane T.w ab i)) := by
    refine (cmpF_lane h hi _ _ _).trans ?_; rw [fillV_lane h _ hi]
  have e_m4 : lane T.w m4 i = laneMask T.w (fLt (p66 T.w) (lane T.w ab i)) := by
    refine (cmpF_lane h hi _ _ _).trans ?_; rw [fillV_lane h _ hi]
  have e_xz : lane T.w xz i = laneMask T.w (fEq (lane T.w ab i) 0#T.w) := by
    refine (cmpF_lane h hi _ _ _).trans ?_; rw [setzero_lane]
  have e_x4 : lane T.w x4 i = fdiv (fadd (lane T.w ab i) (moneBits T.w)) (fadd (lane T.w ab i) (oneBits T.w)) := by
    refine (fdivL_lane h hi _ _).trans ?_
    rw [faddL_lane h hi, faddL_lane h hi, e_mone, e_one]
  have e_x2 : lane T.w x2 i = fdiv (moneBits T.w) (if fEq (lane T.w ab i) 0#T.w then oneBits T.w else lane T.w ab i) := by
    refine (fdivL_lane h hi _ _).trans ?_
    rw [blendv_lane s h v _ _ _ hi _ e_xz, e_mone, e_one]
  have e_ab2 : lane T.w ab2 i = atanRed (lane T.w ab i) := by
    refine (blendv_lane s h v _ _ _ hi _ e_m2).trans ?_
    unfold atanRed
    split
    · exact e_x2
    · refine (blendv_lane s h v _ _ _ hi _ e_m4).trans ?_
      rw [e_x4]
  have e_y2 : lane T.w y2 i = atanBase (lane T.w ab i) := by
    refine (blendv_lane s h v _ _ _ hi _ e_m2).trans ?_
    unfold atanBase
    split
    · exact e_pi2
    · refine (blendv_lane s h v _ _ _ hi _ e_m4).trans ?_
      rw [e_pi4, setzero_lane]
  have e_z0 : lane T.w z0 i = fmul (lane T.w ab2 i) (lane T.w ab2 i) := fmulL_lane h hi _ _
  have e_z2 : lane T.w z2 i = atanPol fm (lane T.w ab2 i) := by
    refine (fmaddV_lane h hi fm _ _ _).trans ?_
    rw [fmulL_lane h hi, fdivL_lane h hi, polevlV_lane h hi, polevlV_lane h hi, e_z0]; rfl
  have e_z4 : lane T.w z4 i = fadd (fadd (lane T.w z2 i) (if fLt (tan3pio8 T.w) (lane T.w ab i) || fLt (p66 T.w) (lane T.w ab i) then asinOffHalf T.w else 0#T.w))
      (if fLt (tan3pio8 T.w) (lane T.w ab i) then asinOffHalf T.w else 0#T.w) := by
    refine (faddL_lane h hi _ _).trans ?_
    rw [bitAnd_lane, e_m2, mask_and, e_zo]
    refine congrArg (fadd · _) ((faddL_lane h hi _ _).trans ?_)
    rw [bitAnd_lane, bitOr_lane, e_m2, e_m4, e_zo]
    have : ∀ p q : Bool, (laneMask T.w p ||| laneMask T.w q) = laneMask T.w (p || q) := by
      intro p q; cases p <;> cases q <;> simp [laneMask]
    rw [this, mask_and]
  have e_im : lane T.w im i = laneMask T.w (fEq (lane T.w ab2 i) (infBits T.w)) := isinfAbs_lane h hi _
  refine (lane_xor _ _ _ _).trans ?_
  rw [e_sg]
  refine congrArg (· ^^^ _) ((blendv_lane s h v _ _ _ hi _ e_im).trans ?_)
  rw [e_pi2, faddL_lane h hi, e_y2, e_z4, e_z2, e_ab2, e_ab]
  rfl
end lanes2
end Dpm.X86
