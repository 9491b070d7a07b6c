import Verif.Model.Hypot
import Verif.Proofs.TrigLane
/-! Lane-wise form of `hypot`. -/
namespace Dpm.X86
open Dpm.Reg Dpm.Fp

/-! ### One-lane versions -/
/-- `|a|` -/
def magB {w : Nat} (a : BitVec w) : BitVec w := ~~~ signBit w &&& a
/-- the greater and the smaller magnitude -/
def hypFst {w : Nat} (a b : BitVec w) : BitVec w := if !fLt (magB a) (magB b) then magB a else magB b
def hypSnd {w : Nat} (a b : BitVec w) : BitVec w := if !fLt (magB a) (magB b) then magB b else magB a
/-- the part of the pattern that is compared: the upper word of a double -/
def topL {w : Nat} (x : BitVec w) : Nat := if w = 64 then x.toNat / 2 ^ 32 else x.toNat
def hypBig {w : Nat} (A : BitVec w) : Bool := decide ((if w = 64 then 0x5fd * 2 ^ 20 else 0xbb * 2 ^ 23) ≤ topL A)
def hypSmall {w : Nat} (A B : BitVec w) : Bool := !hypBig A && decide (topL B < (if w = 64 then 0x23d * 2 ^ 20 else 0x43 * 2 ^ 23))
def hypPlus {w : Nat} (A B : BitVec w) : Bool :=
  decide ((if w = 64 then topL A else topL B) = 0) || decide (topL B + (if w = 64 then 65 * 2 ^ 20 else 25 * 2 ^ 23) ≤ topL A)
def hypInf (w : Nat) : Nat := if w = 64 then 0x7ff * 2 ^ 20 else 0xff * 2 ^ 23
def hypUp (w : Nat) : BitVec w := if w = 64 then BitVec.ofNat w 0x6bb0000000000000 else BitVec.ofNat w 0x6c800000
def hypDn (w : Nat) : BitVec w := if w = 64 then BitVec.ofNat w 0x1430000000000000 else BitVec.ofNat w 0x12800000
/-- the factor applied to both operands, and the one applied to the root -/
def hypMult {w : Nat} (A B : BitVec w) : BitVec w := if hypBig A then hypDn w else if hypSmall A B then hypUp w else oneBits w
def hypBack {w : Nat} (A B : BitVec w) : BitVec w := if hypBig A then hypUp w else if hypSmall A B then hypDn w else oneBits w
/-- `split` -/
def splitL (fm : Bool) (x : BitVec 64) : BitVec 64 × BitVec 64 :=
  let xc := fmul x 0x41a0000002000000#64
  let xh := fadd (fsub x xc) xc
  let xl := fsub x xh
  (fmul x x, fmaL fm xl xl (fmaL fm xh (fmul xl 0x4000000000000000#64) (fmsL fm xh xh (fmul x x))))
def rootD (fm : Bool) (x y : BitVec 64) : BitVec 64 :=
  fsqrt (fadd (fadd (splitL fm y).2 (splitL fm x).2) (fadd (splitL fm y).1 (splitL fm x).1))
def rootS (fm : Bool) (x y : BitVec 32) : BitVec 32 :=
  narrow (fsqrt (fmaL fm (widen y) (widen y) (fmul (widen x) (widen x))))
def rootL (fm : Bool) {w : Nat} (x y : BitVec w) : BitVec w :=
  if w = 64 then (rootD fm (x.setWidth 64) (y.setWidth 64)).setWidth w else (rootS fm (x.setWidth 32) (y.setWidth 32)).setWidth w
/-- the result when neither operand is infinite or NaN nor negligible -/
def hypMain (fm : Bool) {w : Nat} (A B : BitVec w) : BitVec w :=
  fmul (hypBack A B) (rootL fm (if hypPlus A B then 0#w else fmul A (hypMult A B)) (if hypPlus A B then 0#w else fmul B (hypMult A B)))
def hypSel (o : MathOpt) (fm : Bool) {w : Nat} (A B : BitVec w) : BitVec w :=
  if o.propNan then
    if decide (topL B = hypInf w) || (decide (hypInf w ≤ topL A) || hypPlus A B)
    then fadd (if topL B = hypInf w then B else A) (if hypPlus A B then B else 0#w)
    else hypMain fm A B
  else if hypPlus A B then fadd A B else hypMain fm A B
def hypF (o : MathOpt) (fm : Bool) {w : Nat} (a b : BitVec w) : BitVec w := hypSel o fm (hypFst a b) (hypSnd a b)

/-! ### Lanes -/
section
variable {T : Ety} (h : T.Ok) {v : VSz} {i : Nat} (hi : i < extent T v)
include h hi
theorem prepareHypot_lane (s : ISA) (a b : Vec v) :
    lane T.w (prepareHypot s T v a b).1 i = hypFst (lane T.w a i) (lane T.w b i) ∧
    lane T.w (prepareHypot s T v a b).2 i = hypSnd (lane T.w a i) (lane T.w b i) := by
  unfold prepareHypot
  extract_lets absA absB m
  have h1 : lane T.w absA i = magB (lane T.w a i) := by
    refine (andnot_lane h hi _ _).trans ?_
    rw [fillV_lane h _ hi]; rfl
  have h2 : lane T.w absB i = magB (lane T.w b i) := by
    refine (andnot_lane h hi _ _).trans ?_
    rw [fillV_lane h _ hi]; rfl
  have h3 : lane T.w m i = laneMask T.w (!fLt (magB (lane T.w a i)) (magB (lane T.w b i))) := by
    refine (cmpF_lane h hi _ _ _).trans ?_
    rw [h1, h2]
  exact ⟨(blendT_lane h hi s _ _ _ _ h3).trans (by rw [h1, h2]; rfl), (blendT_lane h hi s _ _ _ _ h3).trans (by rw [h1, h2]; rfl)⟩
end

/-- the final selection on one lane -/
def selL (o : MathOpt) {w : Nat} (im ia ib a b c0 : BitVec w) (pl : Bool) : BitVec w :=
  if o.propNan then
    if decide (ib = im) || (decide ((im - 1).toInt < ia.toInt) || pl) then fadd (if ib = im then b else a) (if pl then b else 0#w) else c0
  else if pl then fadd a b else c0
theorem selectHypot_lane {T : Ety} (h : T.Ok) {v : VSz} {i : Nat} (hi : i < extent T v) (o : MathOpt) (s : ISA) (im : BitVec T.w)
    (ia ib a b c0 ps : Vec v) (pl : Bool) (hp : lane T.w ps i = laneMask T.w pl) :
    lane T.w (selectHypot o s T v im ia ib a b c0 ps) i =
      selL o im (lane T.w ia i) (lane T.w ib i) (lane T.w a i) (lane T.w b i) (lane T.w c0 i) pl := by
  unfold selL
  unfold selectHypot
  extract_lets infA infB c1 c2
  cases o.propNan
  · simp only [Bool.false_eq_true, if_false]
    refine (blendv_lane s h v _ _ _ hi _ hp).trans ?_
    rw [faddL_lane h hi]
  · simp only [if_true]
    have h1 : lane T.w infA i = laneMask T.w (decide ((im - 1).toInt < (lane T.w ia i).toInt)) := by
      refine (cmpGtI_lane s h v _ _ hi).trans ?_
      rw [fillV_lane h _ hi]
    have h2 : lane T.w infB i = laneMask T.w (decide (lane T.w ib i = im)) := by
      refine (cmpEqI_lane s h v _ _ hi).trans ?_
      rw [fillV_lane h _ hi]
    have h3 : lane T.w c1 i = if lane T.w ib i = im then lane T.w b i else lane T.w a i := by
      refine (blendv_lane s h v _ _ _ hi _ h2).trans ?_
      simp only [decide_eq_true_eq]
    have h4 : lane T.w c2 i = fadd (if lane T.w ib i = im then lane T.w b i else lane T.w a i) (if pl then lane T.w b i else 0#T.w) := by
      refine (faddL_lane h hi _ _).trans ?_
      rw [h3]
      congr 1
      refine (bitAnd_lane _ _ _ _).trans ?_
      rw [hp, BitVec.and_comm, mask_and]
    have h5 : lane T.w (bitOr infB (bitOr infA ps)) i = laneMask T.w (decide (lane T.w ib i = im) || (decide ((im - 1).toInt < (lane T.w ia i).toInt) || pl)) := by
      rw [bitOr_lane, bitOr_lane, h1, h2, hp, laneMask_or, laneMask_or]
    refine (blendv_lane s h v _ _ _ hi _ h5).trans ?_
    rw [h4]

theorem magB_toNat {w : Nat} (h : W w) (a : BitVec w) : (magB a).toNat = mag a := by
  unfold magB signBit
  rw [show ~~~ BitVec.intMin w &&& a = a &&& BitVec.intMax w by rw [BitVec.and_comm]; congr 1; rcases h with h | h <;> subst h <;> decide]
  exact and_intMax_toNat h.pos a
theorem hypFst_lt {w : Nat} (h : W w) (a b : BitVec w) : (hypFst a b).toNat < 2 ^ (w - 1) := by
  unfold hypFst; split <;> rw [magB_toNat h] <;> exact mag_lt _
theorem hypSnd_lt {w : Nat} (h : W w) (a b : BitVec w) : (hypSnd a b).toNat < 2 ^ (w - 1) := by
  unfold hypSnd; split <;> rw [magB_toNat h] <;> exact mag_lt _

/-- `cmp_gt_l32` of numbers below `2^31` -/
theorem gtLow_small (low : Bool) {a b : BitVec 64} (ha : a.toNat < 2 ^ 31) (hb : b.toNat < 2 ^ 31) : gtLow low a b = decide (b.toNat < a.toNat) := by
  have e1 : ∀ x : BitVec 64, x.toNat < 2 ^ 31 → x.toInt = x.toNat := by
    intro x hx; rw [BitVec.toInt_eq_toNat_cond, if_pos (by omega)]
  have e2 : ∀ x : BitVec 64, x.toNat < 2 ^ 31 → (x.setWidth 32).toInt = x.toNat := by
    intro x hx; rw [BitVec.toInt_eq_toNat_cond, BitVec.toNat_setWidth, if_pos (by omega)]; omega
  unfold gtLow
  rw [e1 a ha, e1 b hb, e2 a ha, e2 b hb]
  cases low <;> simp
/-- `cmp_gt_l32` of a difference -/
theorem gtLow_sub (low : Bool) {a b k : BitVec 64} (ha : a.toNat < 2 ^ 31) (hb : b.toNat < 2 ^ 31) (hk : k.toNat < 2 ^ 31) :
    gtLow low (a - b) k = decide (b.toNat + k.toNat < a.toNat) := by
  have e1 : (a - b).toInt = a.toNat - b.toNat := by
    rw [BitVec.toInt_eq_toNat_cond, BitVec.toNat_sub]; split <;> omega
  have e2 : ((a - b).setWidth 32).toInt = a.toNat - b.toNat := by
    rw [BitVec.toInt_eq_toNat_cond, BitVec.toNat_setWidth, BitVec.toNat_sub]; split <;> omega
  have e3 : k.toInt = k.toNat := by rw [BitVec.toInt_eq_toNat_cond, if_pos (by omega)]
  have e4 : (k.setWidth 32).toInt = k.toNat := by rw [BitVec.toInt_eq_toNat_cond, BitVec.toNat_setWidth, if_pos (by omega)]; omega
  unfold gtLow
  rw [e1, e2, e3, e4]
  cases low <;> simp <;> omega

theorem splitHypot_lane (fm : Bool) {v : VSz} {i : Nat} (hi : i < extent Ety.f64 v) (x : Vec v) :
    lane 64 (splitHypot fm v x).1 i = (splitL fm (lane 64 x i)).1 ∧ lane 64 (splitHypot fm v x).2 i = (splitL fm (lane 64 x i)).2 := by
  have h : Ety.f64.Ok := by decide
  have hfill : ∀ y : BitVec 64, lane 64 (fillV v y) i = y := fun y => fillV_lane h y hi
  have hadd : ∀ a b : Vec v, lane 64 (faddL 64 a b) i = fadd (lane 64 a i) (lane 64 b i) := fun a b => faddL_lane h hi a b
  have hsub : ∀ a b : Vec v, lane 64 (fsubL 64 a b) i = fsub (lane 64 a i) (lane 64 b i) := fun a b => fsubL_lane h hi a b
  have hmul : ∀ a b : Vec v, lane 64 (fmulL 64 a b) i = fmul (lane 64 a i) (lane 64 b i) := fun a b => fmulL_lane h hi a b
  have hma : ∀ a b c : Vec v, lane 64 (fmaddV fm 64 a b c) i = fmaL fm (lane 64 a i) (lane 64 b i) (lane 64 c i) := fun a b c => fmaddV_lane h hi fm a b c
  have hms : ∀ a b c : Vec v, lane 64 (fmsubV fm 64 a b c) i = fmsL fm (lane 64 a i) (lane 64 b i) (lane 64 c i) := fun a b c => fmsubV_lane h hi fm a b c
  unfold splitHypot splitL
  dsimp only
  simp only [hadd, hsub, hmul, hma, hms, hfill, and_self]

theorem hypotD_lane (o : MathOpt) (s : ISA) (fm : Bool) {v : VSz} {i : Nat} (hi : i < extent Ety.f64 v) (a b : Vec v) :
    lane 64 (hypotD o s fm v a b) i = hypF o fm (lane 64 a i) (lane 64 b i) := by
  have h : Ety.f64.Ok := by decide
  have hfill : ∀ y : BitVec 64, lane 64 (fillV v y) i = y := fun y => fillV_lane h y hi
  have hz : lane 64 (setzero v) i = 0#64 := lane_zero _ _ _
  have hgt : ∀ a b : Vec v, lane 64 (cmpGtL32 s v a b) i = laneMask 64 (gtLow (lowCmp s Ety.f64 v) (lane 64 a i) (lane 64 b i)) :=
    fun a b => cmpGtLow_lane s h a b hi
  have hbl : ∀ (x y m : Vec v) (p : Bool), lane 64 m i = laneMask 64 p → lane 64 (blendv s Ety.f64 v x y m) i = if p then lane 64 y i else lane 64 x i :=
    fun x y m p hm => blendv_lane s h v x y m hi p hm
  have hadd : ∀ a b : Vec v, lane 64 (faddL 64 a b) i = fadd (lane 64 a i) (lane 64 b i) := fun a b => faddL_lane h hi a b
  have hmul : ∀ a b : Vec v, lane 64 (fmulL 64 a b) i = fmul (lane 64 a i) (lane 64 b i) := fun a b => fmulL_lane h hi a b
  have hlA := hypFst_lt (Or.inr rfl) (lane 64 a i) (lane 64 b i)
  have hlB := hypSnd_lt (Or.inr rfl) (lane 64 a i) (lane 64 b i)
  unfold hypotD hypF
  extract_lets T p A B ia ib one big small newC m0 off m1 c0 s0 ps x y c1
  obtain ⟨hA, hB⟩ := prepareHypot_lane (T := Ety.f64) h hi s a b
  change lane 64 A i = hypFst (lane 64 a i) (lane 64 b i) at hA
  change lane 64 B i = hypSnd (lane 64 a i) (lane 64 b i) at hB
  generalize hypFst (lane 64 a i) (lane 64 b i) = X at *
  generalize hypSnd (lane 64 a i) (lane 64 b i) = Y at *
  have hia : lane 64 ia i = X >>> 32 := (shrT_lane (T := Ety.f64) h hi s 32 A).trans (congrArg (fun t : BitVec 64 => t >>> 32) hA)
  have hib : lane 64 ib i = Y >>> 32 := (shrT_lane (T := Ety.f64) h hi s 32 B).trans (congrArg (fun t : BitVec 64 => t >>> 32) hB)
  have tX : (X >>> 32).toNat = topL X := by
    rw [BitVec.toNat_ushiftRight, Nat.shiftRight_eq_div_pow]; rfl
  have tY : (Y >>> 32).toNat = topL Y := by
    rw [BitVec.toNat_ushiftRight, Nat.shiftRight_eq_div_pow]; rfl
  have lX : topL X < 2 ^ 31 := by rw [← tX, BitVec.toNat_ushiftRight, Nat.shiftRight_eq_div_pow]; omega
  have lY : topL Y < 2 ^ 31 := by rw [← tY, BitVec.toNat_ushiftRight, Nat.shiftRight_eq_div_pow]; omega
  have hbig : lane 64 big i = laneMask 64 (hypBig X) := by
    rw [hgt, hfill, hia, gtLow_small _ (by rw [tX]; exact lX) (by decide), tX]
    rfl
  have hsmall : lane 64 small i = laneMask 64 (hypSmall X Y) := by
    refine (andnot_lane (T := Ety.f64) h hi _ _).trans ?_
    change ~~~ lane 64 big i &&& lane 64 (cmpGtL32 s v _ ib) i = _
    rw [hbig, hgt, hfill, hib, gtLow_small _ (by decide) (by rw [tY]; exact lY), tY, laneMask_not, laneMask_and]
    rfl
  have hoff : lane 64 off i = laneMask 64 (hypBig X || hypSmall X Y) := by
    rw [bitOr_lane, hbig, hsmall, laneMask_or]
  have hm1 : lane 64 m1 i = hypMult X Y := by
    rw [hbl _ _ _ _ hoff, hbl _ _ _ _ hbig, hfill, hfill, hfill]
    unfold hypMult
    cases hypBig X <;> cases hypSmall X Y <;> rfl
  have hc0 : lane 64 c0 i = hypBack X Y := by
    rw [hbl _ _ _ _ hoff, hbl _ _ _ _ hbig, hfill, hfill, hfill]
    unfold hypBack
    cases hypBig X <;> cases hypSmall X Y <;> rfl
  have hs0 : lane 64 s0 i = laneMask 64 (decide (topL Y + 65 * 2 ^ 20 ≤ topL X)) := by
    rw [hgt, hfill]
    have e : lane 64 (subI s T.toI v ia ib) i = lane 64 ia i - lane 64 ib i := subT_lane (T := Ety.f64) h hi s ia ib
    rw [e, hia, hib, gtLow_sub _ (by rw [tX]; exact lX) (by rw [tY]; exact lY) (by decide), tX, tY]
    rfl
  have hps : lane 64 ps i = laneMask 64 (hypPlus X Y) := by
    rw [bitOr_lane, hs0]
    have e : lane 64 (cmpEqI s 8 v ia (setzero v)) i = laneMask 64 (decide (lane 64 ia i = lane 64 (setzero v) i)) := cmpEqI_lane s h v _ _ hi
    rw [e, hia, hz, laneMask_or]
    congr 1
    unfold hypPlus
    congr 1
    apply decide_eq_decide.2
    rw [if_pos rfl, ← tX, BitVec.toNat_eq]; rfl
  have hx : ∀ (C : Vec v) (Z : BitVec 64), lane 64 C i = Z → lane 64 (bitAndnot ps (fmulL 64 C m1)) i = if hypPlus X Y then 0#64 else fmul Z (hypMult X Y) := by
    intro C Z hC
    refine (andnot_lane (T := Ety.f64) h hi _ _).trans ?_
    change ~~~ lane 64 ps i &&& lane 64 (fmulL 64 C m1) i = _
    rw [hps, hmul, hC, hm1, andnot_mask]
  have hc1 : lane 64 c1 i = hypMain fm X Y := by
    rw [hmul, hc0]
    have e : ∀ C : Vec v, lane 64 (sqrtL 64 C) i = fsqrt (lane 64 C i) := fun C => lane_map1 _ _ (lane_bound (T := Ety.f64) h hi)
    have hsx := splitHypot_lane fm hi (bitAndnot ps (fmulL 64 A m1))
    have hsy := splitHypot_lane fm hi (bitAndnot ps (fmulL 64 B m1))
    rw [hx A X hA] at hsx
    rw [hx B Y hB] at hsy
    rw [e, hadd, hadd, hadd, hsx.1, hsx.2, hsy.1, hsy.2]
    unfold hypMain rootL
    rw [if_pos rfl, BitVec.setWidth_eq, BitVec.setWidth_eq, BitVec.setWidth_eq]
    rfl
  have hE1 : (X >>> 32).toInt = topL X := by rw [BitVec.toInt_eq_toNat_cond, tX, if_pos (by omega)]
  have hE2 : Y >>> 32 = BitVec.ofNat 64 (0x7ff * 2 ^ 20) ↔ topL Y = hypInf 64 := by
    rw [BitVec.toNat_eq, tY]; rfl
  refine (selectHypot_lane (T := Ety.f64) h hi o s _ ia ib A B c1 ps (hypPlus X Y) hps).trans ?_
  change selL o (BitVec.ofNat 64 (0x7ff * 2 ^ 20)) (lane 64 ia i) (lane 64 ib i) (lane 64 A i) (lane 64 B i) (lane 64 c1 i) (hypPlus X Y) = _
  rw [hA, hB, hia, hib, hc1]
  unfold selL hypSel
  have hE3 : (BitVec.ofNat 64 (0x7ff * 2 ^ 20) - 1).toInt < (topL X : Int) ↔ hypInf 64 ≤ topL X := by
    rw [show (BitVec.ofNat 64 (0x7ff * 2 ^ 20) - 1).toInt = 0x7ff * 2 ^ 20 - 1 from by decide]
    rw [show hypInf 64 = 0x7ff * 2 ^ 20 from rfl]
    omega
  simp only [hE1, hE2, hE3]

theorem hypPs_lane (fm : Bool) (n : Nat) (x y : BitVec 128) {i : Nat} (hi : i < 4) (hn : (i + 1) * 64 ≤ n) :
    lane 32 (cvtpdPs (hypotPd fm (cvtpsPd n x) (cvtpsPd n y))) i = rootS fm (lane 32 y i) (lane 32 x i) := by
  have hw : ∀ z : BitVec 128, lane 64 (cvtpsPd n z) i = widen (lane 32 z i) := fun z => lane_ofLanes _ hn
  unfold cvtpdPs
  rw [lane_ofLanes _ (by omega), if_pos hn]
  unfold hypotPd sqrtL rootS
  rw [lane_map1 _ _ hn]
  congr 2
  unfold fmaddV fmaL
  cases fm
  · simp only [Bool.false_eq_true, if_false]
    unfold faddL fmulL
    rw [lane_map2 _ _ _ hn, lane_map2 _ _ _ hn, lane_map2 _ _ _ hn, hw, hw]
  · simp only [if_true]
    rw [lane_map3 _ _ _ _ hn]
    unfold fmulL
    rw [lane_map2 _ _ _ hn, hw, hw]
theorem evalHypotf_lane (s : ISA) (fm : Bool) {v : VSz} {i : Nat} (hi : i < extent Ety.f32 v) (x y z : Vec v) :
    lane 32 (evalHypotf s fm v x y z) i = fmul (lane 32 z i) (rootS fm (lane 32 y i) (lane 32 x i)) := by
  cases v with
  | v256 =>
    have hi8 : i < 8 := hi
    refine (lane_map2 (w := 32) (n := 256) _ _ _ (by omega)).trans ?_
    congr 1
    by_cases h4 : i < 4
    · rw [lane_setHL_lo _ _ (by omega), hypPs_lane fm 256 _ _ h4 (by omega), lane_lo _ (by omega), lane_lo _ (by omega)]
    · rw [lane_setHL_hi (j := i - 4) _ _ (by omega), hypPs_lane fm 256 _ _ (by omega) (by omega), lane_hi (i := i) _ (by omega) (by omega),
        lane_hi (i := i) _ (by omega) (by omega)]
  | v128 =>
    have hi4 : i < 4 := hi
    unfold evalHypotf
    dsimp only
    split
    · refine (lane_map2 (w := 32) (n := 128) _ _ _ (by omega)).trans ?_
      congr 1
      exact hypPs_lane fm 256 _ _ hi4 (by omega)
    · refine (lane_map2 (w := 32) (n := 128) _ _ _ (by omega)).trans ?_
      congr 1
      rcases (by omega : i = 0 ∨ i = 1 ∨ i = 2 ∨ i = 3) with rfl | rfl | rfl | rfl
      · rw [shufPs_0]; exact hypPs_lane fm 128 _ _ (by omega) (by omega)
      · rw [shufPs_1]; exact hypPs_lane fm 128 _ _ (by omega) (by omega)
      · rw [shufPs_2]; refine (hypPs_lane fm 128 _ _ (by omega) (by omega)).trans ?_
        rw [shufPs_0, shufPs_0]
      · rw [shufPs_3]; refine (hypPs_lane fm 128 _ _ (by omega) (by omega)).trans ?_
        rw [shufPs_1, shufPs_1]

theorem hypotS_lane (o : MathOpt) (s : ISA) (fm : Bool) {v : VSz} {i : Nat} (hi : i < extent Ety.f32 v) (a b : Vec v) :
    lane 32 (hypotS o s fm v a b) i = hypF o fm (lane 32 a i) (lane 32 b i) := by
  have h : Ety.f32.Ok := by decide
  have hfill : ∀ y : BitVec 32, lane 32 (fillV v y) i = y := fun y => fillV_lane h y hi
  have hz : lane 32 (setzero v) i = 0#32 := lane_zero _ _ _
  have hgt : ∀ a b : Vec v, lane 32 (cmpGtI s 4 v a b) i = laneMask 32 (decide ((lane 32 b i).toInt < (lane 32 a i).toInt)) :=
    fun a b => cmpGtI_lane s h v a b hi
  have hbl : ∀ (x y m : Vec v) (p : Bool), lane 32 m i = laneMask 32 p → lane 32 (blendv s Ety.f32 v x y m) i = if p then lane 32 y i else lane 32 x i :=
    fun x y m p hm => blendv_lane s h v x y m hi p hm
  have hmul : ∀ a b : Vec v, lane 32 (fmulL 32 a b) i = fmul (lane 32 a i) (lane 32 b i) := fun a b => fmulL_lane h hi a b
  have hlA := hypFst_lt (Or.inl rfl) (lane 32 a i) (lane 32 b i)
  have hlB := hypSnd_lt (Or.inl rfl) (lane 32 a i) (lane 32 b i)
  unfold hypotS hypF
  extract_lets T p A B one big small newC m0 off m1 c0 s0 ps ma mb c1
  obtain ⟨hA, hB⟩ := prepareHypot_lane (T := Ety.f32) h hi s a b
  change lane 32 A i = hypFst (lane 32 a i) (lane 32 b i) at hA
  change lane 32 B i = hypSnd (lane 32 a i) (lane 32 b i) at hB
  generalize hypFst (lane 32 a i) (lane 32 b i) = X at *
  generalize hypSnd (lane 32 a i) (lane 32 b i) = Y at *
  have tX : X.toInt = topL X := by
    rw [BitVec.toInt_eq_toNat_cond, if_pos (by omega)]; rfl
  have tY : Y.toInt = topL Y := by
    rw [BitVec.toInt_eq_toNat_cond, if_pos (by omega)]; rfl
  have lX : topL X < 2 ^ 31 := hlA
  have lY : topL Y < 2 ^ 31 := hlB
  have tD : (X - Y).toInt = topL X - topL Y := by
    rw [show topL X = X.toNat from rfl, show topL Y = Y.toNat from rfl] at *
    rw [BitVec.toInt_eq_toNat_cond, BitVec.toNat_sub]; split <;> omega
  have hbig : lane 32 big i = laneMask 32 (hypBig X) := by
    rw [hgt, hfill, hA, tX, show (BitVec.ofNat 32 (0xbb * 2 ^ 23 - 1)).toInt = 0xbb * 2 ^ 23 - 1 from by decide]
    unfold hypBig
    rw [if_neg (by decide : ¬ (32 = 64))]
    have e : (0xbb * 2 ^ 23 - 1 < (topL X : Int)) ↔ 0xbb * 2 ^ 23 ≤ topL X := by omega
    simp only [e]
  have hsmall : lane 32 small i = laneMask 32 (hypSmall X Y) := by
    refine (andnot_lane (T := Ety.f32) h hi _ _).trans ?_
    change ~~~ lane 32 big i &&& lane 32 (cmpGtI s 4 v _ B) i = _
    rw [hbig, hgt, hfill, hB, tY, show (BitVec.ofNat 32 (0x43 * 2 ^ 23)).toInt = 0x43 * 2 ^ 23 from by decide, laneMask_not, laneMask_and]
    unfold hypSmall
    rw [if_neg (by decide : ¬ (32 = 64))]
    have e : ((topL Y : Int) < 0x43 * 2 ^ 23) ↔ topL Y < 0x43 * 2 ^ 23 := by omega
    simp only [e]
  have hoff : lane 32 off i = laneMask 32 (hypBig X || hypSmall X Y) := by
    rw [bitOr_lane, hbig, hsmall, laneMask_or]
  have hm1 : lane 32 m1 i = hypMult X Y := by
    rw [hbl _ _ _ _ hoff, hbl _ _ _ _ hbig, hfill, hfill, hfill]
    unfold hypMult
    cases hypBig X <;> cases hypSmall X Y <;> rfl
  have hc0 : lane 32 c0 i = hypBack X Y := by
    rw [hbl _ _ _ _ hoff, hbl _ _ _ _ hbig, hfill, hfill, hfill]
    unfold hypBack
    cases hypBig X <;> cases hypSmall X Y <;> rfl
  have hs0 : lane 32 s0 i = laneMask 32 (decide (topL Y + 25 * 2 ^ 23 ≤ topL X)) := by
    rw [hgt, hfill]
    have e : lane 32 (subI s T.toI v A B) i = lane 32 A i - lane 32 B i := subT_lane (T := Ety.f32) h hi s A B
    rw [e, hA, hB, tD, show (BitVec.ofNat 32 (25 * 2 ^ 23 - 1)).toInt = 25 * 2 ^ 23 - 1 from by decide]
    have e2 : (25 * 2 ^ 23 - 1 < (topL X : Int) - topL Y) ↔ topL Y + 25 * 2 ^ 23 ≤ topL X := by omega
    simp only [e2]
  have hps : lane 32 ps i = laneMask 32 (hypPlus X Y) := by
    rw [bitOr_lane, hs0]
    have e : lane 32 (cmpEqI s 4 v B (setzero v)) i = laneMask 32 (decide (lane 32 B i = lane 32 (setzero v) i)) := cmpEqI_lane s h v _ _ hi
    rw [e, hB, hz, laneMask_or]
    congr 1
    unfold hypPlus
    congr 1
    apply decide_eq_decide.2
    rw [BitVec.toNat_eq]; rfl
  have hx : ∀ (C : Vec v) (Z : BitVec 32), lane 32 C i = Z → lane 32 (bitAndnot ps (fmulL 32 C m1)) i = if hypPlus X Y then 0#32 else fmul Z (hypMult X Y) := by
    intro C Z hC
    refine (andnot_lane (T := Ety.f32) h hi _ _).trans ?_
    change ~~~ lane 32 ps i &&& lane 32 (fmulL 32 C m1) i = _
    rw [hps, hmul, hC, hm1, andnot_mask]
  have hc1 : lane 32 c1 i = hypMain fm X Y := by
    refine (evalHypotf_lane s fm hi _ _ _).trans ?_
    rw [hc0, hx A X hA, hx B Y hB]
    unfold hypMain rootL
    rw [if_neg (by decide : ¬ (32 = 64)), BitVec.setWidth_eq, BitVec.setWidth_eq, BitVec.setWidth_eq]
  have hE2 : Y = BitVec.ofNat 32 (0xff * 2 ^ 23) ↔ topL Y = hypInf 32 := by
    rw [BitVec.toNat_eq]; rfl
  refine (selectHypot_lane (T := Ety.f32) h hi o s _ A B A B c1 ps (hypPlus X Y) hps).trans ?_
  change selL o (BitVec.ofNat 32 (0xff * 2 ^ 23)) (lane 32 A i) (lane 32 B i) (lane 32 A i) (lane 32 B i) (lane 32 c1 i) (hypPlus X Y) = _
  rw [hA, hB, hc1]
  unfold selL hypSel
  have hE3 : (BitVec.ofNat 32 (0xff * 2 ^ 23) - 1).toInt < (topL X : Int) ↔ hypInf 32 ≤ topL X := by
    rw [show (BitVec.ofNat 32 (0xff * 2 ^ 23) - 1).toInt = 0xff * 2 ^ 23 - 1 from by decide]
    rw [show hypInf 32 = 0xff * 2 ^ 23 from rfl]
    omega
  simp only [tX, hE2, hE3]
/-- `hypot` on one lane -/
theorem hypotV_lane (o : MathOpt) (s : ISA) (fm : Bool) {T : Ety} (h : T.Ok) (hf : T.flt = true) {v : VSz} {i : Nat} (hi : i < extent T v) (a b : Vec v) :
    lane T.w (hypotV o s fm T v a b) i = hypF o fm (lane T.w a i) (lane T.w b i) := by
  obtain ⟨hb, hs⟩ := h.2 hf
  obtain ⟨B, F, S⟩ := T
  dsimp only at hb hs hf
  subst hs hf
  rcases hb with rfl | rfl
  · exact hypotS_lane o s fm hi a b
  · exact hypotD_lane o s fm hi a b
end Dpm.X86
