import Verif.Proofs.HypotAcc
import Verif.Props.X86Mbase
/-!
C43: `hypot` of the x86 backend.
-/
namespace Dpm.X86
open Dpm.Reg Dpm.Fp

/-- the call compiles and each element of its result is related by `P` to the elements of `a`, `b` at the same index -/
def EachElt2 (c : Cfg) (P : BitVec c.w → BitVec c.w → BitVec c.w → Prop) (a b : c.Data) (out : Out c.Data) : Prop :=
  ∃ r, out = .ok r ∧ ∀ i, i < c.N → P (elt c a i) (elt c b i) (elt c r i)

theorem vHypot_elt {c : Cfg} (hc : c.Ok) (hf : c.T.flt = true) (o : MathOpt) (fm : Bool) (a b : c.Data) :
    ∃ r, vHypot c o fm a b = .ok r ∧ ∀ i, i < c.N → elt c r i = hypF o fm (elt c a i) (elt c b i) :=
  ⟨_, rfl, fun i hi => by
    rw [elt_vec2 hc _ _ _ _ hi]
    exact hypotV_lane o c.s fm hc.ety hf (idx_mod hc i) _ _⟩
theorem hypot_each {c : Cfg} (hc : c.Ok) (hf : c.T.flt = true) (o : MathOpt) (fm : Bool) (a b : c.Data) {P : BitVec c.w → BitVec c.w → BitVec c.w → Prop}
    (hP : ∀ x y : BitVec c.w, P x y (hypF o fm x y)) : EachElt2 c P a b (vHypot c o fm a b) := by
  obtain ⟨r, h1, h2⟩ := vHypot_elt hc hf o fm a b
  exact ⟨r, h1, fun i hi => by rw [h2 i hi]; exact hP _ _⟩

/-! ### classes -/
section
variable {w : Nat} (h : W w)
include h
theorem magB_cls (a : BitVec w) : isNaN (magB a) = isNaN a ∧ isInf (magB a) = isInf a := by
  have e := (magB_fin h a).2.1
  exact ⟨nan_of_mag' e, by rw [Bool.eq_iff_iff, inf_iff h, inf_iff h, e]⟩
omit h in
theorem magB_congr {a a' : BitVec w} (h : W w) (e : mag a = mag a') : magB a = magB a' :=
  BitVec.eq_of_toNat_eq (by rw [magB_toNat h, magB_toNat h, e])
theorem fadd_inf_l {x y : BitVec w} (hx : isInf x = true) (sx : x.msb = false) (hy : isNaN y = false) (sy : y.msb = false) : fadd x y = x := by
  have hn := inf_not_nan' h hx
  unfold fadd
  rw [hn, hy, hx, show neg x = false from sx, show neg y = false from sy]
  simp
theorem topL_inf {A : BitVec w} (sA : A.msb = false) (hi : isInf A = true) : topL A = hypInf w := by
  have e1 := mag_eq_toNat sA
  have hf := (inf_iff h A).1 hi
  rw [e1] at hf
  unfold topL hypInf
  rcases h with h | h <;> subst h
  · have : infMag 32 = 0xff * 2 ^ 23 := by decide
    simp only [if_neg (by decide : ¬ 32 = 64)]; omega
  · have : infMag 64 = 0x7ff * 2 ^ 52 := by decide
    simp only [if_true]; omega
theorem topL_nan {A : BitVec w} (sA : A.msb = false) (hi : isNaN A = true) : hypInf w ≤ topL A ∧ (w = 32 → hypInf w < topL A) ∧ topL A < 2 ^ 31 := by
  have e1 := mag_eq_toNat sA
  have hf := (nan_iff h A).1 hi
  have hl := BitVec.toNat_lt_of_msb_false sA
  rw [e1] at hf
  unfold topL hypInf
  rcases h with h | h <;> subst h
  · have : infMag 32 = 0xff * 2 ^ 23 := by decide
    simp only [if_neg (by decide : ¬ 32 = 64)]; omega
  · have : infMag 64 = 0x7ff * 2 ^ 52 := by decide
    simp only [if_true]; omega
/-- an infinite or NaN second operand is not negligible -/
theorem plus_false {A B : BitVec w} (sA : A.msb = false) (sB : B.msb = false) (hA : isFinite A = false) (hB : isFinite B = false) : hypPlus A B = false := by
  have key : ∀ X : BitVec w, X.msb = false → isFinite X = false → hypInf w ≤ topL X ∧ topL X < 2 ^ 31 := by
    intro X sX hX
    rcases fin_cases X with hh | hh | ⟨hh, -⟩
    · rw [hh] at hX; cases hX
    · have := topL_nan h sX hh; exact ⟨this.1, this.2.2⟩
    · have := topL_inf h sX hh
      refine ⟨by omega, ?_⟩
      rw [this]; unfold hypInf; split <;> decide
  have a := key A sA hA
  have b := key B sB hB
  unfold hypPlus
  unfold hypInf at a b
  rw [Bool.or_eq_false_iff, decide_eq_false_iff_not, decide_eq_false_iff_not]
  rcases h with h | h <;> subst h
  · simp only [if_neg (by decide : ¬ 32 = 64)] at *; omega
  · simp only [if_true] at *; omega
/-- with DPM_PROPAGATE_NAN -/
theorem hypSel_inf {o : MathOpt} (ho : o.propNan = true) (fm : Bool) {A B : BitVec w} (sA : A.msb = false) (sB : B.msb = false)
    (hc : (isInf A = true ∧ (isNaN B = true → topL B ≠ hypInf w)) ∨ (isNaN A = true ∧ isInf B = true)) :
    isInf (hypSel o fm A B) = true ∧ (hypSel o fm A B).msb = false := by
  have z1 : isNaN (0#w) = false := (finite_cls (finite_zero h)).1
  have z2 : (0#w).msb = false := by simp
  unfold hypSel
  rw [if_pos ho]
  rcases hc with ⟨hA, hB⟩ | ⟨hA, hB⟩
  · have tA := topL_inf h sA hA
    have fA : isFinite A = false := not_fin_inf hA
    rw [tA, decide_eq_true (Nat.le_refl (hypInf w)), Bool.true_or, Bool.or_true, if_pos rfl]
    rcases fin_cases B with fB | nB | ⟨iB, -⟩
    · have := topL_fin h fB sB
      rw [if_neg (by omega : ¬ topL B = hypInf w)]
      split
      · rw [fadd_inf_l h hA sA (finite_cls fB).1 sB]; exact ⟨hA, sA⟩
      · rw [fadd_inf_l h hA sA z1 z2]; exact ⟨hA, sA⟩
    · rw [if_neg (hB nB), plus_false h sA sB fA (not_fin_nan nB), if_neg (by decide), fadd_inf_l h hA sA z1 z2]; exact ⟨hA, sA⟩
    · rw [if_pos (topL_inf h sB iB), plus_false h sA sB fA (not_fin_inf iB), if_neg (by decide), fadd_inf_l h iB sB z1 z2]; exact ⟨iB, sB⟩
  · have tB := topL_inf h sB hB
    rw [tB, decide_eq_true rfl, Bool.true_or, if_pos rfl, if_pos rfl, plus_false h sA sB (not_fin_nan hA) (not_fin_inf hB), if_neg (by decide),
      fadd_inf_l h hB sB z1 z2]
    exact ⟨hB, sB⟩
omit h in
theorem nan_widen {x : BitVec 32} (hx : isNaN x = true) : isNaN (widen x) = true := by
  unfold widen
  rw [if_pos hx]
  have hm := manF_lt x
  have h0 : manF x ≠ 0 := by unfold isNaN at hx; simp at hx; exact hx.2
  have e : mag (pack 64 (neg x) (infMag 64 + manF x * 2 ^ (mb 64 - mb 32))) = infMag 64 + manF x * 2 ^ (mb 64 - mb 32) := by
    apply mag_pack (Or.inr rfl)
    have : mb 32 = 23 ∧ mb 64 = 52 ∧ infMag 64 = 2047 * 2 ^ 52 := by decide
    obtain ⟨a, b, c⟩ := this
    rw [a] at hm
    rw [a, b, c]; omega
  have hn : isNaN (pack 64 (neg x) (infMag 64 + manF x * 2 ^ (mb 64 - mb 32))) = true := by
    rw [nan_iff (Or.inr rfl), e]
    have : mb 64 - mb 32 = 29 := by decide
    rw [this]; omega
  exact quiet_nan (Or.inr rfl) hn
omit h in
theorem nan_quiet_pack (s : Bool) {m : Nat} (hm : m < 2 ^ 23) : isNaN (quiet (pack 32 s (infMag 32 + m))) = true := by
  have e2 : mag (quiet (pack 32 s (infMag 32 + m))) = infMag 32 + (m ||| 2 ^ 22) := by
    unfold quiet mag pack
    have h2 : infMag 32 = 255 * 2 ^ 23 := by decide
    rw [BitVec.toNat_or, h2]
    simp only [BitVec.toNat_ofNat, show mb 32 - 1 = 22 by decide]
    have h3 : m ||| 2 ^ 22 < 2 ^ 23 := Nat.or_lt_two_pow hm (by decide)
    have h4 : ((if s = true then 2 ^ 31 else 0) + (255 * 2 ^ 23 + m)) = (if s = true then 511 else 255) * 2 ^ 23 + m := by
      (cases s <;> simp); omega
    have h5 : ((if s = true then 511 else 255) * 2 ^ 23 + m) ||| 2 ^ 22 = (if s = true then 511 else 255) * 2 ^ 23 + (m ||| 2 ^ 22) := by
      rw [Nat.mul_comm, Nat.two_pow_add_eq_or_of_lt hm, Nat.or_assoc, ← Nat.two_pow_add_eq_or_of_lt h3]
    rw [show (32 - 1) = 31 by decide, h4, Nat.mod_eq_of_lt (a := 2 ^ 22) (by decide), Nat.mod_eq_of_lt (b := 2 ^ 32) (by cases s <;> simp <;> omega), h5]
    clear h4 h5
    generalize m ||| 2 ^ 22 = k at *
    cases s
    · rw [if_neg (by decide : ¬ false = true)]; omega
    · rw [if_pos rfl]; omega
  rw [nan_iff (Or.inl rfl), e2]
  have : 2 ^ 22 ≤ m ||| 2 ^ 22 := Nat.right_le_or
  omega
omit h in
theorem nan_narrow {x : BitVec 64} (hx : isNaN x = true) : isNaN (narrow x) = true := by
  unfold narrow
  rw [if_pos hx]
  have hm := manF_lt x
  have : mb 32 = 23 ∧ mb 64 = 52 := by decide
  apply nan_quiet_pack
  rw [this.2] at hm
  rw [this.1, this.2]; omega
theorem nan_rootL (fm : Bool) {x y : BitVec w} (hc : isNaN x = true ∨ isNaN y = true) : isNaN (rootL fm x y) = true := by
  have h64 : W 64 := Or.inr rfl
  rcases h with h | h <;> subst h
  · have hr : rootL fm x y = rootS fm x y := by simp [rootL]
    rw [hr]
    unfold rootS
    apply nan_narrow
    apply nan_fsqrt h64
    rcases hc with hc | hc
    · exact nan_fmaL_z h64 fm (nan_fmul_l h64 (nan_widen hc))
    · exact nan_fmaL_x h64 fm (nan_widen hc)
  · have hr : rootL fm x y = rootD fm x y := by simp [rootL]
    rw [hr]
    unfold rootD
    apply nan_fsqrt h64
    apply nan_fadd_r h64
    rcases hc with hc | hc
    · exact nan_fadd_r h64 (nan_fmul_l h64 hc)
    · exact nan_fadd_l h64 (nan_fmul_l h64 hc)
theorem hypMain_nan (fm : Bool) {A B : BitVec w} (hp : hypPlus A B = false) (hc : isNaN A = true ∨ isNaN B = true) : isNaN (hypMain fm A B) = true := by
  unfold hypMain
  rw [hp]
  simp only [Bool.false_eq_true, if_false]
  apply nan_fmul_r h
  apply nan_rootL h
  rcases hc with hc | hc
  · exact Or.inl (nan_fmul_l h hc)
  · exact Or.inr (nan_fmul_l h hc)
theorem hypSel_nan (o : MathOpt) (fm : Bool) {A B : BitVec w} (sA : A.msb = false) (sB : B.msb = false) (hc : isNaN A = true ∨ isNaN B = true)
    (hA : isInf A = false) (hB : isInf B = false) : isNaN (hypSel o fm A B) = true := by
  unfold hypSel
  have hplus : isNaN (fadd A B) = true := by
    rcases hc with hc | hc
    · exact nan_fadd_l h hc
    · exact nan_fadd_r h hc
  split
  · split
    · rename_i _ hcond
      by_cases tB : topL B = hypInf w
      · rw [if_pos tB]
        apply nan_fadd_l h
        rcases fin_cases B with fB | nB | ⟨iB, -⟩
        · have := topL_fin h fB sB; omega
        · exact nB
        · rw [hB] at iB; cases iB
      · rw [if_neg tB]
        rcases fin_cases A with fA | nA | ⟨iA, -⟩
        · have := topL_fin h fA sA
          rw [decide_eq_false tB, decide_eq_false (by omega), Bool.false_or, Bool.false_or] at hcond
          rw [if_pos hcond]; exact hplus
        · exact nan_fadd_l h nA
        · rw [hA] at iA; cases iA
    · rename_i _ hcond
      simp only [Bool.or_eq_true, not_or, Bool.not_eq_true] at hcond
      exact hypMain_nan h fm hcond.2.2 hc
  · split
    · exact hplus
    · rename_i hp
      exact hypMain_nan h fm (by simpa using hp) hc
omit h in
/-- not NaN and without a sign -/
def NN {w : Nat} (x : BitVec w) : Prop := isNaN x = false ∧ x.msb = false
theorem nn_round {n d : Nat} : NN (Fp.round w false n d) := by
  have hi := infMag_lt h
  have hlt : min (rne (mb w) n d) (infMag w) < 2 ^ (w - 1) := by omega
  refine ⟨?_, msb_pack h hlt⟩
  rw [Bool.eq_false_iff, Ne, nan_iff h, show mag (Fp.round w false n d) = _ from mag_pack h hlt]
  omega
theorem nn_inf : NN (pack w false (infMag w)) := by
  have hi := infMag_lt h
  refine ⟨?_, msb_pack h hi⟩
  rw [Bool.eq_false_iff, Ne, nan_iff h, mag_pack h hi]
  omega
theorem nn_fmul {x y : BitVec w} (hx : NN x) (hy : NN y) (h0 : (isZero x || isZero y) = false) : NN (fmul x y) := by
  unfold fmul
  rw [hx.1, hy.1, h0, show neg x = false from hx.2, show neg y = false from hy.2]
  simp only [Bool.false_eq_true, if_false, bne_self_eq_false]
  split
  · exact nn_inf h
  · exact nn_round h
theorem nn_fmul_self {x : BitVec w} (hx : NN x) : NN (fmul x x) := by
  cases hz : isZero x
  · exact nn_fmul h hx hx (by rw [hz]; rfl)
  · have hf : isFinite x = true := by rw [finite_iff h, (zero_iff x).1 hz]; exact infMag_pos h
    rw [fmul_fin hf hf, show neg x = false from hx.2, bne_self_eq_false]
    exact nn_round h
omit h in
theorem nn_widen {x : BitVec 32} (hx : NN x) : NN (widen x) := by
  unfold widen
  rw [hx.1, show neg x = false from hx.2]
  simp only [Bool.false_eq_true, if_false]
  split
  · exact nn_inf (Or.inr rfl)
  · exact nn_round (Or.inr rfl)
theorem inf_pat {x : BitVec w} (hx : isInf x = true) (sx : x.msb = false) : x = pack w false (infMag w) := by
  have hi := infMag_lt h
  exact ext_mag h.pos (by rw [sx, msb_pack h hi]) (by rw [(inf_iff h x).1 hx, mag_pack h hi])
theorem fma_inf (fm : Bool) {y : BitVec w} (hy : NN y) : fmaL fm y y (pack w false (infMag w)) = pack w false (infMag w) := by
  have hn := nn_inf h
  have hi : isInf (pack w false (infMag w)) = true := by rw [inf_iff h, mag_pack h (infMag_lt h)]
  have ns : neg (pack w false (infMag w)) = false := hn.2
  unfold fmaL
  cases fm
  · simp only [Bool.false_eq_true, if_false]
    have hp := nn_fmul_self h hy
    unfold fadd
    rw [hp.1, hn.1, hi, show neg (fmul y y) = false from hp.2, ns]
    simp only [Bool.false_eq_true, if_false, if_true]
    split
    · rename_i hp2
      simp only [bne_self_eq_false, Bool.and_false, Bool.false_eq_true, if_false]
      exact inf_pat h hp2 hp.2
    · rfl
  · simp only [if_true]
    unfold ffmaG
    rw [hy.1, hn.1, hi, ns, show neg y = false from hy.2]
    simp only [Bool.false_eq_true, if_false, if_true, bne_self_eq_false, Bool.or_self, Bool.and_false]
    split
    · rename_i hyi
      have : isZero y = false := by
        cases hz : isZero y
        · rfl
        · rw [inf_iff h, (zero_iff y).1 hz] at hyi
          have := infMag_pos h
          omega
      rw [this]; rfl
    · rfl
omit h in
/-- single precision, for every setting of DPM_PROPAGATE_NAN -/
theorem hypSel_inf32 (o : MathOpt) (fm : Bool) {A B : BitVec 32} (hA : isInf A = true) (sA : A.msb = false) (sB : B.msb = false) (hB : isNaN B = false) :
    isInf (hypSel o fm A B) = true ∧ (hypSel o fm A B).msb = false := by
  have h : W 32 := Or.inl rfl
  cases ho : o.propNan
  · unfold hypSel
    rw [ho]
    simp only [Bool.false_eq_true, if_false]
    cases hp : hypPlus A B
    · simp only [Bool.false_eq_true, if_false]
      unfold hypMain
      rw [hp]
      have eA := inf_pat h hA sA
      have hbig : hypBig A = true := by
        have := topL_inf h sA hA
        unfold hypBig; rw [this]; decide
      unfold hypMult hypBack
      rw [hbig]
      simp only [Bool.false_eq_true, if_false, if_true]
      have hr : ∀ x y : BitVec 32, rootL fm x y = rootS fm x y := by intro x y; simp [rootL]
      rw [hr]
      unfold rootS
      have hBm : NN (fmul B (hypDn 32)) := by
        cases hz : isZero B
        · exact nn_fmul h ⟨hB, sB⟩ ⟨by decide, by decide⟩ (by rw [hz]; decide)
        · have hf : isFinite B = true := by rw [finite_iff h, (zero_iff B).1 hz]; decide
          rw [fmul_fin hf (by decide), show neg B = false from sB, show neg (hypDn 32) = false by decide, bne_self_eq_false]
          exact nn_round h
      have e1 : fmul A (hypDn 32) = pack 32 false (infMag 32) := by rw [eA]; decide
      have e2 : fmul (widen (pack 32 false (infMag 32))) (widen (pack 32 false (infMag 32))) = pack 64 false (infMag 64) := by decide
      rw [e1, e2, fma_inf (Or.inr rfl) fm (nn_widen hBm)]
      decide
    · simp only [if_true]
      rw [fadd_inf_l h hA sA hB sB]; exact ⟨hA, sA⟩
  · refine hypSel_inf h ho fm sA sB (Or.inl ⟨hA, fun hn => ?_⟩)
    rw [hB] at hn; cases hn
end

theorem hypFst_inf {w : Nat} (h : W w) {x y : BitVec w} (hx0 : isNaN x = false) (hy0 : isNaN y = false) (hxy : isInf x = true ∨ isInf y = true) :
    isInf (hypFst x y) = true ∧ (hypFst x y).msb = false ∧ (hypSnd x y).msb = false ∧ isNaN (hypSnd x y) = false := by
  obtain ⟨sx, mx, -, -⟩ := magB_fin h x
  obtain ⟨sy, my, -, -⟩ := magB_fin h y
  obtain ⟨n1, i1⟩ := magB_cls h x
  obtain ⟨n2, i2⟩ := magB_cls h y
  have hvinf : ∀ {X Y : BitVec w}, isInf X = true → isNaN X = false → isFinite Y = true → X.msb = false → Y.msb = false → val Y < val X := by
    intro X Y hX _ hY sX sY
    unfold val
    rw [show neg X = false from sX, show neg Y = false from sY]
    simp only [Bool.false_eq_true, if_false]
    have := (finite_iff h Y).1 hY
    rw [(inf_iff h X).1 hX]
    exact_mod_cast magVal_lt.2 this
  have hfst : isInf (hypFst x y) = true := by
    unfold hypFst
    rw [fLt_eq h]; unfold Fp.lt; rw [n1, n2, hx0, hy0]
    simp only [Bool.not_false, Bool.true_and]
    split
    · rename_i hlt
      have hlt : ¬ val (magB x) < val (magB y) := by simpa using hlt
      rw [i1]
      rcases hxy with hx | hy
      · exact hx
      · rcases fin_cases x with fx | nx | ⟨ix, -⟩
        · exact absurd (hvinf (by rw [i2]; exact hy) (by rw [n2]; exact hy0) (by rw [(magB_fin h x).2.2.1]; exact fx) sy sx) hlt
        · rw [hx0] at nx; cases nx
        · exact ix
    · rename_i hlt
      have hlt : val (magB x) < val (magB y) := by simpa using hlt
      rw [i2]
      rcases hxy with hx | hy
      · rcases fin_cases y with fy | ny | ⟨iy, -⟩
        · have := hvinf (by rw [i1]; exact hx) (by rw [n1]; exact hx0) (by rw [(magB_fin h y).2.2.1]; exact fy) sx sy
          omega
        · rw [hy0] at ny; cases ny
        · exact iy
      · exact hy
  have s1 : (hypFst x y).msb = false := by unfold hypFst; split <;> assumption
  have s2 : (hypSnd x y).msb = false := by unfold hypSnd; split <;> assumption
  have nn : isNaN (hypSnd x y) = false := by unfold hypSnd; split <;> [rw [n2]; rw [n1]] <;> assumption
  exact ⟨hfst, s1, s2, nn⟩

theorem hypF_zero {w : Nat} (h : W w) (o : MathOpt) (fm : Bool) {x y : BitVec w} (hy : isZero y = true) (hx : isFinite x = true) (hm : w = 64 → 65 ≤ expF x) :
    (hypF o fm x y).msb = false ∧ mag (hypF o fm x y) = mag x := by
  obtain ⟨sx, mx, fx, -⟩ := magB_fin h x
  obtain ⟨sy, my, fy, -⟩ := magB_fin h y
  have hy0 := (zero_iff y).1 hy
  have hB : magB y = 0#w := BitVec.eq_of_toNat_eq (by rw [magB_toNat h, hy0]; simp)
  have fB : isFinite (0#w) = true := finite_zero h
  have hv0 : val (0#w) = 0 := by rw [val_zero_iff]; unfold mag; simp
  have hvx : 0 ≤ val (magB x) := by
    unfold val; rw [show neg (magB x) = false from sx]; simp
  have hl : fLt (magB x) (magB y) = false := by
    rw [fLt_eq h]; unfold Fp.lt; rw [hB, hv0, decide_eq_false (by omega), Bool.and_false]
  have ex : hypFst x y = magB x := by unfold hypFst; rw [hl]; rfl
  have ey : hypSnd x y = 0#w := by unfold hypSnd; rw [hl, hB]; rfl
  rw [hx] at fx
  have hplus : hypPlus (magB x) (0#w) = true := by
    unfold hypPlus topL
    rw [magB_toNat h]
    rcases h with hw | hw <;> subst hw
    · simp
    · have hm := hm rfl
      unfold expF at hm
      simp only [if_true, show mb 64 = 52 from rfl] at hm ⊢
      rw [Bool.or_eq_true, decide_eq_true_eq, decide_eq_true_eq, BitVec.toNat_ofNat]
      right
      simp only [Nat.zero_mod, Nat.zero_div]
      omega
  have hsum : fadd (magB x) (0#w) = magB x := by
    by_cases h0 : val (magB x) = 0
    · have : magB x = 0#w := by
        apply BitVec.eq_of_toNat_eq
        rw [magB_toNat h, ← mx, (val_zero_iff _).1 h0]; simp
      rw [this]
      rcases h with h | h <;> subst h <;> decide
    · exact fadd_exact h fx fB (Nat.le_of_lt ((finite_iff h _).1 fx)) h0 (by rw [hv0]; omega)
  have hs : hypF o fm x y = magB x := by
    unfold hypF hypSel
    rw [ex, ey, hplus]
    have t := topL_fin h fx sx
    have t0 := topL_fin h fB (by simp)
    rw [if_neg (by omega : ¬ topL (0#w) = hypInf w)]
    simp [hsum]
  rw [hs]
  exact ⟨sx, mx⟩

/-! ### The property -/
section C43
variable {c : Cfg} (hc : c.Ok) (hf : c.T.flt = true) (o : MathOpt) (fm : Bool)
include hc hf
/-- C43 (accuracy): for finite operands the result is within three units of half an ulp of `sqrt(a^2 + b^2)`, and it is finite unless
that (increased by the error) exceeds the largest finite number: nothing overflows or underflows on the way.  For double at least one
operand must be `2^-1042` or more in magnitude, see `C43_tiny_violated`. -/
theorem C43_accuracy_partial (a b : c.Data) :
    EachElt2 c (fun x y r => isFinite x = true → isFinite y = true → (c.w = 64 → 2 ^ 32 ≤ mag x ∨ 2 ^ 32 ≤ mag y) →
      (Real.sqrt (rv x ^ 2 + rv y ^ 2) * (1 + 3 * ulpHalf c.w) ≤ maxVal c.w → isFinite r = true) ∧
      (isFinite r = true → |rv r - Real.sqrt (rv x ^ 2 + rv y ^ 2)| ≤ 3 * ulpHalf c.w * Real.sqrt (rv x ^ 2 + rv y ^ 2) + tiny c.w))
      a b (vHypot c o fm a b) :=
  hypot_each hc hf o fm a b fun _ _ fx fy hm => hypF_acc (fltW hc.ety hf) o fm fx fy hm
/-- C43: only the magnitudes of the operands count. -/
theorem C43_sign (a b a' b' : c.Data) (h : ∀ i, i < c.N → mag (elt c a i) = mag (elt c a' i) ∧ mag (elt c b i) = mag (elt c b' i)) :
    ∃ r r', vHypot c o fm a b = .ok r ∧ vHypot c o fm a' b' = .ok r' ∧ ∀ i, i < c.N → elt c r i = elt c r' i := by
  obtain ⟨r, h1, h2⟩ := vHypot_elt hc hf o fm a b
  obtain ⟨r', h1', h2'⟩ := vHypot_elt hc hf o fm a' b'
  refine ⟨r, r', h1, h1', fun i hi => ?_⟩
  rw [h2 i hi, h2' i hi]
  unfold hypF hypFst hypSnd
  rw [magB_congr (fltW hc.ety hf) (h i hi).1, magB_congr (fltW hc.ety hf) (h i hi).2]
/-- C43: the order of the operands does not matter (unless one is NaN, see `C43_nan` and `C43_inf`). -/
theorem C43_symm (a b : c.Data) :
    ∃ r r', vHypot c o fm a b = .ok r ∧ vHypot c o fm b a = .ok r' ∧
      ∀ i, i < c.N → isNaN (elt c a i) = false → isNaN (elt c b i) = false → elt c r i = elt c r' i := by
  have h := fltW hc.ety hf
  obtain ⟨r, h1, h2⟩ := vHypot_elt hc hf o fm a b
  obtain ⟨r', h1', h2'⟩ := vHypot_elt hc hf o fm b a
  refine ⟨r, r', h1, h1', fun i hi na nb => ?_⟩
  rw [h2 i hi, h2' i hi]
  generalize elt c a i = x at *
  generalize elt c b i = y at *
  have e1 := (magB_cls h x).1.trans na
  have e2 := (magB_cls h y).1.trans nb
  have s1 := (magB_fin h x).1
  have s2 := (magB_fin h y).1
  unfold hypF hypFst hypSnd
  rw [fLt_eq h, fLt_eq h]
  unfold Fp.lt
  rw [e1, e2]
  simp only [Bool.not_false, Bool.true_and]
  generalize magB x = X at *
  generalize magB y = Y at *
  by_cases h1 : val X < val Y
  · have h3 : ¬ val Y < val X := by omega
    simp [h1, h3]
  · by_cases h3 : val Y < val X
    · simp [h1, h3]
    · have : X = Y := by
        apply ext_mag h.pos (by rw [s1, s2])
        have hv : val X = val Y := by omega
        unfold val at hv
        rw [show neg X = false from s1, show neg Y = false from s2] at hv
        simp only [Bool.false_eq_true, if_false] at hv
        exact magVal_inj.1 (by exact_mod_cast hv)
      subst this
      rfl
/-- C43 with DPM_PROPAGATE_NAN: `+inf` whenever either operand is infinite, whatever the other one is (the second operand must not be
a NaN whose only payload bits are in the lower word of a double, which is a signalling NaN). -/
theorem C43_inf (ho : o.propNan = true) (a b : c.Data) :
    EachElt2 c (fun x y r => (isInf x = true ∧ (isNaN y = true → c.w = 64 → mag y / 2 ^ 32 ≠ 0x7ff00000)) ∨ isInf y = true →
      isInf r = true ∧ r.msb = false) a b (vHypot c o fm a b) := by
  have h := fltW hc.ety hf
  refine hypot_each hc hf o fm a b fun x y hxy => ?_
  obtain ⟨sx, mx, -, -⟩ := magB_fin h x
  obtain ⟨sy, my, -, -⟩ := magB_fin h y
  obtain ⟨n1, i1⟩ := magB_cls h x
  obtain ⟨n2, i2⟩ := magB_cls h y
  unfold hypF
  by_cases hnan : isNaN x = true ∨ isNaN y = true
  · have hl : fLt (magB x) (magB y) = false := by
      rw [fLt_eq h]; unfold Fp.lt; rw [n1, n2]
      rcases hnan with hh | hh <;> rw [hh] <;> simp
    have ex : hypFst x y = magB x := by unfold hypFst; rw [hl]; rfl
    have ey : hypSnd x y = magB y := by unfold hypSnd; rw [hl]; rfl
    rw [ex, ey]
    apply hypSel_inf h ho fm sx sy
    rcases hxy with ⟨hx, hy⟩ | hy
    · left
      refine ⟨by rw [i1]; exact hx, fun hn => ?_⟩
      rw [n2] at hn
      have t := topL_nan h sy (by rw [n2]; exact hn)
      intro he
      have e3 := magB_toNat h y
      have hw := h
      unfold topL hypInf at he
      rw [e3] at he
      rcases hw with hw | hw
      · exact absurd (t.2.1 hw) (by unfold topL hypInf; rw [e3]; omega)
      · rw [if_pos hw, if_pos hw] at he
        exact hy hn hw (by omega)
    · right
      rcases hnan with hh | hh
      · exact ⟨by rw [n1]; exact hh, by rw [i2]; exact hy⟩
      · rw [inf_not_nan' h hy] at hh; cases hh
  · have hx0 : isNaN x = false := by simpa using fun hh => hnan (Or.inl hh)
    have hy0 : isNaN y = false := by simpa using fun hh => hnan (Or.inr hh)
    obtain ⟨hfst, s1, s2, nn⟩ := hypFst_inf h hx0 hy0 (hxy.imp (fun hh => hh.1) id)
    exact hypSel_inf h ho fm s1 s2 (Or.inl ⟨hfst, fun hn => by rw [nn] at hn; cases hn⟩)
omit o in
/-- C43 for float, with and without DPM_PROPAGATE_NAN: `+inf` whenever one operand is infinite and none is NaN. -/
theorem C43_inf_float (o : MathOpt) (hw : c.w = 32) (a b : c.Data) :
    EachElt2 c (fun x y r => isNaN x = false → isNaN y = false → isInf x = true ∨ isInf y = true → isInf r = true ∧ r.msb = false)
      a b (vHypot c o fm a b) := by
  refine hypot_each hc hf o fm a b fun x y hx hy hxy => ?_
  have key : ∀ {w : Nat} (hw : w = 32) (x y : BitVec w), isNaN x = false → isNaN y = false → isInf x = true ∨ isInf y = true →
      isInf (hypF o fm x y) = true ∧ (hypF o fm x y).msb = false := by
    intro w hw x y hx hy hxy
    subst hw
    obtain ⟨k1, k2, k3, k4⟩ := hypFst_inf (Or.inl rfl) hx hy hxy
    exact hypSel_inf32 o fm k1 k2 k3 k4
  exact key hw x y hx hy hxy
/-- C43, with and without DPM_PROPAGATE_NAN: NaN whenever one operand is NaN and none is infinite. -/
theorem C43_nan (a b : c.Data) :
    EachElt2 c (fun x y r => isNaN x = true ∨ isNaN y = true → isInf x = false → isInf y = false → isNaN r = true) a b (vHypot c o fm a b) := by
  have h := fltW hc.ety hf
  refine hypot_each hc hf o fm a b fun x y hxy hx hy => ?_
  obtain ⟨n1, i1⟩ := magB_cls h x
  obtain ⟨n2, i2⟩ := magB_cls h y
  have hl : fLt (magB x) (magB y) = false := by
    rw [fLt_eq h]; unfold Fp.lt; rw [n1, n2]
    rcases hxy with hh | hh <;> rw [hh] <;> simp
  have ex : hypFst x y = magB x := by unfold hypFst; rw [hl]; rfl
  have ey : hypSnd x y = magB y := by unfold hypSnd; rw [hl]; rfl
  unfold hypF
  rw [ex, ey]
  exact hypSel_nan h o fm (magB_fin h x).1 (magB_fin h y).1 (by rw [n1, n2]; exact hxy) (by rw [i1]; exact hx) (by rw [i2]; exact hy)
/-- C43: a zero operand leaves the magnitude of the other one unchanged (for double, if that is `2^-958` or more). -/
theorem C43_zero_partial (a b : c.Data) :
    EachElt2 c (fun x y r => isZero y = true → isFinite x = true → (c.w = 64 → 65 ≤ expF x) → r.msb = false ∧ mag r = mag x) a b (vHypot c o fm a b) :=
  hypot_each hc hf o fm a b fun _ _ hy hx hm => hypF_zero (fltW hc.ety hf) o fm hy hx hm
/-- C43 violated for double: when both operands are below `2^-1042` the result is `|a| + |b|`, not `sqrt(a^2 + b^2)`. -/
theorem C43_tiny_violated (hw : c.w = 64) (a b : c.Data) :
    EachElt2 c (fun x y r => mag x < 2 ^ 32 → mag y < 2 ^ 32 → isFinite r = true ∧ rv r = |rv x| + |rv y|) a b (vHypot c o fm a b) := by
  refine hypot_each hc hf o fm a b fun x y hx hy => ?_
  have key : ∀ {w : Nat} (hw : w = 64) (x y : BitVec w), mag x < 2 ^ 32 → mag y < 2 ^ 32 →
      isFinite (hypF o fm x y) = true ∧ rv (hypF o fm x y) = |rv x| + |rv y| := by
    intro w hw x y hx hy
    subst hw
    have h : W 64 := Or.inr rfl
    have hinf : infMag 64 = 2047 * 2 ^ 52 := by decide
    have small : ∀ {z : BitVec 64}, mag z < 2 ^ 32 → isFinite (magB z) = true ∧ val (magB z) = mag z ∧ topL (magB z) = 0 := by
      intro z hz
      obtain ⟨s1, m1, f1, -⟩ := magB_fin h z
      refine ⟨by rw [f1, finite_iff h]; omega, ?_, ?_⟩
      · unfold val
        rw [show neg (magB z) = false from s1, m1]
        simp only [Bool.false_eq_true, if_false]
        have e1 := magVal_kf (b := 52) (k := 0) (f := mag z) (Or.inl rfl) (by omega)
        rw [Nat.zero_mul, Nat.zero_add, Nat.pow_zero, Nat.mul_one] at e1
        rw [show mb 64 = 52 from rfl, e1]
      · unfold topL; rw [if_pos rfl, magB_toNat h]; omega
    obtain ⟨f1, v1, t1⟩ := small hx
    obtain ⟨f2, v2, t2⟩ := small hy
    have ex : topL (hypFst x y) = 0 := by unfold hypFst; split <;> assumption
    have ey : topL (hypSnd x y) = 0 := by unfold hypSnd; split <;> assumption
    have hp : hypPlus (hypFst x y) (hypSnd x y) = true := by unfold hypPlus; rw [ex]; rfl
    have hs : hypF o fm x y = fadd (hypFst x y) (hypSnd x y) := by
      unfold hypF hypSel
      rw [hp, ex, ey]
      simp [hypInf]
    have hcomm : fadd (hypFst x y) (hypSnd x y) = fadd (magB x) (magB y) := by
      unfold hypFst hypSnd
      split
      · rfl
      · rw [fadd_fin f1 f2, fadd_fin f2 f1, Int.add_comm, Bool.and_comm]
    rw [hs, hcomm]
    have hab : ∀ z : BitVec 64, |rv z| = rv (magB z) := fun z => (magB_fin h z).2.2.2.symm
    rw [hab, hab, rv_add_val, v1, v2]
    have hR : Repr 64 (mag x + mag y) := by
      have := repr_mk (w := 64) (f := mag x + mag y) (k := 0) (by rw [show mb 64 = 52 from rfl]; omega) (by
        have e1 := magVal_kf (b := 52) (k := 0) (f := mag x + mag y) (Or.inl rfl) (by omega)
        rw [← e1]
        exact magVal_lt.2 (by rw [hinf]; omega))
      rwa [Nat.pow_zero, Nat.mul_one] at this
    obtain ⟨m, hm, hm2⟩ := hR
    by_cases h0 : (mag x : Int) + mag y = 0
    · rw [fadd_fin f1 f2, v1, v2, if_pos h0]
      refine ⟨finite_pack_zero h _, ?_⟩
      rw [rv_pack_zero h, h0]; simp
    · rw [fadd_fin f1 f2, v1, v2, if_neg h0]
      obtain ⟨r1, r2⟩ := round_repr h (s := decide ((mag x : Int) + mag y < 0)) hm (show ((mag x : Int) + mag y).natAbs = _ from hm2)
      refine ⟨r1, ?_⟩
      unfold rv
      rw [r2, decide_eq_false (by omega)]
      simp only [Bool.false_eq_true, if_false]
      congr 2
  exact key hw x y hx hy
end C43
/-- the hypotheses of `C43_tiny_violated`, and that its result contradicts the bound of `C43_accuracy_partial`: 3 and 4 units of the
smallest subnormal give 7 units instead of 5 -/
example : mag (3#64) < 2 ^ 32 ∧ mag (4#64) < 2 ^ 32 ∧ val (hypF ⟨true, true⟩ true (3#64) (4#64)) = 7 ∧ val (hypF ⟨false, false⟩ false (3#64) (4#64)) = 7 := by
  decide +kernel
theorem key_inf_violated {w : Nat} (hw : w = 64) (fm : Bool) {o : MathOpt} (ho : o.propNan = false) {x y : BitVec w} (hx : x.toNat = 0x7ff0000000000000)
    (hy : y.toNat = 0x7e37e43c8800759c) : isInf x = true ∧ isFinite y = true ∧ isNaN (hypF o fm x y) = true := by
  subst hw
  obtain rfl : x = 0x7ff0000000000000#64 := BitVec.eq_of_toNat_eq hx
  obtain rfl : y = 0x7e37e43c8800759c#64 := BitVec.eq_of_toNat_eq hy
  obtain ⟨p, e⟩ := o
  dsimp only at ho
  subst ho
  cases e <;> cases fm <;> decide +kernel
/-- C43 violated for double without DPM_PROPAGATE_NAN: `hypot(inf, 1e300)` is NaN. -/
theorem C43_inf_violated {c : Cfg} (hc : c.Ok) (hf : c.T.flt = true) (hw : c.w = 64) (fm : Bool) {o : MathOpt} (ho : o.propNan = false) (a b : c.Data) :
    EachElt2 c (fun x y r => x.toNat = 0x7ff0000000000000 → y.toNat = 0x7e37e43c8800759c → isInf x = true ∧ isFinite y = true ∧ isNaN r = true)
      a b (vHypot c o fm a b) :=
  hypot_each hc hf o fm a b fun _ _ hx hy => key_inf_violated hw fm ho hx hy
theorem key_snan_violated {w : Nat} (hw : w = 64) (fm : Bool) {o : MathOpt} (ho : o.propNan = true) {x y : BitVec w} (hx : x.toNat = 0x7ff0000000000000)
    (hy : y.toNat = 0x7ff0000000000001) : isInf x = true ∧ isNaN y = true ∧ isNaN (hypF o fm x y) = true := by
  subst hw
  obtain rfl : x = 0x7ff0000000000000#64 := BitVec.eq_of_toNat_eq hx
  obtain rfl : y = 0x7ff0000000000001#64 := BitVec.eq_of_toNat_eq hy
  obtain ⟨p, e⟩ := o
  dsimp only at ho
  subst ho
  cases e <;> cases fm <;> decide +kernel
/-- C43 violated for double with DPM_PROPAGATE_NAN: `hypot(inf, NaN)` is NaN when the payload of the NaN is in the lower word only
(although `hypot(NaN, inf)` is infinite, by `C43_inf`). -/
theorem C43_snan_violated {c : Cfg} (hc : c.Ok) (hf : c.T.flt = true) (hw : c.w = 64) (fm : Bool) {o : MathOpt} (ho : o.propNan = true) (a b : c.Data) :
    EachElt2 c (fun x y r => x.toNat = 0x7ff0000000000000 → y.toNat = 0x7ff0000000000001 → isInf x = true ∧ isNaN y = true ∧ isNaN r = true)
      a b (vHypot c o fm a b) :=
  hypot_each hc hf o fm a b fun _ _ hx hy => key_snan_violated hw fm ho hx hy
/-- the hypotheses hold for 3.0 and 4.0 -/
example : isFinite (0x4008000000000000#64) = true ∧ isFinite (0x4010000000000000#64) = true ∧ 2 ^ 32 ≤ mag (0x4008000000000000#64) := by decide
end Dpm.X86
