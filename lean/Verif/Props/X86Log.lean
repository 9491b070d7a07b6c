import Verif.Proofs.LogRed
import Verif.Props.X86Hypot
/-!
C40, C41: logarithms of the x86 backend: definedness, argument reduction, special values.
-/
namespace Dpm.X86
open Dpm.Reg Dpm.Fp

section
variable {c : Cfg} (hc : c.Ok) (hf : c.T.flt = true)
include hc
theorem vecU_elt (k : Vec c.v → Option (Vec c.v)) (F : Nat → BitVec c.w → BitVec c.w)
    (hk : ∀ x, ∃ r, k x = some r ∧ ∀ i, i < c.e → lane c.w r i = F i (lane c.w x i)) (x : c.Data) :
    ∃ r, vectorizeU c k x = .ok r ∧ ∀ p, p < c.N → elt c r p = F (p % c.e) (elt c x p) := by
  obtain ⟨h1, h2⟩ := forRangeM_store c.dataSize (fun j => k (x j)) (zeroData c)
  unfold vectorizeU
  cases hr : forRangeM c.dataSize (fun j (r : c.Data) => (k (x j)).map (fun y => r.set j y)) (zeroData c) with
  | none =>
    obtain ⟨i, -, e⟩ := h1.1 hr
    obtain ⟨r, e', -⟩ := hk (x i)
    rw [show k (x i) = none from e] at e'
    cases e'
  | some r =>
    refine ⟨r, rfl, fun p hp => ?_⟩
    have h3 := (h2 r hr).1 _ (idx_lt hc hp)
    obtain ⟨r', e', hl⟩ := hk (x (p / c.e))
    rw [show k (x (p / c.e)) = some (r (p / c.e)) from h3] at e'
    cases e'
    exact hl _ (idx_mod hc p)
include hf
theorem vLog_elt (o : MathOpt) (fm : Bool) (x : c.Data) :
    ∃ r, vLog c o fm x = .ok r ∧ ∀ p, p < c.N → elt c r p = logF o c.s.avx (lowCmp c.s c.T c.v) fm (elt c x p) :=
  vecU_elt hc _ (fun _ y => logF o c.s.avx (lowCmp c.s c.T c.v) fm y) (fun x => implLog_lane hc.ety hf o c.s fm x) x
theorem vLog2_elt (o : MathOpt) (fm : Bool) (x : c.Data) :
    ∃ r, vLog2 c o fm x = .ok r ∧ ∀ p, p < c.N → elt c r p = log2F o c.s.avx (lowCmp c.s c.T c.v) fm (elt c x p) :=
  vecU_elt hc _ (fun _ y => log2F o c.s.avx (lowCmp c.s c.T c.v) fm y) (fun x => implLog2_lane hc.ety hf o c.s fm x) x
theorem vLog10_elt (o : MathOpt) (fm : Bool) (x : c.Data) :
    ∃ r, vLog10 c o fm x = .ok r ∧ ∀ p, p < c.N → elt c r p = log10F o c.s.avx (decide (p % c.e % 2 = 1)) fm (elt c x p) :=
  vecU_elt hc _ (fun i y => log10F o c.s.avx (decide (i % 2 = 1)) fm y) (fun x => implLog10_lane hc.ety hf o c.s fm x) x
theorem vLog1p_elt (o : MathOpt) (fm : Bool) (x : c.Data) :
    ∃ r, vLog1p c o fm x = .ok r ∧ ∀ p, p < c.N → elt c r p = log1pF o c.s.avx fm (elt c x p) :=
  vecU_elt hc _ (fun _ y => log1pF o c.s.avx fm y) (fun x => implLog1p_lane hc.ety hf o c.s fm x) x

/-- C40: for every argument (every bit pattern in every lane, padding included) the four logarithms are defined: no load from a
table is out of range. -/
theorem C40_defined (o : MathOpt) (fm : Bool) (x : c.Data) :
    (∃ r, vLog c o fm x = .ok r) ∧ (∃ r, vLog2 c o fm x = .ok r) ∧ (∃ r, vLog10 c o fm x = .ok r) ∧ (∃ r, vLog1p c o fm x = .ok r) :=
  ⟨(vLog_elt hc hf o fm x).imp fun _ h => h.1, (vLog2_elt hc hf o fm x).imp fun _ h => h.1,
   (vLog10_elt hc hf o fm x).imp fun _ h => h.1, (vLog1p_elt hc hf o fm x).imp fun _ h => h.1⟩
end

/-! ### the reduction -/
/-- `x = 2^k z` with `z` in the domain of the tables, and a table row `j` of `2^bits` rows of equal width (in patterns) -/
def Reduced {w : Nat} (bits : Nat) (x z kf : BitVec w) (j : Nat) : Prop :=
  ∃ k : ℤ, rv kf = k ∧ rv x = 2 ^ k * rv z ∧ z.msb = false ∧ (logOff w).toNat ≤ z.toNat ∧ z.toNat < (logOff w).toNat + 2 ^ mb w ∧
    j = (z.toNat - (logOff w).toNat) / 2 ^ (mb w - bits)
theorem reduced_of {w : Nat} (h : W w) {bits : Nat} (hb : bits ≤ 4 ∨ (w = 64 ∧ bits ≤ 7)) {x : BitVec w} (hn : isNormal x = true) (hs : x.msb = false) :
    Reduced bits x (redZ x) (ofInt w (redK x)) (redIdx bits x) := by
  have hmg := mag_eq_toNat hs
  have hnf : isFinite x = true := by unfold isNormal at hn; unfold isFinite; simp at hn; simp [hn.1]
  have hlt := (finite_iff h x).1 hnf
  rw [hmg] at hlt
  have hge : 2 ^ mb w ≤ x.toNat := by
    have : expF x ≠ 0 := by unfold isNormal at hn; simp at hn; exact hn.2
    unfold expF at this
    rw [hmg] at this
    by_contra hh
    exact this (Nat.div_eq_of_lt (by omega))
  have main : ∃ q : Nat, q < 2 ^ mb w ∧ (redZ x).toNat = (logOff w).toNat + q ∧ redIdx bits x = q / 2 ^ (mb w - bits) ∧
      (x.toNat : ℤ) = ((logOff w).toNat + q : Nat) + redK x * 2 ^ mb w ∧ (redK x).natAbs ≤ 1024 := by
    rcases h with h | h
    · subst h
      obtain ⟨q, h1, h2, h3, h4, h5⟩ := red32 (bits := bits) (x := x) (by omega) hlt
      exact ⟨q, h1, h2, h3, h4, by omega⟩
    · subst h
      exact red64 (bits := bits) (x := x) (by omega) hlt
  obtain ⟨q, h1, h2, h3, h4, h5⟩ := main
  have hoff : 2 ^ mb w ≤ (logOff w).toNat ∧ (logOff w).toNat + 2 ^ mb w ≤ 2 ^ (w - 1) := by rcases h with h | h <;> subst h <;> decide
  have hzs : (redZ x).msb = false := by
    rw [BitVec.msb_eq_false_iff_two_mul_lt, h2]
    have : 2 * 2 ^ (w - 1) = 2 ^ w := by rcases h with h | h <;> subst h <;> rfl
    omega
  refine ⟨redK x, ?_, ?_, hzs, by omega, by omega, by rw [h2, h3, Nat.add_sub_cancel_left]⟩
  · have := ofInt_exact h (z := redK x) (le_trans h5 (by rcases h with h | h <;> subst h <;> decide))
    unfold rv; rw [this.2]; push_cast; field_simp
  · rw [rv_pvN h hs hge, rv_pvN h hzs (by omega), h2]
    exact pvN_add h4
/-- C40: the reduction shared by the logarithms, on a native vector: in each lane that holds a positive normal number it computes `z` and
`k` with `x = 2^k z` exactly, `z` in the domain of the table, and loads `invc`, `logc` from the row of `z`. -/
theorem C40_reduction {T : Ety} (h : T.Ok) (hf : T.flt = true) (s : ISA) {v : VSz} {bits : Nat} (hb : bits ≤ 4 ∨ (T.w = 64 ∧ bits ≤ 7))
    (tab : List (BitVec T.w)) (ht : tab.length = 2 ^ (bits + 1)) (x : Vec v) :
    ∃ z kf invc logc, logReduce s T v bits tab x = some (z, kf, invc, logc) ∧
      ∀ i, i < extent T v → isNormal (lane T.w x i) = true → (lane T.w x i).msb = false →
        ∃ j, j < 2 ^ bits ∧ Reduced bits (lane T.w x i) (lane T.w z i) (lane T.w kf i) j ∧
          lane T.w invc i = tab.getD (2 * j) 0 ∧ lane T.w logc i = tab.getD (2 * j + 1) 0 := by
  obtain ⟨z, kf, invc, logc, e, hl⟩ := logReduce_lane h hf s (bits := bits) (by omega) tab ht x
  refine ⟨z, kf, invc, logc, e, fun i hi hn hs => ?_⟩
  obtain ⟨l1, l2, l3, l4⟩ := hl i hi
  refine ⟨redIdx bits (lane T.w x i), redIdx_lt _ _, ?_, l3, l4⟩
  rw [l1, l2]
  exact reduced_of (fltW h hf) hb hn hs

/-! ### special values -/
theorem one_fin {w : Nat} (h : W w) : isFinite (oneBits w) = true := by rcases h with h | h <;> subst h <;> decide
section
variable {w : Nat} (h : W w)
include h
theorem log_consts : isNaN (0#w) = false ∧ val (0#w) = 0 ∧ isNaN (oneBits w) = false ∧ val (oneBits w) = (2 ^ unitExp w : Nat) ∧
    isNaN (oneBits w ^^^ BitVec.intMin w) = false ∧ val (oneBits w ^^^ BitVec.intMin w) = -((2 ^ unitExp w : Nat) : Int) ∧
    isNaN (infBits w) = false ∧ isInf (oneBits w) = false ∧ neg (oneBits w) = false ∧ isZero (oneBits w) = false := by
  rcases h with h | h <;> subst h <;> decide +kernel
theorem finAbs_nan {avx : Bool} {x : BitVec w} (hx : isNaN x = true) : finAbs avx x = false := by
  unfold finAbs
  rw [fNaN_eq h, fNaN_eq h, fLt_eq h, fEq_eq h]
  unfold Fp.lt Fp.eq
  rw [hx]; cases avx <;> simp
theorem finAbs_inf {avx : Bool} {x : BitVec w} (hx : isInf x = true) (hs : x.msb = false) : finAbs avx x = false := by
  have e : x = infBits w := by
    apply ext_mag h.pos
    · rw [hs, (infBits_sm h).1]
    · rw [(inf_iff h x).1 hx, (infBits_sm h).2]; rfl
  subst e
  unfold finAbs
  rw [fNaN_eq h, fLt_eq h, fEq_eq h]
  unfold Fp.lt Fp.eq
  cases avx <;> simp
theorem finAbs_fin {avx : Bool} {x : BitVec w} (hx : isFinite x = true) : finAbs avx x = true := by
  have hm := (finite_iff h x).1 hx
  have hv : val x < val (infBits w) := by
    have e : val (infBits w) = (magVal (mb w) (infMag w) : Int) := by
      unfold val neg; rw [(infBits_sm h).1, (infBits_sm h).2]; rfl
    have := magVal_lt (b := mb w).2 hm
    rw [e]; unfold val; split <;> omega
  unfold finAbs
  rw [fNaN_eq h, fNaN_eq h, fLt_eq h, fEq_eq h]
  unfold Fp.lt Fp.eq
  rw [(finite_cls hx).1, (log_consts h).2.2.2.2.2.2.1]
  have : val x ≠ val (infBits w) := by omega
  cases avx <;> simp [hv, this]
theorem inf_big {x : BitVec w} (hx : isInf x = true) (hs : x.msb = false) : ((2 ^ unitExp w : Nat) : Int) < val x := by
  unfold val neg
  rw [hs, (inf_iff h x).1 hx]
  simp only [Bool.false_eq_true, if_false]
  rcases h with h | h <;> subst h <;> decide +kernel
theorem cmp0 (x : BitVec w) : fLt x 0#w = (!isNaN x && decide (val x < 0)) ∧ fEq x 0#w = (!isNaN x && decide (val x = 0)) ∧
    fEq x (oneBits w) = (!isNaN x && decide (val x = (2 ^ unitExp w : Nat))) ∧
    fLt x (oneBits w ^^^ BitVec.intMin w) = (!isNaN x && decide (val x < -((2 ^ unitExp w : Nat) : Int))) ∧
    fEq x (oneBits w ^^^ BitVec.intMin w) = (!isNaN x && decide (val x = -((2 ^ unitExp w : Nat) : Int))) := by
  obtain ⟨c1, c2, c3, c4, c5, c6, -⟩ := log_consts h
  rw [fLt_eq h, fEq_eq h, fEq_eq h, fLt_eq h, fEq_eq h]
  unfold Fp.lt Fp.eq
  rw [c1, c2, c3, c4, c5, c6]
  simp
/-- `1 / (x - x)` for finite `x` -/
theorem divzero_inf {x : BitVec w} (hx : isFinite x = true) : isInf (fdiv (oneBits w) (fsub x x)) = true ∧ (fdiv (oneBits w) (fsub x x)).msb = false := by
  have e : fsub x x = pack w (neg x && !neg x) 0 := by rw [fsub_fin h hx hx, if_pos (by omega)]
  have e2 : (neg x && !neg x) = false := by cases neg x <;> rfl
  rw [e, e2]
  rcases h with h | h <;> subst h <;> decide +kernel
theorem zero_fin {x : BitVec w} (hx : isZero x = true) : isFinite x = true ∧ val x = 0 := by
  have := (zero_iff x).1 hx
  refine ⟨?_, (val_zero_iff x).2 this⟩
  rw [finite_iff h, this]; rcases h with h | h <;> subst h <;> decide
variable (o : MathOpt) {avx : Bool} {x y : BitVec w}
theorem excL_nan (hp : o.propNan = true) (hx : isNaN x = true) : excL o avx y x = x := by
  obtain ⟨c1, c2, -⟩ := cmp0 h x
  unfold excL
  rw [hp, finAbs_nan h hx, c1, c2, hx]; cases o.handleErr <;> simp
theorem excL_inf (hp : o.propNan = true) (hx : isInf x = true) (hs : x.msb = false) : excL o avx y x = x := by
  obtain ⟨c1, c2, -⟩ := cmp0 h x
  have hb := inf_big h hx hs
  have hb2 : (0:Int) < ((2 ^ unitExp w : Nat) : Int) := by exact_mod_cast Nat.two_pow_pos _
  unfold excL
  rw [hp, finAbs_inf h hx hs, c1, c2, inf_not_nan' h hx, decide_eq_false (by omega), decide_eq_false (by omega)]; cases o.handleErr <;> simp
theorem excL_neg (he : o.handleErr = true) (hn : isNaN x = false) (hx : val x < 0) : isNaN (excL o avx y x) = true := by
  obtain ⟨c1, -⟩ := cmp0 h x
  unfold excL
  rw [he, c1, hn, decide_eq_true hx]
  exact invalid_nan h x
theorem excL_zero (he : o.handleErr = true) (hx : isZero x = true) : isInf (excL o avx y x) = true ∧ (excL o avx y x).msb = false := by
  obtain ⟨c1, c2, -⟩ := cmp0 h x
  have hz := zero_fin h hx
  unfold excL
  rw [he, c1, c2, (finite_cls hz.1).1, hz.2]
  exact divzero_inf h hz.1
theorem excL_pos (hx : isFinite x = true) (h0 : 0 < val x) : excL o avx y x = y := by
  obtain ⟨c1, c2, -⟩ := cmp0 h x
  unfold excL
  rw [finAbs_fin h hx, c1, c2, (finite_cls hx).1, decide_eq_false (by omega), decide_eq_false (by omega)]; cases o.handleErr <;> cases o.propNan <;> simp
theorem exc1p_nan (hp : o.propNan = true) (hx : isNaN x = true) : isNaN (exc1p o avx y x) = true := by
  obtain ⟨-, -, -, c1, c2⟩ := cmp0 h x
  dsimp only [exc1p]
  rw [hp, finAbs_nan h hx, c1, c2, hx]; cases o.handleErr <;> simp [hx]
theorem exc1p_inf (hp : o.propNan = true) (hx : isInf x = true) (hs : x.msb = false) : exc1p o avx y x = x := by
  obtain ⟨-, -, -, c1, c2⟩ := cmp0 h x
  have hb := inf_big h hx hs
  have hb2 : (0:Int) < ((2 ^ unitExp w : Nat) : Int) := by exact_mod_cast Nat.two_pow_pos _
  dsimp only [exc1p]
  rw [hp, finAbs_inf h hx hs, c1, c2, inf_not_nan' h hx, decide_eq_false (by omega), decide_eq_false (by omega)]; cases o.handleErr <;> simp
theorem exc1p_neg (he : o.handleErr = true) (hn : isNaN x = false) (hx : val x < -((2 ^ unitExp w : Nat) : Int)) : isNaN (exc1p o avx y x) = true := by
  obtain ⟨-, -, -, c1, -⟩ := cmp0 h x
  dsimp only [exc1p]
  rw [he, c1, hn, decide_eq_true hx]
  exact invalid_nan h x
theorem exc1p_mone (he : o.handleErr = true) (hn : isNaN x = false) (hx : val x = -((2 ^ unitExp w : Nat) : Int)) :
    isInf (exc1p o avx y x) = true ∧ (exc1p o avx y x).msb = false := by
  obtain ⟨-, -, -, c1, c2⟩ := cmp0 h x
  have hfin : isFinite x = true := by
    have e : x = oneBits w ^^^ BitVec.intMin w := by
      obtain ⟨-, -, -, -, -, k, -⟩ := log_consts h
      have hb2 : (0:Int) < ((2 ^ unitExp w : Nat) : Int) := by exact_mod_cast Nat.two_pow_pos _
      exact Fp.val_inj h (by omega) (hx.trans k.symm)
    rw [e]; rcases h with h | h <;> subst h <;> decide
  dsimp only [exc1p]
  rw [he, c1, c2, hn, hx, decide_eq_false (by omega)]
  simp only [Bool.not_false, Bool.true_and, Bool.false_eq_true, if_false, decide_true, if_true]
  exact divzero_inf h hfin
theorem exc1p_fin (hx : isFinite x = true) (h0 : -((2 ^ unitExp w : Nat) : Int) < val x) :
    exc1p o avx y x = if o.handleErr = true ∧ x >>> mantBits w = 0#w then x else y := by
  obtain ⟨-, -, -, c1, c2⟩ := cmp0 h x
  dsimp only [exc1p]
  rw [finAbs_fin h hx, c1, c2, (finite_cls hx).1, decide_eq_false (by omega), decide_eq_false (by omega)]
  cases o.handleErr <;> cases o.propNan <;> simp
theorem log1p_zero {fm : Bool} (hx : isZero x = true) : log1pF o avx fm x = 0#w := by
  have hz := zero_fin h hx
  have hb2 : (0:Int) < ((2 ^ unitExp w : Nat) : Int) := by exact_mod_cast Nat.two_pow_pos _
  obtain ⟨-, c2, -⟩ := cmp0 h x
  unfold log1pF
  rw [exc1p_fin h o hz.1 (by omega), c2, (finite_cls hz.1).1, hz.2]
  simp only [Bool.not_false, Bool.true_and, decide_true, if_true]
  split
  · next hh =>
    have hm := (zero_iff x).1 hx
    rw [← BitVec.toNat_inj, BitVec.toNat_ushiftRight, Nat.shiftRight_eq_div_pow] at hh
    have h1 : x.toNat / 2 ^ mantBits w = 0 := hh.2
    apply BitVec.eq_of_toNat_eq
    rw [Nat.div_eq_zero_iff] at h1
    unfold mag at hm
    have e : x.toNat < 2 ^ (w - 1) := by
      rcases h1 with h1 | h1
      · have := Nat.two_pow_pos (mantBits w); omega
      · exact lt_of_lt_of_le h1 (Nat.pow_le_pow_right (by omega) (by rcases h with h | h <;> subst h <;> decide))
    rw [Nat.mod_eq_of_lt e] at hm
    rw [hm]; simp
  · rfl
end

section
variable {c : Cfg} (hc : c.Ok) (hf : c.T.flt = true)
include hc hf
/-- the four logarithms satisfy `P` elementwise if their lane functions do -/
theorem logs_each (o : MathOpt) (fm : Bool) (x : c.Data) {P : BitVec c.w → BitVec c.w → Prop}
    (hP : ∀ (a y : BitVec c.w) (avx : Bool), P a (excL o avx (oneL y a) a)) :
    EachElt c P x (vLog c o fm x) ∧ EachElt c P x (vLog2 c o fm x) ∧ EachElt c P x (vLog10 c o fm x) := by
  refine ⟨?_, ?_, ?_⟩
  · obtain ⟨r, h1, h2⟩ := vLog_elt hc hf o fm x
    exact ⟨r, h1, fun i hi => by rw [h2 i hi]; exact hP _ _ _⟩
  · obtain ⟨r, h1, h2⟩ := vLog2_elt hc hf o fm x
    exact ⟨r, h1, fun i hi => by rw [h2 i hi]; exact hP _ _ _⟩
  · obtain ⟨r, h1, h2⟩ := vLog10_elt hc hf o fm x
    exact ⟨r, h1, fun i hi => by rw [h2 i hi]; exact hP _ _ _⟩
theorem log1p_each (o : MathOpt) (fm : Bool) (x : c.Data) {P : BitVec c.w → BitVec c.w → Prop}
    (hP : ∀ (a : BitVec c.w) (avx : Bool), P a (log1pF o avx fm a)) : EachElt c P x (vLog1p c o fm x) := by
  obtain ⟨r, h1, h2⟩ := vLog1p_elt hc hf o fm x
  exact ⟨r, h1, fun i hi => by rw [h2 i hi]; exact hP _ _⟩
/-- C41: with `propagate_nan`, the logarithm of NaN is NaN and that of +inf is +inf. -/
theorem C41_nan_inf (o : MathOpt) (hp : o.propNan = true) (fm : Bool) (x : c.Data) :
    (EachElt c (fun a r => (isNaN a = true → isNaN r = true) ∧ (isInf a = true → a.msb = false → r = a)) x (vLog c o fm x) ∧
     EachElt c (fun a r => (isNaN a = true → isNaN r = true) ∧ (isInf a = true → a.msb = false → r = a)) x (vLog2 c o fm x) ∧
     EachElt c (fun a r => (isNaN a = true → isNaN r = true) ∧ (isInf a = true → a.msb = false → r = a)) x (vLog10 c o fm x)) ∧
    EachElt c (fun a r => (isNaN a = true → isNaN r = true) ∧ (isInf a = true → a.msb = false → r = a)) x (vLog1p c o fm x) := by
  have hw := fltW hc.ety hf
  exact ⟨logs_each hc hf o fm x (fun a y avx => ⟨fun ha => by rw [excL_nan hw o hp ha]; exact ha, fun ha hs => excL_inf hw o hp ha hs⟩),
    log1p_each hc hf o fm x (fun a avx => ⟨fun ha => exc1p_nan hw o hp ha, fun ha hs => exc1p_inf hw o hp ha hs⟩)⟩
/-- C41: with error handling, the logarithm of a number below zero (−inf included) is NaN; so is `log1p` below −1. -/
theorem C41_negative (o : MathOpt) (he : o.handleErr = true) (fm : Bool) (x : c.Data) :
    (EachElt c (fun a r => isNaN a = false → val a < 0 → isNaN r = true) x (vLog c o fm x) ∧
     EachElt c (fun a r => isNaN a = false → val a < 0 → isNaN r = true) x (vLog2 c o fm x) ∧
     EachElt c (fun a r => isNaN a = false → val a < 0 → isNaN r = true) x (vLog10 c o fm x)) ∧
    EachElt c (fun a r => isNaN a = false → val a < -((2 ^ unitExp c.w : Nat) : Int) → isNaN r = true) x (vLog1p c o fm x) := by
  have hw := fltW hc.ety hf
  exact ⟨logs_each hc hf o fm x (fun a y avx hn ha => excL_neg hw o he hn ha), log1p_each hc hf o fm x (fun a avx hn ha => exc1p_neg hw o he hn ha)⟩
/-- C41: the logarithm of 1 is exactly +0, and so is `log1p` of ±0 (of −0 as well, where C requires −0), whatever the options. -/
theorem C41_one (o : MathOpt) (fm : Bool) (x : c.Data) :
    (EachElt c (fun a r => isNaN a = false → val a = (2 ^ unitExp c.w : Nat) → r = 0#c.w) x (vLog c o fm x) ∧
     EachElt c (fun a r => isNaN a = false → val a = (2 ^ unitExp c.w : Nat) → r = 0#c.w) x (vLog2 c o fm x) ∧
     EachElt c (fun a r => isNaN a = false → val a = (2 ^ unitExp c.w : Nat) → r = 0#c.w) x (vLog10 c o fm x)) ∧
    EachElt c (fun a r => isZero a = true → r = 0#c.w) x (vLog1p c o fm x) := by
  have hw := fltW hc.ety hf
  refine ⟨logs_each hc hf o fm x (fun a y avx hn ha => ?_), log1p_each hc hf o fm x (fun a avx ha => log1p_zero hw o ha)⟩
  have hb2 : (0:Int) < ((2 ^ unitExp c.w : Nat) : Int) := by exact_mod_cast Nat.two_pow_pos _
  have hfin : isFinite a = true := by
    have e : a = oneBits c.w := Fp.val_inj hw (by omega) (ha.trans (log_consts hw).2.2.2.1.symm)
    rw [e]; exact one_fin hw
  obtain ⟨-, -, c3, -⟩ := cmp0 hw a
  rw [excL_pos hw o hfin (by omega)]
  unfold oneL
  rw [c3, hn, ha]; simp
/-- C41 is violated at zero: with error handling the logarithm of ±0 is +inf (C requires −inf), and so is `log1p(-1)`. -/
theorem C41_zero_violated (o : MathOpt) (he : o.handleErr = true) (fm : Bool) (x : c.Data) :
    (EachElt c (fun a r => isZero a = true → isInf r = true ∧ r.msb = false) x (vLog c o fm x) ∧
     EachElt c (fun a r => isZero a = true → isInf r = true ∧ r.msb = false) x (vLog2 c o fm x) ∧
     EachElt c (fun a r => isZero a = true → isInf r = true ∧ r.msb = false) x (vLog10 c o fm x)) ∧
    EachElt c (fun a r => isNaN a = false → val a = -((2 ^ unitExp c.w : Nat) : Int) → isInf r = true ∧ r.msb = false) x (vLog1p c o fm x) := by
  have hw := fltW hc.ety hf
  exact ⟨logs_each hc hf o fm x (fun a y avx ha => excL_zero hw o he ha), log1p_each hc hf o fm x (fun a avx hn ha => exc1p_mone hw o he hn ha)⟩
end

/-! ### concrete cases -/
/-- log(0) = log(-0) = +inf on SSE2 -/
example : ∃ r, vLog exR2 ⟨true, true⟩ false (vbroadcast exR2 0x8000000000000000 (zeroData exR2)) = .ok r ∧ ∀ i, i < 6 → isInf (elt exR2 r i) = true ∧ (elt exR2 r i).msb = false := by
  obtain ⟨r, hr, h⟩ := each_bcast exR2_ok _ (C41_zero_violated exR2_ok rfl ⟨true, true⟩ rfl false (vbroadcast exR2 0x8000000000000000 (zeroData exR2))).1.1
  exact ⟨r, hr, fun i hi => h i hi (by decide)⟩
/-- log2(1) = 0 and log10(-1) = NaN with AVX -/
example : ∃ r, vLog2 exRA ⟨false, false⟩ false (vbroadcast exRA 0x3f800000 (zeroData exRA)) = .ok r ∧ ∀ i, i < 8 → elt exRA r i = 0 := by
  obtain ⟨r, hr, h⟩ := each_bcast exRA_ok _ (C41_one exRA_ok rfl ⟨false, false⟩ false (vbroadcast exRA 0x3f800000 (zeroData exRA))).1.2.1
  exact ⟨r, hr, fun i hi => h i hi (by decide) (by decide +kernel)⟩
example : ∃ r, vLog10 exRA ⟨true, true⟩ false (vbroadcast exRA 0xbf800000 (zeroData exRA)) = .ok r ∧ ∀ i, i < 8 → isNaN (elt exRA r i) = true := by
  obtain ⟨r, hr, h⟩ := each_bcast exRA_ok _ (C41_negative exRA_ok rfl ⟨true, true⟩ rfl false (vbroadcast exRA 0xbf800000 (zeroData exRA))).1.2.2
  exact ⟨r, hr, fun i hi => h i hi (by decide) (by decide +kernel)⟩
/-- the hypotheses of `C40_reduction` at 3.0 -/
example : isNormal (0x40400000#32) = true ∧ (0x40400000#32).msb = false ∧ redZ (0x40400000#32) = 0x3f400000#32 ∧ redK (0x40400000#32) = 2 ∧ redIdx 4 (0x40400000#32) = 1 := by
  decide +kernel
end Dpm.X86
