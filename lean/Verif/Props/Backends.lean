import Verif.Model.Program
import Verif.Props.Generic
import Verif.Props.X86Shift
import Verif.Props.X86MaskReduce
/-
C48: the x86 and the generic backend compute the same results, for every expression.
-/
namespace Dpm.X86
open Dpm.Reg Dpm.Util Dpm.Generic Dpm.Spec

/-- An x86 object and a generic object of the same kind hold the same elements.  For a mask this includes that its
elements are stored as all ones or all zeros. -/
def Agree (c : Cfg) : (k : Kind) → c.Data → GVal c.w c.N k → Prop
  | .vec, x, g => ∀ i, i < c.N → elt c x i = GSimd.get (N := c.N) g i
  | .msk, x, g => ∀ i, i < c.N → mget c x i = GSimd.get (N := c.N) g i ∧ (elt c x i = 0 ∨ elt c x i = BitVec.allOnes c.w)

/-- The two programs start from variables holding the same elements. -/
def AgreeEnv (c : Cfg) (ρ : XEnv c) (σ : GEnv c.w c.N) : Prop :=
  (∀ k, Agree c .vec (ρ.vec k) (σ.vec k)) ∧ (∀ k, Agree c .msk (ρ.msk k) (σ.msk k))

/-! Where the x86 operators exist and do not read past their operands, whatever the operands. -/
def supMin (c : Cfg) : Prop := if minmaxOverload c then minmaxExists c.s c.T c.v = true else c.N % c.e = 0
def supUn (c : Cfg) : Un → Prop
  | .neg => True
  | .bnot => c.N % c.e = 0
  | .lsl k => constShiftOk c k = true
  | .lsr k => constShiftOk c k = true
  | .asr k => constShiftOk c k = true ∧ c.T.signed = true
def supBin (c : Cfg) : Bin → Prop
  | .add | .sub | .band | .bor | .bxor => True
  | .mul => mulNative c = true ∨ c.N % c.e = 0
  | .div | .rem => c.N % c.e = 0
  | .shl | .shr => shiftNative c = true ∨ c.N % c.e = 0
  | .vmin | .vmax => supMin c
def supBinS (c : Cfg) : BinS → Prop
  | .add | .sub | .band | .bor | .bxor => True
  | .mul => mulNative c = true ∨ c.N % c.e = 0
  | .shl | .shr => shiftNative c = true ∨ c.N % c.e = 0
  | .vmin | .vmax => supMin c
def supCmp (c : Cfg) : Cmp → Prop
  | .eq | .ne => True
  | .lt | .gt | .le | .ge => c.T.signed = true ∧ c.s.sse41 = true

/-! Operators on which the backends are known to differ (C03, C10, C16, C24, C25 violated). -/
def badUn (c : Cfg) : Un → Prop
  | .lsr k => k = 0
  | .asr k => ashrEmulated c.s c.T = true ∧ 0 < k ∧ k < 32
  | _ => False
def badBin (c : Cfg) : Bin → Prop
  | .shr => shiftNative c = false ∨ c.T.signed = true
  | _ => False
def badBinS (c : Cfg) : BinS → Prop
  | .shr => shiftNative c = true ∧ c.T.signed = true
  | _ => False
def badMUn : MUn → Prop
  | .compl => True
  | .lnot => False
def badMBin : MBin → Prop
  | .land => True
  | _ => False

/-- Every operator in the expression satisfies the given conditions. -/
def Ex.All {w : Nat} (U : Un → Prop) (B : Bin → Prop) (S : BinS → Prop) (K : Prop) (C : Cmp → Prop) (MU : MUn → Prop) (MB : MBin → Prop) :
    {k : Kind} → Ex w k → Prop
  | _, .var _ | _, .mvar _ | _, .bcast _ | _, .gen _ | _, .mbcast _ | _, .mgen _ => True
  | _, .un o a => U o ∧ a.All U B S K C MU MB
  | _, .bin o a b => B o ∧ a.All U B S K C MU MB ∧ b.All U B S K C MU MB
  | _, .binS o a _ => S o ∧ a.All U B S K C MU MB
  | _, .clamp x l h => K ∧ x.All U B S K C MU MB ∧ l.All U B S K C MU MB ∧ h.All U B S K C MU MB
  | _, .blend m a b | _, .mblend m a b => m.All U B S K C MU MB ∧ a.All U B S K C MU MB ∧ b.All U B S K C MU MB
  | _, .put x _ _ => x.All U B S K C MU MB
  | _, .cmp o a b => C o ∧ a.All U B S K C MU MB ∧ b.All U B S K C MU MB
  | _, .isZero a => a.All U B S K C MU MB
  | _, .mun o m => MU o ∧ m.All U B S K C MU MB
  | _, .mbin o a b => MB o ∧ a.All U B S K C MU MB ∧ b.All U B S K C MU MB
  | _, .mput m _ _ => m.All U B S K C MU MB

/-- No operator of the expression is one the backends differ on. -/
def Sound (c : Cfg) {k : Kind} (e : Ex c.w k) : Prop :=
  e.All (fun o => ¬ badUn c o) (fun o => ¬ badBin c o) (fun o => ¬ badBinS c o) True (fun _ => True) (fun o => ¬ badMUn o) (fun o => ¬ badMBin o)
/-- Every operator of the expression is available on the x86 backend. -/
def Supported (c : Cfg) {k : Kind} (e : Ex c.w k) : Prop :=
  e.All (supUn c) (supBin c) (supBinS c) (supMin c) (supCmp c) (fun _ => True) (fun _ => True)

/-! ### scalar meaning of the operators -/
def sUn (t : IntTy) : Un → BitVec t.bits → Option (BitVec t.bits)
  | .neg => t.neg | .bnot => t.bnot | .lsl k => lslElem t k | .lsr k => fun v => some (lsrElem t k v)
  | .asr k => fun v => some (asrElem t.bits k v)
def sBin (t : IntTy) : Bin → BitVec t.bits → BitVec t.bits → Option (BitVec t.bits)
  | .add => t.add | .sub => t.sub | .mul => t.mul | .div => t.div | .rem => t.rem | .band => t.band | .bor => t.bor
  | .bxor => t.bxor | .shl => t.shl | .shr => t.shr
  | .vmin => fun x y => some (stdMin t.scalar.lt x y) | .vmax => fun x y => some (stdMax t.scalar.lt x y)
def sBinS (t : IntTy) : BinS → BitVec t.bits → BitVec t.bits → Option (BitVec t.bits)
  | .add => t.add | .sub => t.sub | .mul => t.mul | .band => t.band | .bor => t.bor
  | .bxor => t.bxor | .shl => t.shl | .shr => t.shr
  | .vmin => fun x y => some (stdMin t.scalar.lt x y) | .vmax => fun x y => some (stdMax t.scalar.lt x y)
def sCmp (t : IntTy) : Cmp → BitVec t.bits → BitVec t.bits → Bool
  | .eq => fun x y => decide (t.val x = t.val y) | .ne => fun x y => decide (t.val x ≠ t.val y)
  | .lt => fun x y => decide (t.val x < t.val y) | .gt => fun x y => decide (t.val x > t.val y)
  | .le => fun x y => decide (t.val x ≤ t.val y) | .ge => fun x y => decide (t.val x ≥ t.val y)
def sMUn : MUn → Bool → Bool
  | .lnot => (!·) | .compl => (!·)
def sMBin : MBin → Bool → Bool → Bool
  | .and => (· && ·) | .or => (· || ·) | .xor => (· ^^ ·) | .land => (· && ·) | .lor => (· || ·)
  | .eq => (· == ·) | .ne => (· != ·)

/-! ### generic operators -/
section generic
variable {N : Nat} {t : IntTy}
theorem lw1 {f : BitVec t.bits → Option (BitVec t.bits)} {a g : GSimd (BitVec t.bits) N} {res : Option (GSimd (BitVec t.bits) N)}
    (h : LaneWise1 N f a.get (res.map GSimd.get)) (hg : res = some g) {i : Nat} (hi : i < N) : f (a.get i) = some (g.get i) :=
  h.2 g.get (by rw [hg]; rfl) i hi
theorem lw2 {f : BitVec t.bits → BitVec t.bits → Option (BitVec t.bits)} {a b g : GSimd (BitVec t.bits) N} {res : Option (GSimd (BitVec t.bits) N)}
    (h : LaneWise2 N f a.get b.get (res.map GSimd.get)) (hg : res = some g) {i : Nat} (hi : i < N) : f (a.get i) (b.get i) = some (g.get i) :=
  h.2 g.get (by rw [hg]; rfl) i hi
theorem gUn_get {o : Un} {a g : GSimd (BitVec t.bits) N} (hg : gUn t o a = some g) {i : Nat} (hi : i < N) :
    sUn t o (a.get i) = some (g.get i) := by
  have h : gUn t o a = lift1 t.scalar.zero (sUn t o) a := by cases o <;> rfl
  rw [h] at hg; exact lw1 (lift1_spec _ _ a) hg hi
theorem gBin_get {o : Bin} {a b g : GSimd (BitVec t.bits) N} (hg : gBin t o a b = some g) {i : Nat} (hi : i < N) :
    sBin t o (a.get i) (b.get i) = some (g.get i) := by
  have h : gBin t o a b = lift2 t.scalar.zero (sBin t o) a b := by cases o <;> rfl
  rw [h] at hg; exact lw2 (lift2_spec _ _ a b) hg hi
theorem gBinS_get {o : BinS} {a g : GSimd (BitVec t.bits) N} {s : BitVec t.bits} (hg : gBinS t o a s = some g) {i : Nat} (hi : i < N) :
    sBinS t o (a.get i) s = some (g.get i) := by
  by_cases hs : (∃ k : BitVec t.bits → Int → Option (BitVec t.bits), gBinS t o a s = liftS t.scalar.zero (fun v (n : Int) => k v n) a (t.val s) ∧ ∀ v, k v (t.val s) = sBinS t o v s)
  · obtain ⟨k, h, hk⟩ := hs
    rw [h] at hg
    rw [← hk]; exact lw1 (f := fun v => k v (t.val s)) (liftS_spec _ _ a (t.val s)) hg hi
  · have h : gBinS t o a s = liftS t.scalar.zero (sBinS t o) a s := by
      cases o
      case shl => exact absurd ⟨t.shlN, rfl, fun _ => rfl⟩ hs
      case shr => exact absurd ⟨t.shrN, rfl, fun _ => rfl⟩ hs
      all_goals rfl
    rw [h] at hg; exact lw1 (f := fun v => sBinS t o v s) (liftS_spec _ _ a s) hg hi
theorem gCmp_get (o : Cmp) (a b : GSimd (BitVec t.bits) N) {i : Nat} (hi : i < N) :
    (gCmp t o a b).get i = sCmp t o (a.get i) (b.get i) := by
  cases o <;> exact cmpLift_get a b _ hi
theorem gMUn_get {o : MUn} (h : ¬ badMUn o) (a : GMask N) {i : Nat} (hi : i < N) : (gMUn o a).get i = sMUn o (a.get i) := by
  cases o
  · exact C03_partial a i hi
  · exact absurd trivial h
theorem gMBin_get (o : MBin) (a b : GMask N) {i : Nat} (hi : i < N) : (gMBin o a b).get i = sMBin o (a.get i) (b.get i) := by
  have h := C04_mask_ops_lanewise a a b i hi
  cases o
  · exact h.1
  · exact h.2.1
  · exact h.2.2.1
  · exact h.2.2.2.1
  · exact h.2.2.2.2.1
  · refine h.2.2.2.2.2.1.trans ?_; cases a.get i <;> cases b.get i <;> rfl
  · refine h.2.2.2.2.2.2.1.trans ?_; cases a.get i <;> cases b.get i <;> rfl
end generic

/-! ### x86 operators -/
theorem wrap_some {t : IntTy} {r : Int} {z : BitVec t.bits} (h : t.wrap r = some z) : z = BitVec.ofInt _ r := by
  unfold IntTy.wrap at h
  split at h
  · cases h
  · exact (Option.some.inj h).symm

/-- a call that always gives `f i`, where the scalar operation is `f i` whenever defined -/
theorem yid_of_yields {c : Cfg} {out : Out c.Data} {f : Nat → BitVec c.w} {g : Nat → Option (BitVec c.w)}
    (h : Yields c out f) (hg : ∀ i z, g i = some z → z = f i) : YieldsIfDefined c out g := by
  obtain ⟨r, hr, hk⟩ := h
  intro hd
  refine ⟨r, hr, fun i hi => ?_⟩
  cases hz : g i with
  | none => exact absurd hz (hd i hi)
  | some z => rw [hk i hi, hg i z hz]

theorem min_unique {t : IntTy} {x y r : BitVec t.bits} (h : isMin t x y r) : r = stdMin t.scalar.lt x y := by
  obtain ⟨h1, h2, h3⟩ := h
  unfold stdMin
  simp only [IntTy.scalar, decide_eq_true_eq]
  split
  · rename_i hl
    rcases h1 with rfl | rfl
    · omega
    · rfl
  · rename_i hl
    rcases h1 with rfl | rfl
    · rfl
    · exact (val_inj t).1 (by omega)
theorem max_unique {t : IntTy} {x y r : BitVec t.bits} (h : isMax t x y r) : r = stdMax t.scalar.lt x y := by
  obtain ⟨h1, h2, h3⟩ := h
  unfold stdMax
  simp only [IntTy.scalar, decide_eq_true_eq]
  split
  · rename_i hl
    rcases h1 with rfl | rfl
    · omega
    · rfl
  · rename_i hl
    rcases h1 with rfl | rfl
    · rfl
    · exact (val_inj t).1 (by omega)

section x86
variable (fp : FpOps) {c : Cfg} (hc : c.Ok) (hint : c.T.flt = false)
include fp hc hint
theorem xUn_ok {o : Un} (hs : supUn c o) (hb : ¬ badUn c o) (a : c.Data) :
    YieldsIfDefined c (xUn c o a) (fun i => sUn c.T.ity o (elt c a i)) := by
  cases o with
  | neg => exact yid_of_yields (C23_addsub fp hc hint a a 0).2.2.2.2 (fun i z hz => wrap_some hz)
  | bnot => exact yid_of_yields (C51_template_partial fp hc a a hint hs).1 (fun i z hz => (Option.some.inj hz).symm)
  | lsl k =>
    obtain ⟨r, hr, hk⟩ := (C25_lsl_lsr_partial hc a hs).1
    have hkb : k < c.T.ity.bits := by
      have h1 : constShiftOk c k = true := hs
      unfold constShiftOk Ety.digits at h1
      simp only [Bool.and_eq_true, decide_eq_true_eq] at h1
      have := h1.2
      show k < c.T.w
      split at this <;> omega
    intro _
    refine ⟨r, hr, fun i hi => ?_⟩
    obtain ⟨z, hz, hv⟩ := C10_lsl c.T.ity k (elt c a i) hkb
    show lslElem c.T.ity k (elt c a i) = _
    rw [hz]; congr 1
    exact BitVec.eq_of_toNat_eq (hv.trans (hk i hi).symm)
  | lsr k =>
    obtain ⟨r, hr, hk⟩ := (C25_lsl_lsr_partial hc a hs).2
    have hkb : k < c.T.ity.bits := by
      have h1 : constShiftOk c k = true := hs
      unfold constShiftOk Ety.digits at h1
      simp only [Bool.and_eq_true, decide_eq_true_eq] at h1
      have := h1.2
      show k < c.T.w
      split at this <;> omega
    intro _
    refine ⟨r, hr, fun i hi => ?_⟩
    have h0 : 0 < k := Nat.pos_of_ne_zero hb
    show some (lsrElem c.T.ity k (elt c a i)) = _
    congr 1
    exact BitVec.eq_of_toNat_eq ((C10_lsr_partial c.T.ity k (elt c a i) h0 hkb).trans (hk i hi).symm)
  | asr k =>
    have hcase : ashrEmulated c.s c.T = false ∨ 32 ≤ k ∨ k = 0 := by
      by_cases he : ashrEmulated c.s c.T = true
      · refine Or.inr ?_
        by_cases h32 : 32 ≤ k
        · exact Or.inl h32
        · refine Or.inr ?_
          apply Classical.byContradiction
          intro hk0
          exact hb ⟨he, by omega, by omega⟩
      · exact Or.inl (by simpa using he)
    obtain ⟨r, hr, hk⟩ := C25_asr_partial hc a hs.1 hs.2 hcase
    intro _
    refine ⟨r, hr, fun i hi => ?_⟩
    show some (asrElem c.T.ity.bits k (elt c a i)) = _
    congr 1
    exact BitVec.eq_of_toInt_eq ((C10_asr c.T.ity.bits k (elt c a i) (w_pos hc.ety)).trans (hk i hi).symm)

theorem xBin_ok {o : Bin} (hs : supBin c o) (hb : ¬ badBin c o) (a b : c.Data) :
    YieldsIfDefined c (xBin fp c o a b) (fun i => sBin c.T.ity o (elt c a i) (elt c b i)) := by
  have ht : (mulNative c = false → c.N % c.e = 0) → YieldsIfDefined c (opMul fp c a b) (fun i => c.T.ity.mul (elt c a i) (elt c b i)) := by
    intro h
    cases hm : mulNative c with
    | true => exact yid_of_yields ((C23_mul_partial fp hc hint a b 0).1 hm).1 (fun i z hz => wrap_some hz)
    | false => exact ((C23_mul_partial fp hc hint a b 0).2 hm (h hm)).1
  cases o with
  | add => exact yid_of_yields (C23_addsub fp hc hint a b 0).1 (fun i z hz => wrap_some hz)
  | sub => exact yid_of_yields (C23_addsub fp hc hint a b 0).2.1 (fun i z hz => wrap_some hz)
  | mul =>
    refine ht (fun hm => ?_)
    rcases hs with h | h
    · rw [h] at hm; cases hm
    · exact h
  | div => exact (C51_template_partial fp hc a b hint hs).2.1
  | rem => exact (C51_template_partial fp hc a b hint hs).2.2
  | band => exact yid_of_yields (C51_bitwise hc a b 0).1 (fun i z hz => (Option.some.inj hz).symm)
  | bor => exact yid_of_yields (C51_bitwise hc a b 0).2.1 (fun i z hz => (Option.some.inj hz).symm)
  | bxor => exact yid_of_yields (C51_bitwise hc a b 0).2.2.1 (fun i z hz => (Option.some.inj hz).symm)
  | shl => exact (C24_shl_partial hc a b 0 hs).1
  | shr =>
    have hn : shiftNative c = true ∧ c.T.signed = false := by
      have hb' : ¬ (shiftNative c = false ∨ c.T.signed = true) := hb
      cases h1 : shiftNative c <;> cases h2 : c.T.signed <;> simp_all
    exact ((C24_shr_partial hc a b 0).1 hn.1 hn.2).1
  | vmin =>
    obtain ⟨r, hr, hk⟩ := (C26_minmax_partial hc hint a b 0 hs).1
    exact fun _ => ⟨r, hr, fun i hi => congrArg some (min_unique (hk i hi)).symm⟩
  | vmax =>
    obtain ⟨r, hr, hk⟩ := (C26_minmax_partial hc hint a b 0 hs).2.1
    exact fun _ => ⟨r, hr, fun i hi => congrArg some (max_unique (hk i hi)).symm⟩

theorem xBinS_ok {o : BinS} (hs : supBinS c o) (hb : ¬ badBinS c o) (a : c.Data) (s : BitVec c.w) :
    YieldsIfDefined c (xBinS fp c o a s) (fun i => sBinS c.T.ity o (elt c a i) s) := by
  have ht : (mulNative c = false → c.N % c.e = 0) → YieldsIfDefined c (opMulS fp c a s) (fun i => c.T.ity.mul (elt c a i) s) := by
    intro h
    cases hm : mulNative c with
    | true => exact yid_of_yields ((C23_mul_partial fp hc hint a a s).1 hm).2 (fun i z hz => wrap_some hz)
    | false => exact ((C23_mul_partial fp hc hint a a s).2 hm (h hm)).2
  cases o with
  | add => exact yid_of_yields (C23_addsub fp hc hint a a s).2.2.1 (fun i z hz => wrap_some hz)
  | sub => exact yid_of_yields (C23_addsub fp hc hint a a s).2.2.2.1 (fun i z hz => wrap_some hz)
  | mul =>
    refine ht (fun hm => ?_)
    rcases hs with h | h
    · rw [h] at hm; cases hm
    · exact h
  | band => exact yid_of_yields (C51_bitwise hc a a s).2.2.2.1 (fun i z hz => (Option.some.inj hz).symm)
  | bor => exact yid_of_yields (C51_bitwise hc a a s).2.2.2.2.1 (fun i z hz => (Option.some.inj hz).symm)
  | bxor => exact yid_of_yields (C51_bitwise hc a a s).2.2.2.2.2 (fun i z hz => (Option.some.inj hz).symm)
  | shl => exact (C24_shl_partial hc a a s hs).2
  | shr =>
    have hb' : ¬ (shiftNative c = true ∧ c.T.signed = true) := hb
    cases hn : shiftNative c with
    | true =>
      have hu : c.T.signed = false := by
        cases h : c.T.signed
        · rfl
        · exact absurd ⟨hn, h⟩ hb'
      exact ((C24_shr_partial hc a a s).1 hn hu).2
    | false =>
      refine (C24_shr_partial hc a a s).2 hn ?_
      rcases hs with h | h
      · rw [h] at hn; cases hn
      · exact h
  | vmin =>
    obtain ⟨r, hr, hk⟩ := (C26_minmax_partial hc hint a a s hs).2.2.1
    exact fun _ => ⟨r, hr, fun i hi => congrArg some (min_unique (hk i hi)).symm⟩
  | vmax =>
    obtain ⟨r, hr, hk⟩ := (C26_minmax_partial hc hint a a s hs).2.2.2
    exact fun _ => ⟨r, hr, fun i hi => congrArg some (max_unique (hk i hi)).symm⟩

omit fp in
theorem xCmp_ok {o : Cmp} (hs : supCmp c o) (a b : c.Data) :
    YieldsMask c (xCmp c o a b) (fun i => sCmp c.T.ity o (elt c a i) (elt c b i)) := by
  cases o with
  | eq => exact (C22_equality hc hint a b).1
  | ne => exact (C22_equality hc hint a b).2.1
  | lt => exact (C22_ordered_partial hc hint a b hs.1 hs.2).2.1
  | gt => exact (C22_ordered_partial hc hint a b hs.1 hs.2).1
  | le => exact (C22_ordered_partial hc hint a b hs.1 hs.2).2.2.2
  | ge => exact (C22_ordered_partial hc hint a b hs.1 hs.2).2.2.1

omit fp in
theorem clamp_ok (hs : supMin c) (x lo hi : c.Data) {g : Nat → BitVec c.w}
    (hg : ∀ i, i < c.N → stdClamp c.T.ity.scalar.lt (elt c x i) (elt c lo i) (elt c hi i) = some (g i)) :
    ∃ r, vClamp c x lo hi = .ok r ∧ ∀ i, i < c.N → elt c r i = g i := by
  have hle : ∀ i, i < c.N → c.T.ity.val (elt c lo i) ≤ c.T.ity.val (elt c hi i) := by
    intro i hi'
    have := hg i hi'
    unfold stdClamp at this
    split at this
    · cases this
    · rename_i h; simp only [IntTy.scalar, decide_eq_true_eq] at h; omega
  obtain ⟨r, hr, hk⟩ := C26_clamp_partial hc hint x lo hi hle hs
  refine ⟨r, hr, fun i hi' => ?_⟩
  have hgi := hg i hi'
  obtain ⟨h1, h2, h3⟩ := hk i hi'
  have hl := hle i hi'
  unfold stdClamp at hgi
  simp only [IntTy.scalar, decide_eq_true_eq] at hgi
  rw [if_neg (by omega)] at hgi
  rw [← Option.some.inj hgi]
  split
  · exact h1 (by assumption)
  · split
    · exact h2 (by assumption)
    · exact h3 (by omega) (by omega)
omit fp hint in
theorem xMUn_ok (o : MUn) {a : c.Data} (ha : Canon c a) :
    ∀ i, i < c.N → mget c (xMUn c o a) i = sMUn o (mget c a i) ∧ (elt c (xMUn c o a) i = 0 ∨ elt c (xMUn c o a) i = BitVec.allOnes c.w) := by
  intro i hi
  have h := C16_not hc ha hi
  have hk : elt c (Mask.compl c a) i = 0 ∨ elt c (Mask.compl c a) i = BitVec.allOnes c.w :=
    canon_of_elt (fun i => !mget c a i) (fun i hi => by rw [elt_compl hc _ hi, ha.elt hc hi, laneMask_not]) i hi
  cases o
  · exact ⟨h.1, hk⟩
  · exact ⟨h.2, hk⟩
omit fp hint in
theorem xMBin_ok {o : MBin} (hb : ¬ badMBin o) {a b : c.Data} (ha : Canon c a) (hb' : Canon c b) :
    ∀ i, i < c.N → mget c (xMBin c o a b) i = sMBin o (mget c a i) (mget c b i) ∧
      (elt c (xMBin c o a b) i = 0 ∨ elt c (xMBin c o a b) i = BitVec.allOnes c.w) := by
  intro i hi
  have h := C16_bitwise hc ha hb' hi
  have h2 := C16_compare hc ha hb' hi
  cases o with
  | and => exact ⟨h.1, canon_of_elt (m := Mask.and c a b) _ (fun i hi => by rw [elt_and hc _ _ hi, ha.elt hc hi, hb'.elt hc hi, laneMask_and]) i hi⟩
  | or => exact ⟨h.2.1, canon_of_elt (m := Mask.or c a b) _ (fun i hi => by rw [elt_or hc _ _ hi, ha.elt hc hi, hb'.elt hc hi, laneMask_or]) i hi⟩
  | xor => exact ⟨h.2.2, canon_of_elt (m := Mask.xor c a b) _ (fun i hi => by rw [elt_xor hc _ _ hi, ha.elt hc hi, hb'.elt hc hi, laneMask_xor]) i hi⟩
  | land => exact absurd trivial hb
  | lor => exact ⟨C16_lor hc a b hi, canon_of_elt _ (fun i hi => elt_lor hc _ _ hi) i hi⟩
  | eq => exact ⟨h2.1, canon_of_elt _ (fun i hi => elt_eq hc _ _ hi) i hi⟩
  | ne => exact ⟨h2.2, canon_of_elt _ (fun i hi => elt_ne hc _ _ hi) i hi⟩

omit fp hint hc in
theorem canon_agree {x : c.Data} {g : GMask c.N} (h : Agree c .msk x g) : Canon c x := fun i hi => (h i hi).2
omit fp hint hc in
theorem yieldsMask_agree {out : Out c.Data} {p : Nat → Bool} {g : GMask c.N} (h : YieldsMask c out p) (hg : ∀ i, i < c.N → g.get i = p i) :
    ∃ r, out = .ok r ∧ Agree c .msk r g := by
  obtain ⟨r, hr, hk⟩ := h
  refine ⟨r, hr, fun i hi => ⟨(hk i hi).1.trans (hg i hi).symm, ?_⟩⟩
  rw [(hk i hi).2]
  cases p i
  · exact Or.inl rfl
  · exact Or.inr rfl

/-- C48 (definedness and results), proved for expressions whose operators are available on the x86 backend
(`Supported`) and do not include the ones on which the backends differ (`Sound`): whenever the generic program is
defined, the x86 program compiles, is defined, and gives the same elements.  The expression, the element type and
width, the native size and ISA level, the values and the contents of uninitialised storage are arbitrary. -/
theorem C48_refines_partial (ρ : XEnv c) (σ : GEnv c.w c.N) (hρ : AgreeEnv c ρ σ) {k : Kind} (e : Ex c.w k)
    (hs : Supported c e) (hb : Sound c e) (g : GVal c.w c.N k) (hg : evalG c.T.ity σ e = some g) :
    ∃ r, evalX fp c ρ e = .ok r ∧ Agree c k r g := by
  have key1 : ∀ {out : Out c.Data} {f : Nat → Option (BitVec c.w)} {g : GSimd (BitVec c.w) c.N}, YieldsIfDefined c out f →
      (∀ i, i < c.N → f i = some (g.get i)) → ∃ r, out = .ok r ∧ Agree c .vec r g := by
    intro out f g hy hf
    obtain ⟨r, hr, hk⟩ := hy (fun i hi => by rw [hf i hi]; simp)
    exact ⟨r, hr, fun i hi => Option.some.inj ((hk i hi).symm.trans (hf i hi))⟩
  induction e with
  | var k => cases hg; exact ⟨_, rfl, hρ.1 k⟩
  | mvar k => cases hg; exact ⟨_, rfl, hρ.2 k⟩
  | bcast s => cases hg; exact ⟨_, rfl, fun i hi => (elt_vbroadcast hc s ρ.junk hi).trans (C06_constructors (σ.vec 0) σ.junk σ.junk s (fun _ => s) i hi).1.symm⟩
  | gen f => cases hg; exact ⟨_, rfl, fun i hi => (elt_vgenerate hc f ρ.junk hi).trans (C06_constructors (σ.vec 0) σ.junk σ.junk 0 f i hi).2.1.symm⟩
  | mbcast b =>
    cases hg
    refine ⟨_, rfl, fun i hi => ⟨?_, C17_canonical hc (.ofBool b ρ.junk) i hi⟩⟩
    exact (C17_constructors hc b (fun _ => b) ρ.junk ρ.junk 0 hi).1.trans (C06_constructors (σ.msk 0) σ.mjunk σ.mjunk b (fun _ => b) i hi).1.symm
  | mgen f =>
    cases hg
    refine ⟨_, rfl, fun i hi => ⟨?_, C17_canonical hc (.ofGen f ρ.junk) i hi⟩⟩
    exact (C17_constructors hc true f ρ.junk ρ.junk 0 hi).2.1.trans (C06_constructors (σ.msk 0) σ.mjunk σ.mjunk true f i hi).2.1.symm
  | un o a iha =>
    obtain ⟨ga, hga, hg⟩ := Option.bind_eq_some_iff.1 hg
    obtain ⟨x, hx, ax⟩ := iha hs.2 hb.2 ga hga
    obtain ⟨r, hr, ar⟩ := key1 (g := g) (xUn_ok fp hc hint hs.1 hb.1 x) (fun i hi => by rw [ax i hi]; exact gUn_get hg hi)
    exact ⟨r, by simp only [evalX, hx, Out.bind, hr], ar⟩
  | bin o a b iha ihb =>
    obtain ⟨ga, hga, hg⟩ := Option.bind_eq_some_iff.1 hg
    obtain ⟨gb, hgb, hg⟩ := Option.bind_eq_some_iff.1 hg
    obtain ⟨x, hx, ax⟩ := iha hs.2.1 hb.2.1 ga hga
    obtain ⟨y, hy, ay⟩ := ihb hs.2.2 hb.2.2 gb hgb
    obtain ⟨r, hr, ar⟩ := key1 (g := g) (xBin_ok fp hc hint hs.1 hb.1 x y) (fun i hi => by rw [ax i hi, ay i hi]; exact gBin_get hg hi)
    exact ⟨r, by simp only [evalX, hx, hy, Out.bind, hr], ar⟩
  | binS o a s iha =>
    obtain ⟨ga, hga, hg⟩ := Option.bind_eq_some_iff.1 hg
    obtain ⟨x, hx, ax⟩ := iha hs.2 hb.2 ga hga
    obtain ⟨r, hr, ar⟩ := key1 (g := g) (xBinS_ok fp hc hint hs.1 hb.1 x s) (fun i hi => by rw [ax i hi]; exact gBinS_get hg hi)
    exact ⟨r, by simp only [evalX, hx, Out.bind, hr], ar⟩
  | clamp x lo hi ihx ihl ihh =>
    obtain ⟨gx, hgx, hg⟩ := Option.bind_eq_some_iff.1 hg
    obtain ⟨gl, hgl, hg⟩ := Option.bind_eq_some_iff.1 hg
    obtain ⟨gh, hgh, hg⟩ := Option.bind_eq_some_iff.1 hg
    obtain ⟨x, hx, ax⟩ := ihx hs.2.1 hb.2.1 gx hgx
    obtain ⟨l, hl, al⟩ := ihl hs.2.2.1 hb.2.2.1 gl hgl
    obtain ⟨h, hh, ah⟩ := ihh hs.2.2.2 hb.2.2.2 gh hgh
    have hsp := (vclamp_spec c.T.ity.scalar gx gl gh).2 (GSimd.get g) (by rw [hg]; rfl)
    obtain ⟨r, hr, ar⟩ := clamp_ok hc hint hs.1 x l h (g := GSimd.get (N := c.N) g) (fun i hi => by rw [ax i hi, al i hi, ah i hi]; exact hsp i hi)
    exact ⟨r, by simp only [evalX, hx, hl, hh, Out.bind, hr], ar⟩
  | blend m a b ihm iha ihb =>
    obtain ⟨gm, hgm, hg⟩ := Option.bind_eq_some_iff.1 hg
    obtain ⟨ga, hga, hg⟩ := Option.bind_eq_some_iff.1 hg
    obtain ⟨gb, hgb, hg⟩ := Option.bind_eq_some_iff.1 hg
    obtain ⟨m, hm, am⟩ := ihm hs.1 hb.1 gm hgm
    obtain ⟨x, hx, ax⟩ := iha hs.2.1 hb.2.1 ga hga
    obtain ⟨y, hy, ay⟩ := ihb hs.2.2 hb.2.2 gb hgb
    cases hg
    refine ⟨Mask.blend c m x y, by simp only [evalX, hx, hy, hm, Out.bind], fun i hi => ?_⟩
    rw [(C21_blend hc m x y hi).1, (am i hi).1, ax i hi, ay i hi]
    exact (C04_blend_lanewise _ gm ga gb i hi).symm
  | put x k s ihx =>
    obtain ⟨gx, hgx, hg⟩ := Option.bind_eq_some_iff.1 hg
    obtain ⟨x, hx, ax⟩ := ihx hs hb gx hgx
    split at hg
    · rename_i hk
      cases hg
      refine ⟨vset c x k s, by simp only [evalX, hx, Out.bind, if_pos hk], fun i hi => ?_⟩
      refine (elt_setElt hc x k s i).trans ?_
      show _ = (gx.data.set k s) i
      by_cases h : i = k
      · rw [if_pos h, h, Mem.set_same]
      · rw [if_neg h, Mem.set_ne _ _ h]; exact ax i hi
    · cases hg
  | cmp o a b iha ihb =>
    obtain ⟨ga, hga, hg⟩ := Option.bind_eq_some_iff.1 hg
    obtain ⟨gb, hgb, hg⟩ := Option.bind_eq_some_iff.1 hg
    obtain ⟨x, hx, ax⟩ := iha hs.2.1 hb.2.1 ga hga
    obtain ⟨y, hy, ay⟩ := ihb hs.2.2 hb.2.2 gb hgb
    cases hg
    obtain ⟨r, hr, ar⟩ := yieldsMask_agree (xCmp_ok hc hint hs.1 x y) (g := gCmp c.T.ity o ga gb)
      (fun i hi => by rw [gCmp_get o ga gb hi, ax i hi, ay i hi])
    exact ⟨r, by simp only [evalX, hx, hy, Out.bind, hr], ar⟩
  | isZero a iha =>
    obtain ⟨ga, hga, hg⟩ := Option.bind_eq_some_iff.1 hg
    obtain ⟨x, hx, ax⟩ := iha hs hb ga hga
    cases hg
    obtain ⟨r, hr, ar⟩ := yieldsMask_agree (C22_equality hc hint x x).2.2 (g := Generic.opLNot c.T.ity.scalar ga)
      (fun i hi => by rw [(C01_compare_lanewise c.T.ity.scalar ga ga i hi).2.2.2.2.2.2, ax i hi]; rfl)
    exact ⟨r, by simp only [evalX, hx, Out.bind, hr], ar⟩
  | mun o m ihm =>
    obtain ⟨gm, hgm, hg⟩ := Option.bind_eq_some_iff.1 hg
    obtain ⟨m, hm, am⟩ := ihm hs.2 hb.2 gm hgm
    cases hg
    refine ⟨xMUn c o m, by simp only [evalX, hm, Out.bind], fun i hi => ?_⟩
    have h := xMUn_ok hc o (canon_agree am) i hi
    refine ⟨?_, h.2⟩
    rw [h.1, (am i hi).1]; exact (gMUn_get hb.1 gm hi).symm
  | mbin o a b iha ihb =>
    obtain ⟨ga, hga, hg⟩ := Option.bind_eq_some_iff.1 hg
    obtain ⟨gb, hgb, hg⟩ := Option.bind_eq_some_iff.1 hg
    obtain ⟨x, hx, ax⟩ := iha hs.2.1 hb.2.1 ga hga
    obtain ⟨y, hy, ay⟩ := ihb hs.2.2 hb.2.2 gb hgb
    cases hg
    refine ⟨xMBin c o x y, by simp only [evalX, hx, hy, Out.bind], fun i hi => ?_⟩
    have h := xMBin_ok hc hb.1 (canon_agree ax) (canon_agree ay) i hi
    refine ⟨?_, h.2⟩
    rw [h.1, (ax i hi).1, (ay i hi).1]; exact (gMBin_get o ga gb hi).symm
  | mblend m a b ihm iha ihb =>
    obtain ⟨gm, hgm, hg⟩ := Option.bind_eq_some_iff.1 hg
    obtain ⟨ga, hga, hg⟩ := Option.bind_eq_some_iff.1 hg
    obtain ⟨gb, hgb, hg⟩ := Option.bind_eq_some_iff.1 hg
    obtain ⟨m, hm, am⟩ := ihm hs.1 hb.1 gm hgm
    obtain ⟨x, hx, ax⟩ := iha hs.2.1 hb.2.1 ga hga
    obtain ⟨y, hy, ay⟩ := ihb hs.2.2 hb.2.2 gb hgb
    cases hg
    refine ⟨Mask.blend c m x y, by simp only [evalX, hx, hy, hm, Out.bind], fun i hi => ⟨?_, ?_⟩⟩
    · rw [(C21_blend hc m x y hi).2, (am i hi).1, (ax i hi).1, (ay i hi).1]
      exact (C04_mask_ops_lanewise gm ga gb i hi).2.2.2.2.2.2.2.2.2.2.2.symm
    · rw [(C21_blend hc m x y hi).1]
      split
      · exact (ax i hi).2
      · exact (ay i hi).2
  | mput m k b ihm =>
    obtain ⟨gm, hgm, hg⟩ := Option.bind_eq_some_iff.1 hg
    obtain ⟨m, hm, am⟩ := ihm hs hb gm hgm
    split at hg
    · rename_i hk
      cases hg
      refine ⟨Mask.setElem c m k b, by simp only [evalX, hm, Out.bind, if_pos hk], fun i hi => ⟨?_, ?_⟩⟩
      · rw [(C17_constructors hc b (fun _ => b) m m k hi).2.2]
        show _ = (gm.data.set k b) i
        by_cases h : i = k
        · rw [if_pos h, h, Mem.set_same]
        · rw [if_neg h, Mem.set_ne _ _ h]; exact (am i hi).1
      · unfold Mask.setElem
        rw [elt_setElt hc, extendBool_eq]
        by_cases h : i = k
        · rw [if_pos h]; cases b
          · exact Or.inl rfl
          · exact Or.inr rfl
        · rw [if_neg h]; exact (am i hi).2
    · cases hg

/-! ### operators that are not available -/
omit fp hint hc in
theorem not_supMin (h : ¬ supMin c) : (minmaxOverload c = true ∧ minmaxExists c.s c.T c.v = false) ∨ (minmaxOverload c = false ∧ c.N % c.e ≠ 0) := by
  unfold supMin at h
  cases ho : minmaxOverload c with
  | true => rw [if_pos ho] at h; exact Or.inl ⟨rfl, by simpa using h⟩
  | false => rw [if_neg (by rw [ho]; decide)] at h; exact Or.inr ⟨rfl, h⟩
omit fp in
theorem minmax_unavailable (h : ¬ supMin c) (a b : c.Data) (s : BitVec c.w) :
    ∀ r, vMin c a b ≠ .ok r ∧ vMax c a b ≠ .ok r ∧ vMinS c a s ≠ .ok r ∧ vMaxS c a s ≠ .ok r := by
  intro r
  rcases not_supMin h with ⟨ho, he⟩ | ⟨ho, hN⟩
  · have m1 : ∀ y, minV c.s c.T c.v 0 y = none := fun y => by unfold minV minI; rw [hint, he]; rfl
    have m2 : ∀ y, maxV c.s c.T c.v 0 y = none := fun y => by unfold maxV maxI; rw [hint, he]; rfl
    unfold vMin vMax vMinS vMaxS
    rw [if_pos (Or.inr ho), if_pos (Or.inr ho), if_pos (Or.inr ho), if_pos (Or.inr ho)]
    rw [vec2_none (m1 0), vec2_none (m2 0), vec1_none (k := fun x => minV c.s c.T c.v x (fillV c.v s)) (m1 _),
      vec1_none (k := fun x => maxV c.s c.T c.v x (fillV c.v s)) (m2 _)]
    simp
  · obtain ⟨h1, h2, h3, h4⟩ := (C26_minmax_violated hc hint a b s ho).2 hN
    rw [h1, h2, h3, h4]; simp
omit fp in
theorem clamp_unavailable (h : ¬ supMin c) (x lo hi r : c.Data) : vClamp c x lo hi ≠ .ok r := by
  rcases not_supMin h with ⟨ho, he⟩ | ⟨ho, hN⟩
  · have m2 : maxV c.s c.T c.v 0 0 = none := by unfold maxV maxI; rw [hint, he]; rfl
    unfold vClamp
    rw [if_pos (Or.inr ho), vec2_none m2]; simp [Out.bind]
  · unfold vClamp
    rw [if_neg (by rw [hint, ho]; simp)]
    cases Generic.vclamp c.T.ity.scalar (⟨fun i => elt c x i⟩ : GSimd (BitVec c.w) c.N) ⟨fun i => elt c lo i⟩ ⟨fun i => elt c hi i⟩ with
    | none => simp [Out.ofUb, Out.bind]
    | some g => simp only [Out.ofUb, Out.bind]; rw [fromArray_ub hc hN]; simp
theorem xUn_unavailable {o : Un} (h : ¬ supUn c o) (a r : c.Data) : xUn c o a ≠ .ok r := by
  cases o with
  | neg => exact absurd trivial h
  | bnot => rw [show xUn c .bnot a = opNot c a from rfl, (C51_violated fp hc a a hint h).1]; simp
  | lsl k => rw [show xUn c (.lsl k) a = .illFormed from if_neg h]; simp
  | lsr k => rw [show xUn c (.lsr k) a = .illFormed from if_neg h]; simp
  | asr k =>
    have : ¬ (constShiftOk c k && c.T.signed) = true := by
      rw [Bool.and_eq_true]; exact h
    rw [show xUn c (.asr k) a = .illFormed from if_neg this]; simp
theorem xBin_unavailable {o : Bin} (h : ¬ supBin c o) (a b r : c.Data) : xBin fp c o a b ≠ .ok r := by
  have hsh : ¬ (shiftNative c = true ∨ c.N % c.e = 0) → shiftNative c = false ∧ c.N % c.e ≠ 0 := by
    intro h; refine ⟨by simpa using fun h' => h (Or.inl h'), fun h' => h (Or.inr h')⟩
  have hmu : ¬ (mulNative c = true ∨ c.N % c.e = 0) → mulNative c = false ∧ c.N % c.e ≠ 0 := by
    intro h; refine ⟨by simpa using fun h' => h (Or.inl h'), fun h' => h (Or.inr h')⟩
  cases o with
  | add => exact absurd trivial h
  | sub => exact absurd trivial h
  | band => exact absurd trivial h
  | bor => exact absurd trivial h
  | bxor => exact absurd trivial h
  | mul => rw [show xBin fp c .mul a b = opMul fp c a b from rfl, (C23_mul_violated fp hc hint a b 0 (hmu h).1 (hmu h).2).1]; simp
  | div => rw [show xBin fp c .div a b = opDiv fp c a b from rfl, (C51_violated fp hc a b hint h).2.1]; simp
  | rem => rw [show xBin fp c .rem a b = opRem c a b from rfl, (C51_violated fp hc a b hint h).2.2]; simp
  | shl => rw [show xBin fp c .shl a b = opShl c a b from rfl, (C24_padding_violated hc a b 0 (hsh h).1 (hsh h).2).1]; simp
  | shr => rw [show xBin fp c .shr a b = opShr c a b from rfl, (C24_padding_violated hc a b 0 (hsh h).1 (hsh h).2).2.1]; simp
  | vmin => exact (minmax_unavailable hc hint h a b 0 r).1
  | vmax => exact (minmax_unavailable hc hint h a b 0 r).2.1
theorem xBinS_unavailable {o : BinS} (h : ¬ supBinS c o) (a : c.Data) (s : BitVec c.w) (r : c.Data) : xBinS fp c o a s ≠ .ok r := by
  have hsh : ¬ (shiftNative c = true ∨ c.N % c.e = 0) → shiftNative c = false ∧ c.N % c.e ≠ 0 := by
    intro h; refine ⟨by simpa using fun h' => h (Or.inl h'), fun h' => h (Or.inr h')⟩
  have hmu : ¬ (mulNative c = true ∨ c.N % c.e = 0) → mulNative c = false ∧ c.N % c.e ≠ 0 := by
    intro h; refine ⟨by simpa using fun h' => h (Or.inl h'), fun h' => h (Or.inr h')⟩
  cases o with
  | add => exact absurd trivial h
  | sub => exact absurd trivial h
  | band => exact absurd trivial h
  | bor => exact absurd trivial h
  | bxor => exact absurd trivial h
  | mul => rw [show xBinS fp c .mul a s = opMulS fp c a s from rfl, (C23_mul_violated fp hc hint a a s (hmu h).1 (hmu h).2).2]; simp
  | shl => rw [show xBinS fp c .shl a s = opShlS c a s from rfl, (C24_padding_violated hc a a s (hsh h).1 (hsh h).2).2.2.1]; simp
  | shr => rw [show xBinS fp c .shr a s = opShrS c a s from rfl, (C24_padding_violated hc a a s (hsh h).1 (hsh h).2).2.2.2]; simp
  | vmin => exact (minmax_unavailable hc hint h a a s r).2.2.1
  | vmax => exact (minmax_unavailable hc hint h a a s r).2.2.2
omit fp hc in
theorem xCmp_unavailable {o : Cmp} (h : ¬ supCmp c o) (a b r : c.Data) : xCmp c o a b ≠ .ok r := by
  have hh : ¬ (c.T.signed = true ∧ c.s.sse41 = true) → c.T.signed = false ∨ c.s.sse41 = false := by
    intro h
    cases h1 : c.T.signed
    · exact Or.inl rfl
    · cases h2 : c.s.sse41
      · exact Or.inr rfl
      · exact absurd ⟨h1, h2⟩ h
  cases o with
  | eq => exact absurd trivial h
  | ne => exact absurd trivial h
  | lt => rw [show xCmp c .lt a b = opLt c a b from rfl, (C22_ordered_violated hint a b (hh h)).2.1]; simp
  | gt => rw [show xCmp c .gt a b = opGt c a b from rfl, (C22_ordered_violated hint a b (hh h)).1]; simp
  | le => rw [show xCmp c .le a b = opLe c a b from rfl, (C22_ordered_violated hint a b (hh h)).2.2.2]; simp
  | ge => rw [show xCmp c .ge a b = opGe c a b from rfl, (C22_ordered_violated hint a b (hh h)).2.2.1]; simp

omit fp hc hint in
theorem bind_ok {α β : Type} {x : Out α} {f : α → Out β} {r : β} (h : x.bind f = .ok r) : ∃ y, x = .ok y ∧ f y = .ok r := by
  cases x with
  | illFormed => cases h
  | ub => cases h
  | ok y => exact ⟨y, rfl, h⟩

/-- C48 (availability): an x86 program that compiles and is defined uses only operators satisfying `Supported`; for
every other expression the x86 program is ill-formed or undefined, even where the generic one is fine. -/
theorem C48_unsupported (ρ : XEnv c) {k : Kind} (e : Ex c.w k) {r : c.Data} (hr : evalX fp c ρ e = .ok r) : Supported c e := by
  induction e generalizing r with
  | var _ | mvar _ | bcast _ | gen _ | mbcast _ | mgen _ => trivial
  | un o a iha =>
    obtain ⟨x, hx, hr⟩ := bind_ok hr
    exact ⟨Classical.byContradiction fun h => xUn_unavailable fp hc hint h x r hr, iha hx⟩
  | bin o a b iha ihb =>
    obtain ⟨x, hx, hr⟩ := bind_ok hr
    obtain ⟨y, hy, hr⟩ := bind_ok hr
    exact ⟨Classical.byContradiction fun h => xBin_unavailable fp hc hint h x y r hr, iha hx, ihb hy⟩
  | binS o a s iha =>
    obtain ⟨x, hx, hr⟩ := bind_ok hr
    exact ⟨Classical.byContradiction fun h => xBinS_unavailable fp hc hint h x s r hr, iha hx⟩
  | clamp x lo hi ihx ihl ihh =>
    obtain ⟨x, hx, hr⟩ := bind_ok hr
    obtain ⟨l, hl, hr⟩ := bind_ok hr
    obtain ⟨h, hh, hr⟩ := bind_ok hr
    exact ⟨Classical.byContradiction fun h' => clamp_unavailable hc hint h' x l h r hr, ihx hx, ihl hl, ihh hh⟩
  | blend m a b ihm iha ihb | mblend m a b ihm iha ihb =>
    obtain ⟨x, hx, hr⟩ := bind_ok hr
    obtain ⟨l, hl, hr⟩ := bind_ok hr
    obtain ⟨h, hh, hr⟩ := bind_ok hr
    exact ⟨ihm hx, iha hl, ihb hh⟩
  | put x k s ihx | mput x k s ihx =>
    obtain ⟨x, hx, hr⟩ := bind_ok hr
    exact ihx hx
  | cmp o a b iha ihb =>
    obtain ⟨x, hx, hr⟩ := bind_ok hr
    obtain ⟨y, hy, hr⟩ := bind_ok hr
    exact ⟨Classical.byContradiction fun h => xCmp_unavailable hint h x y r hr, iha hx, ihb hy⟩
  | isZero a iha =>
    obtain ⟨x, hx, hr⟩ := bind_ok hr
    exact iha hx
  | mun o m ihm =>
    obtain ⟨x, hx, hr⟩ := bind_ok hr
    exact ⟨trivial, ihm hx⟩
  | mbin o a b iha ihb =>
    obtain ⟨x, hx, hr⟩ := bind_ok hr
    obtain ⟨y, hy, hr⟩ := bind_ok hr
    exact ⟨trivial, iha hx, ihb hy⟩

/-- C48 (results), proved for expressions without the operators on which the backends differ: whenever both programs
are defined they give the same elements. -/
theorem C48_agree_partial (ρ : XEnv c) (σ : GEnv c.w c.N) (hρ : AgreeEnv c ρ σ) {k : Kind} (e : Ex c.w k) (hb : Sound c e)
    (g : GVal c.w c.N k) (hg : evalG c.T.ity σ e = some g) (r : c.Data) (hr : evalX fp c ρ e = .ok r) : Agree c k r g := by
  obtain ⟨r', hr', ha⟩ := C48_refines_partial fp hc hint ρ σ hρ e (C48_unsupported fp hc hint ρ e hr) hb g hg
  rw [hr] at hr'
  cases hr'
  exact ha
end x86

/-! ### scalar results -/
theorem first_exists (N : Nat) (f : Nat → Bool) (h : ∃ i, i < N ∧ f i = true) : ∃ k, IsFirst N f k := by
  induction N with
  | zero => obtain ⟨i, hi, _⟩ := h; omega
  | succ n ih =>
    by_cases hn : ∃ i, i < n ∧ f i = true
    · obtain ⟨k, h1, h2, h3⟩ := ih hn
      exact ⟨k, by omega, h2, h3⟩
    · obtain ⟨i, hi, hf⟩ := h
      have : i = n := Classical.byContradiction fun hne => hn ⟨i, by omega, hf⟩
      subst this
      exact ⟨i, hi, hf, fun j hj => by
        cases hc : f j
        · rfl
        · exact absurd ⟨j, hj, hc⟩ hn⟩
theorem last_exists (N : Nat) (f : Nat → Bool) (h : ∃ i, i < N ∧ f i = true) : ∃ k, IsLast N f k := by
  induction N with
  | zero => obtain ⟨i, hi, _⟩ := h; omega
  | succ n ih =>
    cases hn : f n with
    | true => exact ⟨n, by omega, hn, fun i h1 h2 => by omega⟩
    | false =>
      obtain ⟨i, hi, hf⟩ := h
      have hne : i ≠ n := fun he => by rw [he, hn] at hf; cases hf
      obtain ⟨k, h1, h2, h3⟩ := ih ⟨i, by omega, hf⟩
      refine ⟨k, by omega, h2, fun j hj hj2 => ?_⟩
      by_cases hjn : j = n
      · rw [hjn]; exact hn
      · exact h3 j hj (by omega)
theorem allOf_any {N : Nat} (g : GMask N) : Generic.anyOf g = true ↔ ∃ i, i < N ∧ g.get i = true := (C05_quantifiers g).2.1
/-- C48 (mask queries), proved where neither the AVX2 byte-mask defect nor the AVX padding defect applies: masks with
the same elements give the same `all_of`, `any_of`, `none_of`, `some_of`, `reduce_count` and `reduce_min_index`, and
the same `reduce_max_index` when `size()` is a multiple of the native extent. -/
theorem C48_queries_partial {c : Cfg} (hc : c.Ok) (hw : ¬ wideMask c.s c.T c.v) (ht : tailOk c) (m : c.Data) (g : GMask c.N) (h : Agree c .msk m g) :
    Mask.allOf c m = some (Generic.allOf g) ∧ Mask.anyOf c m = Generic.anyOf g ∧ Mask.noneOf c m = Generic.noneOf g ∧
    Mask.someOf c m = some (Generic.someOf g) ∧ Mask.reduceCount c m = Generic.reduceCount g ∧
    (Generic.anyOf g = true → Mask.reduceMinIndex c m = some (Generic.reduceMinIndex g)) ∧
    (Generic.anyOf g = true → c.N % c.e = 0 → Mask.reduceMaxIndex c m = some (Generic.reduceMaxIndex g)) := by
  have hm : Canon c m := canon_agree h
  have he : ∀ i, i < c.N → mget c m i = g.get i := fun i hi => (h i hi).1
  have q := C05_quantifiers g
  have bool : ∀ (b : Bool) (p : Prop) [Decidable p], (b = true ↔ p) → decide p = b := by
    intro b p _ hb; cases b
    · exact decide_eq_false (fun h => by cases hb.2 h)
    · exact decide_eq_true (hb.1 rfl)
  refine ⟨?_, ?_, ?_, ?_, ?_, fun ha => ?_, fun ha hN => ?_⟩
  · rw [C18_all_of_partial hc hw ht m hm]; congr 1
    refine bool _ _ (q.1.trans ?_)
    exact forall_congr' fun i => forall_congr' fun hi => by rw [he i hi]
  · rw [C18_any_of_partial hc ht m hm]
    refine bool _ _ (q.2.1.trans ?_)
    exact exists_congr fun i => and_congr_right fun hi => by rw [he i hi]
  · rw [C18_none_of_partial hc ht m hm]
    refine bool _ _ (q.2.2.1.trans ?_)
    exact forall_congr' fun i => forall_congr' fun hi => by rw [he i hi]
  · rw [C18_some_of_partial hc hw ht m hm]; congr 1
    refine bool _ _ (q.2.2.2.trans ?_)
    exact and_congr (exists_congr fun i => and_congr_right fun hi => by rw [he i hi])
      (exists_congr fun i => and_congr_right fun hi => by rw [he i hi])
  · rw [C19_reduce_count_partial hc hw ht m hm, C05_count g]
    unfold countTrue lanes
    congr 1
    exact List.map_congr_left fun i hi => he i (List.mem_range.1 hi)
  · obtain ⟨k, hk⟩ := first_exists c.N g.get ((allOf_any g).1 ha)
    rw [(C05_min_index g).1 k hk]
    exact C20_min_index hc m hm ⟨hk.1, (he k hk.1).trans hk.2.1, fun i hi => (he i (Nat.lt_trans hi hk.1)).trans (hk.2.2 i hi)⟩
  · obtain ⟨k, hk⟩ := last_exists c.N g.get ((allOf_any g).1 ha)
    rw [(C05_max_index g).1 k hk]
    exact C20_max_index_partial hc hN m hm ⟨hk.1, (he k hk.1).trans hk.2.1, fun i hi h2 => (he i h2).trans (hk.2.2 i hi h2)⟩

/-! ### the full property and its violations -/
/-- C48 in full: both programs give the same elements whenever both are defined, for every expression. -/
def C48_full : Prop := ∀ (fp : FpOps) (c : Cfg), c.Ok → c.T.flt = false → ∀ (ρ : XEnv c) (σ : GEnv c.w c.N), AgreeEnv c ρ σ →
  ∀ (k : Kind) (e : Ex c.w k) (g : GVal c.w c.N k) (r : c.Data), evalG c.T.ity σ e = some g → evalX fp c ρ e = .ok r → Agree c k r g

/-- variables all zero / all false on both sides -/
def zeroX (c : Cfg) : XEnv c := ⟨fun _ => zeroData c, fun _ => zeroData c, zeroData c⟩
def zeroG (c : Cfg) : GEnv c.w c.N := ⟨fun _ => ⟨fun _ => 0⟩, fun _ => ⟨fun _ => false⟩, fun _ => 0, fun _ => false⟩
theorem zero_agree (c : Cfg) : AgreeEnv c (zeroX c) (zeroG c) :=
  ⟨fun _ i _ => elt_zero c i, fun _ i _ => ⟨by unfold mget zeroX; rw [elt_zero]; simp; rfl, Or.inl (elt_zero c i)⟩⟩

/-- C48 violated for every configuration: with the masks `t` = all true, `~t` is all false on x86 and all true in the
generic backend; `t && t` is all false on x86 and all true in the generic backend. -/
theorem C48_mask_violated (fp : FpOps) {c : Cfg} (hc : c.Ok) (ρ : XEnv c) (σ : GEnv c.w c.N) (o : Ex c.w .msk)
    (ho : o = .mun .compl (.mbcast true) ∨ o = .mbin .land (.mbcast true) (.mbcast true)) :
    ∃ r g, evalX fp c ρ o = .ok r ∧ evalG c.T.ity σ o = some g ∧ ∀ i, i < c.N → mget c r i = false ∧ GSimd.get (N := c.N) g i = true := by
  rcases ho with rfl | rfl
  · refine ⟨_, _, rfl, rfl, fun i hi => ⟨?_, (C03_not_always_true _ i hi).1⟩⟩
    refine ((C16_not hc (C17_canonical hc (.ofBool true ρ.junk)) hi).2).trans ?_
    rw [(C17_constructors hc true (fun _ => true) ρ.junk ρ.junk 0 hi).1]; rfl
  · refine ⟨_, _, rfl, rfl, fun i hi => ⟨C16_land_always_false hc _ _ hi, ?_⟩⟩
    refine (C04_mask_ops_lanewise (σ.msk 0) _ _ i hi).2.2.2.1.trans ?_
    rw [(C06_constructors (σ.msk 0) σ.mjunk σ.mjunk true (fun _ => true) i hi).1]; rfl

/-- C48 violated: `lsr<0>(x)` is `x` on x86 and loses all bits but the top one in the generic backend. -/
theorem C48_lsr_violated (fp : FpOps) {c : Cfg} (hc : c.Ok) (hk : constShiftOk c 0 = true) (ρ : XEnv c) (σ : GEnv c.w c.N) :
    ∃ r g, evalX fp c ρ (.un (.lsr 0) (.bcast 1#c.w)) = .ok r ∧ evalG c.T.ity σ (.un (.lsr 0) (.bcast 1#c.w)) = some g ∧
      ∀ i, i < c.N → (elt c r i).toNat = 1 ∧ (GSimd.get (N := c.N) g i).toNat = 0 := by
  obtain ⟨r, hr, hkr⟩ := (C25_lsl_lsr_partial hc (vbroadcast c 1#c.w ρ.junk) hk).2
  have hd : ∃ g, evalG c.T.ity σ (.un (.lsr 0) (.bcast 1#c.w)) = some g := by
    cases hg : evalG c.T.ity σ (.un (.lsr 0) (.bcast 1#c.w)) with
    | some g => exact ⟨g, rfl⟩
    | none =>
      obtain ⟨i, hi, h⟩ := (lift1_spec 0 (fun v => some (lsrElem c.T.ity 0 v)) (GSimd.fill σ.junk 1#c.w : GSimd (BitVec c.w) c.N)).1.1
        (by show Option.map _ (evalG c.T.ity σ (.un (.lsr 0) (.bcast 1#c.w))) = none; rw [hg]; rfl)
      cases h
  obtain ⟨g, hg⟩ := hd
  have h16 : 16 ≤ c.w := by
    unfold constShiftOk at hk
    simp only [Bool.and_eq_true, decide_eq_true_eq] at hk
    show 16 ≤ 8 * c.T.bytes
    omega
  have h1 : (1#c.w).toNat = 1 := by
    rw [BitVec.toNat_ofNat]; exact Nat.mod_eq_of_lt (Nat.one_lt_two_pow (by omega))
  refine ⟨r, g, ?_, hg, fun i hi => ⟨?_, ?_⟩⟩
  · simp only [evalX, Out.bind]; exact hr
  · rw [hkr i hi, elt_vbroadcast hc _ _ hi, h1]
  · have hv := gUn_get (t := c.T.ity) (o := .lsr 0) (a := (GSimd.fill σ.junk 1#c.w : GSimd (BitVec c.w) c.N)) (g := g) hg hi
    have hz : lsrElem c.T.ity 0 (1#c.w) = GSimd.get (N := c.N) g i := by
      have := Option.some.inj hv
      rw [(C06_constructors (σ.vec 0) σ.junk σ.junk (1#c.w) (fun _ => 1#c.w) i hi).1] at this
      exact this
    rw [← hz, C10_lsr_zero_actual c.T.ity (1#c.w) (by show 0 < c.w; omega)]
    apply Nat.eq_of_testBit_eq
    intro j
    rw [Nat.zero_testBit, BitVec.toNat_and, Nat.testBit_and, h1, BitVec.toNat_shiftLeft, Nat.testBit_mod_two_pow, Nat.testBit_shiftLeft]
    show (Nat.testBit 1 j && (decide (j < c.w) && (decide (j ≥ c.w - 1) && _))) = false
    by_cases hj : j = 0
    · subst hj
      rw [decide_eq_false (show ¬ 0 ≥ c.w - 1 by omega)]; simp
    · rw [show Nat.testBit 1 j = false from by
        obtain ⟨k, rfl⟩ := Nat.exists_eq_succ_of_ne_zero hj
        rw [Nat.testBit_succ]; exact Nat.zero_testBit k]; rfl

/-- C48 violated: where vector shifts have no native instruction, `a >> b` is `a << b` on x86 and `a >> b` in the generic backend. -/
theorem C48_shr_violated (fp : FpOps) {c : Cfg} (hc : c.Ok) (hn : shiftNative c = false) (hN : c.N % c.e = 0) (ρ : XEnv c) (σ : GEnv c.w c.N)
    (x s l q : BitVec c.w) (hl : c.T.ity.shl x s = some l) (hq : c.T.ity.shr x s = some q) :
    ∃ r g, evalX fp c ρ (.bin .shr (.bcast x) (.bcast s)) = .ok r ∧ evalG c.T.ity σ (.bin .shr (.bcast x) (.bcast s)) = some g ∧
      ∀ i, i < c.N → elt c r i = l ∧ GSimd.get (N := c.N) g i = q := by
  obtain ⟨r, hr, h⟩ := C24_shr_vector_violated hc (vbroadcast c x ρ.junk) (vbroadcast c s ρ.junk) hn hN
    (fun i hi => by dsimp only; rw [elt_vbroadcast hc _ _ hi, elt_vbroadcast hc _ _ hi, hl]; exact Option.some_ne_none _)
  have hd : ∃ g, evalG c.T.ity σ (.bin .shr (.bcast x) (.bcast s)) = some g := by
    cases hg : evalG c.T.ity σ (.bin .shr (.bcast x) (.bcast s)) with
    | some g => exact ⟨g, rfl⟩
    | none =>
      obtain ⟨i, hi, h⟩ := (lift2_spec 0 c.T.ity.shr (GSimd.fill σ.junk x : GSimd (BitVec c.w) c.N) (GSimd.fill σ.junk s)).1.1
        (by show Option.map _ (evalG c.T.ity σ (.bin .shr (.bcast x) (.bcast s))) = none; rw [hg]; rfl)
      rw [(C06_constructors (σ.vec 0) σ.junk σ.junk x (fun _ => 0) i hi).1, (C06_constructors (σ.vec 0) σ.junk σ.junk s (fun _ => 0) i hi).1, hq] at h
      cases h
  obtain ⟨g, hg⟩ := hd
  refine ⟨r, g, ?_, hg, fun i hi => ⟨?_, ?_⟩⟩
  · simp only [evalX, Out.bind]; exact hr
  · have := h i hi
    dsimp only at this
    rw [elt_vbroadcast hc _ _ hi, elt_vbroadcast hc _ _ hi, hl] at this
    exact (Option.some.inj this).symm
  · have hv := gBin_get (t := c.T.ity) (o := .shr) (a := (GSimd.fill σ.junk x : GSimd (BitVec c.w) c.N)) (b := (GSimd.fill σ.junk s : GSimd (BitVec c.w) c.N)) (g := g) hg hi
    rw [(C06_constructors (σ.vec 0) σ.junk σ.junk x (fun _ => 0) i hi).1, (C06_constructors (σ.vec 0) σ.junk σ.junk s (fun _ => 0) i hi).1] at hv
    exact (Option.some.inj (hq.symm.trans hv)).symm
/-- 8 x uint16 on SSE2: 16 >> 1 is 32 on x86 and 8 in the generic backend -/
example (fp : FpOps) (ρ : XEnv exU16) (σ : GEnv exU16.w exU16.N) := C48_shr_violated fp exU16_ok rfl (by decide) ρ σ 16 1 32 8 (by decide) (by decide)

theorem C48_violated : ¬ C48_full := by
  intro h
  obtain ⟨r, g, hr, hg, hd⟩ := C48_mask_violated ⟨fun _ x _ => x, fun _ x _ => x, fun _ x _ => x, fun _ x _ => x⟩ exI32_ok (zeroX exI32) (zeroG exI32) _ (Or.inl rfl)
  have ha := h _ exI32 exI32_ok rfl _ _ (zero_agree exI32) .msk _ g r hg hr 0 (by decide)
  have hd := hd 0 (by decide)
  rw [hd.1, hd.2] at ha
  exact absurd ha.1 (by decide)

/-! ### concrete cases -/
/-- `blend(a + b < max(a, 7), a * b, -(a ^ 3))` -/
def exExpr : Ex exI32.w .vec :=
  .blend (.cmp .lt (.bin .add (.var 0) (.var 1)) (.binS .vmax (.var 0) 7)) (.bin .mul (.var 0) (.var 1)) (.un .neg (.binS .bxor (.var 0) 3))
def exX : XEnv exI32 := ⟨fun k => vgenerate exI32 (fun i => if k = 0 then BitVec.ofNat _ i else 2 - BitVec.ofNat _ i) (zeroData exI32), fun _ => zeroData exI32, zeroData exI32⟩
def exG : GEnv exI32.w exI32.N := ⟨fun k => ⟨fun i => if k = 0 then BitVec.ofNat _ i else 2 - BitVec.ofNat _ i⟩, fun _ => ⟨fun _ => false⟩, fun _ => 0, fun _ => false⟩
theorem exSup : Supported exI32 exExpr ∧ Sound exI32 exExpr := by
  simp [Supported, Sound, Ex.All, exExpr, supCmp, supBin, supBinS, supUn, supMin, badUn, badBin, badBinS]
  try decide
theorem exG_val : (evalG exI32.T.ity exG exExpr).map (fun g => (GSimd.get (N := exI32.N) g 5).toInt) = some (-15) := by decide +kernel
/-- with `a[i] = i`, `b[i] = 2 - i` the generic program is defined, so the x86 one is and agrees with it: `-15` in lane 5 -/
example (fp : FpOps) : ∃ r, evalX fp exI32 exX exExpr = .ok r ∧ (elt exI32 r 5).toInt = -15 := by
  have ha : AgreeEnv exI32 exX exG :=
    ⟨fun k i hi => elt_vgenerate exI32_ok (fun i => if k = 0 then BitVec.ofNat _ i else 2 - BitVec.ofNat _ i) (zeroData exI32) hi, (zero_agree exI32).2⟩
  have hv := exG_val
  cases hg : evalG exI32.T.ity exG exExpr with
  | none => rw [hg] at hv; cases hv
  | some g =>
    obtain ⟨r, hr, h⟩ := C48_refines_partial fp exI32_ok rfl exX exG ha exExpr exSup.1 exSup.2 g hg
    refine ⟨r, hr, ?_⟩
    rw [hg] at hv
    rw [h 5 (by decide)]
    exact Option.some.inj hv
end Dpm.X86
