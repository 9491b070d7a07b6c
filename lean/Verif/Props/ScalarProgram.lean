import Verif.Spec.ScalarProgram
import Verif.Props.Backends
/-
C73: an expression of vectors is the same expression of scalars, element by element, on both backends.
-/
namespace Dpm.X86
open Dpm.Reg Dpm.Util Dpm.Generic Dpm.Spec

/-- element `i` of a generic vector or mask -/
def gelem {w N : Nat} : {k : Kind} → GVal w N k → Nat → EVal w k
  | .vec, g, i => GSimd.get (N := N) g i
  | .msk, g, i => GSimd.get (N := N) g i
/-- element `i` of an x86 vector or mask -/
def xelem (c : Cfg) : {k : Kind} → c.Data → Nat → EVal c.w k
  | .vec, x, i => elt c x i
  | .msk, x, i => mget c x i

/-- Operators that the generic backend gets wrong (C03, C10): `~m` and `lsr<0>`; and constant shift counts that do not exist. -/
def plainUn (t : IntTy) : Un → Prop
  | .neg | .bnot => True
  | .lsl k | .asr k => k < t.bits
  | .lsr k => 0 < k ∧ k < t.bits
def Plain (t : IntTy) {k : Kind} (e : Ex t.bits k) : Prop :=
  e.All (plainUn t) (fun _ => True) (fun _ => True) True (fun _ => True) (fun o => ¬ badMUn o) (fun _ => True)

section
variable {t : IntTy}
theorem un_eq {o : Un} (h : plainUn t o) (x : BitVec t.bits) : sUn t o x = Scalar1.un t o x := by
  cases o with
  | neg => rfl
  | bnot => rfl
  | lsl k =>
    have hk : k < t.bits := h
    obtain ⟨r, h1, h2⟩ := C10_lsl t k x hk
    show lslElem t k x = _
    rw [h1, Scalar1.un, if_pos hk]
    congr 1
    apply BitVec.eq_of_toNat_eq
    rw [h2, BitVec.toNat_shiftLeft, Nat.shiftLeft_eq]
  | lsr k =>
    have hk : 0 < k ∧ k < t.bits := h
    show some (lsrElem t k x) = _
    rw [Scalar1.un, if_pos hk.2]
    congr 1
    apply BitVec.eq_of_toNat_eq
    rw [C10_lsr_partial t k x hk.1 hk.2, BitVec.toNat_ushiftRight, Nat.shiftRight_eq_div_pow]
  | asr k =>
    have hk : k < t.bits := h
    show some (asrElem t.bits k x) = _
    rw [Scalar1.un, if_pos hk]
    congr 1
    apply BitVec.eq_of_toInt_eq
    rw [C10_asr t.bits k x (by omega), BitVec.toInt_sshiftRight, Int.shiftRight_eq_div_pow]
    norm_cast
theorem smaller_eq (x y : BitVec t.bits) : stdMin t.scalar.lt x y = Scalar1.smaller t x y := by
  unfold stdMin Scalar1.smaller
  simp only [IntTy.scalar, decide_eq_true_eq]
  split
  · rw [if_neg (by omega)]
  · rw [if_pos (by omega)]
theorem larger_eq (x y : BitVec t.bits) : stdMax t.scalar.lt x y = Scalar1.larger t x y := by
  unfold stdMax Scalar1.larger
  simp only [IntTy.scalar, decide_eq_true_eq]
  split
  · rw [if_pos (by omega)]
  · split
    · exact (val_inj t).1 (by omega)
    · rfl
theorem bin_eq (o : Bin) (x y : BitVec t.bits) : sBin t o x y = Scalar1.bin t o x y := by
  cases o <;> try rfl
  · exact congrArg some (smaller_eq x y)
  · exact congrArg some (larger_eq x y)
theorem binS_eq (o : BinS) (x y : BitVec t.bits) : sBinS t o x y = Scalar1.binS t o x y := by
  cases o <;> try rfl
  · exact congrArg some (smaller_eq x y)
  · exact congrArg some (larger_eq x y)
theorem cmp_eq (o : Cmp) (x y : BitVec t.bits) : sCmp t o x y = Scalar1.cmp t o x y := by cases o <;> rfl
theorem mbin_eq (o : MBin) (x y : Bool) : sMBin o x y = Scalar1.mbin o x y := by cases o <;> cases x <;> cases y <;> rfl
theorem clamp_eq (x l h : BitVec t.bits) : stdClamp t.scalar.lt x l h = Scalar1.clamp t x l h := by
  unfold stdClamp Scalar1.clamp
  simp only [IntTy.scalar, decide_eq_true_eq]

variable {N : Nat}
theorem gUn_def (o : Un) (a : GSimd (BitVec t.bits) N) (h : ∀ i, i < N → sUn t o (a.get i) ≠ none) : ∃ g, gUn t o a = some g := by
  have he : gUn t o a = lift1 t.scalar.zero (sUn t o) a := by cases o <;> rfl
  cases hg : gUn t o a with
  | some g => exact ⟨g, rfl⟩
  | none =>
    obtain ⟨i, hi, hn⟩ := (lift1_spec t.scalar.zero (sUn t o) a).1.1 (by rw [← he, hg]; rfl)
    exact absurd hn (h i hi)
theorem gBin_def (o : Bin) (a b : GSimd (BitVec t.bits) N) (h : ∀ i, i < N → sBin t o (a.get i) (b.get i) ≠ none) : ∃ g, gBin t o a b = some g := by
  have he : gBin t o a b = lift2 t.scalar.zero (sBin t o) a b := by cases o <;> rfl
  cases hg : gBin t o a b with
  | some g => exact ⟨g, rfl⟩
  | none =>
    obtain ⟨i, hi, hn⟩ := (lift2_spec t.scalar.zero (sBin t o) a b).1.1 (by rw [← he, hg]; rfl)
    exact absurd hn (h i hi)
theorem gBinS_def (o : BinS) (a : GSimd (BitVec t.bits) N) (s : BitVec t.bits) (h : ∀ i, i < N → sBinS t o (a.get i) s ≠ none) : ∃ g, gBinS t o a s = some g := by
  cases hg : gBinS t o a s with
  | some g => exact ⟨g, rfl⟩
  | none =>
    exfalso
    cases o
    case shl =>
      obtain ⟨i, hi, hn⟩ := (liftS_spec t.scalar.zero t.scalar.shlN a (t.val s)).1.1 (congrArg (Option.map GSimd.get) hg)
      exact h i hi hn
    case shr =>
      obtain ⟨i, hi, hn⟩ := (liftS_spec t.scalar.zero t.scalar.shrN a (t.val s)).1.1 (congrArg (Option.map GSimd.get) hg)
      exact h i hi hn
    all_goals
      first
        | (obtain ⟨i, hi, hn⟩ := (liftS_spec t.scalar.zero (sBinS t .add) a s).1.1 (congrArg (Option.map GSimd.get) hg); exact h i hi hn)
        | (obtain ⟨i, hi, hn⟩ := (liftS_spec t.scalar.zero (sBinS t .sub) a s).1.1 (congrArg (Option.map GSimd.get) hg); exact h i hi hn)
        | (obtain ⟨i, hi, hn⟩ := (liftS_spec t.scalar.zero (sBinS t .mul) a s).1.1 (congrArg (Option.map GSimd.get) hg); exact h i hi hn)
        | (obtain ⟨i, hi, hn⟩ := (liftS_spec t.scalar.zero (sBinS t .band) a s).1.1 (congrArg (Option.map GSimd.get) hg); exact h i hi hn)
        | (obtain ⟨i, hi, hn⟩ := (liftS_spec t.scalar.zero (sBinS t .bor) a s).1.1 (congrArg (Option.map GSimd.get) hg); exact h i hi hn)
        | (obtain ⟨i, hi, hn⟩ := (liftS_spec t.scalar.zero (sBinS t .bxor) a s).1.1 (congrArg (Option.map GSimd.get) hg); exact h i hi hn)
        | (obtain ⟨i, hi, hn⟩ := (liftS_spec t.scalar.zero (sBinS t .vmin) a s).1.1 (congrArg (Option.map GSimd.get) hg); exact h i hi hn)
        | (obtain ⟨i, hi, hn⟩ := (liftS_spec t.scalar.zero (sBinS t .vmax) a s).1.1 (congrArg (Option.map GSimd.get) hg); exact h i hi hn)

/-- element `i` of the variables of the generic program -/
def GEnv.v {w N : Nat} (σ : GEnv w N) (i : Nat) : Nat → BitVec w := fun k => (σ.vec k).get i
def GEnv.m {w N : Nat} (σ : GEnv w N) (i : Nat) : Nat → Bool := fun k => (σ.msk k).get i

theorem of_bind {α β : Type} {a : Option α} {f : α → Option β} (h : a.bind f ≠ none) : ∃ x, a = some x ∧ f x ≠ none := by
  cases a with
  | none => exact absurd rfl h
  | some x => exact ⟨x, rfl, h⟩

/-- If the scalar expression is defined for every element, the generic vector expression is, and has those elements. -/
theorem generic_elem (hN : 0 < N) (σ : GEnv t.bits N) {k : Kind} (e : Ex t.bits k) (hp : Plain t e)
    (hd : ∀ i, i < N → elem t N i (σ.v i) (σ.m i) e ≠ none) :
    ∃ g, evalG t σ e = some g ∧ ∀ i, i < N → elem t N i (σ.v i) (σ.m i) e = some (gelem g i) := by
  induction e with
  | var k => exact ⟨_, rfl, fun i hi => rfl⟩
  | mvar k => exact ⟨_, rfl, fun i hi => rfl⟩
  | bcast s => exact ⟨_, rfl, fun i hi => congrArg some (C06_constructors (σ.vec 0) σ.junk σ.junk s (fun _ => s) i hi).1.symm⟩
  | gen f => exact ⟨_, rfl, fun i hi => congrArg some (C06_constructors (σ.vec 0) σ.junk σ.junk 0 f i hi).2.1.symm⟩
  | mbcast s => exact ⟨_, rfl, fun i hi => congrArg some (C06_constructors (σ.msk 0) σ.mjunk σ.mjunk s (fun _ => s) i hi).1.symm⟩
  | mgen f => exact ⟨_, rfl, fun i hi => congrArg some (C06_constructors (σ.msk 0) σ.mjunk σ.mjunk true f i hi).2.1.symm⟩
  | un o a iha =>
    obtain ⟨ga, hga, ea⟩ := iha hp.2 (fun i hi => by obtain ⟨x, hx, _⟩ := of_bind (hd i hi); rw [hx]; exact Option.some_ne_none _)
    have hs : ∀ i, i < N → elem t N i (σ.v i) (σ.m i) (.un o a) = sUn t o (GSimd.get (N := N) ga i) := fun i hi => by
      rw [un_eq hp.1]; simp only [elem, ea i hi]; rfl
    obtain ⟨g, hg⟩ := gUn_def o ga (fun i hi => by rw [← hs i hi]; exact hd i hi)
    exact ⟨g, by simp only [evalG, hga]; exact hg, fun i hi => (hs i hi).trans (gUn_get hg hi)⟩
  | bin o a b iha ihb =>
    obtain ⟨ga, hga, ea⟩ := iha hp.2.1 (fun i hi => by obtain ⟨x, hx, _⟩ := of_bind (hd i hi); rw [hx]; exact Option.some_ne_none _)
    obtain ⟨gb, hgb, eb⟩ := ihb hp.2.2 (fun i hi => by
      obtain ⟨x, hx, h⟩ := of_bind (hd i hi); obtain ⟨y, hy, _⟩ := of_bind h; rw [hy]; exact Option.some_ne_none _)
    have hs : ∀ i, i < N → elem t N i (σ.v i) (σ.m i) (.bin o a b) = sBin t o (GSimd.get (N := N) ga i) (GSimd.get (N := N) gb i) := fun i hi => by
      rw [bin_eq]; simp only [elem, ea i hi, eb i hi]; rfl
    obtain ⟨g, hg⟩ := gBin_def o ga gb (fun i hi => by rw [← hs i hi]; exact hd i hi)
    exact ⟨g, by simp only [evalG, hga, hgb]; exact hg, fun i hi => (hs i hi).trans (gBin_get hg hi)⟩
  | binS o a s iha =>
    obtain ⟨ga, hga, ea⟩ := iha hp.2 (fun i hi => by obtain ⟨x, hx, _⟩ := of_bind (hd i hi); rw [hx]; exact Option.some_ne_none _)
    have hs : ∀ i, i < N → elem t N i (σ.v i) (σ.m i) (.binS o a s) = sBinS t o (GSimd.get (N := N) ga i) s := fun i hi => by
      rw [binS_eq]; simp only [elem, ea i hi]; rfl
    obtain ⟨g, hg⟩ := gBinS_def o ga s (fun i hi => by rw [← hs i hi]; exact hd i hi)
    exact ⟨g, by simp only [evalG, hga]; exact hg, fun i hi => (hs i hi).trans (gBinS_get hg hi)⟩
  | clamp x lo hi ihx ihl ihh =>
    obtain ⟨gx, hgx, ex⟩ := ihx hp.2.1 (fun i hi => by obtain ⟨x, hx, _⟩ := of_bind (hd i hi); rw [hx]; exact Option.some_ne_none _)
    obtain ⟨gl, hgl, el⟩ := ihl hp.2.2.1 (fun i hi => by
      obtain ⟨x, hx, h⟩ := of_bind (hd i hi); obtain ⟨y, hy, _⟩ := of_bind h; rw [hy]; exact Option.some_ne_none _)
    obtain ⟨gh, hgh, eh⟩ := ihh hp.2.2.2 (fun i hi => by
      obtain ⟨x, hx, h⟩ := of_bind (hd i hi); obtain ⟨y, hy, h⟩ := of_bind h; obtain ⟨z, hz, _⟩ := of_bind h; rw [hz]; exact Option.some_ne_none _)
    have hs : ∀ i, i < N → elem t N i (σ.v i) (σ.m i) (.clamp x lo hi) =
        stdClamp t.scalar.lt (GSimd.get (N := N) gx i) (GSimd.get (N := N) gl i) (GSimd.get (N := N) gh i) := fun i hi => by
      rw [clamp_eq]; simp only [elem, ex i hi, el i hi, eh i hi]; rfl
    have sp := vclamp_spec t.scalar gx gl gh
    cases hg : Generic.vclamp t.scalar gx gl gh with
    | none =>
      obtain ⟨i, hi, hn⟩ := sp.1.1 (by rw [hg]; rfl)
      exact absurd ((hs i hi).trans hn) (hd i hi)
    | some g =>
      exact ⟨g, by simp only [evalG, hgx, hgl, hgh]; exact hg, fun i hi => (hs i hi).trans (sp.2 (GSimd.get g) (by rw [hg]; rfl) i hi)⟩
  | blend m a b ihm iha ihb =>
    obtain ⟨gm, hgm, em⟩ := ihm hp.1 (fun i hi => by obtain ⟨x, hx, _⟩ := of_bind (hd i hi); rw [hx]; exact Option.some_ne_none _)
    obtain ⟨ga, hga, ea⟩ := iha hp.2.1 (fun i hi => by
      obtain ⟨x, hx, h⟩ := of_bind (hd i hi); obtain ⟨y, hy, _⟩ := of_bind h; rw [hy]; exact Option.some_ne_none _)
    obtain ⟨gb, hgb, eb⟩ := ihb hp.2.2 (fun i hi => by
      obtain ⟨x, hx, h⟩ := of_bind (hd i hi); obtain ⟨y, hy, h⟩ := of_bind h; obtain ⟨z, hz, _⟩ := of_bind h; rw [hz]; exact Option.some_ne_none _)
    refine ⟨Generic.blend t.scalar.zero gm ga gb, by simp only [evalG, hgm, hga, hgb]; rfl, fun i hi => ?_⟩
    simp only [elem, em i hi, ea i hi, eb i hi]
    exact congrArg some (C04_blend_lanewise t.scalar.zero gm ga gb i hi).symm
  | put x k s ihx =>
    obtain ⟨gx, hgx, ex⟩ := ihx hp (fun i hi => by obtain ⟨x, hx, _⟩ := of_bind (hd i hi); rw [hx]; exact Option.some_ne_none _)
    have hk : k < N := by
      by_cases hk : k < N
      · exact hk
      · obtain ⟨x, hx, h⟩ := of_bind (hd 0 hN)
        exact absurd (if_neg hk) h
    refine ⟨GSimd.setAt gx k s, by simp only [evalG, hgx]; exact if_pos hk, fun i hi => ?_⟩
    simp only [elem, ex i hi]
    refine (if_pos hk).trans (congrArg some ?_)
    show _ = (gx.data.set k s) i
    by_cases h : i = k
    · exact (if_pos h).trans (by rw [h, Mem.set_same])
    · exact (if_neg h).trans (by rw [Mem.set_ne _ _ h]; rfl)
  | cmp o a b iha ihb =>
    obtain ⟨ga, hga, ea⟩ := iha hp.2.1 (fun i hi => by obtain ⟨x, hx, _⟩ := of_bind (hd i hi); rw [hx]; exact Option.some_ne_none _)
    obtain ⟨gb, hgb, eb⟩ := ihb hp.2.2 (fun i hi => by
      obtain ⟨x, hx, h⟩ := of_bind (hd i hi); obtain ⟨y, hy, _⟩ := of_bind h; rw [hy]; exact Option.some_ne_none _)
    refine ⟨gCmp t o ga gb, by simp only [evalG, hga, hgb]; rfl, fun i hi => ?_⟩
    simp only [elem, ea i hi, eb i hi]
    exact congrArg some ((gCmp_get o ga gb hi).trans (cmp_eq o _ _)).symm
  | isZero a iha =>
    obtain ⟨ga, hga, ea⟩ := iha hp (fun i hi => by obtain ⟨x, hx, _⟩ := of_bind (hd i hi); rw [hx]; exact Option.some_ne_none _)
    refine ⟨Generic.opLNot t.scalar ga, by simp only [evalG, hga]; rfl, fun i hi => ?_⟩
    simp only [elem, ea i hi]
    exact congrArg some (C01_compare_lanewise t.scalar ga ga i hi).2.2.2.2.2.2.symm
  | mun o m ihm =>
    obtain ⟨gm, hgm, em⟩ := ihm hp.2 (fun i hi => by obtain ⟨x, hx, _⟩ := of_bind (hd i hi); rw [hx]; exact Option.some_ne_none _)
    refine ⟨gMUn o gm, by simp only [evalG, hgm]; rfl, fun i hi => ?_⟩
    simp only [elem, em i hi]
    exact congrArg some ((gMUn_get hp.1 gm hi).trans (by cases o <;> rfl)).symm
  | mbin o a b iha ihb =>
    obtain ⟨ga, hga, ea⟩ := iha hp.2.1 (fun i hi => by obtain ⟨x, hx, _⟩ := of_bind (hd i hi); rw [hx]; exact Option.some_ne_none _)
    obtain ⟨gb, hgb, eb⟩ := ihb hp.2.2 (fun i hi => by
      obtain ⟨x, hx, h⟩ := of_bind (hd i hi); obtain ⟨y, hy, _⟩ := of_bind h; rw [hy]; exact Option.some_ne_none _)
    refine ⟨gMBin o ga gb, by simp only [evalG, hga, hgb]; rfl, fun i hi => ?_⟩
    simp only [elem, ea i hi, eb i hi]
    exact congrArg some ((gMBin_get o ga gb hi).trans (mbin_eq o _ _)).symm
  | mblend m a b ihm iha ihb =>
    obtain ⟨gm, hgm, em⟩ := ihm hp.1 (fun i hi => by obtain ⟨x, hx, _⟩ := of_bind (hd i hi); rw [hx]; exact Option.some_ne_none _)
    obtain ⟨ga, hga, ea⟩ := iha hp.2.1 (fun i hi => by
      obtain ⟨x, hx, h⟩ := of_bind (hd i hi); obtain ⟨y, hy, _⟩ := of_bind h; rw [hy]; exact Option.some_ne_none _)
    obtain ⟨gb, hgb, eb⟩ := ihb hp.2.2 (fun i hi => by
      obtain ⟨x, hx, h⟩ := of_bind (hd i hi); obtain ⟨y, hy, h⟩ := of_bind h; obtain ⟨z, hz, _⟩ := of_bind h; rw [hz]; exact Option.some_ne_none _)
    refine ⟨maskBlend gm ga gb, by simp only [evalG, hgm, hga, hgb]; rfl, fun i hi => ?_⟩
    simp only [elem, em i hi, ea i hi, eb i hi]
    exact congrArg some (C04_mask_ops_lanewise gm ga gb i hi).2.2.2.2.2.2.2.2.2.2.2.symm
  | mput x k s ihx =>
    obtain ⟨gx, hgx, ex⟩ := ihx hp (fun i hi => by obtain ⟨x, hx, _⟩ := of_bind (hd i hi); rw [hx]; exact Option.some_ne_none _)
    have hk : k < N := by
      by_cases hk : k < N
      · exact hk
      · obtain ⟨x, hx, h⟩ := of_bind (hd 0 hN)
        exact absurd (if_neg hk) h
    refine ⟨GSimd.setAt gx k s, by simp only [evalG, hgx]; exact if_pos hk, fun i hi => ?_⟩
    simp only [elem, ex i hi]
    refine (if_pos hk).trans (congrArg some ?_)
    show _ = (gx.data.set k s) i
    by_cases h : i = k
    · exact (if_pos h).trans (by rw [h, Mem.set_same])
    · exact (if_neg h).trans (by rw [Mem.set_ne _ _ h]; rfl)

/-- If the generic vector expression is defined, the scalar expression is defined for every element and gives that element. -/
theorem generic_elem' (σ : GEnv t.bits N) {k : Kind} (e : Ex t.bits k) (hp : Plain t e) (g : GVal t.bits N k) (hg : evalG t σ e = some g)
    (i : Nat) (hi : i < N) : elem t N i (σ.v i) (σ.m i) e = some (gelem g i) := by
  induction e with
  | var k => cases hg; rfl
  | mvar k => cases hg; rfl
  | bcast s => cases hg; exact congrArg some (C06_constructors (σ.vec 0) σ.junk σ.junk s (fun _ => s) i hi).1.symm
  | gen f => cases hg; exact congrArg some (C06_constructors (σ.vec 0) σ.junk σ.junk 0 f i hi).2.1.symm
  | mbcast s => cases hg; exact congrArg some (C06_constructors (σ.msk 0) σ.mjunk σ.mjunk s (fun _ => s) i hi).1.symm
  | mgen f => cases hg; exact congrArg some (C06_constructors (σ.msk 0) σ.mjunk σ.mjunk true f i hi).2.1.symm
  | un o a iha =>
    obtain ⟨ga, hga, hg⟩ := Option.bind_eq_some_iff.1 hg
    simp only [elem, iha hp.2 ga hga]
    exact (un_eq hp.1 _).symm.trans (gUn_get hg hi)
  | bin o a b iha ihb =>
    obtain ⟨ga, hga, hg⟩ := Option.bind_eq_some_iff.1 hg
    obtain ⟨gb, hgb, hg⟩ := Option.bind_eq_some_iff.1 hg
    simp only [elem, iha hp.2.1 ga hga, ihb hp.2.2 gb hgb]
    exact (bin_eq o _ _).symm.trans (gBin_get hg hi)
  | binS o a s iha =>
    obtain ⟨ga, hga, hg⟩ := Option.bind_eq_some_iff.1 hg
    simp only [elem, iha hp.2 ga hga]
    exact (binS_eq o _ _).symm.trans (gBinS_get hg hi)
  | clamp x lo hi' ihx ihl ihh =>
    obtain ⟨gx, hgx, hg⟩ := Option.bind_eq_some_iff.1 hg
    obtain ⟨gl, hgl, hg⟩ := Option.bind_eq_some_iff.1 hg
    obtain ⟨gh, hgh, hg⟩ := Option.bind_eq_some_iff.1 hg
    simp only [elem, ihx hp.2.1 gx hgx, ihl hp.2.2.1 gl hgl, ihh hp.2.2.2 gh hgh]
    exact (clamp_eq _ _ _).symm.trans ((vclamp_spec t.scalar gx gl gh).2 (GSimd.get g) (by rw [hg]; rfl) i hi)
  | blend m a b ihm iha ihb =>
    obtain ⟨gm, hgm, hg⟩ := Option.bind_eq_some_iff.1 hg
    obtain ⟨ga, hga, hg⟩ := Option.bind_eq_some_iff.1 hg
    obtain ⟨gb, hgb, hg⟩ := Option.bind_eq_some_iff.1 hg
    cases hg
    simp only [elem, ihm hp.1 gm hgm, iha hp.2.1 ga hga, ihb hp.2.2 gb hgb]
    exact congrArg some (C04_blend_lanewise t.scalar.zero gm ga gb i hi).symm
  | put x k s ihx =>
    obtain ⟨gx, hgx, hg⟩ := Option.bind_eq_some_iff.1 hg
    by_cases hk : k < N
    · rw [if_pos hk] at hg
      cases hg
      simp only [elem, ihx hp gx hgx]
      refine (if_pos hk).trans (congrArg some ?_)
      show _ = (gx.data.set k s) i
      by_cases h : i = k
      · exact (if_pos h).trans (by rw [h, Mem.set_same])
      · exact (if_neg h).trans (by rw [Mem.set_ne _ _ h]; rfl)
    · rw [if_neg hk] at hg; cases hg
  | cmp o a b iha ihb =>
    obtain ⟨ga, hga, hg⟩ := Option.bind_eq_some_iff.1 hg
    obtain ⟨gb, hgb, hg⟩ := Option.bind_eq_some_iff.1 hg
    cases hg
    simp only [elem, iha hp.2.1 ga hga, ihb hp.2.2 gb hgb]
    exact congrArg some ((gCmp_get o ga gb hi).trans (cmp_eq o _ _)).symm
  | isZero a iha =>
    obtain ⟨ga, hga, hg⟩ := Option.bind_eq_some_iff.1 hg
    cases hg
    simp only [elem, iha hp ga hga]
    exact congrArg some (C01_compare_lanewise t.scalar ga ga i hi).2.2.2.2.2.2.symm
  | mun o m ihm =>
    obtain ⟨gm, hgm, hg⟩ := Option.bind_eq_some_iff.1 hg
    cases hg
    simp only [elem, ihm hp.2 gm hgm]
    exact congrArg some ((gMUn_get hp.1 gm hi).trans (by cases o <;> rfl)).symm
  | mbin o a b iha ihb =>
    obtain ⟨ga, hga, hg⟩ := Option.bind_eq_some_iff.1 hg
    obtain ⟨gb, hgb, hg⟩ := Option.bind_eq_some_iff.1 hg
    cases hg
    simp only [elem, iha hp.2.1 ga hga, ihb hp.2.2 gb hgb]
    exact congrArg some ((gMBin_get o ga gb hi).trans (mbin_eq o _ _)).symm
  | mblend m a b ihm iha ihb =>
    obtain ⟨gm, hgm, hg⟩ := Option.bind_eq_some_iff.1 hg
    obtain ⟨ga, hga, hg⟩ := Option.bind_eq_some_iff.1 hg
    obtain ⟨gb, hgb, hg⟩ := Option.bind_eq_some_iff.1 hg
    cases hg
    simp only [elem, ihm hp.1 gm hgm, iha hp.2.1 ga hga, ihb hp.2.2 gb hgb]
    exact congrArg some (C04_mask_ops_lanewise gm ga gb i hi).2.2.2.2.2.2.2.2.2.2.2.symm
  | mput x k s ihx =>
    obtain ⟨gx, hgx, hg⟩ := Option.bind_eq_some_iff.1 hg
    by_cases hk : k < N
    · rw [if_pos hk] at hg
      cases hg
      simp only [elem, ihx hp gx hgx]
      refine (if_pos hk).trans (congrArg some ?_)
      show _ = (gx.data.set k s) i
      by_cases h : i = k
      · exact (if_pos h).trans (by rw [h, Mem.set_same])
      · exact (if_neg h).trans (by rw [Mem.set_ne _ _ h]; rfl)
    · rw [if_neg hk] at hg; cases hg

/-- C73 (generic backend), proved for expressions without `~m` and `lsr<0>`: the vector expression is undefined exactly when the scalar
expression is undefined for some element, and otherwise its elements are the values of the scalar expression.  The expression, the element
type, the number of elements, the values and the contents of uninitialised storage are arbitrary. -/
theorem C73_generic_partial (hN : 0 < N) (σ : GEnv t.bits N) {k : Kind} (e : Ex t.bits k) (hp : Plain t e) :
    (evalG t σ e = none ↔ ∃ i, i < N ∧ elem t N i (σ.v i) (σ.m i) e = none) ∧
    ∀ g, evalG t σ e = some g → ∀ i, i < N → elem t N i (σ.v i) (σ.m i) e = some (gelem g i) := by
  refine ⟨⟨fun h => ?_, fun ⟨i, hi, h⟩ => ?_⟩, fun g hg i hi => generic_elem' σ e hp g hg i hi⟩
  · refine Classical.byContradiction fun hn => ?_
    obtain ⟨g, hg, _⟩ := generic_elem hN σ e hp (fun i hi h => hn ⟨i, hi, h⟩)
    rw [h] at hg; cases hg
  · cases hg : evalG t σ e with
    | none => rfl
    | some g => rw [generic_elem' σ e hp g hg i hi] at h; cases h
end

section x86
variable (fp : FpOps) {c : Cfg} (hc : c.Ok) (hint : c.T.flt = false)
/-- element `i` of the variables of the x86 program -/
def XEnv.v {c : Cfg} (ρ : XEnv c) (i : Nat) : Nat → BitVec c.w := fun k => elt c (ρ.vec k) i
def XEnv.m {c : Cfg} (ρ : XEnv c) (i : Nat) : Nat → Bool := fun k => mget c (ρ.msk k) i
/-- every mask variable holds all-ones or all-zeros elements, as every mask the API produces does (C17) -/
def XEnv.Canon {c : Cfg} (ρ : XEnv c) : Prop := ∀ k, Dpm.X86.Canon c (ρ.msk k)

omit hc hint in
theorem digits_le {T : Ety} : T.digits ≤ 8 * T.bytes := by unfold Ety.digits; split <;> simp only [Ety.w] <;> omega
omit hc hint in
theorem all_mono {w : Nat} {U U' : Un → Prop} {B B' : Bin → Prop} {S S' : BinS → Prop} {K K' : Prop} {C C' : Cmp → Prop} {MU MU' : MUn → Prop} {MB MB' : MBin → Prop}
    {V : Un → Prop} {MV : MUn → Prop}
    (h1 : ∀ o, U o → U' o → V o) (h2 : ∀ o, MU o → MU' o → MV o) {k : Kind} (e : Ex w k) (ha : e.All U B S K C MU MB) (hb : e.All U' B' S' K' C' MU' MB') :
    e.All V (fun _ => True) (fun _ => True) True (fun _ => True) MV (fun _ => True) := by
  induction e with
  | var _ | mvar _ | bcast _ | gen _ | mbcast _ | mgen _ => trivial
  | un o a iha => exact ⟨h1 o ha.1 hb.1, iha ha.2 hb.2⟩
  | bin o a b iha ihb => exact ⟨trivial, iha ha.2.1 hb.2.1, ihb ha.2.2 hb.2.2⟩
  | binS o a s iha => exact ⟨trivial, iha ha.2 hb.2⟩
  | clamp x l h ihx ihl ihh => exact ⟨trivial, ihx ha.2.1 hb.2.1, ihl ha.2.2.1 hb.2.2.1, ihh ha.2.2.2 hb.2.2.2⟩
  | blend m a b ihm iha ihb => exact ⟨ihm ha.1 hb.1, iha ha.2.1 hb.2.1, ihb ha.2.2 hb.2.2⟩
  | mblend m a b ihm iha ihb => exact ⟨ihm ha.1 hb.1, iha ha.2.1 hb.2.1, ihb ha.2.2 hb.2.2⟩
  | put x k s ihx => exact ihx ha hb
  | cmp o a b iha ihb => exact ⟨trivial, iha ha.2.1 hb.2.1, ihb ha.2.2 hb.2.2⟩
  | isZero a iha => exact iha ha hb
  | mun o m ihm => exact ⟨h2 o ha.1 hb.1, ihm ha.2 hb.2⟩
  | mbin o a b iha ihb => exact ⟨trivial, iha ha.2.1 hb.2.1, ihb ha.2.2 hb.2.2⟩
  | mput m k b ihm => exact ihm ha hb
omit hc hint in
theorem plain_of {k : Kind} (e : Ex c.w k) (hs : Supported c e) (hb : Sound c e) : Plain c.T.ity e := by
  have hd : ∀ k, constShiftOk c k = true → k < c.T.ity.bits := fun k h => by
    unfold constShiftOk at h
    simp only [Bool.and_eq_true, decide_eq_true_eq] at h
    exact Nat.lt_of_lt_of_le h.2 digits_le
  refine all_mono (V := plainUn c.T.ity) (MV := fun o => ¬ badMUn o) ?_ (fun _ _ h => h) e hs hb
  intro o h1 h2
  cases o with
  | neg => trivial
  | bnot => trivial
  | lsl k => exact hd k h1
  | lsr k => exact ⟨Nat.pos_of_ne_zero h2, hd k h1⟩
  | asr k => exact hd k h1.1

include hc hint in
/-- C73 (x86 backend), proved for expressions whose operators exist there (`Supported`) and are not among the defective ones (`Sound`): if
the scalar expression is defined for every element, the vector expression compiles, is defined and has those elements (and if it is a mask, its
elements are all ones or all zeros) - for every expression, integer type, size, instruction-set level and contents of uninitialised storage. -/
theorem C73_x86_partial (ρ : XEnv c) (hρ : ρ.Canon) {k : Kind} (e : Ex c.w k) (hs : Supported c e) (hb : Sound c e)
    (hd : ∀ i, i < c.N → elem c.T.ity c.N i (ρ.v i) (ρ.m i) e ≠ none) :
    ∃ r, evalX fp c ρ e = .ok r ∧ (∀ i, i < c.N → elem c.T.ity c.N i (ρ.v i) (ρ.m i) e = some (xelem c r i)) ∧ (k = .msk → Dpm.X86.Canon c r) := by
  let σ : GEnv c.w c.N := ⟨fun k => ⟨fun i => elt c (ρ.vec k) i⟩, fun k => ⟨fun i => mget c (ρ.msk k) i⟩, fun _ => 0, fun _ => false⟩
  have hσ : AgreeEnv c ρ σ := ⟨fun k i hi => rfl, fun k i hi => ⟨rfl, hρ k i hi⟩⟩
  obtain ⟨g, hg, h⟩ := generic_elem (t := c.T.ity) hc.pos σ e (plain_of e hs hb) hd
  obtain ⟨r, hr, ha⟩ := C48_refines_partial fp hc hint ρ σ hσ e hs hb g hg
  refine ⟨r, hr, fun i hi => (h i hi).trans (congrArg some ?_), fun hk => ?_⟩
  · cases k with
    | vec => exact (ha i hi).symm
    | msk => exact (ha i hi).1.symm
  · subst hk; exact canon_agree ha
end x86

/-- `blend(a + b < max(a, 7), a * b, -(a ^ 3))` on six `int`s, `a[i] = i`, `b[i] = 2 - i`: the scalar expression is defined for every
element, so the vector expression is; element 5 is `5 * -3`. -/
example (fp : FpOps) : ∃ r, evalX fp exI32 exX exExpr = .ok r ∧ (elt exI32 r 5).toInt = -15 := by
  have hv : ∀ i, i < 6 → exX.v i = fun k => if k = 0 then BitVec.ofNat _ i else 2 - BitVec.ofNat _ i := fun i hi => by
    funext k
    exact elt_vgenerate exI32_ok (fun i => if k = 0 then BitVec.ofNat _ i else 2 - BitVec.ofNat _ i) (zeroData exI32) hi
  have hd : ∀ i, i < 6 → (elem exI32.T.ity 6 i (fun k => if k = 0 then BitVec.ofNat _ i else 2 - BitVec.ofNat _ i) (exX.m i) exExpr).isSome = true := by
    decide +kernel
  obtain ⟨r, hr, h, _⟩ := C73_x86_partial fp exI32_ok rfl exX (fun k => canon_agree ((zero_agree exI32).2 k)) exExpr exSup.1 exSup.2
    (fun i hi hn => by
      have := hd i hi
      rw [← hv i hi] at this
      rw [show elem exI32.T.ity 6 i (exX.v i) (exX.m i) exExpr = none from hn] at this
      cases this)
  refine ⟨r, hr, ?_⟩
  have h5 := h 5 (by decide)
  rw [hv 5 (by decide)] at h5
  have h6 : (show Option (BitVec 32) from elem exI32.T.ity 6 5 (fun k => if k = 0 then BitVec.ofNat _ 5 else 2 - BitVec.ofNat _ 5) (exX.m 5) exExpr) = some (BitVec.ofInt 32 (-15)) := by
    decide +kernel
  have h7 : BitVec.ofInt 32 (-15) = elt exI32 r 5 := Option.some.inj (h6.symm.trans h5)
  rw [← h7]; decide
end Dpm.X86
