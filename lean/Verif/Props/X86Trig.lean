import Verif.Proofs.TrigSpec
import Verif.Props.X86Float
/-!
C42: symmetry, special values and domain of the trigonometric functions of the x86 backend (SVML not used).
`L` is the C library, used for `Large` arguments only (`|x| > 2^22`, `2^51`); `fm` says whether DPM_HAS_FMA is defined.
All statements are about bit patterns: `x ^^^ intMin` is `x` with its sign changed.
-/
namespace Dpm.X86
open Dpm.Reg Dpm.Fp

/-- the elements of `y` are those of `x` with their signs changed -/
def Negated (c : Cfg) (x y : c.Data) : Prop := ∀ i, i < c.N → elt c y i = elt c x i ^^^ BitVec.intMin c.w

section C42
variable {c : Cfg} (hc : c.Ok) (hf : c.T.flt = true) (L : Libm) (o : MathOpt) (fm : Bool)
include hc
theorem vAsin_elt (x : c.Data) : EachElt c (fun a r => r = asinF o fm a) x (vAsin c o fm x) :=
  each_of_lane hc _ x fun y _ hi => implAsin_lane hc.ety o fm y hi
theorem vAcos_elt (x : c.Data) : EachElt c (fun a r => r = acosF o fm a) x (vAcos c o fm x) :=
  each_of_lane hc _ x fun y _ hi => implAcos_lane hc.ety o fm y hi
theorem vAtan_elt (x : c.Data) : EachElt c (fun a r => r = atanF fm a) x (vAtan c fm x) :=
  each_of_lane hc _ x fun y _ hi => implAtan_lane hc.ety fm y hi
include hf
theorem vSin_elt (x : c.Data) : EachElt c (fun a r => r = sinF L.sin (cvttLaneIF c.s c.v) (cvtLaneIF c.s c.T c.v) o fm a) x (vSin c L o fm x) :=
  each_of_lane hc _ x fun y _ hi => (implSincos_lane hc.ety hf hc.wf hc.avx L.sin (fun x => x) o fm y hi).1
theorem vCos_elt (x : c.Data) : EachElt c (fun a r => r = cosF L.cos (cvttLaneIF c.s c.v) (cvtLaneIF c.s c.T c.v) o fm a) x (vCos c L o fm x) :=
  each_of_lane hc _ x fun y _ hi => (implSincos_lane hc.ety hf hc.wf hc.avx (fun x => x) L.cos o fm y hi).2
theorem vTan_elt (u1 u2 : Vec c.v) (x : c.Data) :
    EachElt c (fun a r => r = tanF L.tan (cvttLaneIF c.s c.v) (cvtLaneIF c.s c.T c.v) o fm a) x (vTan c L o fm u1 u2 x) :=
  each_of_lane hc _ x fun y _ hi => implTan_lane hc.ety hf hc.wf hc.avx L u1 u2 o fm y hi

/-- C42 (`sin`): the sine of the negated argument is the negated sine, bit for bit, for every pattern (NaN included).  Of the C
library this is assumed only at elements beyond the range of the kernel. -/
theorem C42_sin_odd {x y : c.Data} (hxy : Negated c x y) :
    ∃ r r', vSin c L o fm x = .ok r ∧ vSin c L o fm y = .ok r' ∧
      ∀ i, i < c.N → (Large (elt c x i) → L.sin (elt c x i ^^^ BitVec.intMin c.w) = L.sin (elt c x i) ^^^ BitVec.intMin c.w) →
        elt c r' i = elt c r i ^^^ BitVec.intMin c.w := by
  obtain ⟨r, hr, h1⟩ := vSin_elt hc hf L o fm x
  obtain ⟨r', hr', h2⟩ := vSin_elt hc hf L o fm y
  refine ⟨r, r', hr, hr', fun i hi hL => ?_⟩
  rw [h2 i hi, hxy i hi, h1 i hi]
  exact sinF_flip (fltW hc.ety hf) _ _ _ _ _ _ hL
/-- C42 (`cos`): the cosine does not depend on the sign. -/
theorem C42_cos_even {x y : c.Data} (hxy : Negated c x y) :
    ∃ r r', vCos c L o fm x = .ok r ∧ vCos c L o fm y = .ok r' ∧
      ∀ i, i < c.N → (Large (elt c x i) → L.cos (elt c x i ^^^ BitVec.intMin c.w) = L.cos (elt c x i)) → elt c r' i = elt c r i := by
  obtain ⟨r, hr, h1⟩ := vCos_elt hc hf L o fm x
  obtain ⟨r', hr', h2⟩ := vCos_elt hc hf L o fm y
  refine ⟨r, r', hr, hr', fun i hi hL => ?_⟩
  rw [h2 i hi, hxy i hi, h1 i hi]
  exact cosF_flip (fltW hc.ety hf) _ _ _ _ _ _ hL
/-- C42 (`tan`): the tangent of the negated argument is the negated tangent, or both are NaN; whatever the registers `p1`, `p2`
hold initially (they are uninitialised under clang). -/
theorem C42_tan_odd (u1 u2 u1' u2' : Vec c.v) {x y : c.Data} (hxy : Negated c x y) :
    ∃ r r', vTan c L o fm u1 u2 x = .ok r ∧ vTan c L o fm u1' u2' y = .ok r' ∧
      ∀ i, i < c.N → (Large (elt c x i) → L.tan (elt c x i ^^^ BitVec.intMin c.w) = L.tan (elt c x i) ^^^ BitVec.intMin c.w) →
        elt c r' i = elt c r i ^^^ BitVec.intMin c.w ∨ (isNaN (elt c r i) = true ∧ isNaN (elt c r' i) = true) := by
  obtain ⟨r, hr, h1⟩ := vTan_elt hc hf L o fm u1 u2 x
  obtain ⟨r', hr', h2⟩ := vTan_elt hc hf L o fm u1' u2' y
  refine ⟨r, r', hr, hr', fun i hi hL => ?_⟩
  rw [h2 i hi, hxy i hi, h1 i hi]
  exact tanF_flip (fltW hc.ety hf) _ _ _ _ _ _ hL
omit hf in
/-- C42 (`asin`, `atan`): odd, bit for bit, for every pattern. -/
theorem C42_asin_atan_odd {x y : c.Data} (hxy : Negated c x y) :
    (∃ r r', vAsin c o fm x = .ok r ∧ vAsin c o fm y = .ok r' ∧ ∀ i, i < c.N → elt c r' i = elt c r i ^^^ BitVec.intMin c.w) ∧
    (∃ r r', vAtan c fm x = .ok r ∧ vAtan c fm y = .ok r' ∧ ∀ i, i < c.N → elt c r' i = elt c r i ^^^ BitVec.intMin c.w) := by
  constructor
  · obtain ⟨r, hr, h1⟩ := vAsin_elt hc o fm x
    obtain ⟨r', hr', h2⟩ := vAsin_elt hc o fm y
    refine ⟨r, r', hr, hr', fun i hi => ?_⟩
    rw [h2 i hi, hxy i hi, h1 i hi]
    exact asinF_flip _ _ _
  · obtain ⟨r, hr, h1⟩ := vAtan_elt hc fm x
    obtain ⟨r', hr', h2⟩ := vAtan_elt hc fm y
    refine ⟨r, r', hr, hr', fun i hi => ?_⟩
    rw [h2 i hi, hxy i hi, h1 i hi]
    exact atanF_flip _ _

omit hc hf in
theorem each_imp {P Q : BitVec c.w → BitVec c.w → Prop} {x : c.Data} {out : Out c.Data} (h : EachElt c P x out) (hpq : ∀ a r, P a r → Q a r) :
    EachElt c Q x out := by
  obtain ⟨r, hr, h⟩ := h
  exact ⟨r, hr, fun i hi => hpq _ _ (h i hi)⟩

/-- C42 (zeros): `sin`, `tan`, `asin`, `atan` return a zero argument unchanged, sign included; `cos(+-0)` is 1. -/
theorem C42_zero (u1 u2 : Vec c.v) (x : c.Data) :
    EachElt c (fun a r => isZero a = true → r = a) x (vSin c L o fm x) ∧ EachElt c (fun a r => isZero a = true → r = a) x (vTan c L o fm u1 u2 x) ∧
    EachElt c (fun a r => isZero a = true → r = a) x (vAsin c o fm x) ∧ EachElt c (fun a r => isZero a = true → r = a) x (vAtan c fm x) ∧
    EachElt c (fun a r => isZero a = true → r.msb = false ∧ val r = ((2 ^ unitExp c.w : Nat) : Int)) x (vCos c L o fm x) := by
  have h := fltW hc.ety hf
  refine ⟨each_imp (vSin_elt hc hf L o fm x) ?_, each_imp (vTan_elt hc hf L o fm u1 u2 x) ?_, each_imp (vAsin_elt hc o fm x) ?_,
    each_imp (vAtan_elt hc fm x) ?_, each_imp (vCos_elt hc hf L o fm x) ?_⟩
  · rintro a r rfl ha; exact sinF_zero h _ _ _ (ct_zero h _ _) (cv_zero h _ _ _) o fm ha
  · rintro a r rfl ha; exact tanF_zero h _ _ _ o fm ha
  · rintro a r rfl ha; exact asinF_zero h o fm ha
  · rintro a r rfl ha; exact atanF_zero h fm ha
  · rintro a r rfl ha
    rw [cosF_zero h _ _ _ (ct_zero h _ _) (cv_zero h _ _ _) o fm ha]
    exact ⟨(consts h).2.2.1, (consts h).2.1⟩
/-- C42 (NaN): all six functions return NaN for NaN. -/
theorem C42_nan (u1 u2 : Vec c.v) (x : c.Data) :
    EachElt c (fun a r => isNaN a = true → isNaN r = true) x (vSin c L o fm x) ∧ EachElt c (fun a r => isNaN a = true → isNaN r = true) x (vCos c L o fm x) ∧
    EachElt c (fun a r => isNaN a = true → isNaN r = true) x (vTan c L o fm u1 u2 x) ∧ EachElt c (fun a r => isNaN a = true → isNaN r = true) x (vAsin c o fm x) ∧
    EachElt c (fun a r => isNaN a = true → isNaN r = true) x (vAcos c o fm x) ∧ EachElt c (fun a r => isNaN a = true → isNaN r = true) x (vAtan c fm x) := by
  have h := fltW hc.ety hf
  refine ⟨each_imp (vSin_elt hc hf L o fm x) ?_, each_imp (vCos_elt hc hf L o fm x) ?_, each_imp (vTan_elt hc hf L o fm u1 u2 x) ?_,
    each_imp (vAsin_elt hc o fm x) ?_, each_imp (vAcos_elt hc o fm x) ?_, each_imp (vAtan_elt hc fm x) ?_⟩
  · rintro a r rfl ha; exact sinF_nan_of h _ _ _ _ _ (finLane_nan h o ha)
  · rintro a r rfl ha; exact cosF_nan_of h _ _ _ _ _ (finLane_nan h o ha)
  · rintro a r rfl ha; exact tanF_nan_of h _ _ _ _ _ (finLane_nan h o ha)
  · rintro a r rfl ha; exact asinF_nan_of h _ _ (unitLane_nan h o ha)
  · rintro a r rfl ha; exact acosF_nan_of h _ _ (unitLane_nan h o ha)
  · rintro a r rfl ha; exact atanF_nan h _ ha
/-- C42 (domain): `asin` and `acos` of every `|x| > 1` (infinities included) are NaN, with and without DPM_HANDLE_ERRORS. -/
theorem C42_domain (x : c.Data) :
    EachElt c (fun a r => isNaN a = false → 2 ^ unitExp c.w < (val a).natAbs → isNaN r = true) x (vAsin c o fm x) ∧
    EachElt c (fun a r => isNaN a = false → 2 ^ unitExp c.w < (val a).natAbs → isNaN r = true) x (vAcos c o fm x) := by
  have h := fltW hc.ety hf
  refine ⟨each_imp (vAsin_elt hc o fm x) ?_, each_imp (vAcos_elt hc o fm x) ?_⟩
  · rintro a r rfl ha h1; exact asinF_above h ha h1 _ _
  · rintro a r rfl ha h1; exact acosF_above h ha h1 _ _
/-- C42 (infinite arguments): with DPM_HANDLE_ERRORS `sin`, `cos`, `tan` of an infinity are NaN, without it they are what the C
library returns; `atan(+-inf)` is the number nearest to `+-pi/2`. -/
theorem C42_inf (u1 u2 : Vec c.v) (x : c.Data) :
    EachElt c (fun a r => isInf a = true → if o.handleErr then isNaN r = true else r = L.sin a) x (vSin c L o fm x) ∧
    EachElt c (fun a r => isInf a = true → if o.handleErr then isNaN r = true else r = L.cos a) x (vCos c L o fm x) ∧
    EachElt c (fun a r => isInf a = true → if o.handleErr then isNaN r = true else r = L.tan a) x (vTan c L o fm u1 u2 x) ∧
    EachElt c (fun a r => isInf a = true → r = withSign a (halfPiPat c.w)) x (vAtan c fm x) := by
  have h := fltW hc.ety hf
  refine ⟨each_imp (vSin_elt hc hf L o fm x) ?_, each_imp (vCos_elt hc hf L o fm x) ?_, each_imp (vTan_elt hc hf L o fm u1 u2 x) ?_,
    each_imp (vAtan_elt hc fm x) ?_⟩
  · rintro a r rfl ha
    cases ho : o.handleErr
    · unfold sinF; dsimp only; rw [inf_large h ho ha]; rfl
    · exact sinF_nan_of h _ _ _ _ _ (finLane_inf h ho ha)
  · rintro a r rfl ha
    cases ho : o.handleErr
    · unfold cosF; dsimp only; rw [inf_large h ho ha]; rfl
    · exact cosF_nan_of h _ _ _ _ _ (finLane_inf h ho ha)
  · rintro a r rfl ha
    cases ho : o.handleErr
    · unfold tanF; dsimp only; rw [inf_large h ho ha]; rfl
    · exact tanF_nan_of h _ _ _ _ _ (finLane_inf h ho ha)
  · rintro a r rfl ha
    rw [atanF_inf h fm ha, sgB_eq h]
    unfold withSign
    cases a.msb <;> simp
end C42

/-- `sincos` writes both results for every native vector -/
theorem forRange_pair {α : Type} (n : Nat) (f g : Nat → α) (m m' : Mem α) :
    forRange n (fun j (r : Mem α × Mem α) => (r.1.set j (f j), r.2.set j (g j))) (m, m') =
      (forRange n (fun j r => r.set j (f j)) m, forRange n (fun j r => r.set j (g j)) m') := by
  induction n with
  | zero => rfl
  | succ n ih => rw [forRange, forRange, forRange, ih]
theorem sinF_congr {w : Nat} (h : W w) {f g ct cv : BitVec w → BitVec w} {o : MathOpt} {fm : Bool} {x : BitVec w} (hL : Large x → f x = g x) :
    sinF f ct cv o fm x = sinF g ct cv o fm x := by
  unfold sinF; dsimp only
  split
  · rename_i hl; exact hL (large_of h hl)
  · rfl
theorem cosF_congr {w : Nat} (h : W w) {f g ct cv : BitVec w → BitVec w} {o : MathOpt} {fm : Bool} {x : BitVec w} (hL : Large x → f x = g x) :
    cosF f ct cv o fm x = cosF g ct cv o fm x := by
  unfold cosF; dsimp only
  split
  · rename_i hl; exact hL (large_of h hl)
  · rfl
/-- C42 (`sincos`): every element of the two results is that of `sin(x)` and of `cos(x)`, bit for bit (of the C library's `sincos`
this is assumed only beyond the range of the kernel). -/
theorem C42_sincos {c : Cfg} (hc : c.Ok) (hf : c.T.flt = true) (L : Libm) (o : MathOpt) (fm : Bool) (x os oc : c.Data) :
    ∃ r rs rc, vSincos c L o fm x os oc = .ok r ∧ vSin c L o fm x = .ok rs ∧ vCos c L o fm x = .ok rc ∧
      ∀ i, i < c.N → (Large (elt c x i) → L.sincos (elt c x i) = (L.sin (elt c x i), L.cos (elt c x i))) →
        elt c r.1 i = elt c rs i ∧ elt c r.2 i = elt c rc i := by
  have h := fltW hc.ety hf
  obtain ⟨rs, hrs, h1⟩ := vSin_elt hc hf L o fm x
  obtain ⟨rc, hrc, h2⟩ := vCos_elt hc hf L o fm x
  refine ⟨_, rs, rc, rfl, hrs, hrc, fun i hi hL => ?_⟩
  rw [forRange_pair]
  dsimp only
  have key : ∀ (f : Nat → Vec c.v) (m : c.Data), elt c (forRange c.dataSize (fun j r => r.set j (f j)) m) i = lane c.w (f (i / c.e)) (i % c.e) := by
    intro f m
    rw [forRange_store]
    unfold elt
    dsimp only
    rw [if_pos (idx_lt hc hi)]
  rw [key, key, h1 i hi, h2 i hi]
  have hl := implSincos_lane hc.ety hf hc.wf hc.avx (fun x => (L.sincos x).1) (fun x => (L.sincos x).2) o fm (x (i / c.e)) (idx_mod hc i)
  exact ⟨hl.1.trans (sinF_congr h fun hl => by exact congrArg Prod.fst (hL hl)), hl.2.trans (cosF_congr h fun hl => by exact congrArg Prod.snd (hL hl))⟩

theorem end_lanes {w : Nat} (h : W w) (o : MathOpt) (fm : Bool) : asinF o fm (oneBits w) = halfPiPat w ∧ asinF o fm (oneBits w ^^^ BitVec.intMin w) = halfPiPat w ^^^ BitVec.intMin w ∧
    acosF o fm (oneBits w) = 0#w ∧ acosF o fm (oneBits w ^^^ BitVec.intMin w) = piPat w ∧ atanF fm (oneBits w) = quarterPiPat w ∧
    atanF fm (oneBits w ^^^ BitVec.intMin w) = quarterPiPat w ^^^ BitVec.intMin w := by
  obtain ⟨p, e⟩ := o
  rcases h with h | h <;> subst h <;> cases fm <;> cases e <;> cases p <;> decide +kernel
theorem one_cases {w : Nat} (h : W w) {a : BitVec w} (ha : IsOne a) :
    (a = oneBits w ∧ a.msb = false) ∨ (a = oneBits w ^^^ BitVec.intMin w ∧ a.msb = true) := by
  have hc := consts h
  have hm : mag a = mag (oneBits w) := by
    have h1 := ha.2
    rw [natAbs_val, ← hc.2.2.2.2.2.2.2.2.1, ← hc.2.2.2.1] at h1
    exact magVal_inj.1 h1
  have hfl := flip_sm h (oneBits w)
  cases hs : a.msb
  · exact Or.inl ⟨ext_mag h.pos (by rw [hs, hc.2.2.1]) hm, rfl⟩
  · exact Or.inr ⟨ext_mag h.pos (by rw [hs, hfl.1, hc.2.2.1]; rfl) (by rw [hm, hfl.2]), rfl⟩
/-- C42 (endpoints): `asin(+-1)` is the number nearest to `+-pi/2`, `acos(1)` is +0, `acos(-1)` is the number nearest to pi,
`atan(+-1)` the number nearest to `+-pi/4`, with and without FMA. -/
theorem C42_endpoints {c : Cfg} (hc : c.Ok) (hf : c.T.flt = true) (o : MathOpt) (fm : Bool) (x : c.Data) :
    EachElt c (fun a r => IsOne a → r = withSign a (halfPiPat c.w)) x (vAsin c o fm x) ∧
    EachElt c (fun a r => IsOne a → r = if a.msb then piPat c.w else 0#c.w) x (vAcos c o fm x) ∧
    EachElt c (fun a r => IsOne a → r = withSign a (quarterPiPat c.w)) x (vAtan c fm x) := by
  have h := fltW hc.ety hf
  obtain ⟨e1, e2, e3, e4, e5, e6⟩ := end_lanes h o fm
  unfold withSign
  refine ⟨each_imp (vAsin_elt hc o fm x) ?_, each_imp (vAcos_elt hc o fm x) ?_, each_imp (vAtan_elt hc fm x) ?_⟩
  · rintro a r rfl ha
    rcases one_cases h ha with ⟨h1, h2⟩ | ⟨h1, h2⟩ <;> rw [h2, h1]
    · exact e1
    · exact e2
  · rintro a r rfl ha
    rcases one_cases h ha with ⟨h1, h2⟩ | ⟨h1, h2⟩ <;> rw [h2, h1]
    · exact e3
    · exact e4
  · rintro a r rfl ha
    rcases one_cases h ha with ⟨h1, h2⟩ | ⟨h1, h2⟩ <;> rw [h2, h1]
    · exact e5
    · exact e6

/-! ### examples: 6 x float on SSE2 without FMA -/
/-- a C library, for the examples -/
def exLibm : Libm := ⟨fun x => x, fun _ => 0, fun x => x, fun x => (x, 0)⟩
/-- `sin(-0.5) = -sin(0.5)` (no assumption on the library is needed) -/
example : ∃ r r', vSin exF32 exLibm ⟨true, true⟩ false (vbroadcast exF32 0x3f000000 (zeroData exF32)) = .ok r ∧
    vSin exF32 exLibm ⟨true, true⟩ false (vbroadcast exF32 0xbf000000 (zeroData exF32)) = .ok r' ∧
    ∀ i, i < 6 → elt exF32 r' i = elt exF32 r i ^^^ 0x80000000 := by
  obtain ⟨r, r', h, h', h2⟩ := C42_sin_odd exF32_ok rfl exLibm ⟨true, true⟩ false (x := vbroadcast exF32 0x3f000000 (zeroData exF32))
    (y := vbroadcast exF32 0xbf000000 (zeroData exF32)) (fun i hi => by rw [elt_vbroadcast exF32_ok _ _ hi, elt_vbroadcast exF32_ok _ _ hi]; decide)
  exact ⟨r, r', h, h', fun i hi => h2 i hi fun _ => rfl⟩
/-- `asin(2)` and `acos(-inf)` -/
example : ∃ r, vAsin exF64 ⟨true, false⟩ true (vbroadcast exF64 0x4000000000000000 (zeroData exF64)) = .ok r ∧ ∀ i, i < 4 → isNaN (elt exF64 r i) = true := by
  obtain ⟨r, hr, h⟩ := each_bcast exF64_ok _ (C42_domain exF64_ok rfl ⟨true, false⟩ true (vbroadcast exF64 0x4000000000000000 (zeroData exF64))).1
  exact ⟨r, hr, fun i hi => h i hi (by decide) (by decide +kernel)⟩
example : ∃ r, vAcos exF64 ⟨true, false⟩ true (vbroadcast exF64 0xfff0000000000000 (zeroData exF64)) = .ok r ∧ ∀ i, i < 4 → isNaN (elt exF64 r i) = true := by
  obtain ⟨r, hr, h⟩ := each_bcast exF64_ok _ (C42_domain exF64_ok rfl ⟨true, false⟩ true (vbroadcast exF64 0xfff0000000000000 (zeroData exF64))).2
  exact ⟨r, hr, fun i hi => h i hi (by decide) (by decide +kernel)⟩
/-- `atan(-inf)`, `sin(inf)` with error handling, `tan(-0)` -/
example : ∃ r, vAtan exF64 true (vbroadcast exF64 0xfff0000000000000 (zeroData exF64)) = .ok r ∧ ∀ i, i < 4 → elt exF64 r i = 0xbff921fb54442d18 := by
  obtain ⟨r, hr, h⟩ := each_bcast exF64_ok _ (C42_inf exF64_ok rfl exLibm ⟨true, false⟩ true 0 0 (vbroadcast exF64 0xfff0000000000000 (zeroData exF64))).2.2.2
  exact ⟨r, hr, fun i hi => (h i hi (by decide)).trans (by decide)⟩
example : ∃ r, vSin exF64 exLibm ⟨true, true⟩ true (vbroadcast exF64 0x7ff0000000000000 (zeroData exF64)) = .ok r ∧ ∀ i, i < 4 → isNaN (elt exF64 r i) = true := by
  obtain ⟨r, hr, h⟩ := each_bcast exF64_ok _ (C42_inf exF64_ok rfl exLibm ⟨true, true⟩ true 0 0 (vbroadcast exF64 0x7ff0000000000000 (zeroData exF64))).1
  exact ⟨r, hr, fun i hi => h i hi (by decide)⟩
example : ∃ r, vTan exF64 exLibm ⟨true, true⟩ true 0 0 (vbroadcast exF64 0x8000000000000000 (zeroData exF64)) = .ok r ∧ ∀ i, i < 4 → elt exF64 r i = 0x8000000000000000 := by
  obtain ⟨r, hr, h⟩ := each_bcast exF64_ok _ (C42_zero exF64_ok rfl exLibm ⟨true, true⟩ true 0 0 (vbroadcast exF64 0x8000000000000000 (zeroData exF64))).2.1
  exact ⟨r, hr, fun i hi => h i hi (by decide)⟩
end Dpm.X86
