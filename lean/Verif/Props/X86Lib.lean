import Verif.Model.X86Lib
import Verif.Props.GenericMath
import Verif.Props.X86Logb
/-
C31 (`fpclassify`) and C58 (`remquo`) on x86 vectors: both are templates that store `int`s in a `std::array` of `size()` elements and load
whole native vectors of `int` from it.
-/
namespace Dpm.GenericMath
open Dpm Dpm.Generic Dpm.X86 Dpm.Spec

/-- the five constants of `<cmath>` -/
structure FpConsts where
  nan : BitVec 32
  infinite : BitVec 32
  zero : BitVec 32
  subnormal : BitVec 32
  normal : BitVec 32
/-- the IEEE class of a bit pattern, as one of the constants -/
def FpConsts.classOf (k : FpConsts) {w : Nat} (x : BitVec w) : BitVec 32 :=
  if Fp.isNaN x then k.nan else if Fp.isInf x then k.infinite else if Fp.isZero x then k.zero
  else if Fp.isSubnormal x then k.subnormal else k.normal

theorem int_w {ci : Cfg} (h : ci.T = .i32) : ci.w = 32 := by show 8 * ci.T.bytes = 32; rw [h]; rfl
theorem int_keep {ci : Cfg} (h : ci.T = .i32) (b : BitVec 32) : (b.setWidth ci.w).setWidth 32 = b := by
  rw [int_w h]; simp

/-- C31 (`fpclassify`, defined case): if the number of elements is a multiple of the number of `int`s in the native vector of the result,
every element of the result is the class of the element of the argument. -/
theorem C31_fpclassify_partial {c ci : Cfg} (hi : ci.Ok) (hT : ci.T = .i32) (hN : ci.N = c.N) (hm : c.N % ci.e = 0) (k : FpConsts)
    (L : Cmath c.w) (hL : ∀ v, L.fpclassify v = k.classOf v) (x : c.Data) :
    ∃ r, xFpclassify c ci L x = .ok r ∧ ∀ i, i < c.N → (elt ci r i).setWidth 32 = k.classOf (elt c x i) := by
  have hcap := (cap_eq_iff hi).2 (hN ▸ hm)
  obtain ⟨r, hr, h⟩ := (copyFrom_native hi (f := .vector) rfl (zeroData ci) c.N (fun i =>
    ((forRange c.N (fun i (m : Mem (BitVec 32)) => m.set i (L.fpclassify (elt c x i))) (fun _ => 0)) i).setWidth ci.w)).2 (by rw [← hN]; exact hcap)
  refine ⟨r, ?_, fun i hlt => ?_⟩
  · unfold xFpclassify; dsimp only; rw [hr]; rfl
  · rw [h i, if_pos (Nat.lt_of_lt_of_le (hN ▸ hlt) (cap_ge hi)), int_keep hT, forRange_store]
    dsimp only; rw [if_pos hlt, hL]

/-- C31 (`fpclassify`) violated: otherwise the call is undefined for every argument (the load goes beyond the array); among others for
every vector of 2 doubles in a 16-byte vector, see `C31_fpclassify_double`. -/
theorem C31_fpclassify_violated {c ci : Cfg} (hi : ci.Ok) (hN : ci.N = c.N) (hm : c.N % ci.e ≠ 0) (L : Cmath c.w) (x : c.Data) :
    xFpclassify c ci L x = .ub := by
  unfold xFpclassify
  dsimp only
  rw [(copyFrom_native hi (f := .vector) rfl _ c.N _).1 ?_]; rfl
  have h1 := cap_ge hi
  have h2 : ¬ ci.dataSize * ci.e ≤ ci.N := fun h => hm (hN ▸ (cap_eq_iff hi).1 h)
  omega
/-- the default vectors of `double` are affected although they have no padding of their own: one native vector of doubles is half a native
vector of ints of the same size -/
theorem C31_fpclassify_double {c ci : Cfg} (hc : c.Ok) (hi : ci.Ok) (hT : ci.T = .i32) (hN : ci.N = c.N) (hv : ci.v = c.v) (h8 : c.T.bytes = 8)
    (h1 : c.N = c.e) (L : Cmath c.w) (x : c.Data) : xFpclassify c ci L x = .ub := by
  refine C31_fpclassify_violated hi hN ?_ L x
  have he : ci.e = 2 * c.e := by
    show ci.v.bytes / ci.T.bytes = 2 * (c.v.bytes / c.T.bytes)
    rw [hv, hT, h8]; cases c.v <;> rfl
  have hp : 0 < c.e := extent_pos hc.ety c.v
  rw [h1, he, Nat.mod_eq_of_lt (by omega)]; omega

/-- C58 (`remquo` on x86 vectors): the call is defined iff the result has no padding and the native storage of the quotient vector is not
larger than `size()` ints; then results and quotients are those of `std::remquo`, element by element. -/
theorem C58_x86_remquo {c cq : Cfg} (hc : c.Ok) (hq : cq.Ok) (hT : cq.T = .i32) (L : Cmath c.w) (a b : c.Data) (o : cq.Data) :
    (c.N % c.e = 0 → cq.dataSize * cq.e ≤ c.N → ∃ r, xRemquo c cq L a b o = .ok r ∧
      (∀ i, i < c.N → elt c r.1 i = (L.remquo (elt c a i) (elt c b i)).1) ∧
      (∀ i, i < cq.N → (elt cq r.2 i).setWidth 32 = (L.remquo (elt c a i) (elt c b i)).2)) ∧
    (c.N % c.e ≠ 0 ∨ c.N < cq.dataSize * cq.e → xRemquo c cq L a b o = .ub) := by
  have hs := fun i hi => pair_get (fun i => (L.remquo (elt c a i) (elt c b i)).2) (fun i => (L.remquo (elt c a i) (elt c b i)).1) (fun _ => 0) (fun _ => 0) c.N i hi
  unfold xRemquo
  dsimp only
  generalize (forRange c.N (fun i (s : Mem (BitVec 32) × Mem (BitVec c.w)) =>
    (s.1.set i (L.remquo (elt c a i) (elt c b i)).2, s.2.set i (L.remquo (elt c a i) (elt c b i)).1)) (fun _ => 0, fun _ => 0)) = S at hs
  have n1 := copyFrom_native hq (f := .vector) rfl o c.N (fun i => (S.1 i).setWidth cq.w)
  have n2 := copyFrom_native hc (f := .vector) rfl (zeroData c) c.N S.2
  refine ⟨fun h1 h2 => ?_, fun h => ?_⟩
  · obtain ⟨q, hq1, hq2⟩ := n1.2 h2
    obtain ⟨r, hr1, hr2⟩ := n2.2 ((cap_eq_iff hc).2 h1)
    refine ⟨(r, q), by rw [hq1, hr1]; rfl, fun i hi => ?_, fun i hi => ?_⟩
    · dsimp only; rw [hr2 i, if_pos (Nat.lt_of_lt_of_le hi (cap_ge hc)), (hs i hi).2]
    · have hlt := Nat.lt_of_lt_of_le hi (cap_ge hq)
      dsimp only; rw [hq2 i, if_pos hlt, int_keep hT, (hs i (by omega)).1]
  · by_cases h3 : c.N < cq.dataSize * cq.e
    · rw [n1.1 h3]; rfl
    · have h4 : c.N % c.e ≠ 0 := h.resolve_right h3
      obtain ⟨q, hq1, _⟩ := n1.2 (by omega)
      have h5 : ¬ c.dataSize * c.e ≤ c.N := fun h => h4 ((cap_eq_iff hc).1 h)
      rw [hq1, n2.1 (by omega)]; rfl

/-! ### The hypotheses are met -/
def exF32x4 : Cfg := ⟨.sse2L, .f32, 4, .v128⟩
def exI32x4 : Cfg := ⟨.sse2L, .i32, 4, .v128⟩
def exF64x2 : Cfg := ⟨.sse2L, .f64, 2, .v128⟩
def exI32x2 : Cfg := ⟨.sse2L, .i32, 2, .v128⟩
theorem exF32x4_ok : exF32x4.Ok := ⟨by decide, by decide, by decide, by decide, by decide⟩
theorem exI32x4_ok : exI32x4.Ok := ⟨by decide, by decide, by decide, by decide, by decide⟩
theorem exF64x2_ok : exF64x2.Ok := ⟨by decide, by decide, by decide, by decide, by decide⟩
theorem exI32x2_ok : exI32x2.Ok := ⟨by decide, by decide, by decide, by decide, by decide⟩
def exConsts : FpConsts := ⟨0, 1, 2, 3, 4⟩
def exLibC (w : Nat) : Cmath w := { exLib w with fpclassify := exConsts.classOf }
/-- four subnormal floats are classified `FP_SUBNORMAL`; two doubles in a 16-byte vector: undefined -/
example : (∃ r, xFpclassify exF32x4 exI32x4 (exLibC _) (vbroadcast exF32x4 0x00000001 (zeroData _)) = .ok r ∧ (elt exI32x4 r 3).setWidth 32 = 3#32) ∧
    (∀ x, xFpclassify exF64x2 exI32x2 (exLibC _) x = .ub) := by
  refine ⟨?_, fun x => C31_fpclassify_double exF64x2_ok exI32x2_ok rfl rfl rfl rfl (by decide) _ x⟩
  obtain ⟨r, hr, h⟩ := C31_fpclassify_partial (c := exF32x4) exI32x4_ok rfl rfl (by decide) exConsts (exLibC _) (fun _ => rfl)
    (vbroadcast exF32x4 0x00000001 (zeroData _))
  refine ⟨r, hr, ?_⟩
  rw [h 3 (by decide), elt_vbroadcast exF32x4_ok _ _ (by decide)]
  decide +kernel
example : exF32x4.N % exF32x4.e = 0 ∧ exI32x4.dataSize * exI32x4.e ≤ exF32x4.N ∧ exF64x2.N < exI32x2.dataSize * exI32x2.e := by decide
end Dpm.GenericMath
