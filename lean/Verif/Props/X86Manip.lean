import Verif.Proofs.Frexp
import Verif.Proofs.StoreExp
import Verif.Props.X86Float
/-!
Floating-point manipulation functions of the x86 backend.
C34: frexp.  C35: scalbn/ldexp.  C36: modf.  C37: ilogb, logb.
`val x` is the exact value of `x` in units of the smallest subnormal (Spec/Float.lean); the arithmetic of the machine is
that of Spec/Ieee.lean; the meaning of the functions is Spec/Manip.lean.
-/
namespace Dpm.X86
open Dpm.Reg Dpm.Fp

/-- the `int` vectors belonging to the example configurations -/
def exF32i : Cfg := { exF32 with T := .i32 }
def exF64i : Cfg := { exF64 with T := .i32, v := .v128 }
theorem exF32i_of : exF32.IntOf exF32i := ⟨rfl, rfl, rfl, Or.inl rfl⟩
theorem exF64i_of : exF64.IntOf exF64i := ⟨rfl, rfl, rfl, Or.inr ⟨rfl, rfl, rfl, Or.inr rfl⟩⟩

/-! ### C34: frexp -/
section C34
variable {c ci : Cfg} (hc : c.Ok) (hf : c.T.flt = true) (hi : c.IntOf ci)
include hc hf hi
theorem frexp_elts (x : c.Data) (exp : ci.Data) :
    ∃ r e, vFrexp c ci x exp = .ok (r, e) ∧ ∀ p, p < c.N →
      elt c r p = (frexpLane c.T.toI.digits (elt c x p)).1 ∧ elt ci e p = BitVec.setWidth ci.w (frexpLane c.T.toI.digits (elt c x p)).2 := by
  refine ⟨_, _, rfl, fun p hp => ⟨?_, ?_⟩⟩
  · rw [elt_vec1 hc _ _ _ hp, (frexpV_lane c.s hc.ety hf (idx_mod hc p) _).1]; rfl
  · rw [storeExps_elt hc hf hi _ _ hp, (frexpV_lane c.s hc.ety hf (idx_mod hc p) _).2]; rfl
/-- C34, except that subnormal arguments get a wrong exponent (`C34_subnormal_violated`): normal numbers are split exactly,
zeros, infinities and NaNs are returned unchanged and the exponent of zero is 0. -/
theorem C34_frexp_partial (x : c.Data) (exp : ci.Data) :
    ∃ m e, vFrexp c ci x exp = .ok (m, e) ∧ ∀ p, p < c.N →
      (isNormal (elt c x p) = true →
        IsFraction (elt c m p) ∧ Scaled (val (elt c x p)) (val (elt c m p)) (elt ci e p).toInt) ∧
      (isZero (elt c x p) = true ∨ isInf (elt c x p) = true ∨ isNaN (elt c x p) = true → elt c m p = elt c x p) ∧
      (isZero (elt c x p) = true → elt ci e p = 0#ci.w) := by
  have hw := fltW hc.ety hf
  obtain ⟨m, e, hr, h⟩ := frexp_elts hc hf hi x exp
  refine ⟨m, e, hr, fun p hp => ?_⟩
  obtain ⟨h1, h2⟩ := h p hp
  rw [h1, h2]
  generalize elt c x p = X
  have hciw : ci.w = 32 := by show 8 * ci.T.bytes = 32; rw [hi.T]; rfl
  refine ⟨fun hn => ?_, fun ho => ?_, fun h0 => ?_⟩
  · unfold isNormal at hn
    simp only [Bool.and_eq_true, decide_eq_true_eq] at hn
    have hfin : isFinite X = true := by unfold isFinite; simp [hn.1]
    have hD : c.T.toI.digits < 90000 := by rcases (hc.ety.2 hf).1 with hb | hb <;> simp [Ety.digits, Ety.toI, Ety.w, hb]
    have hm0 : mag X ≠ 0 := by
      intro h0; apply hn.2; unfold expF; rw [h0]; simp
    obtain ⟨a, _, b1, b2, b3⟩ := frexpLane_spec hw hD hfin hm0
    rw [if_neg hn.2] at b1 b2 b3
    rw [Int.add_zero] at b1 b2 b3
    refine ⟨a, ?_⟩
    have hsw : (BitVec.setWidth ci.w (frexpLane c.T.toI.digits X).2).toInt = (frexpLane c.T.toI.digits X).2.toInt := by
      generalize (frexpLane c.T.toI.digits X).2 = E at *
      exact setWidth_toInt hw hciw (by omega) (by omega)
    rw [hsw]; exact b3
  · apply frexpLane_other
    rcases ho with h0 | h0 | h0
    · exact Or.inr ((zero_iff X).1 h0)
    · left; rw [finite_eq, h0]; simp
    · left; rw [finite_eq, h0]; simp
  · have hz := (zero_iff X).1 h0
    unfold frexpLane
    simp only [hz, decide_true, Bool.true_or, if_true]
    have : X &&& expOnes c.w = 0#c.w := (expF_and hw X).2.2 (by unfold expF; rw [hz]; simp)
    rw [this]; simp
/-- C34 violated: for every nonzero subnormal the fraction is right but the exponent is too small by 6 (float) or 9
(double): `x = m * 2^(e + 6)`, not `m * 2^e`. -/
theorem C34_subnormal_violated (x : c.Data) (exp : ci.Data) :
    ∃ m e, vFrexp c ci x exp = .ok (m, e) ∧ ∀ p, p < c.N → isSubnormal (elt c x p) = true →
      IsFraction (elt c m p) ∧
      Scaled (val (elt c x p)) (val (elt c m p)) ((elt ci e p).toInt + (if c.T.bytes = 8 then 9 else 6)) ∧
      ¬ Scaled (val (elt c x p)) (val (elt c m p)) (elt ci e p).toInt := by
  have hw := fltW hc.ety hf
  obtain ⟨m, e, hr, h⟩ := frexp_elts hc hf hi x exp
  refine ⟨m, e, hr, fun p hp hs => ?_⟩
  obtain ⟨h1, h2⟩ := h p hp
  rw [h1, h2]
  generalize elt c x p = X at *
  have hciw : ci.w = 32 := by show 8 * ci.T.bytes = 32; rw [hi.T]; rfl
  unfold isSubnormal at hs
  simp only [Bool.and_eq_true, decide_eq_true_eq] at hs
  have hem : emax c.w ≠ 0 := by have := emax_bias hw; show emax c.T.w ≠ 0; omega
  have hfin : isFinite X = true := by unfold isFinite; rw [hs.1]; simp; exact hem.symm
  have hm0 : mag X ≠ 0 := fun h0 => hs.2 (by unfold manF; rw [h0]; simp)
  have hD : c.T.toI.digits < 90000 ∧ (c.T.toI.digits : Int) - (mb c.w + 2) = if c.T.bytes = 8 then 9 else 6 := by
    rcases (hc.ety.2 hf).1 with hb | hb <;> simp [Ety.digits, Ety.toI, Ety.w, Cfg.w, hb, mb]
  obtain ⟨a, _, b1, b2, b3⟩ := frexpLane_spec hw hD.1 hfin hm0
  rw [if_pos hs.1, hD.2] at b1 b2 b3
  have hsw : (BitVec.setWidth ci.w (frexpLane c.T.toI.digits X).2).toInt = (frexpLane c.T.toI.digits X).2.toInt := by
    generalize (frexpLane c.T.toI.digits X).2 = E at *
    apply setWidth_toInt hw hciw <;> split at b1 <;> split at b2 <;> omega
  rw [hsw]
  refine ⟨a, b3, fun h3 => ?_⟩
  have h0 : val X ≠ 0 := by rw [ne_eq, val_zero_iff]; exact hm0
  have := scaled_unique h0 h3 b3
  split at this <;> omega
end C34
/-- 8.0 = 0.5 * 2^4, and -inf is returned as it is -/
example : ∃ m e, vFrexp exF32 exF32i (vbroadcast exF32 0x41000000 (zeroData exF32)) (zeroData exF32i) = .ok (m, e) ∧
    Scaled (2 ^ 152) (val (elt exF32 m 5)) (elt exF32i e 5).toInt := by
  obtain ⟨m, e, hr, h⟩ := C34_frexp_partial exF32_ok rfl exF32i_of (vbroadcast exF32 0x41000000 (zeroData exF32)) (zeroData exF32i)
  have h2 := ((h 5 (by decide)).1 (by rw [elt_vbroadcast exF32_ok _ _ (by decide)]; decide)).2
  rw [elt_vbroadcast exF32_ok _ _ (by decide), show val (0x41000000 : BitVec exF32.w) = 2 ^ 152 by decide] at h2
  exact ⟨m, e, hr, h2⟩
example : ∃ m e, vFrexp exF64 exF64i (vbroadcast exF64 0xfff0000000000000 (zeroData exF64)) (zeroData exF64i) = .ok (m, e) ∧
    elt exF64 m 3 = 0xfff0000000000000 := by
  obtain ⟨m, e, hr, h⟩ := C34_frexp_partial exF64_ok rfl exF64i_of (vbroadcast exF64 0xfff0000000000000 (zeroData exF64)) (zeroData exF64i)
  have h2 := (h 3 (by decide)).2.1 (by rw [elt_vbroadcast exF64_ok _ _ (by decide)]; decide)
  rw [elt_vbroadcast exF64_ok _ _ (by decide)] at h2
  exact ⟨m, e, hr, h2⟩
/-- the smallest subnormal double -/
example : ∃ m e, vFrexp exF64 exF64i (vbroadcast exF64 1 (zeroData exF64)) (zeroData exF64i) = .ok (m, e) ∧
    ¬ Scaled 1 (val (elt exF64 m 3)) (elt exF64i e 3).toInt := by
  obtain ⟨m, e, hr, h⟩ := C34_subnormal_violated exF64_ok rfl exF64i_of (vbroadcast exF64 1 (zeroData exF64)) (zeroData exF64i)
  have h2 := (h 3 (by decide) (by rw [elt_vbroadcast exF64_ok _ _ (by decide)]; decide)).2.2
  rw [elt_vbroadcast exF64_ok _ _ (by decide), show val (1 : BitVec exF64.w) = 1 by decide] at h2
  exact ⟨m, e, hr, h2⟩
end Dpm.X86
