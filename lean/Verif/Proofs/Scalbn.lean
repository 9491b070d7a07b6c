import Verif.Proofs.Guard
/-! scalbn on one lane. -/
namespace Dpm.X86
open Dpm.Reg Dpm.Fp

/-- the exponent field a lane would have with unbounded range, and the pattern its significand is taken from -/
def normK {w : Nat} (x : BitVec w) : BitVec w :=
  if decide (expF x = 0) then BitVec.ofNat w (expF (fmul x (expMult w))) - BitVec.ofNat w (mb w + 2) else BitVec.ofNat w (expF x)
def normI {w : Nat} (x : BitVec w) : BitVec w := if decide (expF x = 0) then fmul x (expMult w) else x
/-- zeros (and with `DPM_PROPAGATE_NAN` infinities and NaNs) are passed on -/
def fwdB {w : Nat} (pn : Bool) (x : BitVec w) : Bool := decide (mag x = 0) || (pn && decide (normK x = BitVec.ofNat w (emax w)))
def oflowB {w : Nat} (low pn : Bool) (x n : BitVec w) : Bool :=
  !fwdB pn x && (gtLow low n (BitVec.ofNat w maxScalbn) || gtLow low (normK x + n) (BitVec.ofNat w (emax w - 1)))
def uflowB {w : Nat} (low pn : Bool) (x n : BitVec w) : Bool :=
  !fwdB pn x && (gtLow low (BitVec.ofInt w (-maxScalbn)) n || gtLow low (BitVec.ofInt w (-(mb w : Int) - 1)) (normK x + n))
def posB {w : Nat} (low : Bool) (x n : BitVec w) : Bool := gtLow low (normK x + n) (0#w)
/-- the significand of `x` with the new exponent -/
def rebuilt {w : Nat} (low : Bool) (x n : BitVec w) : BitVec w :=
  (normI x &&& ~~~ expOnes w) ||| ((normK x + n + (if posB low x n then 0#w else BitVec.ofNat w (mb w + 2))) <<< mb w)
def scalbnCore {w : Nat} (low pn : Bool) (x n : BitVec w) : BitVec w :=
  if !fwdB pn x && posB low x n then rebuilt low x n
  else fmul (if fwdB pn x then x else rebuilt low x n) (expMultm w)
/-- `impl_scalbn` on one lane -/
def scalbnLane {w : Nat} (o : MathOpt) (low : Bool) (x n : BitVec w) : BitVec w :=
  if o.handleErr && uflowB low o.propNan x n then fmul (tinyBits w) (tinyBits w ||| (x &&& BitVec.intMin w))
  else if o.handleErr && oflowB low o.propNan x n then fmul (hugeBits w) (hugeBits w ||| (x &&& BitVec.intMin w))
  else scalbnCore low o.propNan x n

theorem shr_mant_ofNat {w : Nat} (h : W w) (x : BitVec w) : (x >>> mantBits w) &&& BitVec.ofNat w (expMask w) = BitVec.ofNat w (expF x) := by
  apply BitVec.eq_of_toNat_eq
  rw [shr_mant h, BitVec.toNat_ofNat, Nat.mod_eq_of_lt]
  refine Nat.lt_of_le_of_lt (expF_le h x) ?_
  rcases h with h | h <;> subst h <;> decide
theorem ofNat_expF_zero {w : Nat} (h : W w) (x : BitVec w) : BitVec.ofNat w (expF x) = 0#w ↔ expF x = 0 := by
  have h1 : expF x < 2 ^ w := Nat.lt_of_le_of_lt (expF_le h x) (by rcases h with h | h <;> subst h <;> decide)
  constructor
  · intro he
    have := congrArg BitVec.toNat he
    rw [BitVec.toNat_ofNat, Nat.mod_eq_of_lt h1] at this; simpa using this
  · intro he; rw [he]

theorem scalbnV_lane (o : MathOpt) (s : ISA) {T : Ety} (h : T.Ok) (hf : T.flt = true) {v : VSz} {i : Nat} (hi : i < extent T v) (x n : Vec v) :
    lane T.w (scalbnV o s T v x n) i = scalbnLane o (lowCmp s T v) (lane T.w x i) (lane T.w n i) := by
  have hw := fltW h hf
  have hfill : ∀ x : BitVec T.w, lane T.w (fillV v x) i = x := fun x => fillV_lane h x hi
  have hz : lane T.w (setzero v) i = 0#T.w := setzero_lane v i
  generalize hlow : lowCmp s T v = low
  have hgt : ∀ a b : Vec v, lane T.w (cmpGtLow s T v a b) i = laneMask T.w (gtLow low (lane T.w a i) (lane T.w b i)) := by
    intro a b; rw [← hlow]; exact cmpGtLow_lane s h a b hi
  unfold scalbnV
  extract_lets I xExp fwd0 normX ne0 ne1 subnorm ne2 nI fwd ne3 oflow uflow nres ne4 ne5 y0 y1 nres2 y2 xSign y3
  generalize hX : lane T.w x i = X
  generalize hN : lane T.w n i = N
  have h1 : lane T.w xExp i = BitVec.ofNat T.w (expF X) := by
    refine (bitAnd_lane _ _ _ _).trans ?_
    rw [show lane T.w (shrC s I (mantBits T.w) v x) i = lane T.w x i >>> mantBits T.w from shrT_lane h hi s _ _, hfill, hX, shr_mant_ofNat hw]
  have h2 : lane T.w fwd0 i = laneMask T.w (decide (mag X = 0)) := by
    refine (cmpEq_lane s h v _ _ hi).trans ?_
    unfold laneEq; rw [if_pos hf, hX, hz, fEq_zero hw]
  have h3 : lane T.w normX i = fmul X (expMult T.w) := by
    refine (fmulL_lane h hi _ _).trans ?_
    rw [hfill, hX]
  have h4 : lane T.w ne0 i = BitVec.ofNat T.w (expF (fmul X (expMult T.w))) := by
    refine (bitAnd_lane _ _ _ _).trans ?_
    rw [show lane T.w (shrC s I (mantBits T.w) v normX) i = lane T.w normX i >>> mantBits T.w from shrT_lane h hi s _ _, hfill, h3, shr_mant_ofNat hw]
  have h5 : lane T.w ne1 i = BitVec.ofNat T.w (expF (fmul X (expMult T.w))) - BitVec.ofNat T.w (mb T.w + 2) := by
    refine (subT_lane h hi s _ _).trans ?_
    rw [hfill, h4, mantBits_eq hw]
  have h6 : lane T.w subnorm i = laneMask T.w (decide (expF X = 0)) := by
    refine (cmpEqI_lane s h v _ _ hi).trans ?_
    rw [h1, hz]; simp only [ofNat_expF_zero hw]
  have h7 : lane T.w ne2 i = normK X := by
    refine (bitOr_lane _ _ _ _).trans ?_
    rw [h1, bitAnd_lane, h6, h5, mask_and]
    unfold normK
    by_cases he : expF X = 0
    · simp [he]
    · simp [he]
  have h8 : lane T.w nI i = normI X := by
    refine (blendT_lane h hi s _ _ _ _ h6).trans ?_
    rw [h3, hX]; rfl
  have h9 : lane T.w fwd i = laneMask T.w (fwdB o.propNan X) := by
    unfold fwdB
    by_cases hp : o.propNan = true
    · have e : fwd = bitOr fwd0 (cmpEqI s T.bytes v ne2 (fillV v (BitVec.ofNat T.w (expMask T.w)))) := if_pos hp
      rw [e, bitOr_lane, h2, cmpEqI_lane s h v _ _ hi, h7, hfill, laneMask_or, hp, expMask_eq hw]; simp
    · have e : fwd = fwd0 := if_neg hp
      rw [e, h2]; simp [hp]
  have h10 : lane T.w ne3 i = normK X + N := by
    refine (addT_lane h hi s _ _).trans ?_
    rw [h7, hN]
  have h11 : lane T.w oflow i = laneMask T.w (oflowB low o.propNan X N) := by
    refine (andnot_lane h hi _ _).trans ?_
    rw [h9, laneMask_not, bitOr_lane, hgt, hgt, hfill, hfill, h10, hN, laneMask_or, laneMask_and, expMask_eq hw]; rfl
  have h12 : lane T.w uflow i = laneMask T.w (uflowB low o.propNan X N) := by
    refine (andnot_lane h hi _ _).trans ?_
    rw [h9, laneMask_not, bitOr_lane, hgt, hgt, hfill, hfill, h10, hN, laneMask_or, laneMask_and, mantBits_eq hw]; rfl
  have h13 : lane T.w nres i = laneMask T.w (posB low X N) := by
    refine (hgt _ _).trans ?_
    rw [h10, hz]; rfl
  have h14 : lane T.w ne4 i = normK X + N + (if posB low X N then 0#T.w else BitVec.ofNat T.w (mb T.w + 2)) := by
    refine (addT_lane h hi s _ _).trans ?_
    rw [h10, andnot_lane h hi, h13, hfill, andnot_mask, mantBits_eq hw]
  have h16 : lane T.w y0 i = rebuilt low X N := by
    refine (bitOr_lane _ _ _ _).trans ?_
    rw [bitAnd_lane, h8, hfill, show lane T.w ne5 i = lane T.w ne4 i <<< mantBits T.w from shlT_lane h hi s _ _, h14, mantBits_eq hw]; rfl
  have h17 : lane T.w y1 i = if fwdB o.propNan X then X else rebuilt low X N := by
    refine (blendv_lane s h v _ _ _ hi _ h9).trans ?_
    rw [h16, hX]
  have h18 : lane T.w nres2 i = laneMask T.w (!fwdB o.propNan X && posB low X N) := by
    refine (andnot_lane h hi _ _).trans ?_
    rw [h9, h13, laneMask_not, laneMask_and]
  have h19 : lane T.w y2 i = scalbnCore low o.propNan X N := by
    refine (blendv_lane s h v _ _ _ hi _ h18).trans ?_
    rw [fmulL_lane h hi, andnot_lane h hi, h18, h17, hfill, andnot_mask]
    unfold scalbnCore
    cases hb : (!fwdB o.propNan X && posB low X N)
    · simp
    · simp only [if_true]
      have : fwdB o.propNan X = false := by
        cases hq : fwdB o.propNan X
        · rfl
        · rw [hq] at hb; simp at hb
      rw [this]; simp
  have h20 : lane T.w xSign i = X &&& BitVec.intMin T.w := by
    refine (masksign_lane h hi _).trans ?_
    rw [hX]
  unfold scalbnLane
  by_cases hh : o.handleErr = true
  · rw [if_pos hh, hh]
    simp only [Bool.true_and]
    have h21 : lane T.w y3 i = if oflowB low o.propNan X N then fmul (hugeBits T.w) (hugeBits T.w ||| (X &&& BitVec.intMin T.w)) else scalbnCore low o.propNan X N := by
      refine (guard_lane s h hi _ _ _ _ h11).trans ?_
      rw [h19, fmulL_lane h hi, hfill, bitOr_lane, hfill, h20]
    refine (guard_lane s h hi _ _ _ _ h12).trans ?_
    rw [h21, fmulL_lane h hi, hfill, bitOr_lane, hfill, h20]
  · rw [if_neg hh, h19]
    simp [hh]
end Dpm.X86
