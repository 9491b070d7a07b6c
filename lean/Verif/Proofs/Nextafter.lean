import Verif.Proofs.FloatBits
/-! nextafter on one lane. -/
namespace Dpm.X86
open Dpm.Reg Dpm.Fp

/-- `impl_nextafter` on one lane -/
def naLane (propNan : Bool) {w : Nat} (a b : BitVec w) : BitVec w :=
  let sub := (a.msb ^^ b.msb) || decide (mag b < mag a)
  let ia := if decide (mag a = 0) then (b &&& BitVec.intMin w) ||| 1#w else a + (if sub then BitVec.allOnes w else 1#w)
  let c := if propNan && (fNaN a || fNaN b) then a ||| b else ia
  if fEq a b then b else c

theorem toInt_abs {w : Nat} (hw : 0 < w) (x : BitVec w) : (x &&& BitVec.intMax w).toInt = mag x := by
  rw [BitVec.toInt_eq_toNat_of_msb (abs_sm hw x).1, and_intMax_toNat hw]
theorem one_or_mask {w : Nat} (hw : 0 < w) (p : Bool) : 1#w ||| laneMask w p = if p then BitVec.allOnes w else 1#w := by
  cases p
  · simp [laneMask]
  · simp only [laneMask, if_true]; rw [BitVec.or_comm]; exact BitVec.allOnes_or
theorem sign_xor_neg {w : Nat} (hw : 0 < w) (a b : BitVec w) :
    decide (((a &&& BitVec.intMin w) ^^^ (b &&& BitVec.intMin w)).toInt < (0#w).toInt) = (a.msb ^^ b.msb) := by
  have h0 : (0#w).toInt = 0 := BitVec.toInt_zero
  have h1 : ∀ x : BitVec w, decide (x.toInt < 0) = x.msb := fun x => (BitVec.msb_eq_toInt (x := x)).symm
  rw [h0, h1, BitVec.msb_xor, BitVec.msb_and, BitVec.msb_and, (intMin_sm hw).1]; simp

theorem nextafterV_lane (o : MathOpt) (s : ISA) {T : Ety} (h : T.Ok) (hf : T.flt = true) {v : VSz} {i : Nat} (hi : i < extent T v) (a b : Vec v) :
    lane T.w (nextafterV o s T v a b) i = naLane o.propNan (lane T.w a i) (lane T.w b i) := by
  have hI : T.toI.Ok := ⟨h.1, fun h => by cases h⟩
  have hw := w_pos h
  have hfill : ∀ x : BitVec T.w, lane T.w (fillV v x) i = x := fun x => fillV_lane h x hi
  have hz : lane T.w (setzero v) i = 0#T.w := setzero_lane v i
  have hsa : ∀ x : Vec v, lane T.w (bitAnd x (fillV v (signBit T.w))) i = lane T.w x i &&& BitVec.intMin T.w := fun x => masksign_lane h hi x
  have habs : ∀ x : Vec v, lane T.w (bitXor x (bitAnd x (fillV v (signBit T.w)))) i = lane T.w x i &&& BitVec.intMax T.w := fun x => by
    rw [show bitXor x (bitAnd x (fillV v (signBit T.w))) = x ^^^ (bitAnd x (fillV v (signBit T.w))) from rfl, lane_xor, hsa, xor_sign hw]
  have hzero : lane T.w (cmpEqI s T.bytes v (bitXor a (bitAnd a (fillV v (signBit T.w)))) (setzero v)) i = laneMask T.w (decide (mag (lane T.w a i) = 0)) := by
    rw [cmpEqI_lane s h v _ _ hi, habs, hz]
    congr 1
    rw [decide_eq_decide]
    constructor
    · intro he
      have := congrArg BitVec.toNat he
      rwa [and_intMax_toNat hw] at this
    · intro he
      apply BitVec.eq_of_toNat_eq
      rw [and_intMax_toNat hw, he]; rfl
  have hsub : lane T.w (bitOr (cmpGtI s T.bytes v (setzero v) (bitXor (bitAnd a (fillV v (signBit T.w))) (bitAnd b (fillV v (signBit T.w)))))
      (cmpGtI s T.bytes v (bitXor a (bitAnd a (fillV v (signBit T.w)))) (bitXor b (bitAnd b (fillV v (signBit T.w)))))) i
      = laneMask T.w (((lane T.w a i).msb ^^ (lane T.w b i).msb) || decide (mag (lane T.w b i) < mag (lane T.w a i))) := by
    rw [bitOr, lane_or, cmpGtI_lane s h v _ _ hi, cmpGtI_lane s h v _ _ hi, habs, habs, hz, bitXor, lane_xor, hsa, hsa, laneMask_or,
      sign_xor_neg hw, toInt_abs hw, toInt_abs hw]
    simp only [Int.ofNat_lt]
  unfold nextafterV naLane
  dsimp only
  rw [blendv_lane s h v _ _ _ hi _ (cmpEq_lane s h v a b hi)]
  unfold laneEq; rw [if_pos hf]
  congr 1
  have hia : lane T.w (blendv s T.toI v (addI s T.toI v a (bitOr (fillV v (1#T.w))
        (bitOr (cmpGtI s T.bytes v (setzero v) (bitXor (bitAnd a (fillV v (signBit T.w))) (bitAnd b (fillV v (signBit T.w)))))
      (cmpGtI s T.bytes v (bitXor a (bitAnd a (fillV v (signBit T.w)))) (bitXor b (bitAnd b (fillV v (signBit T.w))))))))
        (bitOr (bitAnd b (fillV v (signBit T.w))) (fillV v (1#T.w))) (cmpEqI s T.bytes v (bitXor a (bitAnd a (fillV v (signBit T.w)))) (setzero v))) i
      = if decide (mag (lane T.w a i) = 0) then (lane T.w b i &&& BitVec.intMin T.w) ||| 1#T.w
        else lane T.w a i + (if ((lane T.w a i).msb ^^ (lane T.w b i).msb) || decide (mag (lane T.w b i) < mag (lane T.w a i)) then BitVec.allOnes T.w else 1#T.w) := by
    have h1 := blendv_lane s hI v (addI s T.toI v a (bitOr (fillV v (1#T.w))
        (bitOr (cmpGtI s T.bytes v (setzero v) (bitXor (bitAnd a (fillV v (signBit T.w))) (bitAnd b (fillV v (signBit T.w)))))
      (cmpGtI s T.bytes v (bitXor a (bitAnd a (fillV v (signBit T.w)))) (bitXor b (bitAnd b (fillV v (signBit T.w))))))))
        (bitOr (bitAnd b (fillV v (signBit T.w))) (fillV v (1#T.w))) _ (i := i) hi _ hzero
    refine h1.trans ?_
    congr 1
    · show lane T.w _ i = _
      rw [bitOr, lane_or, hsa, hfill]
    · have h2 := addI_lane s hI v a (bitOr (fillV v (1#T.w))
        (bitOr (cmpGtI s T.bytes v (setzero v) (bitXor (bitAnd a (fillV v (signBit T.w))) (bitAnd b (fillV v (signBit T.w)))))
      (cmpGtI s T.bytes v (bitXor a (bitAnd a (fillV v (signBit T.w)))) (bitXor b (bitAnd b (fillV v (signBit T.w))))))) hi
      refine h2.trans ?_
      congr 1
      show lane T.w _ i = _
      rw [bitOr, lane_or, hfill, hsub, one_or_mask hw]
  cases o.propNan
  · simp only [Bool.false_eq_true, if_false, Bool.false_and]
    exact hia
  · simp only [if_true, Bool.true_and]
    rw [blendv_lane s h v _ _ _ hi _ (isunordV_lane h hi a b), hia, bitOr, lane_or]

theorem two_pow_half {w : Nat} (hw : 0 < w) : 2 ^ w = 2 * 2 ^ (w - 1) := by rw [← Nat.pow_succ']; congr 1; omega
theorem add_one_sm {w : Nat} (hw : 1 < w) (a : BitVec w) (h : mag a + 1 < 2 ^ (w - 1)) : (a + 1#w).msb = a.msb ∧ mag (a + 1#w) = mag a + 1 := by
  have h0 : 0 < w := by omega
  refine msb_of_toNat h0 h ?_
  have h1 := toNat_sm h0 a
  have h2 := two_pow_half h0
  have h3 : 1 % 2 ^ w = 1 := Nat.mod_eq_of_lt (Nat.one_lt_two_pow (by omega))
  rw [BitVec.toNat_add, BitVec.toNat_ofNat, h3, h1]
  rw [Nat.mod_eq_of_lt (by split <;> omega)]; omega
theorem sub_one_sm {w : Nat} (hw : 1 < w) (a : BitVec w) (h : 0 < mag a) :
    (a + BitVec.allOnes w).msb = a.msb ∧ mag (a + BitVec.allOnes w) = mag a - 1 := by
  have h0 : 0 < w := by omega
  have hl := mag_lt a
  refine msb_of_toNat h0 (by omega) ?_
  have h1 := toNat_sm h0 a
  have h2 := two_pow_half h0
  rw [BitVec.toNat_add, BitVec.toNat_allOnes]
  have h3 : a.toNat + (2 ^ w - 1) = (a.toNat - 1) + 2 ^ w := by have := Nat.two_pow_pos w; omega
  rw [h3, Nat.add_mod_right, Nat.mod_eq_of_lt (by have := a.isLt; omega)]; omega
theorem sign_or_one {w : Nat} (hw : W w) (b : BitVec w) :
    ((b &&& BitVec.intMin w) ||| 1#w).msb = b.msb ∧ mag ((b &&& BitVec.intMin w) ||| 1#w) = 1 := by
  rw [and_intMin hw.pos]
  rcases hw with h | h <;> subst h <;> cases b.msb <;> decide
theorem not_nan_mag {w : Nat} (hw : W w) {x : BitVec w} : isNaN x = false ↔ mag x ≤ fInf w := by
  rw [← fNaN_eq hw]; unfold fNaN; rw [fMag_eq]; simp
theorem inf_lt_half {w : Nat} (hw : W w) : fInf w + 1 < 2 ^ (w - 1) := by rcases hw with h | h <;> subst h <;> decide
theorem inf_pos {w : Nat} (hw : W w) : 0 < fInf w := by rcases hw with h | h <;> subst h <;> decide

theorem naLane_spec {w : Nat} (hw : W w) (p : Bool) {a b : BitVec w} (ha : isNaN a = false) (hb : isNaN b = false) :
    IsNextafter a b (naLane p a b) := by
  have hw1 : 1 < w := by rcases hw with h | h <;> omega
  have ha' := (not_nan_mag hw).1 ha
  have hb' := (not_nan_mag hw).1 hb
  have hI := inf_lt_half hw
  have hI0 := inf_pos hw
  have hfe : fEq a b = decide (fKey a = fKey b) := by unfold fEq; rw [fNaN_eq hw, fNaN_eq hw, ha, hb]; simp
  unfold IsNextafter
  simp only [val_lt_key, val_le_key, val_eq_key, not_nan_mag hw]
  unfold naLane
  simp only [hfe, fNaN_eq hw, ha, hb, Bool.or_self, Bool.and_false, Bool.false_eq_true, if_false]
  by_cases hk : fKey a = fKey b
  · simp [hk]
  · simp only [decide_eq_false hk, Bool.false_eq_true, if_false]
    by_cases hz : mag a = 0
    · simp only [hz, decide_true, if_true]
      obtain ⟨hs, hm⟩ := sign_or_one hw b
      generalize (b &&& BitVec.intMin w) ||| 1#w = r at *
      unfold fKey at *
      simp only [fMag_eq] at *
      rw [hs, hm]
      refine ⟨fun h => absurd h hk, fun h => ⟨by omega, ?_, ?_, fun z hz1 hz2 => ?_⟩, fun h => ⟨by omega, ?_, ?_, fun z hz1 hz2 => ?_⟩⟩ <;>
        (revert h hk; try revert hz2) <;> (try cases z.msb) <;> cases a.msb <;> cases b.msb <;> simp <;> omega
    · simp only [hz, decide_false, Bool.false_eq_true, if_false]
      by_cases hsub : ((a.msb ^^ b.msb) || decide (mag b < mag a)) = true
      · simp only [hsub, if_true]
        obtain ⟨hs, hm⟩ := sub_one_sm hw1 a (by omega)
        generalize a + BitVec.allOnes w = r at *
        unfold fKey at *
        simp only [fMag_eq] at *
        rw [hs, hm]
        refine ⟨fun h => absurd h hk, fun h => ⟨by omega, ?_, ?_, fun z hz1 hz2 => ?_⟩, fun h => ⟨by omega, ?_, ?_, fun z hz1 hz2 => ?_⟩⟩ <;>
          (revert h hk hsub; try revert hz2) <;> (try cases z.msb) <;> cases a.msb <;> cases b.msb <;> simp <;> omega
      · simp only [hsub, Bool.false_eq_true, if_false]
        have hab : a.msb = b.msb ∧ mag a < mag b := by
          simp only [Bool.or_eq_true, decide_eq_true_eq, not_or, Bool.not_eq_true] at hsub
          have h1 : a.msb = b.msb := by have := hsub.1; revert this; cases a.msb <;> cases b.msb <;> simp
          refine ⟨h1, ?_⟩
          unfold fKey at hk
          simp only [fMag_eq] at hk
          rw [h1] at hk
          have : mag a ≠ mag b := fun h => hk (by rw [h])
          omega
        obtain ⟨hs, hm⟩ := add_one_sm hw1 a (by omega)
        generalize a + 1#w = r at *
        unfold fKey at *
        simp only [fMag_eq] at *
        rw [hs, hm, hab.1]
        have hlt := hab.2
        refine ⟨fun h => absurd h (by rw [hab.1] at hk; exact hk), fun h => ⟨by omega, ?_, ?_, fun z hz1 hz2 => ?_⟩, fun h => ⟨by omega, ?_, ?_, fun z hz1 hz2 => ?_⟩⟩ <;>
          (revert h; try revert hz2) <;> (try cases z.msb) <;> cases b.msb <;> simp <;> omega
theorem naLane_nan {w : Nat} (hw : W w) {a b : BitVec w} (h : isNaN a = true ∨ isNaN b = true) : isNaN (naLane true a b) = true := by
  have key : isNaN a = true ∨ isNaN b = true → isNaN (a ||| b) = true := by
    intro h
    have hm : mag (a ||| b) = mag a ||| mag b := by
      unfold mag; rw [BitVec.toNat_or, Nat.or_mod_two_pow]
    rw [← fNaN_eq hw, ← fNaN_eq hw] at h
    rw [← fNaN_eq hw]
    have hn : ∀ x : BitVec w, fNaN x = true ↔ fInf w < mag x := by
      intro x; unfold fNaN; rw [fMag_eq]; simp
    rw [hn, hn] at h
    rw [hn, hm]
    have := Nat.left_le_or (n := mag a) (m := mag b)
    have := Nat.right_le_or (n := mag a) (m := mag b)
    omega
  have hne : fEq a b = false := by
    unfold fEq; rw [fNaN_eq hw, fNaN_eq hw]
    rcases h with h | h <;> rw [h] <;> simp
  have hu : (fNaN a || fNaN b) = true := by
    rw [fNaN_eq hw, fNaN_eq hw]; rcases h with h | h <;> rw [h] <;> simp
  unfold naLane
  simp only [hne, hu, Bool.true_and, if_true, Bool.false_eq_true, if_false]
  exact key h
end Dpm.X86
