import Verif.Spec.Float
import Verif.Model.FloatBits
import Verif.Proofs.Vector
/-! Lane lemmas for the bit-level floating-point kernels and their relation to the IEEE specification. -/
namespace Dpm.X86
open Dpm.Reg Dpm.Fp

/-- a float configuration -/
theorem fltW {T : Ety} (h : T.Ok) (hf : T.flt = true) : W T.w := by
  unfold Ety.w
  rcases (h.2 hf).1 with h | h <;> rw [h]
  · exact Or.inl rfl
  · exact Or.inr rfl

/-! ### patterns -/
theorem fMag_eq {w : Nat} (x : BitVec w) : fMag x = mag x := rfl
theorem fInf_eq {w : Nat} (h : W w) : fInf w = emax w * 2 ^ mb w := by rcases h with h | h <;> subst h <;> decide
theorem fNaN_eq {w : Nat} (h : W w) (x : BitVec w) : fNaN x = isNaN x := by
  have h1 := expF_le h x
  have h2 := manF_lt x
  have h3 := mag_fields x
  unfold fNaN isNaN
  rw [fMag_eq, fInf_eq h, h3]
  generalize expF x = e at *
  generalize manF x = m at *
  generalize 2 ^ mb w = P at *
  generalize emax w = E at *
  rw [← Bool.decide_and, decide_eq_decide]
  constructor
  · intro hgt
    have : e = E := by
      rcases Nat.lt_or_ge e E with hlt | hge
      · exfalso
        have : (e + 1) * P ≤ E * P := Nat.mul_le_mul_right _ hlt
        rw [Nat.succ_mul] at this; omega
      · omega
    subst this
    exact ⟨rfl, by omega⟩
  · rintro ⟨rfl, h⟩; omega
theorem magVal_sgn {w : Nat} (x y : BitVec w) : (val x < val y ↔ fKey x < fKey y) := by
  unfold val fKey neg
  rw [fMag_eq, fMag_eq]
  have h1 := magVal_lt (b := mb w) (m := mag x) (n := mag y)
  have h2 := magVal_lt (b := mb w) (m := mag y) (n := mag x)
  have h3 := magVal_pos (b := mb w) (m := mag x)
  have h4 := magVal_pos (b := mb w) (m := mag y)
  generalize magVal (mb w) (mag x) = p at *
  generalize magVal (mb w) (mag y) = q at *
  split <;> split <;> omega
theorem val_lt_key {w : Nat} (x y : BitVec w) : (val x < val y) = (fKey x < fKey y) := propext (magVal_sgn x y)
theorem val_le_key {w : Nat} (x y : BitVec w) : (val x ≤ val y) = (fKey x ≤ fKey y) := by
  have := magVal_sgn y x
  apply propext; omega
theorem val_eq_key {w : Nat} (x y : BitVec w) : (val x = val y) = (fKey x = fKey y) := by
  have h1 := magVal_sgn y x
  have h2 := magVal_sgn x y
  apply propext; omega
theorem fLt_eq {w : Nat} (h : W w) (x y : BitVec w) : fLt x y = Fp.lt x y := by
  unfold fLt Fp.lt; rw [fNaN_eq h, fNaN_eq h]; simp only [val_lt_key]
theorem fLe_eq {w : Nat} (h : W w) (x y : BitVec w) : fLe x y = Fp.le x y := by
  unfold fLe Fp.le; rw [fNaN_eq h, fNaN_eq h]; simp only [val_le_key]
theorem fEq_eq {w : Nat} (h : W w) (x y : BitVec w) : fEq x y = Fp.eq x y := by
  unfold fEq Fp.eq; rw [fNaN_eq h, fNaN_eq h]; simp only [val_eq_key]

theorem _root_.Dpm.Fp.W.pos {w : Nat} (h : W w) : 0 < w := by rcases h with h | h <;> omega
theorem toNat_sm {w : Nat} (hw : 0 < w) (x : BitVec w) : x.toNat = (if x.msb then 2 ^ (w - 1) else 0) + mag x := by
  unfold mag
  have h2 := x.isLt
  have h3 : 2 ^ w = 2 * 2 ^ (w - 1) := by rw [← Nat.pow_succ']; congr 1; omega
  have h4 := BitVec.msb_eq_decide x
  by_cases h : 2 ^ (w - 1) ≤ x.toNat
  · rw [h4, decide_eq_true h, if_pos rfl, Nat.mod_eq_sub_mod h, Nat.mod_eq_of_lt (by omega)]; omega
  · rw [h4, decide_eq_false h, Nat.mod_eq_of_lt (by omega)]; simp
/-- sign and magnitude of a pattern given by its number -/
theorem msb_of_toNat {w : Nat} (hw : 0 < w) {x : BitVec w} {s : Bool} {m : Nat} (hm : m < 2 ^ (w - 1))
    (hx : x.toNat = (if s then 2 ^ (w - 1) else 0) + m) : x.msb = s ∧ mag x = m := by
  have h4 := BitVec.msb_eq_decide x
  unfold mag
  cases s
  · simp only [Bool.false_eq_true, if_false, Nat.zero_add] at hx
    refine ⟨?_, ?_⟩
    · rw [h4, hx]; simp; omega
    · rw [hx, Nat.mod_eq_of_lt hm]
  · simp only [if_true] at hx
    refine ⟨?_, ?_⟩
    · rw [h4, hx]; simp
    · rw [hx, Nat.add_mod_left, Nat.mod_eq_of_lt hm]
theorem and_intMax_toNat {w : Nat} (hw : 0 < w) (x : BitVec w) : (x &&& BitVec.intMax w).toNat = mag x := by
  rw [BitVec.toNat_and, BitVec.toNat_intMax, Nat.and_two_pow_sub_one_eq_mod]; rfl
theorem abs_sm {w : Nat} (hw : 0 < w) (x : BitVec w) : (x &&& BitVec.intMax w).msb = false ∧ mag (x &&& BitVec.intMax w) = mag x :=
  msb_of_toNat hw (mag_lt x) (by simp [and_intMax_toNat hw])
theorem and_intMin {w : Nat} (hw : 0 < w) (x : BitVec w) : x &&& BitVec.intMin w = if x.msb then BitVec.intMin w else 0#w := by
  apply BitVec.eq_of_getLsbD_eq
  intro i hi
  rw [BitVec.getLsbD_and, BitVec.getLsbD_intMin]
  have hm : x.msb = x.getLsbD (w - 1) := BitVec.msb_eq_getLsbD_last x
  by_cases h : i + 1 = w
  · have : i = w - 1 := by omega
    subst this
    rw [← hm]
    cases x.msb <;> simp [BitVec.getLsbD_intMin]
  · rw [decide_eq_false h]
    cases x.msb <;> simp [BitVec.getLsbD_intMin, h]
theorem xor_sign {w : Nat} (hw : 0 < w) (x : BitVec w) : x ^^^ (x &&& BitVec.intMin w) = x &&& BitVec.intMax w := by
  apply BitVec.eq_of_getLsbD_eq
  intro i hi
  simp only [BitVec.getLsbD_xor, BitVec.getLsbD_and, BitVec.getLsbD_intMin, BitVec.getLsbD_intMax]
  by_cases h : i + 1 = w
  · have h' : ¬ i + 1 < w := by omega
    simp [h]
  · have h' : i + 1 < w := by omega
    simp [h, h']
theorem intMin_sm {w : Nat} (hw : 0 < w) : (BitVec.intMin w).msb = true ∧ mag (BitVec.intMin w) = 0 :=
  msb_of_toNat hw (Nat.two_pow_pos _) (by rw [BitVec.toNat_intMin, Nat.mod_eq_of_lt (Nat.pow_lt_pow_right (by omega) (by omega))]; simp)

/-! ### native kernels -/
section lanes
variable {T : Ety} (h : T.Ok) (hf : T.flt = true) {v : VSz} {i : Nat} (hi : i < extent T v)
include h hi
theorem cmpF_lane (p : {w : Nat} → BitVec w → BitVec w → Bool) (a b : Vec v) :
    lane T.w (cmpF p T v a b) i = laneMask T.w (p (lane T.w a i) (lane T.w b i)) := lane_map2 _ _ _ (lane_bound h hi)
theorem fabsV_lane (x : Vec v) : lane T.w (fabsV T v x) i = lane T.w x i &&& BitVec.intMax T.w := by
  unfold fabsV bitAnd; rw [lane_and, fillV_lane h _ hi]
theorem masksign_lane (x : Vec v) : lane T.w (masksign T v x) i = lane T.w x i &&& BitVec.intMin T.w := by
  unfold masksign bitAnd signBit; rw [lane_and, fillV_lane h _ hi]
theorem isunordV_lane (a b : Vec v) : lane T.w (isunordV T v a b) i = laneMask T.w (fNaN (lane T.w a i) || fNaN (lane T.w b i)) :=
  cmpF_lane h hi _ a b
theorem isinfAbs_lane (x : Vec v) : lane T.w (isinfAbs T v x) i = laneMask T.w (fEq (lane T.w x i) (infBits T.w)) := by
  unfold isinfAbs; rw [cmpF_lane h hi, fillV_lane h _ hi]
theorem isfiniteAbs_lane (s : ISA) (x : Vec v) : lane T.w (isfiniteAbs s T v x) i =
    laneMask T.w (if s.avx then !fNaN (lane T.w x i) && !fNaN (infBits T.w) && !fEq (lane T.w x i) (infBits T.w) else fLt (lane T.w x i) (infBits T.w)) := by
  unfold isfiniteAbs
  split
  · rw [cmpF_lane h hi, fillV_lane h _ hi]
  · rw [cmpF_lane h hi, fillV_lane h _ hi]
theorem isnormalAbs_lane (x : Vec v) : lane T.w (isnormalAbs T v x) i =
    laneMask T.w (!fLe (infBits T.w) (lane T.w x i) && !fLt (lane T.w x i) (normMinBits T.w)) := by
  unfold isnormalAbs bitAnd
  rw [lane_and, cmpF_lane h hi, cmpF_lane h hi, fillV_lane h _ hi, fillV_lane h _ hi, laneMask_and]
end lanes

/-! ### classification of one lane -/
theorem infBits_sm {w : Nat} (h : W w) : (infBits w).msb = false ∧ mag (infBits w) = emax w * 2 ^ mb w := by
  rcases h with h | h <;> subst h <;> decide
theorem normMin_sm {w : Nat} (h : W w) : (normMinBits w).msb = false ∧ mag (normMinBits w) = 2 ^ mb w := by
  rcases h with h | h <;> subst h <;> decide
theorem key_of_pos {w : Nat} {x : BitVec w} {m : Nat} (h : x.msb = false ∧ mag x = m) : fKey x = m := by
  unfold fKey; rw [h.1, fMag_eq, h.2]; rfl
theorem nan_of_mag {w : Nat} {x y : BitVec w} (h : mag x = mag y) : fNaN x = fNaN y := by
  unfold fNaN; rw [fMag_eq, fMag_eq, h]
/-- comparisons between exponent field and magnitude -/
theorem mag_ge_iff {w : Nat} (x : BitVec w) (k : Nat) : k * 2 ^ mb w ≤ mag x ↔ k ≤ expF x := by
  unfold expF; rw [Nat.le_div_iff_mul_le (Nat.two_pow_pos _)]
theorem inf_not_nan {w : Nat} (h : W w) : fNaN (infBits w) = false := by
  unfold fNaN; rw [fMag_eq, (infBits_sm h).2, fInf_eq h]; simp
theorem normMin_not_nan {w : Nat} (h : W w) : fNaN (normMinBits w) = false := by
  unfold fNaN; rw [fMag_eq, (normMin_sm h).2, fInf_eq h]
  rcases h with h | h <;> subst h <;> decide
theorem isinf_lane {w : Nat} (h : W w) (x : BitVec w) : fEq (x &&& BitVec.intMax w) (infBits w) = isInf x := by
  have ha := abs_sm h.pos x
  unfold fEq
  rw [nan_of_mag ha.2, inf_not_nan h, key_of_pos ha, key_of_pos (infBits_sm h), fNaN_eq h]
  have hm := mag_fields x
  have h2 := manF_lt x
  unfold isNaN isInf
  rw [hm]
  generalize expF x = e at *
  generalize manF x = m at *
  generalize 2 ^ mb w = P at *
  generalize emax w = E at *
  have : ((e * P + m : Nat) : Int) = ((E * P : Nat) : Int) ↔ e = E ∧ m = 0 := by
    constructor
    · intro he
      have he : e * P + m = E * P := by exact_mod_cast he
      have h1 : e = E := by
        have := congrArg (· / P) he
        rwa [Nat.mul_comm, Nat.mul_add_div (by omega), Nat.div_eq_of_lt h2, Nat.add_zero, Nat.mul_div_cancel _ (by omega)] at this
      subst h1; exact ⟨rfl, by omega⟩
    · rintro ⟨rfl, rfl⟩; simp
  simp only [this]
  by_cases h1 : e = E <;> by_cases h2 : m = 0 <;> simp [h1, h2]
theorem abs_lt_inf {w : Nat} (h : W w) (x : BitVec w) : fLt (x &&& BitVec.intMax w) (infBits w) = isFinite x := by
  have ha := abs_sm h.pos x
  unfold fLt
  rw [nan_of_mag ha.2, inf_not_nan h, key_of_pos ha, key_of_pos (infBits_sm h), fNaN_eq h]
  have h1 := mag_ge_iff x (emax w)
  have h2 := expF_le h x
  unfold isNaN isFinite
  have : ((mag x : Int) < ((emax w * 2 ^ mb w : Nat) : Int)) ↔ expF x ≠ emax w := by
    rw [Int.ofNat_lt]; omega
  simp only [this]
  by_cases h3 : expF x = emax w <;> simp [h3]
theorem finite_eq {w : Nat} (x : BitVec w) : isFinite x = (!isNaN x && !isInf x) := by
  unfold isFinite isNaN isInf
  by_cases h3 : expF x = emax w <;> by_cases h4 : manF x = 0 <;> simp [h3, h4]
theorem isfinite_lane {w : Nat} (h : W w) (avx : Bool) (x : BitVec w) :
    (if avx then !fNaN (x &&& BitVec.intMax w) && !fNaN (infBits w) && !fEq (x &&& BitVec.intMax w) (infBits w) else fLt (x &&& BitVec.intMax w) (infBits w)) = isFinite x := by
  cases avx
  · exact abs_lt_inf h x
  · simp only [if_true]
    rw [isinf_lane h, inf_not_nan h, nan_of_mag (abs_sm h.pos x).2, fNaN_eq h, finite_eq]; simp
theorem isnormal_lane {w : Nat} (h : W w) (x : BitVec w) :
    (!fLe (infBits w) (x &&& BitVec.intMax w) && !fLt (x &&& BitVec.intMax w) (normMinBits w)) = (isNormal x || isNaN x) := by
  have ha := abs_sm h.pos x
  unfold fLe fLt
  rw [nan_of_mag ha.2, inf_not_nan h, normMin_not_nan h, key_of_pos ha, key_of_pos (infBits_sm h), key_of_pos (normMin_sm h), fNaN_eq h]
  have h1 := mag_ge_iff x (emax w)
  have h3 := mag_ge_iff x 1
  have h2 := expF_le h x
  rw [Nat.one_mul] at h3
  have e1 : (((emax w * 2 ^ mb w : Nat) : Int) ≤ (mag x : Int)) ↔ expF x = emax w := by rw [Int.ofNat_le]; omega
  have e2 : ((mag x : Int) < ((2 ^ mb w : Nat) : Int)) ↔ expF x = 0 := by rw [Int.ofNat_lt]; omega
  simp only [e1, e2]
  have h0 : emax w ≠ 0 := by unfold emax; split <;> decide
  unfold isNaN isNormal
  by_cases h3 : expF x = emax w
  · by_cases h4 : manF x = 0 <;> simp [h3, h4, h0]
  · by_cases h4 : expF x = 0 <;> simp [h3, h4, h0.symm]
end Dpm.X86
