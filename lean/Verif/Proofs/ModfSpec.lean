import Verif.Proofs.Modf
namespace Dpm.X86
open Dpm.Reg Dpm.Fp

theorem and_low {w j : Nat} (x : BitVec w) : (x &&& BitVec.ofNat w (2 ^ j - 1)).toNat = x.toNat % 2 ^ j := by
  rw [BitVec.toNat_and, BitVec.toNat_ofNat]
  apply Nat.eq_of_testBit_eq
  intro k
  rw [Nat.testBit_and, Nat.testBit_mod_two_pow, Nat.testBit_mod_two_pow, Nat.testBit_two_pow_sub_one]
  by_cases hk : k < w
  · simp [hk, Bool.and_comm]
  · have : x.toNat.testBit k = false := Nat.testBit_lt_two_pow (Nat.lt_of_lt_of_le x.isLt (Nat.pow_le_pow_right (by omega) (by omega)))
    simp [this]
theorem andnot_low {w j : Nat} (x : BitVec w) : (~~~ BitVec.ofNat w (2 ^ j - 1) &&& x).toNat = x.toNat - x.toNat % 2 ^ j := by
  have h1 : (~~~ BitVec.ofNat w (2 ^ j - 1) &&& x).toNat = x.toNat / 2 ^ j * 2 ^ j := by
    apply Nat.eq_of_testBit_eq
    intro k
    rw [BitVec.toNat_and, Nat.testBit_and, Nat.testBit_mul_two_pow, Nat.testBit_div_two_pow]
    by_cases hk : k < w
    · have : (~~~ BitVec.ofNat w (2 ^ j - 1)).toNat.testBit k = !decide (k < j) := by
        show (~~~ BitVec.ofNat w (2 ^ j - 1)).getLsbD k = _
        rw [BitVec.getLsbD_not, BitVec.getLsbD_ofNat, Nat.testBit_two_pow_sub_one]
        simp [hk]
      rw [this]
      by_cases hj : k < j
      · simp [hj]; omega
      · simp [hj, show j ≤ k by omega, Nat.sub_add_cancel (show j ≤ k by omega)]
    · have : x.toNat.testBit k = false := Nat.testBit_lt_two_pow (Nat.lt_of_lt_of_le x.isLt (Nat.pow_le_pow_right (by omega) (by omega)))
      rw [this, Bool.and_false]
      by_cases hj : j ≤ k
      · rw [Nat.sub_add_cancel hj, this]; simp
      · simp [hj]
  have h2 := Nat.div_add_mod x.toNat (2 ^ j)
  rw [h1, Nat.mul_comm]; omega

theorem signZero {w : Nat} (h : W w) (x : BitVec w) : isFinite (x &&& BitVec.intMin w) = true ∧ val (x &&& BitVec.intMin w) = 0 ∧ (x &&& BitVec.intMin w).msb = x.msb := by
  have h0 : 0 < w := by rcases h with h | h <;> omega
  have e : x &&& BitVec.intMin w = pack w x.msb 0 := by
    rw [and_intMin h0]
    unfold pack
    split
    · rename_i hm; simp [hm]
      apply BitVec.eq_of_toNat_eq
      simp [BitVec.toNat_intMin]
    · rename_i hm; simp [hm]
  rw [e]
  exact ⟨(val_zeroPack h _).1, (val_zeroPack h _).2, msb_pack h (Nat.two_pow_pos _)⟩

theorem modfMask_zero {w : Nat} {x : BitVec w} (h : expF x < bias w ∨ bias w + mb w ≤ expF x) : modfMask x = 0#w := by
  unfold modfMask
  split
  · rfl
  · rw [show mb w - (expF x - bias w) = 0 by omega]

/-- the significand without its fraction bits -/
theorem modf_int {w : Nat} (h : W w) {x : BitVec w} (h1 : bias w ≤ expF x) (h2 : expF x < bias w + mb w) :
    mag (x &&& modfMask x) = manF x % 2 ^ (mb w - (expF x - bias w)) ∧
    ~~~ modfMask x &&& x = ofFields w x.msb (expF x) (manF x - manF x % 2 ^ (mb w - (expF x - bias w))) := by
  have hm := mb_lt h
  unfold modfMask
  rw [if_neg (by omega)]
  generalize hj : mb w - (expF x - bias w) = j
  have hjm : j ≤ mb w := by omega
  have hd : ∀ k, j ≤ k → 2 ^ k = 2 ^ (k - j) * 2 ^ j := fun k hk => by rw [← Nat.pow_add]; congr 1; omega
  have hmag := mag_fields x
  have hman := manF_lt x
  have hr : x.toNat % 2 ^ j = manF x % 2 ^ j := by
    rw [toNat_sm (by omega) x, hmag, hd (w - 1) (by omega), hd (mb w) hjm]
    split
    · rw [← Nat.mul_assoc, ← Nat.add_assoc, ← Nat.add_mul, Nat.mul_comm _ (2 ^ j), Nat.mul_add_mod]
    · rw [← Nat.mul_assoc, Nat.zero_add, Nat.mul_comm _ (2 ^ j), Nat.mul_add_mod]
  have hle : manF x % 2 ^ j ≤ manF x := Nat.mod_le _ _
  constructor
  · unfold mag
    rw [and_low, hr, Nat.mod_eq_of_lt]
    exact Nat.lt_of_lt_of_le (Nat.mod_lt _ (Nat.two_pow_pos _)) (Nat.pow_le_pow_right (by omega) (by omega))
  · have h3 := andnot_low (j := j) x
    rw [hr, toNat_sm (by omega) x, hmag] at h3
    have hl := fields_lt h (expF_le h x) (show manF x - manF x % 2 ^ j < 2 ^ mb w by omega)
    have h4 := msb_of_toNat (s := x.msb) (by omega) hl (x := ~~~ BitVec.ofNat w (2 ^ j - 1) &&& x) (by rw [h3]; omega)
    have h5 := pack_eta h (~~~ BitVec.ofNat w (2 ^ j - 1) &&& x)
    rw [h4.1, h4.2] at h5
    exact h5.symm

theorem modfLane_spec {w : Nat} (h : W w) (o : MathOpt) {x : BitVec w} (hfin : isFinite x = true) (hx : mag x = 0 ∨ bias w ≤ expF x) :
    IsModf x (modfLane o x).1 (modfLane o x).2 := by
  have hn : isNaN x = false := (finite_cls hfin).1
  have hU := unitExp_eq h
  have hb : 0 < bias w := by rcases h with h | h <;> subst h <;> decide
  have hbm : mb w < bias w := by rcases h with h | h <;> subst h <;> decide
  have hUpos : 0 < 2 ^ unitExp w := Nat.two_pow_pos _
  obtain ⟨s1, s2, s3⟩ := signZero h x
  unfold modfLane
  dsimp only
  rw [hn, Bool.and_false]
  simp only [Bool.false_eq_true, if_false]
  rcases hx with hx | hx
  · have he : expF x = 0 := by unfold expF; rw [hx, Nat.zero_div]
    have hv : val x = 0 := (val_zero_iff x).2 hx
    rw [modfMask_zero (Or.inl (by omega))]
    simp only [he, show ¬ (bias w + mb w ≤ 0) by omega, show 0 < bias w from hb, decide_true, decide_false, Bool.not_true, Bool.and_false, Bool.false_and, if_true, if_false, Bool.false_eq_true]
    rw [show ~~~ (0#w) &&& x = x by simp]
    exact ⟨hfin, hfin, by rw [hv]; exact ⟨0, by simp⟩, by omega, by rw [hv]; simpa using hUpos, rfl, rfl⟩
  · have hfr : ¬ expF x < bias w := by omega
    have hv := val_eq_fields x
    have hev : fieldVal w (expF x) (manF x) = (2 ^ mb w + manF x) * 2 ^ (expF x - 1) := by unfold fieldVal; rw [if_neg (by omega)]
    by_cases hint : bias w + mb w ≤ expF x
    · rw [modfMask_zero (Or.inr hint)]
      simp only [hint, hfr, decide_true, decide_false, Bool.not_true, Bool.and_false, if_true, if_false, Bool.false_eq_true]
      rw [show ~~~ (0#w) &&& x = x by simp]
      refine ⟨s1, hfin, ?_, by omega, by rw [s2]; simpa using hUpos, s3, rfl⟩
      rw [hv, hev, show expF x - 1 = unitExp w + (expF x - 1 - unitExp w) by omega, Nat.pow_add]
      have hd : (2 ^ unitExp w : Int) ∣ (((2 ^ mb w + manF x) * (2 ^ unitExp w * 2 ^ (expF x - 1 - unitExp w)) : Nat) : Int) := by
        refine ⟨((2 ^ mb w + manF x) * 2 ^ (expF x - 1 - unitExp w) : Nat), ?_⟩
        rw [Nat.mul_left_comm, Int.natCast_mul]; rfl
      split
      · exact Int.dvd_neg.2 hd
      · exact hd
    · obtain ⟨m1, m2⟩ := modf_int h hx (by omega)
      simp only [hint, hfr, decide_false, Bool.not_false, Bool.and_true, if_false, Bool.false_eq_true]
      rw [m1, m2]
      clear m1 m2
      have hjE : mb w - (expF x - bias w) + (expF x - 1) = unitExp w := by omega
      have hjm : mb w - (expF x - bias w) ≤ mb w := by omega
      generalize mb w - (expF x - bias w) = j at *
      have hrl : manF x % 2 ^ j < 2 ^ j := Nat.mod_lt _ (Nat.two_pow_pos _)
      have hman := manF_lt x
      have hdm := Nat.div_add_mod (manF x) (2 ^ j)
      have hmj : 2 ^ mb w = 2 ^ j * 2 ^ (mb w - j) := by rw [← Nat.pow_add]; congr 1; omega
      have hfl := (finite_iff h x).1 hfin
      have hel := expF_le h x
      have hen : expF x < emax w := by
        have : expF x ≠ emax w := by
          intro hc; unfold isFinite at hfin; rw [hc] at hfin; simp at hfin
        omega
      -- the integral part without fraction bits
      have hint2 : ∀ s : Bool, isFinite (ofFields w s (expF x) (manF x - manF x % 2 ^ j)) = true ∧
          (2 ^ unitExp w : Int) ∣ val (ofFields w s (expF x) (manF x - manF x % 2 ^ j)) := by
        intro s
        have hf2 : manF x - manF x % 2 ^ j < 2 ^ mb w := by omega
        refine ⟨?_, ?_⟩
        · unfold isFinite
          rw [(fields_of h hel hf2).2.2.1]; simp; omega
        · rw [val_ofFields h hel hf2]
          have hd : (2 ^ unitExp w : Int) ∣ ((fieldVal w (expF x) (manF x - manF x % 2 ^ j) : Nat) : Int) := by
            unfold fieldVal
            rw [if_neg (by omega), hmj, show manF x - manF x % 2 ^ j = 2 ^ j * (manF x / 2 ^ j) by omega, ← Nat.mul_add, ← hjE, Nat.mul_right_comm, ← Nat.pow_add]
            exact ⟨(2 ^ (mb w - j) + manF x / 2 ^ j : Nat), by push_cast; rfl⟩
          split
          · exact Int.dvd_neg.2 hd
          · exact hd
      by_cases hr : manF x % 2 ^ j = 0
      · rw [hr]
        simp only [decide_true, if_true]
        refine ⟨s1, hfin, ?_, by omega, by rw [s2]; simpa using hUpos, s3, rfl⟩
        have := (hint2 x.msb).2
        rw [hr, Nat.sub_zero, fields_eta h] at this
        exact this
      · simp only [hr, decide_false, if_false, Bool.false_eq_true]
        have hf2 : manF x - manF x % 2 ^ j < 2 ^ mb w := by omega
        have hi := hint2 x.msb
        have hvi := val_ofFields h (s := x.msb) hel hf2
        have hvi2 : fieldVal w (expF x) (manF x - manF x % 2 ^ j) = (2 ^ mb w + (manF x - manF x % 2 ^ j)) * 2 ^ (expF x - 1) := by
          unfold fieldVal; rw [if_neg (by omega)]
        have hmi := (fields_of h (s := x.msb) hel hf2).1
        generalize ofFields w x.msb (expF x) (manF x - manF x % 2 ^ j) = i at *
        have hsum : (2 ^ mb w + manF x) * 2 ^ (expF x - 1) = (2 ^ mb w + (manF x - manF x % 2 ^ j)) * 2 ^ (expF x - 1) + manF x % 2 ^ j * 2 ^ (expF x - 1) := by
          rw [← Nat.add_mul]; congr 1; omega
        have hdiff : val x - val i = if x.msb then -((manF x % 2 ^ j * 2 ^ (expF x - 1) : Nat) : Int) else ((manF x % 2 ^ j * 2 ^ (expF x - 1) : Nat) : Int) := by
          rw [hv, hev, hvi, hvi2, hsum]
          split <;> omega
        have hna : (val x - val i).natAbs = manF x % 2 ^ j * 2 ^ (expF x - 1) := by rw [hdiff]; split <;> omega
        have hlt : manF x % 2 ^ j * 2 ^ (expF x - 1) < 2 ^ unitExp w := by
          rw [← hjE, Nat.pow_add]; exact Nat.mul_lt_mul_of_pos_right hrl (Nat.two_pow_pos _)
        have hpos : 0 < manF x % 2 ^ j * 2 ^ (expF x - 1) := Nat.mul_pos (by omega) (Nat.two_pow_pos _)
        have hR : Repr w (val x - val i).natAbs := by
          rw [hna]
          apply repr_mk
          · have : 2 ^ j ≤ 2 ^ (mb w + 1) := Nat.pow_le_pow_right (by omega) (by omega)
            omega
          · have e1 : (val x).natAbs = magVal (mb w) (mag x) := natAbs_val x
            have e2 : magVal (mb w) (mag x) < magVal (mb w) (infMag w) := magVal_lt.2 hfl
            rw [natAbs_val_fields, hev] at e1
            omega
        obtain ⟨f1, f2⟩ := fsub_val h hfin hi.1 hR
        refine ⟨f1, hi.1, hi.2, by omega, by rw [f2, hna]; exact hlt, ?_, hmi⟩
        have hne : val (fsub x i) ≠ 0 := by rw [f2]; omega
        have h9 := val_neg_iff hne
        rw [f2, hdiff] at h9
        generalize manF x % 2 ^ j * 2 ^ (expF x - 1) = R at *
        cases hs : x.msb
        · rw [hs, if_neg (by simp)] at h9
          cases hs2 : (fsub x i).msb
          · rfl
          · have := h9.2 hs2; omega
        · rw [hs, if_pos rfl] at h9
          exact h9.1 (by omega)
theorem modfLane_inf {w : Nat} (h : W w) (o : MathOpt) {x : BitVec w} (hi : isInf x = true) :
    isZero (modfLane o x).1 = true ∧ (modfLane o x).1.msb = x.msb ∧ (modfLane o x).2 = x := by
  have hn : isNaN x = false := by
    unfold isInf at hi; unfold isNaN
    simp at hi ⊢; intro _; exact hi.2
  have he : expF x = emax w := by unfold isInf at hi; simp at hi; exact hi.1
  have hem := emax_bias h
  have hint : bias w + mb w ≤ expF x := by rw [he, hem]; rcases h with h | h <;> subst h <;> decide
  obtain ⟨s1, s2, s3⟩ := signZero h x
  unfold modfLane
  dsimp only
  rw [hn, Bool.and_false, modfMask_zero (Or.inr hint)]
  simp only [hint, decide_true, Bool.not_true, Bool.and_false, if_true, if_false, Bool.false_eq_true]
  exact ⟨(zero_iff _).2 ((val_zero_iff _).1 s2), s3, by simp⟩
theorem modfLane_nan {w : Nat} {o : MathOpt} (ho : o.propNan = true) {x : BitVec w} (hi : isNaN x = true) :
    (modfLane o x).1 = x ∧ (modfLane o x).2 = x := by
  unfold modfLane
  dsimp only
  rw [ho, hi]; simp
/-- below 1: both parts are `x` -/
theorem modfLane_small {w : Nat} (o : MathOpt) {x : BitVec w} (hx : expF x < bias w) : modfLane o x = (x, x) := by
  have hint : ¬ bias w + mb w ≤ expF x := by omega
  unfold modfLane
  dsimp only
  rw [modfMask_zero (Or.inl hx)]
  simp [hx, hint]
end Dpm.X86
