import Verif.Proofs.RoundSse2
/-
`rint` by adding and subtracting 2^mb.
-/
namespace Dpm.Fp
open Dpm.X86

theorem xor_sign {w : Nat} (x : BitVec w) : x ^^^ (x &&& BitVec.intMin w) = x &&& BitVec.intMax w := by
  apply BitVec.eq_of_getLsbD_eq
  intro i hi
  simp only [BitVec.getLsbD_xor, BitVec.getLsbD_and, BitVec.getLsbD_intMin, BitVec.getLsbD_intMax]
  by_cases hi2 : i + 1 = w
  · simp [hi2, show ¬ i + 1 < w by omega]
  · simp [hi2, show i + 1 < w by omega]
theorem offset_toNat {w : Nat} (h : W w) : (offsetBits w).toNat = unitExp w * 2 ^ mb w + 2 ^ mb w := by rcases h with h | h <;> subst h <;> decide
theorem isRint_neg {v D r : Int} (h : IsRint v D r) : IsRint (-v) D (-r) := by
  obtain ⟨h1, h2, h3⟩ := h
  have e1 : (2 * -r - 1) * D = -((2 * r + 1) * D) := by grind
  have e2 : (2 * -r + 1) * D = -((2 * r - 1) * D) := by grind
  unfold IsRint
  rw [e1, e2]
  generalize (2 * r + 1) * D = A at *
  generalize (2 * r - 1) * D = B at *
  refine ⟨by omega, by omega, fun h => ?_⟩
  have := h3 (by omega)
  omega
/-- adding and subtracting `2^mb` below it -/
theorem add_sub_offset {w : Nat} (h : W w) {a : BitVec w} (hs : a.msb = false) (hfin : isFinite a = true) (hlt : val a ≤ (2 ^ mb w * 2 ^ unitExp w : Nat)) :
    ∃ r : Nat, r ≤ 2 ^ mb w ∧ IsRint (val a) (2 ^ unitExp w : Nat) r ∧ isFinite (fsub (fadd a (offsetBits w)) (offsetBits w)) = true ∧
      (fsub (fadd a (offsetBits w)) (offsetBits w)).msb = false ∧
      val (fsub (fadd a (offsetBits w)) (offsetBits w)) = (r : Int) * (2 ^ unitExp w : Nat) := by
  have ho := offset_toNat h
  generalize offsetBits w = o at *
  have hb : 0 < 2 ^ mb w := Nat.two_pow_pos _
  have hps : 2 ^ (mb w + 1) = 2 * 2 ^ mb w := by rw [Nat.pow_succ, Nat.mul_comm]
  have hpd : 2 ^ (mb w + 1) * 2 ^ unitExp w = 2 ^ mb w * 2 ^ unitExp w + 2 ^ mb w * 2 ^ unitExp w := by rw [hps, Nat.mul_assoc]; omega
  have hPe : 2 ^ mb w % 2 = 0 := by
    have := mb_pos w
    rw [show mb w = mb w - 1 + 1 by omega, Nat.pow_succ]; omega
  have hK : unitExp w + 2 < emax w := by rcases h with h | h <;> subst h <;> decide
  have hv0 : 0 ≤ val a := by unfold val neg; rw [hs]; simp
  have hie : infMag w = emax w * 2 ^ mb w := rfl
  have hinl := infMag_lt h
  have hinf : (unitExp w + 3) * 2 ^ mb w ≤ emax w * 2 ^ mb w := Nat.mul_le_mul_right _ hK
  have hs3 : (unitExp w + 3) * 2 ^ mb w = unitExp w * 2 ^ mb w + 3 * 2 ^ mb w := Nat.add_mul _ _ _
  obtain ⟨r, hr, hra⟩ := fadd_band h hfin ho (Nat.le_refl _) (by omega) hPe hK (by omega) (by omega)
  have hD : 0 < 2 ^ unitExp w := Nat.two_pow_pos _
  -- 0 ≤ r ≤ 2^mb
  have hr0 : 0 ≤ r := by
    false_or_by_contra
    rename_i hc
    have h1 := hr.2.1
    have : (2 * r + 1) * (2 ^ unitExp w : Nat) ≤ (-1) * ((2 ^ unitExp w : Nat) : Int) := Int.mul_le_mul_of_nonneg_right (by omega) (by omega)
    omega
  have hr1 : r ≤ (2 ^ mb w : Nat) := by
    false_or_by_contra
    rename_i hc
    have h1 := hr.1
    have h3 : (2 * ((2 ^ mb w : Nat) : Int) + 1) * (2 ^ unitExp w : Nat) ≤ (2 * r - 1) * ((2 ^ unitExp w : Nat) : Int) := Int.mul_le_mul_of_nonneg_right (by omega) (by omega)
    have h4 : (2 * ((2 ^ mb w : Nat) : Int) + 1) * (2 ^ unitExp w : Nat) = 2 * (2 ^ mb w * 2 ^ unitExp w : Nat) + (2 ^ unitExp w : Nat) := by push_cast; grind
    omega
  obtain ⟨R, rfl⟩ : ∃ R : Nat, r = R := ⟨r.toNat, by omega⟩
  have hRb : R ≤ 2 ^ mb w := by exact_mod_cast hr1
  have hta : (fadd a o).toNat = unitExp w * 2 ^ mb w + (2 ^ mb w + R) := by omega
  generalize fadd a o = s at *
  have hsm := X86.msb_of_toNat h.pos (x := s) (s := false) (m := unitExp w * 2 ^ mb w + (2 ^ mb w + R)) (by omega) (by simpa using hta)
  have hsf : isFinite s = true := by rw [finite_iff h, hsm.2]; omega
  have hsv : val s = ((2 ^ mb w + R) * 2 ^ unitExp w : Nat) := by
    unfold val neg; rw [hsm.1, hsm.2, magVal_kf (Or.inr (by omega)) (by omega)]; simp
  have hom := X86.msb_of_toNat h.pos (x := o) (s := false) (m := unitExp w * 2 ^ mb w + 2 ^ mb w) (by omega) (by simpa using ho)
  have hof : isFinite o = true := by rw [finite_iff h, hom.2]; omega
  have hov : val o = (2 ^ mb w * 2 ^ unitExp w : Nat) := by
    unfold val neg; rw [hom.1, hom.2, magVal_kf (Or.inr (by omega)) (by omega)]; simp
  have hdiff : val s - val o = (R * 2 ^ unitExp w : Nat) := by rw [hsv, hov, Nat.add_mul]; omega
  have hrep : Repr w (val s - val o).natAbs := by
    rw [hdiff, Int.natAbs_natCast]
    exact repr_mk (by omega) (Nat.lt_of_le_of_lt (Nat.mul_le_mul_right _ (by omega)) (bigInt h))
  have hf := fsub_val h hsf hof hrep
  refine ⟨R, hRb, hr, hf.1, ?_, by rw [hf.2, hdiff]; push_cast; rfl⟩
  rw [fsub_fin h hsf hof]
  split
  · unfold neg; rw [hsm.1]; exact msb_pack h (Nat.two_pow_pos _)
  · rw [decide_eq_false (by omega)]
    unfold round
    exact msb_pack h (by omega)
/-- one lane of the old `rint` for a lane below `2^mb` -/
def rintTmp {w : Nat} (x : BitVec w) : BitVec w :=
  (fsub (fadd (x ^^^ (x &&& BitVec.intMin w)) (offsetBits w)) (offsetBits w)) ||| (x &&& BitVec.intMin w)
theorem orSign {w : Nat} (h : W w) (x y : BitVec w) (hy : y.msb = false) : y ||| (x &&& BitVec.intMin w) = pack w x.msb (mag y) := by
  rw [BitVec.or_comm]
  refine or_sign h x y (mag_lt y) ?_
  have := toNat_sm h.pos y
  rw [hy] at this
  simpa using this
theorem abs_val {w : Nat} (h : W w) (x : BitVec w) : (x &&& BitVec.intMax w).msb = false ∧ mag (x &&& BitVec.intMax w) = mag x ∧
    val (x &&& BitVec.intMax w) = (val x).natAbs := by
  have ha := abs_sm h.pos x
  refine ⟨ha.1, ha.2, ?_⟩
  rw [natAbs_val]; unfold val neg; rw [ha.1, ha.2]; simp
theorem rintTmp_small {w : Nat} (h : W w) {x : BitVec w} (hfin : isFinite x = true) (hx : (val x).natAbs ≤ 2 ^ mb w * 2 ^ unitExp w) :
    RoundsVal IsRint x (rintTmp x) ∧ (rintTmp x).msb = x.msb := by
  unfold rintTmp
  rw [xor_sign]
  obtain ⟨a1, a2, a3⟩ := abs_val h x
  have hfa : isFinite (x &&& BitVec.intMax w) = true := by rw [finite_iff h] at hfin ⊢; rw [a2]; exact hfin
  obtain ⟨r, hrb, hr, f1, f2, f3⟩ := add_sub_offset h a1 hfa (by rw [a3]; omega)
  generalize fsub (fadd (x &&& BitVec.intMax w) (offsetBits w)) (offsetBits w) = y at *
  rw [orSign h x y f2]
  have hil := infMag_lt h
  have hmy := (finite_iff h y).1 f1
  have hmp := mag_pack h (s := x.msb) (mag_lt y)
  refine ⟨⟨(finite_iff h _).2 (by omega), if x.msb then -(r : Int) else r, ?_, ?_⟩, msb_pack h (mag_lt y)⟩
  · rw [a3] at hr
    have hxv : val x = if x.msb then -((val x).natAbs : Int) else (val x).natAbs := by rw [natAbs_val]; rfl
    rw [hxv]
    cases x.msb
    · exact hr
    · exact isRint_neg hr
  · rw [val_pack h (mag_lt y), ← natAbs_val, f3]
    generalize 2 ^ unitExp w = D
    have e : ((r : Int) * (D : Int)).natAbs = r * D := by rw [Int.natAbs_mul]; simp
    rw [e]
    cases x.msb <;> simp [Int.neg_mul]
theorem orSign_nan {w : Nat} (h : W w) (x y : BitVec w) (hy : isNaN y = true) : isNaN (y ||| (x &&& BitVec.intMin w)) = true := by
  rw [nan_iff h] at hy ⊢
  have : mag (y ||| (x &&& BitVec.intMin w)) = mag y := by
    have hh : (y ||| (x &&& BitVec.intMin w)) &&& BitVec.intMax w = y &&& BitVec.intMax w := by
      apply BitVec.eq_of_getLsbD_eq
      intro i hi
      simp only [BitVec.getLsbD_or, BitVec.getLsbD_and, BitVec.getLsbD_intMin, BitVec.getLsbD_intMax]
      by_cases hi2 : i + 1 = w
      · simp [show ¬ i + 1 < w by omega]
      · simp [hi2]
    rw [← and_intMax_toNat h.pos, hh, and_intMax_toNat h.pos]
  rw [this]; exact hy
theorem rintTmp_nan {w : Nat} (h : W w) {x : BitVec w} (hn : isNaN x = true) : isNaN (rintTmp x) = true := by
  unfold rintTmp
  rw [xor_sign]
  obtain ⟨a1, a2, a3⟩ := abs_val h x
  apply orSign_nan h
  have hna : isNaN (x &&& BitVec.intMax w) = true := by rw [nan_iff h] at hn ⊢; rw [a2]; exact hn
  have e : fadd (x &&& BitVec.intMax w) (offsetBits w) = quiet (x &&& BitVec.intMax w) := by unfold fadd; rw [if_pos hna]
  have q1 := quiet_nan h hna
  rw [e]
  unfold fsub
  rw [if_pos q1]
  exact quiet_nan h q1
theorem rintTmp_inf {w : Nat} (h : W w) {x : BitVec w} (hi : isInf x = true) : rintTmp x = x := by
  unfold rintTmp
  rw [xor_sign]
  obtain ⟨a1, a2, a3⟩ := abs_val h x
  have hia : isInf (x &&& BitVec.intMax w) = true := by rw [inf_iff h] at hi ⊢; rw [a2]; exact hi
  have hna := inf_not_nan' h hia
  have hof : isFinite (offsetBits w) = true ∧ isFinite (offsetBits w ^^^ BitVec.intMin w) = true := by rcases h with h | h <;> subst h <;> decide
  have c1 := finite_cls hof.1
  have c2 := finite_cls hof.2
  have e : fadd (x &&& BitVec.intMax w) (offsetBits w) = x &&& BitVec.intMax w := by unfold fadd; simp [hna, hia, c1.1, c1.2]
  have e2 : fsub (x &&& BitVec.intMax w) (offsetBits w) = x &&& BitVec.intMax w := by
    unfold fsub
    rw [hna, c1.1]
    simp only [Bool.false_eq_true, if_false]
    unfold fadd; simp [hna, hia, c2.1, c2.2]
  rw [e, e2, orSign h _ _ a1, a2]
  exact pack_eta h x
theorem le_offset {w : Nat} (h : W w) {x : BitVec w} (hn : isNaN x = false) :
    fLe (offsetBits w) (x &&& BitVec.intMax w) = decide (2 ^ mb w * 2 ^ unitExp w ≤ (val x).natAbs) := by
  obtain ⟨a1, a2, a3⟩ := abs_val h x
  have hna : isNaN (x &&& BitVec.intMax w) = false := by
    cases hq : isNaN (x &&& BitVec.intMax w)
    · rfl
    · rw [nan_iff h, a2, ← nan_iff h] at hq; rw [hq] at hn; exact hn
  have ho : isNaN (offsetBits w) = false ∧ val (offsetBits w) = (2 ^ mb w * 2 ^ unitExp w : Nat) := by rcases h with h | h <;> subst h <;> decide +kernel
  rw [fLe_eq h]
  unfold Fp.le
  rw [ho.1, hna, ho.2, a3]
  simp only [Bool.not_false, Bool.true_and]
  congr 1
  apply propext
  omega
/-- the float version: right for every pattern -/
theorem rint_sel {w : Nat} (h : W w) (x : BitVec w) : IsRoundFn IsRint x (if fLe (offsetBits w) (x &&& BitVec.intMax w) then x else rintTmp x) := by
  have hinf : isInf x = true → 2 ^ mb w * 2 ^ unitExp w ≤ (val x).natAbs := by
    intro hi
    rw [natAbs_val, (inf_iff h x).1 hi]
    have := bigInt h
    rw [Nat.pow_succ] at this
    have h2 : 2 ^ mb w * 2 * 2 ^ unitExp w = 2 * (2 ^ mb w * 2 ^ unitExp w) := by rw [Nat.mul_comm (2 ^ mb w) 2, Nat.mul_assoc]
    omega
  have big : isFinite x = true → 2 ^ mb w * 2 ^ unitExp w ≤ (val x).natAbs → RoundsVal IsRint x x := by
    intro hf hb
    have hE : unitExp w < expF x := by
      false_or_by_contra
      rename_i hc
      have := small_of_exp h (x := x) (by omega)
      omega
    have h0 := int_of_big hE
    have hd : ((2 ^ unitExp w : Nat) : Int) ∣ val x := by
      rw [← Int.dvd_natAbs]
      exact Int.natCast_dvd_natCast.2 (Nat.dvd_of_mod_eq_zero h0)
    obtain ⟨z, hz⟩ := hd
    rw [Int.mul_comm] at hz
    refine ⟨hf, z, ?_, hz⟩
    rw [hz]
    exact isRint_of_eq (by exact_mod_cast Nat.two_pow_pos _)
  refine ⟨fun hf => ?_, fun hf => ?_, fun hi => ?_, fun hn => ?_⟩
  · rw [le_offset h (finite_cls hf).1]
    split
    · rename_i hb; exact big hf (by simpa using hb)
    · rename_i hb; exact (rintTmp_small h hf (Nat.le_of_lt (by simpa using hb))).1
  · rw [le_offset h (finite_cls hf).1]
    split
    · rfl
    · rename_i hb; exact (rintTmp_small h hf (Nat.le_of_lt (by simpa using hb))).2
  · rw [le_offset h (inf_not_nan' h hi), if_pos (by simpa using hinf hi)]
  · split
    · exact hn
    · exact rintTmp_nan h hn
end Dpm.Fp
