import Verif.Proofs.Cvt
import Verif.Model.FloatManip
/-! Bit fields of IEEE patterns, as the kernels take them apart. -/
namespace Dpm.Fp
open Dpm.X86

/-- the pattern with these fields -/
def ofFields (w : Nat) (s : Bool) (e f : Nat) : BitVec w := pack w s (e * 2 ^ mb w + f)

theorem mantBits_eq {w : Nat} (h : W w) : mantBits w = mb w := by rcases h with h | h <;> subst h <;> rfl
theorem expMask_eq {w : Nat} (h : W w) : expMask w = emax w := by rcases h with h | h <;> subst h <;> rfl
theorem expOff_eq {w : Nat} (h : W w) : expOff w = bias w := by rcases h with h | h <;> subst h <;> rfl
theorem expBits_eq {w : Nat} (h : W w) : expBits w + 1 + mb w = w := by rcases h with h | h <;> subst h <;> rfl
theorem emax_eq {w : Nat} (h : W w) : emax w = 2 ^ expBits w - 1 := by rcases h with h | h <;> subst h <;> decide
theorem bias_eq {w : Nat} (h : W w) : bias w = 2 ^ (expBits w - 1) - 1 := by rcases h with h | h <;> subst h <;> decide
theorem unitExp_eq {w : Nat} (h : W w) : unitExp w = bias w - 1 + mb w := by rcases h with h | h <;> subst h <;> rfl
theorem emax_bias {w : Nat} (h : W w) : emax w = 2 * bias w + 1 := by rcases h with h | h <;> subst h <;> rfl
theorem mb_lt {w : Nat} (h : W w) : mb w + 1 < w := by rcases h with h | h <;> subst h <;> decide

theorem fields_lt {w : Nat} (h : W w) {e f : Nat} (he : e ≤ emax w) (hf : f < 2 ^ mb w) : e * 2 ^ mb w + f < 2 ^ (w - 1) := by
  rw [format h]
  have := Nat.mul_le_mul_right (2 ^ mb w) he
  have h2 : (emax w + 1) * 2 ^ mb w = emax w * 2 ^ mb w + 2 ^ mb w := Nat.succ_mul _ _
  omega
theorem fields_of {w : Nat} (h : W w) {s : Bool} {e f : Nat} (he : e ≤ emax w) (hf : f < 2 ^ mb w) :
    (ofFields w s e f).msb = s ∧ mag (ofFields w s e f) = e * 2 ^ mb w + f ∧ expF (ofFields w s e f) = e ∧ manF (ofFields w s e f) = f := by
  have hl := fields_lt h he hf
  have hm := mag_pack h (s := s) hl
  refine ⟨msb_pack h hl, hm, ?_, ?_⟩
  · show mag (pack w s _) / _ = _
    rw [hm, Nat.mul_comm, Nat.mul_add_div (Nat.two_pow_pos _), Nat.div_eq_of_lt hf, Nat.add_zero]
  · show mag (pack w s _) % _ = _
    rw [hm, Nat.mul_comm, Nat.mul_add_mod, Nat.mod_eq_of_lt hf]
theorem fields_eta {w : Nat} (h : W w) (x : BitVec w) : ofFields w x.msb (expF x) (manF x) = x := by
  unfold ofFields; rw [← mag_fields]; exact pack_eta h x
/-- value of a finite pattern by fields -/
def fieldVal (w e f : Nat) : Nat := if e = 0 then f else (2 ^ mb w + f) * 2 ^ (e - 1)
theorem magVal_fields {w : Nat} {e f : Nat} (hf : f < 2 ^ mb w) : magVal (mb w) (e * 2 ^ mb w + f) = fieldVal w e f := by
  unfold magVal fieldVal
  rw [Nat.mul_comm e, Nat.mul_add_div (Nat.two_pow_pos _), Nat.div_eq_of_lt hf, Nat.add_zero, Nat.mul_add_mod, Nat.mod_eq_of_lt hf]
theorem val_ofFields {w : Nat} (h : W w) {s : Bool} {e f : Nat} (he : e ≤ emax w) (hf : f < 2 ^ mb w) :
    val (ofFields w s e f) = if s then -(fieldVal w e f : Int) else fieldVal w e f := by
  unfold val neg
  rw [(fields_of h he hf).1, (fields_of h he hf).2.1, magVal_fields hf]
theorem val_eq_fields {w : Nat} (x : BitVec w) : val x = if x.msb then -(fieldVal w (expF x) (manF x) : Int) else fieldVal w (expF x) (manF x) := by
  unfold val neg
  rw [mag_fields x, magVal_fields (manF_lt x)]
theorem natAbs_val_fields {w : Nat} (x : BitVec w) : (val x).natAbs = fieldVal w (expF x) (manF x) := by
  rw [natAbs_val, mag_fields x, magVal_fields (manF_lt x)]

theorem testBit_expOnes {w : Nat} (h : W w) (k : Nat) : (expOnes w).toNat.testBit k = (decide (mb w ≤ k) && decide (k < w - 1)) := by
  unfold expOnes
  rw [mantBits_eq h, expMask_eq h, BitVec.toNat_ofNat, Nat.mod_eq_of_lt, emax_eq h, Nat.mul_comm, Nat.testBit_two_pow_mul, Nat.testBit_two_pow_sub_one]
  · have := expBits_eq h
    by_cases h1 : mb w ≤ k
    · simp only [ge_iff_le, h1, decide_true, Bool.true_and, decide_eq_decide]; omega
    · simp [h1]
  · have h1 := fields_lt h (Nat.le_refl (emax w)) (Nat.two_pow_pos (mb w))
    have h2 : 2 ^ (w - 1) ≤ 2 ^ w := Nat.pow_le_pow_right (by omega) (by omega)
    omega
theorem and_expOnes {w : Nat} (h : W w) (x : BitVec w) : (x &&& expOnes w).toNat = expF x * 2 ^ mb w := by
  apply Nat.eq_of_testBit_eq
  intro k
  unfold expF mag
  rw [BitVec.toNat_and, Nat.testBit_and, testBit_expOnes h, Nat.mul_comm, Nat.testBit_two_pow_mul, Nat.testBit_div_two_pow, Nat.testBit_mod_two_pow]
  by_cases h1 : mb w ≤ k
  · simp only [ge_iff_le, h1, decide_true, Bool.true_and, show k - mb w + mb w = k by omega]; exact Bool.and_comm _ _
  · simp [h1]
theorem and_expOnes_eq {w : Nat} (h : W w) (x : BitVec w) : x &&& expOnes w = ofFields w false (expF x) 0 := by
  apply BitVec.eq_of_toNat_eq
  have h1 := fields_lt h (expF_le h x) (Nat.two_pow_pos (mb w))
  have h2 : 2 ^ (w - 1) ≤ 2 ^ w := Nat.pow_le_pow_right (by omega) (by omega)
  rw [and_expOnes h]
  unfold ofFields pack
  rw [BitVec.toNat_ofNat, Nat.mod_eq_of_lt] <;> simp <;> omega
/-- replace the exponent field -/
theorem set_exp {w : Nat} (h : W w) (x : BitVec w) {e : Nat} (he : e ≤ emax w) :
    (x &&& ~~~ expOnes w) ||| BitVec.ofNat w (e * 2 ^ mb w) = ofFields w x.msb e (manF x) := by
  have hw := h.pos
  have hf := fields_of h (s := x.msb) he (manF_lt x)
  have h1 := fields_lt h he (Nat.two_pow_pos (mb w))
  have h2 : 2 ^ (w - 1) ≤ 2 ^ w := Nat.pow_le_pow_right (by omega) (by omega)
  have hb := mb_lt h
  have hn : ∀ k, (BitVec.ofNat w (e * 2 ^ mb w)).getLsbD k = (decide (k < w - 1) && decide (mb w ≤ k) && e.testBit (k - mb w)) := by
    intro k
    rw [BitVec.getLsbD_ofNat, Nat.mul_comm, Nat.testBit_two_pow_mul]
    by_cases hk : k < w - 1
    · simp [show k < w by omega, hk]
    · have h3 : (2 ^ mb w * e).testBit k = false := by
        apply Nat.testBit_lt_two_pow
        refine Nat.lt_of_lt_of_le (m := 2 ^ (w - 1)) (by rw [Nat.mul_comm]; omega) (Nat.pow_le_pow_right (by omega) (by omega))
      rw [Nat.testBit_two_pow_mul] at h3
      simp [hk, h3]
  have ho : ∀ k, (expOnes w).getLsbD k = (decide (mb w ≤ k) && decide (k < w - 1)) := fun k => testBit_expOnes h k
  apply ext_mag hw
  · rw [hf.1, BitVec.msb_or, BitVec.msb_and, BitVec.msb_not, BitVec.msb_eq_getLsbD_last (expOnes w), BitVec.msb_eq_getLsbD_last (BitVec.ofNat w _), hn, ho]
    simp [hw]
  · rw [hf.2.1]
    apply Nat.eq_of_testBit_eq
    intro k
    unfold mag manF mag
    rw [Nat.testBit_mod_two_pow, show e * 2 ^ mb w + x.toNat % 2 ^ (w - 1) % 2 ^ mb w = 2 ^ mb w * e + x.toNat % 2 ^ (w - 1) % 2 ^ mb w by rw [Nat.mul_comm e],
      Nat.testBit_two_pow_mul_add _ (Nat.mod_lt _ (Nat.two_pow_pos _))]
    rw [BitVec.testBit_toNat, BitVec.getLsbD_or, BitVec.getLsbD_and, BitVec.getLsbD_not, hn, ho]
    rw [Nat.testBit_mod_two_pow, Nat.testBit_mod_two_pow, BitVec.testBit_toNat]
    by_cases hk : k < w - 1
    · by_cases hk2 : k < mb w
      · simp [hk, hk2, show ¬ mb w ≤ k by omega, show k < w by omega]
      · simp [hk, hk2, show mb w ≤ k by omega]
    · have h3 : e.testBit (k - mb w) = false := by
        apply Nat.testBit_lt_two_pow
        refine Nat.lt_of_le_of_lt he ?_
        rw [emax_eq h]
        have : 2 ^ expBits w ≤ 2 ^ (k - mb w) := Nat.pow_le_pow_right (by omega) (by have := expBits_eq h; omega)
        have := Nat.two_pow_pos (expBits w)
        omega
      simp [hk, h3, show ¬ k < mb w by omega]
theorem shr_mant {w : Nat} (h : W w) (x : BitVec w) : ((x >>> mantBits w) &&& BitVec.ofNat w (expMask w)).toNat = expF x := by
  rw [mantBits_eq h, expMask_eq h, BitVec.toNat_and, BitVec.toNat_ofNat, BitVec.toNat_ushiftRight, Nat.shiftRight_eq_div_pow, emax_eq h,
    Nat.mod_eq_of_lt, Nat.and_two_pow_sub_one_eq_mod]
  · unfold expF mag
    have := expBits_eq h
    rw [show w - 1 = mb w + expBits w by omega, Nat.pow_add, Nat.mod_mul_right_div_self]
  · have h1 : 2 ^ expBits w ≤ 2 ^ w := Nat.pow_le_pow_right (by omega) (by have := expBits_eq h; omega)
    have := Nat.two_pow_pos (expBits w)
    omega
/-- exponent of a pattern without sign -/
theorem shr_mant_pos {w : Nat} (h : W w) (x : BitVec w) (hs : x.msb = false) : (x >>> mantBits w).toNat = expF x := by
  have h1 := toNat_sm h.pos x
  rw [hs] at h1
  rw [mantBits_eq h, BitVec.toNat_ushiftRight, Nat.shiftRight_eq_div_pow, h1]
  simp [expF]
theorem expOnes_toNat {w : Nat} (h : W w) : (expOnes w).toNat = emax w * 2 ^ mb w := by rcases h with h | h <;> subst h <;> decide
theorem expF_and {w : Nat} (h : W w) (x : BitVec w) : (x &&& expOnes w = expOnes w ↔ expF x = emax w) ∧ (x &&& expOnes w = 0#w ↔ expF x = 0) := by
  have h1 := and_expOnes h x
  have h2 := expOnes_toNat h
  have hp := Nat.two_pow_pos (mb w)
  refine ⟨⟨fun he => ?_, fun he => ?_⟩, ⟨fun he => ?_, fun he => ?_⟩⟩
  · rw [he, h2] at h1; exact (Nat.eq_of_mul_eq_mul_right hp h1).symm
  · apply BitVec.eq_of_toNat_eq; rw [h1, h2, he]
  · rw [he] at h1
    rcases Nat.mul_eq_zero.1 h1.symm with h3 | h3
    · exact h3
    · omega
  · apply BitVec.eq_of_toNat_eq; rw [h1, he]; simp
theorem fEq_zero {w : Nat} (h : W w) (x : BitVec w) : fEq x (0#w) = decide (mag x = 0) := by
  have h0 : isNaN (0#w) = false := by rcases h with h | h <;> subst h <;> decide
  have hv : val (0#w) = 0 := by rcases h with h | h <;> subst h <;> decide
  rw [fEq_eq h]
  unfold Fp.eq
  rw [h0, hv]
  by_cases hm : mag x = 0
  · have : isNaN x = false := by
      rw [Bool.eq_false_iff, ne_eq, nan_iff h]; omega
    rw [this]; simp [hm, val_zero_iff]
  · simp [hm, val_zero_iff]
/-- a nonzero finite pattern with exponent field 0, scaled by a power of two -/
theorem fmul_pow2_subn {w : Nat} (h : W w) {x c : BitVec w} {k : Nat} (hx : expF x = 0) (hc : c = ofFields w false (bias w + k) 0)
    (hk0 : mb w ≤ k) (hk : k < bias w) : ∃ r : BitVec w, fmul x c = r ∧ isFinite r = true ∧ r.msb = x.msb ∧ (val r).natAbs = (val x).natAbs * 2 ^ k := by
  refine ⟨_, rfl, ?_⟩
  have hfx : isFinite x = true := by unfold isFinite; rw [hx]; rcases h with h | h <;> subst h <;> decide
  have hb := emax_bias h
  have hcf := fields_of h (s := false) (e := bias w + k) (f := 0) (by omega) (Nat.two_pow_pos _)
  rw [← hc] at hcf
  have hfc : isFinite c = true := by unfold isFinite; rw [hcf.2.2.1]; simp; omega
  have hvc : (val c).natAbs = 2 ^ (unitExp w + k) := by
    rw [natAbs_val_fields, hcf.2.2.1, hcf.2.2.2]; unfold fieldVal
    rw [if_neg (by omega), unitExp_eq h, Nat.add_zero, ← Nat.pow_add]; congr 1; omega
  have hvx : (val x).natAbs = manF x := by rw [natAbs_val_fields, hx]; rfl
  have hm := manF_lt x
  rw [fmul_fin hfx hfc, hvx, hvc]
  have e1 : neg c = false := hcf.1
  rw [e1]
  have e2 : (neg x != false) = x.msb := by unfold neg; cases x.msb <;> rfl
  rw [e2, Nat.pow_add, ← Nat.mul_assoc, Nat.mul_right_comm]
  obtain ⟨m, hm2⟩ := magVal_surj (b := mb w) (k := k) (f := manF x) (by rw [Nat.pow_succ]; omega)
  have hlt : m < infMag w := by
    apply (magVal_lt (b := mb w)).1
    rw [hm2]
    have e3 : infMag w = emax w * 2 ^ mb w + 0 := rfl
    rw [e3, magVal_fields (Nat.two_pow_pos _)]
    unfold fieldVal
    rw [if_neg (by omega), Nat.add_zero]
    exact Nat.lt_of_lt_of_le (Nat.mul_lt_mul_of_pos_right hm (Nat.two_pow_pos _)) (Nat.mul_le_mul_left _ (Nat.pow_le_pow_right (by omega) (by omega)))
  have hi := infMag_lt h
  unfold round
  rw [← hm2, rne_exact (mb_pos w) (Nat.two_pow_pos _), Nat.min_eq_left (by omega), finite_iff h, msb_pack h (by omega), natAbs_val, mag_pack h (by omega)]
  exact ⟨hlt, rfl, rfl⟩
end Dpm.Fp
