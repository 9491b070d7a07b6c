import Mathlib.Algebra.Order.Floor.Ring
import Mathlib.Tactic.IntervalCases
import Verif.Proofs.Log
import Verif.Proofs.HypotAcc
/-! The argument reduction of the logarithms: `x = 2^k z`. -/
namespace Dpm.X86
open Dpm.Reg Dpm.Fp

/-- the value of the positive pattern `n` read as a normal number, whatever its exponent field -/
noncomputable def pvN (w n : Nat) : ℝ := 2 ^ (((n / 2 ^ mb w : Nat) : ℤ) - bias w) * (1 + ((n % 2 ^ mb w : Nat) : ℝ) / 2 ^ mb w)
theorem pvN_pos (w n : Nat) : 0 < pvN w n := by
  unfold pvN
  have : (0:ℝ) < 2 ^ (((n / 2 ^ mb w : Nat) : ℤ) - bias w) := zpow_pos (by norm_num) _
  positivity
/-- a positive normal number -/
theorem rv_pvN {w : Nat} (h : W w) {x : BitVec w} (hs : x.msb = false) (hn : 2 ^ mb w ≤ x.toNat) : rv x = pvN w x.toNat := by
  have hp : 0 < 2 ^ mb w := Nat.two_pow_pos _
  have he : 1 ≤ x.toNat / 2 ^ mb w := (Nat.le_div_iff_mul_le hp).2 (by omega)
  rw [rv_sg, show neg x = false from hs, natAbs_val, mag_eq_toNat hs]
  unfold magVal pvN
  rw [if_neg (by omega)]
  simp only [sg, Bool.false_eq_true, if_false, one_mul]
  obtain ⟨e, he⟩ : ∃ e, x.toNat / 2 ^ mb w = e + 1 := ⟨_, (Nat.succ_pred_eq_of_pos he).symm⟩
  rw [he]
  have hu : unitExp w + 1 = bias w + mb w := by rcases h with h | h <;> subst h <;> rfl
  have e1 : ((e + 1 : Nat) : ℤ) - bias w = (e : ℤ) + mb w - unitExp w := by push_cast; omega
  rw [e1, zpow_sub₀ (by norm_num), zpow_add₀ (by norm_num), zpow_natCast, zpow_natCast, zpow_natCast, Nat.add_sub_cancel]
  push_cast
  field_simp
theorem pvN_add {w n : Nat} {m : Nat} {k : ℤ} (e : (n : ℤ) = m + k * 2 ^ mb w) : pvN w n = 2 ^ k * pvN w m := by
  have hp : (0:ℤ) < 2 ^ mb w := by positivity
  have hd : ((n / 2 ^ mb w : Nat) : ℤ) = (m / 2 ^ mb w : Nat) + k := by
    push_cast
    rw [e, Int.add_mul_ediv_right _ _ (by omega)]
  have hm : n % 2 ^ mb w = m % 2 ^ mb w := by
    have : ((n % 2 ^ mb w : Nat) : ℤ) = (m % 2 ^ mb w : Nat) := by
      push_cast
      rw [e, Int.add_mul_emod_self_right]
    exact_mod_cast this
  unfold pvN
  rw [hd, hm, ← mul_assoc, ← zpow_add₀ (by norm_num)]
  congr 2
  ring
/-- patterns of positive numbers are ordered like their values -/
theorem rv_mono {w : Nat} {x y : BitVec w} (hx : x.msb = false) (hy : y.msb = false) (hl : x.toNat ≤ y.toNat) : rv x ≤ rv y := by
  rw [rv_sg, rv_sg, show neg x = false from hx, show neg y = false from hy, natAbs_val, natAbs_val, mag_eq_toNat hx, mag_eq_toNat hy]
  simp only [sg, Bool.false_eq_true, if_false, one_mul]
  have : magVal (mb w) x.toNat ≤ magVal (mb w) y.toNat := magVal_le.2 hl
  have : (magVal (mb w) x.toNat : ℝ) ≤ magVal (mb w) y.toNat := by exact_mod_cast this
  gcongr

/-! ### integer part -/
theorem red32 {x : BitVec 32} {bits : Nat} (hb : bits ≤ 4) (hx : x.toNat < 0x7f800000) :
    ∃ q : Nat, q < 2 ^ 23 ∧ (redZ x).toNat = 0x3f330000 + q ∧ redIdx bits x = q / 2 ^ (23 - bits) ∧
      (x.toNat : ℤ) = (0x3f330000 + q : Nat) + redK x * 2 ^ 23 ∧ (redK x).natAbs ≤ 128 := by
  have hoff : logOff 32 = 0x3f330000#32 := rfl
  have hmask : (signBit 32 ||| expOnes 32) = 0xff800000#32 := by decide +kernel
  have hmb : mantBits 32 = 23 := rfl
  have ht : (redTmp x).toInt = (x.toNat : ℤ) - 0x3f330000 := by
    unfold redTmp; rw [hoff, BitVec.toInt_sub, BitVec.toInt_eq_toNat_of_lt (by omega), show (0x3f330000#32).toInt = 0x3f330000 from by decide]
    rw [Int.bmod_eq_of_le (by omega) (by omega)]
  have htn : (redTmp x).toNat = (x.toNat + (2 ^ 32 - 0x3f330000)) % 2 ^ 32 := by
    unfold redTmp; rw [hoff, BitVec.toNat_sub, Nat.add_comm]; rfl
  have hk : redK x = ((x.toNat : ℤ) - 0x3f330000) / 2 ^ 23 := by
    unfold redK
    rw [hmb, BitVec.setWidth_eq, BitVec.toInt_sshiftRight, ht, Int.shiftRight_eq_div_pow]
    rfl
  refine ⟨((x.toNat : ℤ) - 0x3f330000).emod (2 ^ 23) |>.toNat, ?_⟩
  have e0 := Int.emod_add_mul_ediv ((x.toNat : ℤ) - 0x3f330000) (2 ^ 23)
  have e1 := Int.emod_nonneg ((x.toNat : ℤ) - 0x3f330000) (by norm_num : (2 ^ 23 : ℤ) ≠ 0)
  have e2 := Int.emod_lt_of_pos ((x.toNat : ℤ) - 0x3f330000) (by norm_num : (0:ℤ) < 2 ^ 23)
  change _ ∧ _ ∧ _ ∧ _ ∧ _
  have hq : (Int.emod ((x.toNat : ℤ) - 0x3f330000) (2 ^ 23)).toNat = (redTmp x).toNat % 2 ^ 23 := by
    rw [htn]; change (((x.toNat : ℤ) - 0x3f330000) % (2 ^ 23)).toNat = _; omega
  have hand : (redTmp x &&& 0xff800000#32).toNat = (redTmp x).toNat - (redTmp x).toNat % 2 ^ 23 := by
    have e3 : redTmp x &&& 0xff800000#32 = redTmp x >>> 23 <<< 23 := by
      apply BitVec.eq_of_getLsbD_eq; intro j hj
      rw [BitVec.getLsbD_and, BitVec.getLsbD_shiftLeft, BitVec.getLsbD_ushiftRight]
      have : (0xff800000#32).getLsbD j = decide (23 ≤ j) := by
        revert hj; revert j; decide
      rw [this]
      by_cases hj' : j < 23
      · simp [hj, hj', show ¬ 23 ≤ j by omega]
      · simp [hj, hj', show 23 ≤ j by omega, show 23 + (j - 23) = j by omega]
    rw [e3, BitVec.toNat_shiftLeft, BitVec.toNat_ushiftRight, Nat.shiftRight_eq_div_pow, Nat.shiftLeft_eq]
    have := (redTmp x).isLt
    omega
  have hz : (redZ x).toNat = 0x3f330000 + (redTmp x).toNat % 2 ^ 23 := by
    unfold redZ; rw [hmask, BitVec.toNat_sub, hand]
    have := (redTmp x).isLt
    omega
  rw [hq] 
  refine ⟨Nat.mod_lt _ (by norm_num), hz, ?_, ?_, ?_⟩
  · unfold redIdx; rw [hmb]
    have hbb : (2:Nat) ^ 23 = 2 ^ (23 - bits) * 2 ^ bits := by rw [← Nat.pow_add]; congr 1; omega
    rw [hbb, Nat.mod_mul_right_div_self]
  · have hqi : (((redTmp x).toNat % 2 ^ 23 : Nat) : ℤ) = ((x.toNat : ℤ) - 0x3f330000) % (2 ^ 23) := by rw [← hq]; exact Int.toNat_of_nonneg e1
    rw [hk]; omega
  · rw [hk]; omega
theorem red64 {x : BitVec 64} {bits : Nat} (hb : bits ≤ 7) (hx : x.toNat < 0x7ff0000000000000) :
    ∃ q : Nat, q < 2 ^ 52 ∧ (redZ x).toNat = 0x3fe6900900000000 + q ∧ redIdx bits x = q / 2 ^ (52 - bits) ∧
      (x.toNat : ℤ) = (0x3fe6900900000000 + q : Nat) + redK x * 2 ^ 52 ∧ (redK x).natAbs ≤ 1024 := by
  have hoff : logOff 64 = 0x3fe6900900000000#64 := rfl
  have hmask : (signBit 64 ||| expOnes 64) = 0xfff0000000000000#64 := by decide +kernel
  have hmb : mantBits 64 = 52 := rfl
  have ht : (redTmp x).toInt = (x.toNat : ℤ) - 0x3fe6900900000000 := by
    unfold redTmp; rw [hoff, BitVec.toInt_sub, BitVec.toInt_eq_toNat_of_lt (by omega), show (0x3fe6900900000000#64).toInt = 0x3fe6900900000000 from by decide]
    rw [Int.bmod_eq_of_le (by omega) (by omega)]
  have htn : (redTmp x).toNat = (x.toNat + (2 ^ 64 - 0x3fe6900900000000)) % 2 ^ 64 := by
    unfold redTmp; rw [hoff, BitVec.toNat_sub, Nat.add_comm]; rfl
  have hk0 : ((redTmp x).sshiftRight 52).toInt = ((x.toNat : ℤ) - 0x3fe6900900000000) / 2 ^ 52 := by
    rw [BitVec.toInt_sshiftRight, ht, Int.shiftRight_eq_div_pow]; rfl
  have hk : redK x = ((x.toNat : ℤ) - 0x3fe6900900000000) / 2 ^ 52 := by
    unfold redK
    rw [hmb, BitVec.toInt_setWidth, ← hk0]
    rw [Int.bmod_def]
    have := BitVec.toInt_eq_toNat_bmod ((redTmp x).sshiftRight 52)
    rw [Int.bmod_def] at this
    split at this <;> split <;> omega
  refine ⟨((x.toNat : ℤ) - 0x3fe6900900000000).emod (2 ^ 52) |>.toNat, ?_⟩
  have e0 := Int.emod_add_mul_ediv ((x.toNat : ℤ) - 0x3fe6900900000000) (2 ^ 52)
  have e1 := Int.emod_nonneg ((x.toNat : ℤ) - 0x3fe6900900000000) (by norm_num : (2 ^ 52 : ℤ) ≠ 0)
  have e2 := Int.emod_lt_of_pos ((x.toNat : ℤ) - 0x3fe6900900000000) (by norm_num : (0:ℤ) < 2 ^ 52)
  change _ ∧ _ ∧ _ ∧ _ ∧ _
  have hq : (Int.emod ((x.toNat : ℤ) - 0x3fe6900900000000) (2 ^ 52)).toNat = (redTmp x).toNat % 2 ^ 52 := by
    rw [htn]; change (((x.toNat : ℤ) - 0x3fe6900900000000) % (2 ^ 52)).toNat = _; omega
  have hand : (redTmp x &&& 0xfff0000000000000#64).toNat = (redTmp x).toNat - (redTmp x).toNat % 2 ^ 52 := by
    have e3 : redTmp x &&& 0xfff0000000000000#64 = redTmp x >>> 52 <<< 52 := by
      apply BitVec.eq_of_getLsbD_eq; intro j hj
      rw [BitVec.getLsbD_and, BitVec.getLsbD_shiftLeft, BitVec.getLsbD_ushiftRight]
      have : (0xfff0000000000000#64).getLsbD j = decide (52 ≤ j) := by
        revert hj; revert j; decide
      rw [this]
      by_cases hj' : j < 52
      · simp [hj, hj', show ¬ 52 ≤ j by omega]
      · simp [hj, hj', show 52 ≤ j by omega, show 52 + (j - 52) = j by omega]
    rw [e3, BitVec.toNat_shiftLeft, BitVec.toNat_ushiftRight, Nat.shiftRight_eq_div_pow, Nat.shiftLeft_eq]
    have := (redTmp x).isLt
    omega
  have hz : (redZ x).toNat = 0x3fe6900900000000 + (redTmp x).toNat % 2 ^ 52 := by
    unfold redZ; rw [hmask, BitVec.toNat_sub, hand]
    have := (redTmp x).isLt
    omega
  rw [hq] 
  refine ⟨Nat.mod_lt _ (by norm_num), hz, ?_, ?_, ?_⟩
  · unfold redIdx; rw [hmb]
    have hbb : (2:Nat) ^ 52 = 2 ^ (52 - bits) * 2 ^ bits := by rw [← Nat.pow_add]; congr 1; omega
    rw [hbb, Nat.mod_mul_right_div_self]
  · have hqi : (((redTmp x).toNat % 2 ^ 52 : Nat) : ℤ) = ((x.toNat : ℤ) - 0x3fe6900900000000) % (2 ^ 52) := by rw [← hq]; exact Int.toNat_of_nonneg e1
    rw [hk]; omega
  · rw [hk]; omega
end Dpm.X86
