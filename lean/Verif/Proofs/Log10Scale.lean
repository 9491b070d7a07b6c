import Verif.Proofs.Log10Acc
import Verif.Props.X86LogAcc
/-! The scaling step of `impl_log10`. -/
namespace Dpm.X86
open Dpm.Reg Dpm.Fp

theorem rv_of_natAbs {w : Nat} {x y : BitVec w} {k : Nat} (hx : x.msb = false) (hy : y.msb = false) (e : (val y).natAbs = (val x).natAbs * 2 ^ k) : rv y = rv x * 2 ^ k := by
  rw [rv_sg, rv_sg, show neg x = false from hx, show neg y = false from hy, e]
  push_cast; ring
/-- multiplying a normal `double` below `2^970` by `2^54` -/
theorem scale_norm64 {x : BitVec 64} (h1 : 2 ^ 52 ≤ x.toNat) (h2 : x.toNat < 1993 * 2 ^ 52) :
    (fmul x (expMult 64)).toNat = x.toNat + 54 * 2 ^ 52 ∧ (fmul x (expMult 64)).msb = false ∧ rv (fmul x (expMult 64)) = rv x * 2 ^ 54 := by
  have hz : (BitVec.ofNat 64 (x.toNat + 54 * 2 ^ 52)).toNat = x.toNat + 54 * 2 ^ 52 := by rw [BitVec.toNat_ofNat]; omega
  generalize BitVec.ofNat 64 (x.toNat + 54 * 2 ^ 52) = z at hz
  have hxs : x.msb = false := msb_of_small (by change _ < 2 ^ 63; omega)
  have hzs : z.msb = false := msb_of_small (by rw [hz]; change _ < 2 ^ 63; omega)
  have hxf : isFinite x = true := fin_of_lt W_64 (by change _ < 0x7ff0000000000000; omega)
  have rz : rv z = 2 ^ (54 : ℤ) * rv x := by
    rw [rv_pvN W_64 hxs h1, rv_pvN W_64 hzs (by rw [hz]; change 2 ^ 52 ≤ _; omega)]
    exact pvN_add (by rw [hz]; change ((x.toNat + 54 * 2 ^ 52 : Nat) : ℤ) = x.toNat + 54 * 2 ^ 52; push_cast; ring)
  have vz : (val z).natAbs = (val x).natAbs * 2 ^ 54 := by
    have hU : (0:ℝ) < 2 ^ unitExp 64 := by positivity
    rw [rv_sg, rv_sg, show neg x = false from hxs, show neg z = false from hzs] at rz
    simp only [sg, Bool.false_eq_true, if_false, one_mul] at rz
    have : ((val z).natAbs : ℝ) = (val x).natAbs * 2 ^ 54 := by
      rw [div_eq_iff hU.ne'] at rz
      rw [rz, show (2:ℝ) ^ (54:ℤ) = 2 ^ 54 by norm_cast]; field_simp
    exact_mod_cast this
  have e : fmul x (expMult 64) = z := by
    refine fmul_exact W_64 hxf (by decide +kernel) ?_ ?_ ?_
    · rw [mag_eq_toNat hzs, hz]; change _ ≤ 0x7ff0000000000000; omega
    · rw [hzs, hxs]; decide
    · rw [show (val (expMult 64)).natAbs = 2 ^ 54 * 2 ^ unitExp 64 from by decide +kernel, vz, Nat.mul_assoc]
  rw [e]
  refine ⟨hz, hzs, ?_⟩
  exact rv_of_natAbs hxs hzs vz
theorem expMult_fields {w : Nat} (h : W w) : expMult w = ofFields w false (bias w + (if w = 64 then 54 else 25)) 0 ∧ mb w ≤ (if w = 64 then 54 else 25) ∧ (if w = 64 then 54 else 25) < bias w := by
  rcases h with h | h <;> subst h <;> decide
/-- multiplying a positive subnormal by `2^25` / `2^54` -/
theorem scale_sub {w : Nat} (h : W w) {x : BitVec w} (h0 : 0 < x.toNat) (h1 : x.toNat < 2 ^ mb w) :
    2 ^ mb w ≤ (fmul x (expMult w)).toNat ∧ (fmul x (expMult w)).toNat < infMag w ∧ (fmul x (expMult w)).msb = false ∧ rv (fmul x (expMult w)) = rv x * 2 ^ (if w = 64 then 54 else 25) := by
  obtain ⟨_, h2, _, h4, _⟩ := sub_consts h
  have hxs : x.msb = false := msb_of_small (lt_trans h1 h2)
  have he : expF x = 0 := by unfold expF; rw [mag_eq_toNat hxs]; exact Nat.div_eq_of_lt h1
  obtain ⟨e1, e2, e3⟩ := expMult_fields h
  obtain ⟨r, er, hf, hs, hv⟩ := fmul_pow2_subn h he e1 e2 e3
  rw [er]
  have hrs : r.msb = false := hs.trans hxs
  have hr := rv_of_natAbs hxs hrs hv
  refine ⟨?_, ?_, hrs, hr⟩
  · by_contra hh
    rw [Nat.not_le] at hh
    have m1 : ∀ n : Nat, n < 2 ^ mb w → magVal (mb w) n = n := by
      intro n hn
      have := magVal_kf (b := mb w) (k := 0) (f := n) (Or.inl rfl) (le_trans hn.le (Nat.pow_le_pow_right (by norm_num) (by omega)))
      rw [Nat.zero_mul, Nat.zero_add, pow_zero, Nat.mul_one] at this
      exact this
    rw [natAbs_val, natAbs_val, mag_eq_toNat hrs, mag_eq_toNat hxs, m1 _ hh, m1 _ h1] at hv
    have : 2 ^ mb w ≤ 2 ^ (if w = 64 then 54 else 25) := Nat.pow_le_pow_right (by norm_num) e2
    have : 1 * 2 ^ mb w ≤ x.toNat * 2 ^ (if w = 64 then 54 else 25) := Nat.mul_le_mul h0 this
    omega
  · have := (finite_iff h r).1 hf
    rwa [mag_eq_toNat hrs] at this
/-- multiplying a `double` of at least `2^970` by `2^54` -/
theorem scale_big64 {x : BitVec 64} (h1 : 1993 * 2 ^ 52 ≤ x.toNat) (h2 : x.toNat < 0x7ff0000000000000) : fmul x (expMult 64) = pack 64 false (infMag 64) := by
  have hxs : x.msb = false := msb_of_small (by change _ < 2 ^ 63; omega)
  have hxf : isFinite x = true := fin_of_lt W_64 h2
  rw [fmul_fin hxf (by decide +kernel)]
  have hm : magVal (mb 64) (1993 * 2 ^ 52) ≤ magVal (mb 64) x.toNat := magVal_le.2 h1
  have e : magVal (mb 64) (infMag 64) = magVal (mb 64) (1993 * 2 ^ 52) * 2 ^ 54 := by decide +kernel
  have hv : (val (expMult 64)).natAbs = 2 ^ 54 * 2 ^ unitExp 64 := by decide +kernel
  rw [show (neg x != neg (expMult 64)) = false by rw [show neg x = false from hxs]; decide]
  refine round_huge (Nat.two_pow_pos _) ?_
  rw [natAbs_val, mag_eq_toNat hxs, hv, e]
  generalize 2 ^ unitExp 64 = U
  rw [Nat.mul_assoc]
  exact Nat.mul_le_mul_right _ hm
end Dpm.X86
