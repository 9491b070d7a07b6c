import Verif.Proofs.Trig
/-! `cvt_f64_i64` with the scale as a variable. -/
namespace Dpm.X86
open Dpm.Reg Dpm.Fp
theorem off64_eq : off64 = ofInt 64 0x0018000000000000 := by unfold off64; rfl
theorem core_gen {y : BitVec 64} (hy : isFinite y = true) {U K : Nat} (hU : U = 2 ^ unitExp 64) (hK : K = 2251799813685248) (h1 : -((K : Int) * U) ≤ val y) (h2 : val y ≤ (K : Int) * U) :
    ∃ r : Int, IsRint (val y) U r ∧ fadd y off64 - off64 = BitVec.ofInt 64 r := by
  have e : ((2 ^ 51 * 2 ^ 1074 : Nat) : Int) = (K : Int) * U := by
    rw [hU, hK, Int.natCast_mul]; rfl
  rw [hU, off64_eq]
  exact f64i64_core y hy (by rw [e]; exact h1) (by rw [e]; exact h2)
end Dpm.X86
