import Verif.Proofs.Horner
import Verif.Props.X86Float
/-!
C45: polynomial evaluation of the x86 backend, with and without FMA.
-/
namespace Dpm.X86
open Dpm.Reg Dpm.Fp

/-- C45: in every lane whose result is finite, `polevl(x, c)` is exactly the value at `x` of
`c'[0] x^(n-1) + ... + c'[n-1]`, where `c'[k]` differs from `c[k]` by the `2(n-1)` roundings of Horner's rule at most: every
coefficient is used once, with its own power of `x`.  (The second term of the bound is for products below the normal range.) -/
theorem C45_polevl {T : Ety} (h : T.Ok) (hf : T.flt = true) {v : VSz} (fm : Bool) (x : Vec v) (cs : List (BitVec T.w)) (hcs : cs ≠ [])
    {i : Nat} (hi : i < extent T v) (hr : isFinite (lane T.w (polevlV fm T.w v x cs) i) = true) :
    ∃ c' : Nat → ℝ,
      (∀ k (hk : k < cs.length), |c' k - rv cs[k]| ≤ ((1 + ulpHalf T.w) ^ (2 * (cs.length - 1)) - 1) * |rv cs[k]| +
        (1 + ulpHalf T.w) ^ (2 * (cs.length - 1)) * tiny T.w) ∧
      rv (lane T.w (polevlV fm T.w v x cs) i) = polyval c' cs.length (rv (lane T.w x i)) := by
  have hw := fltW h hf
  rw [polevlV_lane h hi] at hr ⊢
  cases cs with
  | nil => exact absurd rfl hcs
  | cons c cs =>
    obtain ⟨d, h1, h2, h3⟩ := horner_rv hw fm (lane T.w x i) cs c 1 0 (fun _ => rv c) (fun _ => rv c)
      (fun k _ => by
        unfold Near
        simp only [pow_zero, sub_self, abs_zero, zero_mul, zero_add, one_mul]
        exact (tiny_pos T.w).le)
      (by simp [polyval]) hr
    refine ⟨d, fun k hk => ?_, ?_⟩
    · have e : 2 * ((c :: cs).length - 1) = 0 + 2 * cs.length := by simp
      rw [e]
      cases k with
      | zero => exact h1 0 (by omega)
      | succ k => 
        have := h2 k (by simpa using hk)
        rw [Nat.add_comm 1 k] at this
        exact this
    · have e : (c :: cs).length = 1 + cs.length := by rw [List.length_cons]; omega
      rw [e]; exact h3
/-- C45 (all registers, all lanes): lane `i` of the result depends on lane `i` of `x` only. -/
theorem C45_lanewise {T : Ety} (h : T.Ok) {v : VSz} (fm : Bool) (x y : Vec v) (cs : List (BitVec T.w)) {i j : Nat} (hi : i < extent T v) (hj : j < extent T v)
    (hxy : lane T.w x i = lane T.w y j) : lane T.w (polevlV fm T.w v x cs) i = lane T.w (polevlV fm T.w v y cs) j := by
  rw [polevlV_lane h hi, polevlV_lane h hj, hxy]
/-- the hypotheses of `C45_polevl` hold: `2x^2 + 3x + 4` at `x = 1.5` is finite (13) -/
example : isFinite (lane 32 (polevlV false 32 .v128 (BitVec.ofNat 128 0x3fc00000) [0x40000000#32, 0x40400000#32, 0x40800000#32]) 0) = true := by
  decide +kernel
end Dpm.X86
