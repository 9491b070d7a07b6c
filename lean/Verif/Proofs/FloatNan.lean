import Verif.Proofs.TrigLane
import Verif.Proofs.ScalbnSpec
/-! NaN propagation, and arithmetic under changes of sign. -/
namespace Dpm.Fp
open Dpm.X86

theorem nan_default {w : Nat} (h : W w) : isNaN (defaultNaN w) = true := by rcases h with h | h <;> subst h <;> decide
theorem nan_of_mag' {w : Nat} {x y : BitVec w} (hm : mag x = mag y) : isNaN x = isNaN y := by unfold isNaN expF manF; rw [hm]
theorem inf_of_mag' {w : Nat} {x y : BitVec w} (hm : mag x = mag y) : isInf x = isInf y := by unfold isInf expF manF; rw [hm]
theorem zero_of_mag' {w : Nat} {x y : BitVec w} (hm : mag x = mag y) : isZero x = isZero y := by unfold isZero expF manF; rw [hm]
theorem nan_flip {w : Nat} (h : W w) (x : BitVec w) : isNaN (x ^^^ BitVec.intMin w) = isNaN x := nan_of_mag' (flip_sm h x).2
theorem inf_flip {w : Nat} (h : W w) (x : BitVec w) : isInf (x ^^^ BitVec.intMin w) = isInf x := inf_of_mag' (flip_sm h x).2
theorem zero_flip {w : Nat} (h : W w) (x : BitVec w) : isZero (x ^^^ BitVec.intMin w) = isZero x := zero_of_mag' (flip_sm h x).2
theorem neg_flip {w : Nat} (h : W w) (x : BitVec w) : neg (x ^^^ BitVec.intMin w) = !neg x := (flip_sm h x).1

/-! ### NaN operands -/
section nan
variable {w : Nat} (h : W w) {x y z : BitVec w}
include h
theorem nan_fadd_l (hx : isNaN x = true) : isNaN (fadd x y) = true := by
  unfold fadd; rw [if_pos hx]; exact quiet_nan h hx
theorem nan_fadd_r (hy : isNaN y = true) : isNaN (fadd x y) = true := by
  by_cases hx : isNaN x = true
  · exact nan_fadd_l h hx
  · unfold fadd; rw [if_neg hx, if_pos hy]; exact quiet_nan h hy
theorem nan_fsub_l (hx : isNaN x = true) : isNaN (fsub x y) = true := by
  unfold fsub; rw [if_pos hx]; exact quiet_nan h hx
theorem nan_fsub_r (hy : isNaN y = true) : isNaN (fsub x y) = true := by
  by_cases hx : isNaN x = true
  · exact nan_fsub_l h hx
  · unfold fsub; rw [if_neg hx, if_pos hy]; exact quiet_nan h hy
theorem nan_fmul_l (hx : isNaN x = true) : isNaN (fmul x y) = true := by
  unfold fmul; rw [if_pos hx]; exact quiet_nan h hx
theorem nan_fmul_r (hy : isNaN y = true) : isNaN (fmul x y) = true := by
  by_cases hx : isNaN x = true
  · exact nan_fmul_l h hx
  · unfold fmul; rw [if_neg hx, if_pos hy]; exact quiet_nan h hy
theorem nan_fdiv_l (hx : isNaN x = true) : isNaN (fdiv x y) = true := by
  unfold fdiv; rw [if_pos hx]; exact quiet_nan h hx
theorem nan_fdiv_r (hy : isNaN y = true) : isNaN (fdiv x y) = true := by
  by_cases hx : isNaN x = true
  · exact nan_fdiv_l h hx
  · unfold fdiv; rw [if_neg hx, if_pos hy]; exact quiet_nan h hy
theorem nan_fsqrt (hx : isNaN x = true) : isNaN (fsqrt x) = true := by
  unfold fsqrt; rw [if_pos hx]; exact quiet_nan h hx
theorem nan_ffma_x (np nz : Bool) (hx : isNaN x = true) : isNaN (ffmaG np nz x y z) = true := by
  unfold ffmaG; rw [if_pos hx]; exact quiet_nan h hx
theorem nan_ffma_y (np nz : Bool) (hy : isNaN y = true) : isNaN (ffmaG np nz x y z) = true := by
  by_cases hx : isNaN x = true
  · exact nan_ffma_x h _ _ hx
  · unfold ffmaG; rw [if_neg hx, if_pos hy]; exact quiet_nan h hy
theorem nan_ffma_z (np nz : Bool) (hz : isNaN z = true) : isNaN (ffmaG np nz x y z) = true := by
  by_cases hx : isNaN x = true
  · exact nan_ffma_x h _ _ hx
  · by_cases hy : isNaN y = true
    · exact nan_ffma_y h _ _ hy
    · unfold ffmaG; rw [if_neg hx, if_neg hy, if_pos hz]; exact quiet_nan h hz
theorem nan_fmaL_x (fm : Bool) (hx : isNaN x = true) : isNaN (fmaL fm x y z) = true := by
  unfold fmaL; cases fm
  · exact nan_fadd_l h (nan_fmul_l h hx)
  · exact nan_ffma_x h _ _ hx
theorem nan_fmaL_z (fm : Bool) (hz : isNaN z = true) : isNaN (fmaL fm x y z) = true := by
  unfold fmaL; cases fm
  · exact nan_fadd_r h hz
  · exact nan_ffma_z h _ _ hz
end nan

/-! ### signs -/
theorem pack_flip {w : Nat} (h : W w) (s : Bool) {m : Nat} (hm : m < 2 ^ (w - 1)) : pack w (!s) m = pack w s m ^^^ BitVec.intMin w := by
  have := flip_sm h (pack w s m)
  exact ext_mag h.pos (by rw [msb_pack h hm, this.1, msb_pack h hm]) (by rw [mag_pack h hm, this.2, mag_pack h hm])
theorem round_flip {w : Nat} (h : W w) (s : Bool) (n d : Nat) : round w (!s) n d = round w s n d ^^^ BitVec.intMin w :=
  pack_flip h s (Nat.lt_of_le_of_lt (Nat.min_le_right _ _) (infMag_lt h))
/-- changing the sign of one factor changes the sign of the product -/
theorem fmul_flip_r {w : Nat} (h : W w) (x y : BitVec w) :
    fmul x (y ^^^ BitVec.intMin w) = fmul x y ^^^ BitVec.intMin w ∨ (isNaN (fmul x y) = true ∧ isNaN (fmul x (y ^^^ BitVec.intMin w)) = true) := by
  unfold fmul
  rw [nan_flip h, inf_flip h, zero_flip h, neg_flip h, val_flip h, Int.natAbs_neg]
  have hs : (neg x != !neg y) = !(neg x != neg y) := by cases neg x <;> cases neg y <;> rfl
  rw [hs]
  split
  · rename_i hx; exact Or.inr ⟨quiet_nan h hx, quiet_nan h hx⟩
  · split
    · rename_i hy; exact Or.inr ⟨quiet_nan h hy, quiet_nan h (by rw [nan_flip h]; exact hy)⟩
    · split
      · split
        · exact Or.inr ⟨nan_default h, nan_default h⟩
        · exact Or.inl (pack_flip h _ (infMag_lt h))
      · exact Or.inl (round_flip h _ _ _)
/-- the square of `-x` is the square of `x` -/
theorem fmul_flip_both {w : Nat} (h : W w) {x : BitVec w} (hx : isNaN x = false) :
    fmul (x ^^^ BitVec.intMin w) (x ^^^ BitVec.intMin w) = fmul x x := by
  unfold fmul
  simp only [nan_flip h, inf_flip h, zero_flip h, neg_flip h, val_flip h, Int.natAbs_neg, hx, bne_self_eq_false, Bool.false_eq_true, if_false]
theorem fdiv_flip_l {w : Nat} (h : W w) (x y : BitVec w) :
    fdiv (x ^^^ BitVec.intMin w) y = fdiv x y ^^^ BitVec.intMin w ∨ (isNaN (fdiv x y) = true ∧ isNaN (fdiv (x ^^^ BitVec.intMin w) y) = true) := by
  have hp0 : 0 < 2 ^ (w - 1) := Nat.two_pow_pos _
  unfold fdiv
  rw [nan_flip h, inf_flip h, zero_flip h, neg_flip h, val_flip h, Int.natAbs_neg]
  have hs : ((!neg x) != neg y) = !(neg x != neg y) := by cases neg x <;> cases neg y <;> rfl
  rw [hs]
  split
  · rename_i hx; exact Or.inr ⟨quiet_nan h hx, quiet_nan h (by rw [nan_flip h]; exact hx)⟩
  · split
    · rename_i hy; exact Or.inr ⟨quiet_nan h hy, quiet_nan h hy⟩
    · split
      · split
        · exact Or.inr ⟨nan_default h, nan_default h⟩
        · exact Or.inl (pack_flip h _ (infMag_lt h))
      · split
        · exact Or.inl (pack_flip h _ hp0)
        · split
          · split
            · exact Or.inr ⟨nan_default h, nan_default h⟩
            · exact Or.inl (pack_flip h _ (infMag_lt h))
          · exact Or.inl (round_flip h _ _ _)
end Dpm.Fp

namespace Dpm.X86
open Dpm.Reg Dpm.Fp
theorem sgB_flip {w : Nat} (x : BitVec w) : sgB (x ^^^ BitVec.intMin w) = sgB x ^^^ BitVec.intMin w := by
  unfold sgB
  apply BitVec.eq_of_getLsbD_eq
  intro i _
  simp only [BitVec.getLsbD_xor, BitVec.getLsbD_and]
  cases x.getLsbD i <;> cases (BitVec.intMin w).getLsbD i <;> rfl
theorem abB_eq {w : Nat} (x : BitVec w) : abB x = x &&& BitVec.intMax w := Fp.xor_sign x
theorem abB_flip {w : Nat} (x : BitVec w) : abB (x ^^^ BitVec.intMin w) = abB x := by
  unfold abB sgB
  apply BitVec.eq_of_getLsbD_eq
  intro i _
  simp only [BitVec.getLsbD_xor, BitVec.getLsbD_and]
  cases x.getLsbD i <;> cases (BitVec.intMin w).getLsbD i <;> rfl
theorem abB_sm {w : Nat} (h : W w) (x : BitVec w) : (abB x).msb = false ∧ mag (abB x) = mag x := by rw [abB_eq]; exact abs_sm h.pos x
theorem abB_nan {w : Nat} (h : W w) (x : BitVec w) : isNaN (abB x) = isNaN x := nan_of_mag' (abB_sm h x).2
theorem sgB_eq {w : Nat} (h : W w) (x : BitVec w) : sgB x = if x.msb then BitVec.intMin w else 0#w := and_intMin h.pos x

/-- a pattern that is a sign or nothing -/
def IsSign {w : Nat} (b : BitVec w) : Prop := b = 0#w ∨ b = BitVec.intMin w
theorem isSign_sgB {w : Nat} (h : W w) (x : BitVec w) : IsSign (sgB x) := by
  rw [sgB_eq h]; split
  · exact Or.inr rfl
  · exact Or.inl rfl
theorem isSign_shl {w : Nat} (h : W w) (k : Nat) (i : BitVec w) (hk : k = 2 ∨ k = 3) :
    IsSign ((i &&& BitVec.ofNat w (2 ^ (k - 1))) <<< (w - k)) := by
  have hw : k < w := by rcases h with h | h <;> omega
  by_cases hb : i.getLsbD (k - 1) = true
  · refine Or.inr (BitVec.eq_of_getLsbD_eq ?_)
    intro j hj
    rw [BitVec.getLsbD_shiftLeft, BitVec.getLsbD_and, BitVec.getLsbD_ofNat, Nat.testBit_two_pow, BitVec.getLsbD_intMin]
    by_cases hj2 : j = w - 1
    · subst hj2
      have e : w - 1 - (w - k) = k - 1 := by omega
      have h1 : w - 1 + 1 = w := by omega
      have h2 : w - 1 < w := by omega
      have h3 : ¬ (w - 1 < w - k) := by omega
      have h4 : k - 1 < w := by omega
      rw [e, hb, decide_eq_true h1, decide_eq_true h2, decide_eq_false h3, decide_eq_true h4]; simp
    · have : ¬ (j + 1 = w) := by omega
      by_cases hlt : j < w - k
      · simp [hlt, this]
      · have : ¬ (k - 1 = j - (w - k)) := by omega
        simp [this]; omega
  · refine Or.inl (BitVec.eq_of_getLsbD_eq ?_)
    intro j hj
    rw [BitVec.getLsbD_shiftLeft, BitVec.getLsbD_and, BitVec.getLsbD_ofNat, Nat.testBit_two_pow]
    by_cases hj2 : k - 1 = j - (w - k)
    · rw [← hj2]; simp [hb]
    · simp [hj2]
theorem isSign_xor {w : Nat} {a b : BitVec w} (ha : IsSign a) (hb : IsSign b) : IsSign (a ^^^ b) := by
  rcases ha with rfl | rfl <;> rcases hb with rfl | rfl
  · exact Or.inl (by simp)
  · exact Or.inr (by simp)
  · exact Or.inr (by simp)
  · exact Or.inl (by simp)
theorem nan_xor_sign {w : Nat} (h : W w) {a b : BitVec w} (hb : IsSign b) : isNaN (a ^^^ b) = isNaN a := by
  rcases hb with rfl | rfl
  · rw [BitVec.xor_zero]
  · exact nan_flip h a
end Dpm.X86
