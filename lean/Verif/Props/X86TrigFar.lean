import Verif.Props.X86TrigAcc
import Mathlib.Analysis.Real.Pi.Bounds
/-!
C56 beyond the range of its theorems: double precision, `2^29 < |x| <= 2^51`, where the library still does the argument reduction itself.
-/
namespace Dpm.X86
open Dpm.Reg Dpm.Fp

/-- one conversion to integers as good as the other for this argument -/
theorem sin_far_val {w : Nat} (h : w = 64) (s : ISA) (T : Ety) (v : VSz) (hs : CvtOk s T v) :
    sinLane (cvttLaneIF s v) (cvtLaneIF s T v) false (sb w false) (abB (BitVec.ofNat w 0x431261ec3f3ae90f)) = BitVec.ofNat w 0x3fc0321773ad710b := by
  subst h
  have e2 : (cvtLaneIF s T v : BitVec 64 → BitVec 64) = fun a => ofInt 64 a.toInt := by
    funext a; unfold cvtLaneIF; rw [if_pos hs]
  rw [e2]
  cases v
  · cases hq : s.dqvl
    · cases h3 : s.sse3
      · have e1 : (cvttLaneIF s .v128 : BitVec 64 → BitVec 64) = fun a => fadd (truncLane 1011 a) off64 - off64 := by
          funext a; rw [cvttLaneIF_128, hq, if_neg (by simp), h3, if_neg (by simp)]
        rw [e1]; decide +kernel
      · have e1 : (cvttLaneIF s .v128 : BitVec 64 → BitVec 64) = fun a => fadd (truncLane 1023 a) off64 - off64 := by
          funext a; rw [cvttLaneIF_128, hq, if_neg (by simp), h3, if_pos rfl]
        rw [e1]; decide +kernel
    · have e1 : (cvttLaneIF s .v128 : BitVec 64 → BitVec 64) = cvtInt 64 .nearest := by
        funext a; rw [cvttLaneIF_128, hq, if_pos rfl]
      rw [e1]; decide +kernel
  · cases hq : s.dqvl
    · have e1 : (cvttLaneIF s .v256 : BitVec 64 → BitVec 64) = fun a => fadd (roundInt .zero a) off64 - off64 := by
        funext a; rw [cvttLaneIF_256, hq, if_neg (by simp)]
      rw [e1]; decide +kernel
    · have e1 : (cvttLaneIF s .v256 : BitVec 64 → BitVec 64) = cvtInt 64 .zero := by
        funext a; rw [cvttLaneIF_256, hq, if_pos rfl]
      rw [e1]; decide +kernel
theorem far_vals {w : Nat} (h : w = 64) : isFinite (BitVec.ofNat w 0x431261ec3f3ae90f) = true ∧ (BitVec.ofNat w 0x431261ec3f3ae90f).msb = false ∧
    rv (BitVec.ofNat w 0x431261ec3f3ae90f) = 5174216881793295 / 4 ∧ rv (BitVec.ofNat w 0x3fc0321773ad710b) = 4558675933753611 / 2 ^ 55 := by
  subst h
  have e : isFinite (BitVec.ofNat 64 0x431261ec3f3ae90f) = true ∧ (BitVec.ofNat 64 0x431261ec3f3ae90f).msb = false ∧
    val (BitVec.ofNat 64 0x431261ec3f3ae90f) = 5174216881793295 * 2 ^ 1072 ∧ val (BitVec.ofNat 64 0x3fc0321773ad710b) = 4558675933753611 * 2 ^ 1019 := by decide +kernel
  rw [rv_of_val e.2.2.1 (b := 2) rfl, rv_of_val e.2.2.2 (b := 55) rfl]
  refine ⟨e.1, e.2.1, ?_, ?_⟩ <;> norm_num
/-- the argument is within 0.0019 of a multiple of `2 pi` -/
theorem sin_far_real : |Real.sin (5174216881793295 / 4)| ≤ 2 / 1000 := by
  have h := Real.sin_sub_nat_mul_two_pi (5174216881793295 / 4) 205875548341734
  rw [← h]
  refine le_trans Real.abs_sin_le_abs ?_
  have h1 := Real.pi_gt_d20
  have h2 := Real.pi_lt_d20
  rw [abs_le]
  constructor <;> push_cast <;> linarith

theorem sin_edge_val {w : Nat} (h : w = 64) (s : ISA) (T : Ety) (v : VSz) (hs : CvtOk s T v) (hq : s.dqvl = false) (fm : Bool) :
    sinLane (cvttLaneIF s v) (cvtLaneIF s T v) fm (sb w false) (abB (BitVec.ofNat w 0x4320000000000000)) =
      BitVec.ofNat w (if fm then 0x64b80434f28f171f else 0x64b80434f28f172e) := by
  subst h
  have e2 : (cvtLaneIF s T v : BitVec 64 → BitVec 64) = fun a => ofInt 64 a.toInt := by
    funext a; unfold cvtLaneIF; rw [if_pos hs]
  rw [e2]
  cases v
  · cases h3 : s.sse3
    · have e1 : (cvttLaneIF s .v128 : BitVec 64 → BitVec 64) = fun a => fadd (truncLane 1011 a) off64 - off64 := by
        funext a; rw [cvttLaneIF_128, hq, if_neg (by simp), h3, if_neg (by simp)]
      rw [e1]; cases fm <;> decide +kernel
    · have e1 : (cvttLaneIF s .v128 : BitVec 64 → BitVec 64) = fun a => fadd (truncLane 1023 a) off64 - off64 := by
        funext a; rw [cvttLaneIF_128, hq, if_neg (by simp), h3, if_pos rfl]
      rw [e1]; cases fm <;> decide +kernel
  · have e1 : (cvttLaneIF s .v256 : BitVec 64 → BitVec 64) = fun a => fadd (roundInt .zero a) off64 - off64 := by
      funext a; rw [cvttLaneIF_256, hq, if_neg (by simp)]
    rw [e1]; cases fm <;> decide +kernel
theorem edge_vals {w : Nat} (h : w = 64) (fm : Bool) : isFinite (BitVec.ofNat w 0x4320000000000000) = true ∧ (BitVec.ofNat w 0x4320000000000000).msb = false ∧
    rv (BitVec.ofNat w 0x4320000000000000) = 2 ^ 51 ∧ 10 ^ 177 < rv (BitVec.ofNat w (if fm then 0x64b80434f28f171f else 0x64b80434f28f172e)) := by
  subst h
  have e : isFinite (BitVec.ofNat 64 0x4320000000000000) = true ∧ (BitVec.ofNat 64 0x4320000000000000).msb = false ∧
    val (BitVec.ofNat 64 0x4320000000000000) = 2 ^ 51 * 2 ^ 1074 := by decide +kernel
  rw [rv_of_val e.2.2 (b := 0) rfl]
  refine ⟨e.1, e.2.1, by norm_num, ?_⟩
  have e1 : val (BitVec.ofNat 64 0x64b80434f28f171f) = (6760024895330079 * 2 ^ 536) * 2 ^ 1074 ∧ val (BitVec.ofNat 64 0x64b80434f28f172e) = (6760024895330094 * 2 ^ 536) * 2 ^ 1074 := by decide +kernel
  have e2 : (2 : ℝ) ^ 536 = 2 ^ 200 * 2 ^ 200 * 2 ^ 136 := by rw [← pow_add, ← pow_add]
  cases fm
  · rw [if_neg (by simp), rv_of_val e1.2 (b := 0) rfl]; push_cast; rw [e2]; norm_num
  · rw [if_pos rfl, rv_of_val e1.1 (b := 0) rfl]; push_cast; rw [e2]; norm_num

section C56
variable {c : Cfg} (hc : c.Ok) (hf : c.T.flt = true) (L : Libm) (o : MathOpt)
include hc hf
theorem sin_reduced (fm : Bool) {a r : BitVec c.w} (hr : r = sinF L.sin (cvttLaneIF c.s c.v) (cvtLaneIF c.s c.T c.v) o fm a) (hfin : isFinite a = true) (hA : |rv a| ≤ 2 ^ (mb c.w - 1)) :
    r = sinLane (cvttLaneIF c.s c.v) (cvtLaneIF c.s c.T c.v) fm (sb c.w a.msb) (abB a) := by
  have h : W c.w := fltW hc.ety hf
  rw [hr]; unfold sinF; dsimp only; rw [if_neg (by rw [not_over h o hA]; simp), finLane_fin h o hfin, sgB_sb h]
/-- C56 (violated beyond `2^29` without FMA): `sin(1293554220448323.75)` in double is above 0.12, although the sine is below 0.002 (the argument is
that close to a multiple of `2 pi`): the products of the reduction are rounded. -/
theorem C56_far_violated (x : c.Data) (h64 : c.w = 64) (hk : CvtOk c.s c.T c.v) :
    EachElt c (fun a r => a = BitVec.ofNat c.w 0x431261ec3f3ae90f → rv a = 1293554220448323.75 ∧ 12 / 100 ≤ rv r ∧ |Real.sin (rv a)| ≤ 2 / 1000) x (vSin c L o false x) := by
  refine each_imp (vSin_elt hc hf L o false x) fun a r hr ha => ?_
  obtain ⟨h1, h2, h3, h4⟩ := far_vals h64
  have e := sin_reduced hc hf L o false hr (by rw [ha]; exact h1) (by rw [ha, h3, h64, show mb 64 = 52 from rfl]; norm_num [abs_of_nonneg])
  rw [ha, h2, sin_far_val h64 c.s c.T c.v hk] at e
  rw [e, ha, h3, h4]
  exact ⟨by norm_num, by norm_num, sin_far_real⟩
/-- C56 (violated below the limit of the library's own reduction): `2^51` is accepted, but the octant `2^51 * 4/pi` is not below `2^51`, the limit of
the conversion to integers before AVX-512DQ; `sin(2^51)` is above `10^177`. -/
theorem C56_edge_violated (fm : Bool) (x : c.Data) (h64 : c.w = 64) (hk : CvtOk c.s c.T c.v) (hq : c.s.dqvl = false) :
    EachElt c (fun a r => a = BitVec.ofNat c.w 0x4320000000000000 → rv a = 2 ^ 51 ∧ 10 ^ 177 < rv r) x (vSin c L o fm x) := by
  refine each_imp (vSin_elt hc hf L o fm x) fun a r hr ha => ?_
  obtain ⟨h1, h2, h3, h4⟩ := edge_vals h64 fm
  have e := sin_reduced hc hf L o fm hr (by rw [ha]; exact h1) (by rw [ha, h3, h64, show mb 64 = 52 from rfl]; norm_num [abs_of_nonneg])
  rw [ha, h2, sin_edge_val h64 c.s c.T c.v hk hq fm] at e
  rw [e, ha, h3]
  exact ⟨rfl, h4⟩
end C56

/-! ### examples -/
def exFar : Cfg := ⟨.sse2L, .f64, 2, .v128⟩
theorem exFar_ok : exFar.Ok := ⟨by decide, by decide, by decide, by decide, by decide⟩
/-- `sin(2^51)` in 2 x double on SSE2 -/
example (L : Libm) : ∃ r, vSin exFar L ⟨true, true⟩ false (vbroadcast exFar (BitVec.ofNat exFar.w 0x4320000000000000) (zeroData exFar)) = .ok r ∧
    ∀ i, i < 2 → 10 ^ 177 < rv (elt exFar r i) := by
  obtain ⟨r, hr, h⟩ := each_bcast exFar_ok _ (C56_edge_violated exFar_ok rfl L ⟨true, true⟩ false
    (vbroadcast exFar (BitVec.ofNat exFar.w 0x4320000000000000) (zeroData exFar)) rfl (Or.inr (Or.inr (Or.inl (by decide)))) rfl)
  exact ⟨r, hr, fun i hi => (h i hi rfl).2⟩
/-- `sin(1293554220448323.75)` in 2 x double on SSE2 -/
example (L : Libm) : ∃ r, vSin exFar L ⟨true, true⟩ false (vbroadcast exFar (BitVec.ofNat exFar.w 0x431261ec3f3ae90f) (zeroData exFar)) = .ok r ∧
    ∀ i, i < 2 → 12 / 100 ≤ rv (elt exFar r i) := by
  obtain ⟨r, hr, h⟩ := each_bcast exFar_ok _ (C56_far_violated exFar_ok rfl L ⟨true, true⟩
    (vbroadcast exFar (BitVec.ofNat exFar.w 0x431261ec3f3ae90f) (zeroData exFar)) rfl (Or.inr (Or.inr (Or.inl (by decide)))))
  exact ⟨r, hr, fun i hi => (h i hi rfl).2.1⟩
end Dpm.X86
