import Verif.Proofs.Ieee
import Verif.Proofs.Blend
import Verif.Proofs.NativeInt
import Verif.Proofs.Vector
import Verif.Model.Cvt
/-! Lane-level facts about the int/float conversions. -/
namespace Dpm.Fp

/-- a positive normal pattern given by its fields -/
theorem pos_fields {w : Nat} (h : W w) {x : BitVec w} {e f : Nat} (hx : x.toNat = e * 2 ^ mb w + f) (he : e < emax w) (hf : f < 2 ^ mb w) :
    x.msb = false ∧ mag x = e * 2 ^ mb w + f ∧ isFinite x = true := by
  have h1 : (e + 1) * 2 ^ mb w ≤ emax w * 2 ^ mb w := Nat.mul_le_mul_right _ he
  have h2 : (e + 1) * 2 ^ mb w = e * 2 ^ mb w + 2 ^ mb w := Nat.succ_mul _ _
  have h3 := infMag_lt h
  have h5 : infMag w = emax w * 2 ^ mb w := rfl
  have h4 := X86.msb_of_toNat h.pos (x := x) (s := false) (m := e * 2 ^ mb w + f) (by omega) (by simpa using hx)
  refine ⟨h4.1, h4.2, ?_⟩
  rw [finite_iff h, h4.2]; omega
theorem val_fields {w : Nat} (h : W w) {x : BitVec w} {e f : Nat} (hx : x.toNat = e * 2 ^ mb w + f) (he : e < emax w) (he0 : 0 < e)
    (hf : f < 2 ^ mb w) : val x = ((2 ^ mb w + f) * 2 ^ (e - 1) : Nat) := by
  have h1 := pos_fields h hx he hf
  unfold val neg
  rw [h1.1, h1.2.1]
  have h2 : e * 2 ^ mb w + f = (e - 1) * 2 ^ mb w + (2 ^ mb w + f) := by
    have := Nat.succ_mul (e - 1) (2 ^ mb w)
    rw [show (e - 1).succ = e by omega] at this
    omega
  rw [h2, magVal_kf (Or.inr (by omega)) (by rw [Nat.pow_succ]; omega)]
  simp

theorem round_zero {w : Nat} (s : Bool) : round w s 0 1 = pack w s 0 := by
  unfold round
  have h := rne_exact (b := mb w) (m := 0) (d := 1) (mb_pos w) Nat.one_pos
  rw [magVal_zero, Nat.zero_mul] at h
  rw [h, Nat.zero_min]
/-- rounding a representable value below the overflow threshold -/
theorem round_repr {w : Nat} (h : W w) {s : Bool} {n m : Nat} (hm : m < infMag w) (hn : n = magVal (mb w) m) :
    isFinite (round w s n 1) = true ∧ val (round w s n 1) = if s then -(n : Int) else n := by
  subst hn
  unfold round
  have h1 := rne_exact (b := mb w) (m := m) (d := 1) (mb_pos w) Nat.one_pos
  have h2 := infMag_lt h
  rw [Nat.mul_one] at h1
  rw [h1, Nat.min_eq_left (by omega), finite_iff h, mag_pack h (by omega), val_pack h (by omega)]
  exact ⟨hm, rfl⟩
theorem val_zeroPack {w : Nat} (h : W w) (s : Bool) : isFinite (pack w s 0) = true ∧ val (pack w s 0) = 0 := by
  have h1 := Nat.two_pow_pos (w - 1)
  rw [finite_iff h, mag_pack h h1, val_pack h h1, magVal_zero]
  refine ⟨?_, by cases s <;> simp⟩
  rcases h with h | h <;> subst h <;> decide

/-- `n` is a finite floating-point number (in units) -/
def Repr (w n : Nat) : Prop := ∃ m, m < infMag w ∧ n = magVal (mb w) m
theorem repr_mk {w : Nat} {f k : Nat} (hf : f ≤ 2 ^ (mb w + 1)) (hk : f * 2 ^ k < magVal (mb w) (infMag w)) : Repr w (f * 2 ^ k) := by
  obtain ⟨m, hm⟩ := magVal_surj (b := mb w) (k := k) hf
  refine ⟨m, ?_, hm.symm⟩
  rw [← hm] at hk
  exact magVal_lt.1 hk
/-- sums and differences that are representable are exact -/
theorem fadd_val {w : Nat} (h : W w) {x y : BitVec w} (hx : isFinite x = true) (hy : isFinite y = true)
    (hr : Repr w (val x + val y).natAbs) : isFinite (fadd x y) = true ∧ val (fadd x y) = val x + val y := by
  rw [fadd_fin hx hy]
  split
  · next h0 => rw [h0]; exact val_zeroPack h _
  · next h0 =>
    obtain ⟨m, hm, he⟩ := hr
    have h1 := round_repr h (s := decide (val x + val y < 0)) hm he
    refine ⟨h1.1, ?_⟩
    rw [h1.2]
    by_cases hn : val x + val y < 0 <;> simp [hn] <;> omega
theorem fsub_val {w : Nat} (h : W w) {x y : BitVec w} (hx : isFinite x = true) (hy : isFinite y = true)
    (hr : Repr w (val x - val y).natAbs) : isFinite (fsub x y) = true ∧ val (fsub x y) = val x - val y := by
  rw [fsub_fin h hx hy]
  split
  · next h0 => rw [h0]; exact val_zeroPack h _
  · next h0 =>
    obtain ⟨m, hm, he⟩ := hr
    have h1 := round_repr h (s := decide (val x - val y < 0)) hm he
    refine ⟨h1.1, ?_⟩
    rw [h1.2]
    by_cases hn : val x - val y < 0 <;> simp [hn] <;> omega
/-- one rounding of the exact sum `z`, when not both operands are negative -/
theorem fadd_ofInt {w : Nat} {x y : BitVec w} {z : Int} (hx : isFinite x = true) (hy : isFinite y = true) (hn : neg y = false)
    (hs : val x + val y = z * (2 ^ unitExp w : Nat)) : fadd x y = ofInt w z := by
  have hU : 0 < 2 ^ unitExp w := Nat.two_pow_pos _
  rw [fadd_fin hx hy, hs]
  unfold ofInt
  generalize 2 ^ unitExp w = U at *
  split
  · next h0 =>
    have : z = 0 := by
      rcases Int.mul_eq_zero.1 h0 with h | h
      · exact h
      · omega
    subst this
    rw [hn]; simp [round_zero]
  · next h0 =>
    congr 1
    · by_cases hz : z < 0
      · have : z * (U : Int) < 0 := Int.mul_neg_of_neg_of_pos hz (by omega)
        simp [hz, this]
      · have : 0 ≤ z * (U : Int) := Int.mul_nonneg (by omega) (by omega)
        simp [hz, this]
    · rw [Int.natAbs_mul, Int.natAbs_natCast]
end Dpm.Fp

namespace Dpm.X86
open Dpm.Reg Dpm.Fp

theorem set1_lane {w n i : Nat} (x : BitVec w) (h : (i + 1) * w ≤ n) : lane w (set1 n x) i = x := lane_ofLanes _ h
/-- a blend with an immediate, seen as a bit-wise selection in wider lanes -/
theorem blendImm_wide {n v : Nat} (a b : BitVec n) (imm i : Nat) (M : BitVec 64) (hv : 0 < v) (hd : 64 = (64 / v) * v) (hn : n % v = 0)
    (hi : (i + 1) * 64 ≤ n) (hM : ∀ j : Fin 64, imm.testBit (i * (64 / v) + j / v) = M.getLsbD j) :
    lane 64 (blendImm v a b imm) i = (M &&& lane 64 b i) ||| (~~~ M &&& lane 64 a i) := by
  apply BitVec.eq_of_getLsbD_eq
  intro j hj
  have hq : (i * 64 + j) / v = i * (64 / v) + j / v := by
    have : i * 64 = v * (i * (64 / v)) := by
      conv => lhs; rw [hd]
      rw [Nat.mul_comm v, Nat.mul_assoc]
    rw [this, Nat.mul_add_div hv]
  have hdm := Nat.div_add_mod (i * 64 + j) v
  have hm := Nat.mod_lt (i * 64 + j) hv
  rw [getLsbD_lane, blendImm, ofLanes, getLsbD_ofBits]
  simp only [BitVec.getLsbD_or, BitVec.getLsbD_and, BitVec.getLsbD_not, getLsbD_lane, hq, hM ⟨j, hj⟩]
  rw [hq, Nat.mul_comm] at hdm
  by_cases hs : M.getLsbD j = true
  · rw [if_pos hs, getLsbD_lane, hdm]
    simp [hs, hm, show i * 64 + j < n by omega]
  · have hs' : M.getLsbD j = false := by simpa using hs
    rw [hs', if_neg (by simp), getLsbD_lane, hdm]
    simp [hj, hm, show i * 64 + j < n by omega]
theorem hiMask_bit : ∀ j : Fin 64, (0xffffffff00000000#64).getLsbD j = decide (32 ≤ j.val) := by decide +kernel
theorem srai_half {n i : Nat} (x : BitVec n) (hi : (i + 1) * 64 ≤ n) :
    lane 32 (lane 64 (sraiL 32 x 16) i) 1 = (lane 32 (lane 64 x i) 1).sshiftRight 16 := by
  have hb : (2 * i + 1 + 1) * 32 ≤ n := by rw [show (2 * i + 1 + 1) * 32 = (i + 1) * 64 by omega]; exact hi
  have hk : (2 * i + 1) * 32 = i * 64 + 1 * 32 := by omega
  have e1 : ∀ y : BitVec n, lane 32 (lane 64 y i) 1 = lane 32 y (2 * i + 1) := fun y => lane_lane y (Nat.le_refl 64) (2 * i + 1) hk
  rw [e1, e1]
  exact lane_map1 (w := 32) (i := 2 * i + 1) (fun x => x.sshiftRight 16) x hb
/-- lane 64 of a 32-bit arithmetic right shift, upper half only -/
theorem srai_hi {n i : Nat} (x : BitVec n) (hn : n % 32 = 0) (hi : (i + 1) * 64 ≤ n) :
    0xffffffff00000000#64 &&& lane 64 (sraiL 32 x 16) i = 0xffffffff00000000#64 &&& (lane 64 x i).sshiftRight 16 := by
  have h0 := srai_half x hi
  generalize lane 64 (sraiL 32 x 16) i = A at h0
  generalize lane 64 x i = X at h0 ⊢
  apply BitVec.eq_of_getLsbD_eq
  intro j hj
  simp only [BitVec.getLsbD_and, hiMask_bit ⟨j, hj⟩]
  by_cases h : 32 ≤ j
  · have h1 := congrArg (fun z => z.getLsbD (j - 32)) h0
    rw [lane32_1_getLsbD _ _ (by omega), BitVec.getLsbD_sshiftRight, show 32 + (j - 32) = j by omega, lane32_1_msb] at h1
    rw [h1, BitVec.getLsbD_sshiftRight]
    by_cases h2 : 16 + (j - 32) < 32
    · rw [if_pos h2, if_pos (by omega), lane32_1_getLsbD _ _ h2, show 32 + (16 + (j - 32)) = 16 + j by omega]
      simp [show ¬ 32 ≤ j - 32 by omega, show ¬ 64 ≤ j by omega]
    · rw [if_neg h2, if_neg (by omega)]
      simp [show ¬ 32 ≤ j - 32 by omega, show ¬ 64 ≤ j by omega]
  · simp [h]

theorem srai_half_lo {n i : Nat} (x : BitVec n) (hi : (i + 1) * 64 ≤ n) :
    lane 32 (lane 64 (sraiL 32 x 16) i) 0 = (lane 32 (lane 64 x i) 0).sshiftRight 16 := by
  have hb : (2 * i + 1) * 32 ≤ n := by
    refine Nat.le_trans ?_ hi
    omega
  have hk : (2 * i) * 32 = i * 64 + 0 * 32 := by omega
  have e1 : ∀ y : BitVec n, lane 32 (lane 64 y i) 0 = lane 32 y (2 * i) := fun y => lane_lane y (by decide : (0 + 1) * 32 ≤ 64) (2 * i) hk
  rw [e1, e1]
  exact lane_map1 (w := 32) (i := 2 * i) (fun x => x.sshiftRight 16) x hb
/-- lane 64 of a 32-bit arithmetic right shift, lower half only -/
theorem srai_lo {n i : Nat} (x : BitVec n) (hi : (i + 1) * 64 ≤ n) :
    0x00000000ffffffff#64 &&& lane 64 (sraiL 32 x 16) i = ((lane 32 (lane 64 x i) 0).sshiftRight 16).setWidth 64 := by
  have h0 := srai_half_lo x hi
  generalize lane 64 (sraiL 32 x 16) i = A at h0
  generalize lane 64 x i = X at h0 ⊢
  have hm : ∀ j : Fin 64, (0x00000000ffffffff#64).getLsbD j = decide (j.val < 32) := by decide +kernel
  apply BitVec.eq_of_getLsbD_eq
  intro j hj
  rw [← h0, BitVec.getLsbD_and, hm ⟨j, hj⟩, BitVec.getLsbD_setWidth]
  by_cases h : j < 32
  · rw [lane32_0_getLsbD _ _ h]; simp [h, hj]
  · simp [h, getLsbD_lane]
/-- what `cvt_i64_f64` computes in each 128-bit lane with SSE4.1 -/
def i64f64Bad (x : BitVec 64) : BitVec 64 :=
  fadd (fsub (((lane 32 x 0).sshiftRight 16).setWidth 64 + 0x4438000000000000#64) 0x4438001000000000#64)
    ((0xffff000000000000#64 &&& 0x4330000000000000#64) ||| (~~~ 0xffff000000000000#64 &&& x))
theorem c_exp84 : ofInt 64 19342813113834066795298816 = 0x4530000000000000#64 := by decide +kernel
theorem c_exp52 : ofInt 64 0x0010000000000000 = 0x4330000000000000#64 := by decide +kernel
theorem c_adj84 : ofInt 64 19342813118337666422669312 = 0x4530000000100000#64 := by decide +kernel
theorem c_exp67 : ofInt 64 442721857769029238784 = 0x4438000000000000#64 := by decide +kernel
theorem c_adj67 : ofInt 64 442726361368656609280 = 0x4438001000000000#64 := by decide +kernel

/-- the pattern `0x433` with the low 32 bits of `x`: `2^52 + x mod 2^32` -/
theorem lo32_toNat (x : BitVec 64) :
    ((0xffffffff00000000#64 &&& 0x4330000000000000#64) ||| (~~~ 0xffffffff00000000#64 &&& x)).toNat = 0x433 * 2 ^ 52 + x.toNat % 2 ^ 32 := by
  have h1 : (~~~ 0xffffffff00000000#64 : BitVec 64) = BitVec.ofNat 64 (2 ^ 32 - 1) := by decide
  have h2 : (0xffffffff00000000#64 &&& 0x4330000000000000#64) = 0x4330000000000000#64 := by decide
  have h3 := Nat.and_two_pow_sub_one_eq_mod x.toNat 32
  rw [h1, h2, BitVec.toNat_or, BitVec.toNat_and, show (BitVec.ofNat 64 (2 ^ 32 - 1)).toNat = 2 ^ 32 - 1 by decide, Nat.and_comm, h3]
  exact (Nat.two_pow_add_eq_or_of_lt (i := 52) (Nat.lt_of_lt_of_le (Nat.mod_lt _ (by decide)) (by decide)) 0x433).symm
theorem lo48_toNat (x : BitVec 64) :
    ((0xffff000000000000#64 &&& 0x4330000000000000#64) ||| (~~~ 0xffff000000000000#64 &&& x)).toNat = 0x433 * 2 ^ 52 + x.toNat % 2 ^ 48 := by
  have h1 : (~~~ 0xffff000000000000#64 : BitVec 64) = BitVec.ofNat 64 (2 ^ 48 - 1) := by decide
  have h2 : (0xffff000000000000#64 &&& 0x4330000000000000#64) = 0x4330000000000000#64 := by decide
  have h3 := Nat.and_two_pow_sub_one_eq_mod x.toNat 48
  rw [h1, h2, BitVec.toNat_or, BitVec.toNat_and, show (BitVec.ofNat 64 (2 ^ 48 - 1)).toNat = 2 ^ 48 - 1 by decide, Nat.and_comm, h3]
  exact (Nat.two_pow_add_eq_or_of_lt (i := 52) (Nat.lt_of_lt_of_le (Nat.mod_lt _ (by decide)) (by decide)) 0x433).symm
theorem hi32_toNat (x : BitVec 64) : (x >>> 32 ||| 0x4530000000000000#64).toNat = 0x453 * 2 ^ 52 + x.toNat / 2 ^ 32 := by
  have h1 := x.isLt
  rw [BitVec.toNat_or, BitVec.toNat_ushiftRight, Nat.shiftRight_eq_div_pow, Nat.or_comm]
  exact (Nat.two_pow_add_eq_or_of_lt (i := 52) (by omega) 0x453).symm

theorem W64 : W 64 := Or.inr rfl
theorem W32 : W 32 := Or.inl rfl
theorem big64 (f k : Nat) (hf : f ≤ 2 ^ 53) (hk : k ≤ 1200) : f * 2 ^ k < magVal 52 (infMag 64) := by
  have h1 : f * 2 ^ k ≤ 2 ^ 53 * 2 ^ 1200 := Nat.mul_le_mul hf (Nat.pow_le_pow_right (by omega) hk)
  exact Nat.lt_of_le_of_lt h1 (by decide +kernel)
theorem sub_units (p q r U : Nat) : ((((p + q) * U : Nat) : Int) - ((p + r) * U : Nat)).natAbs = ((q : Int) - r).natAbs * U := by
  have h : (((p + q) * U : Nat) : Int) - ((p + r) * U : Nat) = ((q : Int) - r) * U := by push_cast; grind
  rw [h, Int.natAbs_mul, Int.natAbs_natCast]
theorem sum_units (x : Int) (p q a m r U : Nat) (h : x = ((q : Int) - a) * m + (p + r : Nat)) :
    (((p + q) * (m * U) : Nat) : Int) - ((p + a) * (m * U) : Nat) + ((p + r) * U : Nat) = x * (U : Int) := by
  subst h; push_cast; grind
/-- `cvt_u64_f64`, one lane -/
theorem u64f64_core (x : BitVec 64) :
    fadd (fsub (x >>> 32 ||| 0x4530000000000000#64) 0x4530000000100000#64)
      ((0xffffffff00000000#64 &&& 0x4330000000000000#64) ||| (~~~ 0xffffffff00000000#64 &&& x)) = ofInt 64 x.toNat := by
  have hx := x.isLt
  have a1 := hi32_toNat x
  have a2 : (0x4530000000100000#64).toNat = 0x453 * 2 ^ 52 + 2 ^ 20 := by decide
  have a3 := lo32_toNat x
  generalize x >>> 32 ||| 0x4530000000000000#64 = A at a1 ⊢
  generalize 0x4530000000100000#64 = J at a2 ⊢
  generalize (0xffffffff00000000#64 &&& 0x4330000000000000#64) ||| (~~~ 0xffffffff00000000#64 &&& x) = B at a3 ⊢
  have b1 := pos_fields W64 (x := A) (e := 0x453) (f := x.toNat / 2 ^ 32) a1 (by decide) (show _ < 2 ^ 52 by omega)
  have b2 := pos_fields W64 (x := J) (e := 0x453) (f := 2 ^ 20) a2 (by decide) (by decide)
  have b3 := pos_fields W64 (x := B) (e := 0x433) (f := x.toNat % 2 ^ 32) a3 (by decide) (show _ < 2 ^ 52 by omega)
  have v1 := val_fields W64 (x := A) (e := 0x453) (f := x.toNat / 2 ^ 32) a1 (by decide) (by decide) (show _ < 2 ^ 52 by omega)
  have v2 := val_fields W64 (x := J) (e := 0x453) (f := 2 ^ 20) a2 (by decide) (by decide) (by decide)
  have v3 := val_fields W64 (x := B) (e := 0x433) (f := x.toNat % 2 ^ 32) a3 (by decide) (by decide) (show _ < 2 ^ 52 by omega)
  have hp : (2 : Nat) ^ (0x453 - 1) = 2 ^ 32 * 2 ^ 1074 := by rw [← Nat.pow_add]
  have hp2 : (2 : Nat) ^ (0x433 - 1) = 2 ^ 1074 := rfl
  have hm : mb 64 = 52 := rfl
  have hu : unitExp 64 = 1074 := rfl
  rw [hm, hp] at v1 v2; rw [hm, hp2] at v3
  have hd : (val A - val J).natAbs = (((x.toNat / 2 ^ 32 : Nat) : Int) - (2 ^ 20 : Nat)).natAbs * 2 ^ 1106 := by
    rw [v1, v2, show (2 : Nat) ^ 1106 = 2 ^ 32 * 2 ^ 1074 by rw [← Nat.pow_add]]
    exact sub_units _ _ _ _
  have s := fsub_val W64 b1.2.2 b2.2.2 (by rw [hd]; exact repr_mk (show _ ≤ 2 ^ 53 by omega) (big64 _ _ (by omega) (by omega)))
  apply fadd_ofInt s.1 b3.2.2 b3.1
  rw [s.2, v1, v2, v3, hu]
  exact sum_units _ (2 ^ 52) _ (2 ^ 20) (2 ^ 32) _ _ (by omega)

theorem hiPart_toNat (Y : BitVec 64) : (0xffffffff00000000#64 &&& Y).toNat = Y.toNat / 2 ^ 32 * 2 ^ 32 := by
  have h : (0xffffffff00000000#64 &&& Y) = (Y >>> 32) <<< 32 := by
    apply BitVec.eq_of_getLsbD_eq
    intro j hj
    rw [BitVec.getLsbD_and, hiMask_bit ⟨j, hj⟩, BitVec.getLsbD_shiftLeft, BitVec.getLsbD_ushiftRight]
    by_cases h : 32 ≤ j
    · simp [h, hj, show 32 + (j - 32) = j by omega]
    · simp [h]
  have h2 := Y.isLt
  rw [h, BitVec.toNat_shiftLeft, BitVec.toNat_ushiftRight, Nat.shiftLeft_eq, Nat.shiftRight_eq_div_pow, Nat.mod_eq_of_lt (by omega)]
theorem i64a_toNat (x : BitVec 64) :
    ((0xffffffff00000000#64 &&& x.sshiftRight 16) + 0x4438000000000000#64).toNat = 0x443 * 2 ^ 52 + (x.toInt / 2 ^ 48 * 2 ^ 32 + 2 ^ 51).toNat := by
  rw [BitVec.toNat_add, hiPart_toNat]
  have h1 : (x.sshiftRight 16).toInt = x.toInt / 2 ^ 16 := by rw [BitVec.toInt_sshiftRight, Int.shiftRight_eq_div_pow]; rfl
  have h2 := BitVec.toInt_eq_toNat_cond (x.sshiftRight 16)
  have h3 := x.toInt_lt
  have h4 := x.le_toInt
  have h5 := (x.sshiftRight 16).isLt
  have h6 : (0x4438000000000000#64).toNat = 0x443 * 2 ^ 52 + 2 ^ 51 := by decide
  rw [h6]
  generalize (x.sshiftRight 16).toNat = y at *
  generalize (x.sshiftRight 16).toInt = z at *
  generalize x.toInt = t at *
  split at h2 <;> omega
/-- `cvt_i64_f64`, one lane -/
theorem i64f64_core (x : BitVec 64) :
    fadd (fsub ((0xffffffff00000000#64 &&& x.sshiftRight 16) + 0x4438000000000000#64) 0x4438001000000000#64)
      ((0xffff000000000000#64 &&& 0x4330000000000000#64) ||| (~~~ 0xffff000000000000#64 &&& x)) = ofInt 64 x.toInt := by
  have a1 := i64a_toNat x
  have a2 : (0x4438001000000000#64).toNat = 0x443 * 2 ^ 52 + (2 ^ 51 + 2 ^ 36) := by decide
  have a3 := lo48_toNat x
  have hx3 := x.toInt_lt
  have hx4 := x.le_toInt
  have hx := BitVec.toInt_eq_toNat_cond x
  have hxl := x.isLt
  generalize (0xffffffff00000000#64 &&& x.sshiftRight 16) + 0x4438000000000000#64 = A at a1 ⊢
  generalize 0x4438001000000000#64 = J at a2 ⊢
  generalize (0xffff000000000000#64 &&& 0x4330000000000000#64) ||| (~~~ 0xffff000000000000#64 &&& x) = B at a3 ⊢
  have ef : (((x.toInt / 2 ^ 48 * 2 ^ 32 + 2 ^ 51).toNat : Nat) : Int) = x.toInt / 2 ^ 48 * 2 ^ 32 + 2 ^ 51 := by omega
  have ex : x.toInt = x.toInt / 2 ^ 48 * 2 ^ 48 + (x.toNat % 2 ^ 48 : Nat) := by split at hx <;> omega
  generalize (x.toInt / 2 ^ 48 * 2 ^ 32 + 2 ^ 51).toNat = f at a1 ef
  have hf : f < 2 ^ 52 := by omega
  have hr : x.toNat % 2 ^ 48 < 2 ^ 52 := by omega
  generalize x.toNat % 2 ^ 48 = r at *
  have b1 := pos_fields W64 (x := A) (e := 0x443) (f := f) a1 (by decide) hf
  have b2 := pos_fields W64 (x := J) (e := 0x443) (f := 2 ^ 51 + 2 ^ 36) a2 (by decide) (by decide)
  have b3 := pos_fields W64 (x := B) (e := 0x433) (f := r) a3 (by decide) hr
  have v1 := val_fields W64 (x := A) (e := 0x443) (f := f) a1 (by decide) (by decide) hf
  have v2 := val_fields W64 (x := J) (e := 0x443) (f := 2 ^ 51 + 2 ^ 36) a2 (by decide) (by decide) (by decide)
  have v3 := val_fields W64 (x := B) (e := 0x433) (f := r) a3 (by decide) (by decide) hr
  have hp : (2 : Nat) ^ (0x443 - 1) = 2 ^ 16 * 2 ^ 1074 := by rw [← Nat.pow_add]
  have hp2 : (2 : Nat) ^ (0x433 - 1) = 2 ^ 1074 := rfl
  have hm : mb 64 = 52 := rfl
  have hu : unitExp 64 = 1074 := rfl
  rw [hm, hp] at v1 v2; rw [hm, hp2] at v3
  have hd : (val A - val J).natAbs = ((f : Int) - (2 ^ 51 + 2 ^ 36 : Nat)).natAbs * 2 ^ 1090 := by
    rw [v1, v2, show (2 : Nat) ^ 1090 = 2 ^ 16 * 2 ^ 1074 by rw [← Nat.pow_add]]
    exact sub_units _ _ _ _
  have s := fsub_val W64 b1.2.2 b2.2.2 (by rw [hd]; exact repr_mk (show _ ≤ 2 ^ 53 by omega) (big64 _ _ (by omega) (by omega)))
  apply fadd_ofInt s.1 b3.2.2 b3.1
  rw [s.2, v1, v2, v3, hu]
  exact sum_units _ (2 ^ 52) _ (2 ^ 51 + 2 ^ 36) (2 ^ 16) _ _ (by omega)

/-! ### vectors -/
theorem hx_w64 {T : Ety} (h8 : T.bytes = 8) : T.w = 64 := by unfold Ety.w; omega
theorem u64f64Sse_lane (s : ISA) (x : BitVec 128) {i : Nat} (hi : i < 2) : lane 64 (u64f64Sse s x) i = ofInt 64 (lane 64 x i).toNat := by
  have hb : (i + 1) * 64 ≤ 128 := by omega
  unfold u64f64Sse
  dsimp only
  unfold faddL fsubL
  rw [lane_map2 _ _ _ hb, lane_map2 _ _ _ hb, lane_or, set1_lane _ hb, set1_lane _ hb, c_exp84, c_adj84, c_exp52]
  rw [show lane 64 (srliL 64 x 32) i = lane 64 x i >>> 32 from lane_map1 _ _ hb]
  rw [← u64f64_core]
  congr 1
  split
  · rw [blendImm_wide x _ 0xcc i 0xffffffff00000000#64 (by decide) (by decide) (by decide) hb
      (by rcases (show i = 0 ∨ i = 1 by omega) with h | h <;> subst h <;> decide +kernel), set1_lane _ hb]
  · rw [lane_or, lane_and, lane_and, lane_not _ hb, set1_lane _ hb, set1_lane _ hb]
theorem u64f64Avx_lane (s : ISA) (x : BitVec 256) {i : Nat} (hi : i < 4) : lane 64 (u64f64Avx s x) i = ofInt 64 (lane 64 x i).toNat := by
  have hb : (i + 1) * 64 ≤ 256 := by omega
  unfold u64f64Avx
  split
  · dsimp only
    unfold faddL fsubL
    rw [lane_map2 _ _ _ hb, lane_map2 _ _ _ hb, lane_or, set1_lane _ hb, set1_lane _ hb, c_exp84, c_adj84, c_exp52]
    rw [show lane 64 (srliL 64 x 32) i = lane 64 x i >>> 32 from lane_map1 _ _ hb]
    rw [← u64f64_core]
    congr 1
    rw [blendImm_wide x _ 0xaa i 0xffffffff00000000#64 (by decide) (by decide) (by decide) hb
      (by rcases (show i = 0 ∨ i = 1 ∨ i = 2 ∨ i = 3 by omega) with h | h | h | h <;> subst h <;> decide +kernel), set1_lane _ hb]
  · exact mux1_lane (T := ⟨8, false, false⟩) ⟨by simp, by simp⟩ _ (fun a => ofInt 64 a.toNat) (fun a i hi => u64f64Sse_lane s a hi) x hi
theorem i64f64Sse_lane (s : ISA) (hs : s.sse41 = false) (x : BitVec 128) {i : Nat} (hi : i < 2) :
    lane 64 (i64f64Sse s x) i = ofInt 64 (lane 64 x i).toInt := by
  have hb : (i + 1) * 64 ≤ 128 := by omega
  unfold i64f64Sse
  dsimp only
  rw [hs, if_neg (by simp), if_neg (by simp)]
  unfold faddL fsubL addL
  rw [lane_map2 _ _ _ hb, lane_map2 _ _ _ hb, lane_map2 _ _ _ hb, set1_lane _ hb, set1_lane _ hb, c_exp67, c_adj67, c_exp52]
  rw [lane_and, set1_lane _ hb, srai_hi x (by decide) hb, ← i64f64_core]
  congr 1
  rw [lane_or, lane_and, lane_and, lane_not _ hb, set1_lane _ hb, set1_lane _ hb]
theorem i64f64Sse_bad (s : ISA) (hs : s.sse41 = true) (x : BitVec 128) {i : Nat} (hi : i < 2) :
    lane 64 (i64f64Sse s x) i = i64f64Bad (lane 64 x i) := by
  have hb : (i + 1) * 64 ≤ 128 := by omega
  unfold i64f64Sse i64f64Bad
  dsimp only
  rw [hs, if_pos rfl, if_pos rfl]
  unfold faddL fsubL addL
  rw [lane_map2 _ _ _ hb, lane_map2 _ _ _ hb, lane_map2 _ _ _ hb, set1_lane _ hb, set1_lane _ hb, c_exp67, c_adj67, c_exp52]
  rw [blendImm_wide (0#128) _ 0x33 i 0x00000000ffffffff#64 (by decide) (by decide) (by decide) hb
      (by rcases (show i = 0 ∨ i = 1 by omega) with h | h <;> subst h <;> decide +kernel),
    srai_lo x hb, lane_zero, BitVec.and_zero, BitVec.or_zero]
  rw [blendImm_wide x _ 0x88 i 0xffff000000000000#64 (by decide) (by decide) (by decide) hb
      (by rcases (show i = 0 ∨ i = 1 by omega) with h | h <;> subst h <;> decide +kernel), set1_lane _ hb]
theorem i64f64Avx_lane (s : ISA) (hs : s.avx2 = true ∨ s.sse41 = false) (x : BitVec 256) {i : Nat} (hi : i < 4) :
    lane 64 (i64f64Avx s x) i = ofInt 64 (lane 64 x i).toInt := by
  have hb : (i + 1) * 64 ≤ 256 := by omega
  unfold i64f64Avx
  split
  · dsimp only
    unfold faddL fsubL addL
    rw [lane_map2 _ _ _ hb, lane_map2 _ _ _ hb, lane_map2 _ _ _ hb, set1_lane _ hb, set1_lane _ hb, c_exp67, c_adj67, c_exp52]
    rw [blendImm_wide (0#256) _ 0xaa i 0xffffffff00000000#64 (by decide) (by decide) (by decide) hb
      (by rcases (show i = 0 ∨ i = 1 ∨ i = 2 ∨ i = 3 by omega) with h | h | h | h <;> subst h <;> decide +kernel)]
    rw [srai_hi x (by decide) hb, lane_zero, BitVec.and_zero, BitVec.or_zero, ← i64f64_core]
    congr 1
    rw [blendImm_wide x _ (blend16x2 0x88) i 0xffff000000000000#64 (by decide) (by decide) (by decide) hb
      (by rcases (show i = 0 ∨ i = 1 ∨ i = 2 ∨ i = 3 by omega) with h | h | h | h <;> subst h <;> decide +kernel), set1_lane _ hb]
  · next h2 =>
    have hs' : s.sse41 = false := by rcases hs with h | h; exact absurd h h2; exact h
    exact mux1_lane (T := ⟨8, false, false⟩) ⟨by simp, by simp⟩ _ (fun a => ofInt 64 a.toInt) (fun a i hi => i64f64Sse_lane s hs' a hi) x hi
end Dpm.X86

namespace Dpm.Fp
theorem log2_two_mul {n : Nat} (hn : n ≠ 0) : (2 * n).log2 = n.log2 + 1 := by
  have h1 := Nat.log2_self_le hn
  have h2 := Nat.lt_log2_self (n := n)
  rw [Nat.log2_eq_iff (by omega)]
  rw [Nat.pow_succ, Nat.pow_succ] at *
  omega
theorem rne_double {b n : Nat} (hn : 2 ^ b ≤ n) : rne b (2 * n) 1 = rne b n 1 + 2 ^ b := by
  have hn0 : n ≠ 0 := by have := Nat.two_pow_pos b; omega
  have hl : b ≤ n.log2 := (Nat.le_log2 hn0).2 hn
  unfold rne
  simp only [Nat.div_one, Nat.one_mul]
  rw [log2_two_mul hn0, show n.log2 + 1 - b = (n.log2 - b) + 1 by omega, Nat.pow_succ, Nat.mul_comm (2 ^ _) 2,
    Nat.mul_div_mul_left _ _ (by omega : 0 < 2), Nat.mul_mod_mul_left, Nat.succ_mul]
  generalize 2 ^ (n.log2 - b) = D
  have e1 : (2 * D < 2 * (2 * (n % D))) ↔ (D < 2 * (n % D)) := by omega
  have e2 : (2 * D = 2 * (2 * (n % D))) ↔ (D = 2 * (n % D)) := by omega
  simp only [e1, e2]
  omega
theorem magVal_double {b m : Nat} (hm : 2 ^ b ≤ m) : magVal b (m + 2 ^ b) = 2 * magVal b m := by
  have hp : 0 < 2 ^ b := Nat.two_pow_pos b
  have h1 : 1 ≤ m / 2 ^ b := (Nat.le_div_iff_mul_le hp).2 (by omega)
  unfold magVal
  rw [Nat.add_mod_right, Nat.add_div_right _ hp, if_neg (by omega), if_neg (by omega)]
  rw [show m / 2 ^ b + 1 - 1 = (m / 2 ^ b - 1) + 1 by omega, Nat.pow_succ]
  grind
/-- rounding inside one binade `[2^b, 2^(b+1)] * 2^K` -/
theorem rne_band {b n K : Nat} (h1 : 2 ^ b * 2 ^ K ≤ n) (h2 : n ≤ 2 ^ (b + 1) * 2 ^ K) :
    rne b n 1 = K * 2 ^ b + n / 2 ^ K + (if 2 ^ K < 2 * (n % 2 ^ K) ∨ (2 ^ K = 2 * (n % 2 ^ K) ∧ n / 2 ^ K % 2 = 1) then 1 else 0) := by
  have hK : 0 < 2 ^ K := Nat.two_pow_pos K
  have hb : 0 < 2 ^ b := Nat.two_pow_pos b
  have hn0 : n ≠ 0 := by have := Nat.mul_pos hb hK; omega
  by_cases hlt : n < 2 ^ (b + 1) * 2 ^ K
  · have hl : n.log2 = b + K := by
      rw [Nat.log2_eq_iff hn0, Nat.pow_add]
      refine ⟨h1, ?_⟩
      rw [show b + K + 1 = (b + 1) + K by omega, Nat.pow_add]; exact hlt
    unfold rne
    simp only [Nat.div_one, Nat.one_mul]
    rw [hl, show b + K - b = K by omega]
  · have he : n = 2 ^ (b + 1) * 2 ^ K := by omega
    have hl : n.log2 = b + K + 1 := by
      rw [Nat.log2_eq_iff hn0, he, ← Nat.pow_add]
      exact ⟨Nat.pow_le_pow_right (by omega) (by omega), Nat.pow_lt_pow_right (by omega) (by omega)⟩
    unfold rne
    simp only [Nat.div_one, Nat.one_mul]
    rw [hl, show b + K + 1 - b = K + 1 by omega]
    have e1 : n / 2 ^ (K + 1) = 2 ^ b := by
      rw [he, Nat.pow_succ, Nat.mul_assoc, Nat.pow_succ, Nat.mul_comm 2, Nat.mul_div_cancel _ (by omega)]
    have e2 : n % 2 ^ (K + 1) = 0 := by
      rw [he, Nat.pow_succ, Nat.mul_assoc, Nat.pow_succ, Nat.mul_comm 2, Nat.mul_mod_left]
    have e3 : n / 2 ^ K = 2 ^ (b + 1) := by rw [he, Nat.mul_div_cancel _ hK]
    have e4 : n % 2 ^ K = 0 := by rw [he, Nat.mul_mod_left]
    have hK1 : 0 < 2 ^ (K + 1) := Nat.two_pow_pos _
    rw [e1, e2, e3, e4, if_neg (by omega), if_neg (by omega), Nat.succ_mul, Nat.pow_succ]
    omega

/-- Adding a constant `P * 2^K` with `2^mb ≤ P < 2^(mb+1)` rounds to multiples of `2^K`: the pattern moves by the nearest-even quotient. -/
theorem fadd_band {w : Nat} (h : W w) {x o : BitVec w} {K P : Nat} (hx : isFinite x = true)
    (ho : o.toNat = K * 2 ^ mb w + P) (hP1 : 2 ^ mb w ≤ P) (hP2 : P ≤ 2 ^ (mb w + 1)) (hPe : P % 2 = 0) (hK : K + 2 < emax w)
    (h1 : ((2 ^ mb w * 2 ^ K : Nat) : Int) ≤ val x + (P * 2 ^ K : Nat))
    (h2 : val x + (P * 2 ^ K : Nat) ≤ ((2 ^ (mb w + 1) * 2 ^ K : Nat) : Int)) :
    ∃ r : Int, IsRint (val x) (2 ^ K : Nat) r ∧ ((fadd x o).toNat : Int) = o.toNat + r := by
  have hb : 0 < 2 ^ mb w := Nat.two_pow_pos _
  have hb2 : 2 ^ 1 ≤ 2 ^ mb w := Nat.pow_le_pow_right (by omega) (mb_pos w)
  have hD : 0 < 2 ^ K := Nat.two_pow_pos _
  have hinf : (K + 3) * 2 ^ mb w ≤ emax w * 2 ^ mb w := Nat.mul_le_mul_right _ hK
  have hi := infMag_lt h
  have hie : infMag w = emax w * 2 ^ mb w := rfl
  have hs3 : (K + 3) * 2 ^ mb w = K * 2 ^ mb w + 3 * 2 ^ mb w := Nat.add_mul _ _ _
  have hps : 2 ^ (mb w + 1) = 2 * 2 ^ mb w := by rw [Nat.pow_succ, Nat.mul_comm]
  have hom := X86.msb_of_toNat h.pos (x := o) (s := false) (m := K * 2 ^ mb w + P) (by omega) (by simpa using ho)
  have hof : isFinite o = true := by rw [finite_iff h, hom.2]; omega
  have hov : val o = (P * 2 ^ K : Nat) := by
    unfold val neg; rw [hom.1, hom.2, magVal_kf (Or.inr hP1) hP2]; simp
  have hnn : 0 < 2 ^ mb w * 2 ^ K := Nat.mul_pos hb hD
  rw [fadd_fin hx hof, hov, if_neg (by omega)]
  obtain ⟨n, hn⟩ : ∃ n : Nat, val x + (P * 2 ^ K : Nat) = n := ⟨(val x + (P * 2 ^ K : Nat)).toNat, by omega⟩
  rw [hn] at h1 h2 ⊢
  have hr := rne_band (b := mb w) (n := n) (K := K) (by omega) (by omega)
  have hnq : n / 2 ^ K ≤ 2 ^ (mb w + 1) := Nat.div_le_of_le_mul (by rw [Nat.mul_comm]; omega)
  have hdm := Nat.div_add_mod n (2 ^ K)
  have hml := Nat.mod_lt n hD
  have hr2 : rne (mb w) n 1 < infMag w := by rw [hr]; split <;> omega
  rw [decide_eq_false (by omega), Int.natAbs_natCast]
  unfold round pack
  rw [Nat.min_eq_left (by omega), BitVec.toNat_ofNat]
  have hww : 2 ^ w = 2 * 2 ^ (w - 1) := by rw [← Nat.pow_succ']; congr 1; have := h.pos; omega
  rw [Nat.mod_eq_of_lt (by simp; omega)]
  have hPK : ((P * 2 ^ K : Nat) : Int) = (P : Int) * (2 ^ K : Nat) := by push_cast; rfl
  rw [hPK] at hn
  generalize 2 ^ K = D at *
  have hdm' : (n : Int) = (D : Int) * (n / D : Nat) + (n % D : Nat) := by exact_mod_cast hdm.symm
  generalize n / D = q at *
  generalize n % D = m at *
  by_cases hup : D < 2 * m ∨ (D = 2 * m ∧ q % 2 = 1)
  · rw [if_pos hup] at hr
    refine ⟨(q : Int) + 1 - P, ?_, by rw [hr, ho]; simp; omega⟩
    have hv : val x = (D : Int) * ((q : Int) - P) + m := by grind
    unfold IsRint
    rw [hv]
    generalize hz : (q : Int) - P = z
    have e1 : (2 * ((q : Int) + 1 - P) - 1) * D = 2 * (D * z) + D := by rw [← hz]; grind
    have e2 : (2 * ((q : Int) + 1 - P) + 1) * D = 2 * (D * z) + 3 * D := by rw [← hz]; grind
    rw [e1, e2]
    generalize (D : Int) * z = Y
    refine ⟨by omega, by omega, ?_⟩
    rintro (h | h) <;> omega
  · rw [if_neg hup] at hr
    refine ⟨(q : Int) - P, ?_, by rw [hr, ho]; simp; omega⟩
    have hv : val x = (D : Int) * ((q : Int) - P) + m := by grind
    unfold IsRint
    rw [hv]
    generalize hz : (q : Int) - P = z
    have e1 : (2 * z - 1) * D = 2 * (D * z) - D := by grind
    have e2 : (2 * z + 1) * D = 2 * (D * z) + D := by grind
    rw [e1, e2]
    generalize (D : Int) * z = Y
    refine ⟨by omega, by omega, ?_⟩
    rintro (h | h) <;> omega
theorem isRint_unique {v D r s : Int} (hD : 0 < D) (h1 : IsRint v D r) (h2 : IsRint v D s) : r = s := by
  obtain ⟨a1, a2, a3⟩ := h1
  obtain ⟨b1, b2, b3⟩ := h2
  have key : ∀ a b : Int, (2 * a - 1) * D ≤ (2 * b + 1) * D → a ≤ b + 1 := by
    intro a b h
    have := Int.le_of_mul_le_mul_right h hD
    omega
  have c1 := key r s (by omega)
  have c2 := key s r (by omega)
  rcases (show r = s ∨ r = s + 1 ∨ s = r + 1 by omega) with h | h | h
  · exact h
  · have e : (2 * r - 1) * D = (2 * s + 1) * D := by rw [h]; congr 1; omega
    have := a3 (Or.inl (by omega)); have := b3 (Or.inr (by omega)); omega
  · have e : (2 * s - 1) * D = (2 * r + 1) * D := by rw [h]; congr 1; omega
    have := a3 (Or.inr (by omega)); have := b3 (Or.inl (by omega)); omega
/-- the conversion instructions' rounding is rounding to nearest even -/
theorem toInt_rint {w : Nat} (x : BitVec w) : IsRint (val x) (2 ^ unitExp w : Nat) (toInt .nearest x) := by
  have hD : 0 < 2 ^ unitExp w := Nat.two_pow_pos _
  unfold toInt roundNat
  dsimp only
  have hv : val x = if neg x then -((val x).natAbs : Int) else (val x).natAbs := by unfold val; split <;> omega
  generalize (val x).natAbs = n at hv ⊢
  generalize 2 ^ unitExp w = D at *
  have hdm := Nat.div_add_mod n D
  have hml := Nat.mod_lt n hD
  have hdm' : (n : Int) = (D : Int) * (n / D : Nat) + (n % D : Nat) := by exact_mod_cast hdm.symm
  generalize n / D = q at *
  generalize n % D = m at *
  rw [hv, hdm']
  unfold IsRint
  obtain ⟨u, hu⟩ : ∃ u : Nat, (if D < 2 * m ∨ D = 2 * m ∧ q % 2 = 1 then 1 else 0) = u := ⟨_, rfl⟩
  rw [hu]
  have hu' : (u = 1 ∧ (D < 2 * m ∨ D = 2 * m ∧ q % 2 = 1)) ∨ (u = 0 ∧ ¬ (D < 2 * m ∨ D = 2 * m ∧ q % 2 = 1)) := by
    split at hu
    · left; exact ⟨hu.symm, by assumption⟩
    · right; exact ⟨hu.symm, by assumption⟩
  cases hng : neg x
  · simp only [Bool.false_eq_true, if_false]
    have e1 : (2 * ((q + u : Nat) : Int) - 1) * D = 2 * (D * (q : Int)) + 2 * (u * D) - D := by push_cast; grind
    have e2 : (2 * ((q + u : Nat) : Int) + 1) * D = 2 * (D * (q : Int)) + 2 * (u * D) + D := by push_cast; grind
    rw [e1, e2]
    generalize (D : Int) * (q : Int) = Y
    rcases hu' with ⟨h, h'⟩ | ⟨h, h'⟩ <;> subst h <;> refine ⟨by omega, by omega, ?_⟩ <;> rintro (h | h) <;> omega
  · simp only [if_true]
    have e1 : (2 * (-((q + u : Nat) : Int)) - 1) * D = -(2 * (D * (q : Int)) + 2 * (u * D) + D) := by push_cast; grind
    have e2 : (2 * (-((q + u : Nat) : Int)) + 1) * D = -(2 * (D * (q : Int)) + 2 * (u * D) - D) := by push_cast; grind
    rw [e1, e2]
    generalize (D : Int) * (q : Int) = Y
    rcases hu' with ⟨h, h'⟩ | ⟨h, h'⟩ <;> subst h <;> refine ⟨by omega, by omega, ?_⟩ <;> rintro (h | h) <;> omega
/-- an integral value is rounded to itself -/
theorem isRint_of_eq {D z : Int} (hD : 0 < D) : IsRint (z * D) D z := by
  have e1 : (2 * z - 1) * D = 2 * (z * D) - D := by grind
  have e2 : (2 * z + 1) * D = 2 * (z * D) + D := by grind
  unfold IsRint; rw [e1, e2]
  generalize z * D = Y
  refine ⟨by omega, by omega, ?_⟩
  rintro (h | h) <;> omega
end Dpm.Fp

namespace Dpm.Fp
theorem ofInt_isRounded {w : Nat} (h : W w) (z : Int) : IsRounded (decide (z < 0)) (z.natAbs * 2 ^ unitExp w) 1 (ofInt w z) :=
  round_isRounded h _ Nat.one_pos
/-- small integers are exact -/
theorem ofInt_exact {w : Nat} (h : W w) {z : Int} (hz : z.natAbs ≤ 2 ^ (mb w + 1)) :
    isFinite (ofInt w z) = true ∧ val (ofInt w z) = z * (2 ^ unitExp w : Nat) := by
  have hbig : 2 ^ (mb w + 1) * 2 ^ unitExp w < magVal (mb w) (infMag w) := by rcases h with h | h <;> subst h <;> decide +kernel
  obtain ⟨m, hm, he⟩ := repr_mk (w := w) (f := z.natAbs) (k := unitExp w) hz (Nat.lt_of_le_of_lt (Nat.mul_le_mul_right _ hz) hbig)
  have h1 := round_repr h (s := decide (z < 0)) hm he
  unfold ofInt
  refine ⟨h1.1, ?_⟩
  rw [h1.2]
  generalize 2 ^ unitExp w = U
  by_cases h0 : z < 0
  · rw [if_pos (by simpa using h0)]
    obtain ⟨n, hn⟩ : ∃ n : Nat, z = -(n : Int) := ⟨z.natAbs, by omega⟩
    subst hn; simp [Int.neg_mul]
  · rw [if_neg (by simpa using h0)]
    obtain ⟨n, hn⟩ : ∃ n : Nat, z = (n : Int) := ⟨z.natAbs, by omega⟩
    subst hn; simp
theorem neg_ofInt {w : Nat} (h : W w) (z : Int) : neg (ofInt w z) = decide (z < 0) := by
  unfold ofInt round neg
  have := infMag_lt h
  exact msb_pack h (by omega)
end Dpm.Fp

namespace Dpm.X86
open Dpm.Reg Dpm.Fp
theorem u32_halves (x : BitVec 32) : (x >>> 1).toInt = (x.toNat / 2 : Nat) ∧ (x &&& 1#32).toInt = (x.toNat % 2 : Nat) := by
  have hx := x.isLt
  refine ⟨?_, ?_⟩
  · rw [BitVec.toInt_eq_toNat_cond, BitVec.toNat_ushiftRight, Nat.shiftRight_eq_div_pow, if_pos (by omega)]
  · have h1 : (x &&& 1#32).toNat = x.toNat % 2 := by rw [BitVec.toNat_and]; exact Nat.and_two_pow_sub_one_eq_mod x.toNat 1
    rw [BitVec.toInt_eq_toNat_cond, h1, if_pos (by omega)]
theorem u32_double {m : Nat} (hm2 : 2 ^ 23 ≤ m) (hm3 : m + 2 ^ 23 < infMag 32) :
    fadd (fadd (pack 32 false m) (pack 32 false m)) (pack 32 false 0) = pack 32 false (m + 2 ^ 23) := by
  have hv := magVal_double hm2
  have hl : infMag 32 < 2 ^ (32 - 1) := infMag_lt W32
  have l1 : m < 2 ^ (32 - 1) := by omega
  have l2 : m + 2 ^ 23 < 2 ^ (32 - 1) := by omega
  have f1 : isFinite (pack 32 false m) = true := by rw [finite_iff W32, mag_pack W32 l1]; omega
  have f2 : isFinite (pack 32 false (m + 2 ^ 23)) = true := by rw [finite_iff W32, mag_pack W32 l2]; omega
  have w1 : val (pack 32 false m) = magVal 23 m := by rw [val_pack W32 l1]; rfl
  have w2 : val (pack 32 false (m + 2 ^ 23)) = magVal 23 (m + 2 ^ 23) := by rw [val_pack W32 l2]; rfl
  have g2 : mag (pack 32 false (m + 2 ^ 23)) ≤ infMag 32 := by rw [mag_pack W32 l2]; omega
  have hp0 : 0 < magVal 23 m := magVal_pos.2 (by omega)
  have z0 := val_zeroPack W32 false
  rw [fadd_exact W32 f1 f1 g2 (by rw [w2]; omega) (by rw [w1, w2]; omega)]
  exact fadd_exact W32 f2 z0.1 g2 (by rw [w2]; omega) (by rw [z0.2]; omega)
/-- `cvt_u32_f32`, one lane: even numbers and numbers below `2^25` -/
theorem u32f32_core (x : BitVec 32) (h : x.toNat % 2 = 0 ∨ x.toNat < 2 ^ 25) :
    fadd (fadd (ofInt 32 (x >>> 1).toInt) (ofInt 32 (x >>> 1).toInt)) (ofInt 32 (x &&& 1#32).toInt) = ofInt 32 x.toNat := by
  have hx := x.isLt
  rw [(u32_halves x).1, (u32_halves x).2]
  have ha := ofInt_exact W32 (z := (x.toNat % 2 : Nat)) (show _ ≤ 2 ^ 24 by omega)
  have hna := neg_ofInt W32 (x.toNat % 2 : Nat)
  have hU : unitExp 32 = 149 := rfl
  by_cases hlt : x.toNat < 2 ^ 25
  · have hb := ofInt_exact W32 (z := (x.toNat / 2 : Nat)) (show _ ≤ 2 ^ 24 by omega)
    have hs := fadd_val W32 hb.1 hb.1 (by
      rw [hb.2, ← Int.add_mul, Int.natAbs_mul, Int.natAbs_natCast, hU, show ((x.toNat / 2 : Nat) + (x.toNat / 2 : Nat) : Int).natAbs = x.toNat / 2 * 2 ^ 1 by omega,
        Nat.mul_assoc, ← Nat.pow_add]
      exact repr_mk (show _ ≤ 2 ^ 24 by omega) (Nat.lt_of_le_of_lt (Nat.mul_le_mul_right _ (show _ ≤ 2 ^ 24 by omega)) (by decide +kernel)))
    apply fadd_ofInt hs.1 ha.1 (by rw [hna]; simp; omega)
    rw [hs.2, ha.2, hb.2, ← Int.add_mul, ← Int.add_mul]
    congr 1; omega
  · have he : x.toNat % 2 = 0 := by omega
    rw [he]
    have hz : ofInt 32 ((0 : Nat) : Int) = pack 32 false 0 := by unfold ofInt; simp [round_zero]
    rw [hz]
    have hq : x.toNat = 2 * (x.toNat / 2) := by omega
    generalize x.toNat / 2 = q at *
    rw [hq]
    have hn : 2 ^ 23 ≤ q * 2 ^ 149 := Nat.le_trans (show _ ≤ 2 ^ 24 * 1 by omega) (Nat.mul_le_mul (by omega) (Nat.two_pow_pos _))
    have hm0 : rne 23 (2 ^ 31 * 2 ^ 149) 1 + 2 ^ 23 < infMag 32 := by decide +kernel
    have hm1 := rne_mono (b := 23) (d := 1) (by omega) Nat.one_pos (Nat.mul_le_mul_right (2 ^ 149) (show q ≤ 2 ^ 31 by omega))
    have hm2 : 2 ^ 23 ≤ rne 23 (q * 2 ^ 149) 1 := by
      have := rne_mono (b := 23) (d := 1) (by omega) Nat.one_pos hn
      rw [show rne 23 (2 ^ 23) 1 = 2 ^ 23 by decide +kernel] at this
      exact this
    have hd := rne_double (b := 23) hn
    have hv := magVal_double hm2
    have e1 : ofInt 32 ((q : Nat) : Int) = pack 32 false (rne 23 (q * 2 ^ 149) 1) := by
      unfold ofInt round
      rw [Int.natAbs_natCast, hU, decide_eq_false (by omega), show mb 32 = 23 from rfl, Nat.min_eq_left (by omega)]
    have e2 : ofInt 32 ((2 * q : Nat) : Int) = pack 32 false (rne 23 (q * 2 ^ 149) 1 + 2 ^ 23) := by
      unfold ofInt round
      rw [Int.natAbs_natCast, hU, decide_eq_false (by omega), Nat.mul_assoc, show mb 32 = 23 from rfl, hd, Nat.min_eq_left (by omega)]
    rw [e1, e2]
    have hm3 : rne 23 (q * 2 ^ 149) 1 + 2 ^ 23 < infMag 32 := Nat.lt_of_le_of_lt (Nat.add_le_add_right hm1 _) hm0
    exact u32_double hm2 hm3

/-- what `cvt_u32_f32` computes in each lane -/
def u32f32Lane (x : BitVec 32) : BitVec 32 := fadd (fadd (ofInt 32 (x >>> 1).toInt) (ofInt 32 (x >>> 1).toInt)) (ofInt 32 (x &&& 1#32).toInt)
theorem u32f32_lane_gen {n : Nat} (x : BitVec n) {i : Nat} (hb : (i + 1) * 32 ≤ n) :
    lane 32 (u32f32 x) i = u32f32Lane (lane 32 x i) := by
  unfold u32f32 faddL cvtepiL
  dsimp only
  rw [lane_map2 _ _ _ hb, lane_map2 _ _ _ hb, lane_map1 _ _ hb, lane_map1 _ _ hb, lane_and, set1_lane _ hb,
    show lane 32 (srliL 32 x 1) i = lane 32 x i >>> 1 from lane_map1 _ _ hb]
  rfl
theorem cvtU32F32_lane (s : ISA) (v : VSz) (x : Vec v) {i : Nat} (hi : i < extent .f32 v) :
    lane 32 (cvtU32F32 s v x) i = u32f32Lane (lane 32 x i) := by
  have hT : Ety.f32.Ok := by decide
  have hbd : (i + 1) * 32 ≤ v.bits := lane_bound hT hi
  cases v with
  | v128 => exact u32f32_lane_gen (n := 128) x hbd
  | v256 =>
    unfold cvtU32F32
    dsimp only
    split
    · exact u32f32_lane_gen (n := 256) x hbd
    · exact mux1_lane hT u32f32 u32f32Lane (fun a i hi => u32f32_lane_gen a (lane_bound hT (v := .v128) hi)) x hi
/-- the body of `cvt_f64_i64`, one lane -/
theorem f64i64_core (x : BitVec 64) (hx : isFinite x = true) (h1 : -((2 ^ 51 * 2 ^ 1074 : Nat) : Int) ≤ val x) (h2 : val x ≤ ((2 ^ 51 * 2 ^ 1074 : Nat) : Int)) :
    ∃ r : Int, IsRint (val x) (2 ^ 1074 : Nat) r ∧ fadd x (ofInt 64 0x0018000000000000) - ofInt 64 0x0018000000000000 = BitVec.ofInt 64 r := by
  have hc : ofInt 64 0x0018000000000000 = 0x4338000000000000#64 := by decide +kernel
  rw [hc]
  obtain ⟨r, hr, he⟩ := fadd_band W64 (x := x) (o := 0x4338000000000000#64) (K := 1074) (P := 3 * 2 ^ 51) hx (by decide) (by decide) (by decide) (by decide) (by decide)
    (by rw [show mb 64 = 52 from rfl]; generalize (2 : Nat) ^ 1074 = U at *; omega)
    (by rw [show mb 64 = 52 from rfl]; generalize (2 : Nat) ^ 1074 = U at *; omega)
  refine ⟨r, hr, ?_⟩
  apply BitVec.eq_of_toInt_eq
  rw [BitVec.toInt_sub, BitVec.toInt_ofInt, BitVec.toInt_eq_toNat_bmod, BitVec.toInt_eq_toNat_bmod, ← Int.sub_bmod, he]
  congr 1; omega
/-- `cvt_f64_u64` without AVX-512, one lane -/
theorem f64u64_core (x : BitVec 64) (hx : isFinite x = true) (h1 : 0 ≤ val x) (h2 : val x ≤ (((2 ^ 52 - 1) * 2 ^ 1074 : Nat) : Int)) :
    ∃ r : Int, IsRint (val x) (2 ^ 1074 : Nat) r ∧ fadd x (ofInt 64 0x0010000000000000) ^^^ ofInt 64 0x0010000000000000 = BitVec.ofInt 64 r := by
  rw [c_exp52]
  obtain ⟨r, hr, he⟩ := fadd_band W64 (x := x) (o := 0x4330000000000000#64) (K := 1074) (P := 2 ^ 52) hx (by decide) (by decide) (by decide) (by decide) (by decide)
    (by rw [show mb 64 = 52 from rfl]; generalize (2 : Nat) ^ 1074 = U at *; omega)
    (by rw [show mb 64 = 52 from rfl]; generalize (2 : Nat) ^ 1074 = U at *; omega)
  refine ⟨r, hr, ?_⟩
  have hU : 0 < (2 : Nat) ^ 1074 := Nat.two_pow_pos _
  have hr0 : 0 ≤ r ∧ r ≤ 2 ^ 52 - 1 := by
    obtain ⟨a, b, _⟩ := hr
    generalize (2 : Nat) ^ 1074 = U at *
    constructor
    · have : (-1) * (U : Int) < (2 * r + 1) * U := by omega
      have := Int.lt_of_mul_lt_mul_right this (by omega)
      omega
    · have : (2 * r - 1) * (U : Int) ≤ (2 * (2 ^ 52 - 1)) * (U : Int) := by
        refine Int.le_trans a ?_
        rw [show ((2 : Int) * (2 ^ 52 - 1)) * U = 2 * ((2 ^ 52 - 1) * U) by grind]
        omega
      have := Int.le_of_mul_le_mul_right this (by omega)
      omega
  obtain ⟨k, rfl⟩ : ∃ k : Nat, r = k := ⟨r.toNat, by omega⟩
  have ho : (0x4330000000000000#64).toNat = 2 ^ 52 * 1075 := by decide
  rw [ho] at he
  apply BitVec.eq_of_toNat_eq
  rw [BitVec.toNat_xor, ho, show (fadd x 0x4330000000000000#64).toNat = 2 ^ 52 * 1075 + k by omega]
  rw [Nat.two_pow_add_eq_or_of_lt (by omega)]
  rw [show BitVec.ofInt 64 (k : Int) = BitVec.ofNat 64 k from rfl, BitVec.toNat_ofNat, Nat.mod_eq_of_lt (by omega)]
  apply Nat.eq_of_testBit_eq
  intro j
  simp only [Nat.testBit_xor, Nat.testBit_or, Nat.testBit_two_pow_mul]
  by_cases hj : 52 ≤ j
  · have hk : k.testBit j = false := Nat.testBit_lt_two_pow (Nat.lt_of_lt_of_le (show k < 2 ^ 52 by omega) (Nat.pow_le_pow_right (by omega) hj))
    simp [hk]
  · simp [hj]
/-- `cvt_f32_u32`, one lane: the offset is half of what it should be, so twice the value is returned -/
theorem f32u32_core (x : BitVec 32) (hx : isFinite x = true) (h1 : 0 ≤ val x) (h2 : val x ≤ (((2 ^ 22 - 1) * 2 ^ 149 : Nat) : Int)) :
    ∃ r : Int, IsRint (2 * val x) (2 ^ 149 : Nat) r ∧ fadd x (ofInt 32 0x400000) ^^^ ofInt 32 0x400000 = BitVec.ofInt 32 r := by
  have hc : ofInt 32 0x400000 = 0x4a800000#32 := by decide +kernel
  rw [hc]
  obtain ⟨r, hr, he⟩ := fadd_band W32 (x := x) (o := 0x4a800000#32) (K := 148) (P := 2 ^ 23) hx (by decide) (by decide) (by decide) (by decide) (by decide)
    (by rw [show mb 32 = 23 from rfl]; omega)
    (by rw [show mb 32 = 23 from rfl]; omega)
  have hr' : IsRint (2 * val x) (2 ^ 149 : Nat) r := by
    obtain ⟨a, b, c⟩ := hr
    have e1 : (2 * r - 1) * ((2 ^ 149 : Nat) : Int) = 2 * ((2 * r - 1) * ((2 ^ 148 : Nat) : Int)) := by grind
    have e2 : (2 * r + 1) * ((2 ^ 149 : Nat) : Int) = 2 * ((2 * r + 1) * ((2 ^ 148 : Nat) : Int)) := by grind
    unfold IsRint
    rw [e1, e2]
    refine ⟨by omega, by omega, fun h => c (by omega)⟩
  refine ⟨r, hr', ?_⟩
  have hr0 : 0 ≤ r ∧ r ≤ 2 ^ 23 - 2 := by
    obtain ⟨a, b, _⟩ := hr
    generalize hU : (2 : Nat) ^ 148 = U at *
    have hUp : 0 < U := by rw [← hU]; exact Nat.two_pow_pos _
    have h2' : val x ≤ (2 ^ 23 - 2) * (U : Int) := by
      refine Int.le_trans h2 ?_
      rw [show (2 : Nat) ^ 149 = U * 2 by rw [← hU, ← Nat.pow_succ]]
      rw [Int.natCast_mul, Int.natCast_mul, show ((2 ^ 22 - 1 : Nat) : Int) = 4194303 from rfl]; omega
    constructor
    · have : (-1) * (U : Int) < (2 * r + 1) * U := by omega
      have := Int.lt_of_mul_lt_mul_right this (by omega)
      omega
    · have : (2 * r - 1) * (U : Int) ≤ (2 * (2 ^ 23 - 2)) * (U : Int) := by
        refine Int.le_trans a ?_
        omega
      have := Int.le_of_mul_le_mul_right this (by omega)
      omega
  obtain ⟨k, rfl⟩ : ∃ k : Nat, r = k := ⟨r.toNat, by omega⟩
  have ho : (0x4a800000#32).toNat = 2 ^ 23 * 149 := by decide
  rw [ho] at he
  apply BitVec.eq_of_toNat_eq
  rw [BitVec.toNat_xor, ho, show (fadd x 0x4a800000#32).toNat = 2 ^ 23 * 149 + k by omega]
  rw [Nat.two_pow_add_eq_or_of_lt (by omega)]
  rw [show BitVec.ofInt 32 (k : Int) = BitVec.ofNat 32 k from rfl, BitVec.toNat_ofNat, Nat.mod_eq_of_lt (by omega)]
  apply Nat.eq_of_testBit_eq
  intro j
  simp only [Nat.testBit_xor, Nat.testBit_or, Nat.testBit_two_pow_mul]
  by_cases hj : 23 ≤ j
  · have hk : k.testBit j = false := Nat.testBit_lt_two_pow (Nat.lt_of_lt_of_le (show k < 2 ^ 23 by omega) (Nat.pow_le_pow_right (by omega) hj))
    simp [hk]
  · simp [hj]
end Dpm.X86

namespace Dpm.Fp
/-- the truncating conversion truncates -/
theorem toInt_trunc {w : Nat} (x : BitVec w) : IsTrunc (val x) (2 ^ unitExp w : Nat) (toInt .zero x) := by
  have hD : 0 < 2 ^ unitExp w := Nat.two_pow_pos _
  unfold toInt roundNat
  dsimp only
  have hv : val x = if neg x then -((val x).natAbs : Int) else (val x).natAbs := by unfold val; split <;> omega
  generalize (val x).natAbs = n at hv ⊢
  generalize 2 ^ unitExp w = D at *
  have hdm := Nat.div_add_mod n D
  have hml := Nat.mod_lt n hD
  have hdm' : (n : Int) = (D : Int) * (n / D : Nat) + (n % D : Nat) := by exact_mod_cast hdm.symm
  generalize n / D = q at *
  generalize n % D = m at *
  rw [hv, hdm']
  unfold IsTrunc
  cases hng : neg x
  · simp only [Bool.false_eq_true, if_false, Nat.add_zero]
    have e1 : (q : Int) * D = D * q := Int.mul_comm _ _
    have e2 : ((q : Int) + 1) * D = D * q + D := by rw [Int.add_mul, Int.mul_comm]; omega
    have e3 : 0 ≤ (D : Int) * q := Int.mul_nonneg (by omega) (by omega)
    rw [e1, e2]
    generalize (D : Int) * (q : Int) = Y at *
    omega
  · simp only [if_true, Nat.add_zero]
    have e1 : -(q : Int) * D = -(D * q) := by grind
    have e2 : (-(q : Int) - 1) * D = -(D * q) - D := by grind
    have e3 : 0 ≤ (D : Int) * q := Int.mul_nonneg (by omega) (by omega)
    have e4 : (-(q : Int) + 1) * D = -(D * q) + D := by grind
    rw [e1, e2, e4]
    by_cases hz : q = 0
    · subst hz; simp; omega
    · have e5 : (D : Int) * 1 ≤ (D : Int) * q := Int.mul_le_mul_of_nonneg_left (by omega) (by omega)
      generalize (D : Int) * (q : Int) = Y at *
      omega
theorem isTrunc_unique {v D r s : Int} (hD : 0 < D) (h1 : IsTrunc v D r) (h2 : IsTrunc v D s) : r = s := by
  have key : ∀ a b : Int, a * D < b * D → a < b := fun a b h => Int.lt_of_mul_lt_mul_right h (by omega)
  rcases (show 0 ≤ v ∨ v < 0 by omega) with h | h
  · have a := h1.1 h; have b := h2.1 h
    have := key r (s + 1) (by omega); have := key s (r + 1) (by omega)
    omega
  · have a := h1.2 h; have b := h2.2 h
    have := key (r - 1) s (by omega); have := key (s - 1) r (by omega)
    omega
theorem isTrunc_of_eq {D z : Int} (hD : 0 < D) : IsTrunc (z * D) D z := by
  have e1 : (z + 1) * D = z * D + D := by grind
  have e2 : (z - 1) * D = z * D - D := by grind
  unfold IsTrunc
  rw [e1, e2]
  generalize z * D = Y
  omega
end Dpm.Fp

/-! ### copies through another element type of the same size -/
namespace Dpm.X86
open Dpm.Reg Dpm.Fp
section
variable {c : Cfg} (hc : c.Ok) {U : Ety}
include hc
theorem storeAs_eq (g : Vec c.v → Vec c.v) (d : c.Data) (len : Nat) (mem : Mem (BitVec U.w)) (n : Nat) :
    forRangeM n (fun j (m : Mem (BitVec U.w)) => if (j + 1) * c.e ≤ len then
      (some (g (d j))).map (fun y => forRange c.e (fun k m => m.set (j * c.e + k) (lane U.w y k)) m) else none) mem =
      if n * c.e ≤ len then some (fun p => if p < n * c.e then lane U.w (g (d (p / c.e))) (p % c.e) else mem p) else none := by
  have he : 0 < c.e := extent_pos hc.ety c.v
  induction n with
  | zero => simp [forRangeM]
  | succ n ih =>
    simp only [forRangeM, ih]
    have hs : (n + 1) * c.e = n * c.e + c.e := Nat.succ_mul _ _
    by_cases h1 : (n + 1) * c.e ≤ len
    · have h2 : n * c.e ≤ len := by omega
      rw [if_pos h2, if_pos h1, Option.bind_some, if_pos h1, Option.map_some]
      congr 1
      funext p
      rw [forRange_store_at]
      dsimp only
      by_cases hp : p < n * c.e
      · rw [if_neg (by omega), if_pos hp, if_pos (by omega)]
      · by_cases hp2 : p < (n + 1) * c.e
        · rw [if_pos (by omega), if_pos hp2]
          have e1 : p / c.e = n := by rw [Nat.div_eq_iff he]; omega
          have e2 : p % c.e = p - n * c.e := by
            have := Nat.div_add_mod p c.e
            rw [e1, Nat.mul_comm] at this; omega
          rw [e1, e2]
        · rw [if_neg (by omega), if_neg hp, if_neg hp2]
    · rw [if_neg h1]
      by_cases h2 : n * c.e ≤ len
      · rw [if_pos h2, Option.bind_some, if_neg h1]
      · rw [if_neg h2]; rfl
theorem copyToAs_native (g : Vec c.v → Vec c.v) (hg : ∀ x, nativeVecCast c.s c.T U c.v x = some (g x)) {f : Flag}
    (hf : f.aligned c.v.bytes = true) (d : c.Data) (len : Nat) (mem : Mem (BitVec U.w)) :
    copyToAs c U f d len mem = if c.dataSize * c.e ≤ len then
      .ok (fun p => if p < c.dataSize * c.e then lane U.w (g (d (p / c.e))) (p % c.e) else mem p) else .ub := by
  unfold copyToAs
  rw [if_pos hf]
  simp only [hg]
  rw [storeAs_eq hc]
  split <;> rfl
omit hc in
theorem loadAs_eq (g : Vec c.v → Vec c.v) (d : c.Data) (len : Nat) (mem : Mem (BitVec U.w)) (n : Nat) :
    forRangeM n (fun j (d : c.Data) => if (j + 1) * c.e ≤ len then
      (some (g (ofLanes c.v.bits U.w (fun k => mem (j * c.e + k))))).map (fun y => d.set j y) else none) d =
      if n * c.e ≤ len then some (fun j => if j < n then g (ofLanes c.v.bits U.w (fun k => mem (j * c.e + k))) else d j) else none := by
  induction n with
  | zero => simp [forRangeM]
  | succ n ih =>
    simp only [forRangeM, ih]
    have hs : (n + 1) * c.e = n * c.e + c.e := Nat.succ_mul _ _
    by_cases h1 : (n + 1) * c.e ≤ len
    · have h2 : n * c.e ≤ len := by omega
      rw [if_pos h2, if_pos h1, Option.bind_some, if_pos h1, Option.map_some]
      congr 1
      funext p
      by_cases hp : p = n
      · subst hp; rw [Mem.set_same, if_pos (by omega)]
      · rw [Mem.set_ne _ _ hp]
        by_cases h3 : p < n
        · rw [if_pos h3, if_pos (by omega)]
        · rw [if_neg h3, if_neg (by omega)]
    · rw [if_neg h1]
      by_cases h2 : n * c.e ≤ len
      · rw [if_pos h2, Option.bind_some, if_neg h1]
      · rw [if_neg h2]; rfl
theorem copyFromAs_native (g : Vec c.v → Vec c.v) (hg : ∀ x, nativeVecCast c.s U c.T c.v x = some (g x)) {f : Flag}
    (hf : f.aligned c.v.bytes = true) (d : c.Data) (len : Nat) (mem : Mem (BitVec U.w)) (hl : c.dataSize * c.e ≤ len) :
    ∃ r, copyFromAs c U f d len mem = .ok r ∧ ∀ i, i < c.N →
      elt c r i = lane c.w (g (ofLanes c.v.bits U.w (fun k => mem (i / c.e * c.e + k)))) (i % c.e) := by
  unfold copyFromAs
  rw [if_pos hf]
  simp only [hg]
  rw [loadAs_eq, if_pos hl]
  refine ⟨_, rfl, fun i hi => ?_⟩
  unfold elt
  dsimp only
  rw [if_pos (idx_lt hc hi)]
/-- element by element -/
theorem copyToAs_elem {f : Flag} (hf : f.aligned c.v.bytes = false) (d : c.Data) (len : Nat) (mem : Mem (BitVec U.w)) (y : Nat → BitVec U.w)
    (hy : ∀ i, i < c.N → scalarCast c.T U (elt c d i) = some (y i)) (hl : c.N ≤ len) :
    copyToAs c U f d len mem = .ok (fun p => if p < c.N then y p else mem p) := by
  unfold copyToAs
  rw [hf, if_neg (by simp)]
  have h : ∀ n, n ≤ c.N → forRangeM n (fun i (m : Mem (BitVec U.w)) => if i < len then (scalarCast c.T U (elt c d i)).map (fun y => m.set i y) else none) mem =
      some (fun p => if p < n then y p else mem p) := by
    intro n
    induction n with
    | zero => intro _; simp [forRangeM]
    | succ n ih =>
      intro hn
      simp only [forRangeM, ih (by omega)]
      rw [Option.bind_some, if_pos (by omega), hy n (by omega), Option.map_some]
      congr 1
      funext p
      by_cases hp : p = n
      · subst hp; rw [Mem.set_same, if_pos (by omega)]
      · rw [Mem.set_ne _ _ hp]
        by_cases h3 : p < n
        · rw [if_pos h3, if_pos (by omega)]
        · rw [if_neg h3, if_neg (by omega)]
  rw [h c.N (Nat.le_refl _)]; rfl
theorem copyFromAs_elem {f : Flag} (hf : f.aligned c.v.bytes = false) (d : c.Data) (len : Nat) (mem : Mem (BitVec U.w)) (y : Nat → BitVec c.w)
    (hy : ∀ i, i < c.N → scalarCast U c.T (mem i) = some (y i)) (hl : c.N ≤ len) :
    ∃ r, copyFromAs c U f d len mem = .ok r ∧ ∀ i, i < c.N → elt c r i = y i := by
  unfold copyFromAs
  rw [hf, if_neg (by simp)]
  have h : ∀ n, n ≤ c.N → ∃ r, forRangeM n (fun i (d : c.Data) => if i < len then (scalarCast U c.T (mem i)).map (fun y => setElt c d i y) else none) d = some r ∧
      ∀ k, elt c r k = if k < n then y k else elt c d k := by
    intro n
    induction n with
    | zero => exact fun _ => ⟨d, rfl, fun k => by simp⟩
    | succ n ih =>
      intro hn
      obtain ⟨r, hr, hk⟩ := ih (by omega)
      refine ⟨setElt c r n (y n), ?_, ?_⟩
      · simp only [forRangeM]
        rw [hr, Option.bind_some, if_pos (by omega), hy n (by omega), Option.map_some]
      · intro k
        rw [elt_setElt hc, hk]
        by_cases h1 : k = n
        · subst h1; simp
        · by_cases h2 : k < n
          · rw [if_neg h1, if_pos h2, if_pos (by omega)]
          · rw [if_neg h1, if_neg h2, if_neg (by omega)]
  obtain ⟨r, hr, hk⟩ := h c.N (Nat.le_refl _)
  exact ⟨r, by rw [hr]; rfl, fun i hi => by rw [hk, if_pos hi]⟩
end
end Dpm.X86
