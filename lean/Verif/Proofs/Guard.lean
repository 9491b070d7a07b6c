import Verif.Proofs.Frexp
import Verif.Proofs.StoreExp
/-! Branches of the kernels on `test_mask`, and the partial 64-bit compares. -/
namespace Dpm.X86
open Dpm.Reg Dpm.Fp

theorem movmsk8_bit (x : BitVec 128) {k : Nat} (hk : k < 16) : (movmskInt (n := 128) 8 x).getLsbD k = (lane 8 x k).msb := by
  rw [movmskInt_bit, decide_eq_true (by omega : k < 32), decide_eq_true (by omega : (k + 1) * 8 ≤ 128)]; simp
/-- a lane of ones makes `test_mask` true -/
theorem testMask_of_lane (s : ISA) {T : Ety} (h : T.Ok) {v : VSz} {x : Vec v} {i : Nat} (hi : i < extent T v)
    (hx : lane T.w x i = laneMask T.w true) : testMask s v x = true := by
  have hw : 0 < T.w := w_pos h
  have hnz : nonzero x = true := by
    unfold nonzero
    simp only [decide_eq_true_eq]
    intro h0
    rw [h0, lane_zero] at hx
    have := (laneMask_eq_zero hw true).1 hx.symm
    cases this
  cases v with
  | v256 => exact hnz
  | v128 =>
    by_cases h4 : s.sse41 = true
    · exact (if_pos h4).trans hnz
    · have e : testMask s .v128 x = decide (movmskInt (n := 128) 8 x ≠ 0) := if_neg h4
      rw [e]
      simp only [decide_eq_true_eq]
      intro h0
      have hb : T.w = T.bytes * 8 := by unfold Ety.w; omega
      have hB : 0 < T.bytes := h.bytes_pos
      have hlb := lane_bound h (v := .v128) hi
      have hlt : i * T.bytes < 16 := by
        have h1 : (i + 1) * T.w ≤ 128 := hlb
        rw [hb, ← Nat.mul_assoc, Nat.succ_mul] at h1; omega
      have h2 := movmsk8_bit x hlt
      rw [h0] at h2
      have h3 : lane 8 (lane T.w x i) 0 = lane 8 x (i * T.bytes) := lane_lane (w := T.w) (v := 8) (i := i) (j := 0) x (by omega) (i * T.bytes) (by rw [hb, ← Nat.mul_assoc]; omega)
      rw [← h3, hx, laneMask_lane _ _ _ (by omega), laneMask_msb (by decide)] at h2
      simp at h2
/-- `if (test_mask(m)) y = blendv(y, z, m)` -/
theorem guard_lane (s : ISA) {T : Ety} (h : T.Ok) {v : VSz} {i : Nat} (hi : i < extent T v) (y z m : Vec v) (p : Bool)
    (hm : lane T.w m i = laneMask T.w p) :
    lane T.w (if testMask s v m then blendv s T v y z m else y) i = if p then lane T.w z i else lane T.w y i := by
  cases ht : testMask s v m
  · have hp : p = false := by
      cases p
      · rfl
      · rw [testMask_of_lane s h hi hm] at ht; cases ht
    rw [hp]; simp
  · simp only [if_true]
    exact blendv_lane s h v _ _ _ hi p hm

/-- SSE2 compares only the low dwords of 8-byte lanes -/
def lowCmp (s : ISA) (T : Ety) (v : VSz) : Bool := decide (T.bytes = 8) && decide (v = .v128) && !s.sse41
/-- greater-than of `cmp_gt_l32` -/
def gtLow (low : Bool) {w : Nat} (a b : BitVec w) : Bool :=
  if low then decide ((BitVec.setWidth 32 b).toInt < (BitVec.setWidth 32 a).toInt) else decide (b.toInt < a.toInt)
theorem cmpGtLow_lane (s : ISA) {T : Ety} (h : T.Ok) {v : VSz} (a b : Vec v) {i : Nat} (hi : i < extent T v) :
    lane T.w (cmpGtLow s T v a b) i = laneMask T.w (gtLow (lowCmp s T v) (lane T.w a i) (lane T.w b i)) := by
  unfold cmpGtLow
  by_cases h8 : T.bytes = 8
  · rw [if_pos h8]
    have hw : T.w = 64 := by unfold Ety.w; omega
    cases v with
    | v256 =>
      have e : lowCmp s T .v256 = false := by simp [lowCmp]
      rw [e]
      have := cmpGtI_lane s h .v256 a b hi
      rw [h8] at this; exact this
    | v128 =>
      by_cases h4 : s.sse41 = true
      · have e : lowCmp s T .v128 = false := by simp [lowCmp, h4]
        rw [e]
        have := cmpGtI_lane s h .v128 a b hi
        rw [h8] at this
        have e2 : cmpGtI s 8 .v128 a b = cmpGtL32 s .v128 a b := by
          show cmpGtI128 s 8 a b = _
          unfold cmpGtI128 cmpGtL32
          simp [h4]
        rw [e2] at this; exact this
      · have e : lowCmp s T .v128 = true := by simp [lowCmp, h4, h8]
        rw [e]
        have hi2 : i < 2 := by
          have h1 : (i + 1) * T.w ≤ 128 := lane_bound h (v := .v128) hi
          rw [hw] at h1; omega
        have e3 : cmpGtL32 s .v128 a b = shufEpi32 (cmpgtL (n := 128) 32 a b) 2 2 0 0 := if_neg h4
        rw [e3]
        have hT : ∀ x : BitVec 128, ∀ j, BitVec.setWidth 32 (lane T.w x j) = lane 32 x (2 * j) := by
          intro x j; rw [hw]; exact (low32 x j).symm
        unfold gtLow
        rw [if_pos rfl]
        simp only [hT]
        rw [hw]
        have key : ∀ k, k < 2 → lane 32 (lane 64 (shufEpi32 (cmpgtL (n := 128) 32 a b) 2 2 0 0) i) k =
            laneMask 32 (decide ((lane 32 (n := 128) b (2 * i)).toInt < (lane 32 (n := 128) a (2 * i)).toInt)) := by
          intro k hk
          rw [lane_lane (w := 64) (v := 32) (i := i) (j := k) _ (by omega) (2 * i + k) (by omega), lane_shuf _ _ _ _ _ (by omega)]
          have hg : lane 32 (cmpgtL (n := 128) 32 a b) (2 * i) = laneMask 32 (decide ((lane 32 (n := 128) b (2 * i)).toInt < (lane 32 (n := 128) a (2 * i)).toInt)) :=
            lane_map2 _ _ _ (by omega)
          refine Eq.trans ?_ hg
          rcases (by omega : i = 0 ∨ i = 1) with rfl | rfl <;> rcases (by omega : k = 0 ∨ k = 1) with rfl | rfl <;> rfl
        apply ext_lanes (w := 32) (e := 2) (by decide)
        intro k hk
        rw [key k hk, laneMask_lane _ _ _ (by omega)]
  · rw [if_neg h8]
    have e : lowCmp s T v = false := by simp [lowCmp, h8]
    rw [e]
    exact cmpGtI_lane s h v a b hi
end Dpm.X86
