import Verif.Proofs.Blend
import Verif.Props.Util
/-! Lemmas about movemask, popcount, bit scans and the element view of the native storage. -/
namespace Dpm.X86
open Dpm.Reg Dpm.Util

/-! ### movemask -/
theorem movmskInt_bit (w : Nat) {n : Nat} (x : BitVec n) (k : Nat) :
    (movmskInt w x).getLsbD k = (decide (k < 32) && (decide ((k + 1) * w ≤ n) && (lane w x k).msb)) := by
  unfold movmskInt; rw [getLsbD_ofBits]

/-- the configurations whose movemask fills all 32 bits of the `int` (sign-extended afterwards) -/
def wideMask (s : ISA) (T : Ety) (v : VSz) : Prop := v = .v256 ∧ T.bytes ≤ 2 ∧ s.avx2 = true
instance (s : ISA) (T : Ety) (v : VSz) : Decidable (wideMask s T v) := by unfold wideMask; infer_instance

theorem movemaskW_pos {T : Ety} (h : T.Ok) : 8 ≤ movemaskW T := by
  unfold movemaskW Ety.w; have := h.bytes_pos; split <;> omega
theorem movemaskW_mul {T : Ety} (h : T.Ok) (v : VSz) : extent T v * movemaskBits T * movemaskW T = v.bits := by
  unfold movemaskW movemaskBits Ety.w extent
  rcases h.1 with h | h | h | h <;> rw [h] <;> cases v <;> rfl
theorem mb_pos (T : Ety) : 0 < movemaskBits T := by unfold movemaskBits; split <;> omega
theorem movemaskW_T {T : Ety} (h : T.Ok) : T.w = movemaskBits T * movemaskW T := by
  unfold movemaskW movemaskBits Ety.w
  rcases h.1 with h | h | h | h <;> rw [h] <;> rfl

theorem fits_iff {T : Ety} (h : T.Ok) (v : VSz) (k : Nat) :
    (k + 1) * movemaskW T ≤ v.bits ↔ k < extent T v * movemaskBits T := by
  rw [← movemaskW_mul h v]
  have := movemaskW_pos h
  constructor
  · intro hk
    exact Nat.lt_of_lt_of_le (Nat.lt_succ_self k) (Nat.le_of_mul_le_mul_right hk (by omega))
  · intro hk; exact Nat.mul_le_mul_right _ hk

theorem bits_total {T : Ety} (h : T.Ok) (v : VSz) : extent T v * movemaskBits T ≤ 32 ∧ (v = .v128 → extent T v * movemaskBits T ≤ 16) ∧
    (v = .v256 → 2 < T.bytes → extent T v * movemaskBits T ≤ 8) ∧ (v = .v256 → T.bytes ≤ 2 → extent T v * movemaskBits T = 32) := by
  unfold movemaskBits extent
  rcases h.1 with h | h | h | h <;> rw [h] <;> cases v <;> decide

theorem signExtend_bit (x : BitVec 32) (k : Nat) (hk : k < 64) :
    (x.signExtend 64).getLsbD k = if k < 32 then x.getLsbD k else x.getLsbD 31 := by
  rw [BitVec.getLsbD_signExtend]
  simp only [hk, decide_true, Bool.true_and]
  split
  · rfl
  · rw [BitVec.msb_eq_getLsbD_last]

theorem mv_bit {T : Ety} (h : T.Ok) (v : VSz) (x : Vec v) (k : Nat) (hk : k < 64) :
    ((movmskInt (movemaskW T) x).signExtend 64).getLsbD k =
      if k < extent T v * movemaskBits T then (lane (movemaskW T) x k).msb
      else if v = .v256 ∧ T.bytes ≤ 2 then (lane (movemaskW T) x 31).msb else false := by
  obtain ⟨b1, b2, b3, b4⟩ := bits_total h v
  rw [signExtend_bit _ k hk]
  simp only [movmskInt_bit, fits_iff h v]
  by_cases hk1 : k < extent T v * movemaskBits T
  · rw [if_pos (by omega), if_pos hk1]
    simp [hk1, (by omega : k < 32)]
  · rw [if_neg hk1]
    by_cases hw : v = .v256 ∧ T.bytes ≤ 2
    · rw [if_pos hw, if_neg (by have := b4 hw.1 hw.2; omega), b4 hw.1 hw.2]
      simp
    · rw [if_neg hw]
      have : extent T v * movemaskBits T ≤ 16 := by
        cases v
        · exact b2 rfl
        · have h3 : 2 < T.bytes := Nat.lt_of_not_le (fun hh => hw ⟨rfl, hh⟩)
          have := b3 rfl h3; omega
      split
      · simp [hk1]
      · rw [decide_eq_false (p := 31 < extent T v * movemaskBits T) (by omega)]; simp

/-- Bit `k` of `movemask<T>(x)`. -/
theorem movemask_bit (s : ISA) {T : Ety} (h : T.Ok) (v : VSz) (x : Vec v) (k : Nat) (hk : k < 64) :
    (movemask s T v x).getLsbD k =
      if k < extent T v * movemaskBits T then (lane (movemaskW T) x k).msb
      else if wideMask s T v then (lane (movemaskW T) x 31).msb else false := by
  cases v with
  | v128 =>
    have := mv_bit h .v128 x k hk
    simp only [movemask, wideMask] at this ⊢
    rw [this]
    simp
  | v256 =>
    by_cases hs : T.bytes ≤ 2 ∧ s.avx2 = false
    · have e : movemask s T .v256 x =
          (((movmskInt (movemaskW T) (hi x)).signExtend 64 <<< ((16 / T.bytes) * movemaskBits T)) |||
            (movmskInt (movemaskW T) (lo x)).signExtend 64) := by
        simp only [movemask]; rw [if_pos hs]
      have hw : movemaskW T = 8 := by unfold movemaskW; rw [if_pos hs.1]
      have h16 : (16 / T.bytes) * movemaskBits T = 16 := by
        unfold movemaskBits; rcases h.1 with h | h | h | h <;> rw [h] <;> first | rfl | omega
      have hE : extent T .v256 * movemaskBits T = 32 := (bits_total h .v256).2.2.2 rfl hs.1
      have hE1 : extent T .v128 * movemaskBits T = 16 := h16
      have l1 := mv_bit h .v128 (lo x) k hk
      rw [e, h16, BitVec.getLsbD_or, BitVec.getLsbD_shiftLeft, hE, if_neg (c := wideMask s T .v256) (by simp [wideMask, hs.2]), l1, hE1]
      rw [hw]
      by_cases hk1 : k < 16
      · rw [if_pos hk1, if_pos (by omega)]
        simp only [hk1, decide_true, Bool.not_true, Bool.and_false, Bool.false_and, Bool.false_or]
        rw [lane_lo _ (by omega)]
      · rw [if_neg hk1, if_neg (by simp)]
        have l2 := mv_bit h .v128 (hi x) (k - 16) (by omega)
        rw [hw] at l2
        rw [l2, hE1]
        simp only [hk1, hk, decide_true, decide_false, Bool.not_false, Bool.and_true, Bool.true_and, Bool.or_false]
        by_cases hk2 : k < 32
        · rw [if_pos hk2, if_pos (by omega), lane_hi (i := k) _ (by omega) (by omega)]
        · rw [if_neg hk2, if_neg (by omega), if_neg (by simp)]
    · have e : movemask s T .v256 x = (movmskInt (n := 256) (movemaskW T) x).signExtend 64 := by
        simp only [movemask]; rw [if_neg hs]
      rw [e]
      have := mv_bit h .v256 x k hk
      rw [this]
      have hw : wideMask s T .v256 ↔ ((VSz.v256 : VSz) = .v256 ∧ T.bytes ≤ 2) := by
        simp only [wideMask, true_and]
        constructor
        · exact fun hh => hh.1
        · intro hh; refine ⟨hh, ?_⟩
          cases h2 : s.avx2
          · exact absurd ⟨hh, h2⟩ hs
          · rfl
      by_cases hh : wideMask s T .v256
      · rw [if_pos hh, if_pos (hw.1 hh)]
      · rw [if_neg hh, if_neg (fun h3 => hh (hw.2 h3))]

/-- Bit `k` of the movemask of a vector whose lanes are all zeros or all ones. -/
theorem movemask_canon (s : ISA) {T : Ety} (h : T.Ok) (v : VSz) (x : Vec v) (p : Nat → Bool)
    (hp : ∀ i, i < extent T v → lane T.w x i = laneMask T.w (p i)) (k : Nat) (hk : k < 64) :
    (movemask s T v x).getLsbD k =
      if k < extent T v * movemaskBits T then p (k / movemaskBits T)
      else if wideMask s T v then p (extent T v - 1) else false := by
  have key : ∀ k, k < extent T v * movemaskBits T → (lane (movemaskW T) x k).msb = p (k / movemaskBits T) := by
    intro k hk
    have hw := movemaskW_T h
    have hi : k / movemaskBits T < extent T v := (Nat.div_lt_iff_lt_mul (mb_pos T)).2 hk
    have hm := Nat.mod_lt k (mb_pos T)
    have hd := Nat.div_add_mod k (movemaskBits T)
    have h1 : (k % movemaskBits T + 1) * movemaskW T ≤ T.w := by
      rw [hw]; exact Nat.mul_le_mul_right _ hm
    have := lane_lane (w := T.w) (v := movemaskW T) (i := k / movemaskBits T) (j := k % movemaskBits T) x h1 k (by
      rw [hw, ← Nat.mul_assoc, ← Nat.add_mul, Nat.mul_comm (k / movemaskBits T), hd])
    rw [← this, hp _ hi, laneMask_lane _ _ _ h1, laneMask_msb (by have := movemaskW_pos h; omega)]
  rw [movemask_bit s h v x k hk]
  by_cases hk1 : k < extent T v * movemaskBits T
  · rw [if_pos hk1, if_pos hk1, key k hk1]
  · rw [if_neg hk1, if_neg hk1]
    by_cases hw : wideMask s T v
    · rw [if_pos hw, if_pos hw]
      have h32 := (bits_total h v).2.2.2 hw.1 hw.2.1
      rw [key 31 (by omega)]
      congr 1
      have : 31 = extent T v * movemaskBits T - 1 := by omega
      have hm := mb_pos T
      have hle : movemaskBits T ≤ 2 := by unfold movemaskBits; split <;> omega
      rcases (by omega : movemaskBits T = 1 ∨ movemaskBits T = 2) with hb | hb <;> rw [hb] at h32 ⊢ <;> omega
    · rw [if_neg hw, if_neg hw]

/-! ### counting -/
theorem countP_range_and (M K : Nat) (q : Nat → Bool) (h : M ≤ K) :
    (List.range K).countP (fun k => decide (k < M) && q k) = (List.range M).countP q := by
  induction K with
  | zero => have : M = 0 := by omega
            subst this; rfl
  | succ K ih =>
    rw [List.range_succ, List.countP_append, List.countP_singleton]
    by_cases hm : M ≤ K
    · rw [ih hm, decide_eq_false (p := K < M) (by omega)]; simp
    · have : M = K + 1 := by omega
      subst this
      rw [List.range_succ, List.countP_append, List.countP_singleton]
      congr 1
      · apply List.countP_congr
        intro x hx; rw [List.mem_range] at hx; simp [(by omega : x < K + 1)]
      · simp
theorem countP_scale1 (e : Nat) (p : Nat → Bool) : (List.range (e * 1)).countP (fun k => p (k / 1)) = 1 * (List.range e).countP p := by
  simp
theorem countP_scale2 (e : Nat) (p : Nat → Bool) : (List.range (e * 2)).countP (fun k => p (k / 2)) = 2 * (List.range e).countP p := by
  induction e with
  | zero => rfl
  | succ e ih =>
    rw [Nat.succ_mul, List.range_succ, List.range_succ, List.range_succ, List.countP_append, List.countP_append, List.countP_append,
      List.countP_singleton, List.countP_singleton, List.countP_singleton, ih]
    have h1 : e * 2 / 2 = e := by omega
    have h2 : (e * 2 + 1) / 2 = e := by omega
    rw [h1, h2]; omega
theorem countP_scale {T : Ety} (e : Nat) (p : Nat → Bool) :
    (List.range (e * movemaskBits T)).countP (fun k => p (k / movemaskBits T)) = movemaskBits T * (List.range e).countP p := by
  have hle : movemaskBits T = 1 ∨ movemaskBits T = 2 := by unfold movemaskBits; split <;> simp
  rcases hle with h | h <;> rw [h]
  · exact countP_scale1 e p
  · exact countP_scale2 e p

theorem popcount_movemask (s : ISA) {T : Ety} (h : T.Ok) (v : VSz) (x : Vec v) (p : Nat → Bool)
    (hp : ∀ i, i < extent T v → lane T.w x i = laneMask T.w (p i)) (hw : ¬ wideMask s T v) :
    Mask.popcount (movemask s T v x) = movemaskBits T * (List.range (extent T v)).countP p := by
  rw [← countP_scale]
  have hb := (bits_total h v).1
  rw [← countP_range_and (extent T v * movemaskBits T) 64 _ (by omega)]
  unfold Mask.popcount
  apply List.countP_congr
  intro k hk
  rw [List.mem_range] at hk
  rw [movemask_canon s h v x p hp k hk, if_neg hw]
  split
  · next h1 => rw [decide_eq_true h1, Bool.true_and]
  · next h1 => rw [decide_eq_false h1, Bool.false_and]

/-- Splitting a count over `D` blocks of `e`. -/
theorem countP_blocks (D e : Nat) (q : Nat → Bool) :
    (List.range (D * e)).countP q = forRange D (fun j r => r + (List.range e).countP (fun i => q (j * e + i))) 0 := by
  induction D with
  | zero => simp [forRange]
  | succ D ih =>
    simp only [forRange]
    rw [← ih, Nat.succ_mul]
    induction e with
    | zero => simp
    | succ e _ =>
      rw [List.range_add, List.countP_append, List.countP_map]
      rfl

/-! ### storage view -/
theorem tailN_eq {c : Cfg} (h : c.Ok) (j : Nat) : Mask.tailN c j = c.N - j * c.e := by
  unfold Mask.tailN
  congr 1
  unfold Cfg.e extent
  rcases h.ety.1 with h | h | h | h <;> rw [h] <;> cases c.v <;> simp only [VSz.bytes] <;> omega

/-- The configurations and widths where the tail of the last native vector is masked correctly. -/
def tailOk (c : Cfg) : Prop := ¬ splitTail c.s c.T c.v ∨ c.N % c.e = 0 ∨ 16 / c.T.bytes < c.N % c.e
instance (c : Cfg) : Decidable (tailOk c) := by unfold tailOk; infer_instance

theorem block_lt {c : Cfg} (h : c.Ok) {j : Nat} (hj : j < c.dataSize) : j * c.e < c.N := by
  rw [dataSize_eq, ← ceilDiv_spec (extent_pos h.ety c.v)] at hj; exact hj

theorem replaced_tail {c : Cfg} (h : c.Ok) (ht : tailOk c) {j i : Nat} (hj : j < c.dataSize) (hi : i < c.e) :
    replaced c.s c.T c.v (Mask.tailN c j) i = decide (c.N ≤ j * c.e + i) := by
  have hlt := block_lt h hj
  rw [tailN_eq h]
  have hE := extent_pos h.ety c.v
  have hdm := Nat.div_add_mod c.N c.e
  unfold replaced
  by_cases hs : splitTail c.s c.T c.v
  · rw [if_pos hs]
    have hhalf : c.e = 2 * (16 / c.T.bytes) := by
      have := extent_half h.ety
      rw [← hs.1] at this; exact this
    have hpos : 1 ≤ 16 / c.T.bytes := by omega
    have hbig : 16 / c.T.bytes < c.N - j * c.e := by
      by_cases hfull : (j + 1) * c.e ≤ c.N
      · rw [Nat.succ_mul] at hfull; omega
      · have hj1 : c.N / c.e = j := by
          apply Nat.le_antisymm
          · exact Nat.lt_succ_iff.1 ((Nat.div_lt_iff_lt_mul hE).2 (Nat.lt_of_not_le hfull))
          · exact (Nat.le_div_iff_mul_le hE).2 (Nat.le_of_lt hlt)
        rw [hj1, Nat.mul_comm] at hdm
        rcases ht with ht | ht | ht
        · exact absurd hs ht
        · omega
        · omega
    split
    · congr 1; apply propext; omega
    · congr 1; apply propext; omega
  · rw [if_neg hs]; congr 1; apply propext; omega

theorem elt_block {c : Cfg} (h : c.Ok) (d : c.Data) {j i : Nat} (hi : i < c.e) : elt c d (j * c.e + i) = lane c.w (d j) i := by
  unfold elt
  have hE := extent_pos h.ety c.v
  rw [Nat.mul_comm j, Nat.mul_add_div hE, Nat.div_eq_of_lt hi, Nat.mul_add_mod, Nat.mod_eq_of_lt hi, Nat.add_zero]

theorem vectorize1_eq (c : Cfg) (f : Vec c.v → Vec c.v → Vec c.v) (res a : c.Data) {j : Nat} (hj : j < c.dataSize) :
    vectorize1 c f res a j = f (res j) (a j) := by
  have : ∀ n, n ≤ c.dataSize → forRange n (fun i (r : c.Data) => r.set i (f (r i) (a i))) res
      = fun k => if k < n then f (res k) (a k) else res k := by
    intro n
    induction n with
    | zero => intro _; rfl
    | succ n ih =>
      intro hn
      simp only [forRange]
      rw [ih (by omega)]
      funext k
      simp only [Mem.set]
      by_cases hk : k = n
      · subst hk; simp
      · have : k < n + 1 ↔ k < n := by omega
        simp [hk, this]
  unfold vectorize1
  rw [this _ (Nat.le_refl _)]
  simp [hj]
theorem vectorize2_eq (c : Cfg) (f : Vec c.v → Vec c.v → Vec c.v → Vec c.v) (res a b : c.Data) {j : Nat} (hj : j < c.dataSize) :
    vectorize2 c f res a b j = f (res j) (a j) (b j) :=
  vectorize1_eq c (fun r x => f r x (b j)) res a hj ▸ by
    have : ∀ n, n ≤ c.dataSize → forRange n (fun i (r : c.Data) => r.set i (f (r i) (a i) (b i))) res
        = fun k => if k < n then f (res k) (a k) (b k) else res k := by
      intro n
      induction n with
      | zero => intro _; rfl
      | succ n ih =>
        intro hn
        simp only [forRange]
        rw [ih (by omega)]
        funext k
        simp only [Mem.set]
        by_cases hk : k = n
        · subst hk; simp
        · have : k < n + 1 ↔ k < n := by omega
          simp [hk, this]
    rw [vectorize1_eq _ _ _ _ hj]
    unfold vectorize2
    rw [this _ (Nat.le_refl _)]
    simp [hj]

/-- all-ones is not equal to zero in any sense: as an integer, and as a NaN -/
theorem laneEq_mask {T : Ety} (h : T.Ok) (b : Bool) : laneEq T (laneMask T.w b) (0#T.w) = !b := by
  obtain ⟨bytes, flt, sg⟩ := T
  have h1 := h.1
  have h2 := h.2
  simp only at h1 h2
  cases flt
  · have hw := w_pos h
    cases b
    · simp [laneEq, laneMask]
    · have := (laneMask_eq_zero hw true)
      simp only [laneEq, Bool.not_true, decide_eq_false_iff_not]
      simpa using this
  · obtain ⟨h3, h4⟩ := h2 rfl
    subst h4
    rcases h3 with h3 | h3 <;> subst h3 <;> cases b <;> decide +kernel

end Dpm.X86
