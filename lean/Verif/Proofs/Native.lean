import Verif.Model.Mask
/-! Lane lemmas about the native layer (helpers for Verif/Props/X86*.lean). -/
namespace Dpm.X86
open Dpm.Reg Dpm.Util

theorem Ety.Ok.bytes_pos {T : Ety} (h : T.Ok) : 0 < T.bytes := by
  rcases h.1 with h | h | h | h <;> omega
theorem Ety.Ok.cases {T : Ety} (h : T.Ok) : T.bytes = 1 ∨ T.bytes = 2 ∨ T.bytes = 4 ∨ T.bytes = 8 := h.1

theorem extent_mul {T : Ety} (h : T.Ok) (v : VSz) : extent T v * T.w = v.bits := by
  rcases h.1 with h | h | h | h <;> cases v <;> simp [extent, Ety.w, h, VSz.bytes, VSz.bits]
theorem extent_pos {T : Ety} (h : T.Ok) (v : VSz) : 0 < extent T v := by
  rcases h.1 with h | h | h | h <;> cases v <;> simp [extent, h, VSz.bytes]
theorem w_pos {T : Ety} (h : T.Ok) : 0 < T.w := by
  have := h.bytes_pos; simp only [Ety.w]; omega
theorem lane_bound {T : Ety} (h : T.Ok) {v : VSz} {i : Nat} (hi : i < extent T v) : (i + 1) * T.w ≤ v.bits := by
  rw [← extent_mul h v]; exact Nat.mul_le_mul_right _ hi
theorem extent_half {T : Ety} (h : T.Ok) : extent T .v256 = 2 * extent T .v128 := by
  rcases h.1 with h | h | h | h <;> simp [extent, h, VSz.bytes]

theorem dataSize_eq (c : Cfg) : c.dataSize = ceilDiv c.N c.e := rfl
theorem idx_lt {c : Cfg} (h : c.Ok) {i : Nat} (hi : i < c.N) : i / c.e < c.dataSize := by
  rw [dataSize_eq, ← ceilDiv_spec (extent_pos h.ety c.v)]
  exact Nat.lt_of_le_of_lt (Nat.div_mul_le_self i c.e) hi
theorem idx_mod {c : Cfg} (h : c.Ok) (i : Nat) : i % c.e < c.e := Nat.mod_lt _ (extent_pos h.ety c.v)

theorem laneMask_and (w : Nat) (a b : Bool) : laneMask w a &&& laneMask w b = laneMask w (a && b) := by
  cases a <;> cases b <;> simp [laneMask]
theorem laneMask_or (w : Nat) (a b : Bool) : laneMask w a ||| laneMask w b = laneMask w (a || b) := by
  cases a <;> cases b <;> simp [laneMask]
theorem laneMask_xor (w : Nat) (a b : Bool) : laneMask w a ^^^ laneMask w b = laneMask w (a ^^ b) := by
  cases a <;> cases b <;> simp [laneMask]
theorem laneMask_not (w : Nat) (a : Bool) : ~~~ laneMask w a = laneMask w (!a) := by
  cases a <;> simp [laneMask]
theorem laneMask_eq_zero {w : Nat} (hw : 0 < w) (a : Bool) : laneMask w a = 0#w ↔ a = false := by
  cases a
  · simp [laneMask]
  · simp only [laneMask, if_true, Bool.true_eq_false, iff_false]
    intro h
    have := congrArg (fun v => v.getLsbD 0) h
    simp [hw] at this
theorem laneMask_msb {w : Nat} (hw : 0 < w) (a : Bool) : (laneMask w a).msb = a := by
  cases a
  · simp [laneMask]
  · simp only [laneMask, if_true, BitVec.msb_allOnes hw]
theorem extendBool_eq (w : Nat) (b : Bool) : extendBool w b = laneMask w b := by
  cases b
  · simp [extendBool, laneMask]
  · simp only [extendBool, laneMask, if_true]
    apply BitVec.eq_of_toNat_eq
    rcases Nat.eq_zero_or_pos w with h | h
    · subst h; simp
    · have h2 : 1 < 2 ^ w := Nat.one_lt_two_pow (by omega)
      simp [BitVec.toNat_neg, Nat.mod_eq_of_lt h2]

theorem bitNot_eq {v : VSz} (x : Vec v) : bitNot x = ~~~ x := by
  simp only [bitNot, bitXor, setones]
  exact BitVec.xor_allOnes

/-! ### sub-lanes -/
theorem lane_shuf {n : Nat} (a : BitVec n) (z y x w : Nat) {k : Nat} (hk : (k + 1) * 32 ≤ n) :
    lane 32 (shufEpi32 a z y x w) k = lane 32 a (4 * (k / 4) + (match k % 4 with | 0 => w | 1 => x | 2 => y | _ => z)) :=
  lane_ofLanes _ hk

theorem laneMask_lane (w v : Nat) (b : Bool) {j : Nat} (h : (j + 1) * v ≤ w) :
    lane v (laneMask w b) j = laneMask v b := by
  cases b
  · simp only [laneMask]; exact lane_zero v w j
  · simp only [laneMask, if_true]; exact lane_ones h

theorem laneMask_append (b : Bool) : (laneMask 32 b ++ laneMask 32 b : BitVec 64) = laneMask 64 b := by
  cases b <;> decide

theorem eq64_emu (a b : BitVec 128) (i : Nat) (hi : i < 2) :
    lane 64 (cmpeqL 32 a b &&& shufEpi32 (cmpeqL 32 a b) 2 3 0 1) i = laneMask 64 (decide (lane 64 a i = lane 64 b i)) := by
  have key : ∀ k, k < 4 → lane 32 (cmpeqL 32 a b) k = laneMask 32 (decide (lane 32 a k = lane 32 b k)) :=
    fun k hk => lane_map2 _ _ _ (by omega)
  have hd : decide (lane 64 a i = lane 64 b i) =
      (decide (lane 32 a (2 * i) = lane 32 b (2 * i)) && decide (lane 32 a (2 * i + 1) = lane 32 b (2 * i + 1))) := by
    rw [← Bool.decide_and]
    congr 1
    apply propext
    rw [lane64_eq a, lane64_eq b, append32_inj, and_comm]
  rw [hd, lane64_eq, lane_and, lane_and, ← laneMask_append, append32_inj]
  rcases (by omega : i = 0 ∨ i = 1) with rfl | rfl
  · rw [lane_shuf (k := 1) _ _ _ _ _ (by decide), lane_shuf (k := 0) _ _ _ _ _ (by decide)]
    refine ⟨?_, ?_⟩
    · show lane 32 (cmpeqL 32 a b) 1 &&& lane 32 (cmpeqL 32 a b) 0 = _
      rw [key 0 (by omega), key 1 (by omega), laneMask_and, Bool.and_comm]
    · show lane 32 (cmpeqL 32 a b) 0 &&& lane 32 (cmpeqL 32 a b) 1 = _
      rw [key 0 (by omega), key 1 (by omega), laneMask_and]
  · rw [lane_shuf (k := 3) _ _ _ _ _ (by decide), lane_shuf (k := 2) _ _ _ _ _ (by decide)]
    refine ⟨?_, ?_⟩
    · show lane 32 (cmpeqL 32 a b) 3 &&& lane 32 (cmpeqL 32 a b) 2 = _
      rw [key 2 (by omega), key 3 (by omega), laneMask_and, Bool.and_comm]
    · show lane 32 (cmpeqL 32 a b) 2 &&& lane 32 (cmpeqL 32 a b) 3 = _
      rw [key 2 (by omega), key 3 (by omega), laneMask_and]

/-- Arithmetic core of the SSE2 64-bit signed `>`: the high dword of `tmp`. -/
theorem gt64_core (xh xl yh yl : BitVec 32) :
    (laneMask 32 (decide (xh = yh)) &&& lane 32 ((yh ++ yl : BitVec 64) - (xh ++ xl : BitVec 64)) 1) |||
      laneMask 32 (decide (yh.toInt < xh.toInt))
    = laneMask 32 (decide ((yh ++ yl : BitVec 64).toInt < (xh ++ xl : BitVec 64).toInt)) := by
  have hx := append32_toNat xh xl
  have hy := append32_toNat yh yl
  have hz := halves_toNat ((yh ++ yl : BitVec 64) - (xh ++ xl : BitVec 64))
  rw [BitVec.toNat_sub, hx, hy] at hz
  have hxl := xl.isLt; have hyl := yl.isLt; have hxh := xh.isLt; have hyh := yh.isLt
  have hzl := (lane 32 ((yh ++ yl : BitVec 64) - (xh ++ xl : BitVec 64)) 0).isLt
  have hzh := (lane 32 ((yh ++ yl : BitVec 64) - (xh ++ xl : BitVec 64)) 1).isLt
  generalize lane 32 ((yh ++ yl : BitVec 64) - (xh ++ xl : BitVec 64)) 0 = zl at *
  generalize lane 32 ((yh ++ yl : BitVec 64) - (xh ++ xl : BitVec 64)) 1 = zh at *
  rw [BitVec.toInt_eq_toNat_cond (xh ++ xl : BitVec 64), BitVec.toInt_eq_toNat_cond (yh ++ yl : BitVec 64),
    BitVec.toInt_eq_toNat_cond xh, BitVec.toInt_eq_toNat_cond yh, hx, hy]
  by_cases heq : xh = yh
  · subst heq
    simp only [decide_true]
    by_cases hlt : yl.toNat < xl.toNat
    · have : zh = BitVec.allOnes 32 := by
        apply BitVec.eq_of_toNat_eq; rw [BitVec.toNat_allOnes]; omega
      rw [this]
      have hR : (if 2 * (xh.toNat * 2 ^ 32 + yl.toNat) < 2 ^ 64 then ((xh.toNat * 2 ^ 32 + yl.toNat : Nat) : Int)
          else ((xh.toNat * 2 ^ 32 + yl.toNat : Nat) : Int) - (2 ^ 64 : Nat)) <
          (if 2 * (xh.toNat * 2 ^ 32 + xl.toNat) < 2 ^ 64 then ((xh.toNat * 2 ^ 32 + xl.toNat : Nat) : Int)
          else ((xh.toNat * 2 ^ 32 + xl.toNat : Nat) : Int) - (2 ^ 64 : Nat)) := by
        split <;> split <;> omega
      rw [decide_eq_true hR]
      simp [laneMask]
    · have : zh = 0#32 := by
        apply BitVec.eq_of_toNat_eq; show zh.toNat = 0; omega
      rw [this]
      have hd : ∀ p : Prop, [Decidable p] → ¬ p → laneMask 32 (decide p) = 0#32 := by
        intro p _ hp; simp [laneMask, hp]
      rw [hd _ (by split <;> omega), hd _ (by split <;> omega)]
      simp
  · have hne : xh.toNat ≠ yh.toNat := fun h => heq (BitVec.eq_of_toNat_eq h)
    simp only [heq, decide_false]
    rw [show laneMask 32 false = 0#32 from rfl, BitVec.zero_and, BitVec.zero_or]
    congr 1
    apply decide_eq_decide.2
    split <;> split <;> split <;> split <;> omega

theorem gt64_emu (a b : BitVec 128) (i : Nat) (hi : i < 2) :
    lane 64 (shufEpi32 ((cmpeqL 32 a b &&& map2 64 (fun x y => x - y) b a) ||| cmpgtL 32 a b) 3 3 1 1) i
      = laneMask 64 (decide ((lane 64 b i).toInt < (lane 64 a i).toInt)) := by
  have htmp : lane 32 ((cmpeqL 32 a b &&& map2 64 (fun x y => x - y) b a) ||| cmpgtL 32 a b) (2 * i + 1)
      = laneMask 32 (decide ((lane 64 b i).toInt < (lane 64 a i).toInt)) := by
    have e1 : lane 32 (cmpeqL 32 a b) (2 * i + 1) = laneMask 32 (decide (lane 32 a (2 * i + 1) = lane 32 b (2 * i + 1))) :=
      lane_map2 _ _ _ (by omega)
    have e2 : lane 32 (cmpgtL 32 a b) (2 * i + 1) = laneMask 32 (decide ((lane 32 b (2 * i + 1)).toInt < (lane 32 a (2 * i + 1)).toInt)) :=
      lane_map2 _ _ _ (by omega)
    have e3 : lane 32 (map2 64 (fun x y => x - y) b a) (2 * i + 1) = lane 32 (lane 64 b i - lane 64 a i) 1 := by
      have h4 : lane 64 (map2 64 (fun x y => x - y) b a) i = lane 64 b i - lane 64 a i := lane_map2 _ _ _ (by omega)
      rw [← h4]
      exact (lane_lane (w := 64) (i := i) (j := 1) _ (by decide) (2 * i + 1) (by omega)).symm
    rw [lane_or, lane_and, e1, e2, e3, lane64_eq a, lane64_eq b, gt64_core]
  rw [lane64_eq, ← laneMask_append, append32_inj, ← htmp]
  rcases (by omega : i = 0 ∨ i = 1) with rfl | rfl
  · rw [lane_shuf (k := 1) _ _ _ _ _ (by decide), lane_shuf (k := 0) _ _ _ _ _ (by decide)]
    exact ⟨rfl, rfl⟩
  · rw [lane_shuf (k := 3) _ _ _ _ _ (by decide), lane_shuf (k := 2) _ _ _ _ _ (by decide)]
    exact ⟨rfl, rfl⟩

theorem cmpEqI128_lane (s : ISA) {bytes : Nat} (a b : BitVec 128) {i : Nat} (hi : (i + 1) * (8 * bytes) ≤ 128) :
    lane (8 * bytes) (cmpEqI128 s bytes a b) i = laneMask (8 * bytes) (decide (lane (8 * bytes) a i = lane (8 * bytes) b i)) := by
  unfold cmpEqI128
  split
  · next h8 =>
    subst h8
    split
    · exact lane_map2 _ _ _ hi
    · exact eq64_emu a b i (by omega)
  · exact lane_map2 _ _ _ hi
theorem cmpGtI128_lane (s : ISA) {bytes : Nat} (a b : BitVec 128) {i : Nat} (hi : (i + 1) * (8 * bytes) ≤ 128) :
    lane (8 * bytes) (cmpGtI128 s bytes a b) i =
      laneMask (8 * bytes) (decide ((lane (8 * bytes) b i).toInt < (lane (8 * bytes) a i).toInt)) := by
  unfold cmpGtI128
  split
  · next h8 =>
    subst h8
    split
    · exact lane_map2 _ _ _ hi
    · exact gt64_emu a b i (by omega)
  · exact lane_map2 _ _ _ hi

/-! ### mux -/
theorem mux_idx {T : Ety} (h : T.Ok) {i : Nat} (hi : i < extent T .v256) :
    (i < extent T .v128 ∧ (i + 1) * T.w ≤ 128) ∨
    (∃ j, j < extent T .v128 ∧ (j + 1) * T.w ≤ 128 ∧ i * T.w = j * T.w + 128) := by
  have h1 := extent_mul h .v128
  have h2 := extent_half h
  by_cases hlt : i < extent T .v128
  · exact Or.inl ⟨hlt, lane_bound h (v := .v128) hlt⟩
  · refine Or.inr ⟨i - extent T .v128, by omega, lane_bound h (v := .v128) (by omega), ?_⟩
    have : i = (i - extent T .v128) + extent T .v128 := by omega
    conv => lhs; rw [this, Nat.add_mul]
    rw [h1]

/-- A lane-wise 128-bit operation stays lane-wise through `mux_128x2`. -/
theorem mux1_lane {T : Ety} (h : T.Ok) (f : BitVec 128 → BitVec 128) (F : BitVec T.w → BitVec T.w)
    (hf : ∀ a i, i < extent T .v128 → lane T.w (f a) i = F (lane T.w a i))
    (a : BitVec 256) {i : Nat} (hi : i < extent T .v256) : lane T.w (mux1 f a) i = F (lane T.w a i) := by
  rcases mux_idx h hi with ⟨h1, h2⟩ | ⟨j, h1, h2, h3⟩
  · rw [mux1, lane_setHL_lo _ _ h2, hf _ _ h1, lane_lo _ h2]
  · rw [mux1, lane_setHL_hi _ _ h3, hf _ _ h1, lane_hi _ h2 h3]
theorem mux2_lane {T : Ety} (h : T.Ok) (f : BitVec 128 → BitVec 128 → BitVec 128) (F : BitVec T.w → BitVec T.w → BitVec T.w)
    (hf : ∀ a b i, i < extent T .v128 → lane T.w (f a b) i = F (lane T.w a i) (lane T.w b i))
    (a b : BitVec 256) {i : Nat} (hi : i < extent T .v256) :
    lane T.w (mux2 f a b) i = F (lane T.w a i) (lane T.w b i) := by
  rcases mux_idx h hi with ⟨h1, h2⟩ | ⟨j, h1, h2, h3⟩
  · rw [mux2, lane_setHL_lo _ _ h2, hf _ _ _ h1, lane_lo _ h2, lane_lo _ h2]
  · rw [mux2, lane_setHL_hi _ _ h3, hf _ _ _ h1, lane_hi _ h2 h3, lane_hi _ h2 h3]
/-- the same for a three-operand operation whose lane behaviour may need a hypothesis `P` on the third operand -/
theorem mux3_lane {T : Ety} (h : T.Ok) (f : BitVec 128 → BitVec 128 → BitVec 128 → BitVec 128)
    (F : BitVec T.w → BitVec T.w → BitVec T.w → BitVec T.w) (P : BitVec T.w → Prop)
    (hf : ∀ a b m i, i < extent T .v128 → P (lane T.w m i) → lane T.w (f a b m) i = F (lane T.w a i) (lane T.w b i) (lane T.w m i))
    (a b m : BitVec 256) {i : Nat} (hi : i < extent T .v256) (hP : P (lane T.w m i)) :
    lane T.w (mux3 f a b m) i = F (lane T.w a i) (lane T.w b i) (lane T.w m i) := by
  rcases mux_idx h hi with ⟨h1, h2⟩ | ⟨j, h1, h2, h3⟩
  · rw [mux3, lane_setHL_lo _ _ h2, hf _ _ _ _ h1 (by rw [lane_lo _ h2]; exact hP), lane_lo _ h2, lane_lo _ h2, lane_lo _ h2]
  · rw [mux3, lane_setHL_hi _ _ h3, hf _ _ _ _ h1 (by rw [lane_hi _ h2 h3]; exact hP), lane_hi _ h2 h3, lane_hi _ h2 h3, lane_hi _ h2 h3]

theorem cmpEqI_lane (s : ISA) {T : Ety} (h : T.Ok) (v : VSz) (a b : Vec v) {i : Nat} (hi : i < extent T v) :
    lane T.w (cmpEqI s T.bytes v a b) i = laneMask T.w (decide (lane T.w a i = lane T.w b i)) := by
  cases v with
  | v128 => exact cmpEqI128_lane s a b (lane_bound h hi)
  | v256 =>
    by_cases h2 : s.avx2 = true
    · have e : cmpEqI s T.bytes .v256 a b = cmpeqL (n := 256) (8 * T.bytes) a b := if_pos h2
      rw [e]; exact lane_map2 _ _ _ (lane_bound h hi)
    · have e : cmpEqI s T.bytes .v256 a b = mux2 (cmpEqI128 s T.bytes) a b := if_neg h2
      rw [e]; exact mux2_lane h _ (fun x y => laneMask T.w (decide (x = y)))
        (fun a b i hi => cmpEqI128_lane s a b (lane_bound h (v := .v128) hi)) a b hi
theorem cmpGtI_lane (s : ISA) {T : Ety} (h : T.Ok) (v : VSz) (a b : Vec v) {i : Nat} (hi : i < extent T v) :
    lane T.w (cmpGtI s T.bytes v a b) i = laneMask T.w (decide ((lane T.w b i).toInt < (lane T.w a i).toInt)) := by
  cases v with
  | v128 => exact cmpGtI128_lane s a b (lane_bound h hi)
  | v256 =>
    by_cases h2 : s.avx2 = true
    · have e : cmpGtI s T.bytes .v256 a b = cmpgtL (n := 256) (8 * T.bytes) a b := if_pos h2
      rw [e]; exact lane_map2 _ _ _ (lane_bound h hi)
    · have e : cmpGtI s T.bytes .v256 a b = mux2 (cmpGtI128 s T.bytes) a b := if_neg h2
      rw [e]; exact mux2_lane h _ (fun x y => laneMask T.w (decide (y.toInt < x.toInt)))
        (fun a b i hi => cmpGtI128_lane s a b (lane_bound h (v := .v128) hi)) a b hi
theorem maskEq_lane (s : ISA) {T : Ety} (h : T.Ok) (v : VSz) (a b : Vec v) {i : Nat} (hi : i < extent T v) :
    lane T.w (maskEq s T v a b) i = laneMask T.w (decide (lane T.w a i = lane T.w b i)) := cmpEqI_lane s h v a b hi

/-- lane equality as `cmp_eq<T>` sees it: IEEE for floating-point types -/
def laneEq (T : Ety) (x y : BitVec T.w) : Bool := if T.flt then fEq x y else decide (x = y)
theorem cmpEq_lane (s : ISA) {T : Ety} (h : T.Ok) (v : VSz) (a b : Vec v) {i : Nat} (hi : i < extent T v) :
    lane T.w (cmpEq s T v a b) i = laneMask T.w (laneEq T (lane T.w a i) (lane T.w b i)) := by
  unfold cmpEq laneEq
  split
  · exact lane_map2 _ _ _ (lane_bound h hi)
  · exact cmpEqI_lane s h v a b hi
theorem cmpNe_lane (s : ISA) {T : Ety} (h : T.Ok) (v : VSz) (a b : Vec v) {i : Nat} (hi : i < extent T v) :
    lane T.w (cmpNe s T v a b) i = laneMask T.w (!laneEq T (lane T.w a i) (lane T.w b i)) := by
  unfold cmpNe laneEq
  split
  · exact lane_map2 _ _ _ (lane_bound h hi)
  · rw [bitNot_eq, lane_not _ (lane_bound h hi), cmpEqI_lane s h v a b hi, laneMask_not]

end Dpm.X86
