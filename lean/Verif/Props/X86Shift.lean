import Verif.Props.X86Int
/-
Properties of x86 integer vectors: C24 (shifts), C25 (arithmetic right shift), C26 (min / max / clamp / abs).
-/
namespace Dpm.X86
open Dpm.Reg Dpm.Util Dpm.Generic Dpm.Spec

/-! ### scalar shifts of 64-bit types -/
theorem shl64_scalar (sg : Bool) (x y : BitVec 64) (h : IntTy.shl ⟨64, sg⟩ x y ≠ none) :
    IntTy.shl ⟨64, sg⟩ x y = some (x <<< y.toNat) := by
  have hcount : 0 ≤ IntTy.val ⟨64, sg⟩ y ∧ IntTy.val ⟨64, sg⟩ y < 64 := by
    unfold IntTy.shl IntTy.shlN IntTy.promote at h
    by_cases hc : 0 ≤ IntTy.val ⟨64, sg⟩ y ∧ IntTy.val ⟨64, sg⟩ y < 64
    · exact hc
    · exact absurd (if_neg hc) h
  have hn : (IntTy.val ⟨64, sg⟩ y).toNat = y.toNat := by
    unfold IntTy.val at *
    cases sg
    · simp
    · have hlt := y.isLt
      simp only [if_true] at *
      rw [BitVec.toInt_eq_toNat_cond] at *
      split at hcount <;> split <;> omega
  have e : IntTy.shl ⟨64, sg⟩ x y = some (BitVec.ofInt 64 (IntTy.val ⟨64, sg⟩ x * 2 ^ (IntTy.val ⟨64, sg⟩ y).toNat)) := if_pos hcount
  rw [e, hn]
  have := ofInt_val_mul ⟨64, sg⟩ x y.toNat
  refine congrArg some (this.trans ?_)
  apply BitVec.eq_of_toNat_eq
  rw [BitVec.toNat_ofNat, BitVec.toNat_shiftLeft, Nat.shiftLeft_eq]
theorem shr64_scalar (x y : BitVec 64) (h : IntTy.shr ⟨64, false⟩ x y ≠ none) :
    IntTy.shr ⟨64, false⟩ x y = some (x >>> y.toNat) := by
  have hv : ∀ z : BitVec 64, IntTy.val ⟨64, false⟩ z = (z.toNat : Int) := fun z => rfl
  have hcount : 0 ≤ IntTy.val ⟨64, false⟩ y ∧ IntTy.val ⟨64, false⟩ y < 64 := by
    unfold IntTy.shr IntTy.shrN IntTy.promote at h
    by_cases hc : 0 ≤ IntTy.val ⟨64, false⟩ y ∧ IntTy.val ⟨64, false⟩ y < 64
    · exact hc
    · exact absurd (if_neg hc) h
  have e : IntTy.shr ⟨64, false⟩ x y = some (BitVec.ofInt 64 (IntTy.val ⟨64, false⟩ x / 2 ^ (IntTy.val ⟨64, false⟩ y).toNat)) := if_pos hcount
  rw [e, hv, hv, Int.toNat_natCast]
  apply congrArg some
  have h2 : ((x.toNat : Int) / 2 ^ y.toNat) = ((x.toNat / 2 ^ y.toNat : Nat) : Int) := by
    rw [Int.natCast_ediv]; simp
  rw [h2, BitVec.ofInt_natCast]
  apply BitVec.eq_of_toNat_eq
  rw [BitVec.toNat_ofNat, BitVec.toNat_ushiftRight, Nat.shiftRight_eq_div_pow]
  exact Nat.mod_eq_of_lt (Nat.lt_of_le_of_lt (Nat.div_le_self _ _) x.isLt)

/-! ### C24 -/
section C24
variable {c : Cfg} (hc : c.Ok) (a b : c.Data) (n : BitVec c.w)
include hc

theorem shlNative_ok (h : shiftNative c = true) :
    YieldsIfDefined c (opShl c a b) (fun i => c.T.ity.shl (elt c a i) (elt c b i)) ∧
    YieldsIfDefined c (opShlS c a n) (fun i => c.T.ity.shl (elt c a i) n) := by
  unfold opShl opShlS; rw [if_pos h, if_pos h]
  have h8 : c.s.sse41 = true ∧ c.T.bytes = 8 := by simpa [shiftNative] using h
  obtain ⟨s, ⟨bytes, flt, sg⟩, N, v⟩ := c
  obtain ⟨-, h8⟩ := h8
  dsimp only at h8
  subst h8
  refine ⟨fun hd => ?_, fun hd => ?_⟩
  · obtain ⟨r, hr, hk⟩ := ok_vec2 hc (fun x y => shlV64 s v x y) (fun (x y : BitVec 64) => x <<< y.toNat) a b
      (fun x y i hi => shlV64_lane s v x y (lane_bound hc.ety hi))
    exact ⟨r, hr, fun i hi => by rw [hk i hi]; exact shl64_scalar sg _ _ (hd i hi)⟩
  · obtain ⟨r, hr, hk⟩ := ok_vec1 hc (fun x => shlV64 s v x (fillV v n)) (fun (x : BitVec 64) => x <<< BitVec.toNat n) a
      (fun x i hi => by
        refine (shlV64_lane s v x _ (lane_bound hc.ety hi)).trans ?_
        have e : lane 64 (fillV v n) i = n := fillV_lane hc.ety n hi
        rw [e]; rfl)
    exact ⟨r, hr, fun i hi => by rw [hk i hi]; exact shl64_scalar sg _ _ (hd i hi)⟩
theorem shrNative_ok (h : shiftNative c = true) (hu : c.T.signed = false) :
    YieldsIfDefined c (opShr c a b) (fun i => c.T.ity.shr (elt c a i) (elt c b i)) ∧
    YieldsIfDefined c (opShrS c a n) (fun i => c.T.ity.shr (elt c a i) n) := by
  unfold opShr opShrS; rw [if_pos h, if_pos h]
  have h8 : c.s.sse41 = true ∧ c.T.bytes = 8 := by simpa [shiftNative] using h
  obtain ⟨s, ⟨bytes, flt, sg⟩, N, v⟩ := c
  obtain ⟨-, h8⟩ := h8
  dsimp only at h8 hu
  subst h8; subst hu
  refine ⟨fun hd => ?_, fun hd => ?_⟩
  · obtain ⟨r, hr, hk⟩ := ok_vec2 hc (fun x y => shrV64 s v x y) (fun (x y : BitVec 64) => x >>> y.toNat) a b
      (fun x y i hi => shrV64_lane s v x y (lane_bound hc.ety hi))
    exact ⟨r, hr, fun i hi => by rw [hk i hi]; exact shr64_scalar _ _ (hd i hi)⟩
  · obtain ⟨r, hr, hk⟩ := ok_vec1 hc (fun x => shrV64 s v x (fillV v n)) (fun (x : BitVec 64) => x >>> BitVec.toNat n) a
      (fun x i hi => by
        refine (shrV64_lane s v x _ (lane_bound hc.ety hi)).trans ?_
        have e : lane 64 (fillV v n) i = n := fillV_lane hc.ety n hi
        rw [e]; rfl)
    exact ⟨r, hr, fun i hi => by rw [hk i hi]; exact shr64_scalar _ _ (hd i hi)⟩

/-- C24 (`<<`, vector and scalar counts): the scalar shift in every lane, proved where the native shift is
used or `size()` is a multiple of the native extent. -/
theorem C24_shl_partial (h : shiftNative c = true ∨ c.N % c.e = 0) :
    YieldsIfDefined c (opShl c a b) (fun i => c.T.ity.shl (elt c a i) (elt c b i)) ∧
    YieldsIfDefined c (opShlS c a n) (fun i => c.T.ity.shl (elt c a i) n) := by
  by_cases hs : shiftNative c = true
  · exact shlNative_ok hc a b n hs
  · have hN : c.N % c.e = 0 := h.resolve_left hs
    unfold opShl opShlS; rw [if_neg hs, if_neg hs]
    exact ⟨packed2_ok hc hN (f := c.T.ity.shl) (fun x y => lift2_spec _ _ x y) a b,
      packed1_ok hc hN (f := fun x => c.T.ity.shl x n) (fun x => liftS_spec _ _ x (c.T.ity.val n)) a⟩
/-- C24 (`>>`), proved for the native shift of unsigned lanes (vector and scalar counts) and for scalar counts
through the fallback when `size()` is a multiple of the native extent. -/
theorem C24_shr_partial :
    (shiftNative c = true → c.T.signed = false →
      YieldsIfDefined c (opShr c a b) (fun i => c.T.ity.shr (elt c a i) (elt c b i)) ∧
      YieldsIfDefined c (opShrS c a n) (fun i => c.T.ity.shr (elt c a i) n)) ∧
    (shiftNative c = false → c.N % c.e = 0 → YieldsIfDefined c (opShrS c a n) (fun i => c.T.ity.shr (elt c a i) n)) := by
  refine ⟨fun h hu => shrNative_ok hc a b n h hu, fun h hN => ?_⟩
  unfold opShrS; rw [if_neg (by rw [h]; decide)]
  exact packed1_ok hc hN (f := fun x => c.T.ity.shr x n) (fun x => liftS_spec _ _ x (c.T.ity.val n)) a
/-- C24 violated: wherever the fallback is taken (every element type but 8-byte integers, and those before
SSE4.1), vector `a >> b` computes `a << b`. -/
theorem C24_shr_vector_violated (h : shiftNative c = false) (hN : c.N % c.e = 0) :
    YieldsIfDefined c (opShr c a b) (fun i => c.T.ity.shl (elt c a i) (elt c b i)) := by
  unfold opShr; rw [if_neg (by rw [h]; decide)]
  exact packed2_ok hc hN (f := c.T.ity.shl) (fun x y => lift2_spec _ _ x y) a b
/-- C24 violated: for every other width the fallback shifts are undefined whatever the operands. -/
theorem C24_padding_violated (h : shiftNative c = false) (hN : c.N % c.e ≠ 0) :
    opShl c a b = .ub ∧ opShr c a b = .ub ∧ opShlS c a n = .ub ∧ opShrS c a n = .ub := by
  have hs : ¬ shiftNative c = true := by rw [h]; decide
  unfold opShl opShr opShlS opShrS; rw [if_neg hs, if_neg hs, if_neg hs, if_neg hs]
  exact ⟨packed2_ub hc hN _ a b, packed2_ub hc hN _ a b, packed1_ub hc hN _ a, packed1_ub hc hN _ a⟩
end C24
theorem C24_shr_vector_counterexample : ∃ r, opShr exU16 (vbroadcast exU16 16 (zeroData exU16)) (vbroadcast exU16 1 (zeroData exU16)) = .ok r ∧
    elt exU16 r 0 = 32 ∧ IntTy.shr exU16.T.ity 16 1 = some 8 := by
  obtain ⟨r, hr, h⟩ := C24_shr_vector_violated exU16_ok (vbroadcast exU16 16 (zeroData exU16)) (vbroadcast exU16 1 (zeroData exU16)) rfl (by decide)
    (fun i hi => by dsimp only; rw [elt_vbroadcast exU16_ok _ _ hi, elt_vbroadcast exU16_ok _ _ hi]; decide)
  refine ⟨r, hr, ?_, by decide⟩
  have h0 := h 0 (by decide)
  dsimp only at h0
  rw [elt_vbroadcast exU16_ok _ _ (by decide), elt_vbroadcast exU16_ok _ _ (by decide)] at h0
  have e : IntTy.shl exU16.T.ity 16 1 = some 32 := by decide
  exact (Option.some.inj (e.symm.trans h0)).symm
/-- C24 violated: native `>>` of signed 64-bit lanes fills with zeros: `-1 >> 1` gives `2^63 - 1`. -/
theorem C24_shr_signed_violated : ∃ r, opShr exI64 (vbroadcast exI64 (-1) (zeroData exI64)) (vbroadcast exI64 1 (zeroData exI64)) = .ok r ∧
    elt exI64 r 0 = 0x7fffffffffffffff ∧ IntTy.shr exI64.T.ity (-1) 1 = some (-1) := by
  refine ⟨_, rfl, ?_, by decide⟩
  rw [elt_vec2 exI64_ok _ _ _ _ (by decide)]
  have hl := shrV64_lane exI64.s exI64.v (vbroadcast exI64 (-1) (zeroData exI64) (0 / exI64.e)) (vbroadcast exI64 1 (zeroData exI64) (0 / exI64.e))
    (i := 0) (by decide)
  refine Eq.trans hl ?_
  have e1 : lane 64 (vbroadcast exI64 (-1) (zeroData exI64) (0 / exI64.e)) 0 = -1#64 := elt_vbroadcast exI64_ok (-1) (zeroData exI64) (i := 0) (by decide)
  have e2 : lane 64 (vbroadcast exI64 1 (zeroData exI64) (0 / exI64.e)) 0 = 1#64 := elt_vbroadcast exI64_ok 1 (zeroData exI64) (i := 0) (by decide)
  rw [e1, e2]; exact (by decide : ((-1#64) >>> (1#64).toNat : BitVec 64) = 0x7fffffffffffffff#64)

/-! ### C25 and the other constant shifts -/
/-- `lsl<k>` and `lsr<k>`: multiplication by `2^k` modulo `2^w` and zero-filling shift, every lane, every ISA level,
for element types of at least two bytes. -/
theorem C25_lsl_lsr_partial {c : Cfg} (hc : c.Ok) (a : c.Data) {k : Nat} (hk : constShiftOk c k = true) :
    (∃ r, vLsl c k a = .ok r ∧ ∀ i, i < c.N → (elt c r i).toNat = (elt c a i).toNat * 2 ^ k % 2 ^ c.w) ∧
    (∃ r, vLsr c k a = .ok r ∧ ∀ i, i < c.N → (elt c r i).toNat = (elt c a i).toNat / 2 ^ k) := by
  unfold vLsl vLsr; rw [if_pos hk, if_pos hk]
  obtain ⟨r1, h1, k1⟩ := ok_vec1 hc (fun x => shlC c.s c.T k c.v x) (fun x => x <<< k) a (fun x i hi => shlC_lane c.s hc.ety c.v x hi k)
  obtain ⟨r2, h2, k2⟩ := ok_vec1 hc (fun x => shrC c.s c.T k c.v x) (fun x => x >>> k) a (fun x i hi => shrC_lane c.s hc.ety c.v x hi k)
  refine ⟨⟨r1, h1, fun i hi => ?_⟩, ⟨r2, h2, fun i hi => ?_⟩⟩
  · rw [k1 i hi, BitVec.toNat_shiftLeft, Nat.shiftLeft_eq]
  · rw [k2 i hi, BitVec.toNat_ushiftRight, Nat.shiftRight_eq_div_pow]
/-- one-byte element types have no constant shifts at all, and the count `digits` is rejected although it is below the width -/
theorem C25_one_byte_violated {c : Cfg} (a : c.Data) (k : Nat) (h : c.T.bytes = 1 ∨ c.T.digits ≤ k) :
    vLsl c k a = .illFormed ∧ vLsr c k a = .illFormed ∧ vAsl c k a = .illFormed ∧ vAsr c k a = .illFormed := by
  have : constShiftOk c k = false := by
    unfold constShiftOk
    rcases h with h | h
    · rw [h]; simp
    · have : ¬ k < c.T.digits := by omega
      simp [this]
  unfold vLsl vLsr vAsl vAsr
  rw [this]; exact ⟨rfl, rfl, rfl, rfl⟩
theorem vAsr_ok {c : Cfg} (hc : c.Ok) (a : c.Data) {k : Nat} (hk : constShiftOk c k = true) (hs : c.T.signed = true) :
    ∃ r, vAsr c k a = .ok r ∧ ∀ i, i < c.N → elt c r i = lane c.w (ashrC c.s c.T k c.v (a (i / c.e))) (i % c.e) := by
  unfold vAsr; rw [hk, hs, if_pos (by decide)]
  exact ⟨_, rfl, fun i hi => elt_vec1 hc _ _ _ hi⟩
/-- C25, proved for counts of at least 32 (and 0), and for every count where the hardware shift is used
(2- and 4-byte lanes; 8-byte lanes with AVX-512VL). -/
theorem C25_asr_partial {c : Cfg} (hc : c.Ok) (a : c.Data) {k : Nat} (hk : constShiftOk c k = true) (hs : c.T.signed = true)
    (h : ashrEmulated c.s c.T = false ∨ 32 ≤ k ∨ k = 0) :
    ∃ r, vAsr c k a = .ok r ∧ ∀ i, i < c.N → (elt c r i).toInt = (elt c a i).toInt / 2 ^ k := by
  obtain ⟨r, hr, hk2⟩ := vAsr_ok hc a hk hs
  refine ⟨r, hr, fun i hi => ?_⟩
  have key : elt c r i = (elt c a i).sshiftRight k := by
    rw [hk2 i hi]
    by_cases he : ashrEmulated c.s c.T = false
    · exact ashrC_lane c.s hc.ety c.v _ (idx_mod hc i) k he
    · have h8 : c.T.bytes = 8 ∧ c.s.avx512vl = false := by simpa [ashrEmulated] using he
      have hkd : k < 63 := by
        have : k < c.T.digits := by
          have := hk; unfold constShiftOk at this; simp at this; exact this.2
        unfold Ety.digits at this; rw [if_pos hs, Ety.w, h8.1] at this; omega
      have hk32 := h.resolve_left he
      have hlane := ashrC_lane64 c.s h8.1 h8.2 c.v (a (i / c.e)) (idx_mod hc i) k
      obtain ⟨s, ⟨bytes, flt, sg⟩, N, v⟩ := c
      obtain ⟨h8, hvl⟩ := h8
      dsimp only at h8
      subst h8
      refine hlane.trans ?_
      rcases hk32 with h32 | h0
      · exact ashr64Lane_ge _ h32 (by omega)
      · subst h0; exact (ashr64Lane_lt _ (by decide)).2 (fun j hj => by omega)
  rw [key, BitVec.toInt_sshiftRight, Int.shiftRight_eq_div_pow]; rfl
/-- C25, exact behaviour of the emulation for `k < 32` (8-byte lanes, no AVX-512VL): a lane comes out right iff
bits 32 .. 32+k-1, which have to cross into the low dword, are all zero. -/
theorem C25_asr_exact {c : Cfg} (hc : c.Ok) (a : c.Data) {k : Nat} (hk32 : k < 32) (hs : c.T.signed = true)
    (he : ashrEmulated c.s c.T = true) :
    ∃ r, vAsr c k a = .ok r ∧ ∀ i, i < c.N →
      ((elt c r i).toInt = (elt c a i).toInt / 2 ^ k ↔ ∀ j, j < k → (elt c a i).getLsbD (32 + j) = false) := by
  have h8 : c.T.bytes = 8 ∧ c.s.avx512vl = false := by simpa [ashrEmulated] using he
  have hk : constShiftOk c k = true := by
    have h3 : c.T.digits = 63 := by unfold Ety.digits; rw [if_pos hs, Ety.w, h8.1]
    simp [constShiftOk, h8.1, h3]; omega
  obtain ⟨r, hr, hk2⟩ := vAsr_ok hc a hk hs
  refine ⟨r, hr, fun i hi => ?_⟩
  have hlane := ashrC_lane64 c.s h8.1 h8.2 c.v (a (i / c.e)) (idx_mod hc i) k
  have he := hk2 i hi
  rw [he]
  obtain ⟨s, ⟨bytes, flt, sg⟩, N, v⟩ := c
  obtain ⟨h8, hvl⟩ := h8
  dsimp only at h8
  subst h8
  have e2 : lane 64 (ashrC s ⟨8, flt, sg⟩ k v (a (i / extent ⟨8, flt, sg⟩ v))) (i % extent ⟨8, flt, sg⟩ v)
      = ashr64Lane (elt ⟨s, ⟨8, flt, sg⟩, N, v⟩ a i) k := hlane
  have hd : (BitVec.sshiftRight (elt ⟨s, ⟨8, flt, sg⟩, N, v⟩ a i) k).toInt = (elt ⟨s, ⟨8, flt, sg⟩, N, v⟩ a i).toInt / 2 ^ k := by
    rw [BitVec.toInt_sshiftRight, Int.shiftRight_eq_div_pow]; rfl
  rw [← hd]
  refine Iff.trans ?_ (ashr64Lane_lt (elt ⟨s, ⟨8, flt, sg⟩, N, v⟩ a i) hk32)
  rw [← e2]
  exact ⟨fun h => BitVec.eq_of_toInt_eq h, fun h => congrArg BitVec.toInt h⟩
/-- C25 violated: `asr<1>` of `2^32` on AVX2 gives 0. -/
theorem C25_violated : ∃ r, vAsr exI64 1 (vbroadcast exI64 0x100000000 (zeroData exI64)) = .ok r ∧
    (elt exI64 r 0).toInt ≠ (0x100000000 : Int) / 2 ^ 1 := by
  obtain ⟨r, hr, h⟩ := C25_asr_exact exI64_ok (vbroadcast exI64 0x100000000 (zeroData exI64)) (k := 1) (by decide) rfl rfl
  refine ⟨r, hr, fun hh => ?_⟩
  have h0 := h 0 (by decide)
  rw [elt_vbroadcast exI64_ok _ _ (by decide)] at h0
  have := h0.1 (by rw [hh]; decide) 0 (by decide)
  revert this; decide
example : ∃ r, vAsr exI32 4 (vbroadcast exI32 (-100) (zeroData exI32)) = .ok r ∧ (elt exI32 r 5).toInt = -7 := by
  obtain ⟨r, hr, h⟩ := C25_asr_partial exI32_ok (vbroadcast exI32 (-100) (zeroData exI32)) (k := 4) (by decide) rfl (Or.inl rfl)
  refine ⟨r, hr, ?_⟩
  rw [h 5 (by decide), elt_vbroadcast exI32_ok _ _ (by decide)]; decide

/-! ### C26 -/
theorem minLane_isMin (t : IntTy) (x y : BitVec t.bits) : isMin t x y (minLane t x y) := by
  unfold isMin minLane; split
  · exact ⟨Or.inl rfl, by omega, by omega⟩
  · exact ⟨Or.inr rfl, by omega, by omega⟩
theorem maxLane_isMax (t : IntTy) (x y : BitVec t.bits) : isMax t x y (maxLane t x y) := by
  unfold isMax maxLane; split
  · exact ⟨Or.inl rfl, by omega, by omega⟩
  · exact ⟨Or.inr rfl, by omega, by omega⟩
theorem stdMin_isMin (t : IntTy) (x y : BitVec t.bits) : isMin t x y (stdMin t.scalar.lt x y) := by
  unfold isMin stdMin
  simp only [IntTy.scalar, decide_eq_true_eq]
  split
  · exact ⟨Or.inr rfl, by omega, by omega⟩
  · exact ⟨Or.inl rfl, by omega, by omega⟩
theorem stdMax_isMax (t : IntTy) (x y : BitVec t.bits) : isMax t x y (stdMax t.scalar.lt x y) := by
  unfold isMax stdMax
  simp only [IntTy.scalar, decide_eq_true_eq]
  split
  · exact ⟨Or.inr rfl, by omega, by omega⟩
  · exact ⟨Or.inl rfl, by omega, by omega⟩

section C26
variable {c : Cfg} (hc : c.Ok) (hint : c.T.flt = false) (a b : c.Data) (s : BitVec c.w)
include hc hint

omit hc in
theorem minV_int (x y : Vec c.v) (h : minmaxExists c.s c.T c.v = true) : minV c.s c.T c.v x y = some (map2 c.T.w (minLane c.T.ity) x y) := by
  unfold minV; rw [hint, if_neg (by decide)]; exact if_pos h
omit hc in
theorem maxV_int (x y : Vec c.v) (h : minmaxExists c.s c.T c.v = true) : maxV c.s c.T c.v x y = some (map2 c.T.w (maxLane c.T.ity) x y) := by
  unfold maxV; rw [hint, if_neg (by decide)]; exact if_pos h

/-- C26 (`min`, `max` with vectors and scalars): proved where a kernel exists for the chosen overload, and through the
generic template when `size()` is a multiple of the native extent. -/
theorem C26_minmax_partial (h : if minmaxOverload c then minmaxExists c.s c.T c.v = true else c.N % c.e = 0) :
    (∃ r, vMin c a b = .ok r ∧ ∀ i, i < c.N → isMin c.T.ity (elt c a i) (elt c b i) (elt c r i)) ∧
    (∃ r, vMax c a b = .ok r ∧ ∀ i, i < c.N → isMax c.T.ity (elt c a i) (elt c b i) (elt c r i)) ∧
    (∃ r, vMinS c a s = .ok r ∧ ∀ i, i < c.N → isMin c.T.ity (elt c a i) s (elt c r i)) ∧
    (∃ r, vMaxS c a s = .ok r ∧ ∀ i, i < c.N → isMax c.T.ity (elt c a i) s (elt c r i)) := by
  by_cases ho : minmaxOverload c = true
  · rw [if_pos ho] at h
    unfold vMin vMax vMinS vMaxS
    rw [if_pos (Or.inr ho), if_pos (Or.inr ho), if_pos (Or.inr ho), if_pos (Or.inr ho)]
    have hb : ∀ {i : Nat}, i < c.e → (i + 1) * c.T.w ≤ c.v.bits := fun hi => lane_bound hc.ety hi
    refine ⟨rel_vec2 hc _ (isMin c.T.ity) a b (fun x y => ⟨_, minV_int hint x y h, fun i hi => ?_⟩),
      rel_vec2 hc _ (isMax c.T.ity) a b (fun x y => ⟨_, maxV_int hint x y h, fun i hi => ?_⟩),
      rel_vec1 hc _ (fun x r => isMin c.T.ity x s r) a (fun x => ⟨_, minV_int hint x _ h, fun i hi => ?_⟩),
      rel_vec1 hc _ (fun x r => isMax c.T.ity x s r) a (fun x => ⟨_, maxV_int hint x _ h, fun i hi => ?_⟩)⟩
    · have e : lane c.w (map2 c.T.w (minLane c.T.ity) x y) i = minLane c.T.ity (lane c.w x i) (lane c.w y i) := lane_map2 _ _ _ (hb hi)
      rw [e]; exact minLane_isMin _ _ _
    · have e : lane c.w (map2 c.T.w (maxLane c.T.ity) x y) i = maxLane c.T.ity (lane c.w x i) (lane c.w y i) := lane_map2 _ _ _ (hb hi)
      rw [e]; exact maxLane_isMax _ _ _
    · have e : lane c.w (map2 c.T.w (minLane c.T.ity) x (fillV c.v s)) i = minLane c.T.ity (lane c.w x i) (lane c.w (fillV c.v s) i) := lane_map2 _ _ _ (hb hi)
      rw [e, fillV_lane hc.ety s hi]; exact minLane_isMin _ _ _
    · have e : lane c.w (map2 c.T.w (maxLane c.T.ity) x (fillV c.v s)) i = maxLane c.T.ity (lane c.w x i) (lane c.w (fillV c.v s) i) := lane_map2 _ _ _ (hb hi)
      rw [e, fillV_lane hc.ety s hi]; exact maxLane_isMax _ _ _
  · rw [if_neg ho] at h
    have hcond : ¬ (c.T.flt = true ∨ minmaxOverload c = true) := by rw [hint]; simp [ho]
    unfold vMin vMax vMinS vMaxS
    rw [if_neg hcond, if_neg hcond, if_neg hcond, if_neg hcond]
    have t2 : ∀ (f : BitVec c.w → BitVec c.w → BitVec c.w) (P : BitVec c.w → BitVec c.w → BitVec c.w → Prop), (∀ x y, P x y (f x y)) →
        ∃ r, genericTemplate2 c (fun x y => some (f x y)) a b = .ok r ∧ ∀ i, i < c.N → P (elt c a i) (elt c b i) (elt c r i) := by
      intro f P hP
      obtain ⟨r, hr, hk⟩ := template2_ok hc h (fun x y => some (f x y)) a b (fun i _ => by simp)
      exact ⟨r, hr, fun i hi => by rw [← Option.some.inj (hk i hi)]; exact hP _ _⟩
    have t1 : ∀ (f : BitVec c.w → BitVec c.w) (P : BitVec c.w → BitVec c.w → Prop), (∀ x, P x (f x)) →
        ∃ r, genericTemplate1 c (fun x => some (f x)) a = .ok r ∧ ∀ i, i < c.N → P (elt c a i) (elt c r i) := by
      intro f P hP
      obtain ⟨r, hr, hk⟩ := template1_ok hc h (fun x => some (f x)) a (fun i _ => by simp)
      exact ⟨r, hr, fun i hi => by rw [← Option.some.inj (hk i hi)]; exact hP _⟩
    have p1 := fun x y => stdMin_isMin c.T.ity x y
    have p2 := fun x y => stdMax_isMax c.T.ity x y
    exact ⟨t2 (fun x y => stdMin c.T.ity.scalar.lt x y) (isMin c.T.ity) p1, t2 (fun x y => stdMax c.T.ity.scalar.lt x y) (isMax c.T.ity) p2,
      t1 (fun x => stdMin c.T.ity.scalar.lt x s) (fun x r => isMin c.T.ity x s r) (fun x => p1 x s),
      t1 (fun x => stdMax c.T.ity.scalar.lt x s) (fun x r => isMax c.T.ity x s r) (fun x => p2 x s)⟩
/-- C26 (`minmax`), proved where the x86 overload exists. -/
theorem C26_minmax_pair_partial (ho : minmaxOverload c = true) (h : minmaxExists c.s c.T c.v = true) :
    ∃ mn mx, vMinmax c a b = .ok (mn, mx) ∧ ∀ i, i < c.N → isMin c.T.ity (elt c a i) (elt c b i) (elt c mn i) ∧ isMax c.T.ity (elt c a i) (elt c b i) (elt c mx i) := by
  obtain ⟨⟨mn, h1, k1⟩, ⟨mx, h2, k2⟩, -, -⟩ := C26_minmax_partial hc hint a b 0 (by rw [if_pos ho]; exact h)
  refine ⟨mn, mx, ?_, fun i hi => ⟨k1 i hi, k2 i hi⟩⟩
  unfold vMinmax; rw [if_pos (Or.inr ho), h1, h2]; rfl
/-- C26 violated: for integers without an x86 overload (8-byte lanes everywhere, and more below SSE4.1) `minmax` has
undefined behaviour, and `min`, `max` have when `size()` is not a multiple of the native extent. -/
theorem C26_minmax_violated (ho : minmaxOverload c = false) :
    vMinmax c a b = .ub ∧ (c.N % c.e ≠ 0 → vMin c a b = .ub ∧ vMax c a b = .ub ∧ vMinS c a s = .ub ∧ vMaxS c a s = .ub) := by
  have hcond : ¬ (c.T.flt = true ∨ minmaxOverload c = true) := by rw [hint, ho]; simp
  refine ⟨if_neg hcond, fun hN => ?_⟩
  unfold vMin vMax vMinS vMaxS
  rw [if_neg hcond, if_neg hcond, if_neg hcond, if_neg hcond]
  exact ⟨template2_ub hc hN _ a b, template2_ub hc hN _ a b, template1_ub hc hN _ a, template1_ub hc hN _ a⟩
omit hc in
/-- C26 violated: 32-byte integer vectors on AVX without AVX2 select the x86 overload, which has no kernel: `min`, `max`,
`minmax` and `clamp` do not compile. -/
theorem C26_avx_violated (lo hi : c.Data) (h41 : c.s.sse41 = true) (h8 : c.T.bytes < 8) (h256 : c.v = .v256) (hav : c.s.avx2 = false) :
    vMin c a b = .illFormed ∧ vMax c a b = .illFormed ∧ vMinmax c a b = .illFormed ∧ vClamp c a lo hi = .illFormed := by
  have ho : minmaxOverload c = true := by unfold minmaxOverload; rw [if_pos h41]; simpa using h8
  have hne : minmaxExists c.s c.T c.v = false := by rw [h256]; simp [minmaxExists, hav]
  have m1 : minV c.s c.T c.v 0 0 = none := by unfold minV minI; rw [hint, hne]; rfl
  have m2 : maxV c.s c.T c.v 0 0 = none := by unfold maxV maxI; rw [hint, hne]; rfl
  have e1 : ∀ x y : c.Data, vec2 c (fun x y => minV c.s c.T c.v x y) x y = .illFormed := fun x y => vec2_none m1 x y
  have e2 : ∀ x y : c.Data, vec2 c (fun x y => maxV c.s c.T c.v x y) x y = .illFormed := fun x y => vec2_none m2 x y
  unfold vMinmax vClamp vMin vMax
  rw [if_pos (Or.inr ho), if_pos (Or.inr ho), if_pos (Or.inr ho), e1, e2]
  rw [if_pos (Or.inr ho), e2]
  exact ⟨rfl, rfl, rfl, rfl⟩

omit hc hint in
theorem clampSpec_native (t : IntTy) {x lo hi : BitVec t.bits} (h : t.val lo ≤ t.val hi) :
    isClamp t x lo hi (minLane t (maxLane t x lo) hi) := by
  have inj : ∀ p q : BitVec t.bits, t.val p = t.val q → p = q := fun p q => (val_inj t).1
  unfold isClamp minLane maxLane
  refine ⟨fun h1 => ?_, fun h1 => ?_, fun h1 h2 => ?_⟩
  · rw [if_neg (show ¬ t.val x > t.val lo by omega)]
    split
    · rfl
    · exact inj _ _ (by omega)
  · rw [if_pos (show t.val x > t.val lo by omega), if_neg (by omega)]
  · by_cases hx : t.val x > t.val lo
    · rw [if_pos hx]; split
      · rfl
      · exact inj _ _ (by omega)
    · have : lo = x := inj _ _ (by omega)
      subst this; rw [if_neg hx]; split
      · rfl
      · exact inj _ _ (by omega)
/-- C26 (`clamp`, every lane with `lo <= hi`): in-range lanes are kept, others become the violated bound; proved where the
kernel exists, or through the generic template when `size()` is a multiple of the native extent. -/
theorem C26_clamp_partial (x lo hi : c.Data) (hle : ∀ i, i < c.N → c.T.ity.val (elt c lo i) ≤ c.T.ity.val (elt c hi i))
    (h : if minmaxOverload c then minmaxExists c.s c.T c.v = true else c.N % c.e = 0) :
    ∃ r, vClamp c x lo hi = .ok r ∧ ∀ i, i < c.N → isClamp c.T.ity (elt c x i) (elt c lo i) (elt c hi i) (elt c r i) := by
  by_cases ho : minmaxOverload c = true
  · rw [if_pos ho] at h
    have hb : ∀ {i : Nat}, i < c.e → (i + 1) * c.T.w ≤ c.v.bits := fun hi => lane_bound hc.ety hi
    obtain ⟨t, ht, kt⟩ := rel_vec2 hc (fun x y => maxV c.s c.T c.v x y) (fun x y r => r = maxLane c.T.ity x y) x lo
      (fun x y => ⟨_, maxV_int hint x y h, fun i hi => lane_map2 _ _ _ (hb hi)⟩)
    obtain ⟨r, hr, kr⟩ := rel_vec2 hc (fun x y => minV c.s c.T c.v x y) (fun x y r => r = minLane c.T.ity x y) t hi
      (fun x y => ⟨_, minV_int hint x y h, fun i hi => lane_map2 _ _ _ (hb hi)⟩)
    refine ⟨r, ?_, fun i hi' => ?_⟩
    · unfold vClamp; rw [if_pos (Or.inr ho), ht]; exact hr
    · rw [kr i hi', kt i hi']; exact clampSpec_native c.T.ity (hle i hi')
  · rw [if_neg ho] at h
    have hcond : ¬ (c.T.flt = true ∨ minmaxOverload c = true) := by rw [hint]; simp [ho]
    unfold vClamp; rw [if_neg hcond]
    obtain ⟨g, hg, kg⟩ : ∃ g : GSimd (BitVec c.w) c.N, Generic.vclamp c.T.ity.scalar (⟨fun i => elt c x i⟩ : GSimd (BitVec c.w) c.N) ⟨fun i => elt c lo i⟩ ⟨fun i => elt c hi i⟩ = some g ∧
        ∀ i, i < c.N → stdClamp c.T.ity.scalar.lt (elt c x i) (elt c lo i) (elt c hi i) = some (g.get i) := by
      obtain ⟨h1, h2⟩ := vclamp_spec c.T.ity.scalar (⟨fun i => elt c x i⟩ : GSimd (BitVec c.w) c.N) ⟨fun i => elt c lo i⟩ ⟨fun i => elt c hi i⟩
      cases hr : Generic.vclamp c.T.ity.scalar (⟨fun i => elt c x i⟩ : GSimd (BitVec c.w) c.N) ⟨fun i => elt c lo i⟩ ⟨fun i => elt c hi i⟩ with
      | none =>
        obtain ⟨i, hi', hf⟩ := h1.1 (by rw [hr]; rfl)
        have hlt := hle i hi'
        refine absurd hf ?_
        unfold stdClamp
        rw [if_neg (by simp [IntTy.scalar, GSimd.get]; omega)]
        simp
      | some g => exact ⟨g, rfl, fun i hi' => h2 g.get (by rw [hr]; rfl) i hi'⟩
    obtain ⟨r, hr, kr⟩ := fromArray_ok hc h (zeroData c) g
    refine ⟨r, by rw [hg]; exact hr, fun i hi' => ?_⟩
    have := kg i hi'
    rw [kr i hi']
    unfold stdClamp at this
    rw [if_neg (by have := hle i hi'; simp [IntTy.scalar]; omega)] at this
    rw [← Option.some.inj this]
    unfold isClamp
    simp only [IntTy.scalar, decide_eq_true_eq]
    have := hle i hi'
    refine ⟨fun h1 => if_pos h1, fun h1 => ?_, fun h1 h2 => ?_⟩
    · rw [if_neg (by omega), if_pos h1]
    · rw [if_neg (by omega), if_neg (by omega)]

omit hc in
theorem absV_int (x : Vec c.v) : absV c.s c.T c.v x = absI c.s c.T c.v x := by
  unfold absV; rw [hint]; rfl
/-- C26 (`abs`), proved for signed lanes where the hardware instruction is used: `|x|` modulo `2^w`, so the most
negative value is its own absolute value. -/
theorem C26_abs_partial (hs : c.T.signed = true) (hn : absNative c.s c.T c.v = true) :
    Yields c (vAbs c a) (fun i => modAbs c.T.ity (elt c a i)) := by
  obtain ⟨r, hr, hk⟩ := rel_vec1 hc (fun x => absV c.s c.T c.v x) (fun x r => r = if x.msb then -x else x) a (by
    intro x
    obtain ⟨r, hr, hk⟩ := absI_native c.s hc.ety c.v hn x
    exact ⟨r, by rw [absV_int hint]; exact hr, hk⟩)
  refine ⟨r, hr, fun i hi => ?_⟩
  rw [hk i hi]
  have hv : ∀ z : BitVec c.w, c.T.ity.val z = z.toInt := fun z => if_pos hs
  unfold modAbs
  dsimp only
  rw [hv]
  have hm : ((elt c a i).msb = true) = ((elt c a i).toInt < 0) := by rw [BitVec.msb_eq_toInt]; simp
  simp only [hm]
  split
  · rw [BitVec.ofInt_neg, BitVec.ofInt_toInt]
  · rw [BitVec.ofInt_toInt]
/-- C26 violated: `abs` of an unsigned lane of 2^(w-1) or more, which should be the identity, negates it when the hardware
instruction is used. -/
theorem C26_abs_unsigned_violated (hu : c.T.signed = false) (hn : absNative c.s c.T c.v = true) :
    ∃ r, vAbs c a = .ok r ∧ ∀ i, i < c.N → elt c r i = if 2 ^ (c.w - 1) ≤ (elt c a i).toNat then modNeg c.T.ity (elt c a i) else elt c a i := by
  obtain ⟨r, hr, hk⟩ := rel_vec1 hc (fun x => absV c.s c.T c.v x) (fun x r => r = if x.msb then -x else x) a (by
    intro x
    obtain ⟨r, hr, hk⟩ := absI_native c.s hc.ety c.v hn x
    exact ⟨r, by rw [absV_int hint]; exact hr, hk⟩)
  refine ⟨r, hr, fun i hi => ?_⟩
  rw [hk i hi, modNeg_eq]
  have hm : ((elt c a i).msb = true) = (2 ^ (c.w - 1) ≤ (elt c a i).toNat) := by rw [BitVec.msb_eq_decide]; simp
  simp only [hm]
/-- C26, exact behaviour of the fallback `abs` (8-byte lanes everywhere, other sizes before SSSE3 / AVX2): the sign is
extracted with a logical shift by `digits - 1`, `s = x >> (digits - 1)`, and `(x ^ s) - s` is returned. -/
theorem C26_abs_fallback_exact (hn : absNative c.s c.T c.v = false) (h1 : c.T.bytes ≠ 1) :
    Yields c (vAbs c a) (fun i =>
      (elt c a i ^^^ (elt c a i >>> (c.T.digits - 1))) - (elt c a i >>> (c.T.digits - 1))) := by
  obtain ⟨r, hr, hk⟩ := rel_vec1 hc (fun x => absV c.s c.T c.v x)
    (fun x r => r = (x ^^^ (x >>> (c.T.digits - 1))) - (x >>> (c.T.digits - 1))) a (by
    intro x
    obtain ⟨r, hr, hk⟩ := absI_fallback c.s hc.ety c.v hn h1 x
    exact ⟨r, by rw [absV_int hint]; exact hr, hk⟩)
  exact ⟨r, hr, hk⟩
/-- C26 (`abs`), proved in the fallback for lanes in `[0, 2^(w-2))`. -/
theorem C26_abs_fallback_partial (hn : absNative c.s c.T c.v = false) (h1 : c.T.bytes ≠ 1)
    (hsm : ∀ i, i < c.N → (elt c a i).toNat < 2 ^ (c.w - 2)) : Yields c (vAbs c a) (fun i => elt c a i) := by
  obtain ⟨r, hr, hk⟩ := C26_abs_fallback_exact hc hint a hn h1
  refine ⟨r, hr, fun i hi => ?_⟩
  rw [hk i hi]; dsimp only
  have hz : elt c a i >>> (c.T.digits - 1) = 0#c.w := by
    apply BitVec.eq_of_toNat_eq
    rw [BitVec.toNat_ushiftRight, Nat.shiftRight_eq_div_pow]
    have hd : c.w - 2 ≤ c.T.digits - 1 := by rw [show c.w = c.T.w from rfl]; unfold Ety.digits; split <;> omega
    have : (elt c a i).toNat < 2 ^ (c.T.digits - 1) := Nat.lt_of_lt_of_le (hsm i hi) (Nat.pow_le_pow_right (by decide) hd)
    rw [Nat.div_eq_of_lt this]; rfl
  rw [hz]; simp
omit hc in
/-- C26 violated: one-byte `abs` does not compile below SSSE3 (16-byte vectors) or AVX2 (32-byte vectors). -/
theorem C26_abs_one_byte_violated (hn : absNative c.s c.T c.v = false) (h1 : c.T.bytes = 1) : vAbs c a = .illFormed := by
  apply vec1_none
  rw [absV_int hint]
  generalize c.v = v at *
  have hf : absFallback c.s c.T v 0 = none := if_pos h1
  cases v with
  | v128 => exact (if_neg (by rintro ⟨h, h'⟩; simp [absNative, h, h'] at hn)).trans hf
  | v256 => exact (if_neg (by rintro ⟨h, h'⟩; simp [absNative, h, h'] at hn)).trans hf
end C26
/-- C26 violated: `abs(-1)` of int64 on AVX2 is -7; `abs(0xffffffff)` of uint32 with SSSE3 is 1. -/
theorem C26_abs_counterexample :
    (∃ r, vAbs exI64 (vbroadcast exI64 (-1) (zeroData exI64)) = .ok r ∧ elt exI64 r 0 = -7#64) ∧
    (∃ r, vAbs exU32s (vbroadcast exU32s (-1) (zeroData exU32s)) = .ok r ∧ elt exU32s r 0 = 1#32) := by
  constructor
  · obtain ⟨r, hr, hk⟩ := C26_abs_fallback_exact exI64_ok rfl (vbroadcast exI64 (-1) (zeroData exI64)) rfl (by decide)
    refine ⟨r, hr, ?_⟩
    rw [hk 0 (by decide)]; dsimp only
    rw [elt_vbroadcast exI64_ok _ _ (by decide)]
    exact (by decide : (((-1#64) ^^^ ((-1#64) >>> 62)) - ((-1#64) >>> 62) : BitVec 64) = -7#64)
  · obtain ⟨r, hr, hk⟩ := C26_abs_unsigned_violated exU32s_ok rfl (vbroadcast exU32s (-1) (zeroData exU32s)) rfl rfl
    refine ⟨r, hr, ?_⟩
    rw [hk 0 (by decide)]
    rw [elt_vbroadcast exU32s_ok _ _ (by decide)]
    exact (by decide : (if 2 ^ 31 ≤ (-1#32).toNat then modNeg ⟨32, false⟩ (-1#32) else -1#32) = 1#32)
example : ∃ r, vAbs exI32 (vbroadcast exI32 (-9) (zeroData exI32)) = .ok r ∧ elt exI32 r 5 = 9#32 := by
  obtain ⟨r, hr, hk⟩ := C26_abs_partial exI32_ok rfl (vbroadcast exI32 (-9) (zeroData exI32)) rfl rfl
  refine ⟨r, hr, ?_⟩
  rw [hk 5 (by decide)]; dsimp only
  rw [elt_vbroadcast exI32_ok _ _ (by decide)]; exact (by decide : modAbs ⟨32, true⟩ (-9#32) = 9#32)
example : ∃ r, vMin exI32 (vbroadcast exI32 (-9) (zeroData exI32)) (vbroadcast exI32 4 (zeroData exI32)) = .ok r ∧ elt exI32 r 5 = -9#32 := by
  obtain ⟨r, hr, hk⟩ := (C26_minmax_partial exI32_ok rfl (vbroadcast exI32 (-9) (zeroData exI32)) (vbroadcast exI32 4 (zeroData exI32)) 0 (by decide)).1
  refine ⟨r, hr, ?_⟩
  have h := hk 5 (by decide)
  rw [elt_vbroadcast exI32_ok _ _ (by decide), elt_vbroadcast exI32_ok _ _ (by decide)] at h
  rcases h.1 with h' | h'
  · exact h'
  · exfalso; rw [h'] at h; revert h; unfold isMin; decide
example : ∃ r, vClamp exI64 (vbroadcast exI64 77 (zeroData exI64)) (vbroadcast exI64 (-5) (zeroData exI64)) (vbroadcast exI64 5 (zeroData exI64)) = .ok r ∧ elt exI64 r 3 = 5#64 := by
  obtain ⟨r, hr, hk⟩ := C26_clamp_partial exI64_ok rfl (vbroadcast exI64 77 (zeroData exI64)) (vbroadcast exI64 (-5) (zeroData exI64)) (vbroadcast exI64 5 (zeroData exI64))
    (fun i hi => by rw [elt_vbroadcast exI64_ok _ _ hi, elt_vbroadcast exI64_ok _ _ hi]; decide) (by decide)
  refine ⟨r, hr, ?_⟩
  have h := (hk 3 (by decide)).2.1
  rw [elt_vbroadcast exI64_ok _ _ (by decide), elt_vbroadcast exI64_ok _ _ (by decide)] at h
  exact h (by decide)
end Dpm.X86
