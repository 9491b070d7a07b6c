import Verif.Model.NativeInt
import Verif.Proofs.Native
/-! Lane lemmas about the integer kernels. -/
namespace Dpm.X86
open Dpm.Reg

theorem fillV_lane {T : Ety} (h : T.Ok) {v : VSz} (x : BitVec T.w) {i : Nat} (hi : i < extent T v) :
    lane T.w (fillV v x) i = x := lane_ofLanes _ (lane_bound h hi)
theorem setzero_lane {T : Ety} (v : VSz) (i : Nat) : lane T.w (setzero v) i = 0#T.w := lane_zero _ _ _

section
variable (s : ISA) {T : Ety} (h : T.Ok) (v : VSz) (a b : Vec v) {i : Nat} (hi : i < extent T v)
include h hi

theorem addI_lane : lane T.w (addI s T v a b) i = lane T.w a i + lane T.w b i := by
  cases v with
  | v128 => exact lane_map2 _ _ _ (lane_bound h hi)
  | v256 =>
    unfold addI; dsimp only; split
    · exact lane_map2 _ _ _ (lane_bound h hi)
    · exact mux2_lane h _ (fun x y => x + y) (fun a b i hi => lane_map2 _ _ _ (lane_bound h (v := .v128) hi)) a b hi
theorem subI_lane : lane T.w (subI s T v a b) i = lane T.w a i - lane T.w b i := by
  cases v with
  | v128 => exact lane_map2 _ _ _ (lane_bound h hi)
  | v256 =>
    unfold subI; dsimp only; split
    · exact lane_map2 _ _ _ (lane_bound h hi)
    · exact mux2_lane h _ (fun x y => x - y) (fun a b i hi => lane_map2 _ _ _ (lane_bound h (v := .v128) hi)) a b hi
theorem negI_lane : lane T.w (negI s T v a) i = - lane T.w a i := by
  rw [negI, subI_lane s h v _ _ hi, setzero_lane, BitVec.zero_sub]
theorem addsI_lane : lane T.w (addsI s T v a b) i = satLane T.ity (T.ity.val (lane T.w a i) + T.ity.val (lane T.w b i)) := by
  cases v with
  | v128 => exact lane_map2 (fun x y => satLane T.ity (T.ity.val x + T.ity.val y)) _ _ (lane_bound h hi)
  | v256 =>
    unfold addsI; dsimp only; split
    · exact lane_map2 (fun x y => satLane T.ity (T.ity.val x + T.ity.val y)) _ _ (lane_bound h hi)
    · exact mux2_lane h _ (fun x y => satLane T.ity (T.ity.val x + T.ity.val y))
        (fun a b i hi => lane_map2 (fun x y => satLane T.ity (T.ity.val x + T.ity.val y)) _ _ (lane_bound h (v := .v128) hi)) a b hi
theorem subsI_lane : lane T.w (subsI s T v a b) i = satLane T.ity (T.ity.val (lane T.w a i) - T.ity.val (lane T.w b i)) := by
  cases v with
  | v128 => exact lane_map2 (fun x y => satLane T.ity (T.ity.val x - T.ity.val y)) _ _ (lane_bound h hi)
  | v256 =>
    unfold subsI; dsimp only; split
    · exact lane_map2 (fun x y => satLane T.ity (T.ity.val x - T.ity.val y)) _ _ (lane_bound h hi)
    · exact mux2_lane h _ (fun x y => satLane T.ity (T.ity.val x - T.ity.val y))
        (fun a b i hi => lane_map2 (fun x y => satLane T.ity (T.ity.val x - T.ity.val y)) _ _ (lane_bound h (v := .v128) hi)) a b hi
theorem mulI_lane {r : Vec v} (hr : mulI s T v a b = some r) : lane T.w r i = lane T.w a i * lane T.w b i := by
  cases v with
  | v128 =>
    unfold mulI at hr; dsimp only at hr; split at hr
    · cases hr; exact lane_map2 _ _ _ (lane_bound h hi)
    · cases hr
  | v256 =>
    unfold mulI at hr; dsimp only at hr; split at hr
    · cases hr; split
      · exact lane_map2 _ _ _ (lane_bound h hi)
      · exact mux2_lane h _ (fun x y => x * y) (fun a b i hi => lane_map2 _ _ _ (lane_bound h (v := .v128) hi)) a b hi
    · cases hr
theorem minI_lane {r : Vec v} (hr : minI s T v a b = some r) : lane T.w r i = minLane T.ity (lane T.w a i) (lane T.w b i) := by
  unfold minI at hr; split at hr
  · cases hr; exact lane_map2 _ _ _ (lane_bound h hi)
  · cases hr
theorem maxI_lane {r : Vec v} (hr : maxI s T v a b = some r) : lane T.w r i = maxLane T.ity (lane T.w a i) (lane T.w b i) := by
  unfold maxI at hr; split at hr
  · cases hr; exact lane_map2 _ _ _ (lane_bound h hi)
  · cases hr
theorem shlC_lane (k : Nat) : lane T.w (shlC s T k v a) i = lane T.w a i <<< k := by
  cases v with
  | v128 => exact lane_map1 (fun x => x <<< k) a (lane_bound h hi)
  | v256 =>
    unfold shlC; dsimp only; split
    · exact lane_map1 (fun x => x <<< k) a (lane_bound h hi)
    · exact mux1_lane h _ (fun x => x <<< k) (fun a i hi => lane_map1 _ _ (lane_bound h (v := .v128) hi)) a hi
theorem shrC_lane (k : Nat) : lane T.w (shrC s T k v a) i = lane T.w a i >>> k := by
  cases v with
  | v128 => exact lane_map1 (fun x => x >>> k) a (lane_bound h hi)
  | v256 =>
    unfold shrC; dsimp only; split
    · exact lane_map1 (fun x => x >>> k) a (lane_bound h hi)
    · exact mux1_lane h _ (fun x => x >>> k) (fun a i hi => lane_map1 _ _ (lane_bound h (v := .v128) hi)) a hi
end

/-! ### 64-bit arithmetic right shift -/
/-- what the emulation computes in one 64-bit lane with dwords `xh`, `xl` -/
def ashr64Lane (x : BitVec 64) (k : Nat) : BitVec 64 :=
  let xh := lane 32 x 1
  let xl := lane 32 x 0
  if 32 ≤ k then (xh.sshiftRight 31 ++ xh.sshiftRight (k - 32) : BitVec 64)
  else (xh.sshiftRight k ++ (xl >>> k) : BitVec 64)

theorem lane_unpacklo {n : Nat} (a b : BitVec n) {k : Nat} (hk : (k + 1) * 32 ≤ n) :
    lane 32 (unpackloEpi32 a b) k =
      if k % 2 = 0 then lane 32 a (4 * (k / 4) + k % 4 / 2) else lane 32 b (4 * (k / 4) + k % 4 / 2) := lane_ofLanes _ hk

theorem shuf_3231 {n : Nat} (a : BitVec n) {j : Nat} (hj : (j + 1) * 32 ≤ n) (hr : j % 4 < 2) :
    lane 32 (shufEpi32 a 3 2 3 1) j = lane 32 a (4 * (j / 4) + 2 * (j % 4) + 1) := by
  rw [lane_shuf _ _ _ _ _ hj]
  rcases (by omega : j % 4 = 0 ∨ j % 4 = 1) with h | h <;> simp only [h]
theorem shuf_3220 {n : Nat} (a : BitVec n) {j : Nat} (hj : (j + 1) * 32 ≤ n) (hr : j % 4 < 2) :
    lane 32 (shufEpi32 a 3 2 2 0) j = lane 32 a (4 * (j / 4) + 2 * (j % 4)) := by
  rw [lane_shuf _ _ _ _ _ hj]
  rcases (by omega : j % 4 = 0 ∨ j % 4 = 1) with h | h <;> simp only [h]

theorem ashr_idx {i g r : Nat} (hr : r < 2) (hgr : i = 2 * g + r) :
    4 * (2 * i / 4) + 2 * i % 4 / 2 = 4 * g + r ∧ 4 * ((2 * i + 1) / 4) + (2 * i + 1) % 4 / 2 = 4 * g + r := by
  subst hgr
  rcases (by omega : r = 0 ∨ r = 1) with rfl | rfl
  · have h1 : 2 * (2 * g + 0) = 4 * g := by omega
    have h2 : 4 * g / 4 = g := by omega
    have h3 : (4 * g) % 4 = 0 := by omega
    have h4 : (4 * g + 1) / 4 = g := by omega
    have h5 : (4 * g + 1) % 4 = 1 := by omega
    rw [h1, h2, h3, h4, h5]; exact ⟨rfl, rfl⟩
  · have h1 : 2 * (2 * g + 1) = 4 * g + 2 := by omega
    have h2 : (4 * g + 2) / 4 = g := by omega
    have h3 : (4 * g + 2) % 4 = 2 := by omega
    have h4 : (4 * g + 2 + 1) / 4 = g := by omega
    have h5 : (4 * g + 2 + 1) % 4 = 3 := by omega
    rw [h1, h2, h3, h4, h5]; exact ⟨rfl, rfl⟩
theorem ashr64Emu_lane {n : Nat} (x : BitVec n) (k : Nat) {i : Nat} (hn : n % 128 = 0) (hi : (i + 1) * 64 ≤ n) :
    lane 64 (ashr64Emu x k) i = ashr64Lane (lane 64 x i) k := by
  replace hi : i * 64 + 64 ≤ n := by rw [Nat.succ_mul] at hi; exact hi
  obtain ⟨g, r, hr, hgr, hgn⟩ : ∃ g r, r < 2 ∧ i = 2 * g + r ∧ g * 128 + 128 ≤ n :=
    ⟨i / 2, i % 2, Nat.mod_lt _ (by decide), by omega, by omega⟩
  clear hn
  have hjm : (4 * g + r) % 4 = r := by clear hgn hgr hi; omega
  have hjd : (4 * g + r) / 4 = g := by clear hgn hgr hi hjm; omega
  have idx0 : (2 * i) % 2 = 0 := by clear hgn hgr hi hjm hjd; omega
  have idx1 : ¬ (2 * i + 1) % 2 = 0 := by clear hgn hgr hi hjm hjd; omega
  have e0 : 4 * (2 * i / 4) + 2 * i % 4 / 2 = 4 * g + r := (ashr_idx hr hgr).1
  have e1 : 4 * ((2 * i + 1) / 4) + (2 * i + 1) % 4 / 2 = 4 * g + r := (ashr_idx hr hgr).2
  have e2 : 4 * g + 2 * r = 2 * i := by clear hgn hi hjm hjd idx0 idx1 e0 e1; omega
  have b0 : (2 * i + 1) * 32 ≤ n := by clear hjm hjd idx0 idx1 e0 e1; omega
  have b1 : (2 * i + 2) * 32 ≤ n := by clear b0 hjm hjd idx0 idx1 e0 e1; omega
  have bj : (4 * g + r + 1) * 32 ≤ n := by clear hjm hjd idx0 idx1 e0 e1 b0 b1; omega
  have bm : (4 * g + r) % 4 < 2 := by rw [hjm]; exact hr
  have l1 : lane 32 (lane 64 x i) 1 = lane 32 x (2 * i + 1) := lane_lane _ (by decide) _ (by clear b0 b1 bj hjm hjd idx0 idx1 e0 e1; omega)
  have l0 : lane 32 (lane 64 x i) 0 = lane 32 x (2 * i) := lane_lane _ (by decide) _ (by clear b0 b1 bj hjm hjd idx0 idx1 e0 e1; omega)
  have srai : ∀ k' m, (m + 1) * 32 ≤ n → lane 32 (sraiL 32 x k') m = (lane 32 x m).sshiftRight k' := fun k' m hm => lane_map1 _ _ hm
  have srli : ∀ k' m, (m + 1) * 32 ≤ n → lane 32 (srliL 32 x k') m = (lane 32 x m) >>> k' := fun k' m hm => lane_map1 _ _ hm
  have up : ∀ p q : BitVec n, lane 64 (unpackloEpi32 p q) i =
      (lane 32 q (4 * g + r) ++ lane 32 p (4 * g + r) : BitVec 64) := by
    intro p q
    rw [lane64_eq, lane_unpacklo (k := 2 * i + 1) _ _ b1, lane_unpacklo (k := 2 * i) _ _ b0, if_neg idx1, if_pos idx0, e0, e1]
  unfold ashr64Emu ashr64Lane
  by_cases h32 : 32 ≤ k
  · simp only [if_pos h32]
    rw [up, shuf_3231 _ bj bm, shuf_3231 _ bj bm, hjm, hjd, e2, l1, srai _ _ b1]
    by_cases hk : 32 < k
    · rw [if_pos hk, srai _ _ b1]
    · rw [if_neg hk]
      have : k - 32 = 0 := by omega
      rw [this, BitVec.sshiftRight_zero]
  · simp only [if_neg h32]
    rw [up, shuf_3231 _ bj bm, shuf_3220 _ bj bm, hjm, hjd, e2, l0, l1, srai _ _ b1, srli _ _ b0]

theorem lane32_1_getLsbD (x : BitVec 64) (j : Nat) (hj : j < 32) : (lane 32 x 1).getLsbD j = x.getLsbD (32 + j) := by
  rw [getLsbD_lane]; simp [hj]
theorem lane32_0_getLsbD (x : BitVec 64) (j : Nat) (hj : j < 32) : (lane 32 x 0).getLsbD j = x.getLsbD j := by
  rw [getLsbD_lane]; simp [hj]
theorem lane32_1_msb (x : BitVec 64) : (lane 32 x 1).msb = x.msb := by
  rw [BitVec.msb_eq_getLsbD_last, BitVec.msb_eq_getLsbD_last, lane32_1_getLsbD _ _ (by decide)]

/-- For counts of 32 and more the emulation is right. -/
theorem ashr64Lane_ge (x : BitVec 64) {k : Nat} (hk : 32 ≤ k) (hk2 : k < 64) : ashr64Lane x k = x.sshiftRight k := by
  apply BitVec.eq_of_getLsbD_eq
  intro j hj
  simp only [ashr64Lane, if_pos hk, BitVec.getLsbD_append, BitVec.getLsbD_sshiftRight, lane32_1_msb]
  by_cases h1 : j < 32
  · simp only [h1, if_true]
    by_cases h2 : k - 32 + j < 32
    · rw [if_pos h2, if_pos (by omega), lane32_1_getLsbD _ _ h2, show 32 + (k - 32 + j) = k + j by omega,
        decide_eq_false (show ¬ 32 ≤ j by omega), decide_eq_false (show ¬ 64 ≤ j by omega)]
    · rw [if_neg h2, if_neg (by omega), decide_eq_false (show ¬ 32 ≤ j by omega), decide_eq_false (show ¬ 64 ≤ j by omega)]
  · simp only [h1, if_false]
    have h3 : ¬ k + j < 64 := by omega
    rw [if_neg h3]
    by_cases h2 : 31 + (j - 32) < 32
    · rw [if_pos h2]
      have : j = 32 := by omega
      subst this
      have := lane32_1_msb x
      rw [BitVec.msb_eq_getLsbD_last] at this
      simpa using this
    · rw [if_neg h2, decide_eq_false (show ¬ 32 ≤ j - 32 by omega), decide_eq_false (show ¬ 64 ≤ j by omega)]

/-- For counts below 32 it is right exactly when the `k` bits that have to cross from the high to the low
dword are zero. -/
theorem ashr64Lane_lt (x : BitVec 64) {k : Nat} (hk : k < 32) :
    ashr64Lane x k = x.sshiftRight k ↔ ∀ j, j < k → x.getLsbD (32 + j) = false := by
  have hb : ∀ j, j < 64 → (ashr64Lane x k).getLsbD j =
      if j < 32 then (if k + j < 32 then x.getLsbD (k + j) else false) else (if k + j < 64 then x.getLsbD (k + j) else x.msb) := by
    intro j hj
    simp only [ashr64Lane, if_neg (by omega : ¬ 32 ≤ k), BitVec.getLsbD_append, BitVec.getLsbD_sshiftRight, lane32_1_msb, BitVec.getLsbD_ushiftRight]
    by_cases h1 : j < 32
    · simp only [h1, if_true]
      by_cases h2 : k + j < 32
      · rw [if_pos h2, lane32_0_getLsbD _ _ h2]
      · rw [if_neg h2]; exact BitVec.getLsbD_of_ge _ _ (by omega)
    · simp only [h1, if_false]
      by_cases h2 : k + (j - 32) < 32
      · rw [if_pos h2, if_pos (by omega), lane32_1_getLsbD _ _ h2, show 32 + (k + (j - 32)) = k + j by omega]
        have : ¬ 32 ≤ j - 32 := by omega
        simp [this]
      · rw [if_neg h2, if_neg (by omega)]
        have : ¬ 32 ≤ j - 32 := by omega
        simp [this]
  have hs : ∀ j, j < 64 → (x.sshiftRight k).getLsbD j = if k + j < 64 then x.getLsbD (k + j) else x.msb := by
    intro j hj
    have : ¬ 64 ≤ j := by omega
    simp [BitVec.getLsbD_sshiftRight, this]
  constructor
  · intro h j hj
    have h1 : (ashr64Lane x k).getLsbD (32 + j - k) = (x.sshiftRight k).getLsbD (32 + j - k) := by rw [h]
    rw [hb _ (by omega), hs _ (by omega), if_pos (by omega), if_neg (by omega), if_pos (by omega),
      show k + (32 + j - k) = 32 + j by omega] at h1
    exact h1.symm
  · intro h
    apply BitVec.eq_of_getLsbD_eq
    intro j hj
    rw [hb j hj, hs j hj]
    by_cases h1 : j < 32
    · rw [if_pos h1, if_pos (show k + j < 64 by omega)]
      by_cases h2 : k + j < 32
      · rw [if_pos h2]
      · rw [if_neg h2]
        have := h (k + j - 32) (by omega)
        rw [show 32 + (k + j - 32) = k + j by omega] at this
        exact this.symm
    · rw [if_neg h1]

/-- lane result of `bit_ashiftr<T, k>`: emulated for 8-byte lanes without AVX-512VL. -/
def ashrEmulated (s : ISA) (T : Ety) : Bool := decide (T.bytes = 8) && !s.avx512vl

theorem ashrC_lane (s : ISA) {T : Ety} (h : T.Ok) (v : VSz) (a : Vec v) {i : Nat} (hi : i < extent T v) (k : Nat)
    (he : ashrEmulated s T = false) : lane T.w (ashrC s T k v a) i = (lane T.w a i).sshiftRight k := by
  have hc : T.bytes = 8 → s.avx512vl = true := by
    intro h8; simpa [ashrEmulated, h8] using he
  cases v with
  | v128 =>
    unfold ashrC; dsimp only
    split
    · next h8 => rw [if_pos (hc h8)]; exact lane_map1 _ _ (lane_bound h hi)
    · exact lane_map1 _ _ (lane_bound h hi)
  | v256 =>
    unfold ashrC; dsimp only
    split
    · next h8 => rw [if_pos (hc h8)]; exact lane_map1 _ _ (lane_bound h hi)
    · split
      · exact lane_map1 _ _ (lane_bound h hi)
      · exact mux1_lane h _ (fun x => x.sshiftRight k) (fun a i hi => lane_map1 _ _ (lane_bound h (v := .v128) hi)) a hi

theorem ashrC_lane64 (s : ISA) {T : Ety} (h8 : T.bytes = 8) (hv : s.avx512vl = false) (v : VSz) (a : Vec v) {i : Nat}
    (hi : i < extent T v) (k : Nat) : lane 64 (ashrC s T k v a) i = ashr64Lane (lane 64 a i) k := by
  have hT : (Ety.u64).Ok := by decide
  cases v with
  | v128 =>
    have hi2 : i < 2 := by simpa [extent, h8, VSz.bytes] using hi
    have : ashrC s T k .v128 a = ashr64Emu (n := 128) a k := by simp [ashrC, h8, hv]
    rw [this]; exact ashr64Emu_lane (n := 128) a k (by decide) (by omega)
  | v256 =>
    have hi2 : i < 4 := by simpa [extent, h8, VSz.bytes] using hi
    by_cases h2 : s.avx2 = true
    · have : ashrC s T k .v256 a = ashr64Emu (n := 256) a k := by simp [ashrC, h8, hv, h2]
      rw [this]; exact ashr64Emu_lane (n := 256) a k (by decide) (by omega)
    · have : ashrC s T k .v256 a = mux1 (fun x => ashr64Emu x k) a := by simp [ashrC, h8, hv, h2]
      rw [this]
      exact mux1_lane hT (fun x => ashr64Emu x k) (fun x => ashr64Lane x k)
        (fun a i hi => ashr64Emu_lane a k (by decide) (by have : i < 2 := hi; omega)) a hi2

/-! ### 64-bit variable shifts -/
theorem shlV64Emu_lane (a b : BitVec 128) {i : Nat} (hi : i < 2) :
    lane 64 (shlV64Emu a b) i = lane 64 a i <<< (lane 64 b i).toNat := by
  unfold shlV64Emu shufPd
  rw [lane_ofLanes _ (by omega)]
  rcases (by omega : i = 0 ∨ i = 1) with rfl | rfl
  · rw [if_pos rfl]; exact lane_map1 _ _ (by decide)
  · rw [if_neg (by decide)]
    refine (lane_map1 _ _ (by decide)).trans ?_
    have : lane 64 (unpackhiEpi64 b b) 0 = lane 64 b 1 := lane_ofLanes _ (by decide)
    rw [this]
theorem shrV64Emu_lane (a b : BitVec 128) {i : Nat} (hi : i < 2) :
    lane 64 (shrV64Emu a b) i = lane 64 a i >>> (lane 64 b i).toNat := by
  unfold shrV64Emu shufPd
  rw [lane_ofLanes _ (by omega)]
  rcases (by omega : i = 0 ∨ i = 1) with rfl | rfl
  · rw [if_pos rfl]; exact lane_map1 _ _ (by decide)
  · rw [if_neg (by decide)]
    refine (lane_map1 _ _ (by decide)).trans ?_
    have : lane 64 (unpackhiEpi64 b b) 0 = lane 64 b 1 := lane_ofLanes _ (by decide)
    rw [this]
theorem shlV64_lane (s : ISA) (v : VSz) (a b : Vec v) {i : Nat} (hi : (i + 1) * 64 ≤ v.bits) :
    lane 64 (shlV64 s v a b) i = lane 64 a i <<< (lane 64 b i).toNat := by
  have hT : (Ety.u64).Ok := by decide
  cases v with
  | v128 =>
    have hi' : (i + 1) * 64 ≤ 128 := hi
    unfold shlV64; dsimp only; split
    · exact lane_map2 _ _ _ hi
    · exact shlV64Emu_lane a b (by omega)
  | v256 =>
    have hi' : (i + 1) * 64 ≤ 256 := hi
    unfold shlV64; dsimp only; split
    · exact lane_map2 _ _ _ hi
    · exact mux2_lane hT shlV64Emu (fun x y => x <<< y.toNat) (fun a b i hi => shlV64Emu_lane a b hi) a b
        (show i < 4 by omega)
theorem shrV64_lane (s : ISA) (v : VSz) (a b : Vec v) {i : Nat} (hi : (i + 1) * 64 ≤ v.bits) :
    lane 64 (shrV64 s v a b) i = lane 64 a i >>> (lane 64 b i).toNat := by
  have hT : (Ety.u64).Ok := by decide
  cases v with
  | v128 =>
    have hi' : (i + 1) * 64 ≤ 128 := hi
    unfold shrV64; dsimp only; split
    · exact lane_map2 _ _ _ hi
    · exact shrV64Emu_lane a b (by omega)
  | v256 =>
    have hi' : (i + 1) * 64 ≤ 256 := hi
    unfold shrV64; dsimp only; split
    · exact lane_map2 _ _ _ hi
    · exact mux2_lane hT shrV64Emu (fun x y => x >>> y.toNat) (fun a b i hi => shrV64Emu_lane a b hi) a b
        (show i < 4 by omega)

/-! ### abs -/
def absNative (s : ISA) (T : Ety) : VSz → Bool
  | .v128 => decide (T.bytes ≤ 4) && s.ssse3
  | .v256 => decide (T.bytes ≤ 4) && s.avx2
theorem absI_native (s : ISA) {T : Ety} (h : T.Ok) (v : VSz) (hn : absNative s T v = true) (a : Vec v) :
    ∃ r, absI s T v a = some r ∧ ∀ i, i < extent T v → lane T.w r i = if (lane T.w a i).msb then - lane T.w a i else lane T.w a i := by
  cases v with
  | v128 =>
    have : T.bytes ≤ 4 ∧ s.ssse3 = true := by simpa [absNative] using hn
    exact ⟨_, if_pos this, fun i hi => lane_map1 (fun x => if x.msb then -x else x) a (lane_bound h (v := .v128) hi)⟩
  | v256 =>
    have : T.bytes ≤ 4 ∧ s.avx2 = true := by simpa [absNative] using hn
    exact ⟨_, if_pos this, fun i hi => lane_map1 (fun x => if x.msb then -x else x) a (lane_bound h (v := .v256) hi)⟩
theorem absI_fallback (s : ISA) {T : Ety} (h : T.Ok) (v : VSz) (hn : absNative s T v = false) (h1 : T.bytes ≠ 1) (a : Vec v) :
    ∃ r, absI s T v a = some r ∧ ∀ i, i < extent T v →
      lane T.w r i = (lane T.w a i ^^^ (lane T.w a i >>> (T.digits - 1))) - (lane T.w a i >>> (T.digits - 1)) := by
  have hf : absI s T v a = absFallback s T v a := by
    cases v with
    | v128 =>
      have : ¬ (T.bytes ≤ 4 ∧ s.ssse3 = true) := by
        intro hh; simp [absNative, hh.1, hh.2] at hn
      exact if_neg this
    | v256 =>
      have : ¬ (T.bytes ≤ 4 ∧ s.avx2 = true) := by
        intro hh; simp [absNative, hh.1, hh.2] at hn
      exact if_neg this
  rw [hf, absFallback, if_neg h1]
  refine ⟨_, rfl, fun i hi => ?_⟩
  rw [subI_lane s h v _ _ hi, shrC_lane s h v _ hi, bitXor, lane_xor, shrC_lane s h v _ hi]
end Dpm.X86
