import Verif.Model.Reduce
import Verif.Proofs.Comb
import Verif.Proofs.Vector
/- Proofs about the x86 reductions. -/
namespace Dpm.X86
open Dpm.Reg Dpm.Util Dpm.Generic Dpm.Spec

section horizontal
variable {α : Type}

theorem hred128_4_comb (s : ISA) {op : BitVec 128 → BitVec 128 → BitVec 128} {f : BitVec 32 → BitVec 32 → BitVec 32}
    (hop : ∀ a b i, i < 4 → lane 32 (op a b) i = f (lane 32 a i) (lane 32 b i)) (v : BitVec 128) :
    Comb f (lane 32 v) (List.range 4) (hred128_4 s op v) := by
  have key : ∀ a : BitVec 128, lane 32 a 0 = lane 32 v 1 → lane 32 a 2 = lane 32 v 3 →
      lane 32 (op (op v a) (movehl a (op v a))) 0 = f (f (lane 32 v 0) (lane 32 v 1)) (f (lane 32 v 2) (lane 32 v 3)) := by
    intro a h0 h2
    rw [hop _ _ 0 (by omega), hop _ _ 0 (by omega), h0]
    congr 1
    have : lane 32 (movehl a (op v a)) 0 = lane 32 (op v a) 2 := by
      rw [← lane_lane (w := 64) (i := 0) (j := 0) _ (by omega) 0 (by omega), movehl, lane_ofLanes _ (by omega), if_pos rfl,
        lane_lane (w := 64) (i := 1) (j := 0) _ (by omega) 2 (by omega)]
    rw [this, hop _ _ 2 (by omega), h2]
  have hc : Comb f (lane 32 v) (List.range 4) (f (f (lane 32 v 0) (lane 32 v 1)) (f (lane 32 v 2) (lane 32 v 3))) :=
    .node (.node (.one 0) (.one 1)) (.node (.one 2) (.one 3))
  unfold hred128_4
  dsimp only
  split
  · rw [key _ (by rw [movehdup, lane_ofLanes _ (by omega)]) (by rw [movehdup, lane_ofLanes _ (by omega)])]; exact hc
  · rw [key _ (by rw [shufPs, lane_ofLanes _ (by omega)]; rfl) (by rw [shufPs, lane_ofLanes _ (by omega)]; rfl)]; exact hc

theorem hred128_8_comb {op : BitVec 128 → BitVec 128 → BitVec 128} {f : BitVec 64 → BitVec 64 → BitVec 64}
    (hop : ∀ a b i, i < 2 → lane 64 (op a b) i = f (lane 64 a i) (lane 64 b i)) (v : BitVec 128) :
    Comb f (lane 64 v) (List.range 2) (hred128_8 op v) := by
  unfold hred128_8
  rw [hop _ _ 0 (by omega), shufPd, lane_ofLanes _ (by omega), if_pos rfl]
  exact .node (.one 0) (.one 1)

theorem hred256_4_comb {op : BitVec 256 → BitVec 256 → BitVec 256} {f : BitVec 32 → BitVec 32 → BitVec 32}
    (hop : ∀ a b i, i < 8 → lane 32 (op a b) i = f (lane 32 a i) (lane 32 b i)) (v : BitVec 256) :
    Comb f (lane 32 v) (List.range 8) (hred256_4 op v) := by
  unfold hred256_4
  dsimp only
  have hp : ∀ i, i < 4 → lane 32 (permute2f128 v v 0b10000001) i = lane 32 v (i + 4) := by
    intro i hi
    show lane 32 (setHL (0#128) (Reg.hi v)) i = _
    rw [lane_setHL_lo _ _ (by omega), lane_hi (i := i + 4) v (by omega) (by omega)]
  generalize permute2f128 v v 0b10000001 = p at hp
  have hb : ∀ i, i < 4 → lane 32 (op v p) i = f (lane 32 v i) (lane 32 v (i + 4)) := by
    intro i hi; rw [hop _ _ i (by omega), hp i hi]
  generalize op v p = b at hb
  have hb2 : lane 32 (op b (shufPs b b 3 3 1 1)) 0 = f (lane 32 b 0) (lane 32 b 1) := by
    rw [hop _ _ 0 (by omega), shufPs, lane_ofLanes _ (by omega)]; rfl
  have hb3 : lane 32 (op b (shufPs b b 3 3 1 1)) 2 = f (lane 32 b 2) (lane 32 b 3) := by
    rw [hop _ _ 2 (by omega), shufPs, lane_ofLanes _ (by omega)]; rfl
  generalize op b (shufPs b b 3 3 1 1) = d at hb2 hb3
  rw [hop _ _ 0 (by omega), unpackhi32, lane_ofLanes _ (by omega)]
  show Comb f (lane 32 v) (List.range 8) (f (lane 32 d 0) (lane 32 d 2))
  rw [hb2, hb3, hb 0 (by omega), hb 1 (by omega), hb 2 (by omega), hb 3 (by omega)]
  refine .perm (.node (.node (.node (.one 0) (.one 4)) (.node (.one 1) (.one 5))) (.node (.node (.one 2) (.one 6)) (.node (.one 3) (.one 7)))) ?_
  decide

theorem hred256_8_comb {op : BitVec 256 → BitVec 256 → BitVec 256} {f : BitVec 64 → BitVec 64 → BitVec 64}
    (hop : ∀ a b i, i < 4 → lane 64 (op a b) i = f (lane 64 a i) (lane 64 b i)) (v : BitVec 256) :
    Comb f (lane 64 v) (List.range 4) (hred256_8 op v) := by
  unfold hred256_8
  dsimp only
  have hp : ∀ i, i < 2 → lane 64 (permute2f128 v v 0b10000001) i = lane 64 v (i + 2) := by
    intro i hi
    show lane 64 (setHL (0#128) (Reg.hi v)) i = _
    rw [lane_setHL_lo _ _ (by omega), lane_hi (i := i + 2) v (by omega) (by omega)]
  generalize permute2f128 v v 0b10000001 = p at hp
  have hb : ∀ i, i < 2 → lane 64 (op v p) i = f (lane 64 v i) (lane 64 v (i + 2)) := by
    intro i hi; rw [hop _ _ i (by omega), hp i hi]
  generalize op v p = b at hb
  rw [hop _ _ 0 (by omega), unpackhi64, lane_ofLanes _ (by omega)]
  show Comb f (lane 64 v) (List.range 4) (f (lane 64 b 0) (lane 64 b 1))
  rw [hb 0 (by omega), hb 1 (by omega)]
  refine .perm (.node (.node (.one 0) (.one 2)) (.node (.one 1) (.one 3))) ?_
  decide

theorem shufEpi8_lane (a : BitVec 128) (row : List Nat) {i : Nat} (hi : i < 16) :
    lane 8 (shufEpi8 a row) i = if 128 ≤ row.reverse.getD i 0 then 0#8 else lane 8 a (row.reverse.getD i 0 % 16) :=
  lane_ofLanes _ (by omega)

theorem lane32_low (w : Nat) (hw : w ≤ 32) (x : BitVec 128) : (lane 32 x 0 &&& BitVec.ofNat 32 (2 ^ w - 1)).truncate w = lane w x 0 := by
  apply BitVec.eq_of_getLsbD_eq
  intro k hk
  rw [BitVec.truncate_eq_setWidth, BitVec.getLsbD_setWidth, BitVec.getLsbD_and, getLsbD_lane, getLsbD_lane, BitVec.getLsbD_ofNat]
  simp only [hk, Nat.testBit_two_pow_sub_one, show k < 32 by omega, decide_true, Bool.true_and, Bool.and_true, Nat.zero_mul]

theorem hred128_1_comb {op : BitVec 128 → BitVec 128 → BitVec 128} {f : BitVec 8 → BitVec 8 → BitVec 8}
    (hop : ∀ a b i, i < 16 → lane 8 (op a b) i = f (lane 8 a i) (lane 8 b i)) (v : BitVec 128) :
    Comb f (lane 8 v) (List.range 16) (hred128_1 op v) := by
  unfold hred128_1
  dsimp only
  have s1 : ∀ x : BitVec 128, ∀ j, j < 8 → lane 8 (shufEpi8 x [15, 14, 13, 12, 11, 10, 9, 8, 15, 14, 13, 12, 11, 10, 9, 8]) j = lane 8 x (j + 8) := by
    intro x j hj
    rw [shufEpi8_lane _ _ (by omega)]
    have : ∀ j : Fin 8, [15, 14, 13, 12, 11, 10, 9, 8, 15, 14, 13, 12, 11, 10, 9, 8].reverse.getD j.val 0 = j.val + 8 := by decide
    rw [this ⟨j, hj⟩, if_neg (by dsimp only; omega), Nat.mod_eq_of_lt (by dsimp only; omega)]
  have s2 : ∀ x : BitVec 128, ∀ j, j < 4 → lane 8 (shufEpi8 x [7, 6, 5, 4, 7, 6, 5, 4, 7, 6, 5, 4, 7, 6, 5, 4]) j = lane 8 x (j + 4) := by
    intro x j hj
    rw [shufEpi8_lane _ _ (by omega)]
    have : ∀ j : Fin 4, [7, 6, 5, 4, 7, 6, 5, 4, 7, 6, 5, 4, 7, 6, 5, 4].reverse.getD j.val 0 = j.val + 4 := by decide
    rw [this ⟨j, hj⟩, if_neg (by dsimp only; omega), Nat.mod_eq_of_lt (by dsimp only; omega)]
  have s3 : ∀ x : BitVec 128, ∀ j, j < 2 → lane 8 (shufEpi8 x [3, 2, 3, 2, 3, 2, 3, 2, 3, 2, 3, 2, 3, 2, 3, 2]) j = lane 8 x (j + 2) := by
    intro x j hj
    rw [shufEpi8_lane _ _ (by omega)]
    have : ∀ j : Fin 2, [3, 2, 3, 2, 3, 2, 3, 2, 3, 2, 3, 2, 3, 2, 3, 2].reverse.getD j.val 0 = j.val + 2 := by decide
    rw [this ⟨j, hj⟩, if_neg (by dsimp only; omega), Nat.mod_eq_of_lt (by dsimp only; omega)]
  have s4 : ∀ x : BitVec 128, lane 8 (shufEpi8 x [1, 1, 1, 1, 1, 1, 1, 1, 1, 1, 1, 1, 1, 1, 1, 1]) 0 = lane 8 x 1 := by
    intro x; rw [shufEpi8_lane _ _ (by omega)]; rfl
  rw [show (0xff#32) = BitVec.ofNat 32 (2 ^ 8 - 1) from rfl, lane32_low 8 (by omega)]
  refine Comb.halve (m := 8) (r := lane 8 (op v (shufEpi8 v _))) ?_ (fun j hj => by rw [hop _ _ j (by omega), s1 _ j hj])
  generalize op v (shufEpi8 v _) = b
  refine Comb.halve (m := 4) (r := lane 8 (op b (shufEpi8 b _))) ?_ (fun j hj => by rw [hop _ _ j (by omega), s2 _ j hj])
  generalize op b (shufEpi8 b _) = b
  refine Comb.halve (m := 2) (r := lane 8 (op b (shufEpi8 b _))) ?_ (fun j hj => by rw [hop _ _ j (by omega), s3 _ j hj])
  generalize op b (shufEpi8 b _) = b
  rw [hop _ _ 0 (by omega), s4]
  exact .node (.one 0) (.one 1)

/-- two 16-bit lanes are equal when their bytes are -/
theorem lane16_ext {n m : Nat} (x : BitVec n) (y : BitVec m) (i j : Nat)
    (h0 : lane 8 x (2 * i) = lane 8 y (2 * j)) (h1 : lane 8 x (2 * i + 1) = lane 8 y (2 * j + 1)) : lane 16 x i = lane 16 y j := by
  apply ext_lanes (w := 8) (e := 2) rfl
  intro k hk
  rcases (by omega : k = 0 ∨ k = 1) with rfl | rfl
  · rw [lane_lane _ (by omega) (2 * i) (by omega), lane_lane _ (by omega) (2 * j) (by omega)]; exact h0
  · rw [lane_lane _ (by omega) (2 * i + 1) (by omega), lane_lane _ (by omega) (2 * j + 1) (by omega)]; exact h1

theorem hred128_2_comb {op : BitVec 128 → BitVec 128 → BitVec 128} {f : BitVec 16 → BitVec 16 → BitVec 16}
    (hop : ∀ a b i, i < 8 → lane 16 (op a b) i = f (lane 16 a i) (lane 16 b i)) (v : BitVec 128) :
    Comb f (lane 16 v) (List.range 8) (hred128_2 op v) := by
  unfold hred128_2
  dsimp only
  have s1 : ∀ x : BitVec 128, ∀ j, j < 4 → lane 16 (shufEpi8 x [15, 14, 13, 12, 11, 10, 9, 8, 15, 14, 13, 12, 11, 10, 9, 8]) j = lane 16 x (j + 4) := by
    intro x j hj
    have : ∀ j : Fin 8, [15, 14, 13, 12, 11, 10, 9, 8, 15, 14, 13, 12, 11, 10, 9, 8].reverse.getD j.val 0 = j.val + 8 := by decide
    apply lane16_ext
    · rw [shufEpi8_lane _ _ (by omega), this ⟨2 * j, by omega⟩, if_neg (by dsimp only; omega), Nat.mod_eq_of_lt (by dsimp only; omega)]
      congr 1
    · rw [shufEpi8_lane _ _ (by omega), this ⟨2 * j + 1, by omega⟩, if_neg (by dsimp only; omega), Nat.mod_eq_of_lt (by dsimp only; omega)]
      congr 1
  have s2 : ∀ x : BitVec 128, ∀ j, j < 2 → lane 16 (shufEpi8 x [7, 6, 5, 4, 7, 6, 5, 4, 7, 6, 5, 4, 7, 6, 5, 4]) j = lane 16 x (j + 2) := by
    intro x j hj
    have : ∀ j : Fin 4, [7, 6, 5, 4, 7, 6, 5, 4, 7, 6, 5, 4, 7, 6, 5, 4].reverse.getD j.val 0 = j.val + 4 := by decide
    apply lane16_ext
    · rw [shufEpi8_lane _ _ (by omega), this ⟨2 * j, by omega⟩, if_neg (by dsimp only; omega), Nat.mod_eq_of_lt (by dsimp only; omega)]
      congr 1
    · rw [shufEpi8_lane _ _ (by omega), this ⟨2 * j + 1, by omega⟩, if_neg (by dsimp only; omega), Nat.mod_eq_of_lt (by dsimp only; omega)]
      congr 1
  have s3 : ∀ x : BitVec 128, lane 16 (shufEpi8 x [3, 2, 3, 2, 3, 2, 3, 2, 3, 2, 3, 2, 3, 2, 3, 2]) 0 = lane 16 x 1 := by
    intro x
    apply lane16_ext
    · rw [shufEpi8_lane _ _ (by omega)]; rfl
    · rw [shufEpi8_lane _ _ (by omega)]; rfl
  rw [show (0xffff#32) = BitVec.ofNat 32 (2 ^ 16 - 1) from rfl, lane32_low 16 (by omega)]
  refine Comb.halve (m := 4) (r := lane 16 (op v (shufEpi8 v _))) ?_ (fun j hj => by rw [hop _ _ j (by omega), s1 _ j hj])
  generalize op v (shufEpi8 v _) = b
  refine Comb.halve (m := 2) (r := lane 16 (op b (shufEpi8 b _))) ?_ (fun j hj => by rw [hop _ _ j (by omega), s2 _ j hj])
  generalize op b (shufEpi8 b _) = b
  rw [hop _ _ 0 (by omega), s3]
  exact .node (.one 0) (.one 1)
end horizontal

/-- every lane is used exactly once by the horizontal reduction -/
theorem hred_comb (s : ISA) {T : Ety} (hT : T.Ok) (v : VSz) (hex : hredExists s T v = true) {op : Vec v → Vec v → Vec v}
    {f : BitVec T.w → BitVec T.w → BitVec T.w}
    (hop : ∀ a b i, i < extent T v → lane T.w (op a b) i = f (lane T.w a i) (lane T.w b i)) (x : Vec v) :
    Comb f (lane T.w x) (List.range (extent T v)) (hred s T v op x) := by
  obtain ⟨bytes, flt, sg⟩ := T
  have h1 := hT.1
  dsimp only at h1
  cases v with
  | v128 =>
    rcases h1 with rfl | rfl | rfl | rfl
    · have hE : extent ⟨1, flt, sg⟩ .v128 = 16 := by simp [extent, VSz.bytes]
      rw [hE] at hop ⊢
      show Comb f (lane 8 x) (List.range 16) (BitVec.setWidth 8 (hred128_1 op x))
      rw [BitVec.setWidth_eq]
      exact hred128_1_comb hop x
    · have hE : extent ⟨2, flt, sg⟩ .v128 = 8 := by simp [extent, VSz.bytes]
      rw [hE] at hop ⊢
      show Comb f (lane 16 x) (List.range 8) (BitVec.setWidth 16 (hred128_2 op x))
      rw [BitVec.setWidth_eq]
      exact hred128_2_comb hop x
    · have hE : extent ⟨4, flt, sg⟩ .v128 = 4 := by simp [extent, VSz.bytes]
      rw [hE] at hop ⊢
      show Comb f (lane 32 x) (List.range 4) (BitVec.setWidth 32 (hred128_4 s op x))
      rw [BitVec.setWidth_eq]
      exact hred128_4_comb s hop x
    · have hE : extent ⟨8, flt, sg⟩ .v128 = 2 := by simp [extent, VSz.bytes]
      rw [hE] at hop ⊢
      show Comb f (lane 64 x) (List.range 2) (BitVec.setWidth 64 (hred128_8 op x))
      rw [BitVec.setWidth_eq]
      exact hred128_8_comb hop x
  | v256 =>
    rcases h1 with rfl | rfl | rfl | rfl
    · simp [hredExists] at hex
    · simp [hredExists] at hex
    · have hE : extent ⟨4, flt, sg⟩ .v256 = 8 := by simp [extent, VSz.bytes]
      rw [hE] at hop ⊢
      show Comb f (lane 32 x) (List.range 8) (BitVec.setWidth 32 (hred256_4 op x))
      rw [BitVec.setWidth_eq]
      exact hred256_4_comb hop x
    · have hE : extent ⟨8, flt, sg⟩ .v256 = 4 := by simp [extent, VSz.bytes]
      rw [hE] at hop ⊢
      show Comb f (lane 64 x) (List.range 4) (BitVec.setWidth 64 (hred256_8 op x))
      rw [BitVec.setWidth_eq]
      exact hred256_8_comb hop x

/-- the driver: lanes below `N` are used once each, the rest of the last vector is the identity -/
theorem reduceData_comb (s : ISA) {T : Ety} (hT : T.Ok) {N : Nat} (hN : 0 < N) (hN2 : N < 2 ^ 64) (v : VSz)
    (hex : hredExists s T v = true) {op : Vec v → Vec v → Vec v} {f : BitVec T.w → BitVec T.w → BitVec T.w}
    (hop : ∀ a b i, i < extent T v → lane T.w (op a b) i = f (lane T.w a i) (lane T.w b i))
    (idt : Vec v) (u : BitVec T.w) (hidt : ∀ i, i < extent T v → lane T.w idt i = u) (data : Mem (Vec v)) :
    Comb f (fun i => if i < N then lane T.w (data (i / extent T v)) (i % extent T v) else u)
      (List.range (ceilDiv N (extent T v) * extent T v)) (reduceData s T N v op idt data) := by
  have he := extent_pos hT v
  have hsplit : ¬ splitTail s T v := by
    rintro ⟨rfl, hb, ha⟩
    simp only [hredExists, Bool.and_eq_true, decide_eq_true_eq] at hex
    omega
  unfold reduceData
  dsimp only
  rw [forStride_eq he]
  generalize hE : extent T v = e at *
  refine Comb.perm ?_ (cols_perm (ceilDiv N e) e)
  refine Comb.bind (r := lane T.w _) _ (hE ▸ hred_comb s hT v hex (hE ▸ hop) _) ?_
  have hm : 0 < ceilDiv N e := (ceilDiv_spec he 0).1 (by omega)
  have inv := forRange_inv (fun m (st : Vec v) => 0 < m → ∀ k, k < e →
      Comb f (fun i => if i < N then lane T.w (data (i / e)) (i % e) else u) ((List.range m).map (fun j => j * e + k)) (lane T.w st k))
    (ceilDiv N e) (fun j res =>
      if j * e ≠ 0 then op res (if j * e + e > N then maskblend s T v (data j) idt (N - j * e) else data j)
      else (if j * e + e > N then maskblend s T v (data j) idt (N - j * e) else data j)) 0 (by simp) (by
    intro m st hm ih _ k hk
    have hlt := (ceilDiv_spec he m).2 hm
    have hdiv : (m * e + k) / e = m := by rw [Nat.mul_comm, Nat.mul_add_div he, Nat.div_eq_of_lt hk, Nat.add_zero]
    have hmod : (m * e + k) % e = k := by rw [Nat.mul_comm, Nat.mul_add_mod, Nat.mod_eq_of_lt hk]
    have hx : lane T.w (if m * e + e > N then maskblend s T v (data m) idt (N - m * e) else data m) k =
        (fun i => if i < N then lane T.w (data (i / e)) (i % e) else u) (m * e + k) := by
      dsimp only
      rw [hdiv, hmod]
      split
      · rw [maskblend_lane s hT v _ _ (by omega) (hE.symm ▸ hk), replaced, if_neg hsplit, hidt k hk]
        by_cases hh : m * e + k < N
        · rw [if_pos hh, if_neg (by simp; omega)]
        · rw [if_neg hh, if_pos (by simp; omega)]
      · rw [if_pos (by omega)]
    rw [List.range_succ, List.map_append]
    by_cases h0 : m = 0
    · subst h0
      rw [if_neg (by simp), hx]
      exact .one _
    · have : m * e ≠ 0 := by
        intro h; rcases Nat.mul_eq_zero.1 h with h | h <;> omega
      rw [if_pos this, hop _ _ k hk, hx]
      exact (ih (by omega) k hk).snoc _)
  intro k hk
  exact inv hm k (List.mem_range.1 hk)

/-- the native vector size the reduction runs on -/
def redV (c : Cfg) : VSz := if c.v = .v256 ∧ c.s.avx2 = false then .v128 else c.v

theorem view128_elt {c : Cfg} (hc : c.Ok) (x : c.Data) (i : Nat) :
    lane c.w (view128 c.v x (i / extent c.T .v128)) (i % extent c.T .v128) = elt c x i := by
  obtain ⟨s, T, N, v⟩ := c
  cases v with
  | v128 => rfl
  | v256 =>
    have hT : T.Ok := hc.ety
    have h2 := extent_half hT
    have hp := extent_pos hT .v128
    show lane T.w (if i / extent T .v128 % 2 = 0 then lo (x (i / extent T .v128 / 2)) else hi (x (i / extent T .v128 / 2))) (i % extent T .v128) =
      lane T.w (x (i / extent T .v256)) (i % extent T .v256)
    have hm := Nat.mod_lt i hp
    have hb := lane_bound hT (v := .v128) hm
    have hmul := extent_mul hT .v128
    rw [h2]
    have hd : i / (2 * extent T .v128) = i / extent T .v128 / 2 := by rw [Nat.mul_comm, Nat.div_div_eq_div_mul]
    have hr : i % (2 * extent T .v128) = i % extent T .v128 + extent T .v128 * (i / extent T .v128 % 2) := by
      rw [Nat.mul_comm 2, Nat.mod_mul]
    rw [hd, hr]
    rcases Nat.mod_two_eq_zero_or_one (i / extent T .v128) with h | h
    · rw [if_pos h, h, Nat.mul_zero, Nat.add_zero, lane_lo _ hb]
    · rw [if_neg (by omega), h, Nat.mul_one]
      exact lane_hi _ hb (by rw [Nat.add_mul, hmul])

theorem redNative_comb {c : Cfg} (hc : c.Ok) (hex : hredExists c.s c.T (redV c) = true)
    (op : (v : VSz) → Vec v → Vec v → Option (Vec v)) (idt : (v : VSz) → Vec v) (f : BitVec c.w → BitVec c.w → BitVec c.w) (u : BitVec c.w)
    (hop : ∀ a b, ∃ r, op (redV c) a b = some r ∧ ∀ i, i < extent c.T (redV c) → lane c.w r i = f (lane c.w a i) (lane c.w b i))
    (hidt : ∀ i, i < extent c.T (redV c) → lane c.w (idt (redV c)) i = u) (x : c.Data) :
    ∃ r M, redNative c op idt x = .ok r ∧ c.N ≤ M ∧ (c.N % c.e = 0 → M = c.N) ∧ (c.N % extent c.T (redV c) ≠ 0 → c.N < M) ∧
      Comb f (fun i => if i < c.N then elt c x i else u) (List.range M) r := by
  have hNpos := hc.pos
  have hlt := hc.lt
  have hM : ∀ e, 0 < e → c.N ≤ ceilDiv c.N e * e ∧ (c.N % e = 0 → ceilDiv c.N e * e = c.N) := by
    intro e he
    constructor
    · have := (ceilDiv_spec (N := c.N) he (ceilDiv c.N e)).1
      exact Nat.le_of_not_lt (fun h => Nat.lt_irrefl _ (this h))
    · intro h0
      unfold ceilDiv
      rw [if_neg (by simp [h0]), Nat.add_zero]
      exact Nat.div_mul_cancel (Nat.dvd_of_mod_eq_zero h0)
  have hM2 : ∀ e, 0 < e → c.N % e ≠ 0 → c.N < ceilDiv c.N e * e := by
    intro e he h0
    have h1 := (hM e he).1
    rcases Nat.lt_or_eq_of_le h1 with h | h
    · exact h
    · exfalso; apply h0; rw [h]; exact Nat.mul_mod_left _ _
  unfold redNative
  unfold redV at hex hop hidt ⊢
  by_cases hv : c.v = .v256 ∧ c.s.avx2 = false
  · rw [if_pos hv] at hex hop hidt
    rw [if_pos hv, if_pos hv, if_pos ⟨hex, by obtain ⟨r, hr, _⟩ := hop 0 0; rw [hr]; rfl⟩]
    have he := extent_pos hc.ety .v128
    refine ⟨_, _, rfl, (hM _ he).1, ?_, hM2 _ he, ?_⟩
    · intro h0
      apply (hM _ he).2
      have h2 := extent_half hc.ety
      have : c.e = 2 * extent c.T .v128 := by rw [← h2, ← hv.1]
      rw [this] at h0
      exact Nat.mod_eq_zero_of_dvd (Nat.dvd_trans ⟨2, Nat.mul_comm _ _⟩ (Nat.dvd_of_mod_eq_zero h0))
    · refine (reduceData_comb c.s hc.ety hNpos hlt .v128 hex (f := f) ?_ (idt .v128) u hidt (view128 c.v x)).congr ?_
      · intro a b i hi
        obtain ⟨r, hr, h⟩ := hop a b
        rw [hr]; exact h i hi
      · intro i hi
        split
        · exact view128_elt hc x i
        · rfl
  · rw [if_neg hv] at hex hop hidt
    rw [if_neg hv, if_neg hv, if_pos ⟨hex, by obtain ⟨r, hr, _⟩ := hop 0 0; rw [hr]; rfl⟩]
    have he := extent_pos hc.ety c.v
    refine ⟨_, _, rfl, (hM _ he).1, fun h0 => (hM _ he).2 h0, hM2 _ he, ?_⟩
    refine (reduceData_comb c.s hc.ety hNpos hlt c.v hex (f := f) ?_ (idt c.v) u hidt x).congr ?_
    · intro a b i hi
      obtain ⟨r, hr, h⟩ := hop a b
      rw [hr]; exact h i hi
    · intro i hi; rfl

end Dpm.X86
