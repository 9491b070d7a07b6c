import Verif.Proofs.Native
/-! Lane lemmas about maskblend / maskzero / maskone / blendv. -/
namespace Dpm.X86
open Dpm.Reg Dpm.Util

theorem lane_eq_of_sub {n w v k : Nat} (x y : BitVec n) (i : Nat) (hw : w = k * v) (hv : 0 < v)
    (h : ∀ j, j < k → lane v x (i * k + j) = lane v y (i * k + j)) : lane w x i = lane w y i := by
  apply BitVec.eq_of_getLsbD_eq
  intro b hb
  rw [getLsbD_lane, getLsbD_lane]
  have hj : b / v < k := (Nat.div_lt_iff_lt_mul hv).2 (by omega)
  have := congrArg (fun z => z.getLsbD (b % v)) (h _ hj)
  simp only [getLsbD_lane, Nat.mod_lt b hv, decide_true, Bool.true_and] at this
  have e : (i * k + b / v) * v + b % v = i * w + b := by
    rw [Nat.add_mul, hw, Nat.mul_assoc, Nat.add_assoc, Nat.mul_comm (b / v) v, Nat.div_add_mod]
  rw [e] at this
  rw [this]

theorem setRow_lane {n w i : Nat} (m : BitVec w) (row : List Bool) (h : (i + 1) * w ≤ n) :
    lane w (setRow n w m row) i = if row.reverse.getD i false then m else 0#w := lane_ofLanes _ h
theorem blendImm_lane {n w i : Nat} (a b : BitVec n) (imm : Nat) (h : (i + 1) * w ≤ n) :
    lane w (blendImm w a b imm) i = if imm.testBit i then lane w b i else lane w a i := lane_ofLanes _ h
theorem blendvL_lane {n w i : Nat} (a b m : BitVec n) (h : (i + 1) * w ≤ n) :
    lane w (blendvL w a b m) i = if (lane w m i).msb then lane w b i else lane w a i := lane_map3 _ _ _ _ h
/-- bit-wise select on a canonical mask lane -/
theorem blendBits_lane {n w i : Nat} (a b m : BitVec n) (h : (i + 1) * w ≤ n) (p : Bool) (hm : lane w m i = laneMask w p) :
    lane w (blendBits a b m) i = if p then lane w b i else lane w a i := by
  unfold blendBits
  rw [lane_or, lane_and, lane_and, lane_not _ h, hm]
  cases p <;> simp [laneMask]
theorem laneMask_ite (w : Nat) (p : Bool) : (if p then BitVec.allOnes w else 0#w) = laneMask w p := rfl

/-- rows of `set` operands with lanes `n..` set -/
def RowGE (t : Nat → Option (List Bool)) (e k : Nat) : Prop :=
  (∀ n, n = 0 ∨ e ≤ n → t n = none) ∧
  ∀ n, 1 ≤ n → n < e → ∃ row, t n = some row ∧ ∀ i, i < e * k → row.reverse.getD i false = decide (n * k ≤ i)
/-- rows of `set` operands with lanes `0..n-1` set -/
def RowLT (t : Nat → Option (List Bool)) (e : Nat) : Prop :=
  (∀ n, n = 0 ∨ e ≤ n → t n = none) ∧
  ∀ n, 1 ≤ n → n < e → ∃ row, t n = some row ∧ ∀ i, i < e → row.reverse.getD i false = decide (i < n)
def ImmGE (t : Nat → Option Nat) (e : Nat) : Prop :=
  (∀ n, n = 0 ∨ e ≤ n → t n = none) ∧
  ∀ n, 1 ≤ n → n < e → ∃ imm, t n = some imm ∧ ∀ i, i < e → imm.testBit i = decide (n ≤ i)

theorem rowGE_of (t : Nat → Option (List Bool)) (e k : Nat) (h0 : ∀ n, n = 0 ∨ e ≤ n → t n = none)
    (h : ∀ n : Fin e, 1 ≤ n.val → (t n.val).isSome = true ∧ ∀ i : Fin (e * k), ((t n.val).getD []).reverse.getD i.val false = decide (n.val * k ≤ i.val)) :
    RowGE t e k := by
  refine ⟨h0, fun n h1 h2 => ?_⟩
  obtain ⟨hs, hr⟩ := h ⟨n, h2⟩ h1
  obtain ⟨row, hrow⟩ := Option.isSome_iff_exists.1 hs
  refine ⟨row, hrow, fun i hi => ?_⟩
  have := hr ⟨i, hi⟩
  simp only at hrow
  simpa only [hrow, Option.getD_some] using this
theorem rowLT_of (t : Nat → Option (List Bool)) (e : Nat) (h0 : ∀ n, n = 0 ∨ e ≤ n → t n = none)
    (h : ∀ n : Fin e, 1 ≤ n.val → (t n.val).isSome = true ∧ ∀ i : Fin e, ((t n.val).getD []).reverse.getD i.val false = decide (i.val < n.val)) :
    RowLT t e := by
  refine ⟨h0, fun n h1 h2 => ?_⟩
  obtain ⟨hs, hr⟩ := h ⟨n, h2⟩ h1
  obtain ⟨row, hrow⟩ := Option.isSome_iff_exists.1 hs
  refine ⟨row, hrow, fun i hi => ?_⟩
  have := hr ⟨i, hi⟩
  simp only at hrow
  simpa only [hrow, Option.getD_some] using this
theorem immGE_of (t : Nat → Option Nat) (e : Nat) (h0 : ∀ n, n = 0 ∨ e ≤ n → t n = none)
    (h : ∀ n : Fin e, 1 ≤ n.val → (t n.val).isSome = true ∧ ∀ i : Fin e, ((t n.val).getD 0).testBit i.val = decide (n.val ≤ i.val)) :
    ImmGE t e := by
  refine ⟨h0, fun n h1 h2 => ?_⟩
  obtain ⟨hs, hr⟩ := h ⟨n, h2⟩ h1
  obtain ⟨row, hrow⟩ := Option.isSome_iff_exists.1 hs
  refine ⟨row, hrow, fun i hi => ?_⟩
  have := hr ⟨i, hi⟩
  simp only at hrow
  simpa only [hrow, Option.getD_some] using this

open Tables in
section
theorem t_maskblend4_128_imm : ImmGE maskblend4_128_imm 4 :=
  immGE_of _ _ (fun n h => by unfold maskblend4_128_imm; split <;> first | rfl | omega) (by decide +kernel)
theorem t_maskblend2_128_imm : ImmGE maskblend2_128_imm 8 :=
  immGE_of _ _ (fun n h => by unfold maskblend2_128_imm; split <;> first | rfl | omega) (by decide +kernel)
theorem t_maskblend4_256_imm : ImmGE maskblend4_256_imm 8 :=
  immGE_of _ _ (fun n h => by unfold maskblend4_256_imm; split <;> first | rfl | omega) (by decide +kernel)
theorem t_maskblend8_256_imm : ImmGE maskblend8_256_imm 4 :=
  immGE_of _ _ (fun n h => by unfold maskblend8_256_imm; split <;> first | rfl | omega) (by decide +kernel)
theorem t_maskblend4_128 : RowGE maskblend4_128 4 1 :=
  rowGE_of _ _ _ (fun n h => by unfold maskblend4_128; split <;> first | rfl | omega) (by decide +kernel)
theorem t_maskone4_128 : RowGE maskone4_128 4 1 :=
  rowGE_of _ _ _ (fun n h => by unfold maskone4_128; split <;> first | rfl | omega) (by decide +kernel)
theorem t_maskblend1_128_sse41 : RowGE maskblend1_128_sse41 16 1 :=
  rowGE_of _ _ _ (fun n h => by unfold maskblend1_128_sse41; split <;> first | rfl | omega) (by decide +kernel)
theorem t_maskblend1_128 : RowGE maskblend1_128 16 1 :=
  rowGE_of _ _ _ (fun n h => by unfold maskblend1_128; split <;> first | rfl | omega) (by decide +kernel)
theorem t_maskone1_128 : RowGE maskone1_128 16 1 :=
  rowGE_of _ _ _ (fun n h => by unfold maskone1_128; split <;> first | rfl | omega) (by decide +kernel)
theorem t_maskblend2_128 : RowGE maskblend2_128 8 1 :=
  rowGE_of _ _ _ (fun n h => by unfold maskblend2_128; split <;> first | rfl | omega) (by decide +kernel)
theorem t_maskone2_128 : RowGE maskone2_128 8 1 :=
  rowGE_of _ _ _ (fun n h => by unfold maskone2_128; split <;> first | rfl | omega) (by decide +kernel)
theorem t_maskblend1_256 : RowGE maskblend1_256 32 1 :=
  rowGE_of _ _ _ (fun n h => by unfold maskblend1_256; split <;> first | rfl | omega) (by decide +kernel)
theorem t_maskblend2_256 : RowGE maskblend2_256 16 2 :=
  rowGE_of _ _ _ (fun n h => by unfold maskblend2_256; split <;> first | rfl | omega) (by decide +kernel)
theorem t_maskzero4_128 : RowLT maskzero4_128 4 :=
  rowLT_of _ _ (fun n h => by unfold maskzero4_128; split <;> first | rfl | omega) (by decide +kernel)
theorem t_maskzero1_128 : RowLT maskzero1_128 16 :=
  rowLT_of _ _ (fun n h => by unfold maskzero1_128; split <;> first | rfl | omega) (by decide +kernel)
theorem t_maskzero2_128 : RowLT maskzero2_128 8 :=
  rowLT_of _ _ (fun n h => by unfold maskzero2_128; split <;> first | rfl | omega) (by decide +kernel)
end


theorem imm_case {t : Nat → Option Nat} {e w N : Nat} (ht : ImmGE t e) (a b : BitVec N) (n : Nat) {i : Nat} (hi : i < e)
    (hb : (i + 1) * w ≤ N) :
    lane w (match t n with | some imm => blendImm w a b imm | none => a) i
      = if 1 ≤ n ∧ n ≤ i then lane w b i else lane w a i := by
  by_cases hn : 1 ≤ n ∧ n < e
  · obtain ⟨imm, h1, h2⟩ := ht.2 n hn.1 hn.2
    rw [h1]
    simp only [blendImm_lane a b imm hb, h2 i hi, decide_eq_true_eq, hn.1, true_and]
  · rw [ht.1 n (by omega), if_neg (by omega)]
theorem row_case {t : Nat → Option (List Bool)} {e w N : Nat} (ht : RowGE t e 1) (a b : BitVec N) (n : Nat) {i : Nat} (hi : i < e)
    (hb : (i + 1) * w ≤ N) :
    lane w (match t n with | some row => blendBits a b (setRow N w (BitVec.allOnes w) row) | none => a) i
      = if 1 ≤ n ∧ n ≤ i then lane w b i else lane w a i := by
  by_cases hn : 1 ≤ n ∧ n < e
  · obtain ⟨row, h1, h2⟩ := ht.2 n hn.1 hn.2
    rw [h1]
    simp only
    rw [blendBits_lane a b _ hb (decide (n ≤ i)) (by rw [setRow_lane _ _ hb, h2 i (by omega), Nat.mul_one]; rfl)]
    simp only [decide_eq_true_eq, hn.1, true_and]
  · rw [ht.1 n (by omega), if_neg (by omega)]
theorem rowv_case {t : Nat → Option (List Bool)} {e N : Nat} (ht : RowGE t e 1) (a b : BitVec N) (n : Nat) {i : Nat} (hi : i < e)
    (hb : (i + 1) * 8 ≤ N) :
    lane 8 (match t n with | some row => blendvL 8 a b (setRow N 8 0x80#8 row) | none => a) i
      = if 1 ≤ n ∧ n ≤ i then lane 8 b i else lane 8 a i := by
  by_cases hn : 1 ≤ n ∧ n < e
  · obtain ⟨row, h1, h2⟩ := ht.2 n hn.1 hn.2
    rw [h1]
    simp only
    rw [blendvL_lane a b _ hb, setRow_lane _ _ hb, h2 i (by omega), Nat.mul_one]
    by_cases h : n ≤ i <;> simp [h, hn.1]
    intro h3; exact absurd h3 (by decide)
  · rw [ht.1 n (by omega), if_neg (by omega)]
theorem rowv2_case {t : Nat → Option (List Bool)} {e N : Nat} (ht : RowGE t e 2) (a b : BitVec N) (n : Nat) {i : Nat} (hi : i < e)
    (hb : (i + 1) * 16 ≤ N) :
    lane 16 (match t n with | some row => blendvL 8 a b (setRow N 8 0x80#8 row) | none => a) i
      = if 1 ≤ n ∧ n ≤ i then lane 16 b i else lane 16 a i := by
  by_cases hn : 1 ≤ n ∧ n < e
  · obtain ⟨row, h1, h2⟩ := ht.2 n hn.1 hn.2
    rw [h1]
    simp only
    have key : ∀ j, j < 2 → lane 8 (blendvL 8 a b (setRow N 8 0x80#8 row)) (i * 2 + j)
        = if n ≤ i then lane 8 b (i * 2 + j) else lane 8 a (i * 2 + j) := by
      intro j hj
      have hb' : (i * 2 + j + 1) * 8 ≤ N := by omega
      rw [blendvL_lane a b _ hb', setRow_lane _ _ hb', h2 (i * 2 + j) (by omega)]
      have : n * 2 ≤ i * 2 + j ↔ n ≤ i := by omega
      by_cases h : n ≤ i <;> simp [h, this]
      intro h3; exact absurd h3 (by decide)
    by_cases h : n ≤ i
    · rw [if_pos ⟨hn.1, h⟩]
      exact lane_eq_of_sub _ _ i (k := 2) (v := 8) rfl (by omega) (fun j hj => by rw [key j hj, if_pos h])
    · rw [if_neg (fun hh => h hh.2)]
      exact lane_eq_of_sub _ _ i (k := 2) (v := 8) rfl (by omega) (fun j hj => by rw [key j hj, if_neg h])
  · rw [ht.1 n (by omega), if_neg (by omega)]
theorem rowand_case {t : Nat → Option (List Bool)} {e w N : Nat} (ht : RowLT t e) (a : BitVec N) (n : Nat) {i : Nat} (hi : i < e)
    (hb : (i + 1) * w ≤ N) :
    lane w (match t n with | some row => a &&& setRow N w (BitVec.allOnes w) row | none => a) i
      = if 1 ≤ n ∧ n ≤ i then 0#w else lane w a i := by
  by_cases hn : 1 ≤ n ∧ n < e
  · obtain ⟨row, h1, h2⟩ := ht.2 n hn.1 hn.2
    rw [h1]
    simp only
    rw [lane_and, setRow_lane _ _ hb, h2 i hi]
    by_cases h : n ≤ i
    · rw [decide_eq_false (p := i < n) (by omega), if_pos (c := 1 ≤ n ∧ n ≤ i) ⟨hn.1, h⟩]; simp
    · rw [decide_eq_true (p := i < n) (by omega), if_neg (c := 1 ≤ n ∧ n ≤ i) (fun hh => h hh.2)]; simp
  · rw [ht.1 n (by omega), if_neg (by omega)]
theorem rowor_case {t : Nat → Option (List Bool)} {e w N : Nat} (ht : RowGE t e 1) (a : BitVec N) (n : Nat) {i : Nat} (hi : i < e)
    (hb : (i + 1) * w ≤ N) :
    lane w (match t n with | some row => a ||| setRow N w (BitVec.allOnes w) row | none => a) i
      = if 1 ≤ n ∧ n ≤ i then BitVec.allOnes w else lane w a i := by
  by_cases hn : 1 ≤ n ∧ n < e
  · obtain ⟨row, h1, h2⟩ := ht.2 n hn.1 hn.2
    rw [h1]
    simp only
    rw [lane_or, setRow_lane _ _ hb, h2 i (by omega), Nat.mul_one]
    by_cases h : n ≤ i
    · rw [decide_eq_true h, if_pos (c := 1 ≤ n ∧ n ≤ i) ⟨hn.1, h⟩]; simp
    · rw [decide_eq_false h, if_neg (c := 1 ≤ n ∧ n ≤ i) (fun hh => h hh.2)]; simp
  · rw [ht.1 n (by omega), if_neg (by omega)]

theorem Ety.Ok.elim {T : Ety} (h : T.Ok) {P : Nat → Prop} (h1 : P 1) (h2 : P 2) (h4 : P 4) (h8 : P 8) : P T.bytes := by
  rcases h.1 with h | h | h | h <;> rw [h] <;> assumption

theorem maskblend128_lane' (s : ISA) {bytes : Nat} (hB : bytes = 1 ∨ bytes = 2 ∨ bytes = 4 ∨ bytes = 8) (a b : BitVec 128) (n : Nat) {i : Nat} (hi : i < 16 / bytes) :
    lane (8 * bytes) (maskblend128 s bytes a b n) i = if 1 ≤ n ∧ n ≤ i then lane (8 * bytes) b i else lane (8 * bytes) a i := by
  unfold maskblend128
  rcases hB with h | h | h | h <;> subst h
  · rw [if_neg (by decide), if_pos rfl]
    split
    · exact rowv_case t_maskblend1_128_sse41 a b n hi (by omega)
    · exact row_case t_maskblend1_128 a b n hi (by omega)
  · rw [if_neg (by decide), if_neg (by decide), if_pos rfl]
    split
    · exact imm_case t_maskblend2_128_imm a b n hi (by omega)
    · exact row_case t_maskblend2_128 a b n hi (by omega)
  · rw [if_pos rfl]
    split
    · exact imm_case t_maskblend4_128_imm a b n hi (by omega)
    · exact row_case t_maskblend4_128 a b n hi (by omega)
  · rw [if_neg (by decide), if_neg (by decide), if_neg (by decide)]
    split
    · next hn =>
      subst hn
      split
      · rw [blendImm_lane _ _ _ (by omega)]
        rcases (by omega : i = 0 ∨ i = 1) with h | h <;> subst h <;> rfl
      · rw [blendBits_lane a b _ (by omega) (decide (1 ≤ i))]
        · simp
        · rw [setRow_lane _ _ (by omega)]
          rcases (by omega : i = 0 ∨ i = 1) with h | h <;> subst h <;> rfl
    · rw [if_neg (by omega)]
theorem maskblend128_lane (s : ISA) {T : Ety} (h : T.Ok) (a b : BitVec 128) (n : Nat) {i : Nat} (hi : i < extent T .v128) :
    lane T.w (maskblend128 s T.bytes a b n) i = if 1 ≤ n ∧ n ≤ i then lane T.w b i else lane T.w a i :=
  maskblend128_lane' s h.1 a b n hi

theorem maskzero128_lane' {bytes : Nat} (hB : bytes = 1 ∨ bytes = 2 ∨ bytes = 4 ∨ bytes = 8) (a : BitVec 128) (n : Nat) {i : Nat} (hi : i < 16 / bytes) :
    lane (8 * bytes) (maskzero128 bytes a n) i = if 1 ≤ n ∧ n ≤ i then 0#(8 * bytes) else lane (8 * bytes) a i := by
  unfold maskzero128
  rcases hB with h | h | h | h <;> subst h
  · rw [if_neg (by decide), if_pos rfl]
    exact rowand_case t_maskzero1_128 a n hi (by omega)
  · rw [if_neg (by decide), if_neg (by decide), if_pos rfl]
    exact rowand_case t_maskzero2_128 a n hi (by omega)
  · rw [if_pos rfl]
    exact rowand_case t_maskzero4_128 a n hi (by omega)
  · rw [if_neg (by decide), if_neg (by decide), if_neg (by decide)]
    split
    · next hn =>
      subst hn
      rw [lane_and, setRow_lane _ _ (by omega)]
      rcases (by omega : i = 0 ∨ i = 1) with h | h <;> subst h
      · exact BitVec.and_allOnes
      · exact BitVec.and_zero
    · rw [if_neg (by omega)]
theorem maskone128_lane' {bytes : Nat} (hB : bytes = 1 ∨ bytes = 2 ∨ bytes = 4 ∨ bytes = 8) (a : BitVec 128) (n : Nat) {i : Nat} (hi : i < 16 / bytes) :
    lane (8 * bytes) (maskone128 bytes a n) i = if 1 ≤ n ∧ n ≤ i then BitVec.allOnes (8 * bytes) else lane (8 * bytes) a i := by
  unfold maskone128
  rcases hB with h | h | h | h <;> subst h
  · rw [if_neg (by decide), if_pos rfl]
    exact rowor_case t_maskone1_128 a n hi (by omega)
  · rw [if_neg (by decide), if_neg (by decide), if_pos rfl]
    exact rowor_case t_maskone2_128 a n hi (by omega)
  · rw [if_pos rfl]
    exact rowor_case t_maskone4_128 a n hi (by omega)
  · rw [if_neg (by decide), if_neg (by decide), if_neg (by decide)]
    split
    · next hn =>
      subst hn
      rw [lane_or, setRow_lane _ _ (by omega)]
      rcases (by omega : i = 0 ∨ i = 1) with h | h <;> subst h
      · exact BitVec.or_zero
      · exact BitVec.or_allOnes
    · rw [if_neg (by omega)]

/-- The configurations in which the tail of a 32-byte vector is masked per 128-bit half by the AVX
fallback (1- and 2-byte elements without AVX2). -/
def splitTail (s : ISA) (T : Ety) (v : VSz) : Prop := v = .v256 ∧ T.bytes ≤ 2 ∧ s.avx2 = false
instance (s : ISA) (T : Ety) (v : VSz) : Decidable (splitTail s T v) := by unfold splitTail; infer_instance

/-- Which lanes `maskblend`/`maskzero`/`maskone` replace for a tail length `n`.  The AVX fallback for
1- and 2-byte elements calls the 128-bit function on the high half with `n - 16/bytes` on `size_t`:
for `n <= 16/bytes` that is 0 or huge, and the high half is left alone. -/
def replaced (s : ISA) (T : Ety) (v : VSz) (n i : Nat) : Bool :=
  if splitTail s T v then
    if i < 16 / T.bytes then decide (1 ≤ n ∧ n ≤ i)
    else decide (16 / T.bytes < n ∧ n ≤ i)
  else decide (1 ≤ n ∧ n ≤ i)

theorem maskblend256_lane (s : ISA) {T : Ety} (h : T.Ok) (a b : BitVec 256) {n : Nat} (hn : n < 2 ^ 64) {i : Nat} (hi : i < extent T .v256) :
    lane T.w (maskblend256 s T.bytes a b n) i = if replaced s T .v256 n i then lane T.w b i else lane T.w a i := by
  have hrep : ∀ {p : Prop} [Decidable p], (if decide p = true then lane T.w b i else lane T.w a i) = if p then lane T.w b i else lane T.w a i := by
    intro p _; by_cases hp : p <;> simp [hp]
  have main : ¬ splitTail s T .v256 → 
      lane T.w (maskblend256 s T.bytes a b n) i = if 1 ≤ n ∧ n ≤ i then lane T.w b i else lane T.w a i := by
    intro hs
    unfold maskblend256
    unfold Ety.w
    have hi' : i < 32 / T.bytes := hi
    simp only [splitTail, true_and] at hs
    rcases h.1 with h | h | h | h <;> rw [h] at hi' hs ⊢
    · have h2 : s.avx2 = true := by simpa using hs
      rw [if_neg (by decide), if_neg (by decide), if_pos h2, if_pos rfl]
      exact rowv_case t_maskblend1_256 a b n hi' (by omega)
    · have h2 : s.avx2 = true := by simpa using hs
      rw [if_neg (by decide), if_neg (by decide), if_pos h2, if_neg (by decide)]
      exact rowv2_case t_maskblend2_256 a b n hi' (by omega)
    · rw [if_pos rfl]
      exact imm_case t_maskblend4_256_imm a b n hi' (by omega)
    · rw [if_neg (by decide), if_pos rfl]
      exact imm_case t_maskblend8_256_imm a b n hi' (by omega)
  unfold replaced
  by_cases hs : splitTail s T .v256
  · rw [if_pos hs]
    obtain ⟨-, hb, h2⟩ := hs
    have e : maskblend256 s T.bytes a b n = 
        setHL (maskblend128 s T.bytes (Reg.hi a) (Reg.hi b) (subSizeT n (16 / T.bytes))) (maskblend128 s T.bytes (lo a) (lo b) n) := by
      unfold maskblend256
      rw [if_neg (by omega), if_neg (by omega), if_neg (by simp [h2])]
    rw [e]
    have hE : extent T .v128 = 16 / T.bytes := rfl
    have hE2 : 1 ≤ 16 / T.bytes ∧ 16 / T.bytes ≤ 16 := by
      rcases h.1 with h | h | h | h <;> rw [h] <;> decide
    rcases mux_idx h hi with ⟨h1, h2⟩ | ⟨j, h1, h2, h3⟩
    · rw [lane_setHL_lo _ _ h2, maskblend128_lane s h _ _ _ h1, if_pos (c := i < 16 / T.bytes) h1, lane_lo _ h2, lane_lo _ h2, hrep]
    · have hj : i = j + 16 / T.bytes := by
        have h4 := extent_mul h .v128
        have : i * T.w = (j + 16 / T.bytes) * T.w := by rw [Nat.add_mul, ← hE, h4]; exact h3
        exact Nat.eq_of_mul_eq_mul_right (w_pos h) this
      rw [lane_setHL_hi _ _ h3, maskblend128_lane s h _ _ _ h1, if_neg (c := i < 16 / T.bytes) (by omega), lane_hi _ h2 h3, lane_hi _ h2 h3, hrep]
      have : (1 ≤ subSizeT n (16 / T.bytes) ∧ subSizeT n (16 / T.bytes) ≤ j) ↔ (16 / T.bytes < n ∧ n ≤ i) := by
        rw [hE] at h1
        unfold subSizeT
        by_cases hlt : 16 / T.bytes ≤ n
        · have : (n + (2 ^ 64 - 16 / T.bytes)) % 2 ^ 64 = n - 16 / T.bytes := by omega
          rw [this]; omega
        · have : (n + (2 ^ 64 - 16 / T.bytes)) % 2 ^ 64 = n + (2 ^ 64 - 16 / T.bytes) := Nat.mod_eq_of_lt (by omega)
          rw [this]; omega
      simp only [this]
  · rw [if_neg hs, main hs, hrep]

theorem replaced_128 (s : ISA) (T : Ety) (n i : Nat) : replaced s T .v128 n i = decide (1 ≤ n ∧ n ≤ i) := by
  unfold replaced; rw [if_neg (by simp [splitTail])]

theorem ite_decide {α : Type} (p : Prop) [Decidable p] (x y : α) : (if decide p = true then x else y) = if p then x else y := by
  by_cases hp : p <;> simp [hp]

theorem maskzero_lane (s : ISA) {T : Ety} (h : T.Ok) (v : VSz) (a : Vec v) {n : Nat} (hn : n < 2 ^ 64) {i : Nat} (hi : i < extent T v) :
    lane T.w (maskzero s T v a n) i = if replaced s T v n i then 0#T.w else lane T.w a i := by
  cases v with
  | v128 => rw [replaced_128, ite_decide]; exact maskzero128_lane' h.1 a n hi
  | v256 =>
    have := maskblend256_lane s h a (0#256) hn hi
    rw [lane_zero] at this; exact this
theorem maskone_lane (s : ISA) {T : Ety} (h : T.Ok) (v : VSz) (a : Vec v) {n : Nat} (hn : n < 2 ^ 64) {i : Nat} (hi : i < extent T v) :
    lane T.w (maskone s T v a n) i = if replaced s T v n i then BitVec.allOnes T.w else lane T.w a i := by
  cases v with
  | v128 => rw [replaced_128, ite_decide]; exact maskone128_lane' h.1 a n hi
  | v256 =>
    have := maskblend256_lane s h a (BitVec.allOnes 256) hn hi
    rw [lane_ones (n := 256) (lane_bound h (v := .v256) hi)] at this; exact this
theorem maskblend_lane (s : ISA) {T : Ety} (h : T.Ok) (v : VSz) (a b : Vec v) {n : Nat} (hn : n < 2 ^ 64) {i : Nat} (hi : i < extent T v) :
    lane T.w (maskblend s T v a b n) i = if replaced s T v n i then lane T.w b i else lane T.w a i := by
  cases v with
  | v128 => rw [replaced_128, ite_decide]; exact maskblend128_lane s h a b n hi
  | v256 => exact maskblend256_lane s h a b hn hi

/-! ### blendv on canonical mask lanes -/
theorem blendvL_bytes {n k w : Nat} (a b m : BitVec n) {i : Nat} (hw : w = k * 8) (hk : 0 < k) (hb : (i + 1) * w ≤ n) (p : Bool)
    (hm : lane w m i = laneMask w p) :
    lane w (blendvL 8 a b m) i = if p then lane w b i else lane w a i := by
  have key : ∀ j, j < k → lane 8 (blendvL 8 a b m) (i * k + j) = if p then lane 8 b (i * k + j) else lane 8 a (i * k + j) := by
    intro j hj
    have hb' : (i * k + j + 1) * 8 ≤ n := by
      have : (i * k + j + 1) ≤ (i + 1) * k := by rw [Nat.succ_mul]; omega
      have := Nat.mul_le_mul_right 8 this
      rw [Nat.mul_assoc, ← hw] at this; omega
    have hj8 : (j + 1) * 8 ≤ w := by omega
    have hml : lane 8 m (i * k + j) = laneMask 8 p := by
      rw [← lane_lane (w := w) (i := i) (j := j) m hj8 (i * k + j) (by rw [Nat.add_mul, hw, Nat.mul_assoc]), hm, laneMask_lane _ _ _ hj8]
    rw [blendvL_lane a b m hb', hml, laneMask_msb (by decide)]
  cases p
  · exact lane_eq_of_sub _ _ i (k := k) (v := 8) hw (by omega) (fun j hj => by rw [key j hj]; rfl)
  · exact lane_eq_of_sub _ _ i (k := k) (v := 8) hw (by omega) (fun j hj => by rw [key j hj]; rfl)

theorem blendv128_lane (s : ISA) {T : Ety} (h : T.Ok) (a b m : BitVec 128) {i : Nat} (hi : i < extent T .v128) (p : Bool)
    (hm : lane T.w m i = laneMask T.w p) :
    lane T.w (blendv128 s T.bytes a b m) i = if p then lane T.w b i else lane T.w a i := by
  have hb := lane_bound h (v := .v128) hi
  unfold blendv128
  split
  · split
    · exact blendvL_bytes a b m (k := T.bytes) (by unfold Ety.w; omega) h.bytes_pos hb p hm
    · show lane T.w (blendvL T.w a b m) i = _
      rw [blendvL_lane a b m hb, hm, laneMask_msb (w_pos h)]
  · exact blendBits_lane a b m hb p hm
theorem blendv_lane (s : ISA) {T : Ety} (h : T.Ok) (v : VSz) (a b m : Vec v) {i : Nat} (hi : i < extent T v) (p : Bool)
    (hm : lane T.w m i = laneMask T.w p) :
    lane T.w (blendv s T v a b m) i = if p then lane T.w b i else lane T.w a i := by
  cases v with
  | v128 => exact blendv128_lane s h a b m hi p hm
  | v256 =>
    have hb := lane_bound h (v := .v256) hi
    by_cases hf : T.flt = true
    · have e : blendv s T .v256 a b m = blendvL (n := 256) T.w a b m := if_pos hf
      rw [e]
      refine (blendvL_lane (n := 256) a b m hb).trans ?_
      rw [hm, laneMask_msb (w_pos h)]
    · by_cases h2 : s.avx2 = true
      · have e : blendv s T .v256 a b m = blendvL (n := 256) 8 a b m := by
          simp only [blendv]; rw [if_neg hf, if_pos h2]
        rw [e]
        exact blendvL_bytes a b m (k := T.bytes) (by unfold Ety.w; omega) h.bytes_pos hb p hm
      · have e : blendv s T .v256 a b m = mux3 (blendv128 s T.bytes) a b m := by
          simp only [blendv]; rw [if_neg hf, if_neg h2]
        rw [e]
        have := mux3_lane h (blendv128 s T.bytes) (fun x y z => if z.msb then y else x) (fun z => ∃ p, z = laneMask T.w p)
          (fun a b m i hi ⟨p, hp⟩ => by
            rw [blendv128_lane s h a b m hi p hp, hp, laneMask_msb (w_pos h)]) a b m hi ⟨p, hm⟩
        rw [this, hm, laneMask_msb (w_pos h)]

end Dpm.X86
