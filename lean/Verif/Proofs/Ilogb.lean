import Verif.Proofs.ModfSpec
/-
ilogb and logb, lane by lane and on exact values.
-/
namespace Dpm.X86
open Dpm.Reg Dpm.Fp

/-! ### the faulty SSE4.1 conversion -/
theorem i64f64Bad_eq (x : BitVec 64) :
    i64f64Bad x = ofInt 64 ((((lane 32 x 0).sshiftRight 16).toNat * 2 ^ 16 + x.toNat % 2 ^ 48 : Nat) : Int) := by
  unfold i64f64Bad
  have ha := ((lane 32 x 0).sshiftRight 16).isLt
  have a0 : (((lane 32 x 0).sshiftRight 16).setWidth 64).toNat = ((lane 32 x 0).sshiftRight 16).toNat := by
    rw [BitVec.toNat_setWidth, Nat.mod_eq_of_lt (by omega)]
  have a1 : (((lane 32 x 0).sshiftRight 16).setWidth 64 + 0x4438000000000000#64).toNat = 0x443 * 2 ^ 52 + (((lane 32 x 0).sshiftRight 16).toNat + 2 ^ 51) := by
    rw [BitVec.toNat_add, a0]
    show (_ + 0x4438000000000000) % 2 ^ 64 = _
    omega
  have a2 : (0x4438001000000000#64).toNat = 0x443 * 2 ^ 52 + (2 ^ 51 + 2 ^ 36) := by decide
  have a3 := lo48_toNat x
  generalize ((lane 32 x 0).sshiftRight 16).setWidth 64 + 0x4438000000000000#64 = A at a1 ⊢
  generalize 0x4438001000000000#64 = J at a2 ⊢
  generalize (0xffff000000000000#64 &&& 0x4330000000000000#64) ||| (~~~ 0xffff000000000000#64 &&& x) = B at a3 ⊢
  generalize ((lane 32 x 0).sshiftRight 16).toNat = a at *
  obtain ⟨f, ef⟩ : ∃ f : Nat, f = a + 2 ^ 51 := ⟨_, rfl⟩
  rw [← ef] at a1
  have hf : f < 2 ^ 52 := by omega
  have hr : x.toNat % 2 ^ 48 < 2 ^ 52 := by omega
  generalize x.toNat % 2 ^ 48 = r at *
  have b1 := pos_fields W64 (x := A) (e := 0x443) (f := f) a1 (by decide) hf
  have b2 := pos_fields W64 (x := J) (e := 0x443) (f := 2 ^ 51 + 2 ^ 36) a2 (by decide) (by decide)
  have b3 := pos_fields W64 (x := B) (e := 0x433) (f := r) a3 (by decide) hr
  have v1 := val_fields W64 (x := A) (e := 0x443) (f := f) a1 (by decide) (by decide) hf
  have v2 := val_fields W64 (x := J) (e := 0x443) (f := 2 ^ 51 + 2 ^ 36) a2 (by decide) (by decide) (by decide)
  have v3 := val_fields W64 (x := B) (e := 0x433) (f := r) a3 (by decide) (by decide) hr
  have hp : (2 : Nat) ^ (0x443 - 1) = 2 ^ 16 * 2 ^ 1074 := by rw [← Nat.pow_add]
  have hp2 : (2 : Nat) ^ (0x433 - 1) = 2 ^ 1074 := rfl
  have hm : mb 64 = 52 := rfl
  have hu : unitExp 64 = 1074 := rfl
  rw [hm, hp] at v1 v2; rw [hm, hp2] at v3
  have hd : (val A - val J).natAbs = ((f : Int) - (2 ^ 51 + 2 ^ 36 : Nat)).natAbs * 2 ^ 1090 := by
    rw [v1, v2, show (2 : Nat) ^ 1090 = 2 ^ 16 * 2 ^ 1074 by rw [← Nat.pow_add]]
    exact sub_units _ _ _ _
  have s := fsub_val W64 b1.2.2 b2.2.2 (by rw [hd]; exact repr_mk (show _ ≤ 2 ^ 53 by omega) (big64 _ _ (by omega) (by omega)))
  apply fadd_ofInt s.1 b3.2.2 b3.1
  rw [s.2, v1, v2, v3, hu]
  exact sum_units _ (2 ^ 52) _ (2 ^ 51 + 2 ^ 36) (2 ^ 16) _ _ (by omega)

/-- where `cvt<T, I>` is right -/
def CvtOk (s : ISA) (T : Ety) (v : VSz) : Prop := T.bytes = 4 ∨ s.dqvl = true ∨ s.sse41 = false ∨ (v = .v256 ∧ s.avx2 = true)
theorem cvtIF_lane (s : ISA) {T : Ety} (h : T.Ok) (hf : T.flt = true) {v : VSz} (hs : CvtOk s T v) (x : Vec v) {i : Nat} (hi : i < extent T v) :
    lane T.w (cvtIF s T v x) i = ofInt T.w (lane T.w x i).toInt := by
  have hb := lane_bound h hi
  unfold cvtIF
  split
  · rename_i h8
    obtain ⟨b, f, sg⟩ := T
    dsimp only at h8; subst h8
    have hi2 : i < v.bits / 64 := by rw [extent8] at hi; exact hi
    cases v with
    | v128 =>
      unfold cvtI64F64; dsimp only; split
      · exact lane_map1 (w := 64) _ _ hb
      · rename_i hd
        refine i64f64Sse_lane s ?_ x hi2
        rcases hs with h | h | h | h
        · cases h
        · exact absurd h hd
        · exact h
        · cases h.1
    | v256 =>
      unfold cvtI64F64; dsimp only; split
      · exact lane_map1 (w := 64) _ _ hb
      · rename_i hd
        refine i64f64Avx_lane s ?_ x hi2
        rcases hs with h | h | h | h
        · cases h
        · exact absurd h hd
        · exact Or.inr h
        · exact Or.inl h.2
  · rename_i h8
    have h4 : T.bytes = 4 := by rcases (h.2 hf).1 with h4 | h4; · exact h4
                                · exact absurd h4 h8
    obtain ⟨b, f, sg⟩ := T
    dsimp only at h4; subst h4
    exact lane_map1 (w := 32) _ _ hb
theorem cvtIF_bad (s : ISA) {sg : Bool} {v : VSz} (hw : s.Wf) (ha : v = .v256 → s.avx = true) (hs : ¬ CvtOk s ⟨8, true, sg⟩ v) (x : Vec v) {i : Nat} (hi : i < extent ⟨8, true, sg⟩ v) :
    lane 64 (cvtIF s ⟨8, true, sg⟩ v x) i = i64f64Bad (lane 64 x i) := by
  have hi2 : i < v.bits / 64 := by rw [extent8] at hi; exact hi
  have hd : s.dqvl ≠ true := fun h => hs (Or.inr (Or.inl h))
  have h41 : s.sse41 = true := by
    cases h : s.sse41
    · exact absurd (Or.inr (Or.inr (Or.inl h))) hs
    · rfl
  unfold cvtIF
  rw [if_pos rfl]
  cases v with
  | v128 =>
    unfold cvtI64F64; dsimp only; rw [if_neg hd]
    exact i64f64Sse_bad s h41 x hi2
  | v256 =>
    unfold cvtI64F64; dsimp only; rw [if_neg hd]
    unfold i64f64Avx
    rw [if_neg (fun h2 => hs (Or.inr (Or.inr (Or.inr ⟨rfl, h2⟩))))]
    exact mux1_lane (T := ⟨8, false, false⟩) ⟨by simp, by simp⟩ _ i64f64Bad (fun a i hi => i64f64Sse_bad s h41 a hi) x hi

/-! ### saturating subtraction of 16-bit words -/
def sat16 (x y : BitVec 16) : BitVec 16 := BitVec.ofNat 16 (x.toNat - y.toNat)
theorem sat16_eq (x y : BitVec 16) : satLane Ety.u16.ity (Ety.u16.ity.val x - Ety.u16.ity.val y) = sat16 x y := by
  have hx := x.isLt
  have hy := y.isLt
  have e : satLane Ety.u16.ity (Ety.u16.ity.val x - Ety.u16.ity.val y) =
    BitVec.ofInt 16 (if (x.toNat : Int) - y.toNat < 0 then 0 else if (2 ^ 16 - 1 : Int) < (x.toNat : Int) - y.toNat then 2 ^ 16 - 1 else (x.toNat : Int) - y.toNat) := rfl
  rw [e]
  unfold sat16
  rw [← BitVec.ofInt_natCast]
  congr 1
  split
  · omega
  · split <;> omega
theorem sat16_lane (s : ISA) (v : VSz) (a b : Vec v) {i : Nat} (hi : i < extent .u16 v) :
    lane 16 (subsI s .u16 v a b) i = sat16 (lane 16 a i) (lane 16 b i) :=
  (subsI_lane s (T := .u16) (by decide) v a b hi).trans (sat16_eq _ _)
def subs16 {w : Nat} (a b : BitVec w) : BitVec w := map2 16 sat16 a b
theorem subs16_lane (s : ISA) {T : Ety} (h : T.Ok) (hf : T.flt = true) {v : VSz} (a b : Vec v) {i : Nat} (hi : i < extent T v) :
    lane T.w (subsI s .u16 v a b) i = subs16 (lane T.w a i) (lane T.w b i) := by
  have hw := fltW h hf
  have hb := lane_bound h hi
  obtain ⟨q, hq⟩ : ∃ q, T.w = q * 16 := by rcases hw with h | h <;> rw [h]; exact ⟨2, rfl⟩; exact ⟨4, rfl⟩
  apply ext_lanes (e := q) (w := 16) hq
  intro k hk
  have hk2 : (k + 1) * 16 ≤ T.w := by rw [hq]; exact Nat.mul_le_mul_right _ hk
  have hidx : (i * q + k) * 16 = i * T.w + k * 16 := by rw [hq, Nat.add_mul, Nat.mul_assoc]
  have hlt : i * q + k < extent .u16 v := by
    have h1 : (i * q + k + 1) * 16 ≤ v.bits := by
      have e1 : (i + 1) * T.w = i * T.w + T.w := Nat.succ_mul _ _
      have e2 : (i * q + k + 1) * 16 = (i * q + k) * 16 + 16 := Nat.succ_mul _ _
      have e3 : (k + 1) * 16 = k * 16 + 16 := Nat.succ_mul _ _
      rw [e2, hidx]
      rw [e1] at hb
      rw [e3] at hk2
      generalize i * T.w = A at *
      generalize v.bits = B at *
      generalize T.w = C at *
      omega
    have h2 : extent .u16 v * 16 = v.bits := by cases v <;> decide
    false_or_by_contra
    rename_i hc
    have := Nat.mul_le_mul_right 16 (show extent .u16 v + 1 ≤ i * q + k + 1 by omega)
    omega
  have e1 : ∀ x : Vec v, lane 16 (lane T.w x i) k = lane 16 x (i * q + k) := fun x => lane_lane x hk2 _ hidx
  rw [e1]
  rw [sat16_lane s v a b hlt]
  unfold subs16
  rw [lane_map2 _ _ _ hk2, e1, e1]
theorem lane16_ofNat {w n k : Nat} (hn : n < 2 ^ 16) (hk : (k + 1) * 16 ≤ w) : lane 16 (BitVec.ofNat w n) k = BitVec.ofNat 16 (if k = 0 then n else 0) := by
  apply BitVec.eq_of_getLsbD_eq
  intro b hb
  rw [getLsbD_lane, BitVec.getLsbD_ofNat, BitVec.getLsbD_ofNat]
  have : k * 16 + b < w := by omega
  split
  · rename_i h0; subst h0; simp [hb]; omega
  · have : n.testBit (k * 16 + b) = false := Nat.testBit_lt_two_pow (Nat.lt_of_lt_of_le hn (Nat.pow_le_pow_right (by omega) (by omega)))
    simp [this]
theorem subs16_eq {w : Nat} (h : W w) {a b : Nat} (ha : a < 2 ^ 16) (hb : b ≤ a) : subs16 (BitVec.ofNat w a) (BitVec.ofNat w b) = BitVec.ofNat w (a - b) := by
  obtain ⟨q, hq⟩ : ∃ q, w = q * 16 := by rcases h with h | h <;> rw [h]; exact ⟨2, rfl⟩; exact ⟨4, rfl⟩
  apply ext_lanes (e := q) (w := 16) hq
  intro k hk
  have hk2 : (k + 1) * 16 ≤ w := by rw [hq]; exact Nat.mul_le_mul_right _ hk
  unfold subs16
  rw [lane_map2 _ _ _ hk2, lane16_ofNat ha hk2, lane16_ofNat (by omega) hk2, lane16_ofNat (by omega) hk2]
  unfold sat16
  rw [BitVec.toNat_ofNat, BitVec.toNat_ofNat]
  congr 1
  split
  · rw [Nat.mod_eq_of_lt ha, Nat.mod_eq_of_lt (by omega)]
  · rfl

/-! ### eval_ilogb -/
/-- `eval_ilogb` of one lane with the conversion `cv` -/
def evalIlogbLane {w : Nat} (cv : BitVec w → BitVec w) (x : BitVec w) : BitVec w :=
  let exp := x >>> mb w
  let off := subs16 (BitVec.ofNat w (if w = 64 then 1086 else 158)) (cv (~~~ (x >>> expBits w) &&& x) >>> mb w) - BitVec.ofNat w (expBits w + 1)
  exp - (if exp = 0#w then off else 0#w) - BitVec.ofNat w (bias w)
theorem evalIlogb_lane (s : ISA) {T : Ety} (h : T.Ok) (hf : T.flt = true) {v : VSz} (cv : BitVec T.w → BitVec T.w) {i : Nat} (hi : i < extent T v)
    (hcv : ∀ y : Vec v, lane T.w (cvtIF s T v y) i = cv (lane T.w y i)) (x : Vec v) :
    lane T.w (evalIlogb s T v x) i = evalIlogbLane cv (lane T.w x i) := by
  have hw := fltW h hf
  have hfill : ∀ x : BitVec T.w, lane T.w (fillV v x) i = x := fun x => fillV_lane h x hi
  have hz : lane T.w (setzero v) i = 0#T.w := setzero_lane v i
  unfold evalIlogb
  extract_lets exp fixD c0 c1 c2 off exp2
  have h1 : lane T.w exp i = lane T.w x i >>> mb T.w := by rw [← mantBits_eq hw]; exact shrT_lane h hi s _ _
  have h2 : lane T.w fixD i = laneMask T.w (decide (lane T.w x i >>> mb T.w = 0#T.w)) := by
    refine (cmpEqI_lane s h v _ _ hi).trans ?_
    rw [h1, hz]
  have h3 : lane T.w c0 i = ~~~ (lane T.w x i >>> expBits T.w) &&& lane T.w x i := by
    refine (andnot_lane h hi _ _).trans ?_
    rw [shrT_lane h hi]
  have h4 : lane T.w c1 i = cv (~~~ (lane T.w x i >>> expBits T.w) &&& lane T.w x i) >>> mb T.w := by
    refine (shrT_lane h hi s _ _).trans ?_
    rw [hcv, h3, mantBits_eq hw]
  have h5 : lane T.w c2 i = subs16 (BitVec.ofNat T.w (if T.w = 64 then 1086 else 158)) (lane T.w c1 i) := by
    refine (subs16_lane s h hf _ _ hi).trans ?_
    rw [hfill]
  have h6 : lane T.w off i = lane T.w c2 i - BitVec.ofNat T.w (expBits T.w + 1) := by
    refine (subT_lane h hi s _ _).trans ?_
    rw [hfill]
  have h7 : lane T.w exp2 i = lane T.w exp i - (if decide (lane T.w x i >>> mb T.w = 0#T.w) then lane T.w off i else 0#T.w) := by
    refine (subT_lane h hi s _ _).trans ?_
    congr 1
    refine (bitAnd_lane _ _ _ _).trans ?_
    rw [h2, BitVec.and_comm, mask_and]
  refine (subT_lane h hi s _ _).trans ?_
  rw [hfill, expOff_eq hw, h7, h6, h5, h4, h1]
  unfold evalIlogbLane
  simp only [decide_eq_true_eq]

theorem ofInt_sub' {w : Nat} (a b : Int) : BitVec.ofInt w a - BitVec.ofInt w b = BitVec.ofInt w (a - b) := by
  rw [BitVec.sub_eq_add_neg, ← BitVec.ofInt_neg, ← BitVec.ofInt_add, Int.sub_eq_add_neg]
theorem shr_pos_ofNat {w : Nat} (h : W w) {x : BitVec w} (hs : x.msb = false) : x >>> mb w = BitVec.ofNat w (expF x) := by
  have h1 := shr_mant_pos h x hs
  rw [mantBits_eq h] at h1
  rw [← h1, BitVec.ofNat_toNat, BitVec.setWidth_eq]
/-- normal, infinite and NaN patterns: whatever the conversion does -/
theorem evalIlogbLane_normal {w : Nat} (h : W w) (cv : BitVec w → BitVec w) {x : BitVec w} (hs : x.msb = false) (he : expF x ≠ 0) :
    evalIlogbLane cv x = BitVec.ofInt w ((expF x : Int) - bias w) := by
  unfold evalIlogbLane
  dsimp only
  rw [shr_pos_ofNat h hs, if_neg (fun h0 => he ((ofNat_expF_zero h x).1 h0)), BitVec.sub_zero, expF_sub h]
/-- the biased exponent from the size of the value -/
theorem expF_of_range {w k : Nat} {y : BitVec w} (hk : mb w ≤ k) (h1 : 2 ^ k ≤ (val y).natAbs) (h2 : (val y).natAbs < 2 ^ (k + 1)) : expF y = k - mb w + 1 := by
  rw [natAbs_val_fields] at h1 h2
  have hm := manF_lt y
  unfold fieldVal at h1 h2
  split at h1
  · have : 2 ^ mb w ≤ 2 ^ k := Nat.pow_le_pow_right (by omega) hk
    omega
  · rw [if_neg (by assumption)] at h2
    rename_i h0
    have h3 : 2 ^ (mb w + (expF y - 1)) < 2 ^ (k + 1) := by
      rw [Nat.pow_add]
      exact Nat.lt_of_le_of_lt (Nat.mul_le_mul_right _ (by omega)) h2
    have h4 : 2 ^ k < 2 ^ (mb w + 1 + (expF y - 1)) := by
      rw [Nat.pow_add (m := mb w + 1)]
      refine Nat.lt_of_le_of_lt h1 (Nat.mul_lt_mul_of_pos_right ?_ (Nat.two_pow_pos _))
      rw [Nat.pow_succ]; omega
    have h5 := (Nat.pow_lt_pow_iff_right (by omega)).1 h3
    have h6 := (Nat.pow_lt_pow_iff_right (by omega)).1 h4
    omega
/-- clearing the bits `expBits` below a set bit keeps the leading bit of a subnormal -/
theorem clz_range {w t : Nat} (h : W w) {x : BitVec w} (h1 : 2 ^ t ≤ x.toNat) (h2 : x.toNat < 2 ^ (t + 1)) :
    2 ^ t ≤ (~~~ (x >>> expBits w) &&& x).toNat ∧ (~~~ (x >>> expBits w) &&& x).toNat < 2 ^ (t + 1) := by
  have ht : t < w := (Nat.pow_lt_pow_iff_right (by omega : 1 < 2)).1 (Nat.lt_of_le_of_lt h1 x.isLt)
  constructor
  · apply Nat.ge_two_pow_of_testBit
    show (~~~ (x >>> expBits w) &&& x).getLsbD t = true
    rw [BitVec.getLsbD_and, BitVec.getLsbD_not, BitVec.getLsbD_ushiftRight]
    have e1 : x.getLsbD t = true := by
      show x.toNat.testBit t = true
      rw [Nat.testBit_eq_decide_div_mod_eq]
      have : x.toNat / 2 ^ t = 1 := by
        apply Nat.div_eq_of_lt_le
        · omega
        · rw [Nat.pow_succ] at h2; omega
      rw [this]; rfl
    have e2 : x.getLsbD (expBits w + t) = false := by
      show x.toNat.testBit _ = false
      apply Nat.testBit_lt_two_pow
      have : 0 < expBits w := by rcases h with h | h <;> subst h <;> decide
      exact Nat.lt_of_lt_of_le h2 (Nat.pow_le_pow_right (by omega) (by omega))
    rw [e1, e2]; simp [ht]
  · rw [BitVec.toNat_and]
    exact Nat.lt_of_le_of_lt Nat.and_le_right h2
/-- subnormal numbers, if the conversion puts the leading bit `c` where the right one would -/
theorem evalIlogbLane_subn {w t c : Nat} (h : W w) (cv : BitVec w → BitVec w) {x : BitVec w} (hs : x.msb = false) (he : expF x = 0)
    (hc : cv (~~~ (x >>> expBits w) &&& x) >>> mb w = BitVec.ofNat w (bias w + c)) (hcb : c < 64) (hc4 : w = 32 → c < 32) (ht : t = c) :
    evalIlogbLane cv x = BitVec.ofInt w ((t : Int) - unitExp w) := by
  subst ht
  unfold evalIlogbLane
  dsimp only
  rw [shr_pos_ofNat h hs, he, hc, if_pos rfl]
  rcases h with h | h
  · subst h
    have := hc4 rfl
    rw [subs16_eq (Or.inl rfl) (by decide) (by show 127 + t ≤ 158; omega)]
    rw [← BitVec.ofInt_natCast, ← BitVec.ofInt_natCast, ← BitVec.ofInt_natCast, ← BitVec.ofInt_natCast, ofInt_sub', ofInt_sub', ofInt_sub']
    congr 1
    show ((0 : Nat) : Int) - (((158 - (127 + t) : Nat) : Int) - ((8 + 1 : Nat) : Int)) - ((127 : Nat) : Int) = (t : Int) - (149 : Nat)
    omega
  · subst h
    rw [subs16_eq (Or.inr rfl) (by decide) (by show 1023 + t ≤ 1086; omega)]
    rw [← BitVec.ofInt_natCast, ← BitVec.ofInt_natCast, ← BitVec.ofInt_natCast, ← BitVec.ofInt_natCast, ofInt_sub', ofInt_sub', ofInt_sub']
    congr 1
    show ((0 : Nat) : Int) - (((1086 - (1023 + t) : Nat) : Int) - ((11 + 1 : Nat) : Int)) - ((1023 : Nat) : Int) = (t : Int) - (1074 : Nat)
    omega
theorem cvt_exp {w c n : Nat} (h : W w) (h1 : 2 ^ c ≤ n) (h2 : n < 2 ^ (c + 1)) (hc : c < mb w) :
    ofInt w (n : Int) >>> mb w = BitVec.ofNat w (bias w + c) := by
  have hle : 2 ^ (c + 1) ≤ 2 ^ mb w := Nat.pow_le_pow_right (by omega) hc
  have hle2 : 2 ^ mb w ≤ 2 ^ (mb w + 1) := Nat.pow_le_pow_right (by omega) (by omega)
  obtain ⟨e1, e2⟩ := ofInt_exact h (z := (n : Int)) (by rw [Int.natAbs_natCast]; omega)
  have hs : (ofInt w (n : Int)).msb = false := by
    have := neg_ofInt h (n : Int)
    unfold neg at this
    rw [this]; simp
  rw [shr_pos_ofNat h hs]
  have hU := unitExp_eq h
  have hb : 0 < bias w := by rcases h with h | h <;> subst h <;> decide
  have hv : (val (ofInt w (n : Int))).natAbs = n * 2 ^ unitExp w := by
    rw [e2, Int.natAbs_mul, Int.natAbs_natCast, Int.natAbs_natCast]
  rw [expF_of_range (k := c + unitExp w) (by omega)]
  · congr 1; omega
  · rw [hv, Nat.pow_add]; exact Nat.mul_le_mul_right _ h1
  · rw [hv, show c + unitExp w + 1 = c + 1 + unitExp w by omega, Nat.pow_add]; exact Nat.mul_lt_mul_of_pos_right h2 (Nat.two_pow_pos _)

/-- `eval_ilogb` of every nonzero finite magnitude, with the right conversion: the exponent -/
theorem evalIlogbLane_spec {w : Nat} (h : W w) (cv : BitVec w → BitVec w) {x : BitVec w} (hs : x.msb = false) (hfin : isFinite x = true) (h0 : mag x ≠ 0)
    (hcv : expF x = 0 → ∀ y, cv y = ofInt w y.toInt) :
    ∃ e : Int, IsExponent x e ∧ evalIlogbLane cv x = BitVec.ofInt w e ∧ -2000 < e ∧ e < 2000 := by
  have hU := unitExp_eq h
  have hb : 0 < bias w := by rcases h with h | h <;> subst h <;> decide
  have hb2 : bias w ≤ 1023 ∧ mb w ≤ 52 ∧ unitExp w ≤ 1074 := by rcases h with h | h <;> subst h <;> decide
  have hem := emax_bias h
  have hel := expF_le h x
  by_cases he : expF x = 0
  · have hx : x.toNat = manF x := by
      rw [toNat_sm h.pos x, hs, mag_fields x, he]; simp
    have hm0 : manF x ≠ 0 := by
      intro hc; apply h0; rw [mag_fields x, he, hc]; simp
    have hml := manF_lt x
    have ht1 := Nat.log2_self_le hm0
    have ht2 := Nat.lt_log2_self (n := manF x)
    generalize (manF x).log2 = t at *
    have htm : t < mb w := (Nat.pow_lt_pow_iff_right (by omega : 1 < 2)).1 (Nat.lt_of_le_of_lt ht1 hml)
    obtain ⟨c1, c2⟩ := clz_range h (x := x) (t := t) (by rw [hx]; exact ht1) (by rw [hx]; exact ht2)
    refine ⟨(t : Int) - unitExp w, ?_, ?_, by omega, by omega⟩
    · unfold IsExponent
      rw [natAbs_val_fields]
      unfold fieldVal
      rw [if_pos he, show ((t : Int) - unitExp w + unitExp w).toNat = t by omega]
      exact ⟨ht1, ht2, by omega⟩
    · apply evalIlogbLane_subn (c := t) h cv hs he ?_ (by omega) (by intro hw; subst hw; show t < 32; have : t < 23 := htm; omega) rfl
      rw [hcv he]
      have hn : (~~~ (x >>> expBits w) &&& x).toInt = ((~~~ (x >>> expBits w) &&& x).toNat : Int) := by
        apply BitVec.toInt_eq_toNat_of_lt
        have : 2 ^ (t + 2) ≤ 2 ^ w := Nat.pow_le_pow_right (by omega) (by have := mb_lt h; omega)
        rw [Nat.pow_succ] at this
        omega
      rw [hn]
      exact cvt_exp h c1 c2 htm
  · refine ⟨(expF x : Int) - bias w, ?_, evalIlogbLane_normal h cv hs he, by omega, by omega⟩
    unfold IsExponent
    rw [natAbs_val_fields]
    have hml := manF_lt x
    unfold fieldVal
    rw [if_neg he, show ((expF x : Int) - bias w + unitExp w).toNat = mb w + (expF x - 1) by omega]
    refine ⟨?_, ?_, by omega⟩
    · rw [Nat.pow_add]; exact Nat.mul_le_mul_right _ (by omega)
    · rw [show mb w + (expF x - 1) + 1 = mb w + 1 + (expF x - 1) by omega, Nat.pow_add]
      apply Nat.mul_lt_mul_of_pos_right _ (Nat.two_pow_pos _)
      rw [Nat.pow_succ]; omega
end Dpm.X86
