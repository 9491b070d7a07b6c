import Verif.Proofs.RintSse2
import Verif.Proofs.Shuffle
/-
`trunc` of doubles by masking the fraction bits.
-/
namespace Dpm.X86
open Dpm.Reg Dpm.Fp

/-- one lane; `t` is the exponent below which the shift is replaced by 1 -/
def truncLane (t : Nat) (x : BitVec 64) : BitVec 64 := ~~~ (BitVec.allOnes 64 >>> (if expF x < t then 1 else expF x - 1011)) &&& x

theorem truncE (X : BitVec 64) : (((X >>> 52) &&& 0x7ff#64) - 0x3ff#64 + 12#64).toInt = (expF X : Int) - 1011 := by
  have hw : W 64 := Or.inr rfl
  have h1 : ((X >>> 52) &&& 0x7ff#64) = BitVec.ofNat 64 (expF X) := by
    apply BitVec.eq_of_toNat_eq
    have := shr_mant hw X
    rw [mantBits_eq hw, expMask_eq hw] at this
    refine this.trans ?_
    have he := expF_le hw X
    rw [BitVec.toNat_ofNat, Nat.mod_eq_of_lt]
    exact Nat.lt_of_le_of_lt he (by decide)
  have he := expF_le hw X
  have he2 : expF X ≤ 2047 := he
  rw [h1]
  generalize expF X = e at *
  have : (BitVec.ofNat 64 e - 0x3ff#64 + 12#64) = BitVec.ofInt 64 ((e : Int) - 1011) := by
    have a1 : BitVec.ofNat 64 e = BitVec.ofInt 64 (e : Int) := by simp
    have a2 : (0x3ff#64) = BitVec.ofInt 64 1023 := by decide
    have a3 : (12#64) = BitVec.ofInt 64 12 := by decide
    rw [a1, a2, a3, BitVec.sub_eq_add_neg, ← BitVec.ofInt_neg, ← BitVec.ofInt_add, ← BitVec.ofInt_add]
    congr 1; omega
  rw [this, BitVec.toInt_ofInt]
  exact Int.bmod_eq_of_le (by omega) (by omega)
theorem lowInt {E : BitVec 64} {z : Int} (h : E.toInt = z) (h1 : -2 ^ 31 ≤ z) (h2 : z < 2 ^ 31) : (lane 32 E 0).toInt = z := by
  have h3 : (lane 32 E 0).toNat = E.toNat % 2 ^ 32 := lane32_low_toNat E
  have h5 := BitVec.toInt_eq_toNat_cond (lane 32 E 0)
  have h6 := BitVec.toInt_eq_toNat_cond E
  have h4 := E.isLt
  rw [h3] at h5
  rw [h] at h6
  rw [h5]
  split at h6 <;> split <;> omega
theorem highNeg {E : BitVec 64} : ((lane 32 E 1).toInt < 0) ↔ E.toInt < 0 := by
  have h1 := lane32_1_msb E
  have a := BitVec.msb_eq_toInt (x := E)
  have b := BitVec.msb_eq_toInt (x := lane 32 E 1)
  rw [h1, a] at b
  simpa using b.symm
theorem dupMask (M : BitVec 128) (s3 : Bool) (p q : Nat → Bool) (hlo : ∀ k, k < 2 → lane 32 M (2 * k) = laneMask 32 (p k))
    (hhi : ∀ k, k < 2 → lane 32 M (2 * k + 1) = laneMask 32 (q k)) {i : Nat} (hi : i < 2) :
    lane 64 (if s3 then shufPs M M 2 2 0 0 else shufPs M M 3 3 1 1) i = laneMask 64 (if s3 then p i else q i) := by
  rw [lane64_eq, ← laneMask_append, append32_inj]
  cases s3
  · simp only [Bool.false_eq_true, if_false]
    rcases (by omega : i = 0 ∨ i = 1) with rfl | rfl
    · rw [shufPs_1, shufPs_0]; exact ⟨hhi 0 (by omega), hhi 0 (by omega)⟩
    · rw [shufPs_3, shufPs_2]; exact ⟨hhi 1 (by omega), hhi 1 (by omega)⟩
  · simp only [if_true]
    rcases (by omega : i = 0 ∨ i = 1) with rfl | rfl
    · rw [shufPs_1, shufPs_0]; exact ⟨hlo 0 (by omega), hlo 0 (by omega)⟩
    · rw [shufPs_3, shufPs_2]; exact ⟨hlo 1 (by omega), hlo 1 (by omega)⟩
theorem truncSse2_lane (s : ISA) (x : BitVec 128) {i : Nat} (hi : i < 2) :
    lane 64 (truncSse2 s x) i = truncLane (if s.sse3 then 1023 else 1011) (lane 64 x i) := by
  have hw : W 64 := Or.inr rfl
  unfold truncSse2
  extract_lets e0 e1 e2 e3 sm sm2 shift mask
  have hE : ∀ k, k < 2 → (lane 64 e3 k).toInt = (expF (lane 64 x k) : Int) - 1011 := by
    intro k hk
    have : lane 64 e3 k = (((lane 64 x k >>> 52) &&& 0x7ff#64) - 0x3ff#64 + 12#64) := by
      refine (lane_map2 _ _ _ (by omega)).trans ?_
      rw [set1_lane _ (by omega)]
      refine congrArg (· + _) ((lane_map2 _ _ _ (by omega)).trans ?_)
      rw [set1_lane _ (by omega)]
      refine congrArg (· - _) ((lane_and _ _ _ _).trans ?_)
      rw [set1_lane _ (by omega)]
      refine congrArg (· &&& _) (lane_map1 _ _ (by omega))
    rw [this]; exact truncE _
  have hle : ∀ k, expF (lane 64 x k) ≤ 2047 := fun k => expF_le hw _
  have hset0 : ∀ k, k < 2 → lane 32 (set1 128 12#64) (2 * k) = 12#32 := by
    intro k hk
    rw [← lane_lane (w := 64) (i := k) (j := 0) _ (by omega) (2 * k) (by omega), set1_lane _ (by omega)]; decide +kernel
  have hset1 : ∀ k, k < 2 → lane 32 (set1 128 12#64) (2 * k + 1) = 0#32 := by
    intro k hk
    rw [← lane_lane (w := 64) (i := k) (j := 1) _ (by omega) (2 * k + 1) (by omega), set1_lane _ (by omega)]; decide +kernel
  have hlo : ∀ k, k < 2 → lane 32 sm (2 * k) = laneMask 32 (decide (expF (lane 64 x k) < 1023)) := by
    intro k hk
    refine (lane_map2 _ _ _ (by omega)).trans ?_
    have h1 := hE k hk
    have h2 := hle k
    rw [hset0 k hk, ← lane_lane (w := 64) (i := k) (j := 0) e3 (by omega) (2 * k) (by omega), lowInt h1 (by omega) (by omega)]
    congr 1
    rw [show (12#32).toInt = 12 by decide]
    apply decide_eq_decide.2
    omega
  have hhi : ∀ k, k < 2 → lane 32 sm (2 * k + 1) = laneMask 32 (decide (expF (lane 64 x k) < 1011)) := by
    intro k hk
    refine (lane_map2 _ _ _ (by omega)).trans ?_
    have h1 := hE k hk
    rw [hset1 k hk, ← lane_lane (w := 64) (i := k) (j := 1) e3 (by omega) (2 * k + 1) (by omega)]
    congr 1
    rw [show (0#32).toInt = 0 by decide]
    apply decide_eq_decide.2
    rw [highNeg, h1]
    omega
  have hsm := dupMask sm s.sse3 _ _ hlo hhi hi
  generalize hX : lane 64 x i = X at *
  have hEi := hE i hi
  rw [hX] at hEi
  have hlei : expF X ≤ 2047 := by have := hle i; rw [hX] at this; exact this
  have hsh : (lane 64 shift i).toNat = if expF X < (if s.sse3 then 1023 else 1011) then 1 else expF X - 1011 := by
    have h1 : lane 64 shift i = (~~~ lane 64 sm2 i &&& lane 64 e3 i) ||| (lane 64 sm2 i &&& 1#64) := by
      refine (lane_or _ _ _ _).trans ?_
      rw [lane_and, lane_and, lane_not _ (by omega), set1_lane _ (by omega)]
    have h2 : lane 64 sm2 i = laneMask 64 (decide (expF X < (if s.sse3 then 1023 else 1011))) := by
      refine hsm.trans ?_
      cases s.sse3 <;> rfl
    rw [h1, h2, andnot_mask, mask_and]
    by_cases hc : expF X < (if s.sse3 then 1023 else 1011)
    · simp only [hc, decide_true, if_true]; decide
    · simp only [hc, decide_false, Bool.false_eq_true, if_false, BitVec.or_zero]
      have : 1011 ≤ expF X := by revert hc; cases s.sse3 <;> simp <;> omega
      have h3 := BitVec.toInt_eq_toNat_cond (lane 64 e3 i)
      have h4 := (lane 64 e3 i).isLt
      rw [hEi] at h3
      split at h3 <;> omega
  have hm : lane 64 mask i = BitVec.allOnes 64 >>> (lane 64 shift i).toNat := lane_map1 _ _ (by omega)
  unfold truncLane
  refine (lane_and _ _ _ _).trans ?_
  rw [hX]
  refine congrArg (· &&& X) ?_
  rw [lane_not _ (by omega), lane_and, hm, hsh, lane_not _ (by omega), lane_zero]
  generalize BitVec.allOnes 64 >>> (if expF X < (if s.sse3 then 1023 else 1011) then 1 else expF X - 1011) = M
  rw [show ~~~ (0#64) = BitVec.allOnes 64 by decide, BitVec.allOnes_and]
end Dpm.X86
namespace Dpm.Fp
open Dpm.X86
/-- the same sign, an integer, and less than 1 below in magnitude -/
theorem trunc_of_abs {w : Nat} {x r : BitVec w} (hf : isFinite r = true) (hs : r.msb = x.msb)
    (hd : (val r).natAbs % 2 ^ unitExp w = 0) (h1 : (val r).natAbs ≤ (val x).natAbs) (h2 : (val x).natAbs < (val r).natAbs + 2 ^ unitExp w) :
    RoundsVal IsTrunc x r := by
  have hxv : val x = if x.msb then -((val x).natAbs : Int) else (val x).natAbs := by rw [natAbs_val]; rfl
  have hrv : val r = if x.msb then -((val r).natAbs : Int) else (val r).natAbs := by rw [natAbs_val, ← hs]; rfl
  have hD : 0 < 2 ^ unitExp w := Nat.two_pow_pos _
  have hdm := Nat.div_add_mod (val r).natAbs (2 ^ unitExp w)
  rw [hd, Nat.add_zero] at hdm
  refine ⟨hf, if x.msb then -(((val r).natAbs / 2 ^ unitExp w : Nat) : Int) else ((val r).natAbs / 2 ^ unitExp w : Nat), ?_, ?_⟩
  · rw [hxv]
    unfold IsTrunc
    generalize (val x).natAbs = n at *
    generalize (val r).natAbs = m at *
    generalize 2 ^ unitExp w = D at *
    generalize m / D = q at *
    have hdi : ((m : Nat) : Int) = (D : Int) * (q : Int) := by exact_mod_cast hdm.symm
    cases x.msb
    · simp only [Bool.false_eq_true, if_false]
      have e1 : (q : Int) * D = m := by rw [hdi]; grind
      have e2 : ((q : Int) + 1) * D = m + D := by rw [hdi]; grind
      rw [e1, e2]; omega
    · simp only [if_true]
      have e1 : -(q : Int) * D = -m := by rw [hdi]; grind
      have e2 : (-(q : Int) - 1) * D = -m - D := by rw [hdi]; grind
      have e3 : (-(q : Int) + 1) * D = -m + D := by rw [hdi]; grind
      rw [e1, e2, e3]; omega
  · refine hrv.trans ?_
    generalize (val r).natAbs = m at *
    generalize 2 ^ unitExp w = D at *
    generalize m / D = q at *
    have hdi : ((m : Nat) : Int) = (D : Int) * (q : Int) := by exact_mod_cast hdm.symm
    cases x.msb
    · simp only [Bool.false_eq_true, if_false]; rw [hdi]; grind
    · simp only [if_true]; rw [hdi]; grind
theorem small_of_bias {w : Nat} (h : W w) {x : BitVec w} (he : expF x < bias w) : (val x).natAbs < 2 ^ unitExp w := by
  rw [natAbs_val]
  have h1 : mag x < bias w * 2 ^ mb w := (Nat.div_lt_iff_lt_mul (Nat.two_pow_pos _)).1 he
  have h2 : 2 ^ unitExp w = magVal (mb w) (bias w * 2 ^ mb w) := by
    have := magVal_kf (b := mb w) (k := bias w - 1) (f := 2 ^ mb w) (Or.inr (Nat.le_refl _)) (by rw [Nat.pow_succ]; omega)
    have hβ : 4 ≤ bias w := by rcases h with h | h <;> subst h <;> decide
    rw [show bias w * 2 ^ mb w = (bias w - 1) * 2 ^ mb w + 2 ^ mb w by rw [← Nat.succ_mul]; congr 1; omega, this, ← Nat.pow_add, unitExp_eq h, Nat.add_comm]
  rw [h2]
  exact magVal_lt.2 h1
theorem zero_trunc {w : Nat} (h : W w) {x : BitVec w} (he : expF x < bias w) : RoundsVal IsTrunc x (x &&& BitVec.intMin w) := by
  obtain ⟨s1, s2, s3⟩ := signZero h x
  refine trunc_of_abs s1 s3 (by rw [s2]; exact Nat.zero_mod _) (by rw [s2]; exact Nat.zero_le _) ?_
  rw [s2]; exact Nat.lt_of_lt_of_eq (small_of_bias h he) (Nat.zero_add _).symm
theorem ones_shr {j : Nat} : BitVec.allOnes 64 >>> j = BitVec.ofNat 64 (2 ^ (64 - j) - 1) := by
  apply BitVec.eq_of_toNat_eq
  have hp : 0 < 2 ^ (64 - j) := Nat.two_pow_pos _
  have hle : 2 ^ (64 - j) ≤ 2 ^ 64 := Nat.pow_le_pow_right (by omega) (by omega)
  rw [BitVec.toNat_ushiftRight, BitVec.toNat_allOnes, BitVec.toNat_ofNat, Nat.shiftRight_eq_div_pow, Nat.mod_eq_of_lt (by omega)]
  by_cases hj : j ≤ 64
  · have : (2 : Nat) ^ 64 = 2 ^ (64 - j) * 2 ^ j := by rw [← Nat.pow_add]; congr 1; omega
    rw [this, Nat.div_eq_iff (Nat.two_pow_pos _), Nat.sub_mul, Nat.one_mul]
    have hq : 0 < 2 ^ j := Nat.two_pow_pos _
    have : 2 ^ j ≤ 2 ^ (64 - j) * 2 ^ j := Nat.le_mul_of_pos_left _ hp
    omega
  · rw [show 64 - j = 0 by omega, Nat.div_eq_of_lt]
    have : (2 : Nat) ^ 64 < 2 ^ j := Nat.pow_lt_pow_right (by omega) (by omega)
    omega
theorem self_trunc {w : Nat} {x : BitVec w} (hE : unitExp w < expF x) (hf : isFinite x = true) : RoundsVal IsTrunc x x := by
  have hD : 0 < 2 ^ unitExp w := Nat.two_pow_pos _
  exact trunc_of_abs hf rfl (int_of_big hE) (Nat.le_refl _) (by omega)
/-- the fraction bits cleared -/
theorem clear_frac {w : Nat} (h : W w) {x : BitVec w} (h1 : bias w ≤ expF x) (h2 : expF x < bias w + mb w) :
    RoundsVal IsTrunc x (~~~ modfMask x &&& x) ∧ (~~~ modfMask x &&& x).msb = x.msb := by
  obtain ⟨-, m2⟩ := modf_int h h1 h2
  rw [m2]
  have hU := unitExp_eq h
  have hb : 0 < bias w := by rcases h with h | h <;> subst h <;> decide
  have hjE : mb w - (expF x - bias w) + (expF x - 1) = unitExp w := by omega
  have hjm : mb w - (expF x - bias w) ≤ mb w := by omega
  generalize mb w - (expF x - bias w) = j at *
  have hrl : manF x % 2 ^ j < 2 ^ j := Nat.mod_lt _ (Nat.two_pow_pos _)
  have hrle : manF x % 2 ^ j ≤ manF x := Nat.mod_le _ _
  have hman := manF_lt x
  have hdm := Nat.div_add_mod (manF x) (2 ^ j)
  have hmj : 2 ^ mb w = 2 ^ j * 2 ^ (mb w - j) := by rw [← Nat.pow_add]; congr 1; omega
  have hel := expF_le h x
  have hen : expF x < emax w := by
    have h3 := emax_bias h
    have : mb w ≤ bias w := by rcases h with h | h <;> subst h <;> decide
    omega
  have hf2 : manF x - manF x % 2 ^ j < 2 ^ mb w := by omega
  have hfo := fields_of h (s := x.msb) hel hf2
  refine ⟨trunc_of_abs ?_ hfo.1 ?_ ?_ ?_, hfo.1⟩
  · unfold isFinite; rw [hfo.2.2.1]; simp; omega
  all_goals
    have hv2 : (val (ofFields w x.msb (expF x) (manF x - manF x % 2 ^ j))).natAbs = (2 ^ mb w + (manF x - manF x % 2 ^ j)) * 2 ^ (expF x - 1) := by
      rw [natAbs_val, hfo.2.1, magVal_fields hf2]
      unfold fieldVal
      rw [if_neg (by omega)]
    rw [hv2]
  · rw [hmj, show manF x - manF x % 2 ^ j = 2 ^ j * (manF x / 2 ^ j) by omega, ← Nat.mul_add, ← hjE, Nat.mul_right_comm, ← Nat.pow_add, Nat.mul_mod_right]
  · rw [natAbs_val_fields]; unfold fieldVal; rw [if_neg (by omega)]
    exact Nat.mul_le_mul_right _ (by omega)
  · rw [natAbs_val_fields]; unfold fieldVal; rw [if_neg (by omega), ← hjE, Nat.pow_add, ← Nat.add_mul]
    exact Nat.mul_lt_mul_of_pos_right (by omega) (Nat.two_pow_pos _)
theorem truncLane_big (t : Nat) (ht : t ≤ 1023) {x : BitVec 64} (h1 : 1023 ≤ expF x) : IsRoundFn IsTrunc x (truncLane t x) := by
  have hw : W 64 := Or.inr rfl
  unfold truncLane
  rw [if_neg (by omega), ones_shr]
  by_cases hb : expF x < 1075
  · have hm : BitVec.ofNat 64 (2 ^ (64 - (expF x - 1011)) - 1) = modfMask x := by
      unfold modfMask
      have hb : bias 64 = 1023 := rfl
      rw [hb, if_neg (show ¬ expF x < 1023 by omega)]
      show _ = BitVec.ofNat 64 (2 ^ (52 - (expF x - 1023)) - 1)
      rw [show 64 - (expF x - 1011) = 52 - (expF x - 1023) by omega]
    rw [hm]
    have hc := clear_frac hw (x := x) h1 hb
    have hfin : isFinite x = true := by unfold isFinite; simp; show expF x ≠ 2047; omega
    have hcl := finite_cls hfin
    exact ⟨fun _ => hc.1, fun _ => hc.2, fun hi => absurd (hi.symm.trans hcl.2) (by decide), fun hn => absurd (hn.symm.trans hcl.1) (by decide)⟩
  · rw [show 64 - (expF x - 1011) = 0 by omega]
    have e : ~~~ BitVec.ofNat 64 (2 ^ 0 - 1) &&& x = x := by
      rw [show ~~~ BitVec.ofNat 64 (2 ^ 0 - 1) = BitVec.allOnes 64 by decide, BitVec.allOnes_and]
    rw [e]
    exact ⟨fun hf => self_trunc (by show 1074 < expF x; omega) hf, fun _ => rfl, fun _ => rfl, fun hn => hn⟩
theorem truncLane_small {t : Nat} {x : BitVec 64} (h1 : expF x < 1023) (h2 : expF x < t) : IsRoundFn IsTrunc x (truncLane t x) := by
  have hw : W 64 := Or.inr rfl
  have hfin : isFinite x = true := by unfold isFinite; simp; show expF x ≠ 2047; omega
  have hcl := finite_cls hfin
  unfold truncLane
  rw [if_pos h2]
  have e : ~~~ (BitVec.allOnes 64 >>> 1) &&& x = x &&& BitVec.intMin 64 := by
    rw [show ~~~ (BitVec.allOnes 64 >>> 1) = BitVec.intMin 64 by decide, BitVec.and_comm]
  rw [e]
  obtain ⟨s1, s2, s3⟩ := signZero hw x
  refine ⟨fun _ => zero_trunc hw h1,
    fun _ => s3, fun hi => absurd (hi.symm.trans hcl.2) (by decide), fun hn => absurd (hn.symm.trans hcl.1) (by decide)⟩
/-- with SSE3: right for every pattern -/
theorem truncLane_fn (x : BitVec 64) : IsRoundFn IsTrunc x (truncLane 1023 x) := by
  by_cases h : expF x < 1023
  · exact truncLane_small h h
  · exact truncLane_big _ (Nat.le_refl _) (by omega)
/-- without SSE3: `2^-9 <= |x| < 1` is not truncated to zero -/
theorem truncLane_bad {x : BitVec 64} (h1 : 1014 ≤ expF x) (h2 : expF x < 1023) :
    isFinite (truncLane 1011 x) = true ∧ val (truncLane 1011 x) ≠ 0 ∧ expF (truncLane 1011 x) < bias 64 := by
  have hw : W 64 := Or.inr rfl
  unfold truncLane
  rw [if_neg (by omega), ones_shr]
  generalize hj : 64 - (expF x - 1011) = j
  have hand := andnot_low (j := j) x
  generalize ~~~ BitVec.ofNat 64 (2 ^ j - 1) &&& x = r at *
  have hx := toNat_sm (w := 64) (by decide) x
  have hf := mag_fields x
  have hmf := manF_lt x
  have hm52 : mb 64 = 52 := rfl
  rw [hm52] at hf hmf
  have hj1 : 53 ≤ j := by omega
  have hj2 : j ≤ 61 := by omega
  -- the low part removed does not reach the upper exponent bits
  have hmod : x.toNat % 2 ^ j = mag x % 2 ^ j := by
    rw [hx]
    split
    · have : ∀ a, a = (63 - j) + j → 2 ^ a = 2 ^ (63 - j) * 2 ^ j := fun a ha => by rw [← Nat.pow_add, ha]
      rw [this (64 - 1) (by omega), Nat.mul_comm, Nat.mul_add_mod]
    · rw [Nat.zero_add]
  have hle : mag x % 2 ^ j ≤ mag x := Nat.mod_le _ _
  have hml := mag_lt x
  rw [hmod, hx] at hand
  have hsm := msb_of_toNat (x := r) (s := x.msb) (m := mag x - mag x % 2 ^ j) (by decide) (by omega) (by rw [hand]; omega)
  have hge : 2 ^ 61 ≤ mag x := by rw [hf]; omega
  have hne : mag r ≠ 0 := by
    rw [hsm.2]
    intro h0
    have h1 : mag x % 2 ^ j < 2 ^ j := Nat.mod_lt _ (Nat.two_pow_pos _)
    have h2 : 2 ^ j ≤ 2 ^ 61 := Nat.pow_le_pow_right (by omega) hj2
    omega
  have hlt : expF r < bias 64 := by
    show expF r < 1023
    unfold expF
    rw [hsm.2]
    show (mag x - mag x % 2 ^ j) / 2 ^ 52 < 1023
    omega
  refine ⟨?_, fun h0 => hne ((val_zero_iff r).1 h0), hlt⟩
  unfold isFinite; simp; show expF r ≠ 2047; have : bias 64 = 1023 := rfl; omega
end Dpm.Fp
