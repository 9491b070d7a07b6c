import Verif.Proofs.Log2Eval
/-! Accuracy of `impl_log10`. -/
namespace Dpm.X86
open Dpm.Reg Dpm.Fp

theorem rv_ratio {w : Nat} (x : BitVec w) (n : Int) (k : Nat) (h : val x * 2 ^ k = n * 2 ^ unitExp w) : rv x = (n : ℝ) / 2 ^ k := by
  unfold rv
  rw [div_eq_div_iff (by positivity) (by positivity)]
  exact_mod_cast h
/-- `log 2` and `log 10` to 85 bits -/
theorem log2_enc : |(27458388733853736675570735564 : ℝ) / 2 ^ 95 - Real.log 2| ≤ 1 / 2 ^ 86 := by
  have h : rowG 64 0 60 90 8 95 (0x4000000000000000#64) (-27458388733853736675570735564) = true := by decide +kernel
  obtain ⟨-, b⟩ := rowG_spec (by decide) h
  have e : rv (0x4000000000000000#64) = 2 := by rw [rv_ratio (0x4000000000000000#64) 2 0 (by decide +kernel)]; norm_num
  rw [e] at b
  rw [abs_sub_comm, show Real.log 2 - (27458388733853736675570735564 : ℝ) / 2 ^ 95 = ((-27458388733853736675570735564 : Int) : ℝ) / 2 ^ 95 + Real.log 2 by push_cast; ring]
  exact le_trans b (by norm_num)
theorem log54_enc : |(8839626773766147018352762611 : ℝ) / 2 ^ 95 - Real.log (5 / 4)| ≤ 1 / 2 ^ 86 := by
  have h : rowG 64 2 60 90 8 95 (0x3ff4000000000000#64) (-8839626773766147018352762611) = true := by decide +kernel
  obtain ⟨-, b⟩ := rowG_spec (by decide) h
  have e : rv (0x3ff4000000000000#64) = 5 / 4 := by rw [rv_ratio (0x3ff4000000000000#64) 5 2 (by decide +kernel)]; norm_num
  rw [e] at b
  rw [abs_sub_comm, show Real.log (5 / 4) - (8839626773766147018352762611 : ℝ) / 2 ^ 95 = ((-8839626773766147018352762611 : Int) : ℝ) / 2 ^ 95 + Real.log (5 / 4) by push_cast; ring]
  exact le_trans b (by norm_num)
theorem log10_split : Real.log 10 = 3 * Real.log 2 + Real.log (5 / 4) := by
  rw [show (10:ℝ) = 2 ^ 3 * (5 / 4) by norm_num, Real.log_mul (by norm_num) (by norm_num), Real.log_pow]; norm_num
theorem log10_lo : 2.3025 ≤ Real.log 10 ∧ Real.log 10 ≤ 2.3026 := by
  obtain ⟨a, b⟩ := abs_le.1 log2_enc
  obtain ⟨c, d⟩ := abs_le.1 log54_enc
  rw [log10_split]
  norm_num at a b c d ⊢
  constructor <;> linarith
/-- the constants of `log10` -/
theorem log10_consts {w : Nat} (h : W w) : isFinite (log10_2h w) = true ∧ isFinite (log10_2l w) = true ∧ isFinite (ivln10 w) = true ∧
    |rv (log10_2h w)| ≤ 0.3011 ∧ |rv (log10_2l w)| ≤ 0.000001 ∧ |rv (ivln10 w)| ≤ 0.4343 ∧
    |rv (log10_2h w) + rv (log10_2l w) - Real.log 2 / Real.log 10| ≤ ulpHalf w / 100000 ∧ |rv (ivln10 w) - 1 / Real.log 10| ≤ ulpHalf w * 0.2 := by
  obtain ⟨t1, t2⟩ := log10_lo
  have t0 : 0 < Real.log 10 := by linarith
  obtain ⟨a, b⟩ := abs_le.1 log2_enc
  obtain ⟨c, d⟩ := abs_le.1 log54_enc
  rcases h with h | h <;> subst h
  · have e1 : rv (log10_2h 32) = 78913 / 2 ^ 18 := by rw [rv_ratio _ 78913 18 (by decide +kernel)]; norm_num
    have e2 : rv (log10_2l 32) = 13903835 / 2 ^ 44 := by rw [rv_ratio _ 13903835 44 (by decide +kernel)]; norm_num
    have e3 : rv (ivln10 32) = 14572505 / 2 ^ 25 := by rw [rv_ratio _ 14572505 25 (by decide +kernel)]; norm_num
    refine ⟨by decide +kernel, by decide +kernel, by decide +kernel, ?_, ?_, ?_, ?_, ?_⟩
    · rw [e1, abs_of_nonneg (by positivity)]; norm_num
    · rw [e2, abs_of_nonneg (by positivity)]; norm_num
    · rw [e3, abs_of_nonneg (by positivity)]; norm_num
    · rw [e1, e2, ulp32, show (78913 / 2 ^ 18 + 13903835 / 2 ^ 44 : ℝ) - Real.log 2 / Real.log 10 = ((78913 / 2 ^ 18 + 13903835 / 2 ^ 44) * Real.log 10 - Real.log 2) / Real.log 10 by field_simp, abs_div, abs_of_pos t0, div_le_iff₀ t0]
      refine le_trans ?_ (mul_le_mul_of_nonneg_left t1 (by positivity))
      rw [log10_split]
      norm_num at a b c d ⊢
      rw [abs_le]; constructor <;> linarith
    · rw [e3, ulp32, show (14572505 / 2 ^ 25 : ℝ) - 1 / Real.log 10 = ((14572505 / 2 ^ 25) * Real.log 10 - 1) / Real.log 10 by field_simp, abs_div, abs_of_pos t0, div_le_iff₀ t0]
      refine le_trans ?_ (mul_le_mul_of_nonneg_left t1 (by positivity))
      rw [log10_split]
      norm_num at a b c d ⊢
      rw [abs_le]; constructor <;> linarith
  · have e1 : rv (log10_2h 64) = 661971961083 / 2 ^ 41 := by rw [rv_ratio _ 661971961083 41 (by decide +kernel)]; norm_num
    have e2 : rv (log10_2l 64) = 3658597174646171 / 2 ^ 93 := by rw [rv_ratio _ 3658597174646171 93 (by decide +kernel)]; norm_num
    have e3 : rv (ivln10 64) = 3911776933737095 / 2 ^ 53 := by rw [rv_ratio _ 3911776933737095 53 (by decide +kernel)]; norm_num
    refine ⟨by decide +kernel, by decide +kernel, by decide +kernel, ?_, ?_, ?_, ?_, ?_⟩
    · rw [e1, abs_of_nonneg (by positivity)]; norm_num
    · rw [e2, abs_of_nonneg (by positivity)]; norm_num
    · rw [e3, abs_of_nonneg (by positivity)]; norm_num
    · rw [e1, e2, ulp64, show (661971961083 / 2 ^ 41 + 3658597174646171 / 2 ^ 93 : ℝ) - Real.log 2 / Real.log 10 = ((661971961083 / 2 ^ 41 + 3658597174646171 / 2 ^ 93) * Real.log 10 - Real.log 2) / Real.log 10 by field_simp, abs_div, abs_of_pos t0, div_le_iff₀ t0]
      refine le_trans ?_ (mul_le_mul_of_nonneg_left t1 (by positivity))
      rw [log10_split]
      norm_num at a b c d ⊢
      rw [abs_le]; constructor <;> linarith
    · rw [e3, ulp64, show (3911776933737095 / 2 ^ 53 : ℝ) - 1 / Real.log 10 = ((3911776933737095 / 2 ^ 53) * Real.log 10 - 1) / Real.log 10 by field_simp, abs_div, abs_of_pos t0, div_le_iff₀ t0]
      refine le_trans ?_ (mul_le_mul_of_nonneg_left t1 (by positivity))
      rw [log10_split]
      norm_num at a b c d ⊢
      rw [abs_le]; constructor <;> linarith
/-- the last steps of `impl_log10`: `L` approximates `log a`, `1/2 ≤ a ≤ 2` -/
theorem log10_core {w : Nat} (h : W w) (fm : Bool) {L : BitVec w} {K : Int} {a : ℝ} (hK : K.natAbs ≤ 1100) (ha : |Real.log a| ≤ 0.7) (Lf : isFinite L = true)
    (Le : |rv L - Real.log a| ≤ 5 * ulpHalf w * (1 + |Real.log a|)) :
    isFinite (fmaL fm (ofInt w K) (log10_2h w) (fmaL fm (ofInt w K) (log10_2l w) (fmul (ivln10 w) L))) = true ∧
    |rv (fmaL fm (ofInt w K) (log10_2h w) (fmaL fm (ofInt w K) (log10_2l w) (fmul (ivln10 w) L))) - (K * Real.log 2 + Real.log a) / Real.log 10| ≤ 6 * ulpHalf w * (1 + |(K * Real.log 2 + Real.log a) / Real.log 10|) := by
  obtain ⟨f1, f2, f3, b1, b2, b3, e1, e2⟩ := log10_consts h
  have hu := ulp_pos w
  have hu1 := ulp_le h
  have hu2 : ulpHalf w ≤ 0.0000001 := le_trans hu1 (by norm_num)
  obtain ⟨kf, kv'⟩ := ofInt_exact h (z := K) (le_trans hK (by rcases h with h | h <;> subst h <;> decide))
  have kv : rv (ofInt w K) = K := by unfold rv; rw [kv']; push_cast; field_simp
  have hKb : |(K : ℝ)| ≤ 1100 := by
    have : ((K.natAbs : Nat) : ℝ) ≤ 1100 := by exact_mod_cast hK
    rwa [Nat.cast_natAbs, Int.cast_abs] at this
  have t := log10_lo
  set l := Real.log a with hl
  set X := Real.log 10 with hX
  have Le2 : |rv L - l| ≤ ulpHalf w * 8.5 := by
    refine le_trans Le ?_
    rw [show 5 * ulpHalf w * (1 + |l|) = ulpHalf w * (5 * (1 + |l|)) by ring]
    exact mul_le_mul_of_nonneg_left (by linarith) hu.le
  have Lb : |rv L| ≤ 0.7001 := by
    have := abs_le_of_sub Le2 ha
    nlinarith
  -- z0 = iv * L
  have m0 := mul_bd b3 Lb
  obtain ⟨zf, ze⟩ := mul_bd_e h f3 Lf m0 (by norm_num)
  have ze2 : |rv (fmul (ivln10 w) L) - rv (ivln10 w) * rv L| ≤ ulpHalf w * 0.306 := le_trans ze (mul_le_mul_of_nonneg_left (by norm_num) hu.le)
  have hz0 : |rv (ivln10 w) * rv L - l / X| ≤ ulpHalf w * 3.85 := by
    have := prod_err e2 Le2 (a := 1 / X) (ma := 0.4344) (by rw [abs_of_pos (by positivity), div_le_iff₀ (by linarith)]; linarith) Lb
    rw [show 1 / X * l = l / X by ring] at this
    refine le_trans this ?_
    rw [show ulpHalf w * 0.2 * 0.7001 + 0.4344 * (ulpHalf w * 8.5) = ulpHalf w * (0.2 * 0.7001 + 0.4344 * 8.5) by ring]
    exact mul_le_mul_of_nonneg_left (by norm_num) hu.le
  have zb : |rv (fmul (ivln10 w) L)| ≤ 0.3042 := by
    refine le_trans (abs_le_of_sub ze2 m0) ?_
    have : ulpHalf w * 0.306 ≤ 0.00001 := by linarith
    refine le_trans (add_le_add this le_rfl) (by norm_num)
  generalize fmul (ivln10 w) L = z0 at *
  -- z1 = y * l2l + z0
  have m1 : |rv (ofInt w K) * rv (log10_2l w)| ≤ 1100 * 0.000001 := by rw [kv]; exact mul_bd hKb b2
  have s1 := le_trans (abs_add_le _ _) (add_le_add m1 zb)
  obtain ⟨z1f, z1e⟩ := fma_bd h fm kf f2 zf m1 zb s1 (by norm_num) (by norm_num)
  have z1e2 : |rv (fmaL fm (ofInt w K) (log10_2l w) z0) - (rv (ofInt w K) * rv (log10_2l w) + rv z0)| ≤ ulpHalf w * 0.31 := le_trans z1e (mul_le_mul_of_nonneg_left (by norm_num) hu.le)
  have z1b : |rv (fmaL fm (ofInt w K) (log10_2l w) z0)| ≤ 1 := by
    refine le_trans (abs_le_of_sub z1e2 s1) ?_
    have : ulpHalf w * 0.31 ≤ 0.00001 := by linarith
    refine le_trans (add_le_add this le_rfl) (by norm_num)
  generalize fmaL fm (ofInt w K) (log10_2l w) z0 = z1 at *
  have m2 : |rv (ofInt w K) * rv (log10_2h w)| ≤ 1100 * 0.3011 := by rw [kv]; exact mul_bd hKb b1
  have hb : (4 : ℝ) * 400 ≤ 2 ^ bias w := by
    have : (2:ℝ) ^ 20 ≤ 2 ^ bias w := pow_le_pow_right₀ (by norm_num) (by rcases h with h | h <;> subst h <;> decide)
    refine le_trans ?_ this; norm_num
  obtain ⟨rf, re⟩ := fmaL_e h fm kf f1 z1f hb (by norm_num) (le_trans m2 (by norm_num)) (le_trans z1b (by norm_num))
  refine ⟨rf, ?_⟩
  generalize fmaL fm (ofInt w K) (log10_2h w) z1 = r at *
  have ht2 : tiny w ≤ ulpHalf w / 2 ^ 20 := by
    unfold tiny ulpHalf
    rw [div_div, ← pow_add]
    apply one_div_le_one_div_of_le (by positivity)
    exact pow_le_pow_right₀ (by norm_num) (by rcases h with h | h <;> subst h <;> decide)
  rw [kv] at *
  set l2 := Real.log 2
  set Y := ((K:ℝ) * l2 + l) / X with hY
  have eY : Y = K * (l2 / X) + l / X := by rw [hY]; ring
  have dK : |(K:ℝ) * (rv (log10_2h w) + rv (log10_2l w) - l2 / X)| ≤ ulpHalf w * 0.011 := by
    refine le_trans (mul_bd hKb e1) ?_
    rw [show 1100 * (ulpHalf w / 100000) = ulpHalf w * 0.011 by ring]
  -- sum before the last rounding
  set S := (K:ℝ) * rv (log10_2h w) + rv z1 with hS
  have hSY : |S - Y| ≤ ulpHalf w * 4.5 := by
    have : S - Y = (rv z1 - (K * rv (log10_2l w) + rv z0)) + (rv z0 - rv (ivln10 w) * rv L) + (rv (ivln10 w) * rv L - l / X) + (K:ℝ) * (rv (log10_2h w) + rv (log10_2l w) - l2 / X) := by rw [hS, eY]; ring
    rw [this]
    have h1 := abs_le.1 z1e2; have h2 := abs_le.1 ze2; have h3 := abs_le.1 hz0; have h4 := abs_le.1 dK
    rw [abs_le]; constructor <;> linarith [h1.1, h1.2, h2.1, h2.2, h3.1, h3.2, h4.1, h4.2]
  have hSb : |S| ≤ |Y| + 0.001 := by
    have := abs_le_of_sub hSY (le_refl |Y|)
    have h5 : ulpHalf w * 4.5 ≤ 0.001 := by linarith
    linarith
  have hKh : |(K:ℝ) * rv (log10_2h w)| ≤ |Y| + 0.306 := by
    have e : (K:ℝ) * rv (log10_2h w) = Y - l / X + K * (rv (log10_2h w) + rv (log10_2l w) - l2 / X) - K * rv (log10_2l w) := by rw [eY]; ring
    have h1 : |l / X| ≤ 0.3041 := by
      rw [abs_div, abs_of_pos (by linarith : 0 < X), div_le_iff₀ (by linarith)]; linarith
    have h2 := abs_le.1 h1; have h3 := abs_le.1 dK; have h4 := abs_le.1 m1; have h5 := abs_le.1 (le_refl |Y|)
    rw [e, abs_le]
    have hc : ulpHalf w * 0.011 ≤ 0.0001 := by linarith
    constructor <;> linarith [h2.1, h2.2, h3.1, h3.2, h4.1, h4.2, h5.1, h5.2]
  have a1 : ulpHalf w * (1 + ulpHalf w) * |(K:ℝ) * rv (log10_2h w)| ≤ ulpHalf w * (1.001 * |Y| + 0.31) := by
    rw [mul_assoc]
    refine mul_le_mul_of_nonneg_left ?_ hu.le
    have := mul_le_mul (by linarith : 1 + ulpHalf w ≤ 1.001) hKh (abs_nonneg _) (by norm_num)
    linarith
  have a2 : ulpHalf w * |S| ≤ ulpHalf w * (|Y| + 0.001) := mul_le_mul_of_nonneg_left hSb hu.le
  rw [show rv r - Y = (rv r - S) + (S - Y) by ring]
  have hYn : 0 ≤ ulpHalf w * |Y| := by positivity
  refine le_trans (abs_add_le _ _) (le_trans (add_le_add re hSY) ?_)
  rw [show 6 * ulpHalf w * (1 + |Y|) = 6 * ulpHalf w + 6 * (ulpHalf w * |Y|) by ring]
  rw [show ulpHalf w * (1.001 * |Y| + 0.31) = 1.001 * (ulpHalf w * |Y|) + 0.31 * ulpHalf w by ring] at a1
  rw [show ulpHalf w * (|Y| + 0.001) = ulpHalf w * |Y| + 0.001 * ulpHalf w by ring] at a2
  linarith
/-! ### exponent and mantissa -/
theorem arg10_nat32 {ix t : BitVec 32} {s : Nat} (hs : s ≤ 1) (ht : t.toNat = s) :
    ((ix &&& ~~~ (signBit 32 ||| expOnes 32)) ||| ((BitVec.ofNat 32 (expOff 32) - t) <<< mantBits 32)).toNat = ix.toNat % 2 ^ 23 + (127 - s) * 2 ^ 23 := by
  have e1 : (~~~ (signBit 32 ||| expOnes 32)).toNat = 2 ^ 23 - 1 := by decide
  have e2 : (BitVec.ofNat 32 (expOff 32) - t).toNat = 127 - s := by rw [BitVec.toNat_sub, ht]; change (2 ^ 32 - s + 127) % 2 ^ 32 = _; omega
  rw [BitVec.toNat_or, BitVec.toNat_and, e1, Nat.and_two_pow_sub_one_eq_mod, BitVec.toNat_shiftLeft, e2]
  change ix.toNat % 2 ^ 23 ||| (127 - s) <<< 23 % 2 ^ 32 = _
  rw [Nat.mod_eq_of_lt (a := (127 - s) <<< 23) (by rw [Nat.shiftLeft_eq]; omega), Nat.or_comm, ← Nat.shiftLeft_add_eq_or_of_lt (by omega), Nat.shiftLeft_eq]; omega
theorem arg10_nat64 {ix t : BitVec 64} {s : Nat} (hs : s ≤ 1) (ht : t.toNat = s) :
    ((ix &&& ~~~ (signBit 64 ||| expOnes 64)) ||| ((BitVec.ofNat 64 (expOff 64) - t) <<< mantBits 64)).toNat = ix.toNat % 2 ^ 52 + (1023 - s) * 2 ^ 52 := by
  have e1 : (~~~ (signBit 64 ||| expOnes 64)).toNat = 2 ^ 52 - 1 := by decide
  have e2 : (BitVec.ofNat 64 (expOff 64) - t).toNat = 1023 - s := by rw [BitVec.toNat_sub, ht]; change (2 ^ 64 - s + 1023) % 2 ^ 64 = _; omega
  rw [BitVec.toNat_or, BitVec.toNat_and, e1, Nat.and_two_pow_sub_one_eq_mod, BitVec.toNat_shiftLeft, e2]
  change ix.toNat % 2 ^ 52 ||| (1023 - s) <<< 52 % 2 ^ 64 = _
  rw [Nat.mod_eq_of_lt (a := (1023 - s) <<< 52) (by rw [Nat.shiftLeft_eq]; omega), Nat.or_comm, ← Nat.shiftLeft_add_eq_or_of_lt (by omega), Nat.shiftLeft_eq]; omega
theorem bits10_32 {ix : BitVec 32} (hx : ix.toNat < infMag 32) {c : Nat} (hc : c ≤ 54) {k : BitVec 32} (hk : k = (0#32 - BitVec.ofNat 32 c) + (ix >>> mantBits 32 - BitVec.ofNat 32 (expOff 32))) :
    ∃ K : ℤ, K.natAbs ≤ 1100 ∧ ((k + k >>> 31).setWidth 32).toInt = K ∧ ∃ n : Nat, ((ix &&& ~~~ (signBit 32 ||| expOnes 32)) ||| ((BitVec.ofNat 32 (expOff 32) - k >>> 31) <<< mantBits 32)).toNat = n ∧
      (ix.toNat : ℤ) = n + (K + c) * 2 ^ mb 32 ∧ (bias 32 - 1) * 2 ^ mb 32 ≤ n ∧ n < (bias 32 + 1) * 2 ^ mb 32 ∧
      ((c + bias 32 - 1) * 2 ^ mb 32 ≤ ix.toNat → ix.toNat < (c + bias 32 + 1) * 2 ^ mb 32 → K = 0) := by
  change ix.toNat < 0x7f800000 at hx
  have e : (ix >>> mantBits 32).toNat = ix.toNat / 2 ^ 23 := by rw [BitVec.toNat_ushiftRight, Nat.shiftRight_eq_div_pow]; rfl
  have ek : k.toNat = (2 ^ 32 - c + (2 ^ 32 - 127 + ix.toNat / 2 ^ 23) % 2 ^ 32) % 2 ^ 32 := by
    rw [hk, BitVec.toNat_add, BitVec.toNat_sub, BitVec.toNat_sub, e, BitVec.toNat_ofNat, Nat.mod_eq_of_lt (by omega : c < 2 ^ 32)]
    change ((2 ^ 32 - c + 0) % 2 ^ 32 + (2 ^ 32 - 127 + ix.toNat / 2 ^ 23) % 2 ^ 32) % 2 ^ 32 = _
    omega
  have hE : ix.toNat / 2 ^ 23 ≤ 254 := by omega
  have es : (k >>> 31).toNat = k.toNat / 2 ^ 31 := by rw [BitVec.toNat_ushiftRight, Nat.shiftRight_eq_div_pow]
  have hdm := Nat.div_add_mod ix.toNat (2 ^ 23)
  have hmm := Nat.mod_lt ix.toNat (Nat.two_pow_pos 23)
  generalize ix.toNat / 2 ^ 23 = E at *
  generalize hM : ix.toNat % 2 ^ 23 = M at *
  rcases Nat.lt_or_ge E (127 + c) with hlt | hge
  · have ek2 : k.toNat = 2 ^ 32 + E - 127 - c := by rw [ek]; omega
    have es2 : (k >>> 31).toNat = 1 := by rw [es, ek2]; omega
    have et : ((k + k >>> 31).setWidth 32).toInt = (E : ℤ) - 127 - c + 1 := by
      rw [BitVec.setWidth_eq, BitVec.toInt_eq_toNat_cond, BitVec.toNat_add, es2, ek2]
      have : (2 ^ 32 + E - 127 - c + 1) % 2 ^ 32 = 2 ^ 32 + E - 127 - c + 1 ∨ (2 ^ 32 + E - 127 - c + 1) % 2 ^ 32 = 0 ∧ E + 1 = 127 + c := by omega
      rcases this with h | h
      · rw [h]; split <;> omega
      · rw [h.1]; split <;> omega
    refine ⟨_, ?_, et, _, arg10_nat32 (le_refl 1) es2, ?_⟩
    · omega
    · rw [hM]
      change (ix.toNat : ℤ) = _ + _ * 2 ^ 23 ∧ (127 - 1) * 2 ^ 23 ≤ _ ∧ _ < (127 + 1) * 2 ^ 23 ∧ ((c + 127 - 1) * 2 ^ 23 ≤ _ → _ < (c + 127 + 1) * 2 ^ 23 → _)
      refine ⟨?_, by omega, by omega, by omega⟩
      rw [← hdm]; push_cast; ring
  · have ek2 : k.toNat = E - 127 - c := by rw [ek]; omega
    have es2 : (k >>> 31).toNat = 0 := by rw [es, ek2]; omega
    have et : ((k + k >>> 31).setWidth 32).toInt = (E : ℤ) - 127 - c := by
      rw [BitVec.setWidth_eq, BitVec.toInt_eq_toNat_cond, BitVec.toNat_add, es2, ek2]
      have : (E - 127 - c + 0) % 2 ^ 32 = E - 127 - c := by omega
      rw [this]; split <;> omega
    refine ⟨_, ?_, et, _, arg10_nat32 (Nat.zero_le 1) es2, ?_⟩
    · omega
    · rw [hM]
      change (ix.toNat : ℤ) = _ + _ * 2 ^ 23 ∧ (127 - 1) * 2 ^ 23 ≤ _ ∧ _ < (127 + 1) * 2 ^ 23 ∧ ((c + 127 - 1) * 2 ^ 23 ≤ _ → _ < (c + 127 + 1) * 2 ^ 23 → _)
      refine ⟨?_, by omega, by omega, by omega⟩
      rw [← hdm]; push_cast; ring
theorem bits10_64 {ix : BitVec 64} (hx : ix.toNat < infMag 64) {c : Nat} (hc : c ≤ 54) {k : BitVec 64} (hk : k = (0#64 - BitVec.ofNat 64 c) + (ix >>> mantBits 64 - BitVec.ofNat 64 (expOff 64))) :
    ∃ K : ℤ, K.natAbs ≤ 1100 ∧ ((k + k >>> 63).setWidth 32).toInt = K ∧ ∃ n : Nat, ((ix &&& ~~~ (signBit 64 ||| expOnes 64)) ||| ((BitVec.ofNat 64 (expOff 64) - k >>> 63) <<< mantBits 64)).toNat = n ∧
      (ix.toNat : ℤ) = n + (K + c) * 2 ^ mb 64 ∧ (bias 64 - 1) * 2 ^ mb 64 ≤ n ∧ n < (bias 64 + 1) * 2 ^ mb 64 ∧
      ((c + bias 64 - 1) * 2 ^ mb 64 ≤ ix.toNat → ix.toNat < (c + bias 64 + 1) * 2 ^ mb 64 → K = 0) := by
  change ix.toNat < 0x7ff0000000000000 at hx
  have e : (ix >>> mantBits 64).toNat = ix.toNat / 2 ^ 52 := by rw [BitVec.toNat_ushiftRight, Nat.shiftRight_eq_div_pow]; rfl
  have ek : k.toNat = (2 ^ 64 - c + (2 ^ 64 - 1023 + ix.toNat / 2 ^ 52) % 2 ^ 64) % 2 ^ 64 := by
    rw [hk, BitVec.toNat_add, BitVec.toNat_sub, BitVec.toNat_sub, e, BitVec.toNat_ofNat, Nat.mod_eq_of_lt (by omega : c < 2 ^ 64)]
    change ((2 ^ 64 - c + 0) % 2 ^ 64 + (2 ^ 64 - 1023 + ix.toNat / 2 ^ 52) % 2 ^ 64) % 2 ^ 64 = _
    omega
  have hE : ix.toNat / 2 ^ 52 ≤ 2046 := by omega
  have es : (k >>> 63).toNat = k.toNat / 2 ^ 63 := by rw [BitVec.toNat_ushiftRight, Nat.shiftRight_eq_div_pow]
  have hdm := Nat.div_add_mod ix.toNat (2 ^ 52)
  have hmm := Nat.mod_lt ix.toNat (Nat.two_pow_pos 52)
  generalize ix.toNat / 2 ^ 52 = E at *
  generalize hM : ix.toNat % 2 ^ 52 = M at *
  rcases Nat.lt_or_ge E (1023 + c) with hlt | hge
  · have ek2 : k.toNat = 2 ^ 64 + E - 1023 - c := by rw [ek]; omega
    have es2 : (k >>> 63).toNat = 1 := by rw [es, ek2]; omega
    have et : ((k + k >>> 63).setWidth 32).toInt = (E : ℤ) - 1023 - c + 1 := by
      rw [BitVec.toInt_eq_toNat_cond, BitVec.toNat_setWidth, BitVec.toNat_add, es2, ek2]
      have : (2 ^ 64 + E - 1023 - c + 1) % 2 ^ 64 = 2 ^ 64 + E - 1023 - c + 1 ∨ (2 ^ 64 + E - 1023 - c + 1) % 2 ^ 64 = 0 ∧ E + 1 = 1023 + c := by omega
      rcases this with h | h
      · rw [h]; split <;> omega
      · rw [h.1]; split <;> omega
    refine ⟨_, ?_, et, _, arg10_nat64 (le_refl 1) es2, ?_⟩
    · omega
    · rw [hM]
      change (ix.toNat : ℤ) = _ + _ * 2 ^ 52 ∧ (1023 - 1) * 2 ^ 52 ≤ _ ∧ _ < (1023 + 1) * 2 ^ 52 ∧ ((c + 1023 - 1) * 2 ^ 52 ≤ _ → _ < (c + 1023 + 1) * 2 ^ 52 → _)
      refine ⟨?_, by omega, by omega, by omega⟩
      rw [← hdm]; push_cast; ring
  · have ek2 : k.toNat = E - 1023 - c := by rw [ek]; omega
    have es2 : (k >>> 63).toNat = 0 := by rw [es, ek2]; omega
    have et : ((k + k >>> 63).setWidth 32).toInt = (E : ℤ) - 1023 - c := by
      rw [BitVec.toInt_eq_toNat_cond, BitVec.toNat_setWidth, BitVec.toNat_add, es2, ek2]
      have : (E - 1023 - c + 0) % 2 ^ 64 = E - 1023 - c := by omega
      rw [this]; split <;> omega
    refine ⟨_, ?_, et, _, arg10_nat64 (Nat.zero_le 1) es2, ?_⟩
    · omega
    · rw [hM]
      change (ix.toNat : ℤ) = _ + _ * 2 ^ 52 ∧ (1023 - 1) * 2 ^ 52 ≤ _ ∧ _ < (1023 + 1) * 2 ^ 52 ∧ ((c + 1023 - 1) * 2 ^ 52 ≤ _ → _ < (c + 1023 + 1) * 2 ^ 52 → _)
      refine ⟨?_, by omega, by omega, by omega⟩
      rw [← hdm]; push_cast; ring
theorem pvN_unit {w n : Nat} (h1 : (bias w - 1) * 2 ^ mb w ≤ n) (h2 : n < (bias w + 1) * 2 ^ mb w) (hb : 0 < bias w) : |Real.log (pvN w n)| ≤ 0.7 := by
  have hM : 0 < 2 ^ mb w := Nat.two_pow_pos _
  have q1 : bias w - 1 ≤ n / 2 ^ mb w := (Nat.le_div_iff_mul_le hM).2 h1
  have q2 : n / 2 ^ mb w < bias w + 1 := (Nat.div_lt_iff_lt_mul hM).2 h2
  have q3 : n % 2 ^ mb w < 2 ^ mb w := Nat.mod_lt _ hM
  have l1 := Real.log_two_lt_d9
  have l2 := Real.log_two_gt_d9
  unfold pvN
  have hm0 : (0:ℝ) ≤ ((n % 2 ^ mb w : Nat) : ℝ) / 2 ^ mb w := by positivity
  have hm1 : ((n % 2 ^ mb w : Nat) : ℝ) / 2 ^ mb w < 1 := by
    rw [div_lt_one (by positivity)]; exact_mod_cast q3
  generalize ((n % 2 ^ mb w : Nat) : ℝ) / 2 ^ mb w = m at *
  have hl0 : 0 ≤ Real.log (1 + m) := Real.log_nonneg (by linarith)
  have hl1 : Real.log (1 + m) ≤ Real.log 2 := Real.log_le_log (by linarith) (by linarith)
  rw [Real.log_mul (zpow_ne_zero _ (by norm_num)) (by linarith), Real.log_zpow]
  rcases (by omega : n / 2 ^ mb w = bias w - 1 ∨ n / 2 ^ mb w = bias w) with e | e
  · rw [e, Nat.cast_sub (by omega)]; push_cast
    rw [abs_le]; constructor <;> ring_nf <;> linarith
  · rw [e, sub_self]; simp only [Int.cast_zero, zero_mul, zero_add]
    rw [abs_le]; constructor <;> linarith
theorem bits10 {w : Nat} (h : W w) {ix : BitVec w} (hx : ix.toNat < infMag w) {c : Nat} (hc : c ≤ 54) {k : BitVec w} (hk : k = (0#w - BitVec.ofNat w c) + (ix >>> mantBits w - BitVec.ofNat w (expOff w))) :
    ∃ K : ℤ, K.natAbs ≤ 1100 ∧ ((k + k >>> (w - 1)).setWidth 32).toInt = K ∧ ∃ n : Nat, ((ix &&& ~~~ (signBit w ||| expOnes w)) ||| ((BitVec.ofNat w (expOff w) - k >>> (w - 1)) <<< mantBits w)).toNat = n ∧
      (ix.toNat : ℤ) = n + (K + c) * 2 ^ mb w ∧ (bias w - 1) * 2 ^ mb w ≤ n ∧ n < (bias w + 1) * 2 ^ mb w ∧
      ((c + bias w - 1) * 2 ^ mb w ≤ ix.toNat → ix.toNat < (c + bias w + 1) * 2 ^ mb w → K = 0) := by
  rcases h with h | h <;> subst h
  · exact bits10_32 hx hc hk
  · exact bits10_64 hx hc hk
theorem bias_inf {w : Nat} (h : W w) : (bias w + 1) * 2 ^ mb w < infMag w ∧ 0 < bias w := by rcases h with h | h <;> subst h <;> decide
theorem evLog_acc' {w : Nat} (h : W w) (fm : Bool) {x : BitVec w} (hx : x.toNat < infMag w) :
    isFinite (evLog fm x) = true ∧ |rv (evLog fm x) - Real.log (pvN w x.toNat)| ≤ 5 * ulpHalf w * (1 + |Real.log (pvN w x.toNat)|) := by
  rcases h with h | h <;> subst h
  · rw [evLog_32]; exact evLogS_acc fm hx
  · rw [evLog_64]; exact evLogD_acc fm hx
/-- the value of `log10`'s kernel, when `x` is taken for `ix 2^-c` -/
theorem ev10_acc {w : Nat} (h : W w) (fm odd : Bool) {x ix : BitVec w} {c : Nat} (hc : c ≤ 54) (hix : ix10 x = ix)
    (hk : k10 odd x = (0#w - BitVec.ofNat w c) + (ix >>> mantBits w - BitVec.ofNat w (expOff w))) (hx : ix.toNat < infMag w) (hn : 2 ^ mb w ≤ ix.toNat) (hs : ix.msb = false) :
    isFinite (ev10 fm odd x) = true ∧ |rv (ev10 fm odd x) - Real.logb 10 (rv ix / 2 ^ c)| ≤ 6 * ulpHalf w * (1 + |Real.logb 10 (rv ix / 2 ^ c)|) := by
  obtain ⟨K, hK, eK, n, en, e1, e2, e3, -⟩ := bits10 h hx hc hk
  unfold ev10 ks10 arg10
  rw [eK, hix]
  obtain ⟨bi, bp⟩ := bias_inf h
  have hnl := lt_trans e3 bi
  rw [← en] at hnl
  obtain ⟨a, b⟩ := evLog_acc' h fm hnl
  rw [en] at b
  have := log10_core h fm hK (pvN_unit e2 e3 bp) a b
  have el : Real.logb 10 (rv ix / 2 ^ c) = (K * Real.log 2 + Real.log (pvN w n)) / Real.log 10 := by
    have hp : 0 < rv ix := by rw [rv_pvN h hs hn]; exact pvN_pos _ _
    have l := log_pvN (w := w) e1
    rw [← rv_pvN h hs hn] at l
    rw [Real.logb, Real.log_div hp.ne' (by positivity), Real.log_pow, l]
    push_cast; ring
  rw [el]
  exact this
theorem evLog_near' {w : Nat} (h : W w) (fm : Bool) {x : BitVec w} (hs : x.msb = false) (hn : 2 ^ mb w ≤ x.toNat) (hx : x.toNat < infMag w) (hne : x ≠ oneBits w) (hd : |rv x - 1| ≤ 1 / 1024) :
    |rv (evLog fm x) - Real.log (rv x)| ≤ 4 * ulpHalf w * |Real.log (rv x)| := by
  rcases h with h | h <;> subst h
  · rw [evLog_32]; exact evLogS_near fm hs hx hn hne hd
  · rw [evLog_64]; exact evLogD_near fm hs hx hne hd
theorem log_ge_half {x : ℝ} (hd : |x - 1| ≤ 1 / 1024) : |x - 1| / 2 ≤ |Real.log x| := by
  obtain ⟨a, b⟩ := abs_le.1 hd
  have hx : 0 < x := by linarith
  rcases le_total 1 x with h | h
  · have h1 := Real.one_sub_inv_le_log_of_pos hx
    have h2 : (x - 1) / 2 ≤ 1 - x⁻¹ := by
      rw [← one_div, one_sub_div hx.ne', div_le_div_iff₀ (by norm_num) hx]
      exact mul_le_mul_of_nonneg_left (by linarith) (by linarith)
    rw [abs_of_nonneg (by linarith)]
    exact le_trans (le_trans h2 h1) (le_abs_self _)
  · have h1 := Real.log_le_sub_one_of_pos hx
    rw [abs_of_nonpos (by linarith)]
    have := neg_le_abs (Real.log x)
    linarith
theorem near_one_range {w : Nat} (h : W w) {x : BitVec w} (hs : x.msb = false) (hd : |rv x - 1| ≤ 1 / 1024) :
    (bias w - 1) * 2 ^ mb w ≤ x.toNat ∧ x.toNat < (bias w + 1) * 2 ^ mb w := by
  obtain ⟨a, b⟩ := abs_le.1 hd
  rcases h with h | h <;> subst h
  · refine ⟨?_, ?_⟩
    · by_contra hh
      have := rv_mono hs (by decide : (0x3f000000#32).msb = false) (by change ¬ (0x3f000000 ≤ x.toNat) at hh; change x.toNat ≤ 0x3f000000; omega)
      rw [rv_ratio (0x3f000000#32) 1 1 (by decide +kernel)] at this; norm_num at this; linarith
    · by_contra hh
      have := rv_mono (by decide : (0x40000000#32).msb = false) hs (by change ¬ (x.toNat < 0x40000000) at hh; change 0x40000000 ≤ x.toNat; omega)
      rw [rv_ratio (0x40000000#32) 2 0 (by decide +kernel)] at this; norm_num at this; linarith
  · refine ⟨?_, ?_⟩
    · by_contra hh
      have := rv_mono hs (by decide : (0x3fe0000000000000#64).msb = false) (by change ¬ (0x3fe0000000000000 ≤ x.toNat) at hh; change x.toNat ≤ 0x3fe0000000000000; omega)
      rw [rv_ratio (0x3fe0000000000000#64) 1 1 (by decide +kernel)] at this; norm_num at this; linarith
    · by_contra hh
      have := rv_mono (by decide : (0x4000000000000000#64).msb = false) hs (by change ¬ (x.toNat < 0x4000000000000000) at hh; change 0x4000000000000000 ≤ x.toNat; omega)
      rw [rv_ratio (0x4000000000000000#64) 2 0 (by decide +kernel)] at this; norm_num at this; linarith
/-- `log10`'s kernel near 1 -/
theorem ev10_near {w : Nat} (h : W w) (fm odd : Bool) {x ix : BitVec w} {c : Nat} (hc : c ≤ 54) (hix : ix10 x = ix)
    (hk : k10 odd x = (0#w - BitVec.ofNat w c) + (ix >>> mantBits w - BitVec.ofNat w (expOff w))) (hixf : ix.toNat < infMag w) (hsc : ix.toNat = x.toNat + c * 2 ^ mb w)
    (hs : x.msb = false) (hx : x.toNat < infMag w) (hn : 2 ^ mb w ≤ x.toNat) (hne : x ≠ oneBits w) (hd : |rv x - 1| ≤ 1 / 1024) :
    |rv (ev10 fm odd x) - Real.logb 10 (rv x)| ≤ 8 * ulpHalf w * |Real.logb 10 (rv x)| := by
  obtain ⟨K, hK, eK, n, en, e1, e2, e3, e0⟩ := bits10 h hixf hc hk
  obtain ⟨g1, g2⟩ := near_one_range h hs hd
  have hb0 := (bias_inf h).2
  have e0' : K = 0 := by
    apply e0
    · rw [hsc, show c + bias w - 1 = (bias w - 1) + c by omega, Nat.add_mul]; omega
    · rw [hsc, show c + bias w + 1 = (bias w + 1) + c by omega, Nat.add_mul]; omega
  subst e0'
  have hxn : n = x.toNat := by
    have : (x.toNat : ℤ) + c * 2 ^ mb w = n + (0 + c) * 2 ^ mb w := by rw [← e1, hsc]; push_cast; ring
    rw [zero_add] at this
    exact_mod_cast (add_right_cancel this).symm
  have harg : arg10 odd x = x := by
    apply BitVec.eq_of_toNat_eq
    unfold arg10
    rw [hix, en, hxn]
  have hks : ((ks10 odd x).setWidth 32).toInt = 0 := eK
  unfold ev10
  rw [hks, harg]
  have Le := evLog_near' h fm hs hn hx hne hd
  obtain ⟨Lf, -⟩ := evLog_acc' h fm hx
  dsimp only
  generalize evLog fm x = L at *
  obtain ⟨f1, f2, f3, b1, b2, b3, _, k2⟩ := log10_consts h
  have hu := ulp_pos w
  have hu1 := ulp_le h
  have hu2 : ulpHalf w ≤ 0.0000001 := le_trans hu1 (by norm_num)
  obtain ⟨t1, t2⟩ := log10_lo
  have hdu := u_le_d h hs hne
  have hl2 := log_ge_half hd
  have hl3 : |Real.log (rv x)| ≤ 0.01 := by
    have := log_lip (a := rv x) (b := 1) (m := 0.9) (by norm_num) (by linarith [(abs_le.1 hd).1]) (by norm_num)
    rw [Real.log_one, sub_zero] at this
    refine le_trans this ?_
    rw [div_le_iff₀ (by norm_num)]; linarith
  unfold Real.logb
  set l := Real.log (rv x) with hl
  set X := Real.log 10 with hX
  have hX0 : 0 < X := by linarith
  set A := |l / X| with hA
  have hlA : |l| = X * A := by rw [hA, abs_div, abs_of_pos hX0]; field_simp
  have hA0 : 0 ≤ A := abs_nonneg _
  have hA1 : A ≤ 0.005 := by
    have : X * A ≤ 0.01 := by rw [← hlA]; exact hl3
    nlinarith
  have htiny : tiny w ≤ ulpHalf w * A / 2 ^ 20 := by
    have h1 : ulpHalf w / 2 ≤ X * A := by rw [← hlA]; linarith
    have h2 : ulpHalf w / 8 ≤ A := by nlinarith
    have h3 : ulpHalf w * (ulpHalf w / 8) / 2 ^ 20 ≤ ulpHalf w * A / 2 ^ 20 := by gcongr
    refine le_trans ?_ h3
    unfold tiny ulpHalf
    rw [div_div, div_mul_div_comm, div_div, one_mul, ← mul_assoc, ← pow_add, show (8:ℝ) = 2 ^ 3 by norm_num, ← pow_add, ← pow_add]
    apply one_div_le_one_div_of_le (by positivity)
    exact pow_le_pow_right₀ (by norm_num) (by rcases h with h | h <;> subst h <;> decide)
  have ht0 := tiny_pos w
  have Lb : |rv L| ≤ 1.001 * (X * A) := by
    have := abs_le_of_sub Le (le_refl |l|)
    rw [hlA] at this
    have h4 : 4 * ulpHalf w * (X * A) ≤ 0.001 * (X * A) := mul_le_mul_of_nonneg_right (by linarith) (by positivity)
    linarith
  have hXA : X * A ≤ 2.3026 * A := mul_le_mul_of_nonneg_right t2 hA0
  have hb : (2:ℝ) ^ 20 ≤ 2 ^ bias w := pow_le_pow_right₀ (by norm_num) (by rcases h with h | h <;> subst h <;> decide)
  -- z0
  have p0 : |rv (ivln10 w) * rv L - l / X| ≤ ulpHalf w * (4.47 * A) := by
    have e : rv (ivln10 w) * rv L - l / X = (rv (ivln10 w) - 1 / X) * rv L + (rv L - l) * (1 / X) := by ring
    rw [e]
    have h1 := mul_bd k2 Lb
    have h2 : |(rv L - l) * (1 / X)| ≤ 4 * ulpHalf w * A := by
      rw [abs_mul, abs_of_pos (by positivity : 0 < 1 / X)]
      rw [hlA] at Le
      have := mul_le_mul_of_nonneg_right Le (by positivity : 0 ≤ 1 / X)
      rw [show 4 * ulpHalf w * (X * A) * (1 / X) = 4 * ulpHalf w * A by field_simp] at this
      exact this
    have h3 : ulpHalf w * 0.2 * (1.001 * (X * A)) ≤ ulpHalf w * (0.47 * A) := by
      rw [mul_assoc]
      refine mul_le_mul_of_nonneg_left ?_ hu.le
      linarith
    refine le_trans (abs_add_le _ _) ?_
    linarith
  have hm0 : |rv (ivln10 w) * rv L| ≤ 1.001 * A := by
    have := abs_le_of_sub p0 (le_refl A)
    have h4 : ulpHalf w * (4.47 * A) ≤ 0.001 * A := by
      have : ulpHalf w * (4.47 * A) = (4.47 * ulpHalf w) * A := by ring
      rw [this]; exact mul_le_mul_of_nonneg_right (by linarith) hA0
    linarith
  obtain ⟨zf, ze⟩ := fmul_e h f3 Lf (le_trans hm0 (le_trans (by linarith) hb))
  have ze1 : |rv (fmul (ivln10 w) L) - rv (ivln10 w) * rv L| ≤ ulpHalf w * (1.002 * A) := by
    refine le_trans ze ?_
    have := mul_le_mul_of_nonneg_left hm0 hu.le
    have h0 : 0 ≤ ulpHalf w * A := by positivity
    rw [show ulpHalf w * (1.001 * A) = 1.001 * (ulpHalf w * A) by ring] at this
    rw [show ulpHalf w * (1.002 * A) = 1.002 * (ulpHalf w * A) by ring]
    have h7 : ulpHalf w * A / 2 ^ 20 ≤ 0.001 * (ulpHalf w * A) := by linarith
    linarith
  have uA : ulpHalf w * A ≤ 0.0001 * A := mul_le_mul_of_nonneg_right (by linarith) hA0
  have zb : |rv (fmul (ivln10 w) L)| ≤ 1.002 * A := by
    have := abs_le_of_sub ze1 hm0
    have h4 : ulpHalf w * (1.002 * A) = 1.002 * (ulpHalf w * A) := by ring
    linarith
  generalize fmul (ivln10 w) L = z0 at *
  obtain ⟨of, ov⟩ := ofInt_rv h (k := 0) (by decide)
  have ov : rv (ofInt w 0) = 0 := by rw [ov]; simp
  have step : ∀ (cst z : BitVec w), isFinite cst = true → isFinite z = true → |rv z| ≤ 2 * A → isFinite (fmaL fm (ofInt w 0) cst z) = true ∧ |rv (fmaL fm (ofInt w 0) cst z) - rv z| ≤ ulpHalf w * |rv z| + 2 * tiny w := by
    intro cst z hcf hzf hz
    have := fmaL_e h fm of hcf hzf (M := 1) (by refine le_trans ?_ hb; norm_num) (le_refl 1) (by rw [ov]; simp) (le_trans hz (by linarith))
    rw [ov, zero_mul, abs_zero, mul_zero, zero_add, zero_add] at this
    exact this
  obtain ⟨z1f, z1e⟩ := step _ _ f2 zf (by linarith)
  have z1e1 : |rv (fmaL fm (ofInt w 0) (log10_2l w) z0) - rv z0| ≤ ulpHalf w * (1.01 * A) := by
    refine le_trans z1e ?_
    have := mul_le_mul_of_nonneg_left zb hu.le
    have h0 : 0 ≤ ulpHalf w * A := by positivity
    rw [show ulpHalf w * (1.002 * A) = 1.002 * (ulpHalf w * A) by ring] at this
    rw [show ulpHalf w * (1.01 * A) = 1.01 * (ulpHalf w * A) by ring]
    have h7 : ulpHalf w * A / 2 ^ 20 ≤ 0.001 * (ulpHalf w * A) := by linarith
    linarith
  have z1b : |rv (fmaL fm (ofInt w 0) (log10_2l w) z0)| ≤ 1.01 * A := by
    have := abs_le_of_sub z1e1 zb
    have h4 : ulpHalf w * (1.01 * A) = 1.01 * (ulpHalf w * A) := by ring
    linarith
  generalize fmaL fm (ofInt w 0) (log10_2l w) z0 = z1 at *
  obtain ⟨z2f, z2e⟩ := step _ _ f1 z1f (by linarith)
  have z2e1 : |rv (fmaL fm (ofInt w 0) (log10_2h w) z1) - rv z1| ≤ ulpHalf w * (1.02 * A) := by
    refine le_trans z2e ?_
    have := mul_le_mul_of_nonneg_left z1b hu.le
    have h0 : 0 ≤ ulpHalf w * A := by positivity
    rw [show ulpHalf w * (1.01 * A) = 1.01 * (ulpHalf w * A) by ring] at this
    rw [show ulpHalf w * (1.02 * A) = 1.02 * (ulpHalf w * A) by ring]
    have h7 : ulpHalf w * A / 2 ^ 20 ≤ 0.001 * (ulpHalf w * A) := by linarith
    linarith
  generalize fmaL fm (ofInt w 0) (log10_2h w) z1 = z2 at *
  have e : rv z2 - l / X = (rv z2 - rv z1) + (rv z1 - rv z0) + (rv z0 - rv (ivln10 w) * rv L) + (rv (ivln10 w) * rv L - l / X) := by ring
  rw [e]
  have q1 := abs_le.1 z2e1; have q2 := abs_le.1 z1e1; have q3 := abs_le.1 ze1; have q4 := abs_le.1 p0
  have h0 : 0 ≤ ulpHalf w * A := by positivity
  rw [abs_le]
  constructor <;> linarith [q1.1, q1.2, q2.1, q2.2, q3.1, q3.2, q4.1, q4.2]
end Dpm.X86
