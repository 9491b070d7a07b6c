import Verif.Props.X86Log
import Verif.Proofs.LogEval
import Verif.Proofs.Log2Eval
/-! C55: accuracy of the logarithms against the real logarithm. -/
namespace Dpm.X86
open Dpm.Reg Dpm.Fp

/-- the subnormal test of `impl_log`/`impl_log2` never fires on a non-negative argument -/
theorem normL_pos {w : Nat} (h : W w) (low : Bool) {x : BitVec w} (hx : x.toNat < infMag w) : normL low x = x := by
  rcases h with h | h <;> subst h
  · rw [normL_32]
    unfold normS
    have hx' : x.toNat < 0x7f800000 := hx
    rw [if_neg]
    rw [show (0x7f000000#32 - 1#32).toInt = 0x7effffff from by decide, BitVec.toInt_sub, show (0x800000#32).toInt = 0x800000 from by decide, BitVec.toInt_eq_toNat_of_lt (by omega), Int.bmod_eq_of_le (by omega) (by omega)]
    omega
  · rw [normL_64]
    unfold normD
    have hx' : x.toNat < 0x7ff0000000000000 := hx
    rw [if_neg]
    have e : (x >>> 48).toNat = x.toNat / 2 ^ 48 := by rw [BitVec.toNat_ushiftRight, Nat.shiftRight_eq_div_pow]
    have hq : x.toNat / 2 ^ 48 ≤ 0x7fef := by omega
    rw [← e] at hq
    generalize x >>> 48 = a at *
    have e1 : (a - 0x0000001000000010#64).toNat = (2 ^ 64 - 0x0000001000000010 + a.toNat) % 2 ^ 64 := by rw [BitVec.toNat_sub]; rfl
    unfold gtLow
    cases low
    · simp only [Bool.false_eq_true, if_false, decide_eq_true_eq]
      rw [show (0x00007fdf00007fdf#64).toInt = 0x00007fdf00007fdf from by decide, BitVec.toInt_eq_toNat_cond, e1]
      split <;> omega
    · simp only [if_true, decide_eq_true_eq]
      rw [show (BitVec.setWidth 32 (0x00007fdf00007fdf#64)).toInt = 0x7fdf from by decide, BitVec.toInt_eq_toNat_cond, BitVec.toNat_setWidth, e1]
      split <;> omega
theorem pos_val {w : Nat} (h : W w) {x : BitVec w} (hs : x.msb = false) (h0 : 0 < x.toNat) : 0 < val x := by
  have e : val x = magVal (mb w) x.toNat := by unfold val neg; rw [hs, mag_eq_toNat hs]; rfl
  rw [e]
  have : magVal (mb w) 0 < magVal (mb w) x.toNat := magVal_lt.2 h0
  omega
/-- `log` of a positive finite number is the kernel's value, or 0 at 1 -/
theorem logF_pos {w : Nat} (h : W w) (o : MathOpt) (avx low fm : Bool) {x : BitVec w} (hs : x.msb = false) (h0 : 0 < x.toNat) (hx : x.toNat < infMag w) :
    logF o avx low fm x = if x = oneBits w then 0#w else evLog fm x := by
  have hf := fin_of_lt h hx
  unfold logF
  rw [excL_pos h o hf (pos_val h hs h0), normL_pos h low hx]
  unfold oneL
  obtain ⟨-, -, c3, -⟩ := cmp0 h x
  rw [c3, (finite_cls hf).1]
  by_cases e : x = oneBits w
  · rw [if_pos e, if_pos]
    rw [e, (log_consts h).2.2.2.1]; simp
  · rw [if_neg e, if_neg]
    intro hh
    simp only [Bool.not_false, Bool.true_and, decide_eq_true_eq] at hh
    exact e (Fp.val_inj h (pos_val h hs h0).ne' (hh.trans (log_consts h).2.2.2.1.symm))
theorem evLog_acc {w : Nat} (h : W w) (fm : Bool) {x : BitVec w} (hx : x.toNat < infMag w) :
    isFinite (evLog fm x) = true ∧ |rv (evLog fm x) - Real.log (pvN w x.toNat)| ≤ 5 * ulpHalf w * (1 + |Real.log (pvN w x.toNat)|) := by
  rcases h with h | h <;> subst h
  · rw [evLog_32]; exact evLogS_acc fm hx
  · rw [evLog_64]; exact evLogD_acc fm hx
theorem evLog_near {w : Nat} (h : W w) (fm : Bool) {x : BitVec w} (hs : x.msb = false) (hn : 2 ^ mb w ≤ x.toNat) (hx : x.toNat < infMag w) (hne : x ≠ oneBits w) (hd : |rv x - 1| ≤ 1 / 1024) :
    |rv (evLog fm x) - Real.log (rv x)| ≤ 4 * ulpHalf w * |Real.log (rv x)| := by
  rcases h with h | h <;> subst h
  · rw [evLog_32]; exact evLogS_near fm hs hx hn hne hd
  · rw [evLog_64]; exact evLogD_near fm hs hx hne hd
theorem normal_range {w : Nat} (h : W w) {x : BitVec w} (hn : isNormal x = true) (hs : x.msb = false) : 2 ^ mb w ≤ x.toNat ∧ x.toNat < infMag w := by
  have hmg := mag_eq_toNat hs
  have hnf : isFinite x = true := by unfold isNormal at hn; unfold isFinite; simp at hn; simp [hn.1]
  have hlt := (finite_iff h x).1 hnf
  rw [hmg] at hlt
  refine ⟨?_, hlt⟩
  have : expF x ≠ 0 := by unfold isNormal at hn; simp at hn; exact hn.2
  unfold expF at this
  rw [hmg] at this
  by_contra hh
  exact this (Nat.div_eq_of_lt (by omega))
theorem one_rv {w : Nat} (h : W w) : rv (oneBits w) = 1 := by
  unfold rv; rw [(log_consts h).2.2.2.1]; push_cast; field_simp

section
variable {c : Cfg} (hc : c.Ok) (hf : c.T.flt = true)
include hc hf
/-- C55: for every positive normal argument `log` is finite and within `5 u (1 + |log x|)` of the natural logarithm, where `u` is half a unit
in the last place of 1; within `2^-10` of 1 the error is at most `4 u |log x|`. On every instruction set, with or without FMA. -/
theorem C55_log (o : MathOpt) (fm : Bool) (x : c.Data) :
    EachElt c (fun a r => isNormal a = true → a.msb = false →
      isFinite r = true ∧ |rv r - Real.log (rv a)| ≤ 5 * ulpHalf c.w * (1 + |Real.log (rv a)|) ∧
      (|rv a - 1| ≤ 1 / 1024 → |rv r - Real.log (rv a)| ≤ 4 * ulpHalf c.w * |Real.log (rv a)|)) x (vLog c o fm x) := by
  have hw := fltW hc.ety hf
  obtain ⟨r, h1, h2⟩ := vLog_elt hc hf o fm x
  refine ⟨r, h1, fun i hi hn hs => ?_⟩
  rw [h2 i hi]
  generalize elt c x i = a at *
  obtain ⟨n1, n2⟩ := normal_range hw hn hs
  rw [logF_pos hw o _ _ fm hs (lt_of_lt_of_le (Nat.two_pow_pos _) n1) n2]
  have hu := ulp_pos c.w
  split
  · rename_i e
    rw [e, one_rv hw, Real.log_one, rv_zero_of (log_consts hw).2.1]
    refine ⟨(zero_fin hw (x := 0#c.T.w) ((zero_iff _).2 (by simp [mag]))).1, ?_, fun _ => ?_⟩
    · simp; linarith
    · simp
  · rename_i e
    obtain ⟨f, e1⟩ := evLog_acc hw fm n2
    rw [← rv_pvN hw hs n1] at e1
    exact ⟨f, e1, fun hd => evLog_near hw fm hs n1 n2 e hd⟩
omit hc hf in
theorem sub_consts {w : Nat} (h : W w) : 2 ^ mb w < infMag w ∧ 2 ^ mb w < 2 ^ (w - 1) ∧ 2 ^ mb w ≤ (oneBits w).toNat ∧ unitExp w + 1 = bias w + mb w ∧ bias w ≤ 1023 := by
  rcases h with h | h <;> subst h <;> decide
omit hc hf in
theorem rv_sub {w : Nat} (h : W w) {a : BitVec w} (hn : a.toNat < 2 ^ mb w) : rv a = 2 ^ (-(bias w : ℤ)) * (2 * ((a.toNat : ℝ) / 2 ^ mb w)) := by
  obtain ⟨_, h2, _, h4, _⟩ := sub_consts h
  have hs : a.msb = false := msb_of_small (lt_trans hn h2)
  have e : val a = a.toNat := by
    unfold val neg; rw [hs, mag_eq_toNat hs]
    have : magVal (mb w) a.toNat = a.toNat := by
      have := magVal_kf (b := mb w) (k := 0) (f := a.toNat) (Or.inl rfl) (le_trans hn.le (Nat.pow_le_pow_right (by norm_num) (by omega)))
      rw [Nat.zero_mul, Nat.zero_add, pow_zero, Nat.mul_one] at this
      exact this
    rw [this]; rfl
  unfold rv
  rw [e, Int.cast_natCast, zpow_neg, zpow_natCast]
  have e2 : (2:ℝ) ^ unitExp w * 2 = 2 ^ bias w * 2 ^ mb w := by rw [← pow_succ, h4, pow_add]
  have e3 : (2:ℝ) ^ unitExp w = 2 ^ bias w * 2 ^ mb w / 2 := by linarith
  rw [e3]; field_simp
/-- C55 fails for subnormals: the scaling of subnormal arguments never takes place, so that `log` of the positive subnormal with mantissa
bits `n` is the logarithm of `2^-127 (1 + n / 2^23)` (resp. `2^-1023 (1 + n / 2^52)`), a number at least as large as `2^-127` (`2^-1023`). -/
theorem C55_log_subnormal_violated (o : MathOpt) (fm : Bool) (x : c.Data) :
    EachElt c (fun a r => 0 < a.toNat → a.toNat < 2 ^ mb c.w →
      isFinite r = true ∧ |rv r - Real.log (2 ^ (-(bias c.w : ℤ)) * (1 + (a.toNat : ℝ) / 2 ^ mb c.w))| ≤ 5 * ulpHalf c.w * (1 + |Real.log (2 ^ (-(bias c.w : ℤ)) * (1 + (a.toNat : ℝ) / 2 ^ mb c.w))|)) x (vLog c o fm x) := by
  have hw := fltW hc.ety hf
  obtain ⟨r, h1, h2⟩ := vLog_elt hc hf o fm x
  refine ⟨r, h1, fun i hi h0 hn => ?_⟩
  rw [h2 i hi]
  generalize elt c x i = a at *
  have hsm := sub_consts hw
  change 2 ^ mb c.w < infMag c.w ∧ 2 ^ mb c.w < 2 ^ (c.w - 1) ∧ 2 ^ mb c.w ≤ (oneBits c.w).toNat ∧ _ at hsm
  have hs : a.msb = false := msb_of_small (lt_trans hn hsm.2.1)
  rw [logF_pos hw o _ _ fm hs h0 (lt_trans hn hsm.1), if_neg (by intro e; rw [e] at hn; exact absurd (lt_of_lt_of_le hn hsm.2.2.1) (lt_irrefl _))]
  have := evLog_acc hw fm (lt_trans hn hsm.1)
  have e : pvN c.w a.toNat = 2 ^ (-(bias c.w : ℤ)) * (1 + (a.toNat : ℝ) / 2 ^ mb c.w) := by
    unfold pvN
    rw [Nat.div_eq_of_lt hn, Nat.mod_eq_of_lt hn]; simp
  rw [e] at this
  exact this
/-- ... so that for the smaller half of the subnormals the result exceeds the true logarithm by more than 0.3 (by 15 at the smallest float). -/
theorem C55_log_subnormal_off_violated (o : MathOpt) (fm : Bool) (x : c.Data) :
    EachElt c (fun a r => 0 < a.toNat → 2 * a.toNat ≤ 2 ^ mb c.w → Real.log (rv a) + 0.3 < rv r) x (vLog c o fm x) := by
  have hw := fltW hc.ety hf
  obtain ⟨r, h1, h2⟩ := C55_log_subnormal_violated hc hf o fm x
  refine ⟨r, h1, fun i hi h0 hn => ?_⟩
  have hlt : (elt c x i).toNat < 2 ^ mb c.w := by omega
  obtain ⟨f, e⟩ := h2 i hi h0 hlt
  generalize elt c x i = a at *
  generalize elt c r i = y at *
  obtain ⟨_, _, _, _, hb⟩ := sub_consts hw
  change bias c.w ≤ 1023 at hb
  have hM : (0:ℝ) < 2 ^ mb c.w := by positivity
  have m0 : 0 < (a.toNat : ℝ) / 2 ^ mb c.w := div_pos (by exact_mod_cast h0) hM
  have m1 : (a.toNat : ℝ) / 2 ^ mb c.w ≤ 1 / 2 := by
    rw [div_le_div_iff₀ hM (by norm_num)]
    have : ((2 * a.toNat : Nat) : ℝ) ≤ ((2 ^ mb c.w : Nat) : ℝ) := by exact_mod_cast hn
    push_cast at this; linarith
  have er : rv a = 2 ^ (-(bias c.w : ℤ)) * (2 * ((a.toNat : ℝ) / 2 ^ mb c.w)) := rv_sub hw hlt
  rw [er]
  generalize (a.toNat : ℝ) / 2 ^ mb c.w = m at *
  have hB : (0:ℝ) < 2 ^ (-(bias c.w : ℤ)) := zpow_pos (by norm_num) _
  rw [Real.log_mul hB.ne' (by linarith)] at e ⊢
  rw [Real.log_zpow]
  rw [Real.log_zpow] at e
  have l1 := Real.log_two_lt_d9
  have l2 := Real.log_two_gt_d9
  have hlm : 0 ≤ Real.log (1 + m) := Real.log_nonneg (by linarith)
  have hlm2 : Real.log (1 + m) ≤ m := by have := Real.log_le_sub_one_of_pos (by linarith : 0 < 1 + m); linarith
  have hq : Real.log (2 * m) + 1 / 3 ≤ Real.log (1 + m) := by
    have h1 := Real.one_sub_inv_le_log_of_pos (by norm_num : (0:ℝ) < 3 / 2)
    have h2 : Real.log (3 / 2 * (2 * m)) ≤ Real.log (1 + m) := Real.log_le_log (by linarith) (by linarith)
    rw [Real.log_mul (by norm_num) (by linarith)] at h2
    norm_num at h1; linarith
  push_cast at e ⊢
  have hbR : (bias c.w : ℝ) ≤ 1023 := by exact_mod_cast hb
  have hb0 : (0:ℝ) ≤ bias c.w := Nat.cast_nonneg _
  have hbl : (bias c.w : ℝ) * Real.log 2 ≤ 1023 := by nlinarith
  have hbl0 : 0 ≤ (bias c.w : ℝ) * Real.log 2 := by positivity
  rw [neg_mul] at e ⊢
  have ha : |-((bias c.w : ℝ) * Real.log 2) + Real.log (1 + m)| ≤ 1024 := by rw [abs_le]; constructor <;> linarith
  have hu := ulp_le hw
  have h5 : 5 * ulpHalf c.w * (1 + |-((bias c.w : ℝ) * Real.log 2) + Real.log (1 + m)|) ≤ 5 * (1 / 2 ^ 24) * (1 + 1024) := by gcongr
  norm_num at h5
  have := (abs_le.1 (le_trans e h5)).1
  norm_num at this ⊢
  linarith
end

/-- `log2` of a positive finite number is the kernel's value, or 0 at 1 -/
theorem log2F_pos {w : Nat} (h : W w) (o : MathOpt) (avx low fm : Bool) {x : BitVec w} (hs : x.msb = false) (h0 : 0 < x.toNat) (hx : x.toNat < infMag w) :
    log2F o avx low fm x = if x = oneBits w then 0#w else evLog2 fm x := by
  have hf := fin_of_lt h hx
  unfold log2F
  rw [excL_pos h o hf (pos_val h hs h0), normL_pos h low hx]
  unfold oneL
  obtain ⟨-, -, c3, -⟩ := cmp0 h x
  rw [c3, (finite_cls hf).1]
  by_cases e : x = oneBits w
  · rw [if_pos e, if_pos]
    rw [e, (log_consts h).2.2.2.1]; simp
  · rw [if_neg e, if_neg]
    intro hh
    simp only [Bool.not_false, Bool.true_and, decide_eq_true_eq] at hh
    exact e (Fp.val_inj h (pos_val h hs h0).ne' (hh.trans (log_consts h).2.2.2.1.symm))
theorem evLog2_acc32 {w : Nat} (h : w = 32) (fm : Bool) {x : BitVec w} (hx : x.toNat < infMag w) :
    isFinite (evLog2 fm x) = true ∧ |rv (evLog2 fm x) - Real.logb 2 (pvN w x.toNat)| ≤ 5 * ulpHalf w * (1 + |Real.logb 2 (pvN w x.toNat)|) := by
  subst h; rw [evLog2_32]; exact evLog2S_acc fm hx
theorem evLog2_near32 {w : Nat} (h : w = 32) (fm : Bool) {x : BitVec w} (hs : x.msb = false) (hx : x.toNat < infMag w) (hne : x ≠ oneBits w) (hd : |rv x - 1| ≤ 1 / 1024) :
    |rv (evLog2 fm x) - Real.logb 2 (rv x)| ≤ 5 * ulpHalf w * |Real.logb 2 (rv x)| := by
  subst h; rw [evLog2_32]; exact evLog2S_near fm hs hx hne hd
theorem evLog2_acc64 {w : Nat} (h : w = 64) (fm : Bool) {x : BitVec w} (hx : x.toNat < infMag w) :
    isFinite (evLog2 fm x) = true ∧ |rv (evLog2 fm x) - Real.logb 2 (pvN w x.toNat)| ≤ 0.0000000000036 + 5 * ulpHalf w * (1 + |Real.logb 2 (pvN w x.toNat)|) := by
  subst h; rw [evLog2_64]; exact evLog2D_acc fm hx
/-- what `log2` returns at 2, at 8 and at the largest `double` below 1 -/
theorem evLog2_bad {w : Nat} (h : w = 64) (fm : Bool) {x : BitVec w} :
    (x.toNat = 0x4000000000000000 → (evLog2 fm x).toNat = 0x3ff000000000000f) ∧
    (x.toNat = 0x4020000000000000 → (evLog2 fm x).toNat = 0x4008000000000007) ∧
    (x.toNat = 0x3fefffffffffffff → 0 < val (evLog2 fm x)) := by
  subst h; rw [evLog2_64]
  refine ⟨fun e => ?_, fun e => ?_, fun e => ?_⟩
  · obtain rfl : x = 0x4000000000000000#64 := BitVec.eq_of_toNat_eq e
    cases fm <;> decide +kernel
  · obtain rfl : x = 0x4020000000000000#64 := BitVec.eq_of_toNat_eq e
    cases fm <;> decide +kernel
  · obtain rfl : x = 0x3fefffffffffffff#64 := BitVec.eq_of_toNat_eq e
    cases fm <;> decide +kernel
theorem mb64 {w : Nat} (h : w = 64) : (2 : Nat) ^ mb w = 2 ^ 52 ∧ infMag w = 0x7ff0000000000000 ∧ (oneBits w).toNat = 0x3ff0000000000000 ∧ (w - 1 = 63) := by
  subst h; decide
section
variable {c : Cfg} (hc : c.Ok) (hf : c.T.flt = true)
include hc hf
/-- C55: for `float`, `log2` of every positive normal argument is finite and within `5 u (1 + |log2 x|)` of the base-2 logarithm, and within
`5 u |log2 x|` when `|x - 1| ≤ 2^-10`. -/
theorem C55_log2_float (h4 : c.T.bytes = 4) (o : MathOpt) (fm : Bool) (x : c.Data) :
    EachElt c (fun a r => isNormal a = true → a.msb = false →
      isFinite r = true ∧ |rv r - Real.logb 2 (rv a)| ≤ 5 * ulpHalf c.w * (1 + |Real.logb 2 (rv a)|) ∧
      (|rv a - 1| ≤ 1 / 1024 → |rv r - Real.logb 2 (rv a)| ≤ 5 * ulpHalf c.w * |Real.logb 2 (rv a)|)) x (vLog2 c o fm x) := by
  have hw := fltW hc.ety hf
  have h32 : c.T.w = 32 := by unfold Ety.w; rw [h4]
  obtain ⟨r, h1, h2⟩ := vLog2_elt hc hf o fm x
  refine ⟨r, h1, fun i hi hn hs => ?_⟩
  rw [h2 i hi]
  generalize elt c x i = a at *
  obtain ⟨n1, n2⟩ := normal_range hw hn hs
  rw [log2F_pos hw o _ _ fm hs (lt_of_lt_of_le (Nat.two_pow_pos _) n1) n2]
  have hu := ulp_pos c.w
  split
  · rename_i e
    rw [e, one_rv hw, Real.logb_one, rv_zero_of (log_consts hw).2.1]
    refine ⟨(zero_fin hw (x := 0#c.T.w) ((zero_iff _).2 (by simp [mag]))).1, ?_, fun _ => ?_⟩
    · simp; linarith
    · simp
  · rename_i e
    obtain ⟨f, e1⟩ := evLog2_acc32 h32 fm n2
    rw [← rv_pvN hw hs n1] at e1
    exact ⟨f, e1, fun hd => evLog2_near32 h32 fm hs n2 e hd⟩
/-- C55 for `double`: `log2` of every positive normal argument is finite and within `3.6e-12 + 5 u (1 + |log2 x|)` of the base-2 logarithm. The
`5 u (1 + |log2 x|)` of `float` does not hold (`C55_log2_double_violated`): the table and the polynomial are used outside the interval
they were made for. -/
theorem C55_log2_double_partial (h8 : c.T.bytes = 8) (o : MathOpt) (fm : Bool) (x : c.Data) :
    EachElt c (fun a r => isNormal a = true → a.msb = false →
      isFinite r = true ∧ |rv r - Real.logb 2 (rv a)| ≤ 0.0000000000036 + 5 * ulpHalf c.w * (1 + |Real.logb 2 (rv a)|)) x (vLog2 c o fm x) := by
  have hw := fltW hc.ety hf
  have h64 : c.T.w = 64 := by unfold Ety.w; rw [h8]
  obtain ⟨r, h1, h2⟩ := vLog2_elt hc hf o fm x
  refine ⟨r, h1, fun i hi hn hs => ?_⟩
  rw [h2 i hi]
  generalize elt c x i = a at *
  obtain ⟨n1, n2⟩ := normal_range hw hn hs
  rw [log2F_pos hw o _ _ fm hs (lt_of_lt_of_le (Nat.two_pow_pos _) n1) n2]
  have hu := ulp_pos c.w
  split
  · rename_i e
    rw [e, one_rv hw, Real.logb_one, rv_zero_of (log_consts hw).2.1]
    refine ⟨(zero_fin hw (x := 0#c.T.w) ((zero_iff _).2 (by simp [mag]))).1, ?_⟩
    simp; linarith
  · rename_i e
    obtain ⟨f, e1⟩ := evLog2_acc64 h64 fm n2
    rw [← rv_pvN hw hs n1] at e1
    exact ⟨f, e1⟩
/-- C55 fails for `log2` of `double` arguments, on every instruction set: `log2(2)` is 1 + 15 ulp and `log2(8)` is 3 + 7 ulp, neither of
them 1 or 3, and `log2` of the largest number below 1 is positive. -/
theorem C55_log2_double_violated (h8 : c.T.bytes = 8) (o : MathOpt) (fm : Bool) (x : c.Data) :
    EachElt c (fun a r =>
      (a.toNat = 0x4000000000000000 → r.toNat = 0x3ff000000000000f) ∧
      (a.toNat = 0x4020000000000000 → r.toNat = 0x4008000000000007) ∧
      (a.toNat = 0x3fefffffffffffff → 0 < rv r)) x (vLog2 c o fm x) := by
  have hw := fltW hc.ety hf
  have h64 : c.T.w = 64 := by unfold Ety.w; rw [h8]
  obtain ⟨r, h1, h2⟩ := vLog2_elt hc hf o fm x
  refine ⟨r, h1, fun i hi => ?_⟩
  rw [h2 i hi]
  generalize elt c x i = a at *
  obtain ⟨c1, c2, c3, c4⟩ := mb64 h64
  obtain ⟨b1, b2, b3⟩ := evLog2_bad (x := a) h64 fm
  have key : ∀ n : Nat, 0 < n → n < 0x7ff0000000000000 → n ≠ 0x3ff0000000000000 → a.toNat = n → log2F o c.s.avx (lowCmp c.s c.T c.v) fm a = evLog2 fm a := by
    intro n n0 n1 n2 e
    have hs : a.msb = false := msb_of_small (by rw [e]; change n < 2 ^ (c.T.w - 1); rw [c4]; omega)
    rw [log2F_pos hw o _ _ fm hs (by omega) (by rw [c2]; omega), if_neg]
    intro ea
    rw [ea] at e
    exact n2 (e.symm.trans c3)
  refine ⟨fun e => ?_, fun e => ?_, fun e => ?_⟩
  · rw [key _ (by norm_num) (by norm_num) (by norm_num) e]; exact b1 e
  · rw [key _ (by norm_num) (by norm_num) (by norm_num) e]; exact b2 e
  · rw [key _ (by norm_num) (by norm_num) (by norm_num) e]
    have := b3 e
    unfold rv
    exact div_pos (by exact_mod_cast this) (by positivity)
/-- C55 fails for `log2` of subnormals in the same way as for `log`: stated for `float`, the result is the base-2 logarithm of `2^-127 (1 + n / 2^23)`. -/
theorem C55_log2_subnormal_violated (h4 : c.T.bytes = 4) (o : MathOpt) (fm : Bool) (x : c.Data) :
    EachElt c (fun a r => 0 < a.toNat → a.toNat < 2 ^ 23 →
      isFinite r = true ∧ |rv r - (-127 + Real.logb 2 (1 + (a.toNat : ℝ) / 2 ^ 23))| ≤ 5 * ulpHalf 32 * (1 + |-127 + Real.logb 2 (1 + (a.toNat : ℝ) / 2 ^ 23)|)) x (vLog2 c o fm x) := by
  have hw := fltW hc.ety hf
  have h32 : c.T.w = 32 := by unfold Ety.w; rw [h4]
  obtain ⟨r, h1, h2⟩ := vLog2_elt hc hf o fm x
  refine ⟨r, h1, fun i hi h0 hn => ?_⟩
  rw [h2 i hi]
  generalize elt c x i = a at *
  have hsm := sub_consts hw
  have em : mb c.T.w = 23 := by rw [h32]; rfl
  have eb : bias c.T.w = 127 := by rw [h32]; rfl
  rw [← em] at hn
  have hs : a.msb = false := msb_of_small (lt_trans hn hsm.2.1)
  rw [log2F_pos hw o _ _ fm hs h0 (lt_trans hn hsm.1), if_neg (by intro e; rw [e] at hn; exact absurd (lt_of_lt_of_le hn hsm.2.2.1) (lt_irrefl _))]
  have := evLog2_acc32 h32 fm (lt_trans hn hsm.1)
  have e : Real.logb 2 (pvN c.T.w a.toNat) = -127 + Real.logb 2 (1 + (a.toNat : ℝ) / 2 ^ 23) := by
    unfold pvN
    rw [Nat.div_eq_of_lt hn, Nat.mod_eq_of_lt hn, em, eb]
    have hp : (0:ℝ) ≤ (a.toNat : ℝ) / 2 ^ 23 := by positivity
    rw [Real.logb_mul (zpow_ne_zero _ (by norm_num)) (by positivity)]
    congr 1
    rw [show (((0:ℕ) : ℤ) - ((127 : ℕ) : ℤ)) = -127 by norm_num, Real.logb, Real.log_zpow, mul_div_assoc, div_self (by have := Real.log_two_gt_d9; linarith)]; norm_num
  rw [e, show ulpHalf c.T.w = ulpHalf 32 by rw [h32]] at this
  exact this
end
/-! ### concrete cases -/
example : ∃ r, vLog exRA ⟨true, true⟩ true (vbroadcast exRA 0x42c80000 (zeroData exRA)) = .ok r ∧ ∀ i, i < 8 → |rv (elt exRA r i) - Real.log (rv (0x42c80000#32))| ≤ 5 * ulpHalf 32 * (1 + |Real.log (rv (0x42c80000#32))|) := by
  obtain ⟨r, hr, h⟩ := each_bcast exRA_ok _ (C55_log exRA_ok rfl ⟨true, true⟩ true (vbroadcast exRA 0x42c80000 (zeroData exRA)))
  exact ⟨r, hr, fun i hi => (h i hi (by decide) (by decide)).2.1⟩
example : ∃ r, vLog exR2 ⟨true, true⟩ false (vbroadcast exR2 3 (zeroData exR2)) = .ok r ∧ ∀ i, i < 6 → Real.log (rv (3#64)) + 0.3 < rv (elt exR2 r i) := by
  obtain ⟨r, hr, h⟩ := each_bcast exR2_ok _ (C55_log_subnormal_off_violated exR2_ok rfl ⟨true, true⟩ false (vbroadcast exR2 3 (zeroData exR2)))
  exact ⟨r, hr, fun i hi => h i hi (by decide) (by decide)⟩
example : ∃ r, vLog2 exRA ⟨true, true⟩ true (vbroadcast exRA 0x42c80000 (zeroData exRA)) = .ok r ∧ ∀ i, i < 8 → |rv (elt exRA r i) - Real.logb 2 (rv (0x42c80000#32))| ≤ 5 * ulpHalf 32 * (1 + |Real.logb 2 (rv (0x42c80000#32))|) := by
  obtain ⟨r, hr, h⟩ := each_bcast exRA_ok _ (C55_log2_float exRA_ok rfl rfl ⟨true, true⟩ true (vbroadcast exRA 0x42c80000 (zeroData exRA)))
  exact ⟨r, hr, fun i hi => (h i hi (by decide) (by decide)).2.1⟩
example : ∃ r, vLog2 exR2 ⟨true, true⟩ false (vbroadcast exR2 0x4000000000000000 (zeroData exR2)) = .ok r ∧ ∀ i, i < 6 → (elt exR2 r i).toNat = 0x3ff000000000000f := by
  obtain ⟨r, hr, h⟩ := each_bcast exR2_ok _ (C55_log2_double_violated exR2_ok rfl rfl ⟨true, true⟩ false (vbroadcast exR2 0x4000000000000000 (zeroData exR2)))
  exact ⟨r, hr, fun i hi => (h i hi).1 (by decide)⟩
example : ∃ r, vLog2 exR2 ⟨true, true⟩ false (vbroadcast exR2 0x4059000000000000 (zeroData exR2)) = .ok r ∧ ∀ i, i < 6 → |rv (elt exR2 r i) - Real.logb 2 (rv (0x4059000000000000#64))| ≤ 0.0000000000036 + 5 * ulpHalf 64 * (1 + |Real.logb 2 (rv (0x4059000000000000#64))|) := by
  obtain ⟨r, hr, h⟩ := each_bcast exR2_ok _ (C55_log2_double_partial exR2_ok rfl rfl ⟨true, true⟩ false (vbroadcast exR2 0x4059000000000000 (zeroData exR2)))
  exact ⟨r, hr, fun i hi => (h i hi (by decide) (by decide)).2⟩
example : ∃ r, vLog2 exRA ⟨true, true⟩ true (vbroadcast exRA 1 (zeroData exRA)) = .ok r ∧ ∀ i, i < 8 → isFinite (elt exRA r i) = true := by
  obtain ⟨r, hr, h⟩ := each_bcast exRA_ok _ (C55_log2_subnormal_violated exRA_ok rfl rfl ⟨true, true⟩ true (vbroadcast exRA 1 (zeroData exRA)))
  exact ⟨r, hr, fun i hi => (h i hi (by decide) (by decide)).1⟩
end Dpm.X86
