import Verif.Proofs.Log10Scale
/-! C55: accuracy of `log10`. -/
namespace Dpm.X86
open Dpm.Reg Dpm.Fp

theorem log10F_pos {w : Nat} (h : W w) (o : MathOpt) (avx odd fm : Bool) {x : BitVec w} (hs : x.msb = false) (h0 : 0 < x.toNat) (hx : x.toNat < infMag w) :
    log10F o avx odd fm x = if x = oneBits w then 0#w else ev10 fm odd x := by
  have hf := fin_of_lt h hx
  unfold log10F
  rw [excL_pos h o hf (pos_val h hs h0)]
  unfold oneL
  obtain ⟨-, -, c3, -⟩ := cmp0 h x
  rw [c3, (finite_cls hf).1]
  by_cases e : x = oneBits w
  · rw [if_pos e, if_pos]
    rw [e, (log_consts h).2.2.2.1]; simp
  · rw [if_neg e, if_neg]
    intro hh
    simp only [Bool.not_false, Bool.true_and, decide_eq_true_eq] at hh
    exact e (Fp.val_inj h (pos_val h hs h0).ne' (hh.trans (log_consts h).2.2.2.1.symm))
theorem sub10_32 {x : BitVec 32} (hx : x.toNat < 2 ^ 31) : sub10 x = decide (x.toNat < 2 ^ 23) := by
  unfold sub10
  rw [if_neg (by decide), show (0x800000#32).toInt = 2 ^ 23 from by decide, BitVec.toInt_eq_toNat_of_lt (by omega)]
  exact decide_eq_decide.2 (by omega)
theorem sub10_64 (x : BitVec 64) : sub10 x = true := by
  unfold sub10
  rw [if_pos rfl, show (BitVec.ofNat 64 (0x10 * 2 ^ 48)).toInt = 0x10 * 2 ^ 48 from by decide]
  have e : (x >>> 48).toNat = x.toNat / 2 ^ 48 := by rw [BitVec.toNat_ushiftRight, Nat.shiftRight_eq_div_pow]
  have := x.isLt
  rw [BitVec.toInt_eq_toNat_of_lt (by rw [e]; omega), e]
  exact decide_eq_true (by omega)
/-- what `log10` takes for the argument, and what it subtracts from the exponent -/
theorem setup32 (odd : Bool) {x : BitVec 32} (hn : 2 ^ 23 ≤ x.toNat) (hx : x.toNat < 2 ^ 31) :
    ix10 x = x ∧ k10 odd x = (0#32 - BitVec.ofNat 32 0) + (x >>> mantBits 32 - BitVec.ofNat 32 (expOff 32)) := by
  have e : ix10 x = x := by unfold ix10; rw [sub10_32 hx, decide_eq_false (by omega)]; rfl
  refine ⟨e, ?_⟩
  unfold k10
  rw [e, sub10_32 hx, decide_eq_false (by omega)]; rfl
theorem setup32_sub (odd : Bool) {x : BitVec 32} (hn : x.toNat < 2 ^ 23) :
    ix10 x = fmul x (expMult 32) ∧ k10 odd x = (0#32 - BitVec.ofNat 32 (if odd then 0 else 25)) + (fmul x (expMult 32) >>> mantBits 32 - BitVec.ofNat 32 (expOff 32)) := by
  have e : ix10 x = fmul x (expMult 32) := by unfold ix10; rw [sub10_32 (by omega), decide_eq_true (by omega)]; rfl
  refine ⟨e, ?_⟩
  unfold k10
  rw [e, sub10_32 (by omega), decide_eq_true (by omega)]
  cases odd <;> rfl
theorem setup64 (odd : Bool) (x : BitVec 64) :
    ix10 x = fmul x (expMult 64) ∧ k10 odd x = (0#64 - BitVec.ofNat 64 54) + (fmul x (expMult 64) >>> mantBits 64 - BitVec.ofNat 64 (expOff 64)) := by
  have e : ix10 x = fmul x (expMult 64) := by unfold ix10; rw [sub10_64]; rfl
  refine ⟨e, ?_⟩
  unfold k10
  rw [e, sub10_64]; rfl
/-- accuracy of a `log10` kernel value -/
def Acc10 (w : Nat) (r : BitVec w) (y : ℝ) : Prop := isFinite r = true ∧ |rv r - y| ≤ 6 * ulpHalf w * (1 + |y|)
theorem ev10_norm32 {w : Nat} (h : w = 32) (fm odd : Bool) {x : BitVec w} (hs : x.msb = false) (hn : 2 ^ mb w ≤ x.toNat) (hx : x.toNat < infMag w) :
    Acc10 w (ev10 fm odd x) (Real.logb 10 (rv x)) ∧ (x ≠ oneBits w → |rv x - 1| ≤ 1 / 1024 → |rv (ev10 fm odd x) - Real.logb 10 (rv x)| ≤ 8 * ulpHalf w * |Real.logb 10 (rv x)|) := by
  subst h
  have hx' : x.toNat < 2 ^ 31 := by change x.toNat < 0x7f800000 at hx; omega
  obtain ⟨s1, s2⟩ := setup32 odd hn hx'
  constructor
  · have := ev10_acc W_32 fm odd (Nat.zero_le 54) s1 s2 hx hn hs
    rwa [pow_zero, div_one] at this
  · intro hne hd
    exact ev10_near W_32 fm odd (Nat.zero_le 54) s1 s2 hx (by rw [Nat.zero_mul]; rfl) hs hx hn hne hd
theorem ev10_sub32 {w : Nat} (h : w = 32) (fm odd : Bool) {x : BitVec w} (h0 : 0 < x.toNat) (hn : x.toNat < 2 ^ mb w) :
    Acc10 w (ev10 fm odd x) (Real.logb 10 (if odd then rv x * 2 ^ 25 else rv x)) := by
  subst h
  obtain ⟨s1, s2⟩ := setup32_sub odd hn
  obtain ⟨a1, a2, a3, a4⟩ := scale_sub W_32 h0 hn
  have := ev10_acc W_32 fm odd (by split <;> omega) s1 s2 a2 a1 a3
  rw [a4, if_neg (by decide : ¬ (32 = 64))] at this
  cases odd
  · rw [if_neg (by decide), mul_div_cancel_right₀ _ (by positivity)] at this
    rw [if_neg (by decide)]; exact this
  · rw [if_pos rfl, pow_zero, div_one] at this
    rw [if_pos rfl]; exact this
theorem ev10_dbl {w : Nat} (h : w = 64) (fm odd : Bool) {x : BitVec w} (hs : x.msb = false) (h0 : 0 < x.toNat) (hx : x.toNat < 1993 * 2 ^ 52) :
    Acc10 w (ev10 fm odd x) (Real.logb 10 (rv x)) ∧ (x ≠ oneBits w → |rv x - 1| ≤ 1 / 1024 → |rv (ev10 fm odd x) - Real.logb 10 (rv x)| ≤ 8 * ulpHalf w * |Real.logb 10 (rv x)|) := by
  subst h
  obtain ⟨s1, s2⟩ := setup64 odd x
  rcases Nat.lt_or_ge x.toNat (2 ^ 52) with hl | hl
  · obtain ⟨a1, a2, a3, a4⟩ := scale_sub W_64 h0 hl
    have := ev10_acc W_64 fm odd (le_refl 54) s1 s2 a2 a1 a3
    rw [a4, if_pos rfl, mul_div_cancel_right₀ _ (by positivity)] at this
    refine ⟨this, fun _ hd => ?_⟩
    have := (near_one_range W_64 hs hd).1
    change 1022 * 2 ^ 52 ≤ x.toNat at this
    omega
  · obtain ⟨a1, a2, a3⟩ := scale_norm64 hl hx
    have hlt : (fmul x (expMult 64)).toNat < infMag 64 := by rw [a1]; change _ < 0x7ff0000000000000; omega
    have := ev10_acc W_64 fm odd (le_refl 54) s1 s2 hlt (by rw [a1]; change 2 ^ 52 ≤ _; omega) a2
    rw [a3, mul_div_cancel_right₀ _ (by positivity)] at this
    refine ⟨this, fun hne hd => ?_⟩
    exact ev10_near W_64 fm odd (le_refl 54) s1 s2 hlt a1 hs (by change _ < 0x7ff0000000000000; omega) hl hne hd
theorem ev10_big {w : Nat} (h : w = 64) (fm odd : Bool) {x : BitVec w} (h1 : 1993 * 2 ^ 52 ≤ x.toNat) (h2 : x.toNat < 0x7ff0000000000000) :
    (ev10 fm odd x).toNat = 4643844518609621264 := by
  subst h
  obtain ⟨s1, s2⟩ := setup64 odd x
  have e := scale_big64 h1 h2
  rw [e] at s1 s2
  unfold ev10 ks10 arg10
  rw [s1, s2]
  cases fm <;> decide +kernel
theorem dbl_range {w : Nat} (h : w = 64) {x : BitVec w} (hp : 0 < rv x) (hl : rv x < 2 ^ 970) (hf : isFinite x = true) : x.msb = false ∧ 0 < x.toNat ∧ x.toNat < 1993 * 2 ^ 52 := by
  subst h
  have hs : x.msb = false := by
    by_contra hh
    have hv := rv_pos_iff.1 hp
    rw [show val x = -((val x).natAbs : Int) from by unfold val neg; simp at hh; rw [hh]; simp] at hv
    omega
  refine ⟨hs, ?_, ?_⟩
  · by_contra hh
    have e : x = 0#64 := BitVec.eq_of_toNat_eq (by simpa using hh)
    rw [e, rv_zero_of (by decide +kernel)] at hp
    exact lt_irrefl _ hp
  · by_contra hh
    have := rv_mono (by decide : (0x7c90000000000000#64).msb = false) hs (by change 0x7c90000000000000 ≤ x.toNat; omega)
    rw [rv_pow2 (j := 2044) (by decide +kernel), show ((2044:ℕ):ℤ) - ((unitExp 64 : ℕ) : ℤ) = ((970 : ℕ) : ℤ) from by decide, zpow_natCast] at this
    exact absurd (lt_of_le_of_lt this hl) (lt_irrefl _)
section
variable {c : Cfg} (hc : c.Ok) (hf : c.T.flt = true)
include hc hf
/-- C55: `float` `log10` of every positive normal argument is finite and within `6 u (1 + |log10 x|)` of the decimal logarithm, and within `8 u |log10 x|` when `|x - 1| ≤ 2^-10` -/
theorem C55_log10_float (h4 : c.T.bytes = 4) (o : MathOpt) (fm : Bool) (x : c.Data) :
    EachElt c (fun a r => isNormal a = true → a.msb = false →
      isFinite r = true ∧ |rv r - Real.logb 10 (rv a)| ≤ 6 * ulpHalf c.w * (1 + |Real.logb 10 (rv a)|) ∧
      (|rv a - 1| ≤ 1 / 1024 → |rv r - Real.logb 10 (rv a)| ≤ 8 * ulpHalf c.w * |Real.logb 10 (rv a)|)) x (vLog10 c o fm x) := by
  have hw := fltW hc.ety hf
  have h32 : c.T.w = 32 := by unfold Ety.w; rw [h4]
  obtain ⟨r, h1, h2⟩ := vLog10_elt hc hf o fm x
  refine ⟨r, h1, fun i hi hn hs => ?_⟩
  rw [h2 i hi]
  generalize elt c x i = a at *
  obtain ⟨n1, n2⟩ := normal_range hw hn hs
  rw [log10F_pos hw o _ _ fm hs (lt_of_lt_of_le (Nat.two_pow_pos _) n1) n2]
  have hu := ulp_pos c.w
  split
  · rename_i e
    rw [e, one_rv hw, Real.logb_one, rv_zero_of (log_consts hw).2.1]
    refine ⟨(zero_fin hw (x := 0#c.T.w) ((zero_iff _).2 (by simp [mag]))).1, ?_, fun _ => ?_⟩
    · simp; linarith
    · simp
  · rename_i e
    obtain ⟨⟨f, e1⟩, e2⟩ := ev10_norm32 h32 fm (decide (i % c.e % 2 = 1)) hs n1 n2
    exact ⟨f, e1, e2 e⟩
/-- C55 for positive subnormal `float`s: elements in even positions of their native vector get the logarithm to the same accuracy; for those in odd
positions the exponent is not corrected, and the result is the logarithm of `2^25 x`. -/
theorem C55_log10_subnormal_violated (h4 : c.T.bytes = 4) (o : MathOpt) (fm : Bool) (x : c.Data) :
    ∃ r, vLog10 c o fm x = .ok r ∧ ∀ p, p < c.N → 0 < (elt c x p).toNat → (elt c x p).toNat < 2 ^ 23 →
      (p % c.e % 2 = 0 → Acc10 c.w (elt c r p) (Real.logb 10 (rv (elt c x p)))) ∧
      (p % c.e % 2 = 1 → Acc10 c.w (elt c r p) (Real.logb 10 (rv (elt c x p) * 2 ^ 25))) := by
  have hw := fltW hc.ety hf
  have h32 : c.T.w = 32 := by unfold Ety.w; rw [h4]
  obtain ⟨r, h1, h2⟩ := vLog10_elt hc hf o fm x
  refine ⟨r, h1, fun p hp h0 hn => ?_⟩
  rw [h2 p hp]
  generalize elt c x p = a at *
  have hsm := sub_consts hw
  have em : mb c.T.w = 23 := by rw [h32]; rfl
  rw [← em] at hn
  have hs : a.msb = false := msb_of_small (lt_trans hn hsm.2.1)
  rw [log10F_pos hw o _ _ fm hs h0 (lt_trans hn hsm.1), if_neg (by intro e; rw [e] at hn; exact absurd (lt_of_lt_of_le hn hsm.2.2.1) (lt_irrefl _))]
  have := ev10_sub32 h32 fm (decide (p % c.e % 2 = 1)) h0 hn
  refine ⟨fun e => ?_, fun e => ?_⟩
  · rw [if_neg (by simp [e])] at this; exact this
  · rw [if_pos (by simp [e])] at this; exact this
/-- C55: `double` `log10` of every positive argument below `2^970`, subnormals included, is finite and within `6 u (1 + |log10 x|)` of the decimal logarithm, and within
`8 u |log10 x|` when `|x - 1| ≤ 2^-10` -/
theorem C55_log10_double_partial (h8 : c.T.bytes = 8) (o : MathOpt) (fm : Bool) (x : c.Data) :
    EachElt c (fun a r => 0 < rv a → rv a < 2 ^ 970 →
      isFinite a = true → isFinite r = true ∧ |rv r - Real.logb 10 (rv a)| ≤ 6 * ulpHalf c.w * (1 + |Real.logb 10 (rv a)|) ∧
      (|rv a - 1| ≤ 1 / 1024 → |rv r - Real.logb 10 (rv a)| ≤ 8 * ulpHalf c.w * |Real.logb 10 (rv a)|)) x (vLog10 c o fm x) := by
  have hw := fltW hc.ety hf
  have h64 : c.T.w = 64 := by unfold Ety.w; rw [h8]
  obtain ⟨r, h1, h2⟩ := vLog10_elt hc hf o fm x
  refine ⟨r, h1, fun i hi hp hlt hfa => ?_⟩
  rw [h2 i hi]
  generalize elt c x i = a at *
  obtain ⟨hs, h0, hl⟩ := dbl_range h64 hp hlt hfa
  rw [log10F_pos hw o _ _ fm hs h0 (by rw [(mb64 h64).2.1]; omega)]
  have hu := ulp_pos c.w
  split
  · rename_i e
    rw [e, one_rv hw, Real.logb_one, rv_zero_of (log_consts hw).2.1]
    refine ⟨(zero_fin hw (x := 0#c.T.w) ((zero_iff _).2 (by simp [mag]))).1, ?_, fun _ => ?_⟩
    · simp; linarith
    · simp
  · rename_i e
    obtain ⟨⟨f, e1⟩, e2⟩ := ev10_dbl h64 fm (decide (i % c.e % 2 = 1)) hs h0 hl
    exact ⟨f, e1, e2 e⟩
/-- C55 fails for `double` `log10` from `2^970` up: every such argument gives the same result (about 292.0, the logarithm of `2^970`; the largest
number has the logarithm 308.25). -/
theorem C55_log10_double_violated (h8 : c.T.bytes = 8) (o : MathOpt) (fm : Bool) (x : c.Data) :
    EachElt c (fun a r => 0x7c90000000000000 ≤ a.toNat → a.toNat < 0x7ff0000000000000 → r.toNat = 0x40723ffc4bdf1110) x (vLog10 c o fm x) := by
  have hw := fltW hc.ety hf
  have h64 : c.T.w = 64 := by unfold Ety.w; rw [h8]
  obtain ⟨r, h1, h2⟩ := vLog10_elt hc hf o fm x
  refine ⟨r, h1, fun i hi hp hlt => ?_⟩
  rw [h2 i hi]
  generalize elt c x i = a at *
  obtain ⟨c1, c2, c3, c4⟩ := mb64 h64
  have hs : a.msb = false := msb_of_small (by change _ < 2 ^ (c.T.w - 1); rw [c4]; omega)
  rw [log10F_pos hw o _ _ fm hs (by omega) (by rw [c2]; omega), if_neg (by intro e; rw [e] at hp; rw [c3] at hp; omega)]
  rw [ev10_big h64 fm _ (by omega) hlt]
end
/-! ### concrete cases -/
example : ∃ r, vLog10 exRA ⟨true, true⟩ true (vbroadcast exRA 0x42c80000 (zeroData exRA)) = .ok r ∧ ∀ i, i < 8 → |rv (elt exRA r i) - Real.logb 10 (rv (0x42c80000#32))| ≤ 6 * ulpHalf 32 * (1 + |Real.logb 10 (rv (0x42c80000#32))|) := by
  obtain ⟨r, hr, h⟩ := each_bcast exRA_ok _ (C55_log10_float exRA_ok rfl rfl ⟨true, true⟩ true (vbroadcast exRA 0x42c80000 (zeroData exRA)))
  exact ⟨r, hr, fun i hi => (h i hi (by decide) (by decide)).2.1⟩
example : ∃ r, vLog10 exR2 ⟨true, true⟩ false (vbroadcast exR2 0x7fe0000000000000 (zeroData exR2)) = .ok r ∧ ∀ i, i < 6 → (elt exR2 r i).toNat = 0x40723ffc4bdf1110 := by
  obtain ⟨r, hr, h⟩ := each_bcast exR2_ok _ (C55_log10_double_violated exR2_ok rfl rfl ⟨true, true⟩ false (vbroadcast exR2 0x7fe0000000000000 (zeroData exR2)))
  exact ⟨r, hr, fun i hi => h i hi (by decide) (by decide)⟩
example : ∃ r, vLog10 exR2 ⟨true, true⟩ false (vbroadcast exR2 0x4059000000000000 (zeroData exR2)) = .ok r ∧ ∀ i, i < 6 → |rv (elt exR2 r i) - Real.logb 10 100| ≤ 6 * ulpHalf 64 * (1 + |Real.logb 10 100|) := by
  obtain ⟨r, hr, h⟩ := each_bcast exR2_ok _ (C55_log10_double_partial exR2_ok rfl rfl ⟨true, true⟩ false (vbroadcast exR2 0x4059000000000000 (zeroData exR2)))
  have e : rv (0x4059000000000000#64) = 100 := by rw [rv_ratio (0x4059000000000000#64) 100 0 (by decide +kernel)]; norm_num
  refine ⟨r, hr, fun i hi => ?_⟩
  have := h i hi
  change 0 < rv (0x4059000000000000#64) → rv (0x4059000000000000#64) < _ → isFinite (0x4059000000000000#64) = true → _ ∧ |_ - Real.logb 10 (rv (0x4059000000000000#64))| ≤ 6 * ulpHalf 64 * (1 + |Real.logb 10 (rv (0x4059000000000000#64))|) ∧ _ at this
  rw [e] at this
  exact (this (by norm_num) (lt_of_lt_of_le (by norm_num : (100:ℝ) < 2 ^ 7) (pow_le_pow_right₀ (by norm_num) (by norm_num))) (by decide)).2.1
example : ∃ r, vLog10 exRA ⟨true, true⟩ true (vbroadcast exRA 1 (zeroData exRA)) = .ok r ∧ Acc10 32 (elt exRA r 3) (Real.logb 10 (rv (elt exRA (vbroadcast exRA 1 (zeroData exRA)) 3) * 2 ^ 25)) := by
  obtain ⟨r, hr, h⟩ := C55_log10_subnormal_violated exRA_ok rfl rfl ⟨true, true⟩ true (vbroadcast exRA 1 (zeroData exRA))
  have e : elt exRA (vbroadcast exRA 1 (zeroData exRA)) 3 = 1#32 := elt_vbroadcast exRA_ok _ _ (by decide)
  exact ⟨r, hr, (h 3 (by decide) (by rw [e]; decide) (by rw [e]; decide)).2 (by decide)⟩
end Dpm.X86
