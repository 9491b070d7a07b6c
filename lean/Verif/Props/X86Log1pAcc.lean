import Verif.Proofs.Log1pAcc
/-! C55: accuracy of `log1p`. -/
namespace Dpm.X86
open Dpm.Reg Dpm.Fp

/-- a sum is at least as near to the exact one as any finite pattern -/
theorem round_near {w : Nat} (h : W w) {y : BitVec w} (hy : isFinite y = true) (hys : y.msb = false) {n : Int} (hn : 0 < n)
    (hF : isFinite (Fp.round w (decide (n < 0)) n.natAbs 1) = true) :
    |rv (Fp.round w (decide (n < 0)) n.natAbs 1) - (n : ℝ) / 2 ^ unitExp w| ≤ |rv y - (n : ℝ) / 2 ^ unitExp w| ∧ (Fp.round w (decide (n < 0)) n.natAbs 1).msb = false := by
  obtain ⟨m1, m, m2, m3⟩ := round_isRounded h (decide (n < 0)) (n := n.natAbs) (d := 1) Nat.one_pos
  rw [decide_eq_false (by omega)] at *
  have hm := (finite_iff h _).1 hF
  refine ⟨?_, m1⟩
  generalize Fp.round w false n.natAbs 1 = r at *
  have hr : mag r = m := by rcases m3 with m3 | m3 <;> omega
  have hd := (m2 (mag y)).1
  rw [Nat.mul_one, Nat.mul_one, ← hr] at hd
  have er : (val r : ℝ) = (magVal (mb w) (mag r) : ℝ) := by
    unfold val neg; rw [m1]; simp
  have ey : (val y : ℝ) = (magVal (mb w) (mag y) : ℝ) := by
    unfold val neg; rw [hys]; simp
  have en : (n : ℝ) = (n.natAbs : ℝ) := by
    have : n = (n.natAbs : Int) := by omega
    rw [this]; simp
  have hU : (0:ℝ) < 2 ^ unitExp w := by positivity
  unfold rv
  rw [← sub_div, ← sub_div, abs_div, abs_div]
  refine div_le_div_of_nonneg_right ?_ (abs_nonneg _)
  rw [er, ey, en]
  have key : ∀ a b : Nat, |(a : ℝ) - b| = ((Fp.dist a b : Nat) : ℝ) := by
    intro a b
    unfold Fp.dist
    rcases le_total a b with hh | hh
    · rw [Nat.sub_eq_zero_of_le hh, abs_of_nonpos (by have : (a:ℝ) ≤ b := by exact_mod_cast hh
                                                      linarith)]; push_cast [hh]; ring
    · rw [Nat.sub_eq_zero_of_le hh, abs_of_nonneg (by have : (b:ℝ) ≤ a := by exact_mod_cast hh
                                                      linarith)]; push_cast [hh]; ring
  rw [key, key]
  exact_mod_cast hd
theorem one_of_near {w : Nat} (h : W w) {n : Int} (hd : |(n : ℝ) / 2 ^ unitExp w - 1| < ulpHalf w / 2)
    (hF : isFinite (Fp.round w (decide (n < 0)) n.natAbs 1) = true) : Fp.round w (decide (n < 0)) n.natAbs 1 = oneBits w := by
  have hup := ulp_le h
  norm_num at hup
  have hU : (0:ℝ) < 2 ^ unitExp w := by positivity
  obtain ⟨a, b⟩ := abs_lt.1 hd
  have hn : 0 < n := by
    have : (0:ℝ) < (n : ℝ) / 2 ^ unitExp w := by linarith
    rw [div_pos_iff_of_pos_right hU] at this
    exact_mod_cast this
  have hom : (oneBits w).msb = false := by rcases h with h | h <;> subst h <;> decide
  obtain ⟨k1, k2⟩ := round_near h (one_fin h) hom hn hF
  rw [one_rv h] at k1
  by_contra hne
  have := u_le_d h k2 hne
  have t : |rv (Fp.round w (decide (n < 0)) n.natAbs 1) - 1| ≤ |rv (Fp.round w (decide (n < 0)) n.natAbs 1) - (n : ℝ) / 2 ^ unitExp w| + |(n : ℝ) / 2 ^ unitExp w - 1| := abs_sub_le _ _ _
  rw [abs_sub_comm 1] at k1
  linarith
/-- `1 + x` and `1 - x` round to 1 for small `x` -/
theorem one_absorbs {w : Nat} (h : W w) {x : BitVec w} (hx : isFinite x = true) (hd : |rv x| < ulpHalf w / 2) :
    fadd x (oneBits w) = oneBits w ∧ fsub (oneBits w) x = oneBits w := by
  have hu := ulp_le h
  norm_num at hu
  have hU : (0:ℝ) < 2 ^ unitExp w := by positivity
  have ho := one_fin h
  have h1v : val (oneBits w) = (2 ^ unitExp w : Nat) := (log_consts h).2.2.2.1
  have hb : (2:ℝ) ≤ 2 ^ bias w := by
    have : (2:ℝ) ^ 1 ≤ 2 ^ bias w := pow_le_pow_right₀ (by norm_num) (by rcases h with h | h <;> subst h <;> decide)
    linarith
  obtain ⟨a, b⟩ := abs_lt.1 hd
  have hpos : ∀ n : Int, |(n : ℝ) / 2 ^ unitExp w - 1| < ulpHalf w / 2 → n ≠ 0 := by
    rintro n hn rfl
    norm_num at hn
    linarith
  constructor
  · have hf := fadd_finite h hx ho (by rw [one_rv h, abs_le]; constructor <;> linarith)
    have e : ((val x + (2 ^ unitExp w : Nat) : Int) : ℝ) / 2 ^ unitExp w - 1 = rv x := by unfold rv; push_cast; field_simp; ring
    have hq : |((val x + (2 ^ unitExp w : Nat) : Int) : ℝ) / 2 ^ unitExp w - 1| < ulpHalf w / 2 := by rw [e]; exact hd
    rw [fadd_fin hx ho, h1v, if_neg (hpos _ hq)] at hf ⊢
    exact one_of_near h hq hf
  · have hf := fsub_finite h ho hx (by rw [one_rv h, abs_le]; constructor <;> linarith)
    have e : (((2 ^ unitExp w : Nat) - val x : Int) : ℝ) / 2 ^ unitExp w - 1 = -rv x := by unfold rv; push_cast; field_simp; ring
    have hq : |(((2 ^ unitExp w : Nat) - val x : Int) : ℝ) / 2 ^ unitExp w - 1| < ulpHalf w / 2 := by rw [e, abs_neg]; exact hd
    rw [fsub_fin h ho hx, h1v, if_neg (hpos _ hq)] at hf ⊢
    exact one_of_near h hq hf
theorem log1p_const {w : Nat} (h : W w) (fm : Bool) :
    ((oneBits w + log1pRound w) >>> mantBits w - log1pExp w).toInt = 2 ∧ (0#w).toInt = 0 ∧
    fadd (evLog fm (oneBits w)) (fdiv (0#w) (oneBits w)) = 0#w ∧ fsub (oneBits w) (oneBits w) = 0#w := by
  rcases h with h | h <;> subst h
  · rw [evLog_32]; cases fm <;> decide +kernel
  · rw [evLog_64]; cases fm <;> decide +kernel
theorem c1p_tiny {w : Nat} (h : W w) {x : BitVec w} (hx : isFinite x = true) (hd : |rv x| < ulpHalf w / 2) : c1p x = 0#w := by
  obtain ⟨e1, e2⟩ := one_absorbs h hx hd
  obtain ⟨k1, k2, -, k4⟩ := log1p_const h false
  unfold c1p k1p
  rw [e1, k1, k2, e2, k4]
  simp
theorem fEq0_rv {w : Nat} (h : W w) {x : BitVec w} (hx : isFinite x = true) : (fEq x 0#w = true) ↔ rv x = 0 := by
  rw [(cmp0 h x).2.1, (finite_cls hx).1]
  have hU : (2:ℝ) ^ unitExp w ≠ 0 := by positivity
  unfold rv
  rw [div_eq_zero_iff]
  simp
theorem log1pF_acc {w : Nat} (h : W w) (o : MathOpt) (avx fm : Bool) {x : BitVec w} (hx : isFinite x = true) (h0 : -1 < rv x) :
    isFinite (log1pF o avx fm x) = true ∧ |rv (log1pF o avx fm x) - Real.log (1 + rv x)| ≤ 10 * ulpHalf w * (1 + |Real.log (1 + rv x)|) := by
  unfold log1pF
  have hup := ulp_pos w
  have hab := abs_nonneg (Real.log (1 + rv x))
  have hR : 0 ≤ 10 * ulpHalf w * (1 + |Real.log (1 + rv x)|) := by positivity
  rw [exc1p_fin h o hx (neg_one_rv.1 h0)]
  split
  · next hh =>
    refine ⟨hx, ?_⟩
    have hn : x.toNat < 2 ^ mb w := by
      have := congrArg BitVec.toNat hh.2
      rw [BitVec.toNat_ushiftRight, Nat.shiftRight_eq_div_pow, mantBits_eq h, BitVec.toNat_zero] at this
      exact Nat.lt_of_div_eq_zero (Nat.two_pow_pos _) this
    have hr := rv_sub h hn
    have hl : (x.toNat : ℝ) / 2 ^ mb w < 1 := by
      rw [div_lt_one (by positivity)]; exact_mod_cast hn
    have hl0 : 0 ≤ (x.toNat : ℝ) / 2 ^ mb w := by positivity
    have e : (2:ℝ) ^ (-(bias w : ℤ)) = 1 / 2 ^ bias w := by rw [zpow_neg, zpow_natCast, one_div]
    have hb : (1:ℝ) / 2 ^ bias w ≤ ulpHalf w := by
      unfold ulpHalf
      exact one_div_le_one_div_of_le (by positivity) (pow_le_pow_right₀ (by norm_num) (by rcases h with h | h <;> subst h <;> decide))
    rw [e] at hr
    have hp : (0:ℝ) < 1 / 2 ^ bias w := by positivity
    have x0 : 0 ≤ rv x := by rw [hr]; positivity
    have x1 : rv x ≤ 2 * ulpHalf w := by rw [hr]; nlinarith
    have l1 := Real.log_le_sub_one_of_pos (by linarith : (0:ℝ) < 1 + rv x)
    have l0 := Real.log_nonneg (by linarith : (1:ℝ) ≤ 1 + rv x)
    have : |rv x - Real.log (1 + rv x)| ≤ 2 * ulpHalf w := by rw [abs_le]; constructor <;> linarith
    nlinarith
  · split
    · next hh =>
      rw [(fEq0_rv h hx).1 hh, rv_zero_of (log_consts h).2.1]
      refine ⟨by rcases h with h | h <;> subst h <;> decide, ?_⟩
      simp; exact hup.le
    · exact ev1p_acc h fm hx h0
theorem log1pF_tiny {w : Nat} (h : W w) (o : MathOpt) (avx fm : Bool) {x : BitVec w} (hx : isNormal x = true) (hd : |rv x| < ulpHalf w / 2) :
    log1pF o avx fm x = 0#w := by
  have hf : isFinite x = true := by unfold isNormal at hx; unfold isFinite; simp at hx; simp [hx.1]
  have hu := ulp_le h
  norm_num at hu
  obtain ⟨a, b⟩ := abs_lt.1 hd
  unfold log1pF
  rw [exc1p_fin h o hf (neg_one_rv.1 (by linarith)), if_neg, (one_absorbs h hf hd).1, c1p_tiny h hf hd, (log1p_const h fm).2.2.1, ite_self]
  rintro ⟨-, hh⟩
  have := congrArg BitVec.toNat hh
  rw [BitVec.toNat_ushiftRight, Nat.shiftRight_eq_div_pow, mantBits_eq h, BitVec.toNat_zero] at this
  have hn := Nat.lt_of_div_eq_zero (Nat.two_pow_pos _) this
  have hs : x.msb = false := msb_of_small (lt_trans hn (sub_consts h).2.1)
  have := (normal_range h hx hs).1
  omega

section
variable {c : Cfg} (hc : c.Ok) (hf : c.T.flt = true)
include hc hf
/-- **C55** (log1p). For every finite argument above -1 each element of the result is finite and within `10u` of `log(1 + x)`, relative to `1 + |log(1 + x)|`.
What is missing from the full statement: a bound relative to `|log(1 + x)|`, which fails (`C55_log1p_violated`). -/
theorem C55_log1p_partial (o : MathOpt) (fm : Bool) (x : c.Data) :
    EachElt c (fun a r => isFinite a = true → -1 < rv a →
      isFinite r = true ∧ |rv r - Real.log (1 + rv a)| ≤ 10 * ulpHalf c.w * (1 + |Real.log (1 + rv a)|)) x (vLog1p c o fm x) := by
  have hw := fltW hc.ety hf
  obtain ⟨r, h1, h2⟩ := vLog1p_elt hc hf o fm x
  refine ⟨r, h1, fun i hi ha h0 => ?_⟩
  rw [h2 i hi]
  exact log1pF_acc hw o c.s.avx fm ha h0
/-- **C55** (log1p near 0). For every normal argument of magnitude below a quarter of an epsilon the result is 0, although `log(1 + x)` is not:
the relative error is 100 %. -/
theorem C55_log1p_violated (o : MathOpt) (fm : Bool) (x : c.Data) :
    EachElt c (fun a r => isNormal a = true → |rv a| < ulpHalf c.w / 2 → r = 0#c.w ∧ Real.log (1 + rv a) ≠ 0) x (vLog1p c o fm x) := by
  have hw := fltW hc.ety hf
  obtain ⟨r, h1, h2⟩ := vLog1p_elt hc hf o fm x
  refine ⟨r, h1, fun i hi ha hd => ?_⟩
  rw [h2 i hi]
  refine ⟨log1pF_tiny hw o c.s.avx fm ha hd, ?_⟩
  have hw' : W c.w := hw
  have hu := ulp_le hw'
  norm_num at hu
  obtain ⟨p, q⟩ := abs_lt.1 hd
  intro hz
  generalize elt c x i = a at *
  have hfin : isFinite a = true := by unfold isNormal at ha; unfold isFinite; simp at ha; simp [ha.1]
  rcases Real.log_eq_zero.1 hz with hz | hz | hz
  · linarith
  · have e0 : rv a = 0 := by linarith
    have hv := (cmp0 hw' a).2.1
    have he := (fEq0_rv hw' hfin).2 e0
    rw [hv, (finite_cls hfin).1] at he
    simp only [Bool.not_false, Bool.true_and, decide_eq_true_eq] at he
    have := natAbs_val a
    rw [he] at this
    have m0 : magVal (mb c.w) (mag a) = magVal (mb c.w) 0 := by rw [magVal_zero, ← this]; rfl
    have m1 := magVal_inj.1 m0
    unfold isNormal expF at ha
    rw [m1] at ha
    simp at ha
  · linarith
end
example : ∃ r, vLog1p exR2 ⟨true, true⟩ false (vbroadcast exR2 0xbfe0000000000000 (zeroData exR2)) = .ok r ∧ ∀ i, i < 6 → |rv (elt exR2 r i) - Real.log (1 + -1 / 2)| ≤ 10 * ulpHalf 64 * (1 + |Real.log (1 + -1 / 2)|) := by
  obtain ⟨r, hr, h⟩ := each_bcast exR2_ok _ (C55_log1p_partial exR2_ok rfl ⟨true, true⟩ false (vbroadcast exR2 0xbfe0000000000000 (zeroData exR2)))
  have e : rv (0xbfe0000000000000#64) = -1 / 2 := by rw [rv_ratio (0xbfe0000000000000#64) (-1) 1 (by decide +kernel)]; norm_num
  refine ⟨r, hr, fun i hi => ?_⟩
  have := h i hi
  change isFinite (0xbfe0000000000000#64) = true → -1 < rv (0xbfe0000000000000#64) → _ ∧ |_ - Real.log (1 + rv (0xbfe0000000000000#64))| ≤ 10 * ulpHalf 64 * (1 + |Real.log (1 + rv (0xbfe0000000000000#64))|) at this
  rw [e] at this
  exact (this (by decide) (by norm_num)).2
example : ∃ r, vLog1p exRA ⟨true, true⟩ true (vbroadcast exRA 0x2b800000 (zeroData exRA)) = .ok r ∧ ∀ i, i < 8 → elt exRA r i = 0#32 := by
  obtain ⟨r, hr, h⟩ := each_bcast exRA_ok _ (C55_log1p_violated exRA_ok rfl ⟨true, true⟩ true (vbroadcast exRA 0x2b800000 (zeroData exRA)))
  have e : rv (0x2b800000#32) = 1 / 2 ^ 40 := by rw [rv_ratio (0x2b800000#32) 1 40 (by decide +kernel)]; norm_num
  refine ⟨r, hr, fun i hi => (h i hi (by decide) ?_).1⟩
  change |rv (0x2b800000#32)| < ulpHalf 32 / 2
  rw [e]; unfold ulpHalf; rw [show mb 32 = 23 from rfl]; norm_num [abs_of_pos]
end Dpm.X86
