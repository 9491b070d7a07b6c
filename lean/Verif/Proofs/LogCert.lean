import Mathlib.Analysis.SpecialFunctions.Log.Deriv
import Verif.Proofs.LogRed
/-! Certificates for the logarithm tables: an enclosure of `log` by its series, checked in integer arithmetic. -/
namespace Dpm.X86
open Dpm.Reg Dpm.Fp

/-- `n! b^n` times the first `n` terms of the series of `log ((1 + a/b) / (1 - a/b))` -/
def serA (a b : Int) : Nat → Int
  | 0 => 0
  | n + 1 => serA a b n * ((n + 1) * b) + (n.factorial : Int) * (a ^ (n + 1) - (-a) ^ (n + 1))
theorem serA_eq (a b : Int) (hb : b ≠ 0) (n : Nat) :
    (serA a b n : ℝ) = ((n.factorial : ℝ) * (b : ℝ) ^ n) * (∑ i ∈ Finset.range n, ((a / b : ℝ) ^ (i + 1) / (i + 1) - (-(a / b : ℝ)) ^ (i + 1) / (i + 1))) := by
  have hb' : (b : ℝ) ≠ 0 := by exact_mod_cast hb
  induction n with
  | zero => simp [serA]
  | succ n ih =>
    rw [Finset.sum_range_succ, serA]
    push_cast
    rw [ih, Nat.factorial_succ]
    push_cast
    have hn : (n : ℝ) + 1 ≠ 0 := by positivity
    have e1 : (a / b : ℝ) ^ (n + 1) = (a : ℝ) ^ (n + 1) / (b : ℝ) ^ (n + 1) := div_pow _ _ _
    have e2 : (-(a / b : ℝ)) ^ (n + 1) = (-(a : ℝ)) ^ (n + 1) / (b : ℝ) ^ (n + 1) := by rw [← neg_div, div_pow]
    rw [e1, e2]
    field_simp
    ring
theorem ser_err {t : ℝ} (ht : |t| < 1) (n : Nat) :
    |(∑ i ∈ Finset.range n, (t ^ (i + 1) / (i + 1) - (-t) ^ (i + 1) / (i + 1))) - Real.log ((1 + t) / (1 - t))| ≤ 2 * (|t| ^ (n + 1) / (1 - |t|)) := by
  have h1 := Real.abs_log_sub_add_sum_range_le ht n
  have h2 := Real.abs_log_sub_add_sum_range_le (x := -t) (by rw [abs_neg]; exact ht) n
  rw [abs_neg, sub_neg_eq_add] at h2
  have ht' := abs_lt.1 ht
  rw [Real.log_div (by linarith) (by linarith), Finset.sum_sub_distrib]
  rw [abs_le] at *
  constructor <;> linarith [h1.1, h1.2, h2.1, h2.2]
/-- `|l + log q|` is at most `(m + 1) / 2^e`, for `q = val inv / 2^U`, `l = val lc / 2^U` with `U = unitExp w`; `p = q 2^s`, `n` terms -/
def rowOk (w s n e m : Nat) (inv lc : BitVec w) : Bool :=
  let p := val inv / 2 ^ (unitExp w - s)
  let a := p - 2 ^ s
  let b := p + 2 ^ s
  decide (p * 2 ^ (unitExp w - s) = val inv ∧ 0 < p ∧
    (serA a b n * 2 ^ unitExp w + val lc * (n.factorial * b ^ n)).natAbs * 2 ^ e ≤ m * (n.factorial * b.natAbs ^ n * 2 ^ unitExp w) ∧
    2 * a.natAbs ^ (n + 1) * 2 ^ e ≤ b.natAbs ^ n * (b.natAbs - a.natAbs) ∧ a.natAbs < b.natAbs)
theorem rowOk_spec {w s n e m : Nat} (hs : s ≤ unitExp w) {inv lc : BitVec w} (h : rowOk w s n e m inv lc = true) :
    0 < rv inv ∧ |rv lc + Real.log (rv inv)| ≤ (m + 1) / 2 ^ e := by
  unfold rowOk at h
  extract_lets p a b at h
  obtain ⟨h1, h2, h3, h4, h5⟩ := of_decide_eq_true h
  have hU : (2:ℝ) ^ unitExp w = 2 ^ (unitExp w - s) * 2 ^ s := by rw [← pow_add, Nat.sub_add_cancel hs]
  have hb : 0 < b := by have : (0:Int) < 2 ^ s := by positivity
                        omega
  have hbR : (0:ℝ) < b := by exact_mod_cast hb
  have hp : (0:ℝ) < p := by exact_mod_cast h2
  have hq : rv inv = (p : ℝ) / 2 ^ s := by
    unfold rv; rw [← h1, hU]; push_cast; field_simp
  have hq0 : 0 < rv inv := by rw [hq]; positivity
  refine ⟨hq0, ?_⟩
  set t : ℝ := (a : ℝ) / b with htdef
  have eb : (b.natAbs : ℝ) = b := by
    rw [Nat.cast_natAbs, Int.cast_abs, abs_of_pos hbR]
  have ea : (a.natAbs : ℝ) = |(a : ℝ)| := by rw [Nat.cast_natAbs, Int.cast_abs]
  have hab : |(a : ℝ)| < b := by rw [← ea, ← eb]; exact_mod_cast h5
  have ht : |t| < 1 := by rw [htdef, abs_div, abs_of_pos hbR, div_lt_one hbR]; exact hab
  have hqt : rv inv = (1 + t) / (1 - t) := by
    have haR : (a : ℝ) = p - 2 ^ s := by simp only [a]; push_cast; ring
    have hbR' : (b : ℝ) = p + 2 ^ s := by simp only [b]; push_cast; ring
    rw [hq, htdef]
    have h2s : (0:ℝ) < 2 ^ s := by positivity
    rw [one_add_div hbR.ne', one_sub_div hbR.ne', div_div_div_cancel_right₀ hbR.ne', haR, hbR']
    rw [show (p:ℝ) + 2 ^ s + (p - 2 ^ s) = 2 * p by ring, show (p:ℝ) + 2 ^ s - (p - 2 ^ s) = 2 * 2 ^ s by ring]
    field_simp
  have hser := ser_err ht n
  rw [← hqt] at hser
  set S : ℝ := ∑ i ∈ Finset.range n, (t ^ (i + 1) / (i + 1) - (-t) ^ (i + 1) / (i + 1)) with hS
  have hA := serA_eq a b hb.ne' n
  rw [← htdef, ← hS] at hA
  have hD : (0:ℝ) < (n.factorial : ℝ) * (b : ℝ) ^ n := by
    have : (0:ℝ) < (n.factorial : ℝ) := by exact_mod_cast Nat.factorial_pos n
    positivity
  have hUp : (0:ℝ) < 2 ^ unitExp w := by positivity
  have k1 : |S + rv lc| ≤ m / 2 ^ e := by
    have h3' : |(serA a b n : ℝ) * 2 ^ unitExp w + (val lc : ℝ) * (n.factorial * (b : ℝ) ^ n)| * 2 ^ e ≤ m * (n.factorial * (b : ℝ) ^ n * 2 ^ unitExp w) := by
      have : (((serA a b n * 2 ^ unitExp w + val lc * (n.factorial * b ^ n)).natAbs * 2 ^ e : Nat) : ℝ) ≤ ((m * (n.factorial * b.natAbs ^ n * 2 ^ unitExp w) : Nat) : ℝ) := by
        exact_mod_cast h3
      push_cast [Nat.cast_natAbs, Int.cast_abs] at this
      rw [abs_of_pos hbR] at this
      exact this
    have e3 : (serA a b n : ℝ) * 2 ^ unitExp w + (val lc : ℝ) * (n.factorial * (b : ℝ) ^ n) = ((n.factorial : ℝ) * (b : ℝ) ^ n * 2 ^ unitExp w) * (S + rv lc) := by
      rw [hA]; unfold rv; field_simp
    rw [e3, abs_mul, abs_of_pos (by positivity)] at h3'
    rw [le_div_iff₀ (by positivity)]
    have hh : (n.factorial : ℝ) * (b : ℝ) ^ n * 2 ^ unitExp w * (|S + rv lc| * 2 ^ e) ≤ (n.factorial : ℝ) * (b : ℝ) ^ n * 2 ^ unitExp w * m := by linarith
    exact le_of_mul_le_mul_left hh (by positivity)
  have k2 : 2 * (|t| ^ (n + 1) / (1 - |t|)) ≤ 1 / 2 ^ e := by
    have h4' : 2 * |(a : ℝ)| ^ (n + 1) * 2 ^ e ≤ (b : ℝ) ^ n * (b - |(a : ℝ)|) := by
      have : ((2 * a.natAbs ^ (n + 1) * 2 ^ e : Nat) : ℝ) ≤ ((b.natAbs ^ n * (b.natAbs - a.natAbs) : Nat) : ℝ) := by exact_mod_cast h4
      rw [Nat.cast_mul, Nat.cast_mul, Nat.cast_mul, Nat.cast_sub h5.le] at this
      push_cast at this
      rw [← Int.cast_abs, ← Nat.cast_natAbs, ← eb]
      push_cast [Nat.cast_natAbs] at this ⊢
      exact this
    have et : |t| = |(a : ℝ)| / b := by rw [htdef, abs_div, abs_of_pos hbR]
    rw [et, div_pow, one_sub_div hbR.ne', div_div_div_eq, ← mul_div_assoc, div_le_div_iff₀ (mul_pos (pow_pos hbR _) (by linarith)) (by positivity)]
    have : (b:ℝ) * (2 * |(a : ℝ)| ^ (n + 1) * 2 ^ e) ≤ b * ((b : ℝ) ^ n * (b - |(a : ℝ)|)) := mul_le_mul_of_nonneg_left h4' hbR.le
    rw [pow_succ (b : ℝ)]
    linarith
  have e5 : rv lc + Real.log (rv inv) = (S + rv lc) - (S - Real.log (rv inv)) := by ring
  rw [e5]
  have := abs_sub (S + rv lc) (S - Real.log (rv inv))
  have e6 : ((m:ℝ) + 1) / 2 ^ e = m / 2 ^ e + 1 / 2 ^ e := by ring
  linarith

/-! ### the tables -/
/-- rows `0 .. 2^bits - 1` of a table hold `q` and (up to `(m + 1) / 2^e`) `-log q` -/
def tabOk (w bits s n e m : Nat) (tab : List (BitVec w)) : Bool := (List.range (2 ^ bits)).all fun i => rowOk w s n e m (tab.getD (2 * i) 0) (tab.getD (2 * i + 1) 0)
theorem tabOk_row {w bits s n e m : Nat} {tab : List (BitVec w)} (h : tabOk w bits s n e m tab = true) (hs : s ≤ unitExp w) {i : Nat} (hi : i < 2 ^ bits) :
    0 < rv (tab.getD (2 * i) 0) ∧ |rv (tab.getD (2 * i + 1) 0) + Real.log (rv (tab.getD (2 * i) 0))| ≤ (m + 1) / 2 ^ e :=
  rowOk_spec hs (List.all_eq_true.1 h i (List.mem_range.2 hi))
/-- for `z` in row `i`, `|z q - 1| <= 1/d` -/
def rngOk (w bits d : Nat) (tab : List (BitVec w)) : Bool := (List.range (2 ^ bits)).all fun i =>
  let q := val (tab.getD (2 * i) 0)
  let lo := (logOff w).toNat + i * 2 ^ (mb w - bits)
  let hi := lo + 2 ^ (mb w - bits)
  decide (0 < q ∧ ((d : Int) - 1) * 2 ^ (2 * unitExp w) ≤ d * (magVal (mb w) lo * q) ∧ d * (magVal (mb w) hi * q) ≤ ((d : Int) + 1) * 2 ^ (2 * unitExp w)) &&
    isFinite (tab.getD (2 * i) 0) && isFinite (tab.getD (2 * i + 1) 0)
theorem rngOk_row {w bits d : Nat} {tab : List (BitVec w)} (h : rngOk w bits d tab = true) (hd : 0 < d) {i : Nat} (hi : i < 2 ^ bits) {z : BitVec w}
    (hz : z.msb = false) (h1 : (logOff w).toNat + i * 2 ^ (mb w - bits) ≤ z.toNat) (h2 : z.toNat ≤ (logOff w).toNat + i * 2 ^ (mb w - bits) + 2 ^ (mb w - bits)) :
    isFinite (tab.getD (2 * i) 0) = true ∧ isFinite (tab.getD (2 * i + 1) 0) = true ∧ |rv z * rv (tab.getD (2 * i) 0) - 1| ≤ 1 / d := by
  have h3 := List.all_eq_true.1 h i (List.mem_range.2 hi)
  rw [Bool.and_eq_true, Bool.and_eq_true] at h3
  obtain ⟨⟨h4, h5⟩, h6⟩ := h3
  obtain ⟨q0, hl, hh⟩ := of_decide_eq_true h4
  refine ⟨h5, h6, ?_⟩
  generalize tab.getD (2 * i) 0 = q at *
  generalize (logOff w).toNat + i * 2 ^ (mb w - bits) = lo at *
  generalize 2 ^ (mb w - bits) = st at *
  have m1 : magVal (mb w) lo ≤ magVal (mb w) z.toNat := magVal_le.2 h1
  have m2 : magVal (mb w) z.toNat ≤ magVal (mb w) (lo + st) := magVal_le.2 h2
  have hv : val z = magVal (mb w) z.toNat := by unfold val neg; rw [hz, mag_eq_toNat hz]; rfl
  have l1 : ((d : Int) - 1) * 2 ^ (2 * unitExp w) ≤ d * (val z * val q) := by
    refine le_trans hl ?_
    rw [hv]
    have : (magVal (mb w) lo : Int) * val q ≤ magVal (mb w) z.toNat * val q := Int.mul_le_mul_of_nonneg_right (by exact_mod_cast m1) q0.le
    exact Int.mul_le_mul_of_nonneg_left this (by omega)
  have l2 : d * (val z * val q) ≤ ((d : Int) + 1) * 2 ^ (2 * unitExp w) := by
    refine le_trans ?_ hh
    rw [hv]
    have : (magVal (mb w) z.toNat : Int) * val q ≤ magVal (mb w) (lo + st) * val q := Int.mul_le_mul_of_nonneg_right (by exact_mod_cast m2) q0.le
    exact Int.mul_le_mul_of_nonneg_left this (by omega)
  have hdR : (0:ℝ) < d := by exact_mod_cast hd
  have hU : (0:ℝ) < 2 ^ unitExp w := by positivity
  have r1 : ((d : ℝ) - 1) * 2 ^ (2 * unitExp w) ≤ d * (val z * val q) := by exact_mod_cast l1
  have r2 : (d : ℝ) * (val z * val q) ≤ (d + 1) * 2 ^ (2 * unitExp w) := by exact_mod_cast l2
  have e2 : (2:ℝ) ^ (2 * unitExp w) = 2 ^ unitExp w * 2 ^ unitExp w := by rw [two_mul, pow_add]
  have e1 : rv z * rv q - 1 = ((d : ℝ) * (val z * val q) - d * (2 ^ unitExp w * 2 ^ unitExp w)) / (d * (2 ^ unitExp w * 2 ^ unitExp w)) := by
    unfold rv; field_simp
  rw [e1, abs_div, abs_of_pos (by positivity : (0:ℝ) < d * (2 ^ unitExp w * 2 ^ unitExp w)), div_le_div_iff₀ (by positivity) hdR]
  rw [e2] at r1 r2
  have : |(d : ℝ) * (val z * val q) - d * (2 ^ unitExp w * 2 ^ unitExp w)| ≤ 2 ^ unitExp w * 2 ^ unitExp w := by
    rw [abs_le]; constructor <;> linarith
  nlinarith
theorem logtabS_ok : tabOk 32 4 30 12 30 57 logtabS = true := by decide +kernel
theorem logtabD_ok : tabOk 64 7 60 25 62 1 logtabD = true := by decide +kernel
theorem logtabS_rng : rngOk 32 4 32 logtabS = true := by decide +kernel
theorem logtabD_rng : rngOk 64 7 255 logtabD = true := by decide +kernel
theorem log2tabS_rng : rngOk 32 4 32 log2tabS = true := by decide +kernel
theorem log2tabD_rng : rngOk 64 6 23 log2tabD = true := by decide +kernel
/-- the constant `ln2` -/
theorem ln2_err32 : |rv (ln2Bits 32) - Real.log 2| ≤ 1 / 2 ^ 28 := by
  have h : rowOk 32 1 40 30 3 (0x40000000#32) (ln2Bits 32 ^^^ BitVec.intMin 32) = true := by decide +kernel
  have h1 := (rowOk_spec (by decide) h).2
  have e1 : rv (0x40000000#32) = 2 := by
    have e : val (0x40000000#32) = 2 * 2 ^ unitExp 32 := by decide +kernel
    unfold rv; rw [e]; push_cast; field_simp
  have e2 : rv (ln2Bits 32 ^^^ BitVec.intMin 32) = - rv (ln2Bits 32) := by
    have e : val (ln2Bits 32 ^^^ BitVec.intMin 32) = - val (ln2Bits 32) := by decide +kernel
    unfold rv; rw [e]; push_cast; ring
  rw [e1, e2, neg_add_eq_sub, abs_sub_comm] at h1
  refine le_trans h1 (by norm_num)
theorem ln2_err64 : |rv (ln2Bits 64) - Real.log 2| ≤ 1 / 2 ^ 55 := by
  have h : rowOk 64 1 80 64 500 (0x4000000000000000#64) (ln2Bits 64 ^^^ BitVec.intMin 64) = true := by decide +kernel
  have h1 := (rowOk_spec (by decide) h).2
  have e1 : rv (0x4000000000000000#64) = 2 := by
    have e : val (0x4000000000000000#64) = 2 * 2 ^ unitExp 64 := by decide +kernel
    unfold rv; rw [e]; push_cast; field_simp
  have e2 : rv (ln2Bits 64 ^^^ BitVec.intMin 64) = - rv (ln2Bits 64) := by
    have e : val (ln2Bits 64 ^^^ BitVec.intMin 64) = - val (ln2Bits 64) := by decide +kernel
    unfold rv; rw [e]; push_cast; ring
  rw [e1, e2, neg_add_eq_sub, abs_sub_comm] at h1
  refine le_trans h1 (by norm_num)
end Dpm.X86
