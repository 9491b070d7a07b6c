import Verif.Proofs.LogEval
/-! Certificates for the tables of `log2`. -/
namespace Dpm.X86
open Dpm.Reg Dpm.Fp

/-- as `rowOk`, with `l = lcN / 2^E` -/
def rowG (w s n e m E : Nat) (inv : BitVec w) (lcN : Int) : Bool :=
  let p := val inv / 2 ^ (unitExp w - s)
  let a := p - 2 ^ s
  let b := p + 2 ^ s
  decide (p * 2 ^ (unitExp w - s) = val inv ∧ 0 < p ∧
    (serA a b n * 2 ^ E + lcN * (n.factorial * b ^ n)).natAbs * 2 ^ e ≤ m * (n.factorial * b.natAbs ^ n * 2 ^ E) ∧
    2 * a.natAbs ^ (n + 1) * 2 ^ e ≤ b.natAbs ^ n * (b.natAbs - a.natAbs) ∧ a.natAbs < b.natAbs)
theorem rowG_spec {w s n e m E : Nat} (hs : s ≤ unitExp w) {inv : BitVec w} {lcN : Int} (h : rowG w s n e m E inv lcN = true) :
    0 < rv inv ∧ |(lcN : ℝ) / 2 ^ E + Real.log (rv inv)| ≤ (m + 1) / 2 ^ e := by
  unfold rowG at h
  extract_lets p a b at h
  obtain ⟨h1, h2, h3, h4, h5⟩ := of_decide_eq_true h
  have hU : (2:ℝ) ^ unitExp w = 2 ^ (unitExp w - s) * 2 ^ s := by rw [← pow_add, Nat.sub_add_cancel hs]
  have hb : 0 < b := by have : (0:Int) < 2 ^ s := by positivity
                        omega
  have hbR : (0:ℝ) < b := by exact_mod_cast hb
  have hp : (0:ℝ) < p := by exact_mod_cast h2
  have hq : rv inv = (p : ℝ) / 2 ^ s := by
    unfold rv; rw [← h1, hU]; push_cast; field_simp
  have hq0 : 0 < rv inv := by rw [hq]; positivity
  refine ⟨hq0, ?_⟩
  set t : ℝ := (a : ℝ) / b with htdef
  have eb : (b.natAbs : ℝ) = b := by
    rw [Nat.cast_natAbs, Int.cast_abs, abs_of_pos hbR]
  have ea : (a.natAbs : ℝ) = |(a : ℝ)| := by rw [Nat.cast_natAbs, Int.cast_abs]
  have hab : |(a : ℝ)| < b := by rw [← ea, ← eb]; exact_mod_cast h5
  have ht : |t| < 1 := by rw [htdef, abs_div, abs_of_pos hbR, div_lt_one hbR]; exact hab
  have hqt : rv inv = (1 + t) / (1 - t) := by
    have haR : (a : ℝ) = p - 2 ^ s := by simp only [a]; push_cast; ring
    have hbR' : (b : ℝ) = p + 2 ^ s := by simp only [b]; push_cast; ring
    rw [hq, htdef]
    have h2s : (0:ℝ) < 2 ^ s := by positivity
    rw [one_add_div hbR.ne', one_sub_div hbR.ne', div_div_div_cancel_right₀ hbR.ne', haR, hbR']
    rw [show (p:ℝ) + 2 ^ s + (p - 2 ^ s) = 2 * p by ring, show (p:ℝ) + 2 ^ s - (p - 2 ^ s) = 2 * 2 ^ s by ring]
    field_simp
  have hser := ser_err ht n
  rw [← hqt] at hser
  set S : ℝ := ∑ i ∈ Finset.range n, (t ^ (i + 1) / (i + 1) - (-t) ^ (i + 1) / (i + 1)) with hS
  have hA := serA_eq a b hb.ne' n
  rw [← htdef, ← hS] at hA
  have hD : (0:ℝ) < (n.factorial : ℝ) * (b : ℝ) ^ n := by
    have : (0:ℝ) < (n.factorial : ℝ) := by exact_mod_cast Nat.factorial_pos n
    positivity
  have hUp : (0:ℝ) < 2 ^ unitExp w := by positivity
  have k1 : |S + (lcN : ℝ) / 2 ^ E| ≤ m / 2 ^ e := by
    have h3' : |(serA a b n : ℝ) * 2 ^ E + (lcN : ℝ) * (n.factorial * (b : ℝ) ^ n)| * 2 ^ e ≤ m * (n.factorial * (b : ℝ) ^ n * 2 ^ E) := by
      have : (((serA a b n * 2 ^ E + lcN * (n.factorial * b ^ n)).natAbs * 2 ^ e : Nat) : ℝ) ≤ ((m * (n.factorial * b.natAbs ^ n * 2 ^ E) : Nat) : ℝ) := by
        exact_mod_cast h3
      push_cast [Nat.cast_natAbs, Int.cast_abs] at this
      rw [abs_of_pos hbR] at this
      exact this
    have e3 : (serA a b n : ℝ) * 2 ^ E + (lcN : ℝ) * (n.factorial * (b : ℝ) ^ n) = ((n.factorial : ℝ) * (b : ℝ) ^ n * 2 ^ E) * (S + (lcN : ℝ) / 2 ^ E) := by
      rw [hA]; field_simp
    rw [e3, abs_mul, abs_of_pos (by positivity)] at h3'
    rw [le_div_iff₀ (by positivity)]
    have hh : (n.factorial : ℝ) * (b : ℝ) ^ n * 2 ^ E * (|S + (lcN : ℝ) / 2 ^ E| * 2 ^ e) ≤ (n.factorial : ℝ) * (b : ℝ) ^ n * 2 ^ E * m := by linarith
    exact le_of_mul_le_mul_left hh (by positivity)
  have k2 : 2 * (|t| ^ (n + 1) / (1 - |t|)) ≤ 1 / 2 ^ e := by
    have h4' : 2 * |(a : ℝ)| ^ (n + 1) * 2 ^ e ≤ (b : ℝ) ^ n * (b - |(a : ℝ)|) := by
      have : ((2 * a.natAbs ^ (n + 1) * 2 ^ e : Nat) : ℝ) ≤ ((b.natAbs ^ n * (b.natAbs - a.natAbs) : Nat) : ℝ) := by exact_mod_cast h4
      rw [Nat.cast_mul, Nat.cast_mul, Nat.cast_mul, Nat.cast_sub h5.le] at this
      push_cast at this
      rw [← Int.cast_abs, ← Nat.cast_natAbs, ← eb]
      push_cast [Nat.cast_natAbs] at this ⊢
      exact this
    have et : |t| = |(a : ℝ)| / b := by rw [htdef, abs_div, abs_of_pos hbR]
    rw [et, div_pow, one_sub_div hbR.ne', div_div_div_eq, ← mul_div_assoc, div_le_div_iff₀ (mul_pos (pow_pos hbR _) (by linarith)) (by positivity)]
    have : (b:ℝ) * (2 * |(a : ℝ)| ^ (n + 1) * 2 ^ e) ≤ b * ((b : ℝ) ^ n * (b - |(a : ℝ)|)) := mul_le_mul_of_nonneg_left h4' hbR.le
    rw [pow_succ (b : ℝ)]
    linarith
  have e5 : (lcN : ℝ) / 2 ^ E + Real.log (rv inv) = (S + (lcN : ℝ) / 2 ^ E) - (S - Real.log (rv inv)) := by ring
  rw [e5]
  have := abs_sub (S + (lcN : ℝ) / 2 ^ E) (S - Real.log (rv inv))
  have e6 : ((m:ℝ) + 1) / 2 ^ e = m / 2 ^ e + 1 / 2 ^ e := by ring
  linarith


/-- `log 2` to 53 bits: `lam2 / 2^53` -/
def lam2 : Int := 0x162e42fefa39ef
theorem lam2_err : |(lam2 : ℝ) / 2 ^ 53 - Real.log 2| ≤ 1 / 2 ^ 55 := by
  have h : val (ln2Bits 64) * 2 ^ 53 = lam2 * 2 ^ unitExp 64 := by decide +kernel
  have e : rv (ln2Bits 64) = (lam2 : ℝ) / 2 ^ 53 := by
    unfold rv
    rw [div_eq_div_iff (by positivity) (by positivity)]
    exact_mod_cast h
  rw [← e]; exact ln2_err64
/-- rows of a base-2 table: `q` and (up to `(m + 1) / 2^e`, both multiplied by `lam2 / 2^53`) `-log2 q` -/
def tab2Ok (w bits s n e m : Nat) (tab : List (BitVec w)) : Bool := (List.range (2 ^ bits)).all fun i => rowG w s n e m (unitExp w + 53) (tab.getD (2 * i) 0) (val (tab.getD (2 * i + 1) 0) * lam2)
def logcLe (w bits : Nat) (tab : List (BitVec w)) : Bool := (List.range (2 ^ bits)).all fun i => decide (5 * (val (tab.getD (2 * i + 1) 0)).natAbs ≤ 3 * 2 ^ unitExp w)
theorem logcLe_row {w bits : Nat} {tab : List (BitVec w)} (h : logcLe w bits tab = true) {i : Nat} (hi : i < 2 ^ bits) : |rv (tab.getD (2 * i + 1) 0)| ≤ 3 / 5 := by
  have h3 := of_decide_eq_true (List.all_eq_true.1 h i (List.mem_range.2 hi))
  generalize tab.getD (2 * i + 1) 0 = x at *
  have : (5:ℝ) * |(val x : ℝ)| ≤ 3 * 2 ^ unitExp w := by
    have : ((5 * (val x).natAbs : Nat) : ℝ) ≤ ((3 * 2 ^ unitExp w : Nat) : ℝ) := by exact_mod_cast h3
    push_cast [Nat.cast_natAbs, Int.cast_abs] at this
    exact this
  unfold rv
  have hU : (0:ℝ) < 2 ^ unitExp w := by positivity
  rw [abs_div, abs_of_pos hU, div_le_iff₀ hU]; linarith
theorem tab2Ok_row {w bits s n e m : Nat} {tab : List (BitVec w)} (h : tab2Ok w bits s n e m tab = true) (h' : logcLe w bits tab = true) (hs : s ≤ unitExp w) {i : Nat} (hi : i < 2 ^ bits) :
    0 < rv (tab.getD (2 * i) 0) ∧ |rv (tab.getD (2 * i + 1) 0)| ≤ 3 / 5 ∧ |rv (tab.getD (2 * i + 1) 0) * Real.log 2 + Real.log (rv (tab.getD (2 * i) 0))| ≤ (m + 1) / 2 ^ e + 1 / 2 ^ 55 := by
  obtain ⟨a, b⟩ := rowG_spec hs (List.all_eq_true.1 h i (List.mem_range.2 hi))
  have hl := logcLe_row h' hi
  refine ⟨a, hl, ?_⟩
  generalize tab.getD (2 * i + 1) 0 = x at *
  generalize tab.getD (2 * i) 0 = q at *
  have e1 : ((val x * lam2 : Int) : ℝ) / 2 ^ (unitExp w + 53) = rv x * ((lam2 : ℝ) / 2 ^ 53) := by
    unfold rv; push_cast; rw [pow_add]; field_simp
  rw [e1] at b
  have e2 : rv x * Real.log 2 + Real.log (rv q) = (rv x * ((lam2 : ℝ) / 2 ^ 53) + Real.log (rv q)) + rv x * (Real.log 2 - (lam2 : ℝ) / 2 ^ 53) := by ring
  rw [e2]
  have h5 := lam2_err
  rw [abs_sub_comm] at h5
  have h6 := mul_bd hl h5
  refine le_trans (abs_add_le _ _) ?_
  have : (3 / 5 : ℝ) * (1 / 2 ^ 55) ≤ 1 / 2 ^ 55 := by norm_num
  linarith
theorem log2tabS_ok : tab2Ok 32 4 30 12 30 58 log2tabS = true := by decide +kernel
theorem log2tabD_ok : tab2Ok 64 6 60 25 58 4 log2tabD = true := by decide +kernel
theorem log2tabS_le : logcLe 32 4 log2tabS = true := by decide +kernel
theorem log2tabD_le : logcLe 64 6 log2tabD = true := by decide +kernel
end Dpm.X86
