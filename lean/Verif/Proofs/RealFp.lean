import Mathlib.Tactic.Linarith
import Mathlib.Tactic.Ring
import Mathlib.Tactic.FieldSimp
import Mathlib.Tactic.Positivity
import Mathlib.Tactic.NormNum
import Verif.Spec.Real
import Verif.Spec.Fma
import Verif.Proofs.FloatNan
/-! The standard model of floating-point arithmetic: every operation is the exact one with a small relative error (or an
absolute error of half the smallest subnormal). -/
namespace Dpm.Fp

theorem magVal_step (b p : Nat) : ∃ k, magVal b (p + 1) = magVal b p + 2 ^ k ∧ (k = 0 ∨ 2 ^ b * 2 ^ k ≤ magVal b p) ∧ magVal b (p + 1) ≤ 2 ^ (b + 1) * 2 ^ k := by
  have hp : 0 < 2 ^ b := Nat.two_pow_pos b
  have h2 : 2 ^ (b + 1) = 2 * 2 ^ b := by rw [Nat.pow_succ, Nat.mul_comm]
  have hdm := Nat.div_add_mod p (2 ^ b)
  have hml := Nat.mod_lt p hp
  rcases Nat.eq_zero_or_pos (p / 2 ^ b) with h0 | h0
  · refine ⟨0, ?_, Or.inl rfl, ?_⟩
    all_goals
      rw [h0, Nat.mul_zero, Nat.zero_add] at hdm
      have e1 := magVal_kf (b := b) (k := 0) (f := p) (Or.inl rfl) (by omega)
      have e2 := magVal_kf (b := b) (k := 0) (f := p + 1) (Or.inl rfl) (by omega)
      simp only [Nat.zero_mul, Nat.zero_add, Nat.pow_zero, Nat.mul_one] at e1 e2
    · rw [e1, e2, Nat.pow_zero]
    · rw [e2]; omega
  · refine ⟨p / 2 ^ b - 1, ?_, Or.inr ?_, ?_⟩
    all_goals
      obtain ⟨k, hk⟩ : ∃ k, p / 2 ^ b = k + 1 := ⟨p / 2 ^ b - 1, by omega⟩
      rw [hk, Nat.add_sub_cancel]
      have hpe : p = k * 2 ^ b + (2 ^ b + p % 2 ^ b) := by
        rw [hk, Nat.mul_comm, Nat.succ_mul] at hdm; omega
      have e1 := magVal_kf (b := b) (k := k) (f := 2 ^ b + p % 2 ^ b) (Or.inr (by omega)) (by omega)
      have e2 := magVal_kf (b := b) (k := k) (f := 2 ^ b + p % 2 ^ b + 1) (Or.inr (by omega)) (by omega)
      rw [← hpe] at e1
      rw [← Nat.add_assoc, ← hpe] at e2
    · rw [e1, e2, Nat.add_mul, Nat.one_mul]
    · rw [e1]; exact Nat.mul_le_mul_right _ (by omega)
    · rw [e2]; exact Nat.mul_le_mul_right _ (by omega)

theorem rne_err {b n d : Nat} (hb : 0 < b) (hd : 0 < d) :
    2 * dist (magVal b (rne b n d) * d) n ≤ d ∨ 2 * dist (magVal b (rne b n d) * d) n * 2 ^ b ≤ n := by
  obtain ⟨p, h1, h2⟩ := exists_below (b := b) (n := n) hd
  obtain ⟨k, hk, hk', -⟩ := magVal_step b p
  rw [rne_char hb hd h1 h2]
  rw [hk] at h2 ⊢
  have hE : 2 * dist (magVal b (if 2 * n < (magVal b p + (magVal b p + 2 ^ k)) * d then p
      else if (magVal b p + (magVal b p + 2 ^ k)) * d < 2 * n then p + 1 else if p % 2 = 0 then p else p + 1) * d) n ≤ 2 ^ k * d := by
    have e : (magVal b p + (magVal b p + 2 ^ k)) * d = magVal b p * d + magVal b p * d + 2 ^ k * d := by ring
    have e' : magVal b (p + 1) * d = magVal b p * d + 2 ^ k * d := by rw [hk]; ring
    have e'' : (magVal b p + 2 ^ k) * d = magVal b p * d + 2 ^ k * d := by ring
    rw [e]
    rw [e''] at h2
    unfold dist
    split
    · omega
    · split
      · rw [e']; omega
      · split
        · omega
        · rw [e']; omega
  generalize dist _ n = E at *
  rcases hk' with h0 | h0
  · subst h0; left; simpa using hE
  · right
    calc 2 * E * 2 ^ b ≤ 2 ^ k * d * 2 ^ b := Nat.mul_le_mul_right _ hE
      _ = 2 ^ b * 2 ^ k * d := by ring
      _ ≤ magVal b p * d := Nat.mul_le_mul_right _ h0
      _ ≤ n := h1

theorem ulp_pos (w : Nat) : 0 < ulpHalf w := by unfold ulpHalf; positivity
theorem tiny_pos (w : Nat) : 0 < tiny w := by unfold tiny; positivity

/-- the sign `±1` -/
noncomputable def sg (s : Bool) : ℝ := if s then -1 else 1
theorem abs_sg (s : Bool) (x : ℝ) : |sg s * x| = |x| := by cases s <;> simp [sg]
theorem rv_abs {w : Nat} (x : BitVec w) : |rv x| = ((val x).natAbs : ℝ) / 2 ^ unitExp w := by
  unfold rv
  rw [abs_div, abs_of_pos (by positivity : (0:ℝ) < 2 ^ unitExp w), Nat.cast_natAbs, Int.cast_abs]
theorem rv_sg {w : Nat} (x : BitVec w) : rv x = sg (neg x) * (((val x).natAbs : ℝ) / 2 ^ unitExp w) := by
  rw [natAbs_val]
  unfold rv val sg
  cases neg x <;> simp [neg_div]
theorem dist_cast (a b : Nat) : ((dist a b : Nat) : ℝ) = |(a : ℝ) - b| := by
  unfold dist
  rcases Nat.le_total a b with h | h
  · rw [Nat.sub_eq_zero_of_le h, Nat.zero_add, Nat.cast_sub h, abs_sub_comm, abs_of_nonneg]
    exact sub_nonneg.2 (by exact_mod_cast h)
  · rw [Nat.sub_eq_zero_of_le h, Nat.add_zero, Nat.cast_sub h, abs_of_nonneg]
    exact sub_nonneg.2 (by exact_mod_cast h)

/-- the value of a finite rounding result -/
theorem rv_round {w : Nat} (h : W w) {s : Bool} {n d : Nat} (hf : isFinite (round w s n d) = true) :
    rv (round w s n d) = sg s * ((magVal (mb w) (rne (mb w) n d) : ℝ) / 2 ^ unitExp w) := by
  have hi := infMag_lt h
  have hlt : min (rne (mb w) n d) (infMag w) < 2 ^ (w - 1) := by omega
  have hm : mag (round w s n d) = min (rne (mb w) n d) (infMag w) := mag_pack h hlt
  have hs : neg (round w s n d) = s := msb_pack h hlt
  have hle : rne (mb w) n d < infMag w := by
    rw [finite_iff h, hm] at hf; omega
  rw [rv_sg, natAbs_val, hm, hs, Nat.min_eq_left (by omega)]
/-- the error of rounding `±n/d`, in units of the smallest subnormal -/
theorem rv_round_err {w : Nat} (h : W w) {s : Bool} {n d : Nat} (hd : 0 < d) (hf : isFinite (round w s n d) = true) :
    |rv (round w s n d) - sg s * ((n : ℝ) / d / 2 ^ unitExp w)| ≤ tiny w ∨
    |rv (round w s n d) - sg s * ((n : ℝ) / d / 2 ^ unitExp w)| ≤ ulpHalf w * |sg s * ((n : ℝ) / d / 2 ^ unitExp w)| := by
  rw [rv_round h hf, ← mul_sub, abs_sg, abs_sg]
  have hb : 0 < mb w := Fp.mb_pos w
  have hd' : (0:ℝ) < d := by exact_mod_cast hd
  have hU : (0:ℝ) < 2 ^ unitExp w := by positivity
  have he := rne_err (n := n) hb hd
  generalize rne (mb w) n d = m at *
  have e : (magVal (mb w) m : ℝ) / 2 ^ unitExp w - (n : ℝ) / d / 2 ^ unitExp w = ((magVal (mb w) m : ℝ) * d - n) / (d * 2 ^ unitExp w) := by
    field_simp
  have hD := dist_cast (magVal (mb w) m * d) n
  rw [Nat.cast_mul] at hD
  rw [e, abs_div, ← hD, abs_of_pos (mul_pos hd' hU)]
  generalize dist (magVal (mb w) m * d) n = E at *
  rcases he with he | he
  · left
    have he' : 2 * (E : ℝ) ≤ d := by exact_mod_cast he
    unfold tiny
    rw [div_le_div_iff₀ (by positivity) (by positivity), pow_succ]
    nlinarith
  · right
    have he' : 2 * (E : ℝ) * 2 ^ mb w ≤ n := by exact_mod_cast he
    rw [abs_of_nonneg (by positivity)]
    unfold ulpHalf
    rw [div_div, div_mul_div_comm, div_le_div_iff₀ (by positivity) (by positivity), pow_succ]
    have : (0:ℝ) < d * 2 ^ unitExp w := by positivity
    nlinarith

/-- no overflow up to `2^127`, `2^1023` -/
theorem round_finite {w : Nat} (h : W w) {s : Bool} {n d : Nat} (hd : 0 < d) (hX : (n : ℝ) / d / 2 ^ unitExp w ≤ 2 ^ bias w) :
    isFinite (round w s n d) = true := by
  have hi := infMag_lt h
  have hlt : min (rne (mb w) n d) (infMag w) < 2 ^ (w - 1) := by omega
  have hm : mag (round w s n d) = min (rne (mb w) n d) (infMag w) := mag_pack h hlt
  have hd' : (0:ℝ) < d := by exact_mod_cast hd
  have hU : (0:ℝ) < 2 ^ unitExp w := by positivity
  rw [finite_iff h, hm]
  have hb : 0 < mb w := Fp.mb_pos w
  have hn : n ≤ 2 ^ (mb w) * 2 ^ (emax w - 2) * d := by
    have : (n : ℝ) ≤ 2 ^ bias w * 2 ^ unitExp w * d := by
      rw [div_le_iff₀ hU, div_le_iff₀ hd'] at hX; exact hX
    have e : bias w + unitExp w = mb w + (emax w - 2) := by rcases h with h | h <;> subst h <;> rfl
    rw [← Nat.pow_add, ← e]
    rw [← pow_add] at this
    exact_mod_cast this
  have e2 : 0 < emax w ∧ infMag w = (emax w - 2) * 2 ^ mb w + 2 ^ mb w + 2 ^ mb w := by rcases h with h | h <;> subst h <;> decide
  have e1 := magVal_kf (b := mb w) (k := emax w - 2) (f := 2 ^ mb w) (Or.inr (Nat.le_refl _)) (Nat.pow_le_pow_right (by omega) (by omega))
  rw [← e1] at hn
  have hmono := rne_mono hb hd hn
  rw [rne_exact hb hd] at hmono
  have := Nat.two_pow_pos (mb w)
  omega

section ops
variable {w : Nat} (h : W w) {x y z : BitVec w}
include h
theorem rv_pack_zero (s : Bool) : rv (pack w s 0) = 0 := by
  have : val (pack w s 0) = 0 := by
    rw [val_zero_iff, mag_pack h (Nat.two_pow_pos _)]
  unfold rv; rw [this]; simp
theorem finite_pack_zero (s : Bool) : isFinite (pack w s 0) = true := by
  rw [finite_iff h, mag_pack h (Nat.two_pow_pos _)]
  rcases h with h | h <;> subst h <;> decide
omit h in
theorem sg_int (a : Int) : sg (decide (a < 0)) * (a.natAbs : ℝ) = a := by
  unfold sg
  by_cases h : a < 0
  · rw [decide_eq_true h, if_pos rfl]
    have : (a.natAbs : ℝ) = -(a : ℝ) := by
      rw [Nat.cast_natAbs, Int.cast_abs, abs_of_neg (by exact_mod_cast h)]
    rw [this]; ring
  · rw [decide_eq_false h]
    have : (a.natAbs : ℝ) = (a : ℝ) := by
      rw [Nat.cast_natAbs, Int.cast_abs, abs_of_nonneg (by exact_mod_cast (not_lt.1 h))]
    rw [this]; simp
/-- an integer number of units is rounded with a relative error -/
theorem round_int_err {a : Int} (hf : isFinite (round w (decide (a < 0)) a.natAbs 1) = true) :
    |rv (round w (decide (a < 0)) a.natAbs 1) - (a : ℝ) / 2 ^ unitExp w| ≤ ulpHalf w * |(a : ℝ) / 2 ^ unitExp w| := by
  have e0 : sg (decide (a < 0)) * ((a.natAbs : ℝ) / (1 : Nat) / 2 ^ unitExp w) = (a : ℝ) / 2 ^ unitExp w := by
    rw [Nat.cast_one, div_one, ← mul_div_assoc, sg_int]
  have hb : 0 < mb w := Fp.mb_pos w
  rcases rne_err (n := a.natAbs) (d := 1) hb Nat.one_pos with he | he
  · rw [rv_round h hf]
    have hd : dist (magVal (mb w) (rne (mb w) a.natAbs 1) * 1) a.natAbs = 0 := by omega
    have : magVal (mb w) (rne (mb w) a.natAbs 1) = a.natAbs := by unfold dist at hd; omega
    rw [this, ← mul_div_assoc, sg_int, sub_self, abs_zero]
    exact mul_nonneg (ulp_pos w).le (abs_nonneg _)
  · rw [rv_round h hf]
    have hD := dist_cast (magVal (mb w) (rne (mb w) a.natAbs 1) * 1) a.natAbs
    rw [Nat.mul_one] at hD he
    generalize rne (mb w) a.natAbs 1 = m at *
    have hU : (0:ℝ) < 2 ^ unitExp w := by positivity
    have he' : 2 * ((dist (magVal (mb w) m) a.natAbs : Nat) : ℝ) * 2 ^ mb w ≤ a.natAbs := by exact_mod_cast he
    rw [hD] at he'
    have e1 : sg (decide (a < 0)) * ((magVal (mb w) m : ℝ) / 2 ^ unitExp w) - (a : ℝ) / 2 ^ unitExp w =
        sg (decide (a < 0)) * (((magVal (mb w) m : ℝ) - a.natAbs) / 2 ^ unitExp w) := by
      rw [← sg_int a]
      ring
    rw [e1, abs_sg, abs_div, abs_div, abs_of_pos hU]
    have e2 : |(a : ℝ)| = a.natAbs := by rw [Nat.cast_natAbs, Int.cast_abs]
    rw [e2]
    unfold ulpHalf
    rw [div_mul_div_comm, div_le_div_iff₀ hU (by positivity), pow_succ]
    nlinarith [abs_nonneg ((magVal (mb w) m : ℝ) - a.natAbs)]
omit h in
theorem rv_add_val (x y : BitVec w) : rv x + rv y = ((val x + val y : Int) : ℝ) / 2 ^ unitExp w := by
  unfold rv; push_cast; ring
omit h in
theorem rv_sub_val (x y : BitVec w) : rv x - rv y = ((val x - val y : Int) : ℝ) / 2 ^ unitExp w := by
  unfold rv; push_cast; ring
theorem fadd_rv (hx : isFinite x = true) (hy : isFinite y = true) (hr : isFinite (fadd x y) = true) :
    |rv (fadd x y) - (rv x + rv y)| ≤ ulpHalf w * |rv x + rv y| := by
  rw [fadd_fin hx hy] at hr ⊢
  rw [rv_add_val]
  split
  · rename_i h0
    rw [rv_pack_zero h, h0]; simp
  · rename_i h0
    rw [if_neg h0] at hr
    exact round_int_err h hr
theorem fsub_rv (hx : isFinite x = true) (hy : isFinite y = true) (hr : isFinite (fsub x y) = true) :
    |rv (fsub x y) - (rv x - rv y)| ≤ ulpHalf w * |rv x - rv y| := by
  rw [fsub_fin h hx hy] at hr ⊢
  rw [rv_sub_val]
  split
  · rename_i h0
    rw [rv_pack_zero h, h0]; simp
  · rename_i h0
    rw [if_neg h0] at hr
    exact round_int_err h hr
theorem round_int_finite {a : Int} (s : Bool) (hX : |(a : ℝ) / 2 ^ unitExp w| ≤ 2 ^ bias w) : isFinite (round w s a.natAbs 1) = true := by
  apply round_finite h Nat.one_pos
  rw [abs_div, abs_of_pos (by positivity : (0:ℝ) < 2 ^ unitExp w)] at hX
  rw [Nat.cast_one, div_one, Nat.cast_natAbs, Int.cast_abs]; exact hX
theorem fadd_finite (hx : isFinite x = true) (hy : isFinite y = true) (hX : |rv x + rv y| ≤ 2 ^ bias w) : isFinite (fadd x y) = true := by
  rw [fadd_fin hx hy]
  rw [rv_add_val] at hX
  split
  · exact finite_pack_zero h _
  · exact round_int_finite h _ hX
theorem fsub_finite (hx : isFinite x = true) (hy : isFinite y = true) (hX : |rv x - rv y| ≤ 2 ^ bias w) : isFinite (fsub x y) = true := by
  rw [fsub_fin h hx hy]
  rw [rv_sub_val] at hX
  split
  · exact finite_pack_zero h _
  · exact round_int_finite h _ hX
omit h in
theorem sg_xor (a b : Bool) : sg (a != b) = sg a * sg b := by cases a <;> cases b <;> simp [sg]
omit h in
theorem rv_mul_val (x y : BitVec w) : rv x * rv y =
    sg (neg x != neg y) * ((((val x).natAbs * (val y).natAbs : Nat) : ℝ) / (2 ^ unitExp w : Nat) / 2 ^ unitExp w) := by
  rw [rv_sg x, rv_sg y, sg_xor]; push_cast; field_simp
theorem fmul_rv (hx : isFinite x = true) (hy : isFinite y = true) (hr : isFinite (fmul x y) = true) :
    |rv (fmul x y) - rv x * rv y| ≤ tiny w ∨ |rv (fmul x y) - rv x * rv y| ≤ ulpHalf w * |rv x * rv y| := by
  rw [fmul_fin hx hy] at hr ⊢
  rw [rv_mul_val]
  exact rv_round_err h (Nat.two_pow_pos _) hr
theorem fmul_finite (hx : isFinite x = true) (hy : isFinite y = true) (hX : |rv x * rv y| ≤ 2 ^ bias w) : isFinite (fmul x y) = true := by
  rw [fmul_fin hx hy]
  rw [rv_mul_val, abs_sg, abs_of_nonneg (by positivity)] at hX
  exact round_finite h (Nat.two_pow_pos _) hX
omit h in
theorem fdiv_fin (hx : isFinite x = true) (hy : isFinite y = true) (h0 : isZero y = false) :
    fdiv x y = round w (neg x != neg y) ((val x).natAbs * 2 ^ unitExp w) (val y).natAbs := by
  have a := finite_cls hx; have b := finite_cls hy
  unfold fdiv; simp [a.1, a.2, b.1, b.2, h0]
omit h in
theorem natAbs_pos (h0 : isZero y = false) : 0 < (val y).natAbs := by
  have : val y ≠ 0 := by
    rw [Ne, val_zero_iff, ← zero_iff, h0]; decide
  omega
omit h in
theorem rv_div_val (x : BitVec w) (h0 : isZero y = false) : rv x / rv y =
    sg (neg x != neg y) * ((((val x).natAbs * 2 ^ unitExp w : Nat) : ℝ) / ((val y).natAbs : Nat) / 2 ^ unitExp w) := by
  have := natAbs_pos h0
  have : ((val y).natAbs : ℝ) ≠ 0 := by exact_mod_cast (by omega : (val y).natAbs ≠ 0)
  rw [rv_sg x, rv_sg y, sg_xor]
  have hs : sg (neg y) * sg (neg y) = 1 := by cases neg y <;> simp [sg]
  have hs0 : sg (neg y) ≠ 0 := by cases neg y <;> simp [sg]
  push_cast
  field_simp
  rw [pow_two, mul_assoc, hs, mul_one]
theorem fdiv_rv (hx : isFinite x = true) (hy : isFinite y = true) (h0 : isZero y = false) (hr : isFinite (fdiv x y) = true) :
    |rv (fdiv x y) - rv x / rv y| ≤ tiny w ∨ |rv (fdiv x y) - rv x / rv y| ≤ ulpHalf w * |rv x / rv y| := by
  rw [fdiv_fin hx hy h0] at hr ⊢
  rw [rv_div_val x h0]
  exact rv_round_err h (natAbs_pos h0) hr
theorem fdiv_finite (hx : isFinite x = true) (hy : isFinite y = true) (h0 : isZero y = false) (hX : |rv x / rv y| ≤ 2 ^ bias w) :
    isFinite (fdiv x y) = true := by
  rw [fdiv_fin hx hy h0]
  rw [rv_div_val x h0, abs_sg, abs_of_nonneg (by positivity)] at hX
  exact round_finite h (natAbs_pos h0) hX
omit h in
theorem ffmaG_fin (np nz : Bool) (hx : isFinite x = true) (hy : isFinite y = true) (hz : isFinite z = true) :
    ffmaG np nz x y z = if sgn np (val x * val y) + sgn nz (val z * 2 ^ unitExp w) = 0 then pack w (((neg x != neg y) != np) && (neg z != nz)) 0
      else round w (decide (sgn np (val x * val y) + sgn nz (val z * 2 ^ unitExp w) < 0)) (sgn np (val x * val y) + sgn nz (val z * 2 ^ unitExp w)).natAbs
        (2 ^ unitExp w) := by
  have a := finite_cls hx; have b := finite_cls hy; have c := finite_cls hz
  unfold ffmaG; simp [a.1, a.2, b.1, b.2, c.1, c.2]
omit h in
theorem sgn_sg (n : Bool) (a : Int) : ((sgn n a : Int) : ℝ) = sg n * a := by cases n <;> simp [sgn, sg]
omit h in
theorem rv_fma_val (np nz : Bool) (x y z : BitVec w) : sg np * (rv x * rv y) + sg nz * rv z =
    ((sgn np (val x * val y) + sgn nz (val z * 2 ^ unitExp w) : Int) : ℝ) / (2 ^ unitExp w : Nat) / 2 ^ unitExp w := by
  rw [Int.cast_add, sgn_sg, sgn_sg]
  unfold rv; push_cast; field_simp
theorem ffmaG_rv (np nz : Bool) (hx : isFinite x = true) (hy : isFinite y = true) (hz : isFinite z = true) (hr : isFinite (ffmaG np nz x y z) = true) :
    |rv (ffmaG np nz x y z) - (sg np * (rv x * rv y) + sg nz * rv z)| ≤ tiny w ∨
    |rv (ffmaG np nz x y z) - (sg np * (rv x * rv y) + sg nz * rv z)| ≤ ulpHalf w * |sg np * (rv x * rv y) + sg nz * rv z| := by
  rw [ffmaG_fin np nz hx hy hz] at hr ⊢
  rw [rv_fma_val]
  generalize sgn np (val x * val y) + sgn nz (val z * 2 ^ unitExp w) = a at *
  split
  · rename_i h0
    left
    rw [rv_pack_zero h, h0]; simp; exact (tiny_pos w).le
  · rename_i h0
    rw [if_neg h0] at hr
    have := rv_round_err h (Nat.two_pow_pos _) hr
    rw [← mul_div_assoc, ← mul_div_assoc, sg_int] at this
    exact this
theorem ffmaG_finite (np nz : Bool) (hx : isFinite x = true) (hy : isFinite y = true) (hz : isFinite z = true)
    (hX : |sg np * (rv x * rv y) + sg nz * rv z| ≤ 2 ^ bias w) : isFinite (ffmaG np nz x y z) = true := by
  rw [ffmaG_fin np nz hx hy hz]
  rw [rv_fma_val] at hX
  split
  · exact finite_pack_zero h _
  · apply round_finite h (Nat.two_pow_pos _)
    rw [abs_div, abs_div, abs_of_pos (by positivity : (0:ℝ) < 2 ^ unitExp w), abs_of_nonneg (by positivity : (0:ℝ) ≤ ((2 ^ unitExp w : Nat) : ℝ))] at hX
    rw [Nat.cast_natAbs, Int.cast_abs]; exact hX
end ops
end Dpm.Fp
