import Mathlib.Analysis.Real.Sqrt
import Verif.Proofs.RealFp
/-! The square root of the hardware description is the correctly rounded square root. -/
namespace Dpm.Fp

theorem isqrt_go (n : Nat) : ∀ (k r : Nat), r * r ≤ n → n < (r + 2 ^ k) * (r + 2 ^ k) →
    isqrt.go n k r * isqrt.go n k r ≤ n ∧ n < (isqrt.go n k r + 1) * (isqrt.go n k r + 1) := by
  intro k
  induction k with
  | zero => intro r h1 h2; rw [isqrt.go]; exact ⟨h1, by simpa using h2⟩
  | succ k ih =>
    intro r h1 h2
    rw [isqrt.go]
    split
    · rename_i h
      refine ih _ h ?_
      rwa [Nat.add_assoc, ← Nat.two_mul, ← Nat.pow_succ']
    · rename_i h
      exact ih _ h1 (Nat.lt_of_not_le h)
theorem isqrt_spec (n : Nat) : isqrt n * isqrt n ≤ n ∧ n < (isqrt n + 1) * (isqrt n + 1) := by
  unfold isqrt
  apply isqrt_go n _ 0 (Nat.zero_le _)
  rw [Nat.zero_add, ← Nat.pow_add]
  by_cases h0 : n = 0
  · subst h0; exact Nat.two_pow_pos _
  · exact Nat.lt_of_lt_of_le Nat.lt_log2_self (Nat.pow_le_pow_right (by omega) (by omega))

/-- rounding `(2r + 1) / 2` or `r` rounds the root of `n`, in units -/
theorem rne_sqrt {b n : Nat} (hb : 0 < b) (hn : 2 ^ (b + 1) * 2 ^ (b + 1) ≤ n) (m' : Nat) :
    let N := 2 * isqrt n + (if isqrt n * isqrt n = n then 0 else 1)
    |(magVal b (rne b N 2) : ℝ) - Real.sqrt n| ≤ |(magVal b m' : ℝ) - Real.sqrt n| ∧
    (m' ≠ rne b N 2 → |(magVal b (rne b N 2) : ℝ) - Real.sqrt n| = |(magVal b m' : ℝ) - Real.sqrt n| → rne b N 2 % 2 = 0) := by
  obtain ⟨h1, h2⟩ := isqrt_spec n
  generalize isqrt n = r at *
  dsimp only
  split
  · rename_i he
    have hs : Real.sqrt n = r := by rw [← he]; push_cast; exact Real.sqrt_mul_self (Nat.cast_nonneg r)
    rw [hs, Nat.add_zero]
    have hne := rne_nearest (b := b) (n := 2 * r) (d := 2) hb (by omega) m'
    have hc : ∀ m, (dist (magVal b m * 2) (2 * r) : ℝ) = 2 * |(magVal b m : ℝ) - r| := by
      intro m
      rw [dist_cast]; push_cast
      rw [show (magVal b m : ℝ) * 2 - 2 * r = 2 * (magVal b m - r) by ring, abs_mul, abs_of_pos (by norm_num : (0:ℝ) < 2)]
    constructor
    · have := hne.1
      have : (dist (magVal b (rne b (2 * r) 2) * 2) (2 * r) : ℝ) ≤ (dist (magVal b m' * 2) (2 * r) : ℝ) := by exact_mod_cast this
      rw [hc, hc] at this
      linarith
    · intro hm he'
      refine hne.2 hm ?_
      have : (dist (magVal b (rne b (2 * r) 2) * 2) (2 * r) : ℝ) = (dist (magVal b m' * 2) (2 * r) : ℝ) := by rw [hc, hc, he']
      exact_mod_cast this
  · rename_i he
    have hr : 2 ^ (b + 1) ≤ r := by
      by_contra hlt
      have : r + 1 ≤ 2 ^ (b + 1) := by omega
      have := Nat.mul_le_mul this this
      omega
    have hs1 : (r : ℝ) < Real.sqrt n := by
      apply Real.lt_sqrt_of_sq_lt
      have : r * r < n := by omega
      rw [pow_two]; exact_mod_cast this
    have hs2 : Real.sqrt n < r + 1 := by
      rw [Real.sqrt_lt' (by positivity), pow_two]
      exact_mod_cast h2
    obtain ⟨p, hp1, hp2⟩ := exists_below (b := b) (n := 2 * r + 1) (d := 2) (by omega)
    obtain ⟨k, hk, hk', hk''⟩ := magVal_step b p
    have hk0 : k ≠ 0 := by
      rintro rfl
      rw [Nat.pow_zero, Nat.mul_one] at hk''
      omega
    obtain ⟨k', rfl⟩ : ∃ k', k = k' + 1 := ⟨k - 1, by omega⟩
    rw [Nat.pow_succ] at hk
    have hr' := rne_char hb (by omega) hp1 hp2
    have hP1 : magVal b p ≤ r := by omega
    have hP2 : r + 1 ≤ magVal b (p + 1) := by omega
    have hbelow : ∀ m, m ≤ p → (magVal b m : ℝ) ≤ magVal b p := fun m hm => by exact_mod_cast magVal_le.2 hm
    have habove : ∀ m, p + 1 ≤ m → (magVal b (p + 1) : ℝ) ≤ magVal b m := fun m hm => by exact_mod_cast magVal_le.2 hm
    have hP1' : (magVal b p : ℝ) ≤ r := by exact_mod_cast hP1
    have hP2' : (r : ℝ) + 1 ≤ magVal b (p + 1) := by exact_mod_cast hP2
    have hkr : (magVal b (p + 1) : ℝ) = magVal b p + 2 ^ k' * 2 := by exact_mod_cast hk
    -- the strict comparison
    have key : ∀ m', m' ≠ rne b (2 * r + 1) 2 → |(magVal b (rne b (2 * r + 1) 2) : ℝ) - Real.sqrt n| < |(magVal b m' : ℝ) - Real.sqrt n| := by
      intro m' hm'
      by_cases hc : 2 * (2 * r + 1) < (magVal b p + magVal b (p + 1)) * 2
      · rw [if_pos hc] at hr'
        rw [hr'] at hm' ⊢
        have hM : r + 1 ≤ magVal b p + 2 ^ k' := by omega
        have hM' : (r : ℝ) + 1 ≤ magVal b p + 2 ^ k' := by exact_mod_cast hM
        rw [abs_of_neg (by linarith : (magVal b p : ℝ) - Real.sqrt n < 0)]
        rcases Nat.lt_or_ge m' p with hlt | hge
        · have : (magVal b m' : ℝ) < magVal b p := by exact_mod_cast magVal_lt.2 hlt
          rw [abs_of_neg (by linarith)]; linarith
        · have := habove m' (by omega)
          rw [abs_of_pos (by linarith)]; linarith
      · have hc2 : (magVal b p + magVal b (p + 1)) * 2 < 2 * (2 * r + 1) := by omega
        rw [if_neg hc, if_pos hc2] at hr'
        rw [hr'] at hm' ⊢
        have hM : magVal b p + 2 ^ k' ≤ r := by omega
        have hM' : (magVal b p : ℝ) + 2 ^ k' ≤ r := by exact_mod_cast hM
        rw [abs_of_pos (by linarith : 0 < (magVal b (p + 1) : ℝ) - Real.sqrt n)]
        rcases Nat.lt_or_ge (p + 1) m' with hlt | hge
        · have : (magVal b (p + 1) : ℝ) < magVal b m' := by exact_mod_cast magVal_lt.2 hlt
          rw [abs_of_pos (by linarith)]; linarith
        · have := hbelow m' (by omega)
          rw [abs_of_neg (by linarith)]; linarith
    constructor
    · by_cases hm : m' = rne b (2 * r + 1) 2
      · rw [hm]
      · exact (key m' hm).le
    · intro hm he'
      exact absurd he' (ne_of_lt (key m' hm))

/-- `fsqrt` of a positive finite number is the number nearest to the real square root. -/
theorem fsqrt_nearest {w : Nat} (h : W w) {x : BitVec w} (hx : isFinite x = true) (h0 : 0 < val x) :
    IsNearestReal (Real.sqrt (rv x)) (fsqrt x) ∧ neg (fsqrt x) = false := by
  have a := finite_cls hx
  have hz : isZero x = false := by
    cases hz : isZero x
    · rfl
    · rw [zero_iff, ← val_zero_iff] at hz; omega
  have hneg : neg x = false := by
    cases hn : neg x
    · rfl
    · unfold val at h0; rw [hn, if_pos rfl] at h0; omega
  have hU : (0:ℝ) < 2 ^ unitExp w := by positivity
  have hUn : 2 ^ (mb w + 1) * 2 ^ (mb w + 1) ≤ 2 ^ unitExp w := by
    rw [← Nat.pow_add]
    exact Nat.pow_le_pow_right (by omega) (by rcases h with h | h <;> subst h <;> decide)
  have hb : 0 < mb w := Fp.mb_pos w
  have hfs : fsqrt x = round w false (2 * isqrt ((val x).natAbs * 2 ^ unitExp w) +
      (if isqrt ((val x).natAbs * 2 ^ unitExp w) * isqrt ((val x).natAbs * 2 ^ unitExp w) = (val x).natAbs * 2 ^ unitExp w then 0 else 1)) 2 := by
    unfold fsqrt
    rw [if_neg (by rw [a.1]; decide), if_neg (by rw [hz]; decide), if_neg (by rw [hneg]; decide), if_neg (by rw [a.2]; decide)]
  have hnat : ((val x).natAbs : ℝ) = val x := by rw [Nat.cast_natAbs, Int.cast_abs, abs_of_pos (by exact_mod_cast h0)]
  have hn : 2 ^ (mb w + 1) * 2 ^ (mb w + 1) ≤ (val x).natAbs * 2 ^ unitExp w := by
    refine Nat.le_trans hUn ?_
    exact Nat.le_mul_of_pos_left _ (by omega)
  have hS : Real.sqrt (((val x).natAbs * 2 ^ unitExp w : Nat) : ℝ) = Real.sqrt (rv x) * 2 ^ unitExp w := by
    have : (((val x).natAbs * 2 ^ unitExp w : Nat) : ℝ) = rv x * (2 ^ unitExp w) ^ 2 := by
      push_cast
      rw [hnat]; unfold rv; field_simp
    rw [this, Real.sqrt_mul' _ (by positivity), Real.sqrt_sq hU.le]
  have key := rne_sqrt (b := mb w) hb hn
  dsimp only at key
  rw [hfs]
  have hspec := isqrt_spec ((val x).natAbs * 2 ^ unitExp w)
  -- no overflow
  have hvlt : (val x).natAbs ≤ 2 ^ bias w * 2 ^ unitExp w * 2 := by
    rw [natAbs_val]
    have hm := (finite_iff h x).1 hx
    have e2 : 0 < emax w ∧ infMag w = (emax w - 2) * 2 ^ mb w + 2 ^ mb w + 2 ^ mb w := by rcases h with h | h <;> subst h <;> decide
    have e1 := magVal_kf (b := mb w) (k := emax w - 2) (f := 2 ^ mb w + 2 ^ mb w) (Or.inr (Nat.le_add_left _ _)) (by rw [Nat.pow_succ]; omega)
    have e : bias w + unitExp w = mb w + (emax w - 2) := by rcases h with h | h <;> subst h <;> rfl
    rw [← Nat.add_assoc, ← e2.2] at e1
    have : magVal (mb w) (mag x) ≤ magVal (mb w) (infMag w) := magVal_le.2 (by omega)
    rw [e1] at this
    rw [← Nat.pow_add, e, Nat.pow_add]
    calc _ ≤ _ := this
      _ = _ := by ring
  have hfin : isFinite (round w false (2 * isqrt ((val x).natAbs * 2 ^ unitExp w) +
      (if isqrt ((val x).natAbs * 2 ^ unitExp w) * isqrt ((val x).natAbs * 2 ^ unitExp w) = (val x).natAbs * 2 ^ unitExp w then 0 else 1)) 2) = true := by
    apply round_finite h (by omega)
    have hr1 : isqrt ((val x).natAbs * 2 ^ unitExp w) + 1 ≤ 2 ^ bias w * 2 ^ unitExp w := by
      have h4 : 2 * 2 * (2 * 2) ≤ 2 ^ bias w := by
        rcases h with h | h <;> subst h <;> exact Nat.pow_le_pow_right (n := 2) (by omega) (by decide : 4 ≤ _)
      have h5 : 2 ≤ 2 ^ unitExp w := by
        rcases h with h | h <;> subst h <;> exact Nat.pow_le_pow_right (n := 2) (by omega) (by decide : 1 ≤ _)
      generalize 2 ^ bias w = B at *
      generalize 2 ^ unitExp w = V at *
      generalize (val x).natAbs = X at *
      generalize isqrt (X * V) = r at *
      by_contra hlt
      have hlt : B * V ≤ r := by omega
      have h6 : B * V * (B * V) ≤ X * V := Nat.le_trans (Nat.mul_le_mul hlt hlt) hspec.1
      have h7 : X * V ≤ B * V * 2 * V := Nat.mul_le_mul_right V hvlt
      have h8 : B * V * (2 * V) < B * V * (B * V) := by
        apply Nat.mul_lt_mul_of_pos_left
        · exact Nat.mul_lt_mul_of_pos_right (by omega) (by omega)
        · exact Nat.mul_pos (by omega) (by omega)
      have : B * V * 2 * V = B * V * (2 * V) := by ring
      omega
    rw [div_le_iff₀ hU]
    have : (2 * isqrt ((val x).natAbs * 2 ^ unitExp w) +
      (if isqrt ((val x).natAbs * 2 ^ unitExp w) * isqrt ((val x).natAbs * 2 ^ unitExp w) = (val x).natAbs * 2 ^ unitExp w then 0 else 1)) ≤ 2 ^ bias w * 2 ^ unitExp w * 2 := by
      split <;> omega
    rw [Nat.cast_ofNat, div_le_iff₀ (by norm_num)]
    exact_mod_cast this
  refine ⟨⟨hfin, fun y hy => ?_⟩, ?_⟩
  · have hi := infMag_lt h
    have hrv := rv_round h hfin
    have hmag : mag (round w false (2 * isqrt ((val x).natAbs * 2 ^ unitExp w) +
      (if isqrt ((val x).natAbs * 2 ^ unitExp w) * isqrt ((val x).natAbs * 2 ^ unitExp w) = (val x).natAbs * 2 ^ unitExp w then 0 else 1)) 2) =
      rne (mb w) (2 * isqrt ((val x).natAbs * 2 ^ unitExp w) +
      (if isqrt ((val x).natAbs * 2 ^ unitExp w) * isqrt ((val x).natAbs * 2 ^ unitExp w) = (val x).natAbs * 2 ^ unitExp w then 0 else 1)) 2 := by
      have hlt : ∀ m, min m (infMag w) < 2 ^ (w - 1) := by intro m; omega
      have := (finite_iff h _).1 hfin
      unfold round at this ⊢
      rw [mag_pack h (hlt _)] at this ⊢
      omega
    rw [hrv, hmag]
    rw [hS] at key
    generalize rne (mb w) _ 2 = m at *
    have hs0 : 0 ≤ Real.sqrt (rv x) := Real.sqrt_nonneg _
    have e1 : sg false * ((magVal (mb w) m : ℝ) / 2 ^ unitExp w) - Real.sqrt (rv x) =
        ((magVal (mb w) m : ℝ) - Real.sqrt (rv x) * 2 ^ unitExp w) / 2 ^ unitExp w := by simp [sg]; field_simp
    have hk := key (mag y)
    have e2 : |(magVal (mb w) (mag y) : ℝ) - Real.sqrt (rv x) * 2 ^ unitExp w| / 2 ^ unitExp w = abs (|rv y| - Real.sqrt (rv x)) := by
      rw [rv_abs, natAbs_val, ← abs_of_pos hU, ← abs_div, abs_of_pos hU]
      congr 1; field_simp
    have e3 : abs (|rv y| - Real.sqrt (rv x)) ≤ |rv y - Real.sqrt (rv x)| := by
      have := abs_abs_sub_abs_le (rv y) (Real.sqrt (rv x))
      rwa [abs_of_nonneg hs0] at this
    have hle : |sg false * ((magVal (mb w) m : ℝ) / 2 ^ unitExp w) - Real.sqrt (rv x)| ≤ abs (|rv y| - Real.sqrt (rv x)) := by
      rw [e1, abs_div, abs_of_pos hU, ← e2]
      exact div_le_div_of_nonneg_right hk.1 hU.le
    refine ⟨le_trans hle e3, fun hne heq => ?_⟩
    -- a tie
    have heq2 : |sg false * ((magVal (mb w) m : ℝ) / 2 ^ unitExp w) - Real.sqrt (rv x)| = abs (|rv y| - Real.sqrt (rv x)) := le_antisymm hle (by rw [heq]; exact e3)
    have heq3 : |(magVal (mb w) m : ℝ) - Real.sqrt (rv x) * 2 ^ unitExp w| = |(magVal (mb w) (mag y) : ℝ) - Real.sqrt (rv x) * 2 ^ unitExp w| := by
      rw [e1, abs_div, abs_of_pos hU, ← e2] at heq2
      field_simp at heq2
      exact heq2
    by_cases hm : mag y = m
    · -- then `y` is the negative number, farther away
      exfalso
      have hsp : 0 < Real.sqrt (rv x) := Real.sqrt_pos.2 (by unfold rv; exact div_pos (by exact_mod_cast h0) hU)
      have hy2 : rv y = - (sg false * ((magVal (mb w) m : ℝ) / 2 ^ unitExp w)) := by
        rw [rv_sg, natAbs_val, hm] at hne ⊢
        cases hn : neg y
        · rw [hn] at hne; exact absurd rfl hne
        · simp [sg]
      have hv : 0 ≤ sg false * ((magVal (mb w) m : ℝ) / 2 ^ unitExp w) := by simp [sg]; positivity
      rw [hy2] at heq
      generalize sg false * ((magVal (mb w) m : ℝ) / 2 ^ unitExp w) = q at *
      generalize Real.sqrt (rv x) = S at *
      rcases eq_or_lt_of_le hv with hq | hq
      · rw [hy2, ← hq] at hne; exact hne (by simp)
      · rcases abs_eq_abs.1 heq with h' | h' <;> linarith
    · exact hk.2 hm heq3
  · have hi := infMag_lt h
    exact msb_pack h (by omega)
end Dpm.Fp
