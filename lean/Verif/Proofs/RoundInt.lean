import Verif.Spec.Round
import Verif.Proofs.Logb
/-
The machine's rounding to integers is exact.
-/
namespace Dpm.Fp
open Dpm.X86

theorem toInt_floor {w : Nat} (x : BitVec w) : IsFloor (val x) (2 ^ unitExp w : Nat) (toInt .down x) := by
  have hD : 0 < 2 ^ unitExp w := Nat.two_pow_pos _
  unfold toInt roundNat
  dsimp only
  have hv : val x = if neg x then -((val x).natAbs : Int) else (val x).natAbs := by unfold val; split <;> omega
  generalize (val x).natAbs = n at hv ⊢
  generalize 2 ^ unitExp w = D at *
  have hdm := Nat.div_add_mod n D
  have hml := Nat.mod_lt n hD
  have hdm' : (n : Int) = (D : Int) * (n / D : Nat) + (n % D : Nat) := by exact_mod_cast hdm.symm
  generalize n / D = q at *
  generalize n % D = m at *
  rw [hv, hdm']
  unfold IsFloor
  cases hng : neg x
  · simp only [Bool.false_eq_true, if_false, Nat.add_zero, Bool.false_and]
    have e1 : (q : Int) * D = D * q := Int.mul_comm _ _
    have e2 : ((q : Int) + 1) * D = D * q + D := by rw [Int.add_mul, Int.mul_comm]; omega
    rw [e1, e2]
    generalize (D : Int) * (q : Int) = Y at *
    omega
  · simp only [if_true, Bool.true_and, decide_eq_true_eq]
    by_cases h0 : m = 0
    · rw [if_neg (by omega)]
      have e1 : -((q + 0 : Nat) : Int) * D = -(D * q) := by push_cast; grind
      have e2 : (-((q + 0 : Nat) : Int) + 1) * D = -(D * q) + D := by push_cast; grind
      rw [e1, e2]
      generalize (D : Int) * (q : Int) = Y at *
      omega
    · rw [if_pos h0]
      have e1 : -((q + 1 : Nat) : Int) * D = -(D * q) - D := by push_cast; grind
      have e2 : (-((q + 1 : Nat) : Int) + 1) * D = -(D * q) := by push_cast; grind
      rw [e1, e2]
      generalize (D : Int) * (q : Int) = Y at *
      omega
theorem toInt_ceil {w : Nat} (x : BitVec w) : IsCeil (val x) (2 ^ unitExp w : Nat) (toInt .up x) := by
  have hD : 0 < 2 ^ unitExp w := Nat.two_pow_pos _
  unfold toInt roundNat
  dsimp only
  have hv : val x = if neg x then -((val x).natAbs : Int) else (val x).natAbs := by unfold val; split <;> omega
  generalize (val x).natAbs = n at hv ⊢
  generalize 2 ^ unitExp w = D at *
  have hdm := Nat.div_add_mod n D
  have hml := Nat.mod_lt n hD
  have hdm' : (n : Int) = (D : Int) * (n / D : Nat) + (n % D : Nat) := by exact_mod_cast hdm.symm
  generalize n / D = q at *
  generalize n % D = m at *
  rw [hv, hdm']
  unfold IsCeil
  cases hng : neg x
  · simp only [Bool.false_eq_true, if_false, Bool.not_false, Bool.true_and, decide_eq_true_eq]
    by_cases h0 : m = 0
    · rw [if_neg (by omega)]
      have e1 : ((q + 0 : Nat) : Int) * D = (D * q) := by push_cast; grind
      have e2 : (((q + 0 : Nat) : Int) - 1) * D = (D * q) - D := by push_cast; grind
      rw [e1, e2]
      generalize (D : Int) * (q : Int) = Y at *
      omega
    · rw [if_pos h0]
      have e1 : ((q + 1 : Nat) : Int) * D = (D * q) + D := by push_cast; grind
      have e2 : (((q + 1 : Nat) : Int) - 1) * D = (D * q) := by push_cast; grind
      rw [e1, e2]
      generalize (D : Int) * (q : Int) = Y at *
      omega
  · simp only [if_true, Bool.not_true, Bool.false_and, Bool.false_eq_true, if_false, Nat.add_zero]
    have e1 : -(q : Int) * D = -(D * q) := by grind
    have e2 : (-(q : Int) - 1) * D = -(D * q) - D := by grind
    rw [e1, e2]
    generalize (D : Int) * (q : Int) = Y at *
    omega

theorem bigInt {w : Nat} (h : W w) : 2 ^ (mb w + 1) * 2 ^ unitExp w < magVal (mb w) (infMag w) := by
  rcases h with h | h <;> subst h <;> decide +kernel
/-- numbers of at least `2^mb` are integers -/
theorem int_of_big {w : Nat} {x : BitVec w} (h : unitExp w < expF x) : (val x).natAbs % 2 ^ unitExp w = 0 := by
  rw [natAbs_val_fields]
  unfold fieldVal
  rw [if_neg (by omega), show expF x - 1 = unitExp w + (expF x - 1 - unitExp w) by omega, Nat.pow_add, ← Nat.mul_assoc,
    Nat.mul_comm (2 ^ mb w + manF x), Nat.mul_assoc, Nat.mul_mod_right]
theorem small_of_exp {w : Nat} (h : W w) {x : BitVec w} (he : expF x ≤ unitExp w) : (val x).natAbs < 2 ^ mb w * 2 ^ unitExp w := by
  rw [natAbs_val_fields]
  have hm := manF_lt x
  have hU : 0 < unitExp w := by rcases h with h | h <;> subst h <;> decide
  unfold fieldVal
  split
  · exact Nat.lt_of_lt_of_le hm (Nat.le_mul_of_pos_right _ (Nat.two_pow_pos _))
  · have h1 : 2 ^ mb w * 2 ^ unitExp w = 2 ^ (mb w + 1) * 2 ^ (unitExp w - 1) := by
      rw [← Nat.pow_add, ← Nat.pow_add]; congr 1; omega
    rw [h1]
    exact Nat.lt_of_lt_of_le (Nat.mul_lt_mul_of_pos_right (by rw [Nat.pow_succ]; omega) (Nat.two_pow_pos _))
      (Nat.mul_le_mul_left _ (Nat.pow_le_pow_right (by omega) (by omega)))
/-- the rounded magnitude is a floating-point number -/
theorem repr_roundNat {w : Nat} (h : W w) (m : RMode) (s : Bool) {x : BitVec w} (hfin : isFinite x = true) :
    Repr w (roundNat m s (val x).natAbs (2 ^ unitExp w) * 2 ^ unitExp w) := by
  by_cases hE : unitExp w < expF x
  · have h0 := int_of_big hE
    have hk : roundNat m s (val x).natAbs (2 ^ unitExp w) * 2 ^ unitExp w = (val x).natAbs := by
      have hdm := Nat.div_add_mod (val x).natAbs (2 ^ unitExp w)
      have hD : 0 < 2 ^ unitExp w := Nat.two_pow_pos _
      rw [h0, Nat.add_zero] at hdm
      unfold roundNat
      rw [h0]
      have : ∀ k, k = 0 → ((val x).natAbs / 2 ^ unitExp w + k) * 2 ^ unitExp w = (val x).natAbs := by
        intro k hk; subst hk; rw [Nat.add_zero, Nat.mul_comm]; exact hdm
      apply this
      cases m <;> simp <;> omega
    rw [hk]
    exact ⟨mag x, (finite_iff h x).1 hfin, natAbs_val x⟩
  · have h1 := small_of_exp h (x := x) (by omega)
    have hq : (val x).natAbs / 2 ^ unitExp w < 2 ^ mb w := Nat.div_lt_of_lt_mul (by rw [Nat.mul_comm]; exact h1)
    have hle : roundNat m s (val x).natAbs (2 ^ unitExp w) ≤ 2 ^ (mb w + 1) := by
      unfold roundNat
      rw [Nat.pow_succ]
      have : ∀ a b c : Nat, a < b → c ≤ 1 → a + c ≤ b * 2 := by omega
      apply this _ _ _ hq
      cases m <;> dsimp only <;> (try split) <;> omega
    exact repr_mk hle (Nat.lt_of_le_of_lt (Nat.mul_le_mul_right _ hle) (bigInt h))
theorem roundInt_spec {w : Nat} (h : W w) (m : RMode) {x : BitVec w} (hfin : isFinite x = true) :
    isFinite (roundInt m x) = true ∧ (roundInt m x).msb = x.msb ∧ val (roundInt m x) = toInt m x * (2 ^ unitExp w : Nat) := by
  have hc := finite_cls hfin
  have he : roundInt m x = round w (neg x) (roundNat m (neg x) (val x).natAbs (2 ^ unitExp w) * 2 ^ unitExp w) 1 := by
    unfold roundInt; simp [hc.1, hc.2]
  obtain ⟨k, hk, hn⟩ := repr_roundNat h m (neg x) hfin
  have hr := round_repr h (s := neg x) hk hn
  rw [he]
  refine ⟨hr.1, ?_, ?_⟩
  · unfold round
    have := infMag_lt h
    exact msb_pack h (by omega)
  · rw [hr.2]
    unfold toInt
    dsimp only
    generalize roundNat m (neg x) (val x).natAbs (2 ^ unitExp w) = K
    generalize 2 ^ unitExp w = D
    split <;> push_cast <;> grind
theorem roundInt_fn {w : Nat} (h : W w) (m : RMode) {R : Int → Int → Int → Prop}
    (hR : ∀ x : BitVec w, R (val x) (2 ^ unitExp w : Nat) (toInt m x)) (x : BitVec w) : IsRoundFn R x (roundInt m x) where
  fin hf := ⟨(roundInt_spec h m hf).1, _, hR x, (roundInt_spec h m hf).2.2⟩
  sign hf := (roundInt_spec h m hf).2.1
  inf hi := by unfold roundInt; simp [hi, inf_not_nan' h hi]
  nan hn := by unfold roundInt; rw [if_pos hn]; exact quiet_nan h hn
end Dpm.Fp
