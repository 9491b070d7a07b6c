import Verif.Lib.Reg
/-
IEEE 754 binary32 / binary64, as a specification on bit patterns: fields, classes, exact values.
Nothing here is taken from dpm.
-/
namespace Dpm.Fp

/-- number of explicit significand bits: 23 (binary32) or 52 (binary64) -/
def mb (w : Nat) : Nat := if w = 32 then 23 else 52
/-- the all-ones exponent field: 255 or 2047 -/
def emax (w : Nat) : Nat := if w = 32 then 255 else 2047
/-- the exponent bias: 127 or 1023 -/
def bias (w : Nat) : Nat := if w = 32 then 127 else 1023

/-- the pattern without its sign bit -/
def mag {w : Nat} (x : BitVec w) : Nat := x.toNat % 2 ^ (w - 1)
/-- sign, exponent and significand fields -/
def neg {w : Nat} (x : BitVec w) : Bool := x.msb
def expF {w : Nat} (x : BitVec w) : Nat := mag x / 2 ^ mb w
def manF {w : Nat} (x : BitVec w) : Nat := mag x % 2 ^ mb w

def isNaN {w : Nat} (x : BitVec w) : Bool := decide (expF x = emax w) && decide (manF x ≠ 0)
def isInf {w : Nat} (x : BitVec w) : Bool := decide (expF x = emax w) && decide (manF x = 0)
def isFinite {w : Nat} (x : BitVec w) : Bool := decide (expF x ≠ emax w)
def isNormal {w : Nat} (x : BitVec w) : Bool := decide (expF x ≠ emax w) && decide (expF x ≠ 0)
def isSubnormal {w : Nat} (x : BitVec w) : Bool := decide (expF x = 0) && decide (manF x ≠ 0)
def isZero {w : Nat} (x : BitVec w) : Bool := decide (expF x = 0) && decide (manF x = 0)

/-- Exact magnitude of the pattern with exponent field `m / 2^b` and significand field `m % 2^b`, in units of
the smallest subnormal (`2^-149` or `2^-1074`).  The pattern of infinity gets the value one step above the
largest finite number. -/
def magVal (b m : Nat) : Nat := if m / 2 ^ b = 0 then m % 2 ^ b else (2 ^ b + m % 2 ^ b) * 2 ^ (m / 2 ^ b - 1)
/-- Exact value of a non-NaN pattern in units of the smallest subnormal. -/
def val {w : Nat} (x : BitVec w) : Int := if neg x then -(magVal (mb w) (mag x) : Int) else (magVal (mb w) (mag x) : Int)
/-- the number of units in 1.0, as a power of two: `149` or `1074` -/
def unitExp (w : Nat) : Nat := if w = 32 then 149 else 1074

/-! IEEE relations: ordered comparisons are false on NaN. -/
def lt {w : Nat} (x y : BitVec w) : Bool := !isNaN x && !isNaN y && decide (val x < val y)
def le {w : Nat} (x y : BitVec w) : Bool := !isNaN x && !isNaN y && decide (val x ≤ val y)
def eq {w : Nat} (x y : BitVec w) : Bool := !isNaN x && !isNaN y && decide (val x = val y)

/-- `r` is the representable value next to `a` in the direction of `b` (`b` itself when they are equal). -/
def IsNextafter {w : Nat} (a b r : BitVec w) : Prop :=
  (val a = val b → r = b) ∧
  (val a < val b → isNaN r = false ∧ val a < val r ∧ val r ≤ val b ∧ ∀ z : BitVec w, isNaN z = false → val a < val z → val r ≤ val z) ∧
  (val b < val a → isNaN r = false ∧ val r < val a ∧ val b ≤ val r ∧ ∀ z : BitVec w, isNaN z = false → val z < val a → val z ≤ val r)

/-- A width with an IEEE format. -/
def W (w : Nat) : Prop := w = 32 ∨ w = 64

/-! ### Facts about the format -/
theorem mb_le {w : Nat} (h : W w) : mb w ≤ w - 2 := by rcases h with h | h <;> subst h <;> decide
theorem format {w : Nat} (h : W w) : 2 ^ (w - 1) = (emax w + 1) * 2 ^ mb w := by rcases h with h | h <;> subst h <;> decide
theorem mag_lt {w : Nat} (x : BitVec w) : mag x < 2 ^ (w - 1) := Nat.mod_lt _ (Nat.two_pow_pos _)
theorem expF_le {w : Nat} (h : W w) (x : BitVec w) : expF x ≤ emax w := by
  have h1 := mag_lt x
  rw [format h] at h1
  have := (Nat.div_lt_iff_lt_mul (Nat.two_pow_pos (mb w))).2 h1
  unfold expF; omega
theorem manF_lt {w : Nat} (x : BitVec w) : manF x < 2 ^ mb w := Nat.mod_lt _ (Nat.two_pow_pos _)
theorem mag_fields {w : Nat} (x : BitVec w) : mag x = expF x * 2 ^ mb w + manF x := by
  unfold expF manF; rw [Nat.mul_comm]; exact (Nat.div_add_mod _ _).symm

theorem magVal_succ (b m : Nat) : magVal b m < magVal b (m + 1) := by
  have hp : 0 < 2 ^ b := Nat.two_pow_pos b
  have hd := Nat.div_add_mod m (2 ^ b)
  have hm := Nat.mod_lt m hp
  unfold magVal
  by_cases hf : m % 2 ^ b + 1 < 2 ^ b
  · have h1 : (m + 1) / 2 ^ b = m / 2 ^ b := by
      rw [Nat.div_eq_iff hp]
      generalize m / 2 ^ b = q at *
      have : 2 ^ b * q = q * 2 ^ b := Nat.mul_comm _ _
      omega
    have h2 : (m + 1) % 2 ^ b = m % 2 ^ b + 1 := by
      have := Nat.div_add_mod (m + 1) (2 ^ b)
      rw [h1] at this; omega
    rw [h1, h2]
    split
    · omega
    · exact Nat.mul_lt_mul_of_pos_right (by omega) (Nat.two_pow_pos _)
  · have hf' : m % 2 ^ b = 2 ^ b - 1 := by omega
    have h1 : (m + 1) / 2 ^ b = m / 2 ^ b + 1 := by
      rw [Nat.div_eq_iff hp]
      generalize m / 2 ^ b = q at *
      have : 2 ^ b * q = q * 2 ^ b := Nat.mul_comm _ _
      have h3 : (q + 1) * 2 ^ b = q * 2 ^ b + 2 ^ b := Nat.succ_mul _ _
      omega
    have h2 : (m + 1) % 2 ^ b = 0 := by
      have := Nat.div_add_mod (m + 1) (2 ^ b)
      rw [h1, Nat.mul_add, Nat.mul_one] at this; omega
    rw [h1, h2, if_neg (Nat.succ_ne_zero _), hf']
    split
    · next h0 => rw [h0]; simp; omega
    · next h0 =>
      obtain ⟨e, he⟩ : ∃ e, m / 2 ^ b = e + 1 := Nat.exists_eq_succ_of_ne_zero h0
      rw [he]
      have : 2 ^ (e + 1 + 1 - 1) = 2 * 2 ^ e := by rw [show e + 1 + 1 - 1 = e + 1 by omega, Nat.pow_succ, Nat.mul_comm]
      rw [this, ← Nat.mul_assoc, show e + 1 - 1 = e by omega]
      exact Nat.mul_lt_mul_of_pos_right (by omega) (Nat.two_pow_pos _)
theorem magVal_lt {b m n : Nat} : magVal b m < magVal b n ↔ m < n := by
  have h : ∀ m n, m < n → magVal b m < magVal b n := by
    intro m n h
    induction h with
    | refl => exact magVal_succ b m
    | step _ ih => exact Nat.lt_trans ih (magVal_succ b _)
  refine ⟨fun h1 => ?_, h m n⟩
  rcases Nat.lt_trichotomy m n with h2 | h2 | h2
  · exact h2
  · subst h2; omega
  · have := h n m h2; omega
theorem magVal_inj {b m n : Nat} : magVal b m = magVal b n ↔ m = n := by
  refine ⟨fun h => ?_, fun h => by rw [h]⟩
  rcases Nat.lt_trichotomy m n with h2 | h2 | h2
  · have := (magVal_lt (b := b)).2 h2; omega
  · exact h2
  · have := (magVal_lt (b := b)).2 h2; omega
theorem magVal_zero (b : Nat) : magVal b 0 = 0 := by simp [magVal]
theorem magVal_pos {b m : Nat} : 0 < magVal b m ↔ 0 < m := by
  have := magVal_lt (b := b) (m := 0) (n := m)
  rwa [magVal_zero] at this

/-- sign and magnitude determine the pattern -/
theorem ext_mag {w : Nat} (hw : 0 < w) {x y : BitVec w} (hs : x.msb = y.msb) (hm : mag x = mag y) : x = y := by
  apply BitVec.eq_of_toNat_eq
  have key : ∀ z : BitVec w, z.toNat = (if z.msb then 2 ^ (w - 1) else 0) + mag z := by
    intro z
    unfold mag
    have h2 := z.isLt
    have h3 : 2 ^ w = 2 * 2 ^ (w - 1) := by rw [← Nat.pow_succ']; congr 1; omega
    have h4 := BitVec.msb_eq_decide z
    by_cases h : 2 ^ (w - 1) ≤ z.toNat
    · rw [h4, decide_eq_true h, if_pos rfl, Nat.mod_eq_sub_mod h, Nat.mod_eq_of_lt (by omega)]; omega
    · rw [h4, decide_eq_false h, Nat.mod_eq_of_lt (by omega)]; simp
  rw [key x, key y, hs, hm]

end Dpm.Fp
