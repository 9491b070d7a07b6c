import Verif.Proofs.Round
/-
Rounding before SSE4.1: through 32-bit integers, or by adding 2^23 / 2^52.
-/
namespace Dpm.Fp
open Dpm.X86

/-- one lane of `cvttBack` -/
def cvttLane {w : Nat} (x : BitVec w) : BitVec w := ofInt w (cvtInt 32 .zero x).toInt
/-- truncation fits in 32 bits -/
def Fits32 {w : Nat} (x : BitVec w) : Prop := isFinite x = true ∧ -2 ^ 31 ≤ toInt .zero x ∧ toInt .zero x < 2 ^ 31

theorem natAbs_toInt {w : Nat} (m : RMode) (x : BitVec w) : (toInt m x).natAbs = roundNat m (neg x) (val x).natAbs (2 ^ unitExp w) := by
  unfold toInt; dsimp only; split <;> omega
theorem ofInt_val {w : Nat} (h : W w) {z : Int} (hz : Repr w (z.natAbs * 2 ^ unitExp w)) :
    isFinite (ofInt w z) = true ∧ val (ofInt w z) = z * (2 ^ unitExp w : Nat) ∧ (z = 0 → ofInt w z = 0#w) := by
  obtain ⟨m, hm, he⟩ := hz
  have h1 := round_repr h (s := decide (z < 0)) hm he
  unfold ofInt
  refine ⟨h1.1, ?_, ?_⟩
  · rw [h1.2]
    generalize 2 ^ unitExp w = D
    by_cases hz : z < 0
    · simp only [hz, decide_true, if_true]
      conv => rhs; rw [show z = -(z.natAbs : Int) by omega]
      push_cast; rw [Int.neg_mul]
    · simp only [hz, decide_false, Bool.false_eq_true, if_false]
      conv => rhs; rw [show z = (z.natAbs : Int) by omega]
      push_cast; rfl
  · intro h0; subst h0
    rw [Int.natAbs_zero, Nat.zero_mul, round_zero]
    rfl
theorem cvttLane_fits {w : Nat} (h : W w) {x : BitVec w} (hx : Fits32 x) :
    isFinite (cvttLane x) = true ∧ val (cvttLane x) = toInt .zero x * (2 ^ unitExp w : Nat) ∧ (toInt .zero x = 0 → cvttLane x = 0#w) := by
  obtain ⟨hf, h1, h2⟩ := hx
  have e : (cvtInt 32 .zero x).toInt = toInt .zero x := by
    unfold cvtInt
    rw [if_pos (by simp [hf]; omega), BitVec.toInt_ofInt]
    exact Int.bmod_eq_of_le (by omega) (by omega)
  unfold cvttLane
  rw [e]
  refine ofInt_val h ?_
  rw [natAbs_toInt]
  exact repr_roundNat h .zero (neg x) hf
theorem cvttLane_unfit {w : Nat} {x : BitVec w} (hx : ¬ Fits32 x) : cvttLane x = ofInt w (-2 ^ 31) := by
  unfold cvttLane cvtInt
  rw [if_neg (by simp; intro a b; false_or_by_contra; exact hx ⟨a, b, by omega⟩)]
  rfl

theorem isCeil_unique {v D r s : Int} (hD : 0 < D) (h1 : IsCeil v D r) (h2 : IsCeil v D s) : r = s := by
  have key : ∀ a b : Int, (a - 1) * D < b * D → a ≤ b := fun a b h => by
    have := Int.lt_of_mul_lt_mul_right h (by omega); omega
  have := key r s (by have := h1.1; have := h2.2; omega)
  have := key s r (by have := h2.1; have := h1.2; omega)
  omega
theorem isFloor_unique {v D r s : Int} (hD : 0 < D) (h1 : IsFloor v D r) (h2 : IsFloor v D s) : r = s := by
  have key : ∀ a b : Int, a * D < (b + 1) * D → a ≤ b := fun a b h => by
    have := Int.lt_of_mul_lt_mul_right h (by omega); omega
  have := key r s (by have := h1.1; have := h2.2; omega)
  have := key s r (by have := h2.1; have := h1.2; omega)
  omega
theorem ceil_of_trunc {v D z : Int} (hD : 0 < D) (h : IsTrunc v D z) : IsCeil v D (z + if z * D < v then 1 else 0) := by
  obtain ⟨h1, h2⟩ := h
  have e1 : (z + 1) * D = z * D + D := by grind
  have e2 : (z - 1) * D = z * D - D := by grind
  rw [e1] at h1; rw [e2] at h2
  unfold IsCeil
  split
  · rw [show z + 1 - 1 = z by omega, e1]; omega
  · rw [Int.add_zero, e2]; omega
theorem floor_of_trunc {v D z : Int} (hD : 0 < D) (h : IsTrunc v D z) : IsFloor v D (z - if v < z * D then 1 else 0) := by
  obtain ⟨h1, h2⟩ := h
  have e1 : (z + 1) * D = z * D + D := by grind
  have e2 : (z - 1) * D = z * D - D := by grind
  rw [e1] at h1; rw [e2] at h2
  unfold IsFloor
  split
  · rw [show z - 1 + 1 = z by omega, e2]; omega
  · rw [Int.sub_zero, e1]; omega

theorem oneBits_fin {w : Nat} (h : W w) : isFinite (oneBits w) = true ∧ val (oneBits w) = (2 ^ unitExp w : Nat) := by
  rcases h with h | h <;> subst h <;> decide +kernel
theorem zeroBits_fin {w : Nat} (h : W w) : isFinite (0#w) = true ∧ val (0#w) = 0 := by
  rcases h with h | h <;> subst h <;> decide +kernel
/-- one lane of the old `ceil`, `floor` -/
def ceilLane {w : Nat} (x : BitVec w) : BitVec w := fadd (cvttLane x) (if fLt (cvttLane x) x then oneBits w else 0#w)
def floorLane {w : Nat} (x : BitVec w) : BitVec w := fsub (cvttLane x) (if fLt x (cvttLane x) then oneBits w else 0#w)

theorem lt_fin {w : Nat} {x y : BitVec w} (h : W w) (hx : isFinite x = true) (hy : isFinite y = true) : fLt x y = decide (val x < val y) := by
  rw [fLt_eq h]; unfold Fp.lt; rw [(finite_cls hx).1, (finite_cls hy).1]; simp
theorem fadd_ints {w : Nat} (h : W w) {t a : BitVec w} {z k : Int} (ht : isFinite t = true) (htv : val t = z * (2 ^ unitExp w : Nat))
    (ha : isFinite a = true) (hav : val a = k * (2 ^ unitExp w : Nat)) (hr : Repr w ((z + k).natAbs * 2 ^ unitExp w)) :
    isFinite (fadd t a) = true ∧ val (fadd t a) = (z + k) * (2 ^ unitExp w : Nat) := by
  have hs : val t + val a = (z + k) * (2 ^ unitExp w : Nat) := by rw [htv, hav, Int.add_mul]
  rw [← hs]
  exact fadd_val h ht ha (by rw [hs, Int.natAbs_mul, Int.natAbs_natCast]; exact hr)
theorem fsub_ints {w : Nat} (h : W w) {t a : BitVec w} {z k : Int} (ht : isFinite t = true) (htv : val t = z * (2 ^ unitExp w : Nat))
    (ha : isFinite a = true) (hav : val a = k * (2 ^ unitExp w : Nat)) (hr : Repr w ((z - k).natAbs * 2 ^ unitExp w)) :
    isFinite (fsub t a) = true ∧ val (fsub t a) = (z - k) * (2 ^ unitExp w : Nat) := by
  have hs : val t - val a = (z - k) * (2 ^ unitExp w : Nat) := by rw [htv, hav, Int.sub_mul]
  rw [← hs]
  exact fsub_val h ht ha (by rw [hs, Int.natAbs_mul, Int.natAbs_natCast]; exact hr)
theorem ceilLane_fits {w : Nat} (h : W w) {x : BitVec w} (hx : Fits32 x) : RoundsVal IsCeil x (ceilLane x) := by
  obtain ⟨c1, c2, c3⟩ := cvttLane_fits h hx
  have hD : (0 : Int) < (2 ^ unitExp w : Nat) := by exact_mod_cast Nat.two_pow_pos _
  have hc := ceil_of_trunc hD (toInt_trunc x)
  have hu := isCeil_unique hD (toInt_ceil x) hc
  have hr := repr_roundNat h .up (neg x) hx.1
  rw [← natAbs_toInt, hu] at hr
  have hone := oneBits_fin h
  have hzero := zeroBits_fin h
  unfold ceilLane
  rw [lt_fin h c1 hx.1, c2]
  by_cases hlt : toInt .zero x * (2 ^ unitExp w : Nat) < val x
  · rw [if_pos hlt] at hc hr
    rw [if_pos (decide_eq_true hlt)]
    have := fadd_ints h c1 c2 hone.1 (k := 1) (by rw [hone.2, Int.one_mul]) hr
    exact ⟨this.1, _, hc, this.2⟩
  · rw [if_neg hlt] at hc hr
    rw [if_neg (by simpa using hlt)]
    have := fadd_ints h c1 c2 hzero.1 (k := 0) (by rw [hzero.2, Int.zero_mul]) hr
    exact ⟨this.1, _, hc, this.2⟩
theorem floorLane_fits {w : Nat} (h : W w) {x : BitVec w} (hx : Fits32 x) : RoundsVal IsFloor x (floorLane x) := by
  obtain ⟨c1, c2, c3⟩ := cvttLane_fits h hx
  have hD : (0 : Int) < (2 ^ unitExp w : Nat) := by exact_mod_cast Nat.two_pow_pos _
  have hc := floor_of_trunc hD (toInt_trunc x)
  have hu := isFloor_unique hD (toInt_floor x) hc
  have hr := repr_roundNat h .down (neg x) hx.1
  rw [← natAbs_toInt, hu] at hr
  have hone := oneBits_fin h
  have hzero := zeroBits_fin h
  unfold floorLane
  rw [lt_fin h hx.1 c1, c2]
  by_cases hlt : val x < toInt .zero x * (2 ^ unitExp w : Nat)
  · rw [if_pos hlt] at hc hr
    rw [if_pos (decide_eq_true hlt)]
    have := fsub_ints h c1 c2 hone.1 (k := 1) (by rw [hone.2, Int.one_mul]) hr
    exact ⟨this.1, _, hc, this.2⟩
  · rw [if_neg hlt] at hc hr
    rw [if_neg (by simpa using hlt)]
    have := fsub_ints h c1 c2 hzero.1 (k := 0) (by rw [hzero.2, Int.zero_mul]) hr
    exact ⟨this.1, _, hc, this.2⟩
theorem cvttLane_trunc {w : Nat} (h : W w) {x : BitVec w} (hx : Fits32 x) : RoundsVal IsTrunc x (cvttLane x) := by
  obtain ⟨c1, c2, c3⟩ := cvttLane_fits h hx
  exact ⟨c1, _, toInt_trunc x, c2⟩

/-- everything else becomes about -2^31 -/
theorem minInt_fin {w : Nat} (h : W w) : isFinite (ofInt w (-2 ^ 31)) = true ∧ val (ofInt w (-2 ^ 31)) = -2 ^ 31 * (2 ^ unitExp w : Nat) := by
  have hr : Repr w ((-2 ^ 31 : Int).natAbs * 2 ^ unitExp w) := by
    have h1 : (2 : Nat) ^ 31 * 2 ^ unitExp w = 2 ^ mb w * 2 ^ (unitExp w + 31 - mb w) := by
      rw [← Nat.pow_add, ← Nat.pow_add]; congr 1
      rcases h with h | h <;> subst h <;> decide
    show Repr w (2 ^ 31 * 2 ^ unitExp w)
    rw [h1]
    refine repr_mk (by rw [Nat.pow_succ]; omega) ?_
    rw [← h1]
    rcases h with h | h <;> subst h <;> decide +kernel
  exact ⟨(ofInt_val h hr).1, (ofInt_val h hr).2.1⟩

theorem pow31 {w : Nat} (h : W w) (k : Nat) (hk1 : mb w ≤ unitExp w + k) (hk : k ≤ 32) : Repr w (2 ^ k * 2 ^ unitExp w) := by
  have h1 : 2 ^ k * 2 ^ unitExp w = 2 ^ mb w * 2 ^ (unitExp w + k - mb w) := by
    rw [← Nat.pow_add, ← Nat.pow_add]; congr 1; omega
  rw [h1]
  refine repr_mk (by rw [Nat.pow_succ]; omega) ?_
  rw [← h1]
  refine Nat.lt_of_le_of_lt (Nat.mul_le_mul_right _ (Nat.pow_le_pow_right (by omega) hk)) ?_
  rcases h with h | h <;> subst h <;> decide +kernel
theorem mb_le_unit {w : Nat} (h : W w) : mb w ≤ unitExp w := by rcases h with h | h <;> subst h <;> decide
/-- a negative sum stays between bounding patterns -/
theorem fadd_between {w : Nat} (h : W w) {x y : BitVec w} (hx : isFinite x = true) (hy : isFinite y = true) {A B : Nat}
    (hA : Repr w A) (hB : Repr w B) (h0 : 0 < A) (h1 : -(B : Int) ≤ val x + val y) (h2 : val x + val y ≤ -(A : Int)) :
    isFinite (fadd x y) = true ∧ -(B : Int) ≤ val (fadd x y) ∧ val (fadd x y) ≤ -(A : Int) := by
  obtain ⟨p, hp, rfl⟩ := hA
  obtain ⟨q, hq, rfl⟩ := hB
  rw [fadd_fin hx hy, if_neg (by omega), show decide (val x + val y < 0) = true by simp; omega]
  generalize hn : (val x + val y).natAbs = n
  have a1 := rne_ge (b := mb w) (n := n) (p := p) (mb_pos w) (by omega)
  have a2 := rne_le (b := mb w) (n := n) (p := q) (mb_pos w) (by omega)
  have hil := infMag_lt h
  have e : round w true n 1 = pack w true (rne (mb w) n 1) := by unfold round; rw [Nat.min_eq_left (by omega)]
  rw [e]
  have hm := mag_pack h (s := true) (show rne (mb w) n 1 < 2 ^ (w - 1) by omega)
  refine ⟨(finite_iff h _).2 (by omega), ?_⟩
  rw [val_pack h (by omega)]
  have m1 := (magVal_le (b := mb w)).2 a1
  have m2 := (magVal_le (b := mb w)).2 a2
  simp only [if_true]
  omega
theorem out_of_range {w : Nat} (h : W w) (a : BitVec w) (ha : isFinite a = true) (hav : val a = 0 ∨ val a = (2 ^ unitExp w : Nat) ∨ val a = -(2 ^ unitExp w : Nat)) :
    isFinite (fadd (ofInt w (-2 ^ 31)) a) = true ∧ -(2 ^ 32 * 2 ^ unitExp w : Nat) ≤ val (fadd (ofInt w (-2 ^ 31)) a) ∧
      val (fadd (ofInt w (-2 ^ 31)) a) ≤ -((2 ^ 30 * 2 ^ unitExp w : Nat) : Int) := by
  have hm := minInt_fin h
  have hu := mb_le_unit h
  have hD : 0 < 2 ^ unitExp w := Nat.two_pow_pos _
  refine fadd_between h hm.1 ha (pow31 h 30 (by omega) (by omega)) (pow31 h 32 (by omega) (by omega)) ?_ ?_ ?_ <;>
  · try rw [hm.2]
    generalize 2 ^ unitExp w = D at *
    omega
theorem flip_fin {w : Nat} (h : W w) {a : BitVec w} (ha : isFinite a = true) : isFinite (a ^^^ BitVec.intMin w) = true := by
  rw [finite_iff h] at ha ⊢; rw [(flip_sm h a).2]; exact ha
theorem ceilLane_unfit {w : Nat} (h : W w) {x : BitVec w} (hx : ¬ Fits32 x) :
    isFinite (ceilLane x) = true ∧ -(2 ^ 32 * 2 ^ unitExp w : Nat) ≤ val (ceilLane x) ∧ val (ceilLane x) ≤ -((2 ^ 30 * 2 ^ unitExp w : Nat) : Int) := by
  unfold ceilLane
  rw [cvttLane_unfit hx]
  have hone := oneBits_fin h
  have hzero := zeroBits_fin h
  split
  · exact out_of_range h _ hone.1 (by rw [hone.2]; omega)
  · exact out_of_range h _ hzero.1 (Or.inl hzero.2)
theorem floorLane_unfit {w : Nat} (h : W w) {x : BitVec w} (hx : ¬ Fits32 x) :
    isFinite (floorLane x) = true ∧ -(2 ^ 32 * 2 ^ unitExp w : Nat) ≤ val (floorLane x) ∧ val (floorLane x) ≤ -((2 ^ 30 * 2 ^ unitExp w : Nat) : Int) := by
  unfold floorLane
  rw [cvttLane_unfit hx]
  have hone := oneBits_fin h
  have hzero := zeroBits_fin h
  have hm := minInt_fin h
  unfold fsub
  rw [(finite_cls hm.1).1]
  simp only [Bool.false_eq_true, if_false]
  split
  · rw [(finite_cls hone.1).1]
    simp only [Bool.false_eq_true, if_false]
    exact out_of_range h _ (flip_fin h hone.1) (by rw [val_flip h, hone.2]; omega)
  · rw [(finite_cls hzero.1).1]
    simp only [Bool.false_eq_true, if_false]
    exact out_of_range h _ (flip_fin h hzero.1) (by rw [val_flip h, hzero.2]; omega)
end Dpm.Fp
