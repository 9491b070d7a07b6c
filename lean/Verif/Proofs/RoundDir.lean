import Verif.Spec.RoundDir
import Verif.Model.RoundDir
import Verif.Proofs.RoundTie
/-
Directed rounding: the function is the textbook definition; exact results do not depend on the direction.
-/
namespace Dpm.Fp
open Dpm.X86

theorem rdir_char {m : RMode} (hm : m ≠ .nearest) {s : Bool} {b n d p : Nat} (hd : 0 < d) (h1 : magVal b p * d ≤ n) (h2 : n < magVal b (p + 1) * d) :
    rdir m s b n d = p + if away m s = true ∧ n ≠ magVal b p * d then 1 else 0 := by
  obtain ⟨hr, hf⟩ := rne_range (b := b) (n := n) (d := d)
  unfold rdir
  rw [if_neg hm]
  dsimp only
  generalize (n / d).log2 - b = k at *
  have hD : 0 < d * 2 ^ k := Nat.mul_pos hd (Nat.two_pow_pos k)
  have hdm := Nat.div_add_mod n (d * 2 ^ k)
  have hml := Nat.mod_lt n hD
  generalize n / (d * 2 ^ k) = f at *
  generalize n % (d * 2 ^ k) = r at *
  have m1 : magVal b (k * 2 ^ b + f) = f * 2 ^ k := magVal_kf hr (by omega)
  have m2 : magVal b (k * 2 ^ b + f + 1) = (f + 1) * 2 ^ k := by
    have := magVal_kf (b := b) (k := k) (f := f + 1) (by omega) (by omega)
    rw [← this, Nat.add_assoc]
  have e1 : f * 2 ^ k * d = d * 2 ^ k * f := by rw [Nat.mul_comm (f * 2 ^ k), Nat.mul_comm f, ← Nat.mul_assoc]
  have e2 : (f + 1) * 2 ^ k * d = d * 2 ^ k * f + d * 2 ^ k := by
    rw [Nat.mul_comm ((f + 1) * 2 ^ k), Nat.mul_comm (f + 1), ← Nat.mul_assoc, Nat.mul_add, Nat.mul_one]
  have hp : p = k * 2 ^ b + f := by
    have a1 : magVal b p < magVal b (k * 2 ^ b + f + 1) := by
      apply Nat.lt_of_mul_lt_mul_right (a := d)
      rw [m2, e2]; omega
    have a2 : magVal b (k * 2 ^ b + f) < magVal b (p + 1) := by
      apply Nat.lt_of_mul_lt_mul_right (a := d)
      rw [m1, e1]; omega
    have := magVal_lt.1 a1
    have := magVal_lt.1 a2
    omega
  subst hp
  rw [m1, e1]
  have : (n ≠ d * 2 ^ k * f) ↔ r ≠ 0 := by omega
  congr 1
  simp only [this, Bool.and_eq_true, decide_eq_true_eq]
theorem rdir_exact {m : RMode} {s : Bool} {b p d : Nat} (hb : 0 < b) (hd : 0 < d) : rdir m s b (magVal b p * d) d = p := by
  by_cases hm : m = .nearest
  · unfold rdir; rw [if_pos hm]; exact rne_exact hb hd
  · have h : magVal b p * d < magVal b (p + 1) * d := Nat.mul_lt_mul_of_pos_right (magVal_succ b p) hd
    rw [rdir_char hm hd (Nat.le_refl _) h, if_neg (by simp)]; rfl
/-- The function rounds in the given direction. -/
theorem rdir_isDirected {m : RMode} {s : Bool} {b n d : Nat} (hb : 0 < b) (hd : 0 < d) : IsDirected m s b n d (rdir m s b n d) := by
  unfold IsDirected
  by_cases hm : m = .nearest
  · rw [if_pos hm]; unfold rdir; rw [if_pos hm]; exact rne_nearest hb hd
  rw [if_neg hm]
  obtain ⟨p, h1, h2⟩ := exists_below (b := b) (n := n) hd
  rw [rdir_char hm hd h1 h2]
  cases ha : away m s
  · simp only [Bool.false_eq_true, if_false, false_and, Nat.add_zero]
    refine ⟨h1, fun q hq => ?_⟩
    have : magVal b q < magVal b (p + 1) := Nat.lt_of_mul_lt_mul_right (a := d) (by omega)
    have := magVal_lt.1 this
    omega
  · simp only [if_true, true_and]
    by_cases he : n = magVal b p * d
    · rw [if_neg (by omega), Nat.add_zero]
      refine ⟨by omega, fun q hq => ?_⟩
      rw [he] at hq
      exact magVal_le.1 (Nat.le_of_mul_le_mul_right hq hd)
    · rw [if_pos he]
      refine ⟨by omega, fun q hq => ?_⟩
      have : magVal b p < magVal b q := Nat.lt_of_mul_lt_mul_right (a := d) (by omega)
      have := magVal_lt.1 this
      omega
theorem rdir_ge {m : RMode} {s : Bool} {b n d p : Nat} (hb : 0 < b) (hd : 0 < d) (h : magVal b p * d ≤ n) : p ≤ rdir m s b n d := by
  by_cases hm : m = .nearest
  · unfold rdir; rw [if_pos hm]; exact rne_ge_d hb hd h
  obtain ⟨q, h1, h2⟩ := exists_below (b := b) (n := n) hd
  rw [rdir_char hm hd h1 h2]
  have : magVal b p < magVal b (q + 1) := Nat.lt_of_mul_lt_mul_right (a := d) (by omega)
  have := magVal_lt.1 this
  omega
theorem rdir_le {m : RMode} {s : Bool} {b n d p : Nat} (hb : 0 < b) (hd : 0 < d) (h : n ≤ magVal b p * d) : rdir m s b n d ≤ p := by
  by_cases hm : m = .nearest
  · unfold rdir; rw [if_pos hm]; exact rne_le_d hb hd h
  obtain ⟨q, h1, h2⟩ := exists_below (b := b) (n := n) hd
  rw [rdir_char hm hd h1 h2]
  have : magVal b q ≤ magVal b p := Nat.le_of_mul_le_mul_right (Nat.le_trans h1 h) hd
  have h3 := magVal_le.1 this
  split
  · next hc =>
    have : q ≠ p := by rintro rfl; omega
    omega
  · omega

/-- representable values are the same in every direction -/
theorem roundDir_repr {w : Nat} (m : RMode) (s : Bool) {n : Nat} (hn : Repr w n) : roundDir w m s n 1 = round w s n 1 := by
  obtain ⟨p, hp, rfl⟩ := hn
  unfold roundDir round
  have h1 := rdir_exact (m := m) (s := s) (b := mb w) (p := p) (d := 1) (mb_pos w) Nat.one_pos
  have h2 := rne_exact (b := mb w) (m := p) (d := 1) (mb_pos w) Nat.one_pos
  rw [Nat.mul_one] at h1 h2
  rw [h1, h2, Nat.min_eq_left (Nat.le_of_lt hp)]
  congr 1
  split <;> omega
theorem roundDir_nearest (w : Nat) (s : Bool) (n d : Nat) : roundDir w .nearest s n d = round w s n d := by
  unfold roundDir round rdir; simp
theorem faddM_nearest {w : Nat} (x y : BitVec w) : faddM .nearest x y = fadd x y := by
  unfold faddM fadd
  simp only [roundDir_nearest]
  cases neg x <;> cases neg y <;> simp
theorem fdivM_nearest {w : Nat} (x y : BitVec w) : fdivM .nearest x y = fdiv x y := by
  unfold fdivM fdiv; simp only [roundDir_nearest]
/-- The results are correctly rounded. -/
theorem roundDir_isRounded {w : Nat} (h : W w) (m : RMode) (s : Bool) {n d : Nat} (hd : 0 < d) : IsRoundedDir m s n d (roundDir w m s n d) := by
  have hi := infMag_lt h
  have h0 : 0 < infMag w := by rcases h with h | h <;> subst h <;> decide
  refine ⟨msb_pack h (by split <;> omega), rdir m s (mb w) n d, rdir_isDirected (mb_pos w) hd, ?_⟩
  unfold roundDir
  rw [mag_pack h (by split <;> omega)]
  split <;> omega
theorem fsubM_nearest {w : Nat} (x y : BitVec w) : fsubM .nearest x y = fsub x y := by
  unfold fsubM fsub; simp only [faddM_nearest]
theorem fmulM_nearest {w : Nat} (x y : BitVec w) : fmulM .nearest x y = fmul x y := by
  unfold fmulM fmul; simp only [roundDir_nearest]
theorem ofIntM_nearest (w : Nat) (z : Int) : ofIntM .nearest w z = ofInt w z := roundDir_nearest _ _ _ _
theorem faddM_fin {m : RMode} {w : Nat} {x y : BitVec w} (hx : isFinite x = true) (hy : isFinite y = true) :
    faddM m x y = if val x + val y = 0 then pack w (if neg x = neg y then neg x else decide (m = .down)) 0
      else roundDir w m (decide (val x + val y < 0)) (val x + val y).natAbs 1 := by
  have a := finite_cls hx; have b := finite_cls hy
  unfold faddM; simp [a.1, a.2, b.1, b.2]
theorem fsubM_fin {m : RMode} {w : Nat} (h : W w) {x y : BitVec w} (hx : isFinite x = true) (hy : isFinite y = true) :
    fsubM m x y = if val x - val y = 0 then pack w (if neg x = !neg y then neg x else decide (m = .down)) 0
      else roundDir w m (decide (val x - val y < 0)) (val x - val y).natAbs 1 := by
  have a := finite_cls hx; have b := finite_cls hy
  have hf : isFinite (y ^^^ BitVec.intMin w) = true := by rw [finite_iff h, (flip_sm h y).2, ← finite_iff h]; exact hy
  unfold fsubM
  rw [a.1, b.1, if_neg (by simp), if_neg (by simp), faddM_fin hx hf, val_flip h]
  unfold neg
  rw [(flip_sm h y).1]
  rfl
/-- exact sums that are not zero, and zero sums of equal signs or not rounding down -/
theorem faddM_eq {m : RMode} {w : Nat} {x y : BitVec w} (hx : isFinite x = true) (hy : isFinite y = true) (hr : Repr w (val x + val y).natAbs)
    (h0 : val x + val y = 0 → m ≠ .down ∨ neg x = neg y) : faddM m x y = fadd x y := by
  rw [faddM_fin hx hy, fadd_fin hx hy]
  split
  · next hz =>
    rcases h0 hz with hm | he
    · have : decide (m = .down) = false := decide_eq_false hm
      rw [this]; cases neg x <;> cases neg y <;> rfl
    · rw [if_pos he, he]; cases neg y <;> rfl
  · exact roundDir_repr m _ hr
theorem fsubM_eq {m : RMode} {w : Nat} (h : W w) {x y : BitVec w} (hx : isFinite x = true) (hy : isFinite y = true) (hr : Repr w (val x - val y).natAbs)
    (h0 : val x - val y = 0 → m ≠ .down ∨ neg x = !neg y) : fsubM m x y = fsub x y := by
  rw [fsubM_fin h hx hy, fsub_fin h hx hy]
  split
  · next hz =>
    rcases h0 hz with hm | he
    · have : decide (m = .down) = false := decide_eq_false hm
      rw [this]; cases neg x <;> cases neg y <;> rfl
    · rw [if_pos he, he]; cases neg y <;> rfl
  · exact roundDir_repr m _ hr
/-- exact sums have the exact value -/
theorem faddM_val {m : RMode} {w : Nat} (h : W w) {x y : BitVec w} (hx : isFinite x = true) (hy : isFinite y = true)
    (hr : Repr w (val x + val y).natAbs) : isFinite (faddM m x y) = true ∧ val (faddM m x y) = val x + val y := by
  by_cases h0 : val x + val y = 0
  · rw [faddM_fin hx hy, if_pos h0, h0]; exact val_zeroPack h _
  · rw [faddM_eq hx hy hr (fun h => absurd h h0)]; exact fadd_val h hx hy hr
theorem fsubM_val {m : RMode} {w : Nat} (h : W w) {x y : BitVec w} (hx : isFinite x = true) (hy : isFinite y = true)
    (hr : Repr w (val x - val y).natAbs) : isFinite (fsubM m x y) = true ∧ val (fsubM m x y) = val x - val y := by
  by_cases h0 : val x - val y = 0
  · rw [fsubM_fin h hx hy, if_pos h0, h0]; exact val_zeroPack h _
  · rw [fsubM_eq h hx hy hr (fun h => absurd h h0)]; exact fsub_val h hx hy hr

/-! ### ceil, floor, trunc through integers -/
def cvttLaneM (m : RMode) {w : Nat} (x : BitVec w) : BitVec w := ofIntM m w (cvtInt 32 .zero x).toInt
theorem repr31 {w : Nat} (h : W w) : Repr w ((-2 ^ 31 : Int).natAbs * 2 ^ unitExp w) := by
  have h2 : mb w ≤ unitExp w + 31 := by rcases h with h | h <;> subst h <;> decide
  exact pow31 h 31 h2 (by omega)
/-- the integer part of a number converts back exactly, in every direction -/
theorem cvttLaneM_eq {w : Nat} (h : W w) (m : RMode) (x : BitVec w) : cvttLaneM m x = cvttLane x := by
  unfold cvttLaneM cvttLane ofIntM ofInt
  apply roundDir_repr
  by_cases hx : Fits32 x
  · obtain ⟨hf, h1, h2⟩ := hx
    have e : (cvtInt 32 .zero x).toInt = toInt .zero x := by
      unfold cvtInt
      rw [if_pos (by simp [hf]; omega), BitVec.toInt_ofInt]
      exact Int.bmod_eq_of_le (by omega) (by omega)
    rw [e, natAbs_toInt]
    exact repr_roundNat h .zero (neg x) hf
  · have e : (cvtInt 32 .zero x).toInt = -2 ^ 31 := by
      unfold cvtInt
      rw [if_neg (by simp; intro a b; false_or_by_contra; exact hx ⟨a, b, by omega⟩)]
      rfl
    rw [e]; exact repr31 h
def ceilLaneM (m : RMode) {w : Nat} (x : BitVec w) : BitVec w := faddM m (cvttLaneM m x) (if fLt (cvttLaneM m x) x then oneBits w else 0#w)
def floorLaneM (m : RMode) {w : Nat} (x : BitVec w) : BitVec w := fsubM m (cvttLaneM m x) (if fLt x (cvttLaneM m x) then oneBits w else 0#w)
theorem trunc_neg_one {v D z : Int} (hD : 0 < D) (h : IsTrunc v D z) : (z = -1 → v ≤ -D) ∧ (z = 1 → D ≤ v) := by
  obtain ⟨h1, h2⟩ := h
  constructor
  · rintro rfl
    by_cases hv : 0 ≤ v
    · have := (h1 hv).2; omega
    · have := (h2 (by omega)).2; omega
  · rintro rfl
    by_cases hv : 0 ≤ v
    · have := (h1 hv).1; omega
    · have := (h2 (by omega)).1; omega
theorem ceilLaneM_eq {w : Nat} (h : W w) (m : RMode) {x : BitVec w} (hx : Fits32 x) : ceilLaneM m x = ceilLane x := by
  obtain ⟨c1, c2, c3⟩ := cvttLane_fits h hx
  have hD : (0 : Int) < (2 ^ unitExp w : Nat) := by exact_mod_cast Nat.two_pow_pos _
  have ht := toInt_trunc x
  have hc := ceil_of_trunc hD ht
  have hu := isCeil_unique hD (toInt_ceil x) hc
  have hr := repr_roundNat h .up (neg x) hx.1
  rw [← natAbs_toInt, hu] at hr
  have hone := oneBits_fin h
  have hzero := zeroBits_fin h
  unfold ceilLaneM ceilLane
  rw [cvttLaneM_eq h, lt_fin h c1 hx.1, c2]
  by_cases hlt : toInt .zero x * (2 ^ unitExp w : Nat) < val x
  · rw [if_pos hlt] at hr
    rw [if_pos (decide_eq_true hlt)]
    have e : val (cvttLane x) + val (oneBits w) = (toInt .zero x + 1) * (2 ^ unitExp w : Nat) := by rw [c2, hone.2, Int.add_mul, Int.one_mul]
    refine faddM_eq c1 hone.1 (by rw [e, Int.natAbs_mul, Int.natAbs_natCast]; exact hr) ?_
    intro h0
    rw [e] at h0
    have : toInt .zero x + 1 = 0 := by
      rcases Int.mul_eq_zero.1 h0 with h | h
      · exact h
      · omega
    have hz : toInt .zero x = -1 := by omega
    have := (trunc_neg_one hD ht).1 hz
    rw [hz] at hlt; omega
  · rw [if_neg hlt] at hr
    rw [if_neg (by simpa using hlt)]
    have e : val (cvttLane x) + val (0#w) = (toInt .zero x + 0) * (2 ^ unitExp w : Nat) := by rw [c2, hzero.2]; simp
    refine faddM_eq c1 hzero.1 (by rw [e, Int.natAbs_mul, Int.natAbs_natCast]; exact hr) ?_
    intro h0
    rw [e] at h0
    have : toInt .zero x = 0 := by
      rcases Int.mul_eq_zero.1 h0 with h | h
      · omega
      · omega
    rw [c3 this]; exact .inr rfl
theorem floorLaneM_val {w : Nat} (h : W w) (m : RMode) {x : BitVec w} (hx : Fits32 x) :
    RoundsVal IsFloor x (floorLaneM m x) ∧ (m ≠ .down ∨ val x < 0 ∨ (2 ^ unitExp w : Nat) ≤ val x → floorLaneM m x = floorLane x) ∧
      (m = .down → 0 ≤ val x → val x < (2 ^ unitExp w : Nat) → floorLaneM m x = BitVec.intMin w) := by
  obtain ⟨c1, c2, c3⟩ := cvttLane_fits h hx
  have hD : (0 : Int) < (2 ^ unitExp w : Nat) := by exact_mod_cast Nat.two_pow_pos _
  have ht := toInt_trunc x
  have hc := floor_of_trunc hD ht
  have hu := isFloor_unique hD (toInt_floor x) hc
  have hr := repr_roundNat h .down (neg x) hx.1
  rw [← natAbs_toInt, hu] at hr
  have hone := oneBits_fin h
  have hzero := zeroBits_fin h
  unfold floorLaneM floorLane
  rw [cvttLaneM_eq h, lt_fin h hx.1 c1, c2]
  by_cases hlt : val x < toInt .zero x * (2 ^ unitExp w : Nat)
  · rw [if_pos hlt] at hc hr
    rw [if_pos (decide_eq_true hlt)]
    have e : val (cvttLane x) - val (oneBits w) = (toInt .zero x - 1) * (2 ^ unitExp w : Nat) := by rw [c2, hone.2, Int.sub_mul, Int.one_mul]
    have hr' : Repr w (val (cvttLane x) - val (oneBits w)).natAbs := by rw [e, Int.natAbs_mul, Int.natAbs_natCast]; exact hr
    have hv := fsubM_val (m := m) h c1 hone.1 hr'
    refine ⟨⟨hv.1, _, hc, by rw [hv.2, e]⟩, fun _ => ?_, fun _ h0 h1 => ?_⟩
    · refine fsubM_eq h c1 hone.1 hr' ?_
      intro h0
      rw [e] at h0
      have : toInt .zero x - 1 = 0 := by
        rcases Int.mul_eq_zero.1 h0 with h | h
        · exact h
        · omega
      have hz : toInt .zero x = 1 := by omega
      have := (trunc_neg_one hD ht).2 hz
      rw [hz] at hlt; omega
    · exfalso
      have := (ht.1 h0).1
      omega
  · rw [if_neg hlt] at hc hr
    rw [if_neg (by simpa using hlt)]
    have e : val (cvttLane x) - val (0#w) = (toInt .zero x - 0) * (2 ^ unitExp w : Nat) := by rw [c2, hzero.2]; simp
    have hr' : Repr w (val (cvttLane x) - val (0#w)).natAbs := by rw [e, Int.natAbs_mul, Int.natAbs_natCast]; exact hr
    have hv := fsubM_val (m := m) h c1 hzero.1 hr'
    refine ⟨⟨hv.1, _, hc, by rw [hv.2, e]⟩, fun hm => ?_, fun hm h0 h1 => ?_⟩
    · refine fsubM_eq h c1 hzero.1 hr' ?_
      intro h0
      rw [e] at h0
      have hz : toInt .zero x = 0 := by
        rcases Int.mul_eq_zero.1 h0 with h | h
        · omega
        · omega
      rcases hm with hm | hm | hm
      · exact .inl hm
      · exfalso
        have := (ht.2 hm).1
        rw [hz] at hlt
        omega
      · exfalso
        have := (ht.1 (by omega)).2
        rw [hz] at this
        omega
    · have hz : toInt .zero x = 0 := by
        have h2 := ht.1 h0
        false_or_by_contra
        rename_i hne
        rcases Int.lt_or_gt_of_ne hne with hl | hg
        · have : (toInt .zero x + 1) * (2 ^ unitExp w : Nat) ≤ 0 * ((2 ^ unitExp w : Nat) : Int) := Int.mul_le_mul_of_nonneg_right (by omega) (by omega)
          omega
        · have : 1 * ((2 ^ unitExp w : Nat) : Int) ≤ toInt .zero x * ((2 ^ unitExp w : Nat) : Int) := Int.mul_le_mul_of_nonneg_right (by omega) (by omega)
          omega
      have hn : neg (0#w) = false := by unfold neg; simp
      rw [fsubM_fin h c1 hzero.1, if_pos (by rw [e, hz]; simp), c3 hz, hn, if_neg (by simp), hm]
      rcases h with h | h <;> subst h <;> decide
end Dpm.Fp
