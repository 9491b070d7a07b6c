import Verif.Proofs.Fields
import Verif.Proofs.Nextafter
import Verif.Spec.Manip
/-! frexp on one lane. -/
namespace Dpm.X86
open Dpm.Reg Dpm.Fp

section lanes
variable {T : Ety} (h : T.Ok) {v : VSz} {i : Nat} (hi : i < extent T v)
include h hi
theorem toI_ok : T.toI.Ok := ⟨h.1, fun h => by cases h⟩
theorem fmulL_lane (a b : Vec v) : lane T.w (fmulL T.w a b) i = fmul (lane T.w a i) (lane T.w b i) := lane_map2 _ _ _ (lane_bound h hi)
theorem fsubL_lane (a b : Vec v) : lane T.w (fsubL T.w a b) i = fsub (lane T.w a i) (lane T.w b i) := lane_map2 _ _ _ (lane_bound h hi)
theorem fdivL_lane (a b : Vec v) : lane T.w (fdivL T.w a b) i = fdiv (lane T.w a i) (lane T.w b i) := lane_map2 _ _ _ (lane_bound h hi)
theorem subT_lane (s : ISA) (a b : Vec v) : lane T.w (subI s T.toI v a b) i = lane T.w a i - lane T.w b i := subI_lane s (toI_ok h hi) v a b hi
theorem addT_lane (s : ISA) (a b : Vec v) : lane T.w (addI s T.toI v a b) i = lane T.w a i + lane T.w b i := addI_lane s (toI_ok h hi) v a b hi
theorem shrT_lane (s : ISA) (k : Nat) (a : Vec v) : lane T.w (shrC s T.toI k v a) i = lane T.w a i >>> k := shrC_lane s (toI_ok h hi) v a hi k
theorem shlT_lane (s : ISA) (k : Nat) (a : Vec v) : lane T.w (shlC s T.toI k v a) i = lane T.w a i <<< k := shlC_lane s (toI_ok h hi) v a hi k
theorem blendT_lane (s : ISA) (a b m : Vec v) (p : Bool) (hm : lane T.w m i = laneMask T.w p) :
    lane T.w (blendv s T.toI v a b m) i = if p then lane T.w b i else lane T.w a i := blendv_lane s (toI_ok h hi) v a b m hi p hm
theorem andnot_lane (a b : Vec v) : lane T.w (bitAndnot a b) i = ~~~ lane T.w a i &&& lane T.w b i := by
  unfold bitAndnot; rw [lane_and, lane_not _ (lane_bound h hi)]
end lanes
theorem bitAnd_lane {v : VSz} (w i : Nat) (a b : Vec v) : lane w (bitAnd a b) i = lane w a i &&& lane w b i := lane_and _ _ _ _
theorem bitOr_lane {v : VSz} (w i : Nat) (a b : Vec v) : lane w (bitOr a b) i = lane w a i ||| lane w b i := lane_or _ _ _ _
theorem mask_and {w : Nat} (p : Bool) (x : BitVec w) : laneMask w p &&& x = if p then x else 0#w := by
  cases p <;> simp [laneMask]
theorem andnot_mask {w : Nat} (p : Bool) (x : BitVec w) : ~~~ laneMask w p &&& x = if p then 0#w else x := by
  cases p <;> simp [laneMask]

/-- `impl_frexp` on one lane -/
def frexpLane {w : Nat} (digits : Nat) (x : BitVec w) : BitVec w × BitVec w :=
  let subn := decide (expF x = 0)
  let nx := if subn then fmul x (expMult w) else x
  let nfz := decide (mag x = 0) || decide (expF x = emax w)
  (if nfz then x else ofFields w nx.msb (bias w - 1) (manF nx),
   if nfz then x &&& expOnes w else BitVec.ofNat w (expF nx) - BitVec.ofNat w (bias w - 1) - (if subn then BitVec.ofNat w digits else 0#w))

theorem frexpV_lane (s : ISA) {T : Ety} (h : T.Ok) (hf : T.flt = true) {v : VSz} {i : Nat} (hi : i < extent T v) (x : Vec v) :
    lane T.w (frexpV s T v x).1 i = (frexpLane T.toI.digits (lane T.w x i)).1 ∧
    lane T.w (frexpV s T v x).2 i = (frexpLane T.toI.digits (lane T.w x i)).2 := by
  have hw := fltW h hf
  have hfill : ∀ x : BitVec T.w, lane T.w (fillV v x) i = x := fun x => fillV_lane h x hi
  have hz : lane T.w (setzero v) i = 0#T.w := setzero_lane v i
  unfold frexpV
  extract_lets expX notFin isSubn isZero off nx0 nx1 ne0 ix nx2 ne1 nfz
  generalize hX : lane T.w x i = X
  have h1 : lane T.w expX i = X &&& expOnes T.w := by rw [← hX, ← hfill (expOnes T.w)]; exact bitAnd_lane _ _ _ _
  have h2 : lane T.w notFin i = laneMask T.w (decide (expF X = emax T.w)) := by
    refine (cmpEqI_lane s h v _ _ hi).trans ?_
    rw [h1, hfill]; simp only [(expF_and hw X).1]
  have h3 : lane T.w isSubn i = laneMask T.w (decide (expF X = 0)) := by
    refine (cmpEqI_lane s h v _ _ hi).trans ?_
    rw [h1, hz]; simp only [(expF_and hw X).2]
  have h4 : lane T.w isZero i = laneMask T.w (decide (mag X = 0)) := by
    refine (cmpEq_lane s h v _ _ hi).trans ?_
    unfold laneEq; rw [if_pos hf, hX, hz, fEq_zero hw]
  have h5 : lane T.w off i = if decide (expF X = 0) then BitVec.ofNat T.w T.toI.digits else 0#T.w := by
    refine (bitAnd_lane _ _ _ _).trans ?_
    rw [h3, hfill, mask_and]
  have h7 : lane T.w nx1 i = if decide (expF X = 0) then fmul X (expMult T.w) else X := by
    refine (blendv_lane s h v _ _ _ hi _ h3).trans ?_
    rw [hX]
    by_cases he : expF X = 0
    · simp only [he, decide_true, if_true]
      refine (fmulL_lane h hi _ _).trans ?_
      rw [hfill]
      congr 1
      refine (bitAnd_lane _ _ _ _).trans ?_
      rw [h3, mask_and, he, hX]; simp
    · simp [he]
  have h8 : lane T.w nfz i = laneMask T.w (decide (mag X = 0) || decide (expF X = emax T.w)) := by
    refine (bitOr_lane _ _ _ _).trans ?_
    rw [h4, h2, laneMask_or]
  unfold frexpLane
  dsimp only
  generalize (if decide (expF X = 0) = true then fmul X (expMult T.w) else X) = Y at *
  constructor
  · refine (blendv_lane s h v _ _ _ hi _ h8).trans ?_
    rw [hX]
    congr 1
    refine (bitOr_lane _ _ _ _).trans ?_
    have h9 : lane T.w (bitAnd ix (fillV v (~~~ expOnes T.w))) i = Y &&& ~~~ expOnes T.w := by
      refine (bitAnd_lane _ _ _ _).trans ?_
      rw [hfill]; show lane T.w nx1 i &&& _ = _
      rw [h7]
    rw [h9, hfill]
    have e1 : expMiddle T.w = bias T.w - 1 := by rcases hw with hw | hw <;> rw [hw] <;> rfl
    rw [mantBits_eq hw, e1]
    exact set_exp hw Y (by have := emax_bias hw; omega)
  · refine (blendT_lane h hi s _ _ _ _ h8).trans ?_
    rw [h1]
    congr 1
    refine (subT_lane h hi s _ _).trans ?_
    rw [h5]
    congr 1
    refine (subT_lane h hi s _ _).trans ?_
    rw [hfill, expOff_eq hw]
    congr 1
    refine (shrT_lane h hi s _ _).trans ?_
    have h10 : lane T.w ne0 i = Y &&& expOnes T.w := by
      refine (bitAnd_lane _ _ _ _).trans ?_
      rw [hfill, h7]
    rw [h10]
    apply BitVec.eq_of_toNat_eq
    rw [mantBits_eq hw, BitVec.toNat_ushiftRight, and_expOnes hw, Nat.shiftRight_eq_div_pow, Nat.mul_div_cancel _ (Nat.two_pow_pos _), BitVec.toNat_ofNat,
      Nat.mod_eq_of_lt]
    refine Nat.lt_of_le_of_lt (expF_le hw Y) ?_
    rcases hw with hw | hw <;> rw [hw] <;> decide
end Dpm.X86

namespace Dpm.Fp
open Dpm.X86
theorem scaledN_iff {x m : Nat} {e : Int} {p q : Nat} (he : e = q - p) :
    x * 2 ^ (-e).toNat = m * 2 ^ e.toNat ↔ x * 2 ^ p = m * 2 ^ q := by
  rcases Int.le_total 0 e with h0 | h0
  · have e1 : (-e).toNat = 0 := by omega
    have e2 : q = p + e.toNat := by omega
    rw [e1, e2, Nat.pow_add, Nat.pow_zero, Nat.mul_one]
    constructor
    · intro h; rw [h, Nat.mul_assoc, Nat.mul_comm (2 ^ e.toNat)]
    · intro h
      apply Nat.eq_of_mul_eq_mul_right (Nat.two_pow_pos p)
      rw [h, Nat.mul_assoc, Nat.mul_comm (2 ^ p)]
  · have e1 : e.toNat = 0 := by omega
    have e2 : p = q + (-e).toNat := by omega
    rw [e1, e2, Nat.pow_add, Nat.pow_zero, Nat.mul_one]
    constructor
    · intro h; rw [← h, Nat.mul_assoc, Nat.mul_comm (2 ^ q)]
    · intro h
      apply Nat.eq_of_mul_eq_mul_right (Nat.two_pow_pos q)
      rw [← h, Nat.mul_assoc, Nat.mul_comm (2 ^ q)]
theorem scaled_of_abs {w : Nat} {x m : BitVec w} {e : Int} (hs : x.msb = m.msb)
    (h : (val x).natAbs * 2 ^ (-e).toNat = (val m).natAbs * 2 ^ e.toNat) : Scaled (val x) (val m) e := by
  rw [natAbs_val, natAbs_val] at h
  unfold Scaled val neg
  rw [hs]
  cases m.msb
  · simp only [Bool.false_eq_true, if_false]
    rw [← Int.natCast_mul, ← Int.natCast_mul, h]
  · simp only [if_true]
    rw [Int.neg_mul, Int.neg_mul, ← Int.natCast_mul, ← Int.natCast_mul, h]
/-- `Scaled` determines the exponent -/
theorem scaled_unique {x m e e' : Int} (hx : x ≠ 0) (h : Scaled x m e) (h' : Scaled x m e') : e = e' := by
  unfold Scaled at h h'
  have hm : m ≠ 0 := by
    intro h0; rw [h0, Int.zero_mul] at h
    rcases Int.mul_eq_zero.1 h with h1 | h1
    · exact hx h1
    · have := Nat.two_pow_pos (-e).toNat; omega
  have a := congrArg Int.natAbs h
  have b := congrArg Int.natAbs h'
  rw [Int.natAbs_mul, Int.natAbs_mul, Int.natAbs_natCast, Int.natAbs_natCast] at a b
  generalize hX : x.natAbs = X at *
  generalize hM : m.natAbs = M at *
  have hX0 : 0 < X := by omega
  have hM0 : 0 < M := by omega
  -- choose a common bound
  have a2 := (scaledN_iff (x := X) (m := M) (e := e) (p := e.natAbs + e'.natAbs) (q := (e + e.natAbs + e'.natAbs).toNat) (by omega)).1 a
  have b2 := (scaledN_iff (x := X) (m := M) (e := e') (p := e.natAbs + e'.natAbs) (q := (e' + e.natAbs + e'.natAbs).toNat) (by omega)).1 b
  rw [a2] at b2
  have c := Nat.eq_of_mul_eq_mul_left hM0 b2
  have := Nat.pow_right_inj (by omega : 1 < 2) |>.1 c
  omega
theorem small_toInt {w : Nat} (h : W w) {z : Int} (h1 : -100000 < z) (h2 : z < 100000) : (BitVec.ofInt w z).toInt = z := by
  rw [BitVec.toInt_ofInt]
  rcases h with h | h <;> subst h
  · exact Int.bmod_eq_of_le (by omega) (by omega)
  · exact Int.bmod_eq_of_le (by omega) (by omega)
theorem setWidth_toInt {w k : Nat} (h : W w) (hk : k = 32) {E : BitVec w} (h1 : -100000 < E.toInt) (h2 : E.toInt < 100000) :
    (BitVec.setWidth k E).toInt = E.toInt := by
  subst hk
  have e1 : E = BitVec.ofInt w E.toInt := by simp
  rcases h with h | h <;> subst h
  · rw [BitVec.setWidth_eq]
  · have e2 : BitVec.setWidth 32 E = BitVec.ofInt 32 E.toInt := by
      apply BitVec.eq_of_toNat_eq
      rw [BitVec.toNat_setWidth, BitVec.toNat_ofInt, BitVec.toInt_eq_toNat_cond]
      have := E.isLt
      split <;> omega
    rw [e2, small_toInt (Or.inl rfl) h1 h2]
theorem ofNat_sub2 {w : Nat} (a b c : Nat) : BitVec.ofNat w a - BitVec.ofNat w b - BitVec.ofNat w c = BitVec.ofInt w ((a : Int) - b - c) := by
  rw [show (a : Int) - b - c = a + (-(b : Int)) + (-(c : Int)) by omega, BitVec.ofInt_add, BitVec.ofInt_add, BitVec.ofInt_neg, BitVec.ofInt_neg,
    BitVec.ofInt_natCast, BitVec.ofInt_natCast, BitVec.ofInt_natCast, BitVec.sub_eq_add_neg, BitVec.sub_eq_add_neg]
end Dpm.Fp

namespace Dpm.X86
open Dpm.Reg Dpm.Fp
theorem expMult_eq {w : Nat} (h : W w) : expMult w = ofFields w false (bias w + (mb w + 2)) 0 := by rcases h with h | h <;> subst h <;> decide
/-- a normal pattern and the same with the exponent of [1/2, 1) -/
theorem frac_fields {w : Nat} (h : W w) {y : BitVec w} (h0 : expF y ≠ 0) :
    IsFraction (ofFields w y.msb (bias w - 1) (manF y)) ∧
    (val y).natAbs * 2 ^ (bias w - 1) = (val (ofFields w y.msb (bias w - 1) (manF y))).natAbs * 2 ^ expF y := by
  have hb := emax_bias h
  have hb2 : 2 ≤ bias w := by rcases h with h | h <;> subst h <;> decide
  have hf := fields_of h (s := y.msb) (e := bias w - 1) (by omega) (manF_lt y)
  have hm := manF_lt y
  have hv : (val (ofFields w y.msb (bias w - 1) (manF y))).natAbs = (2 ^ mb w + manF y) * 2 ^ (bias w - 2) := by
    rw [natAbs_val_fields, hf.2.2.1, hf.2.2.2]; unfold fieldVal; rw [if_neg (by omega)]; rfl
  refine ⟨⟨?_, ?_, ?_⟩, ?_⟩
  · unfold isFinite; rw [hf.2.2.1]; simp; omega
  · rw [hv, unitExp_eq h, show bias w - 1 + mb w - 1 = mb w + (bias w - 2) by omega, Nat.pow_add]
    exact Nat.mul_le_mul_right _ (by omega)
  · rw [hv, unitExp_eq h, show bias w - 1 + mb w = (mb w + 1) + (bias w - 2) by omega, Nat.pow_add]
    exact Nat.mul_lt_mul_of_pos_right (by rw [Nat.pow_succ]; omega) (Nat.two_pow_pos _)
  · rw [hv, natAbs_val_fields]
    unfold fieldVal
    rw [if_neg h0, Nat.mul_assoc, Nat.mul_assoc, ← Nat.pow_add, ← Nat.pow_add]
    congr 2; omega
theorem normal_of_ge {w : Nat} {y : BitVec w} (hv : 2 ^ mb w ≤ (val y).natAbs) : expF y ≠ 0 := by
  intro h0
  rw [natAbs_val_fields, h0] at hv
  have := manF_lt y
  simp [fieldVal] at hv
  omega
/-- For finite nonzero `x` the fraction is right; the exponent is right up to the offset used for subnormals. -/
theorem frexpLane_spec {w : Nat} (h : W w) {x : BitVec w} {D : Nat} (hD : D < 90000) (hfin : isFinite x = true) (h0 : mag x ≠ 0) :
    IsFraction (frexpLane D x).1 ∧ (frexpLane D x).1.msb = x.msb ∧
    (frexpLane D x).2.toInt + (if expF x = 0 then ((D : Int) - (mb w + 2)) else 0) < 5000 ∧
    -5000 < (frexpLane D x).2.toInt + (if expF x = 0 then ((D : Int) - (mb w + 2)) else 0) ∧
    Scaled (val x) (val (frexpLane D x).1) ((frexpLane D x).2.toInt + (if expF x = 0 then ((D : Int) - (mb w + 2)) else 0)) := by
  have hb := emax_bias h
  have hbs : bias w ≤ 1023 ∧ 100 < bias w ∧ mb w ≤ 52 := by rcases h with h | h <;> subst h <;> decide
  have hne : expF x ≠ emax w := by unfold isFinite at hfin; simpa using hfin
  have hnfz : (decide (mag x = 0) || decide (expF x = emax w)) = false := by simp [h0, hne]
  by_cases he : expF x = 0
  · obtain ⟨y, hy, hyf, hys, hyv⟩ := fmul_pow2_subn h he (expMult_eq h) (k := mb w + 2) (by omega) (by omega)
    have hx1 : 1 ≤ (val x).natAbs := by rw [natAbs_val]; exact magVal_pos.2 (by omega)
    have hy0 : expF y ≠ 0 := by
      apply normal_of_ge
      rw [hyv]
      have h3 : 2 ^ mb w ≤ 1 * 2 ^ (mb w + 2) := by rw [Nat.one_mul]; exact Nat.pow_le_pow_right (by omega) (by omega)
      exact Nat.le_trans h3 (Nat.mul_le_mul_right _ hx1)
    have hye := expF_le h y
    obtain ⟨hF, hS⟩ := frac_fields h hy0
    have e1 : frexpLane D x = (ofFields w y.msb (bias w - 1) (manF y), BitVec.ofInt w ((expF y : Int) - (bias w - 1 : Nat) - D)) := by
      unfold frexpLane
      rw [he] at hnfz
      simp only [he, hnfz, decide_true, if_true, Bool.false_eq_true, if_false, hy, ofNat_sub2]
    rw [e1]
    dsimp only
    rw [small_toInt h (by omega) (by omega), if_pos he]
    have hms := (fields_of h (s := y.msb) (e := bias w - 1) (by omega) (manF_lt y)).1
    refine ⟨hF, by rw [hms, hys], by omega, by omega, scaled_of_abs (by rw [hms, hys]) ?_⟩
    rw [scaledN_iff (p := mb w + 2 + (bias w - 1)) (q := expF y) (by omega), Nat.pow_add, ← Nat.mul_assoc, ← hyv]
    exact hS
  · have hye := expF_le h x
    obtain ⟨hF, hS⟩ := frac_fields h he
    have e1 : frexpLane D x = (ofFields w x.msb (bias w - 1) (manF x), BitVec.ofInt w ((expF x : Int) - (bias w - 1 : Nat) - (0 : Nat))) := by
      unfold frexpLane
      simp only [hnfz, he, decide_false, Bool.false_eq_true, if_false]
      rw [show 0#w = BitVec.ofNat w 0 from rfl, ofNat_sub2]
    rw [e1]
    dsimp only
    rw [small_toInt h (by omega) (by omega), if_neg he]
    have hms := (fields_of h (s := x.msb) (e := bias w - 1) (by omega) (manF_lt x)).1
    refine ⟨hF, by rw [hms], by omega, by omega, scaled_of_abs (by rw [hms]) ?_⟩
    rw [scaledN_iff (p := bias w - 1) (q := expF x) (by omega)]
    exact hS
theorem frexpLane_other {w : Nat} {x : BitVec w} (D : Nat) (h : isFinite x = false ∨ mag x = 0) : (frexpLane D x).1 = x := by
  have hnfz : (decide (mag x = 0) || decide (expF x = emax w)) = true := by
    rcases h with h | h
    · unfold isFinite at h; simp at h; simp [h]
    · simp [h]
  unfold frexpLane
  simp only [hnfz, if_true]
end Dpm.X86
