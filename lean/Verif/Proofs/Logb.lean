import Verif.Proofs.Ilogb
import Verif.Proofs.Guard
/-
ilogb and logb of one lane with all special cases.
-/
namespace Dpm.X86
open Dpm.Reg Dpm.Fp

/-- `impl_ilogb` of one lane, `cv` being the conversion of integer lanes -/
def ilogbLane {w : Nat} (o : MathOpt) (k0 kn : BitVec 32) (cv : BitVec w → BitVec w) (x : BitVec w) : BitVec w :=
  let y := evalIlogbLane cv (x &&& BitVec.intMax w)
  let y := if o.handleErr then (if isInf x then BitVec.intMax w else if isZero x then k0.signExtend w else y) else y
  if o.propNan then (if isNaN x then kn.signExtend w else y) else y
/-- `impl_logb` of one lane -/
def logbLane {w : Nat} (o : MathOpt) (cv : BitVec w → BitVec w) (x : BitVec w) : BitVec w :=
  let y := cv (evalIlogbLane cv (x &&& BitVec.intMax w))
  if o.handleErr then
    let y := if isZero x then fdiv (oneBits w ^^^ BitVec.intMin w) (fsub (x &&& BitVec.intMax w) (x &&& BitVec.intMax w)) else y
    if isInf x || isNaN x then fmul x x else y
  else if o.propNan then (if isNaN x then fmul x x else y) else y

section
variable {T : Ety} (h : T.Ok) (hf : T.flt = true) {v : VSz} {i : Nat} (hi : i < extent T v)
include h hf hi
theorem absZero_lane (s : ISA) (x : Vec v) : lane T.w (cmpEq s T v (fabsV T v x) (setzero v)) i = laneMask T.w (isZero (lane T.w x i)) := by
  have hw := fltW h hf
  refine (cmpEq_lane s h v _ _ hi).trans ?_
  rw [fabsV_lane h hi, setzero_lane]
  unfold laneEq
  rw [if_pos hf, fEq_zero hw, (abs_sm hw.pos _).2]
  congr 1
  rw [Bool.eq_iff_iff, decide_eq_true_eq, zero_iff]
theorem absInf_lane (x : Vec v) : lane T.w (isinfAbs T v (fabsV T v x)) i = laneMask T.w (isInf (lane T.w x i)) := by
  have hw := fltW h hf
  rw [isinfAbs_lane h hi, fabsV_lane h hi, isinf_lane hw]
theorem unordSelf_lane (x : Vec v) : lane T.w (isunordV T v x x) i = laneMask T.w (isNaN (lane T.w x i)) := by
  have hw := fltW h hf
  rw [isunordV_lane h hi, fNaN_eq hw, Bool.or_self]

theorem ilogbV_lane (s : ISA) (o : MathOpt) (k0 kn : BitVec 32) (cv : BitVec T.w → BitVec T.w)
    (hcv : ∀ y : Vec v, lane T.w (cvtIF s T v y) i = cv (lane T.w y i)) (x : Vec v) :
    lane T.w (ilogbV o k0 kn s T v x) i = ilogbLane o k0 kn cv (lane T.w x i) := by
  have hw := fltW h hf
  have hfill : ∀ x : BitVec T.w, lane T.w (fillV v x) i = x := fun x => fillV_lane h x hi
  unfold ilogbV
  extract_lets absX y0 z1 y1
  have e0 : lane T.w y0 i = evalIlogbLane cv (lane T.w x i &&& BitVec.intMax T.w) := by
    refine (evalIlogb_lane s h hf cv hi hcv absX).trans ?_
    rw [fabsV_lane h hi]
  have e1 : lane T.w y1 i = if o.handleErr then (if isInf (lane T.w x i) then BitVec.intMax T.w else if isZero (lane T.w x i) then k0.signExtend T.w else lane T.w y0 i) else lane T.w y0 i := by
    show lane T.w (if o.handleErr then _ else _) i = _
    split
    · refine (blendT_lane h hi s _ _ _ _ (absInf_lane h hf hi x)).trans ?_
      rw [hfill, blendT_lane h hi s _ _ _ _ (absZero_lane h hf hi s x), hfill]
    · rfl
  unfold ilogbLane
  dsimp only
  rw [← e0, ← e1]
  split
  · refine (blendT_lane h hi s _ _ _ _ (unordSelf_lane h hf hi x)).trans ?_
    rw [hfill]
  · rfl

theorem logbV_lane (s : ISA) (o : MathOpt) (cv : BitVec T.w → BitVec T.w)
    (hcv : ∀ y : Vec v, lane T.w (cvtIF s T v y) i = cv (lane T.w y i)) (x : Vec v) :
    lane T.w (logbV o s T v x) i = logbLane o cv (lane T.w x i) := by
  have hw := fltW h hf
  have hfill : ∀ x : BitVec T.w, lane T.w (fillV v x) i = x := fun x => fillV_lane h x hi
  unfold logbV
  extract_lets absX y0 m y1 dom dom2
  have e0 : lane T.w y0 i = cv (evalIlogbLane cv (lane T.w x i &&& BitVec.intMax T.w)) := by
    refine (hcv _).trans ?_
    rw [evalIlogb_lane s h hf cv hi hcv, fabsV_lane h hi]
  have e1 : lane T.w y1 i = if isZero (lane T.w x i) then fdiv (oneBits T.w ^^^ BitVec.intMin T.w) (fsub (lane T.w x i &&& BitVec.intMax T.w) (lane T.w x i &&& BitVec.intMax T.w)) else lane T.w y0 i := by
    refine (guard_lane s h hi y0 _ m _ (absZero_lane h hf hi s x)).trans ?_
    rw [fdivL_lane h hi, fsubL_lane h hi, hfill, fabsV_lane h hi, if_pos rfl]
  have e2 : lane T.w dom i = laneMask T.w (isInf (lane T.w x i) || isNaN (lane T.w x i)) := by
    refine (bitOr_lane _ _ _ _).trans ?_
    rw [absInf_lane h hf hi, unordSelf_lane h hf hi]
    cases isInf (lane T.w x i) <;> cases isNaN (lane T.w x i) <;> simp [laneMask]
  unfold logbLane
  dsimp only
  rw [← e0, ← e1]
  split
  · refine (guard_lane s h hi y1 _ dom _ e2).trans ?_
    rw [fmulL_lane h hi]
  · split
    · refine (guard_lane s h hi y0 _ dom2 _ (unordSelf_lane h hf hi x)).trans ?_
      rw [fmulL_lane h hi]
    · rfl
end

/-! ### on values -/
theorem abs_cls {w : Nat} (h : W w) (x : BitVec w) :
    isFinite (x &&& BitVec.intMax w) = isFinite x ∧ expF (x &&& BitVec.intMax w) = expF x ∧ (val (x &&& BitVec.intMax w)).natAbs = (val x).natAbs := by
  have hm := (abs_sm h.pos x).2
  refine ⟨?_, ?_, ?_⟩
  · unfold isFinite expF; rw [hm]
  · unfold expF; rw [hm]
  · rw [natAbs_val, natAbs_val, hm]
theorem isExponent_abs {w : Nat} (h : W w) {x : BitVec w} {e : Int} (he : IsExponent (x &&& BitVec.intMax w) e) : IsExponent x e := by
  unfold IsExponent at he ⊢
  rw [(abs_cls h x).2.2] at he
  exact he
theorem isExponent_unique {w : Nat} {x : BitVec w} {e e' : Int} (h : IsExponent x e) (h' : IsExponent x e') : e = e' := by
  obtain ⟨a, b, c⟩ := h
  obtain ⟨a', b', c'⟩ := h'
  have h1 := (Nat.pow_lt_pow_iff_right (by omega : 1 < 2)).1 (Nat.lt_of_le_of_lt a b')
  have h2 := (Nat.pow_lt_pow_iff_right (by omega : 1 < 2)).1 (Nat.lt_of_le_of_lt a' b)
  omega

/-- the exponent of a nonzero finite number, as computed -/
theorem ilogb_core {w : Nat} (h : W w) (cv : BitVec w → BitVec w) {x : BitVec w} (hfin : isFinite x = true) (h0 : mag x ≠ 0)
    (hcv : expF x = 0 → ∀ y, cv y = ofInt w y.toInt) :
    ∃ e : Int, IsExponent x e ∧ evalIlogbLane cv (x &&& BitVec.intMax w) = BitVec.ofInt w e ∧ -2000 < e ∧ e < 2000 := by
  have ha := abs_sm h.pos x
  have hc := abs_cls h x
  obtain ⟨e, e1, e2⟩ := evalIlogbLane_spec h cv (x := x &&& BitVec.intMax w) ha.1 (hc.1.trans hfin) (by rw [ha.2]; exact h0) (by rw [hc.2.1]; exact hcv)
  exact ⟨e, isExponent_abs h e1, e2⟩

theorem fin_ilogbLane {w : Nat} (o : MathOpt) (k0 kn : BitVec 32) (cv : BitVec w → BitVec w) {x : BitVec w} (hfin : isFinite x = true) (h0 : mag x ≠ 0) :
    ilogbLane o k0 kn cv x = evalIlogbLane cv (x &&& BitVec.intMax w) := by
  have hz : ¬ isZero x = true := fun hz => h0 ((zero_iff x).1 hz)
  unfold ilogbLane
  simp [hz, finite_cls hfin]
theorem fin_logbLane {w : Nat} (o : MathOpt) (cv : BitVec w → BitVec w) {x : BitVec w} (hfin : isFinite x = true) (h0 : mag x ≠ 0) :
    logbLane o cv x = cv (evalIlogbLane cv (x &&& BitVec.intMax w)) := by
  have hz : ¬ isZero x = true := fun hz => h0 ((zero_iff x).1 hz)
  unfold logbLane
  simp [hz, finite_cls hfin]

theorem zero_not {w : Nat} (h : W w) {x : BitVec w} (hz : isZero x = true) : isInf x = false ∧ isNaN x = false ∧ isFinite x = true := by
  have h0 := (zero_iff x).1 hz
  have hfin : isFinite x = true := by
    rw [finite_iff h, h0]
    rcases h with h | h <;> subst h <;> decide
  exact ⟨(finite_cls hfin).2, (finite_cls hfin).1, hfin⟩
theorem inf_not_nan' {w : Nat} (h : W w) {x : BitVec w} (hx : isInf x = true) : isNaN x = false := by
  have h1 := (inf_iff h x).1 hx
  cases hn : isNaN x with
  | false => rfl
  | true => have := (nan_iff h x).1 hn; omega
/-- `logb(+-0) = -inf` -/
theorem logb_zero {w : Nat} (h : W w) {o : MathOpt} (ho : o.handleErr = true) (cv : BitVec w → BitVec w) {x : BitVec w} (hz : isZero x = true) :
    isInf (logbLane o cv x) = true ∧ (logbLane o cv x).msb = true := by
  obtain ⟨z1, z2, z3⟩ := zero_not h hz
  have h0 := (zero_iff x).1 hz
  have hA : x &&& BitVec.intMax w = pack w false 0 := by
    have := abs_sm h.pos x
    apply BitVec.eq_of_toNat_eq
    rw [toNat_sm h.pos, this.1, this.2, h0]
    unfold pack; simp
  have hl : logbLane o cv x = fdiv (oneBits w ^^^ BitVec.intMin w) (fsub (pack w false 0) (pack w false 0)) := by
    unfold logbLane
    simp [ho, z1, z2, hz, hA]
  rw [hl]
  rcases h with h | h <;> subst h
  · exact ⟨by decide +kernel, by decide +kernel⟩
  · exact ⟨by decide +kernel, by decide +kernel⟩
theorem infMag_lt' {w : Nat} (h : W w) : infMag w < 2 ^ (w - 1) := by rcases h with h | h <;> subst h <;> decide
/-- `logb(+-inf) = +inf` -/
theorem logb_inf {w : Nat} (h : W w) {o : MathOpt} (ho : o.handleErr = true) (cv : BitVec w → BitVec w) {x : BitVec w} (hx : isInf x = true) :
    isInf (logbLane o cv x) = true ∧ (logbLane o cv x).msb = false := by
  have hn := inf_not_nan' h hx
  have hz : isZero x = false := by
    cases hz : isZero x with
    | false => rfl
    | true => rw [(zero_not h hz).1] at hx; cases hx
  have hl : logbLane o cv x = pack w false (infMag w) := by
    unfold logbLane fmul
    simp [ho, hx, hn, hz]
  have := infMag_lt' h
  rw [hl]
  exact ⟨(inf_iff h _).2 (mag_pack h this), msb_pack h this⟩
theorem logb_nan {w : Nat} (h : W w) {o : MathOpt} (ho : o.handleErr = true ∨ o.propNan = true) (cv : BitVec w → BitVec w) {x : BitVec w} (hx : isNaN x = true) :
    isNaN (logbLane o cv x) = true := by
  have hl : logbLane o cv x = quiet x := by
    unfold logbLane fmul
    rcases ho with ho | ho
    · simp [ho, hx]
    · cases hh : o.handleErr <;> simp [ho, hh, hx]
  rw [hl]; exact quiet_nan h hx

/-! ### with the faulty conversion -/
theorem lane32_low_toNat (y : BitVec 64) : (lane 32 y 0).toNat = y.toNat % 2 ^ 32 := by
  unfold lane
  simp
/-- subnormals with leading bit 16..30: the exponent is one too large -/
theorem ilogb_bad_subn {x : BitVec 64} (h1 : 2 ^ 16 ≤ (val x).natAbs) (h2 : (val x).natAbs < 2 ^ 31) :
    ∃ e : Int, IsExponent x e ∧ evalIlogbLane i64f64Bad (x &&& BitVec.intMax 64) = BitVec.ofInt 64 (e + 1) ∧ -2000 < e ∧ e < 0 := by
  have hw : W 64 := Or.inr rfl
  have ha := abs_sm hw.pos x
  obtain ⟨c1, c2, c3⟩ := abs_cls hw x
  have hE : expF x = 0 := by
    false_or_by_contra
    rename_i hne
    rw [natAbs_val_fields] at h2
    unfold fieldVal at h2
    rw [if_neg hne] at h2
    have : 2 ^ mb 64 * 1 ≤ (2 ^ mb 64 + manF x) * 2 ^ (expF x - 1) := Nat.mul_le_mul (by omega) (Nat.two_pow_pos _)
    have h3 : (2 : Nat) ^ 31 ≤ 2 ^ mb 64 := by decide
    omega
  have hv : (val x).natAbs = manF x := by
    rw [natAbs_val_fields]; unfold fieldVal; rw [if_pos hE]
  rw [hv] at h1 h2
  have hm0 : manF x ≠ 0 := by have : 0 < 2 ^ 16 := by decide
                              omega
  have ht1 := Nat.log2_self_le hm0
  have ht2 := Nat.lt_log2_self (n := manF x)
  generalize (manF x).log2 = t at *
  have hA : (x &&& BitVec.intMax 64).toNat = manF x := by
    rw [toNat_sm hw.pos, ha.1, ha.2, mag_fields x, hE]; simp
  have t1 : 16 ≤ t := by
    have := (Nat.pow_lt_pow_iff_right (by omega : 1 < 2)).1 (Nat.lt_of_le_of_lt h1 ht2); omega
  have t2 : t < 31 := (Nat.pow_lt_pow_iff_right (by omega : 1 < 2)).1 (Nat.lt_of_le_of_lt ht1 h2)
  refine ⟨(t : Int) - 1074, ?_, ?_, by omega, by omega⟩
  · unfold IsExponent
    have hu : unitExp 64 = 1074 := rfl
    rw [hv, hu, show ((t : Int) - 1074 + (1074 : Nat)).toNat = t by omega]
    exact ⟨ht1, ht2, by omega⟩
  · obtain ⟨r1, r2⟩ := clz_range hw (x := x &&& BitVec.intMax 64) (t := t) (by rw [hA]; exact ht1) (by rw [hA]; exact ht2)
    have hr := evalIlogbLane_subn (t := t + 1) (c := t + 1) hw i64f64Bad (x := x &&& BitVec.intMax 64) ha.1 (c2.trans hE) ?_ (by omega) (by omega) rfl
    · rw [hr]; congr 1
      have hu : unitExp 64 = 1074 := rfl
      rw [hu]; omega
    · generalize (~~~ ((x &&& BitVec.intMax 64) >>> expBits 64) &&& (x &&& BitVec.intMax 64)) = y at *
      have hyt : 2 ^ (t + 1) ≤ 2 ^ 31 := Nat.pow_le_pow_right (by omega) (by omega)
      have hy : y.toNat < 2 ^ 31 := by omega
      have hl : (lane 32 y 0).toNat = y.toNat := by rw [lane32_low_toNat, Nat.mod_eq_of_lt (by omega)]
      have hs : ((lane 32 y 0).sshiftRight 16).toNat = y.toNat / 2 ^ 16 := by
        rw [BitVec.sshiftRight_eq_of_msb_false, BitVec.toNat_ushiftRight, hl, Nat.shiftRight_eq_div_pow]
        rw [BitVec.msb_eq_decide, hl]; simp; omega
      rw [i64f64Bad_eq, hs]
      obtain ⟨d, hd⟩ : ∃ d, t = d + 16 := ⟨t - 16, by omega⟩
      subst hd
      have p1 : 2 ^ (d + 16) = 2 ^ d * 2 ^ 16 := Nat.pow_add ..
      have p2 : 2 ^ (d + 16 + 1) = 2 * (2 ^ d * 2 ^ 16) := by rw [Nat.pow_succ, p1, Nat.mul_comm]
      have p3 : 2 ^ (d + 16 + 1 + 1) = 4 * (2 ^ d * 2 ^ 16) := by rw [Nat.pow_succ, p2]; omega
      apply cvt_exp hw
      · rw [p2]; rw [p1] at r1; rw [p2] at r2
        generalize 2 ^ d = D at *; omega
      · rw [p3]; rw [p1] at r1; rw [p2] at r2
        generalize 2 ^ d = D at *; omega
      · show _ < 52; omega
/-- small negative integers: the result is `2^49 - 2^16 + e` -/
theorem i64f64Bad_neg {e : Int} (h1 : -2000 < e) (h2 : e < 0) : i64f64Bad (BitVec.ofInt 64 e) = ofInt 64 (2 ^ 49 - 2 ^ 16 + e) := by
  have hy : (BitVec.ofInt 64 e).toNat = 2 ^ 64 - e.natAbs := by
    rw [BitVec.toNat_ofInt]; omega
  generalize BitVec.ofInt 64 e = y at *
  have hl : (lane 32 y 0).toNat = 2 ^ 32 - e.natAbs := by rw [lane32_low_toNat, hy]; omega
  have hs : ((lane 32 y 0).sshiftRight 16).toNat = 2 ^ 32 - 1 := by
    rw [BitVec.sshiftRight_eq_of_msb_true, BitVec.toNat_not, BitVec.toNat_ushiftRight, BitVec.toNat_not, hl, Nat.shiftRight_eq_div_pow]
    · omega
    · rw [BitVec.msb_eq_decide, hl]; simp; omega
  rw [i64f64Bad_eq, hs, hy]
  congr 1
  omega
theorem i64f64Bad_nonneg {e : Int} (h1 : 0 ≤ e) (h2 : e < 2000) : i64f64Bad (BitVec.ofInt 64 e) = ofInt 64 e := by
  have hy : (BitVec.ofInt 64 e).toNat = e.toNat := by
    rw [BitVec.toNat_ofInt]; omega
  generalize BitVec.ofInt 64 e = y at *
  have hl : (lane 32 y 0).toNat = e.toNat := by rw [lane32_low_toNat, hy]; omega
  have hs : ((lane 32 y 0).sshiftRight 16).toNat = 0 := by
    rw [BitVec.sshiftRight_eq_of_msb_false, BitVec.toNat_ushiftRight, hl, Nat.shiftRight_eq_div_pow]
    · omega
    · rw [BitVec.msb_eq_decide, hl]; simp; omega
  rw [i64f64Bad_eq, hs, hy]
  congr 1
  omega
end Dpm.X86
