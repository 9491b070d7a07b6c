import Verif.Proofs.Logb
import Verif.Props.X86Manip
/-!
C37: ilogb and logb of the x86 backend.
`IsExponent x e` is `2^e <= |x| < 2^(e+1)` on exact values (Spec/Manip.lean).
-/
namespace Dpm.X86
open Dpm.Reg Dpm.Fp

theorem signExtend_back {w k : Nat} (h : W w) (hk : k = 32) (a : BitVec 32) : (BitVec.setWidth k (a.signExtend w)).toInt = a.toInt := by
  subst hk
  congr 1
  apply BitVec.eq_of_getLsbD_eq
  intro i hi
  have : i < w := by rcases h with h | h <;> omega
  rw [BitVec.getLsbD_setWidth, BitVec.getLsbD_signExtend]
  simp [hi, this]

theorem bad_subn_w {w : Nat} (hw8 : w = 64) (cv : BitVec w → BitVec w) (hcv : ∀ y : BitVec w, cv y = BitVec.setWidth w (i64f64Bad (BitVec.setWidth 64 y)))
    (o : MathOpt) (k0 kn : BitVec 32) {X : BitVec w} (h1 : 2 ^ 16 ≤ (val X).natAbs) (h2 : (val X).natAbs < 2 ^ 31) :
    ∃ e : Int, IsExponent X e ∧ ilogbLane o k0 kn cv X = BitVec.ofInt w (e + 1) ∧ -2000 < e ∧ e < 0 := by
  subst hw8
  have hw : W 64 := Or.inr rfl
  have : cv = i64f64Bad := by
    funext y; rw [hcv]; exact (BitVec.setWidth_eq _).trans (congrArg i64f64Bad (BitVec.setWidth_eq y))
  subst this
  have hm0 : mag X ≠ 0 := by
    intro h0
    rw [natAbs_val, h0, magVal_zero] at h1
    exact absurd h1 (by decide)
  have hE : isFinite X = true := by
    rw [finite_iff hw]
    false_or_by_contra
    rename_i hc
    rw [natAbs_val] at h2
    have h3 : 2 ^ 31 < mag X := by
      have : (2 : Nat) ^ 31 < infMag 64 := by decide
      omega
    have h4 := (magVal_lt (b := mb 64) (m := 2 ^ 31) (n := mag X)).2 h3
    have h5 : magVal (mb 64) (2 ^ 31) = 2 ^ 31 := by decide
    omega
  obtain ⟨e, e1, e2, e3⟩ := ilogb_bad_subn h1 h2
  exact ⟨e, e1, (fin_ilogbLane o k0 kn i64f64Bad hE hm0).trans e2, e3⟩
theorem bad_nonneg_w {w : Nat} (hw8 : w = 64) {e : Int} (h1 : 0 ≤ e) (h2 : e < 2000) :
    BitVec.setWidth w (i64f64Bad (BitVec.setWidth 64 (BitVec.ofInt w e))) = ofInt w e := by
  subst hw8
  refine (BitVec.setWidth_eq _).trans ?_
  rw [BitVec.setWidth_eq]
  exact i64f64Bad_nonneg h1 h2
theorem bad_neg_w {w : Nat} (hw8 : w = 64) {e : Int} (h1 : -2000 < e) (h2 : e < 0) :
    BitVec.setWidth w (i64f64Bad (BitVec.setWidth 64 (BitVec.ofInt w e))) = ofInt w (2 ^ 49 - 2 ^ 16 + e) := by
  subst hw8
  refine (BitVec.setWidth_eq _).trans ?_
  rw [BitVec.setWidth_eq]
  exact i64f64Bad_neg h1 h2

section C37
variable {c ci : Cfg} (hc : c.Ok) (hf : c.T.flt = true)
include hc hf
/-- the conversion of the configuration, lane by lane -/
theorem exists_cv : ∃ cv : BitVec c.T.w → BitVec c.T.w, (∀ {i : Nat}, i < extent c.T c.v → ∀ y : Vec c.v, lane c.T.w (cvtIF c.s c.T c.v y) i = cv (lane c.T.w y i)) ∧
    (CvtOk c.s c.T c.v → ∀ y, cv y = ofInt c.T.w y.toInt) ∧
    (¬ CvtOk c.s c.T c.v → c.T.w = 64 ∧ ∀ y : BitVec c.T.w, cv y = BitVec.setWidth c.T.w (i64f64Bad (BitVec.setWidth 64 y))) := by
  by_cases hs : CvtOk c.s c.T c.v
  · exact ⟨fun y => ofInt c.T.w y.toInt, fun hi y => cvtIF_lane c.s hc.ety hf hs y hi, fun _ _ => rfl, fun h => absurd hs h⟩
  · have h8 : c.T.bytes = 8 := by
      rcases (hc.ety.2 hf).1 with h4 | h8
      · exact absurd (Or.inl h4) hs
      · exact h8
    have hw : c.T.w = 64 := hx_w64 h8
    obtain ⟨s, ⟨b, f, sg⟩, N, v⟩ := c
    dsimp only at h8 hf hs hw ⊢
    subst h8; subst hf
    refine ⟨i64f64Bad, fun hi y => cvtIF_bad s hc.wf (fun hv => hc.avx hv) hs y hi, fun h => absurd h hs, fun _ => ⟨rfl, fun y => ?_⟩⟩
    exact ((BitVec.setWidth_eq _).trans (congrArg i64f64Bad (BitVec.setWidth_eq y))).symm

theorem ilogb_elts (hi : c.IntOf ci) (o : MathOpt) (k0 kn : BitVec 32) (x : c.Data) {cv : BitVec c.T.w → BitVec c.T.w}
    (hcv : ∀ {i : Nat}, i < extent c.T c.v → ∀ y : Vec c.v, lane c.T.w (cvtIF c.s c.T c.v y) i = cv (lane c.T.w y i)) :
    ∃ r, vIlogb c ci o k0 kn x = .ok r ∧ ∀ p, p < c.N → elt ci r p = BitVec.setWidth ci.w (ilogbLane o k0 kn cv (elt c x p)) := by
  refine ⟨_, rfl, fun p hp => ?_⟩
  rw [storeExps_elt hc hf hi _ _ hp, ilogbV_lane hc.ety hf (idx_mod hc p) c.s o k0 kn cv (hcv (idx_mod hc p))]; rfl
theorem logb_elts (o : MathOpt) (x : c.Data) {cv : BitVec c.T.w → BitVec c.T.w}
    (hcv : ∀ {i : Nat}, i < extent c.T c.v → ∀ y : Vec c.v, lane c.T.w (cvtIF c.s c.T c.v y) i = cv (lane c.T.w y i)) :
    ∃ r, vLogb c o x = .ok r ∧ ∀ p, p < c.N → elt c r p = logbLane o cv (elt c x p) := by
  refine ⟨_, rfl, fun p hp => ?_⟩
  rw [elt_vec1 hc _ _ _ hp, logbV_lane hc.ety hf (idx_mod hc p) c.s o cv (hcv (idx_mod hc p))]; rfl

/-- C37 for `ilogb`: the exponent of every normal number on every configuration, of every subnormal number wherever the
conversion of 64-bit lanes is right (`CvtOk`, otherwise `C37_ilogb_subnormal_violated`); zero, NaN and, for `float`, infinity give
`FP_ILOGB0`, `FP_ILOGBNAN` and `INT_MAX` when the library is built to handle errors (infinite doubles: `C37_ilogb_inf_violated`). -/
theorem C37_ilogb_partial (hi : c.IntOf ci) (o : MathOpt) (k0 kn : BitVec 32) (x : c.Data) :
    ∃ r, vIlogb c ci o k0 kn x = .ok r ∧ ∀ p, p < c.N →
      (isNormal (elt c x p) = true → IsExponent (elt c x p) (elt ci r p).toInt) ∧
      (CvtOk c.s c.T c.v → isSubnormal (elt c x p) = true → IsExponent (elt c x p) (elt ci r p).toInt) ∧
      (o.handleErr = true → isZero (elt c x p) = true → (elt ci r p).toInt = k0.toInt) ∧
      (o.handleErr = true → c.T.bytes = 4 → isInf (elt c x p) = true → (elt ci r p).toInt = 2 ^ 31 - 1) ∧
      (o.propNan = true → isNaN (elt c x p) = true → (elt ci r p).toInt = kn.toInt) := by
  have hw := fltW hc.ety hf
  obtain ⟨cv, hcv, hok, _⟩ := exists_cv hc hf
  obtain ⟨r, hr, h⟩ := ilogb_elts hc hf hi o k0 kn x hcv
  have hciw : ci.w = 32 := by show 8 * ci.T.bytes = 32; rw [hi.T]; rfl
  refine ⟨r, hr, fun p hp => ?_⟩
  rw [h p hp]
  generalize elt c x p = X
  have key : isFinite X = true → mag X ≠ 0 → (expF X = 0 → CvtOk c.s c.T c.v) → IsExponent X (BitVec.setWidth ci.w (ilogbLane o k0 kn cv X)).toInt := by
    intro hfin h0 hx
    obtain ⟨e, e1, e2, e3, e4⟩ := ilogb_core hw cv hfin h0 (fun hE => hok (hx hE))
    rw [fin_ilogbLane o k0 kn cv hfin h0, e2]
    have ht := small_toInt hw (z := e) (by omega) (by omega)
    rw [setWidth_toInt hw hciw (by rw [ht]; omega) (by rw [ht]; omega), ht]
    exact e1
  refine ⟨fun hn => ?_, fun hs hn => ?_, fun ho hz => ?_, fun ho h4 hx => ?_, fun ho hx => ?_⟩
  · unfold isNormal at hn
    simp only [Bool.and_eq_true, decide_eq_true_eq] at hn
    refine key (by unfold isFinite; simp [hn.1]) (fun h0 => hn.2 ?_) (fun h0 => absurd h0 hn.2)
    unfold expF; rw [h0]; simp
  · unfold isSubnormal at hn
    simp only [Bool.and_eq_true, decide_eq_true_eq] at hn
    refine key ?_ (fun h0 => hn.2 ?_) (fun _ => hs)
    · unfold isFinite; rw [hn.1]
      exact decide_eq_true (fun h => by have := emax_bias hw; have h2 : 0 = emax c.T.w := h; omega)
    · unfold manF; rw [h0]; simp
  · obtain ⟨z1, z2, _⟩ := zero_not hw hz
    have hl : ilogbLane o k0 kn cv X = k0.signExtend c.T.w := by
      unfold ilogbLane; simp [ho, z1, z2, hz]
    rw [hl]; exact signExtend_back hw hciw k0
  · have hn := inf_not_nan' hw hx
    have hl : ilogbLane o k0 kn cv X = BitVec.intMax c.T.w := by
      unfold ilogbLane; simp [ho, hn, hx]
    rw [hl]
    have hw4 : c.T.w = 32 := by show 8 * c.T.bytes = 32; rw [h4]
    rw [hw4, hciw]; decide
  · have hl : ilogbLane o k0 kn cv X = kn.signExtend c.T.w := by
      unfold ilogbLane; simp [ho, hx]
    rw [hl]; exact signExtend_back hw hciw kn

/-- C37 is violated by every infinite `double`: `ilogb` gives -1 instead of `INT_MAX` (the low half of `LONG_MAX`). -/
theorem C37_ilogb_inf_violated (hi : c.IntOf ci) {o : MathOpt} (ho : o.handleErr = true) (k0 kn : BitVec 32) (h8 : c.T.bytes = 8) (x : c.Data) :
    ∃ r, vIlogb c ci o k0 kn x = .ok r ∧ ∀ p, p < c.N → isInf (elt c x p) = true → (elt ci r p).toInt = -1 := by
  have hw := fltW hc.ety hf
  obtain ⟨cv, hcv, _⟩ := exists_cv hc hf
  obtain ⟨r, hr, h⟩ := ilogb_elts hc hf hi o k0 kn x hcv
  have hciw : ci.w = 32 := by show 8 * ci.T.bytes = 32; rw [hi.T]; rfl
  refine ⟨r, hr, fun p hp hx => ?_⟩
  rw [h p hp]
  have hn := inf_not_nan' hw hx
  have hl : ilogbLane o k0 kn cv (elt c x p) = BitVec.intMax c.T.w := by
    unfold ilogbLane; simp [ho, hn, hx]
  rw [hl, hx_w64 h8, hciw]; decide

/-- C37 is violated on SSE4.1, AVX and (for 16-byte vectors) AVX2 without AVX512DQ/VL: for every subnormal `double` with
`2^-1058 <= |x| < 2^-1043` the exponent is one too large. -/
theorem C37_ilogb_subnormal_violated (hi : c.IntOf ci) (o : MathOpt) (k0 kn : BitVec 32) (hs : ¬ CvtOk c.s c.T c.v) (x : c.Data) :
    ∃ r, vIlogb c ci o k0 kn x = .ok r ∧ ∀ p, p < c.N → 2 ^ 16 ≤ (val (elt c x p)).natAbs → (val (elt c x p)).natAbs < 2 ^ 31 →
      IsExponent (elt c x p) ((elt ci r p).toInt - 1) ∧ ¬ IsExponent (elt c x p) (elt ci r p).toInt := by
  have hw := fltW hc.ety hf
  obtain ⟨cv, hcv, _, hbad⟩ := exists_cv hc hf
  obtain ⟨r, hr, h⟩ := ilogb_elts hc hf hi o k0 kn x hcv
  have hciw : ci.w = 32 := by show 8 * ci.T.bytes = 32; rw [hi.T]; rfl
  obtain ⟨hw8, hcv2⟩ := hbad hs
  refine ⟨r, hr, fun p hp h1 h2 => ?_⟩
  rw [h p hp]
  clear h hcv hbad
  generalize elt c x p = X at *
  change BitVec c.T.w at X
  have key := bad_subn_w hw8 cv hcv2 o k0 kn h1 h2
  obtain ⟨e, e1, e2, e3, e4⟩ := key
  have ht : (BitVec.setWidth ci.w (ilogbLane o k0 kn cv X)).toInt = e + 1 := by
    have ht := small_toInt hw (z := e + 1) (by omega) (by omega)
    rw [e2, setWidth_toInt hw hciw (by rw [ht]; omega) (by rw [ht]; omega), ht]
  rw [ht]
  refine ⟨by rw [Int.add_sub_cancel]; exact e1, fun h2 => ?_⟩
  have := isExponent_unique e1 h2
  omega

/-- C37 for `logb`: exactly the exponent, as a floating-point number; `logb(0) = -inf`, `logb(±inf) = +inf`, NaN for NaN. -/
theorem C37_logb_partial (o : MathOpt) (x : c.Data) :
    ∃ r, vLogb c o x = .ok r ∧ ∀ p, p < c.N →
      (CvtOk c.s c.T c.v → isFinite (elt c x p) = true → val (elt c x p) ≠ 0 →
        ∃ e, IsExponent (elt c x p) e ∧ isFinite (elt c r p) = true ∧ val (elt c r p) = e * (2 ^ unitExp c.w : Nat)) ∧
      (isFinite (elt c x p) = true → 2 ^ unitExp c.w ≤ (val (elt c x p)).natAbs →
        ∃ e, IsExponent (elt c x p) e ∧ isFinite (elt c r p) = true ∧ val (elt c r p) = e * (2 ^ unitExp c.w : Nat)) ∧
      (o.handleErr = true → isZero (elt c x p) = true → isInf (elt c r p) = true ∧ (elt c r p).msb = true) ∧
      (o.handleErr = true → isInf (elt c x p) = true → isInf (elt c r p) = true ∧ (elt c r p).msb = false) ∧
      (o.handleErr = true ∨ o.propNan = true → isNaN (elt c x p) = true → isNaN (elt c r p) = true) := by
  have hw := fltW hc.ety hf
  obtain ⟨cv, hcv, hok, hbad⟩ := exists_cv hc hf
  obtain ⟨r, hr, h⟩ := logb_elts hc hf o x hcv
  refine ⟨r, hr, fun p hp => ?_⟩
  rw [h p hp]
  clear h hcv hr
  generalize elt c x p = X
  have hmb : 2000 ≤ 2 ^ (mb c.T.w + 1) := by rcases hw with h | h <;> rw [h] <;> decide
  refine ⟨fun hs hfin h0 => ?_, fun hfin h1 => ?_, fun ho hz => logb_zero hw ho cv hz, fun ho hx => logb_inf hw ho cv hx, fun ho hx => logb_nan hw ho cv hx⟩
  · have hm0 : mag X ≠ 0 := fun hm => h0 ((val_zero_iff X).2 hm)
    obtain ⟨e, e1, e2, e3, e4⟩ := ilogb_core hw cv hfin hm0 (fun _ => hok hs)
    refine ⟨e, e1, ?_⟩
    rw [fin_logbLane o cv hfin hm0, e2, hok hs, small_toInt hw (by omega) (by omega)]
    exact ofInt_exact hw (by omega)
  · have hm0 : mag X ≠ 0 := by
      intro hm
      rw [natAbs_val, hm, magVal_zero] at h1
      have := Nat.two_pow_pos (unitExp c.w)
      omega
    have hE : expF X ≠ 0 := by
      intro hE
      rw [natAbs_val_fields] at h1
      unfold fieldVal at h1
      rw [if_pos hE] at h1
      have hm : manF X < 2 ^ mb c.T.w := manF_lt X
      have := Nat.pow_le_pow_right (by omega : 0 < 2) (show mb c.T.w ≤ unitExp c.T.w by rcases hw with h | h <;> rw [h] <;> decide)
      have h3 : 2 ^ unitExp c.T.w ≤ manF X := h1
      omega
    obtain ⟨e, e1, e2, e3, e4⟩ := ilogb_core hw cv hfin hm0 (fun h => absurd h hE)
    have he0 : 0 ≤ e := by
      obtain ⟨_, a, b⟩ := e1
      have := (Nat.pow_lt_pow_iff_right (by omega : 1 < 2)).1 (Nat.lt_of_le_of_lt h1 a)
      have h5 : unitExp c.T.w < (e + unitExp c.T.w).toNat + 1 := this
      have h6 : 0 ≤ e + unitExp c.T.w := b
      omega
    refine ⟨e, e1, ?_⟩
    rw [fin_logbLane o cv hfin hm0, e2]
    have hv : cv (BitVec.ofInt c.T.w e) = ofInt c.T.w e := by
      by_cases hs : CvtOk c.s c.T c.v
      · rw [hok hs, small_toInt hw (by omega) (by omega)]
      · obtain ⟨hw8, hcv2⟩ := hbad hs
        rw [hcv2]
        exact bad_nonneg_w hw8 he0 (by omega)
    rw [hv]
    exact ofInt_exact hw (by omega)

/-- C37 is violated by `logb` on SSE4.1, AVX and (16-byte vectors) AVX2 without AVX512DQ/VL: for every normal `double` with
`|x| < 1` the result is `2^49 - 2^16 + e` instead of the negative exponent `e`. -/
theorem C37_logb_violated (o : MathOpt) (hs : ¬ CvtOk c.s c.T c.v) (x : c.Data) :
    ∃ r, vLogb c o x = .ok r ∧ ∀ p, p < c.N → isNormal (elt c x p) = true → (val (elt c x p)).natAbs < 2 ^ unitExp c.w →
      ∃ e, IsExponent (elt c x p) e ∧ e < 0 ∧ val (elt c r p) = (2 ^ 49 - 2 ^ 16 + e) * (2 ^ unitExp c.w : Nat) := by
  have hw := fltW hc.ety hf
  obtain ⟨cv, hcv, hok, hbad⟩ := exists_cv hc hf
  obtain ⟨r, hr, h⟩ := logb_elts hc hf o x hcv
  refine ⟨r, hr, fun p hp hn h1 => ?_⟩
  rw [h p hp]
  clear h hcv hr
  generalize elt c x p = X at *
  unfold isNormal at hn
  simp only [Bool.and_eq_true, decide_eq_true_eq] at hn
  have hfin : isFinite X = true := by unfold isFinite; simp [hn.1]
  have hm0 : mag X ≠ 0 := by
    intro h0; apply hn.2; unfold expF; rw [h0]; simp
  obtain ⟨e, e1, e2, e3, e4⟩ := ilogb_core hw cv hfin hm0 (fun h => absurd h hn.2)
  have he0 : e < 0 := by
    obtain ⟨a, _, b⟩ := e1
    have := (Nat.pow_lt_pow_iff_right (by omega : 1 < 2)).1 (Nat.lt_of_le_of_lt a h1)
    have h5 : (e + unitExp c.T.w).toNat < unitExp c.T.w := this
    omega
  refine ⟨e, e1, he0, ?_⟩
  rw [fin_logbLane o cv hfin hm0, e2]
  obtain ⟨hw8, hcv2⟩ := hbad hs
  have hv : cv (BitVec.ofInt c.T.w e) = ofInt c.T.w (2 ^ 49 - 2 ^ 16 + e) := by
    rw [hcv2]
    exact bad_neg_w hw8 e3 he0
  rw [hv]
  refine (ofInt_exact hw ?_).2
  have : (2 : Nat) ^ 53 ≤ 2 ^ (mb c.T.w + 1) := by rw [hw8]; decide
  omega
end C37

/-- the hypotheses are met: 0.25f in six floats with SSE2 -/
example : ∃ r, vIlogb exF32 exF32i ⟨true, true⟩ 5 7 (vbroadcast exF32 0x3e800000 (zeroData exF32)) = .ok r ∧ (elt exF32i r 5).toInt = -2 := by
  obtain ⟨r, hr, h⟩ := C37_ilogb_partial exF32_ok rfl exF32i_of ⟨true, true⟩ 5 7 (vbroadcast exF32 0x3e800000 (zeroData exF32))
  refine ⟨r, hr, ?_⟩
  have h2 := (h 5 (by decide)).1
  rw [elt_vbroadcast exF32_ok _ _ (by decide)] at h2
  exact isExponent_unique (h2 (by decide +kernel)) (by unfold IsExponent; decide +kernel)
/-- `logb(0.5)` of four doubles with AVX is 2^49 - 2^16 - 1, `ilogb(inf)` is -1 and `ilogb(2^-1058)` is -1057 -/
theorem C37_counterexample :
    (∃ r, vLogb exF64 ⟨true, true⟩ (vbroadcast exF64 0x3fe0000000000000 (zeroData exF64)) = .ok r ∧ 0 < val (elt exF64 r 3)) ∧
    (∃ r, vIlogb exF64 exF64i ⟨true, true⟩ 5 7 (vbroadcast exF64 0x7ff0000000000000 (zeroData exF64)) = .ok r ∧ (elt exF64i r 3).toInt = -1) ∧
    (∃ r, vIlogb exF64 exF64i ⟨true, true⟩ 5 7 (vbroadcast exF64 0x10000 (zeroData exF64)) = .ok r ∧ (elt exF64i r 3).toInt = -1057) := by
  have hs : ¬ CvtOk exF64.s exF64.T exF64.v := by
    unfold CvtOk; decide
  refine ⟨?_, ?_, ?_⟩
  · obtain ⟨r, hr, h⟩ := C37_logb_violated exF64_ok rfl ⟨true, true⟩ hs (vbroadcast exF64 0x3fe0000000000000 (zeroData exF64))
    refine ⟨r, hr, ?_⟩
    have h2 := h 3 (by decide)
    rw [elt_vbroadcast exF64_ok _ _ (by decide)] at h2
    obtain ⟨e, e1, e2, e3⟩ := h2 (by decide +kernel) (by decide +kernel)
    rw [e3]
    have h4 : e = -1 := isExponent_unique e1 (by unfold IsExponent; decide +kernel)
    rw [h4]
    exact Int.mul_pos (by decide) (Int.ofNat_lt.2 (Nat.two_pow_pos _))
  · obtain ⟨r, hr, h⟩ := C37_ilogb_inf_violated exF64_ok rfl exF64i_of (o := ⟨true, true⟩) rfl 5 7 rfl (vbroadcast exF64 0x7ff0000000000000 (zeroData exF64))
    refine ⟨r, hr, h 3 (by decide) ?_⟩
    rw [elt_vbroadcast exF64_ok _ _ (by decide)]; decide +kernel
  · obtain ⟨r, hr, h⟩ := C37_ilogb_subnormal_violated exF64_ok rfl exF64i_of ⟨true, true⟩ 5 7 hs (vbroadcast exF64 0x10000 (zeroData exF64))
    refine ⟨r, hr, ?_⟩
    have h2 := h 3 (by decide)
    rw [elt_vbroadcast exF64_ok _ _ (by decide)] at h2
    have h3 := (h2 (by decide +kernel) (by decide +kernel)).1
    have h4 : (elt exF64i r 3).toInt - 1 = -1058 := isExponent_unique h3 (by unfold IsExponent; decide +kernel)
    omega
end Dpm.X86
