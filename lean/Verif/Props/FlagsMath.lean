import Verif.Props.Flags
import Verif.Proofs.Log1pAcc
/-
Property C82, continued: the exceptions of `min`, `max`, `clamp` and `sqrt`, and further exceptions from the padding.
-/
namespace Dpm.X86
open Dpm Dpm.Reg Dpm.Util Dpm.Generic Dpm.Fp

section
variable {c : Cfg} (hc : c.Ok) {F : FlagSem}

/-- C82: the traced calls compute what the calls modelled elsewhere compute. -/
theorem C82_math_results (hf : c.T.flt = true) (a b d : c.Data) (s : BitVec c.w) :
    (.ok (tMin c a b).1 = vMin c a b ∧ .ok (tMax c a b).1 = vMax c a b ∧ .ok (tMinS c a s).1 = vMinS c a s ∧ .ok (tMaxS c a s).1 = vMaxS c a s) ∧
    .ok (tClamp c a b d).1 = vClamp c a b d ∧ .ok (tSqrt c a).1 = vSqrt c a := by
  have hmin : ∀ x y : Vec c.v, (minV c.s c.T c.v x y).isSome = true := fun x y => by unfold minV; rw [if_pos hf]; rfl
  have hmax : ∀ x y : Vec c.v, (maxV c.s c.T c.v x y).isSome = true := fun x y => by unfold maxV; rw [if_pos hf]; rfl
  have h1 : ∀ a b : c.Data, vec2 c (fun x y => minV c.s c.T c.v x y) a b = .ok (tMin c a b).1 := fun a b => by
    unfold tMin vec2; rw [traced_fst]; exact if_pos (hmin 0 0)
  have h2 : ∀ a b : c.Data, vec2 c (fun x y => maxV c.s c.T c.v x y) a b = .ok (tMax c a b).1 := fun a b => by
    unfold tMax vec2; rw [traced_fst]; exact if_pos (hmax 0 0)
  refine ⟨⟨?_, ?_, ?_, ?_⟩, ?_, ?_⟩
  · unfold vMin; rw [if_pos (.inl hf)]; exact (h1 a b).symm
  · unfold vMax; rw [if_pos (.inl hf)]; exact (h2 a b).symm
  · unfold vMinS tMinS vec1; rw [if_pos (.inl hf), traced_fst]; exact (if_pos (hmin 0 _)).symm
  · unfold vMaxS tMaxS vec1; rw [if_pos (.inl hf), traced_fst]; exact (if_pos (hmax 0 _)).symm
  · unfold vClamp; rw [if_pos (.inl hf), h2]; exact (h1 _ d).symm
  · unfold tSqrt; rw [traced_fst]; rfl

/-- minimum and maximum signal invalid for NaN operands and nothing else -/
theorem minmax_iff (hF : Conforms F) {w : Nat} (x y : BitVec w) (e : Exc) : F w .minmax x y e ↔ e = .invalid ∧ (isNaN x = true ∨ isNaN y = true) := by
  constructor
  · intro h
    have := hF.minmax _ _ _ _ h
    subst this
    have h2 := (hF.invalid _ _ _ _).1 h
    simp only [signalsInvalid, Bool.or_eq_true] at h2
    exact ⟨rfl, h2⟩
  · rintro ⟨rfl, h⟩
    refine (hF.invalid _ _ _ _).2 ?_
    simp only [signalsInvalid, Bool.or_eq_true]; exact h
/-- the scalar function does the same: `std::min(x, y)` is the comparison `y < x` -/
theorem minmax_less (hF : Conforms F) {w : Nat} (x y : BitVec w) (e : Exc) : F w .cmpS y x e ↔ e = .invalid ∧ (isNaN x = true ∨ isNaN y = true) := by
  constructor
  · intro h
    have := hF.compare _ _ _ _ _ (.inl rfl) h
    subst this
    have h2 := (hF.invalid _ _ _ _).1 h
    simp only [signalsInvalid, Bool.or_eq_true] at h2
    exact ⟨rfl, h2.symm⟩
  · rintro ⟨rfl, h⟩
    refine (hF.invalid _ _ _ _).2 ?_
    simp only [signalsInvalid, Bool.or_eq_true]; exact h.symm

include hc
theorem raised_minmax (hF : Conforms F) (a b : c.Data) (e : Exc) :
    (Raised F (tMin c a b).2 e ↔ e = .invalid ∧ ∃ p, p < c.dataSize * c.e ∧ (isNaN (elt c a p) = true ∨ isNaN (elt c b p) = true)) ∧
    (Raised F (tMax c a b).2 e ↔ e = .invalid ∧ ∃ p, p < c.dataSize * c.e ∧ (isNaN (elt c a p) = true ∨ isNaN (elt c b p) = true)) := by
  have h1 : Raised F (tMin c a b).2 e ↔ _ :=
    raised_one hc F (k := kMin c) (f := fun x y => (x, y)) (g := fun x y => (x, y)) (o := .minmax) (fun _ _ => rfl) (fun _ _ _ _ => ⟨rfl, rfl⟩) a b e
  have h2 : Raised F (tMax c a b).2 e ↔ _ :=
    raised_one hc F (k := kMax c) (f := fun x y => (x, y)) (g := fun x y => (x, y)) (o := .minmax) (fun _ _ => rfl) (fun _ _ _ _ => ⟨rfl, rfl⟩) a b e
  rw [h1, h2]
  simp only [minmax_iff hF]
  have : (∃ p, p < c.dataSize * c.e ∧ e = .invalid ∧ (isNaN (elt c a p) = true ∨ isNaN (elt c b p) = true)) ↔
      e = .invalid ∧ ∃ p, p < c.dataSize * c.e ∧ (isNaN (elt c a p) = true ∨ isNaN (elt c b p) = true) :=
    ⟨fun ⟨p, hp, he, h⟩ => ⟨he, p, hp, h⟩, fun ⟨he, p, hp, h⟩ => ⟨p, hp, he, h⟩⟩
  exact ⟨this, this⟩
/-- lanes of generated vectors that are NaN are elements -/
theorem gen_nan2 (g h : Nat → BitVec c.w) (j j' : c.Data) :
    (∃ p, p < c.dataSize * c.e ∧ (isNaN (elt c (vgenerate c g j) p) = true ∨ isNaN (elt c (vgenerate c h j') p) = true)) ↔
    ∃ i, i < c.N ∧ (isNaN (g i) = true ∨ isNaN (h i) = true) := by
  constructor
  · rintro ⟨p, hp, he⟩
    by_cases hi : p < c.N
    · rw [elt_vgenerate hc g j hi, elt_vgenerate hc h j' hi] at he; exact ⟨p, hi, he⟩
    · rw [pad_vgenerate hc g j hp (by omega), pad_vgenerate hc h j' hp (by omega), (zero_quiet _).2] at he; simp at he
  · rintro ⟨i, hi, he⟩
    refine ⟨i, Nat.lt_of_lt_of_le hi (cap_ge hc), ?_⟩
    rw [elt_vgenerate hc g j hi, elt_vgenerate hc h j' hi]; exact he

/-- C82: `min` and `max` of vectors built by generators, of every size, and with a scalar, signal exactly what `std::min` and `std::max` (a
comparison `<`) signal for the elements: invalid if one of the operands is a NaN, and nothing else. -/
theorem C82_minmax_generated (hF : Conforms F) (g h : Nat → BitVec c.w) (s : BitVec c.w) (j j' : c.Data) (e : Exc) :
    (Raised F (tMin c (vgenerate c g j) (vgenerate c h j')).2 e ↔ ∃ i, i < c.N ∧ F c.w .cmpS (h i) (g i) e) ∧
    (Raised F (tMax c (vgenerate c g j) (vgenerate c h j')).2 e ↔ ∃ i, i < c.N ∧ F c.w .cmpS (g i) (h i) e) ∧
    (Raised F (tMinS c (vgenerate c g j) s).2 e ↔ ∃ i, i < c.N ∧ F c.w .cmpS s (g i) e) ∧
    (Raised F (tMaxS c (vgenerate c g j) s).2 e ↔ ∃ i, i < c.N ∧ F c.w .cmpS (g i) s e) := by
  have hcm : ∀ x y : BitVec c.w, F c.w .cmpS x y e ↔ e = .invalid ∧ (isNaN x = true ∨ isNaN y = true) := fun x y => by
    rw [minmax_less hF y x e, or_comm]
  have hsw : ∀ (P : Prop) (Q : Nat → Prop), (∃ i, i < c.N ∧ P ∧ Q i) ↔ (P ∧ ∃ i, i < c.N ∧ Q i) := fun P Q =>
    ⟨fun ⟨i, hi, hp, hq⟩ => ⟨hp, i, hi, hq⟩, fun ⟨hp, i, hi, hq⟩ => ⟨i, hi, hp, hq⟩⟩
  have hS : (∃ p, p < c.dataSize * c.e ∧ (isNaN (elt c (vgenerate c g j) p) = true ∨ isNaN (elt c (fillData c s) p) = true)) ↔
      ∃ i, i < c.N ∧ (isNaN (g i) = true ∨ isNaN s = true) := by
    constructor
    · rintro ⟨p, hp, he⟩
      rw [elt_fillData hc] at he
      by_cases hi : p < c.N
      · rw [elt_vgenerate hc g j hi] at he; exact ⟨p, hi, he⟩
      · rw [pad_vgenerate hc g j hp (by omega), (zero_quiet _).2] at he
        exact ⟨0, hc.pos, .inr (by simpa using he)⟩
    · rintro ⟨i, hi, he⟩
      refine ⟨i, Nat.lt_of_lt_of_le hi (cap_ge hc), ?_⟩
      rw [elt_vgenerate hc g j hi, elt_fillData hc]; exact he
  have hG := raised_minmax hc hF (vgenerate c g j) (vgenerate c h j') e
  have hT := raised_minmax hc hF (vgenerate c g j) (fillData c s) e
  refine ⟨hG.1.trans ?_, hG.2.trans ?_, hT.1.trans ?_, hT.2.trans ?_⟩
  · rw [gen_nan2 hc]; simp only [hcm, hsw]
    exact and_congr_right fun _ => exists_congr fun i => and_congr_right fun _ => or_comm
  · rw [gen_nan2 hc]; simp only [hcm, hsw]
  · rw [hS]; simp only [hcm, hsw]
    exact and_congr_right fun _ => exists_congr fun i => and_congr_right fun _ => or_comm
  · rw [hS]; simp only [hcm, hsw]
/-- C82, proved for vectors without padding, whatever their history: the same. -/
theorem C82_minmax_partial (hF : Conforms F) (hN : c.N % c.e = 0) (a b : c.Data) (e : Exc) :
    (Raised F (tMin c a b).2 e ↔ ∃ i, i < c.N ∧ F c.w .cmpS (elt c b i) (elt c a i) e) ∧
    (Raised F (tMax c a b).2 e ↔ ∃ i, i < c.N ∧ F c.w .cmpS (elt c a i) (elt c b i) e) := by
  have h := raised_minmax hc hF a b e
  rw [full_iff hc hN] at h
  have h1 : ∀ x y : BitVec c.w, F c.w .cmpS x y e ↔ e = .invalid ∧ (isNaN x = true ∨ isNaN y = true) := fun x y => by
    rw [minmax_less hF y x e, or_comm]
  have hsw : ∀ (P : Prop) (Q : Nat → Prop), (∃ i, i < c.N ∧ P ∧ Q i) ↔ (P ∧ ∃ i, i < c.N ∧ Q i) := fun P Q =>
    ⟨fun ⟨i, hi, hp, hq⟩ => ⟨hp, i, hi, hq⟩, fun ⟨hp, i, hi, hq⟩ => ⟨i, hi, hp, hq⟩⟩
  simp only [h1, hsw]
  refine ⟨h.1.trans ?_, h.2⟩
  exact and_congr_right fun _ => exists_congr fun i => and_congr_right fun _ => or_comm

omit hc in
theorem fmaxLane_nan {w : Nat} {x y : BitVec w} (h : isNaN (fmaxLane x y) = true) : isNaN x = true ∨ isNaN y = true := by
  unfold fmaxLane at h; split at h
  · exact .inl h
  · exact .inr h
/-- the lanes of the maximum, those of the padding included -/
theorem elt_tMax (hf : c.T.flt = true) (a b : c.Data) {p : Nat} (hp : p < c.dataSize * c.e) :
    elt c (tMax c a b).1 p = fmaxLane (elt c a p) (elt c b p) := by
  have he : 0 < c.e := extent_pos hc.ety c.v
  have hj : p / c.e < c.dataSize := (Nat.div_lt_iff_lt_mul he).2 hp
  unfold tMax
  rw [traced_fst]
  unfold elt
  rw [vectorize2_eq c _ _ a b hj]
  have hk : (kMax c (a (p / c.e)) (b (p / c.e))).1 = map2 c.T.w fmaxLane (a (p / c.e)) (b (p / c.e)) := by
    show (maxV c.s c.T c.v _ _).getD 0 = _
    unfold maxV; rw [if_pos hf]; rfl
  rw [hk]
  exact lane_map2 _ _ _ (lane_bound hc.ety (idx_mod hc p))
/-- C82: `clamp` of vectors built by generators, of every size, signals invalid exactly if an element or one of its bounds is a NaN, and nothing
else.  (`std::clamp` does the same when no bound is a NaN.) -/
theorem C82_clamp (hF : Conforms F) (hf : c.T.flt = true) (g lo hi : Nat → BitVec c.w) (j j' j'' : c.Data) (e : Exc) :
    Raised F (tClamp c (vgenerate c g j) (vgenerate c lo j') (vgenerate c hi j'')).2 e ↔
      e = .invalid ∧ ∃ i, i < c.N ∧ (isNaN (g i) = true ∨ isNaN (lo i) = true ∨ isNaN (hi i) = true) := by
  have hsplit : Raised F (tClamp c (vgenerate c g j) (vgenerate c lo j') (vgenerate c hi j'')).2 e ↔
      Raised F (tMax c (vgenerate c g j) (vgenerate c lo j')).2 e ∨
      Raised F (tMin c (tMax c (vgenerate c g j) (vgenerate c lo j')).1 (vgenerate c hi j'')).2 e := by
    unfold Raised tClamp
    constructor
    · rintro ⟨ev, hev, h⟩
      rcases List.mem_append.1 hev with h' | h'
      · exact .inl ⟨ev, h', h⟩
      · exact .inr ⟨ev, h', h⟩
    · rintro (⟨ev, hev, h⟩ | ⟨ev, hev, h⟩)
      · exact ⟨ev, List.mem_append.2 (.inl hev), h⟩
      · exact ⟨ev, List.mem_append.2 (.inr hev), h⟩
  rw [hsplit, (raised_minmax hc hF _ _ e).2, (raised_minmax hc hF _ _ e).1, gen_nan2 hc]
  constructor
  · rintro (⟨rfl, i, hi', h⟩ | ⟨rfl, p, hp, h⟩)
    · exact ⟨rfl, i, hi', h.elim .inl (.inr ∘ .inl)⟩
    · refine ⟨rfl, ?_⟩
      rw [elt_tMax hc hf _ _ hp] at h
      have h' : (isNaN (elt c (vgenerate c g j) p) = true ∨ isNaN (elt c (vgenerate c lo j') p) = true) ∨ isNaN (elt c (vgenerate c hi j'') p) = true :=
        h.elim (fun h => .inl (fmaxLane_nan h)) .inr
      by_cases hi' : p < c.N
      · rw [elt_vgenerate hc g j hi', elt_vgenerate hc lo j' hi', elt_vgenerate hc hi j'' hi'] at h'
        exact ⟨p, hi', or_assoc.1 h'⟩
      · rw [pad_vgenerate hc g j hp (by omega), pad_vgenerate hc lo j' hp (by omega), pad_vgenerate hc hi j'' hp (by omega), (zero_quiet _).2] at h'
        simp at h'
  · rintro ⟨rfl, i, hi', h⟩
    rcases h with h | h | h
    · exact .inl ⟨rfl, i, hi', .inl h⟩
    · exact .inl ⟨rfl, i, hi', .inr h⟩
    · exact .inr ⟨rfl, i, Nat.lt_of_lt_of_le hi' (cap_ge hc), .inr (by rw [elt_vgenerate hc hi j'' hi']; exact h)⟩

/-! ### square roots -/
theorem raised_sqrt (a : c.Data) (e : Exc) :
    Raised F (tSqrt c a).2 e ↔ ∃ p, p < c.dataSize * c.e ∧ F c.w .sqrt (elt c a p) (elt c a p) e :=
  raised_one hc F (k := fun x _ => kSqrt c x) (f := fun x _ => (x, x)) (g := fun x _ => (x, x)) (o := .sqrt) (fun _ _ => rfl) (fun _ _ _ _ => ⟨rfl, rfl⟩) a a e
omit hc in
/-- the square root of a zero signals nothing -/
theorem sqrt_zero (hF : Conforms F) {w : Nat} {x : BitVec w} (h : isZero x = true) (y : BitVec w) (e : Exc) : ¬ F w .sqrt x y e := by
  intro hr
  have hz := zeroClass h
  rcases hF.sqrtOnly _ _ _ _ hr with rfl | rfl
  · have := (hF.invalid _ _ _ _).1 hr
    simp [signalsInvalid, hz.2.2, h] at this
  · have := (hF.sqrtInexact w x y (zeroFinite h) (.inr h)).1 hr x (zeroFinite h)
    rw [zero_val0 h] at this
    simp at this
/-- C82: `sqrt` of a vector built by a generator, of every size, signals exactly what the square root signals for some element; it signals
invalid exactly if an element is negative or a signalling NaN (-0 is not negative), inexact only if some element has no exact root, and never
division by zero, overflow or underflow. -/
theorem C82_sqrt_generated (hF : Conforms F) (g : Nat → BitVec c.w) (j : c.Data) :
    (∀ e y, Raised F (tSqrt c (vgenerate c g j)).2 e ↔ ∃ i, i < c.N ∧ F c.w .sqrt (g i) y e) ∧
    (Raised F (tSqrt c (vgenerate c g j)).2 .invalid ↔
      ∃ i, i < c.N ∧ (isSNaN (g i) = true ∨ (isNaN (g i) = false ∧ isZero (g i) = false ∧ neg (g i) = true))) ∧
    (Raised F (tSqrt c (vgenerate c g j)).2 .inexact ↔
      ∃ i, i < c.N ∧ isFinite (g i) = true ∧ (neg (g i) = false ∨ isZero (g i) = true) ∧
        ∀ z : BitVec c.w, isFinite z = true → val z * val z ≠ val (g i) * 2 ^ unitExp c.w) ∧
    (∀ e, Raised F (tSqrt c (vgenerate c g j)).2 e → e = .invalid ∨ e = .inexact) := by
  have key : ∀ e y, Raised F (tSqrt c (vgenerate c g j)).2 e ↔ ∃ i, i < c.N ∧ F c.w .sqrt (g i) y e := by
    intro e y
    rw [raised_sqrt hc]
    constructor
    · rintro ⟨p, hp, he⟩
      by_cases hi : p < c.N
      · rw [elt_vgenerate hc g j hi] at he; exact ⟨p, hi, hF.sqrtUnary _ _ _ _ _ he⟩
      · rw [pad_vgenerate hc g j hp (by omega)] at he
        exact absurd he (sqrt_zero hF (zero_isZero _) _ _)
    · rintro ⟨i, hi, he⟩
      refine ⟨i, Nat.lt_of_lt_of_le hi (cap_ge hc), ?_⟩
      rw [elt_vgenerate hc g j hi]; exact hF.sqrtUnary _ _ _ _ _ he
  refine ⟨key, ?_, ?_, ?_⟩
  · rw [key .invalid 0]
    refine exists_congr fun i => and_congr_right fun _ => ?_
    rw [hF.invalid]
    simp only [signalsInvalid, Bool.or_eq_true, Bool.and_eq_true, Bool.not_eq_true', and_assoc]
  · rw [key .inexact 0]
    refine exists_congr fun i => and_congr_right fun _ => ?_
    constructor
    · intro h
      have h1 : isFinite (g i) = true := by
        cases hx : isFinite (g i) with
        | true => rfl
        | false => exact absurd h (hF.sqrtSpecial _ _ _ (.inl hx))
      have h2 : neg (g i) = false ∨ isZero (g i) = true := by
        cases hx : neg (g i) with
        | false => exact .inl rfl
        | true =>
          cases hz : isZero (g i) with
          | true => exact .inr rfl
          | false => exact absurd h (hF.sqrtSpecial _ _ _ (.inr ⟨hx, hz⟩))
      exact ⟨h1, h2, (hF.sqrtInexact _ _ _ h1 h2).1 h⟩
    · rintro ⟨h1, h2, h3⟩
      exact (hF.sqrtInexact _ _ _ h1 h2).2 h3
  · intro e he
    obtain ⟨i, _, h⟩ := (key e 0).1 he
    exact hF.sqrtOnly _ _ _ _ h
/-- C82, for all vectors, whatever their padding: what the square root signals for an element is signalled by the vector; without padding
nothing else is. -/
theorem C82_sqrt_partial (a : c.Data) (e : Exc) :
    (∀ i, i < c.N → F c.w .sqrt (elt c a i) (elt c a i) e → Raised F (tSqrt c a).2 e) ∧
    (c.N % c.e = 0 → (Raised F (tSqrt c a).2 e ↔ ∃ i, i < c.N ∧ F c.w .sqrt (elt c a i) (elt c a i) e)) := by
  rw [raised_sqrt hc]
  exact ⟨fun i hi h => ⟨i, Nat.lt_of_lt_of_le hi (cap_ge hc), h⟩, fun hN => full_iff hc hN _⟩

/-! ### more about the padding -/
/-- the padding of a broadcast vector holds the value too -/
theorem pad_vbroadcast (x : BitVec c.w) (junk : c.Data) {p : Nat} (hp : p < c.dataSize * c.e) : elt c (vbroadcast c x junk) p = x := by
  have he : 0 < c.e := extent_pos hc.ety c.v
  have hj : p / c.e < c.dataSize := (Nat.div_lt_iff_lt_mul he).2 hp
  unfold vbroadcast elt
  rw [forRange_store, forRange_store]
  simp only [hj, if_true]
  rw [lane_ofLanes _ (lane_bound hc.ety (idx_mod hc p))]
  simp only [idx_mod hc p, if_true]
/-- C82 violated: `simd(x) / v` for a finite `x` other than zero and a vector `v` built by a generator signals division by zero whenever the
vectors have padding, although no element of `v` need be zero. -/
theorem C82_broadcast_violated (hF : Conforms F) (fp : FpOps) (hN : c.N % c.e ≠ 0) (x : BitVec c.w) (h : Nat → BitVec c.w) (j j' : c.Data)
    (hx : isFinite x = true) (hz : isZero x = false) :
    Raised F (tArith fp c .div (vbroadcast c x j) (vgenerate c h j')).2 .divByZero := by
  have hp := has_pad hc hN
  rw [raised_arith hc]
  refine ⟨c.N, hp, ?_⟩
  rw [pad_vbroadcast hc x j hp, pad_vgenerate hc h j' hp (Nat.le_refl _)]
  refine (hF.divByZero _ _ _ _).2 ?_
  simp [Arith.opc, signalsDivByZero, zero_isZero, hx, hz]
/-- C82 violated for expressions: `sqrt(v - simd(x))` and `sqrt(v - x)` signal invalid whenever the vector has padding and `x` is positive and
finite - also if all elements of `v` are greater than `x`. -/
theorem C82_sqrt_violated (hF : Conforms F) (hf : c.T.flt = true) (hN : c.N % c.e ≠ 0) (x : BitVec c.w) (g : Nat → BitVec c.w) (j j' : c.Data)
    (hx : isFinite x = true) (hpos : 0 < val x) :
    Raised F (tSqrt c (tArith ieee c .sub (vgenerate c g j) (vbroadcast c x j')).1).2 .invalid ∧
    Raised F (tSqrt c (tArithS ieee c .sub (vgenerate c g j) x).1).2 .invalid := by
  have hW : W c.w := fltW hc.ety hf
  have hp := has_pad hc hN
  have he : 0 < c.e := extent_pos hc.ety c.v
  have hj : c.N / c.e < c.dataSize := (Nat.div_lt_iff_lt_mul he).2 hp
  have h0 : isFinite (0#c.w) = true := zeroFinite (zero_isZero _)
  have hv0 : val (0#c.w) = 0 := zero_val0 (zero_isZero _)
  have hval := fsub_val hW h0 hx (by
    rw [hv0, show (0 - val x).natAbs = (val x).natAbs by omega]; exact repr_fin hW hx)
  have hlt : val (fsub (0#c.w) x) < 0 := by rw [hval.2, hv0]; omega
  have hinv : F c.w .sqrt (fsub (0#c.w) x) (fsub (0#c.w) x) .invalid := by
    refine (hF.invalid _ _ _ _).2 ?_
    have hneg : neg (fsub (0#c.w) x) = true := by
      have := (val_neg_iff (x := fsub (0#c.w) x) (by omega)).1 hlt
      exact this
    have hnz : isZero (fsub (0#c.w) x) = false := by
      cases hz : isZero (fsub (0#c.w) x) with
      | false => rfl
      | true => have := zero_val0 hz; omega
    have hnn : isNaN (fsub (0#c.w) x) = false := by
      have h1 := hval.1
      cases hz : isNaN (fsub (0#c.w) x) with
      | false => rfl
      | true => unfold isFinite at h1; unfold isNaN at hz; simp at h1 hz; exact absurd hz.1 h1
    simp [signalsInvalid, hneg, hnz, hnn]
  have key : ∀ a b : c.Data, elt c (tArith ieee c .sub a b).1 c.N = fsub (elt c a c.N) (elt c b c.N) := by
    intro a b
    unfold tArith
    rw [traced_fst]
    unfold elt
    rw [vectorize2_eq c _ _ a b hj]
    have hk : (kArith ieee c .sub (a (c.N / c.e)) (b (c.N / c.e))).1 = map2 c.T.w fsub (a (c.N / c.e)) (b (c.N / c.e)) := by
      show subV ieee c.s c.T c.v _ _ = _
      unfold subV; rw [if_pos hf]; rfl
    rw [hk]
    exact lane_map2 _ _ _ (lane_bound hc.ety (idx_mod hc c.N))
  rw [raised_sqrt hc, raised_sqrt hc]
  refine ⟨⟨c.N, hp, ?_⟩, ⟨c.N, hp, ?_⟩⟩
  · rw [key, pad_vgenerate hc g j hp (Nat.le_refl _), pad_vbroadcast hc x j' hp]; exact hinv
  · have : (tArithS ieee c .sub (vgenerate c g j) x).1 = (tArith ieee c .sub (vgenerate c g j) (fillData c x)).1 := rfl
    rw [this, key, pad_vgenerate hc g j hp (Nat.le_refl _), elt_fillData hc]; exact hinv
end

/-! ### examples -/
/-- five floats in two SSE vectors: `sqrt(v - 1)` with all elements of `v` equal to 1 signals invalid, although `sqrt(1 - 1)` signals nothing -/
example : Raised strict (tSqrt exFlag (tArithS ieee exFlag .sub (vgenerate exFlag (fun _ => fOne exFlag) (zeroData _)) (fOne exFlag)).1).2 .invalid :=
  (C82_sqrt_violated exFlag_ok strict_conforms rfl (by decide) _ _ _ (zeroData _) (by decide) (by decide)).2
example : Raised strict (tArith ieee exFlag .div (vbroadcast exFlag (fOne exFlag) (zeroData _)) (vgenerate exFlag (fun _ => fOne exFlag) (zeroData _))).2 .divByZero :=
  C82_broadcast_violated exFlag_ok strict_conforms ieee (by decide) _ _ _ _ (by decide) (by decide)
/-- the square roots of five ones are exact, `sqrt(-1)` signals invalid, `max(NaN, 1)` signals invalid -/
example : ¬ Raised strict (tSqrt exFlag (vgenerate exFlag (fun _ => fOne exFlag) (zeroData _))).2 .inexact := by
  rw [(C82_sqrt_generated exFlag_ok strict_conforms _ _).2.2.1]
  rintro ⟨_, _, _, _, h⟩
  exact h (fOne exFlag) (by decide) (by decide +kernel)
example : Raised strict (tMax exFlag (vgenerate exFlag (fun i => if i = 4 then fQNaN exFlag else fOne exFlag) (zeroData _)) (vgenerate exFlag (fun _ => fOne exFlag) (zeroData _))).2 .invalid :=
  (C82_minmax_generated exFlag_ok strict_conforms _ _ 0 _ _ .invalid).2.1.2 ⟨4, by decide, by show signalsInvalid .cmpS (fQNaN exFlag) (fOne exFlag) = true; decide⟩
end Dpm.X86
