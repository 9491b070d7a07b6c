import Verif.Spec.Scalars
import Verif.Model.FromScalar
import Verif.Proofs.Conv
import Verif.Proofs.RealOps
import Verif.Props.X86Int
import Verif.Props.Generic
/-!
C88: which scalars a vector may be constructed from, and what its elements are.  `HoldsAll S t` (Spec/Scalars): every value of `S` is a value of `t`;
`TsAllows`: the constraint of the TS; `IsCast` (Spec/Cast): what `static_cast` gives.
-/
namespace Dpm.Operand
open Dpm Dpm.Reg Dpm.Generic Dpm.X86 Dpm.Fp

/-! ### ranges -/
def lo (S : CTy) : Int := if S.ety.signed then -2 ^ (S.ety.w - 1) else 0
def hi (S : CTy) : Int := if S = .bool then 1 else if S.ety.signed then 2 ^ (S.ety.w - 1) - 1 else 2 ^ S.ety.w - 1
/-- `HoldsAll`, by ranges and digits -/
def holdsB (S t : CTy) : Bool :=
  if S.integral then
    if t.integral then decide (lo t ≤ lo S ∧ hi S ≤ hi t) else decide (-2 ^ (mb t.ety.w + 1) ≤ lo S ∧ hi S ≤ 2 ^ (mb t.ety.w + 1))
  else decide (t.integral = false ∧ S.ety.bytes ≤ t.ety.bytes)

theorem flt_eq (S : CTy) : S.ety.flt = !S.integral := by cases S <;> rfl
theorem ety_ok (S : CTy) : S.ety.Ok := by cases S <;> decide
theorem fltW' {t : CTy} (h : t.integral = false) : W t.ety.w := by
  cases t <;> first | exact Or.inl rfl | exact Or.inr rfl | cases h
theorem val_range (S : CTy) (x : BitVec S.ety.w) (hx : S.Valid x) : lo S ≤ S.ety.ity.val x ∧ S.ety.ity.val x ≤ hi S := by
  have h1 := x.isLt
  have h2 := BitVec.le_toInt x
  have h3 := BitVec.toInt_lt (x := x)
  unfold CTy.Valid at hx
  cases S <;> simp [lo, hi, CTy.ety, Ety.ity, IntTy.val, Ety.w, Ety.i8, Ety.u8, Ety.i16, Ety.u16, Ety.i32, Ety.u32, Ety.i64, Ety.u64, Ety.f32, Ety.f64] at * <;> omega
theorem val_of (S : CTy) {z : Int} (h1 : lo S ≤ z) (h2 : z ≤ hi S) :
    S.ety.ity.val (BitVec.ofInt S.ety.w z) = z ∧ S.Valid (BitVec.ofInt S.ety.w z) := by
  have hv : S.ety.ity.val (BitVec.ofInt S.ety.w z) = z := by
    refine val_of_fits S.ety.ity (by cases S <;> decide) ?_
    cases S <;> unfold IntTy.fits <;> first
      | (rw [if_pos (by rfl)]; exact decide_eq_true ⟨h1, lt_of_le_of_lt h2 (by decide)⟩)
      | (rw [if_neg (by decide)]; exact decide_eq_true ⟨h1, lt_of_le_of_lt h2 (by decide)⟩)
  refine ⟨hv, fun h => ?_⟩
  subst h
  have e1 : ((BitVec.ofInt 8 z).toNat : Int) = z := hv
  have e2 : z ≤ 1 := h2
  show (BitVec.ofInt 8 z).toNat < 2
  omega

theorem widen_same (x : BitVec 32) : SameValue .f32 .f64 x (widen x) := by
  have hc := widen_cast x
  unfold IsFltCast at hc
  rw [if_neg (by decide)] at hc
  suffices key : (isNaN x = true → isNaN (widen x) = true) ∧ (isNaN x = false → neg (widen x) = neg x) ∧ (isInf x = true → isInf (widen x) = true) ∧
      (isFinite x = true → isFinite (widen x) = true ∧ val (widen x) * 2 ^ unitExp 32 = val x * 2 ^ unitExp 64) from by
    unfold SameValue; exact key
  refine ⟨hc.1, fun hn => ?_, fun h => (hc.2.1 h).1, fun h => ?_⟩
  · by_cases hi : isInf x = true
    · exact (hc.2.1 hi).2
    · exact (hc.2.2 (by rw [finite_eq]; simp [hn, hi])).1
  · obtain ⟨h1, h2⟩ := widen_rv h
    refine ⟨h1, ?_⟩
    unfold rv at h2
    have e : (val (widen x) : ℝ) * 2 ^ unitExp 32 = (val x : ℝ) * 2 ^ unitExp 64 := by
      have p1 : (2 : ℝ) ^ unitExp 32 ≠ 0 := by positivity
      have p2 : (2 : ℝ) ^ unitExp 64 ≠ 0 := by positivity
      field_simp at h2
      linarith
    exact_mod_cast e

/-- the cast keeps the value if the type holds it -/
theorem same_of_holds {S t : CTy} (h : holdsB S t = true) {x : BitVec S.ety.w} (hx : S.Valid x) :
    ∃ y, scalarConv S.ety t.ety x = some y ∧ SameValue S.ety t.ety x y := by
  unfold holdsB at h
  cases hs : S.integral
  · rw [hs] at h
    simp only [Bool.false_eq_true, if_false, decide_eq_true_eq] at h
    obtain ⟨ht, hb⟩ := h
    have refl : ∀ (F : Ety), F.flt = true → ∀ x : BitVec F.w, SameValue F F x x := by
      intro F hF x
      unfold SameValue; rw [if_pos hF, if_pos hF]
      exact ⟨id, fun _ => rfl, id, fun h => ⟨h, rfl⟩⟩
    cases S <;> first | (cases hs; done) | (cases t <;> first | (cases ht; done) | skip)
    · exact ⟨x, congrArg some (BitVec.setWidth_eq x), refl _ rfl x⟩
    · exact ⟨widen x, by
        show some ((widen (x.setWidth 32)).setWidth 64) = _
        rw [show x.setWidth 32 = x from BitVec.setWidth_eq x, BitVec.setWidth_eq]; rfl, widen_same x⟩
    · exact absurd hb (by decide)
    · exact ⟨x, congrArg some (BitVec.setWidth_eq x), refl _ rfl x⟩
  · have hr := val_range S x hx
    rw [hs] at h
    have hf : S.ety.flt = false := by rw [flt_eq, hs]; rfl
    unfold scalarConv SameValue
    simp only [hf, Bool.false_eq_true, if_false, if_true]
    cases ht : t.integral
    · simp only [ht, Bool.false_eq_true, if_false, if_true, decide_eq_true_eq] at h
      have hg : t.ety.flt = true := by rw [flt_eq, ht]; rfl
      rw [hg]
      simp only [Bool.true_eq_false, if_false, if_true]
      refine ⟨_, rfl, ?_⟩
      have hz : (S.ety.ity.val x).natAbs ≤ 2 ^ (mb t.ety.w + 1) := by
        have : ((2 ^ (mb t.ety.w + 1) : Nat) : Int) = 2 ^ (mb t.ety.w + 1) := by push_cast; rfl
        omega
      have := ofInt_exact (fltW' ht) hz
      exact ⟨this.1, by rw [this.2]; push_cast; rfl⟩
    · simp only [ht, if_true, decide_eq_true_eq] at h
      have hg : t.ety.flt = false := by rw [flt_eq, ht]; rfl
      rw [hg]
      simp only [Bool.false_eq_true, if_false, if_true]
      exact ⟨_, rfl, (val_of t (h.1.trans hr.1) (hr.2.trans h.2)).1⟩

/-- `2^p + 1` has too many digits -/
theorem no_float {w : Nat} (y : BitVec w) : val y ≠ (2 ^ (mb w + 1) + 1) * 2 ^ unitExp w := by
  intro e
  obtain ⟨f, k, h1, h2, -⟩ := val_split y
  have h3 : f * 2 ^ k = (2 ^ (mb w + 1) + 1) * 2 ^ unitExp w := by
    rw [← h1, e]
    have : ((2 ^ (mb w + 1) + 1) * 2 ^ unitExp w : Int) = (((2 ^ (mb w + 1) + 1) * 2 ^ unitExp w : Nat) : Int) := by push_cast; rfl
    rw [this, Int.natAbs_natCast]
  rcases Nat.lt_or_ge (unitExp w) k with hk | hk
  · obtain ⟨j, rfl⟩ : ∃ j, k = unitExp w + (j + 1) := ⟨k - unitExp w - 1, by omega⟩
    have h4 : f * 2 ^ (j + 1) = 2 ^ (mb w + 1) + 1 := by
      apply Nat.eq_of_mul_eq_mul_right (Nat.two_pow_pos (unitExp w))
      rw [← h3, Nat.pow_add]; ring
    have e1 : f * 2 ^ (j + 1) = 2 * (f * 2 ^ j) := by rw [Nat.pow_succ]; ring
    have e2 : 2 ^ (mb w + 1) = 2 * 2 ^ mb w := by rw [Nat.pow_succ]; ring
    rw [e1, e2] at h4
    omega
  · have h4 : (2 ^ (mb w + 1) + 1) * 2 ^ unitExp w ≤ f * 2 ^ unitExp w := by
      rw [← h3]; exact Nat.mul_le_mul_left _ (Nat.pow_le_pow_right (by decide) hk)
    have := Nat.le_of_mul_le_mul_right h4 (Nat.two_pow_pos _)
    omega

/-- otherwise some value has no counterpart -/
theorem lost_of_not {S t : CTy} (ht : t ≠ .bool) (h : holdsB S t = false) :
    ∃ x : BitVec S.ety.w, S.Valid x ∧ ∀ y : BitVec t.ety.w, ¬ SameValue S.ety t.ety x y := by
  unfold holdsB at h
  cases hs : S.integral
  · have hf : S.ety.flt = true := by rw [flt_eq, hs]; rfl
    cases hi : t.integral
    · cases S <;> first | (cases hs; done) | (cases t <;> first | (cases hi; done) | skip)
      · exact absurd h (by decide)
      · exact absurd h (by decide)
      · refine ⟨1#64, fun h => (by cases h), fun y hy => ?_⟩
        unfold SameValue at hy
        rw [if_pos (show CTy.double.ety.flt = true from rfl), if_pos (show CTy.float.ety.flt = true from rfl)] at hy
        have h4 := (hy.2.2.2 (by decide)).2
        have h5 : val (1#64) = 1 := by decide
        have h6 : unitExp CTy.double.ety.w = 1074 := by decide
        have h7 : unitExp CTy.float.ety.w = 149 := by decide
        rw [h6, h7, show val (w := CTy.double.ety.w) (1#64) = 1 from h5] at h4
        generalize val y = v at h4
        rw [show (1074 : Nat) = 925 + 149 from rfl, Int.pow_add, ← Int.mul_assoc] at h4
        have h8 := Int.eq_of_mul_eq_mul_right (by positivity) h4
        rw [show (925 : Nat) = 924 + 1 from rfl, Int.pow_succ] at h8
        omega
      · exact absurd h (by decide)
    · have hg : t.ety.flt = false := by rw [flt_eq, hi]; rfl
      have inf : ∃ x : BitVec S.ety.w, isFinite x = false := by
        cases S <;> first | (cases hs; done) | skip
        · exact ⟨0x7f800000#32, by decide⟩
        · exact ⟨0x7ff0000000000000#64, by decide⟩
      obtain ⟨x, hx⟩ := inf
      refine ⟨x, fun h => (by subst h; cases hs), fun y hy => ?_⟩
      unfold SameValue at hy
      rw [if_pos hf, if_neg (by rw [hg]; decide), hx] at hy
      exact absurd hy.1 (by decide)
  · have hf : S.ety.flt = false := by rw [flt_eq, hs]; rfl
    cases hi' : t.integral
    · have hg : t.ety.flt = true := by rw [flt_eq, hi']; rfl
      have hz : lo S ≤ 2 ^ (mb t.ety.w + 1) + 1 ∧ 2 ^ (mb t.ety.w + 1) + 1 ≤ hi S := by
        cases t <;> first | (cases hi'; done) | (cases S <;> first | (cases hs; done) | (revert h; decide))
      obtain ⟨h1, h2⟩ := val_of S hz.1 hz.2
      refine ⟨_, h2, fun y hy => ?_⟩
      unfold SameValue at hy
      rw [if_neg (by rw [hf]; decide), if_pos hg, h1] at hy
      exact no_float y hy.2
    · have hg : t.ety.flt = false := by rw [flt_eq, hi']; rfl
      simp only [hs, hi', if_true, decide_eq_false_iff_not] at h
      have hle : lo S ≤ hi S := by cases S <;> decide
      have key : ∀ z, lo S ≤ z → z ≤ hi S → ¬ (lo t ≤ z ∧ z ≤ hi t) →
          ∃ x : BitVec S.ety.w, S.Valid x ∧ ∀ y : BitVec t.ety.w, ¬ SameValue S.ety t.ety x y := by
        intro z hz1 hz2 hz3
        obtain ⟨h1, h2⟩ := val_of S hz1 hz2
        refine ⟨_, h2, fun y hy => ?_⟩
        unfold SameValue at hy
        rw [if_neg (by rw [hf]; decide), if_neg (by rw [hg]; decide), h1] at hy
        exact hz3 (hy ▸ val_range t y (fun h => absurd h ht))
      by_cases hl : lo t ≤ lo S
      · refine key (hi S) hle (le_refl _) ?_
        rintro ⟨-, h4⟩; exact h ⟨hl, h4⟩
      · exact key (lo S) (le_refl _) hle (fun h4 => hl h4.1)

/-- `HoldsAll` is the comparison of ranges and digits. -/
theorem C88_holds_iff {S t : CTy} (ht : t ≠ .bool) : HoldsAll S t ↔ holdsB S t = true := by
  constructor
  · intro h
    cases hb : holdsB S t
    · obtain ⟨x, hx, hy⟩ := lost_of_not ht hb
      obtain ⟨y, e⟩ := h x hx
      exact absurd e (hy y)
    · rfl
  · intro h x hx
    obtain ⟨y, -, e⟩ := same_of_holds h hx
    exact ⟨y, e⟩

variable {s : ISA} {t : CTy} {N : Nat} {v : VSz}

theorem both (hc : (cfgOf s t N v).Ok) (S : CTy) {x : BitVec S.ety.w} {y : BitVec t.ety.w} (h : scalarConv S.ety t.ety x = some y)
    (jx : (cfgOf s t N v).Data) (jg : Mem (BitVec t.ety.w)) :
    (∃ r, xFromScalar s t N v jx S x = .ok r ∧ ∀ i, i < N → elt (cfgOf s t N v) r i = y) ∧
    (∃ r, gFromScalar t N jg S x = .ok r ∧ ∀ i, i < N → r.get i = y) := by
  have hcm : compatible S t = true := by unfold compatible convertible; simp
  refine ⟨⟨vbroadcast (cfgOf s t N v) y jx, ?_, fun i hi => elt_vbroadcast hc y jx hi⟩, ⟨GSimd.fill jg y, ?_, fun i hi => ?_⟩⟩
  · unfold xFromScalar; rw [if_pos hcm, h]; rfl
  · unfold gFromScalar; rw [if_pos hcm, h]; rfl
  · exact (C06_constructors ⟨jg⟩ jg jg y (fun _ => y) i hi).1

/-- C88 (the part that holds, 1): if every value of the scalar's type is a value of the element type, every element is that number. -/
theorem C88_same_partial (hc : (cfgOf s t N v).Ok) (ht : t ≠ .bool) {S : CTy} (h : HoldsAll S t) {x : BitVec S.ety.w} (hx : S.Valid x)
    (jx : (cfgOf s t N v).Data) (jg : Mem (BitVec t.ety.w)) :
    (∃ r, xFromScalar s t N v jx S x = .ok r ∧ ∀ i, i < N → SameValue S.ety t.ety x (elt (cfgOf s t N v) r i)) ∧
    (∃ r, gFromScalar t N jg S x = .ok r ∧ ∀ i, i < N → SameValue S.ety t.ety x (r.get i)) := by
  obtain ⟨y, h1, h2⟩ := same_of_holds ((C88_holds_iff ht).1 h) hx
  obtain ⟨⟨a, ha, ea⟩, ⟨b, hb, eb⟩⟩ := both hc S h1 jx jg
  exact ⟨⟨a, ha, fun i hi => by rw [ea i hi]; exact h2⟩, ⟨b, hb, fun i hi => by rw [eb i hi]; exact h2⟩⟩
/-- C88 (the part that holds, 2): from any scalar whose cast is defined, every element is `static_cast<T>` of it. -/
theorem C88_cast_partial (hc : (cfgOf s t N v).Ok) {S : CTy} {x : BitVec S.ety.w} (hd : CastDefined S.ety t.ety x)
    (jx : (cfgOf s t N v).Data) (jg : Mem (BitVec t.ety.w)) :
    (∃ r, xFromScalar s t N v jx S x = .ok r ∧ ∀ i, i < N → IsCast S.ety t.ety x (elt (cfgOf s t N v) r i)) ∧
    (∃ r, gFromScalar t N jg S x = .ok r ∧ ∀ i, i < N → IsCast S.ety t.ety x (r.get i)) := by
  obtain ⟨y, h1, h2⟩ := scalarConv_some (ety_ok S) (ety_ok t) hd
  obtain ⟨⟨a, ha, ea⟩, ⟨b, hb, eb⟩⟩ := both hc S h1 jx jg
  exact ⟨⟨a, ha, fun i hi => by rw [ea i hi]; exact h2⟩, ⟨b, hb, fun i hi => by rw [eb i hi]; exact h2⟩⟩
/-- C88 is violated for every pair of types the TS excludes: the construction compiles nevertheless, whatever the value, and for some value of the
scalar's type no vector at all holds that value: either the construction is undefined or every element is another number. -/
theorem C88_violated (ht : t ≠ .bool) {S : CTy} (h : ¬ TsAllows S t) (jx : (cfgOf s t N v).Data) (jg : Mem (BitVec t.ety.w)) :
    (∀ x, xFromScalar s t N v jx S x ≠ .illFormed ∧ gFromScalar t N jg S x ≠ .illFormed) ∧
    ∃ x : BitVec S.ety.w, S.Valid x ∧
      (∀ r, xFromScalar s t N v jx S x = .ok r → ∀ i, i < N → ¬ SameValue S.ety t.ety x (elt (cfgOf s t N v) r i)) ∧
      (∀ r, gFromScalar t N jg S x = .ok r → ∀ i, i < N → ¬ SameValue S.ety t.ety x (r.get i)) := by
  have hcm : compatible S t = true := by unfold compatible convertible; simp
  refine ⟨fun x => ⟨?_, ?_⟩, ?_⟩
  · unfold xFromScalar; rw [if_pos hcm]
    cases scalarConv S.ety t.ety x <;> exact fun h => nomatch h
  · unfold gFromScalar; rw [if_pos hcm]
    cases scalarConv S.ety t.ety x <;> exact fun h => nomatch h
  · have hb : holdsB S t = false := by
      cases hb : holdsB S t
      · rfl
      · exact absurd (Or.inl ((C88_holds_iff ht).2 hb)) h
    obtain ⟨x, hx, hy⟩ := lost_of_not ht hb
    exact ⟨x, hx, fun r _ i _ => hy _, fun r _ i _ => hy _⟩
/-- C88 is violated: from a floating-point value that the integer type cannot hold even after truncation, the construction is undefined. -/
theorem C88_undefined_violated {S : CTy} {x : BitVec S.ety.w}
    (hd : ¬ CastDefined S.ety t.ety x) (jx : (cfgOf s t N v).Data) (jg : Mem (BitVec t.ety.w)) :
    xFromScalar s t N v jx S x = .ub ∧ gFromScalar t N jg S x = .ub := by
  have hcm : compatible S t = true := by unfold compatible convertible; simp
  have h := scalarConv_none hd
  unfold xFromScalar gFromScalar
  rw [if_pos hcm, if_pos hcm, h]
  exact ⟨rfl, rfl⟩

/-! ### generators -/
theorem castAll_some {N : Nat} {S : CTy} {gen : Nat → BitVec S.ety.w} {P : Nat → BitVec t.ety.w → Prop}
    (h : ∀ i, i < N → ∃ y, scalarConv S.ety t.ety (gen i) = some y ∧ P i y) (m : Mem (BitVec t.ety.w)) :
    ∃ r, castAll t N S gen m = some r ∧ ∀ i, i < N → P i (r i) := by
  unfold castAll
  obtain ⟨h1, h2⟩ := forRangeM_store N (fun i => scalarConv S.ety t.ety (gen i)) m
  cases hr : forRangeM N (fun i (m : Mem (BitVec t.ety.w)) => (scalarConv S.ety t.ety (gen i)).map fun y => m.set i y) m with
  | none =>
    obtain ⟨i, hi, e⟩ := h1.1 hr
    obtain ⟨y, e', -⟩ := h i hi
    rw [e'] at e; cases e
  | some r =>
    refine ⟨r, rfl, fun i hi => ?_⟩
    obtain ⟨y, e', p⟩ := h i hi
    have := (h2 r hr).1 i hi
    rw [e'] at this
    rw [← Option.some.inj this]; exact p
theorem gen_both (hc : (cfgOf s t N v).Ok) {S : CTy} {gen : Nat → BitVec S.ety.w} {P : Nat → BitVec t.ety.w → Prop}
    (h : ∀ i, i < N → ∃ y, scalarConv S.ety t.ety (gen i) = some y ∧ P i y) (jx : (cfgOf s t N v).Data) (jg : Mem (BitVec t.ety.w)) :
    (∃ r, xFromGen s t N v jx S gen = .ok r ∧ ∀ i, i < N → P i (elt (cfgOf s t N v) r i)) ∧
    (∃ r, gFromGen t N jg S gen = .ok r ∧ ∀ i, i < N → P i (r.get i)) := by
  have hcm : compatible S t = true := by unfold compatible convertible; simp
  refine ⟨?_, ?_⟩
  · obtain ⟨m, h1, h2⟩ := castAll_some h (fun _ => 0#t.ety.w)
    refine ⟨_, by unfold xFromGen; rw [if_pos hcm, h1]; rfl, fun i hi => ?_⟩
    rw [elt_vgenerate hc m jx hi]; exact h2 i hi
  · obtain ⟨m, h1, h2⟩ := castAll_some h jg
    exact ⟨_, by unfold gFromGen; rw [if_pos hcm, h1]; rfl, h2⟩
/-- C88 for generators (the part that holds): element `i` is what the call returned, if the element type holds every value of the returned type;
and `static_cast<T>` of it whenever that is defined. -/
theorem C88_generator_partial (hc : (cfgOf s t N v).Ok) {S : CTy} {gen : Nat → BitVec S.ety.w} (jx : (cfgOf s t N v).Data)
    (jg : Mem (BitVec t.ety.w)) :
    (t ≠ .bool → HoldsAll S t → (∀ i, i < N → S.Valid (gen i)) →
      (∃ r, xFromGen s t N v jx S gen = .ok r ∧ ∀ i, i < N → SameValue S.ety t.ety (gen i) (elt (cfgOf s t N v) r i)) ∧
      (∃ r, gFromGen t N jg S gen = .ok r ∧ ∀ i, i < N → SameValue S.ety t.ety (gen i) (r.get i))) ∧
    ((∀ i, i < N → CastDefined S.ety t.ety (gen i)) →
      (∃ r, xFromGen s t N v jx S gen = .ok r ∧ ∀ i, i < N → IsCast S.ety t.ety (gen i) (elt (cfgOf s t N v) r i)) ∧
      (∃ r, gFromGen t N jg S gen = .ok r ∧ ∀ i, i < N → IsCast S.ety t.ety (gen i) (r.get i))) :=
  ⟨fun ht h hx => gen_both hc (fun i hi => same_of_holds ((C88_holds_iff ht).1 h) (hx i hi)) jx jg,
    fun h => gen_both hc (fun i hi => scalarConv_some (ety_ok S) (ety_ok t) (h i hi)) jx jg⟩
/-- C88 is violated for generators too: with every return type that the TS excludes the construction compiles; some generator's values are in no
vector, and one call whose value cannot be cast makes the construction undefined. -/
theorem C88_generator_violated {S : CTy} (jx : (cfgOf s t N v).Data) (jg : Mem (BitVec t.ety.w)) :
    (t ≠ .bool → ¬ TsAllows S t → (∀ gen, xFromGen s t N v jx S gen ≠ .illFormed ∧ gFromGen t N jg S gen ≠ .illFormed) ∧
      ∃ gen : Nat → BitVec S.ety.w, (∀ i, S.Valid (gen i)) ∧
        (∀ r, xFromGen s t N v jx S gen = .ok r → ∀ i, i < N → ¬ SameValue S.ety t.ety (gen i) (elt (cfgOf s t N v) r i)) ∧
        (∀ r, gFromGen t N jg S gen = .ok r → ∀ i, i < N → ¬ SameValue S.ety t.ety (gen i) (r.get i))) ∧
    (∀ gen : Nat → BitVec S.ety.w, (∃ i, i < N ∧ ¬ CastDefined S.ety t.ety (gen i)) →
      xFromGen s t N v jx S gen = .ub ∧ gFromGen t N jg S gen = .ub) := by
  have hcm : compatible S t = true := by unfold compatible convertible; simp
  refine ⟨fun ht h => ⟨fun gen => ⟨?_, ?_⟩, ?_⟩, ?_⟩
  · unfold xFromGen; rw [if_pos hcm]
    cases castAll t N S gen (fun _ => 0#t.ety.w) <;> exact fun h => nomatch h
  · unfold gFromGen; rw [if_pos hcm]
    cases castAll t N S gen jg <;> exact fun h => nomatch h
  · have hb : holdsB S t = false := by
      cases hb : holdsB S t
      · rfl
      · exact absurd (Or.inl ((C88_holds_iff ht).2 hb)) h
    obtain ⟨x, hx, hy⟩ := lost_of_not ht hb
    exact ⟨fun _ => x, fun _ => hx, fun r _ i _ => hy _, fun r _ i _ => hy _⟩
  · rintro gen ⟨i, hi, hd⟩
    have key : ∀ m, castAll t N S gen m = none := fun m =>
      (forRangeM_store N (fun i => scalarConv S.ety t.ety (gen i)) m).1.2 ⟨i, hi, scalarConv_none hd⟩
    unfold xFromGen gFromGen
    rw [if_pos hcm, if_pos hcm, key, key]
    exact ⟨rfl, rfl⟩

/-! ### examples -/
/-- allowed: `float` to `double`, `short` to `float`, `int` to `float`, `unsigned` to `unsigned char`; not allowed: `double` to `float`, `long` to
`int`, `unsigned` to `int`, `int64_t` to `double`, `float` to `int` -/
example : TsAllows .float .double ∧ TsAllows .short .float ∧ TsAllows .int .float ∧ TsAllows .uint .uchar ∧ ¬ TsAllows .double .float ∧
    ¬ TsAllows .long .int ∧ ¬ TsAllows .uint .int ∧ ¬ TsAllows .long .double ∧ ¬ TsAllows .float .int := by
  unfold TsAllows
  rw [C88_holds_iff (by decide), C88_holds_iff (by decide), C88_holds_iff (by decide), C88_holds_iff (by decide), C88_holds_iff (by decide),
    C88_holds_iff (by decide), C88_holds_iff (by decide), C88_holds_iff (by decide), C88_holds_iff (by decide)]
  decide
def exV : Cfg := cfgOf ISA.avx2L .int 6 .v256
theorem exV_ok : (cfgOf ISA.avx2L .int 6 .v256).Ok := ⟨by decide, by decide, by decide, by decide, fun _ => rfl⟩
/-- `simd<int> v = 4294967297l` is six times 1; `simd<int> v = 3e9` is undefined. -/
example (jx : exV.Data) (jg : Mem (BitVec 32)) : (∃ r, xFromScalar ISA.avx2L .int 6 .v256 jx .long 4294967297#64 = .ok r ∧ elt exV r 5 = 1#32) ∧
    xFromScalar ISA.avx2L .int 6 .v256 jx .double 0x41e65a0bc0000000#64 = .ub ∧
    CastDefined CTy.long.ety CTy.int.ety 4294967297#64 ∧ ¬ CastDefined CTy.double.ety CTy.int.ety 0x41e65a0bc0000000#64 := by
  have hd : ¬ CastDefined CTy.double.ety CTy.int.ety 0x41e65a0bc0000000#64 := fun h => by
    obtain ⟨y, hy, -⟩ := scalarConv_some (ety_ok .double) (ety_ok .int) h
    revert hy
    have : scalarConv CTy.double.ety CTy.int.ety 0x41e65a0bc0000000#64 = none := by decide +kernel
    rw [this]; exact fun h => by cases h
  refine ⟨?_, (C88_undefined_violated hd jx jg).1, (fun h => by cases h), hd⟩
  obtain ⟨r, h, e⟩ := (both exV_ok .long (x := 4294967297#64) (y := 1#32) (by decide +kernel) jx jg).1
  exact ⟨r, h, e 5 (by decide)⟩
/-- a generator returning `short` for `simd<float>`, and one returning `double` for `simd<int>` whose element 3 is 3e9 -/
example (jx : (cfgOf ISA.avx2L .int 6 .v256).Data) (jg : Mem (BitVec 32)) :
    (∃ r, gFromGen .float 6 jg .short (fun i => BitVec.ofNat 16 (i * i)) = .ok r ∧ r.get 5 = 0x41c80000#32) ∧
    xFromGen ISA.avx2L .int 6 .v256 jx .double (fun i => if i = 3 then 0x41e65a0bc0000000#64 else 0#64) = .ub := by
  refine ⟨?_, ?_⟩
  · obtain ⟨r, h, e⟩ := castAll_some (t := .float) (N := 6) (S := .short) (gen := fun i => BitVec.ofNat 16 (i * i))
      (P := fun i y => i = 5 → y = 0x41c80000#32) (fun i _ => ⟨_, rfl, fun h => by
        subst h
        have : ofInt 32 (IntTy.val ⟨16, true⟩ (BitVec.ofNat 16 (5 * 5))) = 0x41c80000#32 := by decide +kernel
        exact this⟩) jg
    exact ⟨⟨r⟩, by unfold gFromGen; rw [if_pos (by decide), h]; rfl, e 5 (by decide) rfl⟩
  · refine ((C88_generator_violated jx jg).2 _ ⟨3, by decide, fun h => ?_⟩).1
    obtain ⟨y, hy, -⟩ := scalarConv_some (ety_ok .double) (ety_ok .int) h
    have : scalarConv CTy.double.ety CTy.int.ety 0x41e65a0bc0000000#64 = none := by decide +kernel
    exact absurd (this.symm.trans hy) (by simp)
end Dpm.Operand
