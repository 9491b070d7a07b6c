import Verif.Props.FromScalar
import Verif.Props.X86Conv
import Verif.Proofs.Ieee
/-!
C89: implicit conversions between vectors keep every element.  `initFrom a b` is `simd<U, B> y = x`; `HoldsElem F T`: every value of `F` is a value of
`T`; `SameValue`: the same number (Spec/Scalars).
-/
namespace Dpm.X86
open Dpm Dpm.Reg Dpm.Generic Dpm.Fp Dpm.Operand VTy

theorem ety_cases {F : Ety} (h : F.Ok) : ∃ S : CTy, S ≠ .bool ∧ S.ety = F := by
  obtain ⟨b, f, s⟩ := F
  obtain ⟨h1, h2⟩ := h
  dsimp only at h1 h2
  cases f
  · rcases h1 with h | h | h | h <;> subst h <;> cases s
    · exact ⟨.uchar, by decide, rfl⟩
    · exact ⟨.schar, by decide, rfl⟩
    · exact ⟨.ushort, by decide, rfl⟩
    · exact ⟨.short, by decide, rfl⟩
    · exact ⟨.uint, by decide, rfl⟩
    · exact ⟨.int, by decide, rfl⟩
    · exact ⟨.ulong, by decide, rfl⟩
    · exact ⟨.long, by decide, rfl⟩
  · obtain ⟨h3, rfl⟩ := h2 rfl
    rcases h3 with h | h <;> subst h
    · exact ⟨.float, by decide, rfl⟩
    · exact ⟨.double, by decide, rfl⟩

theorem holds_or_lost {F T : Ety} (hF : F.Ok) (hT : T.Ok) :
    (HoldsElem F T ∧ ∀ x : BitVec F.w, ∃ y, scalarConv F T x = some y ∧ SameValue F T x y) ∨
    ∃ x : BitVec F.w, ∀ y : BitVec T.w, ¬ SameValue F T x y := by
  obtain ⟨S, hS, rfl⟩ := ety_cases hF
  obtain ⟨t, ht, rfl⟩ := ety_cases hT
  cases hb : holdsB S t
  · obtain ⟨x, -, h⟩ := lost_of_not (S := S) ht hb
    exact .inr ⟨x, h⟩
  · have h : ∀ x : BitVec S.ety.w, ∃ y, scalarConv S.ety t.ety x = some y ∧ SameValue S.ety t.ety x y :=
      fun x => same_of_holds hb (fun h => absurd h hS)
    exact .inl ⟨fun x => (h x).imp fun y hy => hy.2, h⟩

/-- what `static_cast` gives is the same number if there is one -/
theorem same_of_cast {F T : Ety} (hF : F.Ok) (hT : T.Ok) {x : BitVec F.w} {y y' : BitVec T.w} (hc : IsCast F T x y)
    (he : scalarConv F T x = some y') (hs : SameValue F T x y') : SameValue F T x y := by
  unfold IsCast at hc
  unfold scalarConv at he
  cases h1 : F.flt <;> cases h2 : T.flt <;> simp only [h1, h2, if_true, if_false, Bool.false_eq_true, Bool.true_eq_false] at hc he
  · obtain ⟨k, hk⟩ := hc
    have hs0 := hs
    unfold SameValue at hs ⊢
    simp only [h1, h2, if_false, Bool.false_eq_true] at hs ⊢
    have hy : y = BitVec.ofInt T.w (T.ity.val y) := by
      unfold IntTy.val
      split
      · exact (BitVec.ofInt_toInt).symm
      · apply BitVec.eq_of_toNat_eq; simp [BitVec.toNat_ofInt, Int.emod_eq_of_lt, BitVec.isLt]
    have e : y = y' := by
      rw [hy, hk, ← Option.some.inj he]
      apply BitVec.eq_of_toInt_eq
      rw [BitVec.toInt_ofInt, BitVec.toInt_ofInt]
      have h2 : ((2 ^ T.w : Nat) : Int) = 2 ^ T.w := by norm_cast
      rw [← h2]
      exact Int.add_mul_bmod_self_right _ _ _
    rw [e]; exact hs
  · have : y = y' := (isRounded_unique (fltW hT h2) Nat.one_pos hc).trans (Option.some.inj he)
    rw [this]; exact hs
  · unfold SameValue at hs ⊢
    simp only [h1, h2, if_true, if_false, Bool.false_eq_true] at hs ⊢
    obtain ⟨h3, h4⟩ := hs
    refine ⟨h3, ?_⟩
    obtain ⟨-, hp, hn⟩ := hc
    have hD : (0 : Int) < 2 ^ unitExp F.w := by positivity
    have hD' : ((2 ^ unitExp F.w : Nat) : Int) = 2 ^ unitExp F.w := by push_cast; rfl
    rw [hD'] at hp hn
    rw [h4] at hp hn ⊢
    generalize (2 : Int) ^ unitExp F.w = D at *
    generalize T.ity.val y = r at *
    generalize T.ity.val y' = q at *
    have : r = q := by
      rcases le_or_gt 0 (q * D) with h0 | h0
      · obtain ⟨a, b⟩ := hp h0
        have := le_of_mul_le_mul_right a hD
        have := lt_of_mul_lt_mul_right b hD.le
        omega
      · obtain ⟨a, b⟩ := hn h0
        have := lt_of_mul_lt_mul_right a hD.le
        have := le_of_mul_le_mul_right b hD
        omega
    rw [this]
  · have he' := Option.some.inj he
    have hc' := fltConv_cast hF hT h1 h2 x
    rw [he'] at hc'
    unfold IsFltCast at hc hc'
    split at hc
    · next hw =>
      rw [if_pos hw] at hc'
      have : y = y' := BitVec.eq_of_toNat_eq (hc.trans hc'.symm)
      rw [this]; exact hs
    · next hw =>
      rw [if_neg hw] at hc'
      cases hf : isFinite x
      · unfold SameValue at hs ⊢
        simp only [h1, h2, if_true] at hs ⊢
        refine ⟨hc.1, fun hn => ?_, fun hi => (hc.2.1 hi).1, fun h => by rw [hf] at h; cases h⟩
        have hi : isInf x = true := by rw [finite_eq] at hf; simpa [hn] using hf
        exact (hc.2.1 hi).2
      · have a := isRounded_unique (fltW hT h2) (Nat.two_pow_pos _) (hc.2.2 hf)
        have b := isRounded_unique (fltW hT h2) (Nat.two_pow_pos _) (hc'.2.2 hf)
        rw [a.trans b.symm]; exact hs

/-- C89 (the part that holds): if every value of the source's elements is a value of the target's elements, the conversion keeps every element.
Conversions from x86 vectors need filled registers (C62). -/
theorem C89_keep_partial {a b : VTy} (ha : a.Ok) (hb : b.Ok) (hN : a.N = b.N) (hw : a.IsX86 → a.Whole ∧ b.Whole)
    (h : HoldsElem a.T b.T) (junk : b.Obj) (x : a.Obj) :
    ∃ r, initFrom a b junk x = .ok r ∧ ∀ i, i < a.N → SameValue a.T b.T (a.get x i) (b.get r i) := by
  rcases holds_or_lost ha.ety hb.ety with ⟨-, h2⟩ | ⟨x0, h2⟩
  · have hd : ∀ z : BitVec a.T.w, CastDefined a.T b.T z := fun z => by
      by_contra hn
      obtain ⟨y, hy, -⟩ := h2 z
      rw [scalarConv_none hn] at hy; cases hy
    obtain ⟨r, h3, h4⟩ := C62_convert_partial ha hb hN hw junk x (fun i _ => hd _)
    refine ⟨r, by unfold initFrom implicitConv; rw [hN]; simpa using h3, fun i hi => ?_⟩
    obtain ⟨y, h5, h6⟩ := h2 (a.get x i)
    exact same_of_cast ha.ety hb.ety (h4 i hi) h5 h6
  · obtain ⟨y, hy⟩ := h x0
    exact absurd hy (h2 y)
/-- C89 is violated for every pair of element types of which the second does not hold all values of the first: the implicit conversion compiles,
and some vector (with one value in all elements) is converted to one with another number in every element, or not at all. -/
theorem C89_violated {a b : VTy} (ha : a.Ok) (hb : b.Ok) (hN : a.N = b.N) (h : ¬ HoldsElem a.T b.T) (junk : b.Obj) :
    (∀ x, initFrom a b junk x = convert a b junk x) ∧
    ∃ z : BitVec a.T.w, (∃ x : a.Obj, ∀ i, i < a.N → a.get x i = z) ∧ ∀ x : a.Obj, (∀ i, i < a.N → a.get x i = z) →
      ∀ r, initFrom a b junk x = .ok r → ∀ i, i < a.N → ¬ SameValue a.T b.T (a.get x i) (b.get r i) := by
  refine ⟨fun x => ?_, ?_⟩
  · unfold initFrom implicitConv; rw [hN]; simp
  · rcases holds_or_lost ha.ety hb.ety with ⟨h2, -⟩ | ⟨z, h2⟩
    · exact absurd h2 h
    · refine ⟨z, ?_, fun x hx r _ i hi => by rw [hx i hi]; exact h2 _⟩
      cases a with
      | x86 c => exact ⟨vbroadcast c z (zeroData c), fun i hi => elt_vbroadcast ha z _ hi⟩
      | gen T N => exact ⟨GSimd.fill (fun _ => z) z, fun i hi => (C06_constructors ⟨fun _ => z⟩ (fun _ => z) (fun _ => z) z (fun _ => z) i hi).1⟩

/-! ### examples -/
/-- `float` to `double` and `short` to `float` keep every value; `double` to `float`, `int` to `float`, `long` to `int` do not. -/
example : HoldsElem .f32 .f64 ∧ HoldsElem .i16 .f32 ∧ ¬ HoldsElem .f64 .f32 ∧ ¬ HoldsElem .i32 .f32 ∧ ¬ HoldsElem .i64 .i32 := by
  refine ⟨fun x => ?_, fun x => ?_, fun h => ?_, fun h => ?_, fun h => ?_⟩
  · exact ((C88_holds_iff (S := .float) (t := .double) (by decide)).2 (by decide)) x (fun h => by cases h)
  · exact ((C88_holds_iff (S := .short) (t := .float) (by decide)).2 (by decide)) x (fun h => by cases h)
  · exact absurd ((C88_holds_iff (S := .double) (t := .float) (by decide)).1 (fun x _ => h x)) (by decide)
  · exact absurd ((C88_holds_iff (S := .int) (t := .float) (by decide)).1 (fun x _ => h x)) (by decide)
  · exact absurd ((C88_holds_iff (S := .long) (t := .int) (by decide)).1 (fun x _ => h x)) (by decide)
def exConvF32 : VTy := x86 ⟨ISA.avx2L, .f32, 8, .v256⟩
def exConvF64 : VTy := gen .f64 8
/-- eight `float`s of an x86 vector to a generic vector of `double` -/
example (junk : exConvF64.Obj) (x : exConvF32.Obj) : ∃ r, initFrom exConvF32 exConvF64 junk x = .ok r ∧ ∀ i, i < 8 → SameValue .f32 .f64 (exConvF32.get x i) (exConvF64.get r i) :=
  C89_keep_partial (a := exConvF32) (b := exConvF64) (show Cfg.Ok _ from ⟨by decide, by decide, by decide, by decide, fun _ => rfl⟩) (show Ety.Ok _ by decide) rfl
    (fun _ => ⟨rfl, trivial⟩)
    (fun x => ((C88_holds_iff (S := .float) (t := .double) (by decide)).2 (by decide)) x (fun h => by cases h)) junk x
end Dpm.X86
