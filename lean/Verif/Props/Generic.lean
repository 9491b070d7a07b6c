import Verif.Model.Generic
import Verif.Spec.Lanes
/-
Properties C01–C11 of the platform-independent backend.
-/
namespace Dpm.Generic
open Dpm Dpm.Spec

section helpers
variable {α β γ : Type} {N : Nat}

theorem load_get (junk mem : Mem α) {i : Nat} (h : i < N) :
    (GSimd.load (N := N) junk mem).get i = mem i := by
  simp [GSimd.load, GSimd.copyFrom, GSimd.get, GSimd.uninit, forRange_store, h]

theorem lift_core (z : γ) (f : Nat → Option γ) :
    let res := (forRangeM N (fun i (r : Mem γ) => (f i).map (fun v => r.set i v)) (fun _ => z)).map
      (fun r => GSimd.load (N := N) (fun _ => z) r)
    (res.map GSimd.get = none ↔ ∃ i, i < N ∧ f i = none) ∧
    ∀ r, res.map GSimd.get = some r → ∀ i, i < N → f i = some (r i) := by
  obtain ⟨h1, h2⟩ := forRangeM_store N f (fun _ => z)
  cases hr : forRangeM N (fun i (r : Mem γ) => (f i).map (fun v => r.set i v)) (fun _ => z) with
  | none => exact ⟨⟨fun _ => h1.1 hr, fun _ => rfl⟩, fun r h => by simp at h⟩
  | some r0 =>
    refine ⟨⟨fun h => by simp at h, fun h => ?_⟩, ?_⟩
    · rw [h1.2 h] at hr; simp at hr
    · intro r h i hi
      simp only [Option.map_some, Option.some.injEq] at h
      subst h
      rw [load_get _ _ hi]
      exact (h2 r0 hr).1 i hi

theorem lift1_spec (z : γ) (f : α → Option γ) (x : GSimd α N) :
    LaneWise1 N f x.get ((lift1 z f x).map GSimd.get) := lift_core z (fun i => f (x.get i))
theorem lift2_spec (z : γ) (f : α → β → Option γ) (a : GSimd α N) (b : GSimd β N) :
    LaneWise2 N f a.get b.get ((lift2 z f a b).map GSimd.get) := lift_core z (fun i => f (a.get i) (b.get i))
theorem liftS_spec (z : γ) (f : α → β → Option γ) (a : GSimd α N) (b : β) :
    LaneWise1 N (fun v => f v b) a.get ((liftS z f a b).map GSimd.get) := lift_core z (fun i => f (a.get i) b)
end helpers

/-! ### C01: vector operators are lane-wise -/

section C01
variable {α : Type} {N : Nat} (S : Scalar α) (a b : GSimd α N) (s : α)

/-- C01 (arithmetic): every arithmetic operator, scalar form and compound form is the lane-wise
lifting of the element type's operator; in particular it is undefined exactly when the scalar
operation is undefined in some lane. -/
theorem C01_arith_lanewise :
    LaneWise1 N S.neg a.get ((opNeg S a).map GSimd.get) ∧
    LaneWise2 N S.add a.get b.get ((opAdd S a b).map GSimd.get) ∧
    LaneWise2 N S.sub a.get b.get ((opSub S a b).map GSimd.get) ∧
    LaneWise2 N S.mul a.get b.get ((opMul S a b).map GSimd.get) ∧
    LaneWise2 N S.div a.get b.get ((opDiv S a b).map GSimd.get) ∧
    LaneWise2 N S.rem a.get b.get ((opRem S a b).map GSimd.get) ∧
    LaneWise1 N (fun v => S.add v s) a.get ((opAddS S a s).map GSimd.get) ∧
    LaneWise1 N (fun v => S.sub v s) a.get ((opSubS S a s).map GSimd.get) ∧
    LaneWise1 N (fun v => S.mul v s) a.get ((opMulS S a s).map GSimd.get) ∧
    LaneWise1 N (fun v => S.div v s) a.get ((opDivS S a s).map GSimd.get) ∧
    LaneWise1 N (fun v => S.rem v s) a.get ((opRemS S a s).map GSimd.get) :=
  ⟨lift1_spec .., lift2_spec .., lift2_spec .., lift2_spec .., lift2_spec .., lift2_spec ..,
   liftS_spec .., liftS_spec .., liftS_spec .., liftS_spec .., liftS_spec ..⟩

/-- C01 (bitwise). -/
theorem C01_bitwise_lanewise :
    LaneWise1 N S.bnot a.get ((opNot S a).map GSimd.get) ∧
    LaneWise2 N S.band a.get b.get ((opAnd S a b).map GSimd.get) ∧
    LaneWise2 N S.bor a.get b.get ((opOr S a b).map GSimd.get) ∧
    LaneWise2 N S.bxor a.get b.get ((opXor S a b).map GSimd.get) ∧
    LaneWise2 N S.shl a.get b.get ((opShl S a b).map GSimd.get) ∧
    LaneWise2 N S.shr a.get b.get ((opShr S a b).map GSimd.get) ∧
    LaneWise1 N (fun v => S.band v s) a.get ((opAndS S a s).map GSimd.get) ∧
    LaneWise1 N (fun v => S.bor v s) a.get ((opOrS S a s).map GSimd.get) ∧
    LaneWise1 N (fun v => S.bxor v s) a.get ((opXorS S a s).map GSimd.get) :=
  ⟨lift1_spec .., lift2_spec .., lift2_spec .., lift2_spec .., lift2_spec .., lift2_spec ..,
   liftS_spec .., liftS_spec .., liftS_spec ..⟩

/-- C01 (compound assignment): the object after `a op= b` is the lane-wise result. -/
theorem C01_compound_lanewise :
    LaneWise2 N S.add a.get b.get ((opAddAssign S a b).map GSimd.get) ∧
    LaneWise2 N S.sub a.get b.get ((opSubAssign S a b).map GSimd.get) ∧
    LaneWise2 N S.mul a.get b.get ((opMulAssign S a b).map GSimd.get) ∧
    LaneWise2 N S.div a.get b.get ((opDivAssign S a b).map GSimd.get) ∧
    LaneWise2 N S.rem a.get b.get ((opRemAssign S a b).map GSimd.get) ∧
    LaneWise2 N S.band a.get b.get ((opAndAssign S a b).map GSimd.get) ∧
    LaneWise2 N S.bor a.get b.get ((opOrAssign S a b).map GSimd.get) ∧
    LaneWise2 N S.bxor a.get b.get ((opXorAssign S a b).map GSimd.get) ∧
    LaneWise1 N (fun v => S.add v s) a.get ((opAddAssignS S a s).map GSimd.get) ∧
    LaneWise1 N (fun v => S.sub v s) a.get ((opSubAssignS S a s).map GSimd.get) :=
  ⟨lift2_spec .., lift2_spec .., lift2_spec .., lift2_spec .., lift2_spec .., lift2_spec ..,
   lift2_spec .., lift2_spec .., liftS_spec .., liftS_spec ..⟩

/-- C01 (increment / decrement): the post forms return the old value and both forms store the
lane-wise `x ± 1`. -/
theorem C01_incdec :
    LaneWise1 N (fun v => S.add v S.one) a.get ((opPreInc S a).map GSimd.get) ∧
    LaneWise1 N (fun v => S.sub v S.one) a.get ((opPreDec S a).map GSimd.get) ∧
    LaneWise1 N (fun v => (S.add v S.one).map (fun w => (v, w))) a.get
      ((opPostInc S a).map (fun p i => (p.1.get i, p.2.get i))) ∧
    LaneWise1 N (fun v => (S.sub v S.one).map (fun w => (v, w))) a.get
      ((opPostDec S a).map (fun p i => (p.1.get i, p.2.get i))) := by
  have key : ∀ f : α → Option α, LaneWise1 N f a.get ((liftS S.zero (fun v (_ : Unit) => f v) a ()).map GSimd.get) →
      LaneWise1 N (fun v => (f v).map (fun w => (v, w))) a.get
      (((liftS S.zero (fun v (_ : Unit) => f v) a ()).map (fun x' => (a, x'))).map (fun p i => (p.1.get i, p.2.get i))) := by
    intro f h
    obtain ⟨h1, h2⟩ := h
    cases hr : liftS S.zero (fun v (_ : Unit) => f v) a () with
    | none =>
      obtain ⟨i, hi, hf⟩ := h1.1 (by rw [hr]; rfl)
      exact ⟨⟨fun _ => ⟨i, hi, by simp [hf]⟩, fun _ => rfl⟩, fun r h => by simp at h⟩
    | some r0 =>
      refine ⟨⟨fun h => by simp at h, ?_⟩, ?_⟩
      · rintro ⟨i, hi, hf⟩
        have hf' : f (a.get i) = none := by simpa using hf
        have := h1.2 ⟨i, hi, hf'⟩
        rw [hr] at this; simp at this
      · intro r h i hi
        simp only [Option.map_some, Option.some.injEq] at h
        subst h
        have := h2 r0.get (by rw [hr]; rfl) i hi
        simp [this]
  refine ⟨liftS_spec .., liftS_spec .., ?_, ?_⟩
  · exact key (fun v => S.add v S.one) (liftS_spec S.zero (fun v (_ : Unit) => S.add v S.one) a ())
  · exact key (fun v => S.sub v S.one) (liftS_spec S.zero (fun v (_ : Unit) => S.sub v S.one) a ())

theorem cmpLift_get (f : α → α → Bool) {i : Nat} (h : i < N) :
    (cmpLift f a b).get i = f (a.get i) (b.get i) := by
  rw [cmpLift, load_get _ _ h, forRange_store]; simp [h]

/-- C01 (comparisons and `!`). -/
theorem C01_compare_lanewise (i : Nat) (h : i < N) :
    (opEq S a b).get i = S.eq (a.get i) (b.get i) ∧
    (opNe S a b).get i = S.ne (a.get i) (b.get i) ∧
    (opLt S a b).get i = S.lt (a.get i) (b.get i) ∧
    (opLe S a b).get i = S.le (a.get i) (b.get i) ∧
    (opGt S a b).get i = S.gt (a.get i) (b.get i) ∧
    (opGe S a b).get i = S.ge (a.get i) (b.get i) ∧
    (opLNot S a).get i = S.lnot (a.get i) := by
  refine ⟨cmpLift_get a b _ h, cmpLift_get a b _ h, cmpLift_get a b _ h, cmpLift_get a b _ h,
    cmpLift_get a b _ h, cmpLift_get a b _ h, ?_⟩
  rw [opLNot, load_get _ _ h, forRange_store]; simp [h]
end C01

/-- Non-vacuity: int32 lanes, one lane overflowing makes the whole addition undefined, and a
well-defined addition yields the expected lane. -/
example : opAdd (N := 2) IntTy.i32.scalar ⟨fun _ => 0x7fffffff⟩ ⟨fun i => if i = 1 then 1 else 0⟩ = none := by
  decide
example : (opAdd (N := 2) IntTy.i32.scalar ⟨fun _ => 40⟩ ⟨fun _ => 2⟩).map (fun r => r.get 1) = some 42 := by decide

/-! ### C02: compound shifts -/

/-- The full property C02 for vector counts. -/
def C02_full : Prop := ∀ (t : IntTy) (N : Nat) (a b : GSimd (BitVec t.bits) N),
  (opShlAssign t.scalar a b).map GSimd.get = (opShl t.scalar a b).map GSimd.get ∧
  (opShrAssign t.scalar a b).map GSimd.get = (opShr t.scalar a b).map GSimd.get

/-- C02 is violated: `a <<= b` for `a = {4}`, `b = {1}` gives 2 instead of 8. -/
theorem C02_violated : ¬ C02_full := by
  intro h
  have := (h IntTy.u32 1 ⟨fun _ => 4⟩ ⟨fun _ => 1⟩).1
  have h2 := congrArg (fun o => o.map (fun f => f 0)) this
  exact absurd h2 (by decide)

/-- What the code does instead, for all inputs: the two compound shifts are exchanged. -/
theorem C02_swapped {α : Type} {N : Nat} (S : Scalar α) (a b : GSimd α N) :
    LaneWise2 N S.shr a.get b.get ((opShlAssign S a b).map GSimd.get) ∧
    LaneWise2 N S.shl a.get b.get ((opShrAssign S a b).map GSimd.get) :=
  ⟨lift2_spec .., lift2_spec ..⟩

/-- C02, part that holds: scalar shift counts. -/
theorem C02_partial {α : Type} {N : Nat} (S : Scalar α) (a : GSimd α N) (n : Int) :
    LaneWise1 N (fun v => S.shlN v n) a.get ((opShlAssignS S a n).map GSimd.get) ∧
    LaneWise1 N (fun v => S.shrN v n) a.get ((opShrAssignS S a n).map GSimd.get) ∧
    LaneWise1 N (fun v => S.shlN v n) a.get ((opShlS S a n).map GSimd.get) ∧
    LaneWise1 N (fun v => S.shrN v n) a.get ((opShrS S a n).map GSimd.get) :=
  ⟨liftS_spec .., liftS_spec .., liftS_spec .., liftS_spec ..⟩

example : (opShlAssignS (N := 1) IntTy.u32.scalar ⟨fun _ => 4⟩ 1).map (fun r => r.get 0) = some 8 := by decide

/-! ### C03: mask complement -/

section C03
variable {N : Nat}
theorem maskLoop_get (f : Nat → Bool) {i : Nat} (h : i < N) : (maskLoop (N := N) f).get i = f i := by
  rw [maskLoop, load_get _ _ h, forRange_store]; simp [h]

/-- Full property C03. -/
def C03_full : Prop := ∀ (N : Nat) (m : GMask N) (i : Nat), i < N →
  (maskNot m).get i = (!m.get i) ∧ (maskNeg m).get i = (!m.get i) ∧ (maskLNot m).get i = (!m.get i)

/-- What `~m` and `-m` really compute: every lane is true, for every mask. -/
theorem C03_not_always_true (m : GMask N) (i : Nat) (h : i < N) :
    (maskNot m).get i = true ∧ (maskNeg m).get i = true := by
  have : (maskNot m).get i = true := by
    rw [maskNot, maskLoop_get _ h]
    cases m.get i <;> decide
  exact ⟨this, this⟩

/-- C03 is violated. -/
theorem C03_violated : ¬ C03_full := by
  intro h
  have := (h 1 ⟨fun _ => true⟩ 0 (by decide)).1
  rw [(C03_not_always_true _ 0 (by decide)).1] at this
  exact absurd this (by decide)

/-- C03, part that holds: `!m` flips every lane. -/
theorem C03_partial (m : GMask N) (i : Nat) (h : i < N) : (maskLNot m).get i = (!m.get i) :=
  maskLoop_get _ h
end C03

/-! ### C04: mask operators and blend -/

/-- C04. -/
theorem C04_mask_ops_lanewise {N : Nat} (m a b : GMask N) (i : Nat) (h : i < N) :
    (maskAnd a b).get i = (a.get i && b.get i) ∧
    (maskOr a b).get i = (a.get i || b.get i) ∧
    (maskXor a b).get i = xor (a.get i) (b.get i) ∧
    (maskLAnd a b).get i = (a.get i && b.get i) ∧
    (maskLOr a b).get i = (a.get i || b.get i) ∧
    (maskEq a b).get i = decide (a.get i = b.get i) ∧
    (maskNe a b).get i = decide (a.get i ≠ b.get i) ∧
    (maskPos m).get i = m.get i ∧
    (maskAndAssign a b).get i = (a.get i && b.get i) ∧
    (maskOrAssign a b).get i = (a.get i || b.get i) ∧
    (maskXorAssign a b).get i = xor (a.get i) (b.get i) ∧
    (maskBlend m a b).get i = (if m.get i = true then a.get i else b.get i) := by
  have hx : (maskXor a b).get i = xor (a.get i) (b.get i) := by
    rw [maskXor, maskLoop_get _ h]; cases a.get i <;> cases b.get i <;> decide
  refine ⟨maskLoop_get _ h, maskLoop_get _ h, hx, maskLoop_get _ h, maskLoop_get _ h, ?_, ?_, rfl,
    maskLoop_get _ h, maskLoop_get _ h, hx, maskLoop_get _ h⟩
  · rw [maskEq, maskLoop_get _ h]; cases a.get i <;> cases b.get i <;> decide
  · rw [maskNe, maskLoop_get _ h]; cases a.get i <;> cases b.get i <;> decide

/-- C04 (vector blend). -/
theorem C04_blend_lanewise {α : Type} {N : Nat} (z : α) (m : GMask N) (a b : GSimd α N) (i : Nat) (h : i < N) :
    (blend z m a b).get i = if m.get i = true then a.get i else b.get i := by
  rw [blend, load_get _ _ h, forRange_store]; simp [h]

example : (maskXor (N := 3) ⟨fun i => i == 1⟩ ⟨fun _ => true⟩).get 1 = false := by decide

/-! ### C05: mask reductions -/

section C05
variable {N : Nat} (m : GMask N)

theorem allOf_iff : allOf m = true ↔ ∀ i, i < N → m.get i = true := by
  have := forRange_inv (P := fun n (r : Bool) => (r = true ↔ ∀ i, i < n → m.get i = true)) N
    (fun i r => r && m.get i) true (by simp) (by
      intro n s _ ih
      simp only [Bool.and_eq_true, ih]
      constructor
      · rintro ⟨h1, h2⟩ i hi
        by_cases h : i = n
        · subst h; exact h2
        · exact h1 i (by omega)
      · intro h; exact ⟨fun i hi => h i (by omega), h n (by omega)⟩)
  exact this

theorem anyOf_iff : anyOf m = true ↔ ∃ i, i < N ∧ m.get i = true := by
  have := forRange_inv (P := fun n (r : Bool) => (r = true ↔ ∃ i, i < n ∧ m.get i = true)) N
    (fun i r => r || m.get i) false (by simp) (by
      intro n s _ ih
      simp only [Bool.or_eq_true, ih]
      constructor
      · rintro (⟨i, hi, h⟩ | h)
        · exact ⟨i, by omega, h⟩
        · exact ⟨n, by omega, h⟩
      · rintro ⟨i, hi, h⟩
        by_cases hin : i = n
        · subst hin; exact Or.inr h
        · exact Or.inl ⟨i, by omega, h⟩)
  exact this

/-- C05 (quantifiers). -/
theorem C05_quantifiers :
    (allOf m = true ↔ ∀ i, i < N → m.get i = true) ∧
    (anyOf m = true ↔ ∃ i, i < N ∧ m.get i = true) ∧
    (noneOf m = true ↔ ∀ i, i < N → m.get i = false) ∧
    (someOf m = true ↔ (∃ i, i < N ∧ m.get i = true) ∧ ∃ i, i < N ∧ m.get i = false) := by
  refine ⟨allOf_iff m, anyOf_iff m, ?_, ?_⟩
  · rw [noneOf, Bool.not_eq_true', ← Bool.not_eq_true, anyOf_iff]
    constructor
    · intro h i hi
      cases hm : m.get i
      · rfl
      · exact absurd ⟨i, hi, hm⟩ h
    · rintro h ⟨i, hi, hm⟩; rw [h i hi] at hm; cases hm
  · have hs : forRange N (fun i (s : Bool × Bool) => (s.1 || m.get i, s.2 && m.get i)) (false, true)
        = (anyOf m, allOf m) := by
      have := forRange_inv (P := fun n (s : Bool × Bool) =>
          s = (forRange n (fun i r => r || m.get i) false, forRange n (fun i r => r && m.get i) true)) N
        (fun i (s : Bool × Bool) => (s.1 || m.get i, s.2 && m.get i)) (false, true) rfl
        (by intro i s _ h; subst h; rfl)
      exact this
    simp only [someOf, hs, Bool.and_eq_true, anyOf_iff, Bool.not_eq_true', ← Bool.not_eq_true, allOf_iff]
    constructor
    · rintro ⟨h1, h2⟩
      refine ⟨h1, ?_⟩
      apply Classical.byContradiction
      intro hn
      apply h2
      intro i hi
      apply Classical.byContradiction
      intro hc
      exact hn ⟨i, hi, hc⟩
    · rintro ⟨h1, i, hi, hf⟩
      exact ⟨h1, fun h => hf (h i hi)⟩

/-- C05 (count). -/
theorem C05_count : reduceCount m = countTrue N m.get := by
  have := forRange_inv (P := fun n (r : Nat) => r = countTrue n m.get) N
    (fun i r => r + (if m.get i then 1 else 0)) 0 (by simp [countTrue, lanes]) (by
      intro n s _ ih
      simp only [ih, countTrue, lanes, List.range_succ, List.map_append, List.countP_append, List.map_cons,
        List.map_nil, List.countP_singleton, id]
      )
  exact this

/-- C05 (first index): the least true index, or `size()`. -/
theorem C05_min_index :
    (∀ k, IsFirst N m.get k → reduceMinIndex m = k) ∧
    ((∀ i, i < N → m.get i = false) → reduceMinIndex m = N) := by
  have key := forRange_inv (P := fun n (r : Option Nat) =>
      (∀ k, r = some k → IsFirst n m.get k) ∧ (r = none → ∀ i, i < n → m.get i = false)) N
    (fun i r => returnIf (m.get i) i r) none (by simp) (by
      intro n s _ ih
      unfold returnIf
      cases s with
      | some k =>
        obtain ⟨h1, h2, h3⟩ := ih.1 k rfl
        refine ⟨?_, by simp⟩
        intro k' hk'
        simp only [Option.some.injEq] at hk'
        subst hk'
        exact ⟨by omega, h2, h3⟩
      | none =>
        have hall := ih.2 rfl
        cases hm : m.get n
        · refine ⟨by simp, ?_⟩
          intro _ i hi
          by_cases h : i = n
          · subst h; exact hm
          · exact hall i (by omega)
        · refine ⟨?_, by simp⟩
          intro k hk
          simp only [if_true, Option.some.injEq] at hk
          subst hk
          exact ⟨by omega, hm, hall⟩)
  obtain ⟨k1, k2⟩ := key
  constructor
  · intro k ⟨hk, hm, hf⟩
    unfold reduceMinIndex
    generalize forRange N _ none = r at *
    cases r with
    | none => rw [k2 rfl k hk] at hm; cases hm
    | some j =>
      obtain ⟨hj, hmj, hfj⟩ := k1 j rfl
      have : j = k := by
        rcases Nat.lt_trichotomy j k with h | h | h
        · rw [hf j h] at hmj; cases hmj
        · exact h
        · rw [hfj k h] at hm; cases hm
      simp [this]
  · intro hall
    unfold reduceMinIndex
    generalize forRange N _ none = r at *
    cases r with
    | none => rfl
    | some j =>
      obtain ⟨hj, hmj, _⟩ := k1 j rfl
      rw [hall j hj] at hmj; cases hmj

theorem forRangeDown_max (n : Nat) (s : Option Nat) :
    forRangeDown n (fun i r => returnIf (m.get i) i r) s =
    match s with
    | some k => some k
    | none => forRangeDown n (fun i r => returnIf (m.get i) i r) none := by
  induction n generalizing s with
  | zero => cases s <;> rfl
  | succ n ih =>
    simp only [forRangeDown]
    cases s with
    | none => rfl
    | some k => exact ih (some k)

/-- C05 (last index): the greatest true index, or `size()`. -/
theorem C05_max_index :
    (∀ k, IsLast N m.get k → reduceMaxIndex m = k) ∧
    ((∀ i, i < N → m.get i = false) → reduceMaxIndex m = N) := by
  have key : ∀ n, (∀ k, IsLast n m.get k → forRangeDown n (fun i r => returnIf (m.get i) i r) none = some k) ∧
      ((∀ i, i < n → m.get i = false) → forRangeDown n (fun i r => returnIf (m.get i) i r) none = none) := by
    intro n
    induction n with
    | zero => exact ⟨fun k h => absurd h.1 (by omega), fun _ => rfl⟩
    | succ n ih =>
      simp only [forRangeDown]
      constructor
      · intro k ⟨hk, hm, hf⟩
        by_cases h : k = n
        · subst h; rw [hm, forRangeDown_max]; rfl
        · rw [hf n (by omega) (by omega)]
          exact ih.1 k ⟨by omega, hm, fun i h1 h2 => hf i h1 (by omega)⟩
      · intro hall
        rw [hall n (by omega)]
        exact ih.2 (fun i hi => hall i (by omega))
  constructor
  · intro k hk; rw [reduceMaxIndex, (key N).1 k hk]; rfl
  · intro h; rw [reduceMaxIndex, (key N).2 h]; rfl

example : IsFirst 4 (fun i => i == 2 || i == 3) 2 ∧ IsLast 4 (fun i => i == 2 || i == 3) 3 := by
  refine ⟨⟨by decide, by decide, ?_⟩, by decide, by decide, ?_⟩
  · decide
  · intro i h1 h2; omega
end C05

/-! ### C06: loads and stores -/

section C06
variable {α β : Type} {N : Nat} (x : GSimd α N)

theorem copyTo_get (to : α → β) (mem : Mem β) {i : Nat} (h : i < N) : x.copyTo to mem i = to (x.get i) := by
  simp [GSimd.copyTo, forRange_store, h, GSimd.get]
theorem copyTo_frame (to : α → β) (mem : Mem β) {i : Nat} (h : N ≤ i) : x.copyTo to mem i = mem i := by
  simp [GSimd.copyTo, forRange_store, Nat.not_lt.2 h]
theorem copyFrom_get (frm : β → α) (mem : Mem β) {i : Nat} (h : i < N) : (x.copyFrom frm mem).get i = frm (mem i) := by
  simp [GSimd.copyFrom, forRange_store, h, GSimd.get]

/-- C06 (unmasked): `copy_to` writes exactly cells `0..N-1`; `copy_from` sets every lane. -/
theorem C06_copy (to : α → β) (frm : β → α) (mem : Mem β) :
    (∀ i, i < N → x.copyTo to mem i = to (x.get i)) ∧
    (∀ i, N ≤ i → x.copyTo to mem i = mem i) ∧
    (∀ i, i < N → (x.copyFrom frm mem).get i = frm (mem i)) ∧
    (∀ mem', (∀ i, i < N → mem' i = mem i) → ∀ i, (x.copyFrom frm mem').get i = (x.copyFrom frm mem).get i) := by
  refine ⟨?_, ?_, ?_, ?_⟩
  · intro i h; exact copyTo_get x to mem h
  · intro i h; exact copyTo_frame x to mem h
  · intro i h; exact copyFrom_get x frm mem h
  · intro mem' h i
    simp only [GSimd.copyFrom, forRange_store, GSimd.get]
    by_cases hi : i < N
    · simp [hi, h i hi]
    · simp [hi]

/-- C06 (masked): only lanes/cells whose mask element is true change. -/
theorem C06_masked (to : α → β) (frm : β → α) (mem : Mem β) (m : GMask N) :
    (∀ i, i < N → m.get i = true → x.copyToMasked to mem m i = to (x.get i)) ∧
    (∀ i, ¬ (i < N ∧ m.get i = true) → x.copyToMasked to mem m i = mem i) ∧
    (∀ i, i < N → m.get i = true → (x.copyFromMasked frm mem m).get i = frm (mem i)) ∧
    (∀ i, ¬ (i < N ∧ m.get i = true) → (x.copyFromMasked frm mem m).get i = x.get i) := by
  have e1 : x.copyToMasked to mem m = fun j => if j < N ∧ m.get j = true then to (x.data j) else mem j :=
    forRange_store_if N (fun i => m.get i) (fun i => to (x.data i)) mem
  have e2 : (x.copyFromMasked frm mem m).get = fun j => if j < N ∧ m.get j = true then frm (mem j) else x.data j :=
    forRange_store_if N (fun i => m.get i) (fun i => frm (mem i)) x.data
  rw [e1, e2]
  refine ⟨?_, ?_, ?_, ?_⟩
  · intro i h hm; exact if_pos ⟨h, hm⟩
  · intro i h; exact if_neg h
  · intro i h hm; exact if_pos ⟨h, hm⟩
  · intro i h; exact if_neg h

/-- C06 (round trip): storing and loading back gives the same lanes. -/
theorem C06_roundtrip (y : GSimd α N) (mem : Mem α) (i : Nat) (h : i < N) :
    (y.copyFrom id (x.copyTo id mem)).get i = x.get i := by
  rw [(C06_copy y id id _).2.2.1 i h]
  exact (C06_copy x id id mem).1 i h

theorem generateN_spec (gen : Nat → α) (n : Nat) : ∀ (I : Nat) (data : Mem α) (i : Nat),
    generateN gen data n I i = if I ≤ i ∧ i < I + n then gen i else data i := by
  induction n with
  | zero => intro I data i; simp only [generateN]; rw [if_neg (by omega)]
  | succ n ih =>
    intro I data i
    simp only [generateN, ih, Mem.set]
    by_cases h : i = I
    · subst h; simp
    · by_cases h2 : I + 1 ≤ i ∧ i < I + 1 + n
      · rw [if_pos h2, if_pos (by omega)]
      · rw [if_neg h2, if_neg h, if_neg (by omega)]

/-- C06 (constructors): broadcast, generator, and load constructors set every lane; writing one
element through `operator[]` changes that element only. -/
theorem C06_constructors (junk mem : Mem α) (v : α) (gen : Nat → α) (i : Nat) (h : i < N) :
    (GSimd.fill (N := N) junk v).get i = v ∧
    (GSimd.generate (N := N) junk gen).get i = gen i ∧
    (GSimd.load (N := N) junk mem).get i = mem i ∧
    (∀ j, (x.setAt i v).get j = if j = i then v else x.get j) := by
  refine ⟨?_, ?_, load_get _ _ h, ?_⟩
  · simp [GSimd.fill, GSimd.get, forRange_store, h]
  · simp [GSimd.generate, GSimd.get, generateN_spec, h]
  · intro j; simp [GSimd.setAt, GSimd.get, Mem.set]
end C06

/-! ### C07: reduce -/

section C07

/-- Full property C07. -/
def C07_full : Prop := ∀ (α : Type) (op : α → α → α),
  (∀ a b c, op (op a b) c = op a (op b c)) → (∀ a b, op a b = op b a) →
  ∀ (N : Nat) (junk : Mem α) (x : GSimd α N), 1 ≤ N → reduce junk op x = fold1 op (lanes N x.get)

theorem reduce_eq {α : Type} {N : Nat} (junk : Mem α) (op : α → α → α) (x : GSimd α N) :
    reduce junk op x = reduceImpl op (lanes N x.get) := by
  unfold reduce lanes
  congr 1
  apply List.map_congr_left
  intro i hi
  exact (C06_copy x id id junk).1 i (List.mem_range.1 hi)

theorem reduceImpl_replicate_zero (n : Nat) (hn : 1 ≤ n) :
    reduceImpl (fun a b : Nat => a + b) (List.replicate n 0) = some 0 := by
  induction n using Nat.strongRecOn with
  | _ n ih =>
    match n, hn with
    | 1, _ => simp [reduceImpl]
    | 2, _ => simp [reduceImpl, List.replicate]
    | n + 3, _ =>
      have h1 := ih ((n + 3) / 2) (by omega) (by omega)
      have h2 := ih ((n + 3) - (n + 3) / 2) (by omega) (by omega)
      have e : List.replicate (n + 3) 0 = 0 :: 0 :: 0 :: List.replicate n 0 := rfl
      rw [e, reduceImpl]
      simp only [← e, List.length_replicate, List.drop_replicate, h1, h2]

/-- What `reduce` really computes for at least three elements: the lower half of the elements is
replaced by copies of element 0. -/
theorem C07_actual {α : Type} (op : α → α → α) (x y z : α) (rest : List α) :
    reduceImpl op (x :: y :: z :: rest) =
      match reduceImpl op (List.replicate ((rest.length + 3) / 2) x),
            reduceImpl op ((x :: y :: z :: rest).drop ((rest.length + 3) / 2)) with
      | some a, some b => some (op a b)
      | _, _ => none := by
  rw [reduceImpl]
  simp only [List.length_cons]
  rfl

/-- C07 is violated for *every* width `N ≥ 4`: some vector of naturals has a `reduce` (with `+`)
different from the sum of its elements (element 1 is dropped). -/
theorem C07_violated_every_width (N : Nat) (hN : 4 ≤ N) :
    ∃ x : GSimd Nat N, reduce (fun _ => 0) (· + ·) x ≠ fold1 (· + ·) (lanes N x.get) := by
  obtain ⟨n, rfl⟩ : ∃ n, N = n + 4 := ⟨N - 4, by omega⟩
  refine ⟨⟨fun i => if i = 1 then 1 else 0⟩, ?_⟩
  have hl : lanes (n + 4) (GSimd.get (⟨fun i => if i = 1 then 1 else 0⟩ : GSimd Nat (n + 4)))
      = 0 :: 1 :: 0 :: List.replicate (n + 1) 0 := by
    apply List.ext_getElem
    · simp [lanes]
    · intro i h1 h2
      simp only [lanes, List.getElem_map, List.getElem_range, GSimd.get]
      match i with
      | 0 => rfl
      | 1 => rfl
      | 2 => rfl
      | i + 3 => simp
  rw [reduce_eq, hl, C07_actual]
  have e1 : (List.replicate (n + 1) 0).length + 3 = n + 4 := by simp
  have e2 : (0 :: 1 :: 0 :: List.replicate (n + 1) 0).drop ((n + 4) / 2) = List.replicate (n + 4 - (n + 4) / 2) 0 := by
    obtain ⟨k, hk⟩ : ∃ k, (n + 4) / 2 = k + 2 := ⟨(n + 4) / 2 - 2, by omega⟩
    rw [hk]
    show List.drop k (List.replicate (n + 2) 0) = _
    rw [List.drop_replicate]
    congr 1
    omega
  rw [e1, e2, reduceImpl_replicate_zero _ (by omega), reduceImpl_replicate_zero _ (by omega)]
  simp only [fold1, List.foldl]
  intro h
  have hs : ∀ k, List.foldl (fun a b : Nat => a + b) 1 (List.replicate k 0) = 1 := by
    intro k; induction k with
    | zero => rfl
    | succ k ih => simpa [List.replicate] using ih
  have := Option.some.inj h
  rw [show (0 + 1 + 0 : Nat) = 1 from rfl, hs] at this
  exact absurd this (by decide)

theorem C07_violated : ¬ C07_full := by
  intro h
  obtain ⟨x, hx⟩ := C07_violated_every_width 4 (Nat.le_refl 4)
  exact hx (h Nat (· + ·) Nat.add_assoc Nat.add_comm 4 (fun _ => 0) x (by decide))

/-- C07, part that holds: widths 1, 2 and 3 (associativity suffices). -/
theorem C07_partial {α : Type} (op : α → α → α) (hassoc : ∀ a b c, op (op a b) c = op a (op b c))
    (N : Nat) (h1 : 1 ≤ N) (h3 : N ≤ 3) (junk : Mem α) (x : GSimd α N) :
    reduce junk op x = fold1 op (lanes N x.get) := by
  rw [reduce_eq]
  match N, h1, h3 with
  | 1, _, _ => simp [lanes, List.range_succ, reduceImpl, fold1]
  | 2, _, _ => simp [lanes, List.range_succ, reduceImpl, fold1]
  | 3, _, _ => simp [lanes, List.range_succ, reduceImpl, fold1, hassoc]

example : reduce (N := 3) (fun _ => 0) (· + ·) ⟨fun i => i + 1⟩ = some 6 := by
  rw [C07_partial _ (fun a b c => Nat.add_assoc a b c) 3 (by decide) (by decide)]; decide
end C07

/-! ### C08: shuffle -/

section C08
variable {α : Type} {N : Nat}

/-- `is_sequential<1, a, …>` accepts exactly the progression `a, a+1, …` (below 2^64). -/
theorem isSequential_one (idx : List Nat) : ∀ a, a + idx.length < 2 ^ 64 → isSequential 1 a idx = true →
    ∀ (j : Nat) (hj : j < idx.length), idx[j] = a + j := by
  induction idx with
  | nil => intro a _ _ j hj; simp at hj
  | cons k ks ih =>
    intro a ha hs j hj
    match ks, hs with
    | [], hs =>
      have hk : a = k := by simpa [isSequential] using hs
      have : j = 0 := by simpa using hj
      subst this; simp [hk]
    | k2 :: ks2, hs =>
      simp only [isSequential, Bool.and_eq_true, beq_iff_eq] at hs
      obtain ⟨h1, h2⟩ := hs
      simp only [List.length_cons] at ha
      rw [Nat.mod_eq_of_lt (by omega)] at h2
      match j, hj with
      | 0, _ => simp [h1]
      | j + 1, hj =>
        have := ih (a + 1) (by simp only [List.length_cons]; omega) h2 j (by simpa using hj)
        simp only [List.getElem_cons_succ]
        rw [this]; omega

theorem shuffleImpl_spec {M : Nat} (frm : GSimd α N) (idx : List Nat) : ∀ (J : Nat) (to : GSimd α M),
    (∀ k ∈ idx, k < N) → J + idx.length ≤ M →
    ∃ r, shuffleImpl frm J idx to = some r ∧
      ∀ i, r.get i = if h : J ≤ i ∧ i < J + idx.length then frm.get (idx[i - J]'(by omega)) else to.get i := by
  induction idx with
  | nil => intro J to _ _; exact ⟨to, rfl, fun i => by rw [dif_neg (by simp)]⟩
  | cons I Is ih =>
    intro J to hidx hJ
    simp only [List.length_cons] at hJ
    obtain ⟨r, hr, hspec⟩ := ih (J + 1) to (fun k hk => hidx k (List.mem_cons_of_mem _ hk)) (by omega)
    refine ⟨r.setAt J (frm.get I), ?_, ?_⟩
    · rw [shuffleImpl, if_pos ⟨by omega, hidx I List.mem_cons_self⟩, hr]; rfl
    · intro i
      simp only [GSimd.setAt, GSimd.get, Mem.set]
      by_cases hi : i = J
      · subst hi
        rw [if_pos rfl, dif_pos (by simp)]
        simp
      · rw [if_neg hi]
        have := hspec i
        simp only [GSimd.get] at this
        rw [this]
        by_cases hc : J + 1 ≤ i ∧ i < J + 1 + Is.length
        · rw [dif_pos hc, dif_pos (by simp only [List.length_cons]; omega)]
          obtain ⟨d, rfl⟩ : ∃ d, i = J + 1 + d := ⟨i - (J + 1), by omega⟩
          have e1 : J + 1 + d - (J + 1) = d := by omega
          have e2 : J + 1 + d - J = d + 1 := by omega
          simp [e1, e2]
        · rw [dif_neg hc, dif_neg (by simp only [List.length_cons]; omega)]

/-- C08: for every non-empty list of in-range indices the shuffle is defined and lane `j` of the
result is lane `idx[j]` of the source. -/
theorem C08_shuffle (z : α) (idx : List Nat) (x : GSimd α N) (hne : idx ≠ []) (hin : ∀ k ∈ idx, k < N)
    (hlen : idx.length < 2 ^ 64) :
    ∃ r, shuffle z idx x = some r ∧ ∀ (j : Nat) (hj : j < idx.length), r.get j = x.get idx[j] := by
  match idx, hne with
  | I :: Is, _ =>
    rw [shuffle]
    by_cases hseq : isSequential 1 0 (I :: Is) = true ∧ (I :: Is).length = N
    · rw [if_pos hseq]
      refine ⟨_, rfl, ?_⟩
      intro j hj
      have hj' : (I :: Is)[j] = j := by
        have := isSequential_one (I :: Is) 0 (by omega) hseq.1 j hj
        omega
      rw [hj']
      have hjN : j < N := by rw [← hseq.2]; exact hj
      show (convOp (N := N) (fun _ => z) id x).get j = _
      exact (C06_copy _ id id x.data).2.2.1 j hjN
    · rw [if_neg hseq]
      by_cases hb : Is = [] ∨ Is.all (· == I) = true
      · rw [if_pos hb, if_pos (hin I List.mem_cons_self)]
        refine ⟨_, rfl, ?_⟩
        intro j hj
        rw [(C06_constructors (N := (I :: Is).length) ⟨fun _ => z⟩ (fun _ => z) (fun _ => z) (x.get I) (fun _ => z) j hj).1]
        have : (I :: Is)[j] = I := by
          match j, hj with
          | 0, _ => rfl
          | j + 1, hj =>
            rcases hb with hb | hb
            · subst hb; simp at hj
            · simp only [List.getElem_cons_succ]
              have := List.all_eq_true.1 hb (Is[j]'(by simpa using hj)) (List.getElem_mem _)
              simpa using this
        rw [this]
      · rw [if_neg hb]
        obtain ⟨r, hr, hs⟩ := shuffleImpl_spec (M := (I :: Is).length) x (I :: Is) 0 ⟨fun _ => z⟩ hin (by omega)
        refine ⟨r, hr, ?_⟩
        intro j hj
        rw [hs j, dif_pos ⟨by omega, by omega⟩]
        simp

example : (shuffle (N := 4) (0 : Nat) [3, 1, 1] ⟨fun i => 10 * i⟩).map (fun r => (r.get 0, r.get 1, r.get 2))
    = some (30, 10, 10) := by decide
end C08

/-! ### C09: casts -/

/-- C09: casts and conversion operators convert lane by lane. -/
theorem C09_casts {α β : Type} {N : Nat} (z : β) (junk : Mem β) (conv : α → β) (x : GSimd α N) (to : GSimd β N)
    (i : Nat) (h : i < N) :
    (simdCast z conv x).get i = conv (x.get i) ∧
    (copyCast conv junk x to).get i = conv (x.get i) ∧
    (convOp junk conv x).get i = conv (x.get i) := by
  refine ⟨?_, ?_, ?_⟩
  · rw [simdCast, copyCast, copyFrom_get _ _ _ h, id, copyTo_get _ _ _ h]
  · rw [copyCast, copyFrom_get _ _ _ h, id, copyTo_get _ _ _ h]
  · exact copyFrom_get _ _ _ h

example : (simdCast (N := 2) (0 : Int) (fun n : Nat => (n : Int) - 5) ⟨fun i => i⟩).get 1 = -4 := by decide

/-! ### C10: constant shifts -/

section C10
variable {N : Nat}

/-- Full property C10 for `lsr`: the logical right shift, for all counts below the width. -/
def C10_lsr_full : Prop := ∀ (t : IntTy) (n : Nat) (x : BitVec t.bits), n < t.bits →
  (lsrElem t n x).toNat = x.toNat / 2 ^ n

theorem ofInt_val_mul (t : IntTy) (x : BitVec t.bits) (n : Nat) :
    BitVec.ofInt t.bits (t.val x * 2 ^ n) = BitVec.ofNat t.bits (x.toNat * 2 ^ n) := by
  have h2 : ((2 : Int) ^ n) = ((2 ^ n : Nat) : Int) := by simp
  have hx : BitVec.ofInt t.bits (t.val x) = x := by
    unfold IntTy.val; split
    · exact BitVec.ofInt_toInt
    · rw [BitVec.ofInt_natCast]; simp
  rw [BitVec.ofInt_mul, hx, h2, BitVec.ofInt_natCast, BitVec.ofNat_mul]
  simp

/-- C10 (`lsl`, `asl`): defined for every admissible count, multiplication by `2^n` modulo `2^w`. -/
theorem C10_lsl (t : IntTy) (n : Nat) (x : BitVec t.bits) (hn : n < t.bits) :
    ∃ r, lslElem t n x = some r ∧ r.toNat = x.toNat * 2 ^ n % 2 ^ t.bits := by
  refine ⟨BitVec.ofInt t.bits (t.val x * 2 ^ n), ?_, ?_⟩
  · have h : (0 : Int) ≤ (n : Int) ∧ (n : Int) < t.promote.bits := by
      refine ⟨by omega, ?_⟩
      unfold IntTy.promote IntTy.i32
      split
      · simp only; omega
      · omega
    rw [lslElem, IntTy.shlN, if_pos h]
    simp
  · rw [ofInt_val_mul, BitVec.toNat_ofNat]

theorem minusOneKept_signed (w n : Nat) (hw : 0 < w) : minusOneKept ⟨w, true⟩ n = true := by
  have h1 : (BitVec.allOnes w).toInt = -1 := BitVec.toInt_allOnes.trans (by simp [hw])
  have h2 : (-1 : Int) / 2 ^ n = -1 := by
    have : (0 : Int) < 2 ^ n := Int.pow_pos (by omega)
    rw [Int.ediv_eq_iff_of_pos this]
    omega
  simp [minusOneKept, IntTy.val, h1, h2]

theorem minusOneKept_unsigned (w n : Nat) (hw : 0 < w) : minusOneKept ⟨w, false⟩ n = decide (n = 0) := by
  have hp : 1 < 2 ^ w := Nat.one_lt_two_pow (by omega)
  by_cases h : n = 0
  · subst h; simp [minusOneKept]
  · have hlt : (2 ^ w - 1) / 2 ^ n < 2 ^ w - 1 :=
      Nat.div_lt_self (by omega) (Nat.one_lt_two_pow h)
    have : ¬ ((2 ^ w - 1) / 2 ^ n = 2 ^ w - 1) := by omega
    simp only [minusOneKept, IntTy.val, BitVec.toNat_allOnes, h, decide_false, decide_eq_false_iff_not]
    intro hc
    apply this
    have h2 : ((2 : Int) ^ n) = ((2 ^ n : Nat) : Int) := by simp
    simp only [Bool.false_eq_true, if_false, h2] at hc
    exact_mod_cast hc

/-- What `lsr<0>` computes: only the top bit of the element survives. -/
theorem C10_lsr_zero_actual (t : IntTy) (x : BitVec t.bits) (hw : 0 < t.bits) :
    lsrElem t 0 x = x &&& (1#t.bits <<< (t.bits - 1)) := by
  have hu : lsrImplU t.bits 0 x = x &&& (1#t.bits <<< (t.bits - 1)) := by
    rw [lsrImplU, minusOneKept_unsigned _ _ hw]; simp
  unfold lsrElem
  split
  · rw [lsrImplS, minusOneKept_signed _ _ hw, if_pos rfl, hu]
  · exact hu

/-- C10 is violated for count 0: `lsr<0>` of 1 is 0. -/
theorem C10_violated : ¬ C10_lsr_full := by
  intro h
  have := h IntTy.u32 0 1 (by decide)
  rw [C10_lsr_zero_actual _ _ (by decide)] at this
  exact absurd this (by decide)

/-- C10, the part of `lsr` that holds: every count from 1 to `w - 1`, signed or unsigned. -/
theorem C10_lsr_partial (t : IntTy) (n : Nat) (x : BitVec t.bits) (h0 : 0 < n) (hn : n < t.bits) :
    (lsrElem t n x).toNat = x.toNat / 2 ^ n := by
  have hu : lsrImplU t.bits n x = x >>> n := by
    rw [lsrImplU, minusOneKept_unsigned _ _ (by omega)]; simp; omega
  have : lsrElem t n x = x >>> n := by
    unfold lsrElem
    split
    · rw [lsrImplS, minusOneKept_signed _ _ (by omega), if_pos rfl, hu]
    · exact hu
  rw [this, BitVec.toNat_ushiftRight, Nat.shiftRight_eq_div_pow]

/-- C10 (`asr`): floor division of the signed value by `2^n`, every count. -/
theorem C10_asr (w n : Nat) (x : BitVec w) (hw : 0 < w) : (asrElem w n x).toInt = x.toInt / 2 ^ n := by
  rw [asrElem, minusOneKept_signed _ _ hw]
  simp [BitVec.toInt_sshiftRight, Int.shiftRight_eq_div_pow]

/-- C10 (vectors): the four functions act on every lane, and are always defined for admissible counts. -/
theorem C10_vectors (t : IntTy) (n : Nat) (hn : n < t.bits) (x : GSimd (BitVec t.bits) N) :
    (∃ r, vlsl t n x = some r ∧ ∀ i, i < N → (r.get i).toNat = (x.get i).toNat * 2 ^ n % 2 ^ t.bits) ∧
    (0 < n → ∃ r, vlsr t n x = some r ∧ ∀ i, i < N → (r.get i).toNat = (x.get i).toNat / 2 ^ n) ∧
    (∃ r, vasr t.bits n x = some r ∧ ∀ i, i < N → (r.get i).toInt = (x.get i).toInt / 2 ^ n) := by
  have key : ∀ (f : BitVec t.bits → Option (BitVec t.bits)) (P : BitVec t.bits → BitVec t.bits → Prop),
      (∀ v, ∃ r, f v = some r ∧ P v r) → ∃ r, lift1 0 f x = some r ∧ ∀ i, i < N → P (x.get i) (r.get i) := by
    intro f P hf
    obtain ⟨h1, h2⟩ := lift1_spec 0 f x
    cases hr : lift1 0 f x with
    | none =>
      obtain ⟨i, _, hi⟩ := h1.1 (by rw [hr]; rfl)
      obtain ⟨r, hr2, _⟩ := hf (x.get i)
      rw [hi] at hr2; cases hr2
    | some r =>
      refine ⟨r, rfl, ?_⟩
      intro i hi
      obtain ⟨v, hv, hP⟩ := hf (x.get i)
      have := h2 r.get (by rw [hr]; rfl) i hi
      rw [hv] at this
      cases this
      exact hP
  refine ⟨?_, ?_, ?_⟩
  · exact key _ _ (fun v => C10_lsl t n v hn)
  · intro h0; exact key _ (fun v r => r.toNat = v.toNat / 2 ^ n) (fun v => ⟨_, rfl, C10_lsr_partial t n v h0 hn⟩)
  · exact key _ (fun v r => r.toInt = v.toInt / 2 ^ n) (fun v => ⟨_, rfl, C10_asr t.bits n v (by omega)⟩)

example : (lsrElem IntTy.i32 4 (-16)).toNat = 0x0fffffff ∧ (asrElem 32 4 (-16 : BitVec 32)).toInt = -1 := by decide
end C10

/-! ### C11: min, max, minmax, clamp -/

section C11
variable {α : Type} {N : Nat}

/-- The order laws of an element type's `<` that C11 assumes (a strict total order given by `<`). -/
structure TotalOrd (lt : α → α → Bool) : Prop where
  irrefl : ∀ a, lt a a = false
  trans : ∀ a b c, lt a b = true → lt b c = true → lt a c = true
  total : ∀ a b, lt a b = true ∨ a = b ∨ lt b a = true

theorem TotalOrd.asymm {lt : α → α → Bool} (h : TotalOrd lt) {a b : α} (hab : lt a b = true) : lt b a = false := by
  cases hba : lt b a
  · rfl
  · have := h.trans _ _ _ hab hba; rw [h.irrefl] at this; cases this

theorem total_lane {f : α → α → α} (z : α) (a b : GSimd α N) :
    ∃ r, lift2 z (fun x y => some (f x y)) a b = some r ∧ ∀ i, i < N → r.get i = f (a.get i) (b.get i) := by
  obtain ⟨h1, h2⟩ := lift2_spec z (fun x y => some (f x y)) a b
  cases hr : lift2 z (fun x y => some (f x y)) a b with
  | none =>
    obtain ⟨i, _, hi⟩ := h1.1 (by rw [hr]; rfl)
    cases hi
  | some r =>
    refine ⟨r, rfl, fun i hi => ?_⟩
    have := h2 r.get (by rw [hr]; rfl) i hi
    exact (Option.some.inj this).symm

/-- C11 (`min`, `max`): each lane is one of the operands' lanes and bounds both. -/
theorem C11_min_max (S : Scalar α) (ho : TotalOrd S.lt) (a b : GSimd α N) :
    (∃ r, vmin S a b = some r ∧ ∀ i, i < N →
      (r.get i = a.get i ∨ r.get i = b.get i) ∧ S.lt (a.get i) (r.get i) = false ∧ S.lt (b.get i) (r.get i) = false) ∧
    (∃ r, vmax S a b = some r ∧ ∀ i, i < N →
      (r.get i = a.get i ∨ r.get i = b.get i) ∧ S.lt (r.get i) (a.get i) = false ∧ S.lt (r.get i) (b.get i) = false) := by
  constructor
  · obtain ⟨r, hr, h⟩ := total_lane (f := stdMin S.lt) S.zero a b
    refine ⟨r, hr, fun i hi => ?_⟩
    rw [h i hi, stdMin]
    split
    · rename_i hlt; exact ⟨Or.inr rfl, ho.asymm hlt, ho.irrefl _⟩
    · rename_i hlt; exact ⟨Or.inl rfl, ho.irrefl _, by simpa using hlt⟩
  · obtain ⟨r, hr, h⟩ := total_lane (f := stdMax S.lt) S.zero a b
    refine ⟨r, hr, fun i hi => ?_⟩
    rw [h i hi, stdMax]
    split
    · rename_i hlt; exact ⟨Or.inr rfl, ho.asymm hlt, ho.irrefl _⟩
    · rename_i hlt; exact ⟨Or.inl rfl, ho.irrefl _, by simpa using hlt⟩

/-- C11 (scalar forms): the scalar form equals the vector form on the broadcast vector. -/
theorem C11_min_max_scalar (S : Scalar α) (a : GSimd α N) (s : α) :
    (vminS S a s).map GSimd.get = (vmin S a ⟨fun _ => s⟩).map GSimd.get ∧
    (vmaxS S a s).map GSimd.get = (vmax S a ⟨fun _ => s⟩).map GSimd.get := ⟨rfl, rfl⟩

/-- What `clamp` computes per lane: undefined iff some `hi[i] < lo[i]`. -/
theorem vclamp_spec (S : Scalar α) (x lo hi : GSimd α N) :
    LaneWise3 N (stdClamp S.lt) x.get lo.get hi.get ((vclamp S x lo hi).map GSimd.get) :=
  lift_core S.zero (fun i => stdClamp S.lt (x.get i) (lo.get i) (hi.get i))

/-- C11 (`clamp`): with `lo[i] ≤ hi[i]` everywhere the result is defined, lies in `[lo, hi]`,
equals `x[i]` if that already does, is otherwise the nearer bound, and clamping again changes nothing. -/
theorem C11_clamp (S : Scalar α) (ho : TotalOrd S.lt) (x lo hi : GSimd α N)
    (hlh : ∀ i, i < N → S.lt (hi.get i) (lo.get i) = false) :
    ∃ r, vclamp S x lo hi = some r ∧
      (∀ i, i < N → S.lt (r.get i) (lo.get i) = false ∧ S.lt (hi.get i) (r.get i) = false ∧
        (S.lt (x.get i) (lo.get i) = false → S.lt (hi.get i) (x.get i) = false → r.get i = x.get i) ∧
        (S.lt (x.get i) (lo.get i) = true → r.get i = lo.get i) ∧
        (S.lt (hi.get i) (x.get i) = true → r.get i = hi.get i)) ∧
      ∃ r2, vclamp S r lo hi = some r2 ∧ ∀ i, i < N → r2.get i = r.get i := by
  have main : ∀ x : GSimd α N, ∃ r, vclamp S x lo hi = some r ∧
      (∀ i, i < N → S.lt (r.get i) (lo.get i) = false ∧ S.lt (hi.get i) (r.get i) = false ∧
        (S.lt (x.get i) (lo.get i) = false → S.lt (hi.get i) (x.get i) = false → r.get i = x.get i) ∧
        (S.lt (x.get i) (lo.get i) = true → r.get i = lo.get i) ∧
        (S.lt (hi.get i) (x.get i) = true → r.get i = hi.get i)) := by
    intro x
    obtain ⟨h1, h2⟩ := vclamp_spec S x lo hi
    cases hr : vclamp S x lo hi with
    | none =>
      obtain ⟨i, hi', hn⟩ := h1.1 (by rw [hr]; rfl)
      simp [stdClamp, hlh i hi'] at hn
    | some r =>
      refine ⟨r, rfl, fun i hi' => ?_⟩
      have := h2 r.get (by rw [hr]; rfl) i hi'
      simp only [stdClamp, hlh i hi', Bool.false_eq_true, if_false, Option.some.injEq] at this
      have hl := hlh i hi'
      generalize r.get i = rv at *
      generalize x.get i = xv at *
      generalize lo.get i = lv at *
      generalize hi.get i = hv at *
      subst this
      cases hxl : S.lt xv lv
      · cases hhx : S.lt hv xv
        · simp [hxl, hhx]
        · refine ⟨?_, ?_, ?_, ?_, ?_⟩ <;> simp [hl, ho.irrefl]
      · have : S.lt hv xv = false := by
          cases hc : S.lt hv xv
          · rfl
          · have := ho.trans _ _ _ hc hxl; rw [hl] at this; cases this
        simp [ho.irrefl, hl, this]
  obtain ⟨r, hr, hs⟩ := main x
  refine ⟨r, hr, hs, ?_⟩
  obtain ⟨r2, hr2, hs2⟩ := main r
  refine ⟨r2, hr2, fun i hi' => ?_⟩
  exact (hs2 i hi').2.2.1 (hs i hi').1 (hs i hi').2.1

theorem forRangeM_fail {σ : Type} (n : Nat) (body : Nat → σ → Option σ) (s : σ) (hn : 0 < n)
    (h : ∀ s, body 0 s = none) : forRangeM n body s = none := by
  induction n with
  | zero => omega
  | succ n ih =>
    simp only [forRangeM]
    by_cases h0 : n = 0
    · subst h0; simp [forRangeM, h]
    · rw [ih (by omega)]; rfl

/-- Full property C11 for `minmax`. -/
def C11_minmax_full : Prop := ∀ (α : Type) (S : Scalar α) (N : Nat) (a b : GSimd α N),
  ∃ r, vminmax S a b = some r ∧ ∀ i, i < N →
    r.1.get i = stdMin S.lt (a.get i) (b.get i) ∧ r.2.get i = stdMax S.lt (a.get i) (b.get i)

/-- `minmax` has undefined behaviour for every non-empty vector: it reads through references to
destroyed temporaries. -/
theorem C11_minmax_always_undefined (S : Scalar α) (a b : GSimd α N) (h : 0 < N) : vminmax S a b = none := by
  unfold vminmax
  rw [forRangeM_fail _ _ _ h]
  · rfl
  · intro s
    unfold stdMinmaxRefs
    cases S.lt (b.get 0) (a.get 0) <;> rfl

theorem C11_violated : ¬ C11_minmax_full := by
  intro h
  obtain ⟨r, hr, _⟩ := h (BitVec IntTy.i32.bits) IntTy.i32.scalar 1 ⟨fun _ => 0⟩ ⟨fun _ => 0⟩
  rw [C11_minmax_always_undefined _ _ _ (by decide)] at hr
  cases hr

/-- The integer types satisfy the order hypothesis of C11. -/
theorem IntTy.totalOrd (t : IntTy) : TotalOrd t.scalar.lt := by
  refine ⟨?_, ?_, ?_⟩
  · intro a; simp [IntTy.scalar]
  · intro a b c; simp only [IntTy.scalar, decide_eq_true_eq]; omega
  · intro a b
    simp only [IntTy.scalar, decide_eq_true_eq]
    rcases Int.lt_trichotomy (t.val a) (t.val b) with h | h | h
    · exact Or.inl h
    · refine Or.inr (Or.inl ?_)
      unfold IntTy.val at h
      split at h
      · exact BitVec.eq_of_toInt_eq h
      · exact BitVec.eq_of_toNat_eq (by exact_mod_cast h)
    · exact Or.inr (Or.inr h)

example : (vclamp (N := 2) IntTy.i32.scalar ⟨fun i => if i = 0 then -5 else 3⟩ ⟨fun _ => 0⟩ ⟨fun _ => 10⟩).map
    (fun r => (r.get 0, r.get 1)) = some (0, 3) := by decide
end C11

end Dpm.Generic
