import Verif.Model.Alias
import Verif.Props.X86Trig
import Verif.Props.X86Modf
import Verif.Props.GenericMath
/-
C50 for any number of operands, and C67: outputs may be the same object as the input.
-/
namespace Dpm.X86
open Dpm.Reg Dpm.Fp Dpm.Generic Dpm.GenericMath

/-- C50: the traversal with any number of operands, some of which may be the same object: the kernel runs once for each native vector number
`j`, on the original `j`-th native vectors of all objects, and every object's `j`-th native vector becomes what it says. -/
theorem C50_nary (c : Cfg) (f : Objs (Vec c.v) → Objs (Vec c.v)) (st : Objs c.Data) (o j : Nat) :
    vectorizeN c f st o j = if j < c.dataSize then f (fun p => st p j) o else st o j := by
  unfold vectorizeN
  have : ∀ n, (forRange n (fun i st => fun o => (st o).set i (f (fun p => st p i) o)) st : Objs c.Data) =
      fun o j => if j < n then f (fun p => st p j) o else st o j := by
    intro n
    induction n with
    | zero => funext o j; simp [forRange]
    | succ n ih =>
      rw [forRange, ih]
      funext o j
      by_cases hj : j = n
      · subst hj; simp [Mem.set]
      · simp only [Mem.set, if_neg hj]
        by_cases h : j < n
        · rw [if_pos h, if_pos (by omega)]
        · rw [if_neg h, if_neg (by omega)]
  rw [this]
theorem vectorizeNM_spec (c : Cfg) (f : Objs (Vec c.v) → Option (Objs (Vec c.v))) (st : Objs c.Data) (n : Nat) (g : Nat → Objs (Vec c.v))
    (hg : ∀ j, j < n → f (fun p => st p j) = some (g j)) :
    forRangeM n (fun i (st : Objs c.Data) => (f (fun p => st p i)).map (fun r => fun o => (st o).set i (r o))) st =
      some (fun o j => if j < n then g j o else st o j) := by
  induction n with
  | zero => simp [forRangeM]
  | succ n ih =>
    rw [forRangeM, ih (fun j hj => hg j (by omega))]
    dsimp only [Option.bind]
    have : (fun p => if n < n then g n p else st p n) = fun p => st p n := by funext p; rw [if_neg (Nat.lt_irrefl n)]
    rw [this, hg n (by omega)]
    simp only [Option.map]
    congr 1
    funext o j
    by_cases hj : j = n
    · subst hj; simp [Mem.set]
    · simp only [Mem.set, if_neg hj]
      by_cases h : j < n
      · rw [if_pos h, if_pos (by omega)]
      · rw [if_neg h, if_neg (by omega)]

/-! ### C67 -/
/-- C67 (`sincos` on x86 vectors): whether or not one of the outputs is the input object, the outputs are those of the call with separate
objects, and every other object keeps its value. -/
theorem C67_sincos {c : Cfg} (L : Libm) (o : MathOpt) (fm : Bool) (x s k : Nat) (hsk : s ≠ k) (st : Objs c.Data) :
    ∃ r, vSincos c L o fm (st x) (st s) (st k) = .ok r ∧ sincosObj c L o fm x s k st s = r.1 ∧ sincosObj c L o fm x s k st k = r.2 ∧
      ∀ p, p ≠ s → p ≠ k → sincosObj c L o fm x s k st p = st p := by
  refine ⟨_, rfl, ?_, ?_, fun p hs hk => ?_⟩
  · funext j
    rw [forRange_pair, forRange_store]
    simp only [sincosObj, C50_nary, Objs.put, if_true]
  · funext j
    rw [forRange_pair]
    dsimp only
    rw [forRange_store]
    simp only [sincosObj, C50_nary, Objs.put, if_neg (Ne.symm hsk), if_true]
  · funext j
    simp only [sincosObj, C50_nary, Objs.put, if_neg hs, if_neg hk, ite_self]
/-- with one object for both outputs it holds the sine -/
theorem C67_sincos_same {c : Cfg} (L : Libm) (o : MathOpt) (fm : Bool) (x s : Nat) (st : Objs c.Data) :
    ∃ r, vSincos c L o fm (st x) (st s) (st s) = .ok r ∧ sincosObj c L o fm x s s st s = r.1 := by
  refine ⟨_, rfl, ?_⟩
  funext j
  rw [forRange_pair, forRange_store]
  simp only [sincosObj, C50_nary, Objs.put, if_true]
/-- C67 (`modf` on x86 vectors): the integral part may be stored over the argument. -/
theorem C67_modf {c : Cfg} (o : MathOpt) (r x i : Nat) (hx : x ≠ r) (hi : i ≠ r) (st : Objs c.Data) (p : c.Data × c.Data)
    (h : vModf c o (st x) = .ok p) :
    ∃ st', modfObj c o r x i st = some st' ∧ (∀ j, j < c.dataSize → st' r j = p.1 j ∧ st' i j = p.2 j) ∧
      ∀ q, q ≠ r → q ≠ i → st' q = st q := by
  have hm : ∀ n (q : c.Data × c.Data), forRangeM n (fun j (r : c.Data × c.Data) =>
      (modfV o c.s c.T c.v (st x j)).map (fun p => (r.1.set j p.1, r.2.set j p.2))) (zeroData c, zeroData c) = some q →
      ∀ j, j < n → modfV o c.s c.T c.v (st x j) = some (q.1 j, q.2 j) := by
    intro n
    induction n with
    | zero => intro q _ j hj; omega
    | succ n ih =>
      intro q hq j hj
      rw [forRangeM] at hq
      cases hprev : forRangeM n (fun j (r : c.Data × c.Data) =>
        (modfV o c.s c.T c.v (st x j)).map (fun p => (r.1.set j p.1, r.2.set j p.2))) (zeroData c, zeroData c) with
      | none => rw [hprev] at hq; exact absurd hq (by simp)
      | some q0 =>
        rw [hprev] at hq
        simp only [Option.bind] at hq
        cases hv : modfV o c.s c.T c.v (st x n) with
        | none => rw [hv] at hq; exact absurd hq (by simp)
        | some y =>
          rw [hv] at hq
          simp only [Option.map, Option.some.injEq] at hq
          subst hq
          by_cases hjn : j = n
          · subst hjn; rw [hv]; simp
          · rw [ih q0 hprev j (by omega)]
            simp only [Mem.set, if_neg hjn]
  have h' : forRangeM c.dataSize (fun j (r : c.Data × c.Data) =>
      (modfV o c.s c.T c.v (st x j)).map (fun p => (r.1.set j p.1, r.2.set j p.2))) (zeroData c, zeroData c) = some p := by
    unfold vModf Out.ofUb at h
    split at h
    · exact absurd h (by simp)
    · rename_i v hv; rw [hv]; exact congrArg some (Out.ok.inj h)
  have hv := hm _ _ h'
  have hr : ∀ j, (st.put r (zeroData c)) x j = st x j := fun j => by unfold Objs.put; rw [if_neg hx]
  have key := vectorizeNM_spec c (fun cells => (modfV o c.s c.T c.v (cells x)).map (fun p => (cells.put i p.2).put r p.1)) (st.put r (zeroData c))
    c.dataSize (fun j => (Objs.put (fun q => (st.put r (zeroData c)) q j) i (p.2 j)).put r (p.1 j)) (fun j hj => by
      dsimp only; rw [hr, hv j hj]; rfl)
  refine ⟨_, key, fun j hj => ?_, fun q hq1 hq2 => ?_⟩
  · rw [if_pos hj, if_pos hj]
    refine ⟨by simp [Objs.put], by simp [Objs.put, hi]⟩
  · funext j
    simp only [Objs.put, if_neg hq1, if_neg hq2, ite_self]
/-- C67 (generic `sincos`, without the builtins), proved part: right as long as the sine is not stored over the argument; storing the cosine
there is fine. -/
theorem C67_generic_partial {w N : Nat} (L : Cmath w) (x s k : Nat) (hsk : s ≠ k) (hsx : s ≠ x) (st : Objs (GSimd (BitVec w) N)) :
    ∃ st', gSincosObj L x s k st = .ok st' ∧ (∀ i, i < N → (st' s).get i = L.fn1 .sin ((st x).get i) ∧ (st' k).get i = L.fn1 .cos ((st x).get i)) ∧
      ∀ p, p ≠ s → p ≠ k → st' p = st p := by
  obtain ⟨rs, hs, h1⟩ := C58_unary L (st x) .sin (by decide)
  obtain ⟨rc, hc, h2⟩ := C58_unary L (st x) .cos (by decide)
  refine ⟨(st.put s rs).put k rc, ?_, fun i hi => ⟨?_, ?_⟩, fun p hp1 hp2 => ?_⟩
  · have : (st.put s rs) x = st x := by unfold Objs.put; rw [if_neg (Ne.symm hsx)]
    simp only [gSincosObj, hs, Out.bind, this, hc, Out.map]
  · unfold Objs.put; rw [if_neg hsk, if_pos rfl]; exact h1 i hi
  · unfold Objs.put; rw [if_pos rfl]; exact h2 i hi
  · unfold Objs.put; rw [if_neg hp2, if_neg hp1]
/-- C67 (generic `sincos`) violated: when the sine is stored over the argument, the other output is the cosine of the sine. -/
theorem C67_generic_violated {w N : Nat} (L : Cmath w) (x k : Nat) (hk : x ≠ k) (st : Objs (GSimd (BitVec w) N)) :
    ∃ st', gSincosObj L x x k st = .ok st' ∧ ∀ i, i < N → (st' k).get i = L.fn1 .cos (L.fn1 .sin ((st x).get i)) := by
  obtain ⟨rs, hs, h1⟩ := C58_unary L (st x) .sin (by decide)
  obtain ⟨rc, hc, h2⟩ := C58_unary L rs .cos (by decide)
  refine ⟨(st.put x rs).put k rc, ?_, fun i hi => ?_⟩
  · have : (st.put x rs) x = rs := by unfold Objs.put; rw [if_pos rfl]
    simp only [gSincosObj, hs, Out.bind, this, hc, Out.map]
  · unfold Objs.put; rw [if_pos rfl]; exact (h2 i hi).trans (congrArg _ (h1 i hi))

/-- `sincos(x, x, c)` on `simd<float, 6>`: object 0 is argument and sine output, object 1 gets the cosine -/
example (st : Objs exF32.Data) : ∃ r, vSincos exF32 exLibm ⟨true, true⟩ false (st 0) (st 0) (st 1) = .ok r ∧
    sincosObj exF32 exLibm ⟨true, true⟩ false 0 0 1 st 0 = r.1 ∧ sincosObj exF32 exLibm ⟨true, true⟩ false 0 0 1 st 1 = r.2 := by
  obtain ⟨r, h, h1, h2, _⟩ := C67_sincos (c := exF32) exLibm ⟨true, true⟩ false 0 0 1 (by decide) st
  exact ⟨r, h, h1, h2⟩
/-- `modf(x, &x)` with x = 2.75 in every element of `simd<double, 4>` is defined -/
example : ∃ st', modfObj exF64 ⟨true, true⟩ 1 0 0 (fun _ => vbroadcast exF64 0x4006000000000000 (zeroData exF64)) = some st' := by
  obtain ⟨r, hr, _⟩ := C36_modf_partial exF64_ok rfl ⟨true, true⟩ (vbroadcast exF64 0x4006000000000000 (zeroData exF64)) (fun _ _ => Or.inl rfl)
  obtain ⟨st', h, _⟩ := C67_modf ⟨true, true⟩ 1 0 0 (by decide) (by decide) (fun _ => vbroadcast exF64 0x4006000000000000 (zeroData exF64)) r hr
  exact ⟨st', h⟩
end Dpm.X86
