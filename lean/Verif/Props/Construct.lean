import Verif.Model.Construct
import Verif.Props.Generic
import Verif.Props.X86Int
import Verif.Props.X86Mask
/-!
C86: a vector or mask built from a callable holds, in element `i`, what the callable returns for `i` - whatever the callable is: a function, a
lambda expression of any form, a function object.
-/
namespace Dpm.Construct
open Dpm Dpm.Reg Dpm.Generic Dpm.X86

/-- The callables of the English statement for which it fails: functions (by name, pointer or reference), and lambda expressions beginning with
`[]` without `auto` parameters.  These are the ones C++ converts to `bool`. -/
def Callable.Pointer {α : Type} (f : Callable α) : Prop := f.kind = .function ∨ f.kind = .lambda true false

section generic
variable {N : Nat}
/-- C86, generic vectors: every callable, also one that needs its argument as a constant. -/
theorem C86_vector_generic {α : Type} (f : Callable α) (junk : Mem α) :
    ∃ r : GSimd α N, gVec f junk = .ok r ∧ ∀ i, i < N → r.get i = f.val i :=
  ⟨_, rfl, fun i hi => (C06_constructors ⟨junk⟩ junk junk (f.val 0) f.val i hi).2.1⟩
/-- C86, generic masks: every callable but functions and `[]` lambdas without `auto`. -/
theorem C86_mask_generic_partial (k : Init) (f : Callable Bool) (hf : ¬ f.Pointer) (junk : Mem Bool) :
    ∃ r : GMask N, gMask k f junk = .ok r ∧ ∀ i, i < N → r.get i = f.val i := by
  have h : maskCtor k f.kind = some .generator := by
    cases hk : f.kind with
    | function => exact absurd (.inl hk) hf
    | functor => rfl
    | lambda a b =>
      cases a <;> cases b <;> first | rfl | exact absurd (.inr hk) hf
  refine ⟨GSimd.generate junk f.val, by simp only [gMask, h], fun i hi => ?_⟩
  exact (C06_constructors ⟨junk⟩ junk junk true f.val i hi).2.1
/-- C86 is violated: a generic mask initialised `m(f)` with a function or a `[]` lambda without `auto` has every element true, whatever `f`
returns. -/
theorem C86_mask_generic_violated (f : Callable Bool) (hf : f.Pointer) (junk : Mem Bool) :
    ∃ r : GMask N, gMask .direct f junk = .ok r ∧ ∀ i, i < N → r.get i = true := by
  have h : maskCtor .direct f.kind = some .broadcast := by rcases hf with h | h <;> rw [h] <;> rfl
  refine ⟨GSimd.fill junk true, by simp only [gMask, h], fun i hi => ?_⟩
  exact (C06_constructors ⟨junk⟩ junk junk true f.val i hi).1
/-- With `m = f` a function gives the same, and a `[]` lambda without `auto` does not compile. -/
theorem C86_mask_generic_copy (f : Callable Bool) (junk : Mem Bool) :
    (f.kind = .function → ∃ r : GMask N, gMask .copy f junk = .ok r ∧ ∀ i, i < N → r.get i = true) ∧
    (f.kind = .lambda true false → gMask (N := N) .copy f junk = .illFormed) := by
  refine ⟨fun h => ?_, fun h => by simp only [gMask, h]; rfl⟩
  have h' : maskCtor .copy f.kind = some .broadcast := by rw [h]; rfl
  refine ⟨GSimd.fill junk true, by simp only [gMask, h'], fun i hi => ?_⟩
  exact (C06_constructors ⟨junk⟩ junk junk true f.val i hi).1
end generic

section x86
variable {c : Cfg} (hc : c.Ok)
include hc
/-- C86, x86 vectors: every callable that does not need its argument as a constant. -/
theorem C86_vector_x86_partial (f : Callable (BitVec c.w)) (hr : f.needsConst = false) (junk : c.Data) :
    ∃ r, xVec c f junk = .ok r ∧ ∀ i, i < c.N → elt c r i = f.val i := by
  refine ⟨vgenerate c f.val junk, ?_, fun i hi => elt_vgenerate hc f.val junk hi⟩
  show (if f.needsConst = true then Out.illFormed else .ok (vgenerate c f.val junk)) = _
  rw [hr]; rfl
/-- C86, x86 masks: every callable but functions and `[]` lambdas without `auto`, and those that need their argument as a constant. -/
theorem C86_mask_x86_partial (k : Init) (f : Callable Bool) (hf : ¬ f.Pointer) (hr : f.needsConst = false) (junk : c.Data) :
    ∃ r, xMask c k f junk = .ok r ∧ ∀ i, i < c.N → mget c r i = f.val i := by
  have h : maskCtor k f.kind = some .generator := by
    cases hk : f.kind with
    | function => exact absurd (.inl hk) hf
    | functor => rfl
    | lambda a b =>
      cases a <;> cases b <;> first | rfl | exact absurd (.inr hk) hf
  refine ⟨Mask.ofGen c f.val junk, by simp only [xMask, h, hr]; rfl, fun i hi => ?_⟩
  exact mget_of_elt hc (elt_ofGen hc f.val junk hi)
/-- C86 is violated for x86 masks in the same way. -/
theorem C86_mask_x86_violated (f : Callable Bool) (hf : f.Pointer) (junk : c.Data) :
    ∃ r, xMask c .direct f junk = .ok r ∧ ∀ i, i < c.N → mget c r i = true := by
  have h : maskCtor .direct f.kind = some .broadcast := by rcases hf with h | h <;> rw [h] <;> rfl
  refine ⟨Mask.ofBool c true junk, by simp only [xMask, h], fun i hi => ?_⟩
  exact mget_of_elt hc (elt_ofBool hc true junk hi)
omit hc in
/-- C86 is violated: a generator that needs its argument as a constant compiles for generic vectors (C86_vector_generic) and for no x86 vector or
mask. -/
theorem C86_constant_violated (k : Init) (f : Callable (BitVec c.w)) (g : Callable Bool) (hf : f.needsConst = true) (hg : g.needsConst = true)
    (hp : g.Ok) (junk : c.Data) : xVec c f junk = .illFormed ∧ xMask c k g junk = .illFormed := by
  refine ⟨?_, ?_⟩
  · show (if f.needsConst = true then Out.illFormed else .ok (vgenerate c f.val junk)) = _
    rw [hf]; rfl
  · have h : maskCtor k g.kind = some .generator := by
      rcases hp hg with ⟨b, h⟩ | h <;> rw [h]
      · cases b <;> rfl
      · rfl
    simp only [xMask, h, hg]; rfl
/-- Both backends agree, element by element, whenever both compile. -/
theorem C86_agree (k : Init) (f : Callable Bool) (jx : c.Data) (jg : Mem Bool) {r : c.Data} {q : GMask c.N}
    (hx : xMask c k f jx = .ok r) (hg : gMask k f jg = .ok q) : ∀ i, i < c.N → mget c r i = q.get i := by
  intro i hi
  have one : mget c (Mask.ofBool c true jx) i = true := mget_of_elt hc (elt_ofBool hc true jx hi)
  have gone : (GSimd.fill (N := c.N) jg true).get i = true := (C06_constructors ⟨jg⟩ jg jg true f.val i hi).1
  have ggen : (GSimd.generate (N := c.N) jg f.val).get i = f.val i := (C06_constructors ⟨jg⟩ jg jg true f.val i hi).2.1
  have xgen : mget c (Mask.ofGen c f.val jx) i = f.val i := mget_of_elt hc (elt_ofGen hc f.val jx hi)
  cases hk : maskCtor k f.kind with
  | none => simp [xMask, hk] at hx
  | some t =>
    cases t with
    | broadcast =>
      simp only [xMask, hk, Out.ok.injEq] at hx
      simp only [gMask, hk, Out.ok.injEq] at hg
      rw [← hx, ← hg, one, gone]
    | generator =>
      simp only [gMask, hk, Out.ok.injEq] at hg
      simp only [xMask, hk] at hx
      split at hx
      · exact absurd hx (by simp)
      · rw [← Out.ok.inj hx, ← hg, xgen, ggen]
end x86

/-! ### examples -/
/-- `[](std::size_t i) { return i % 2 == 0; }`, and the same with a capture-default -/
def exEven : Callable Bool := ⟨.lambda true false, false, fun i => i % 2 == 0⟩
def exEvenCap : Callable Bool := ⟨.lambda false false, false, fun i => i % 2 == 0⟩
/-- `[](auto i) { return tab<i()>; }` -/
def exConst : Callable Bool := ⟨.lambda true true, true, fun i => i % 2 == 0⟩
def exC : Cfg := ⟨ISA.avx2L, .f32, 6, .v256⟩
theorem exC_ok : exC.Ok := ⟨by decide, by decide, by decide, by decide, fun _ => rfl⟩
/-- the same masks on an x86 target, six elements in one 32-byte vector; the generator that needs a constant does not compile there -/
example : (∃ r, xMask exC .direct exEven (zeroData exC) = .ok r ∧ mget exC r 5 = true) ∧
    (∃ r, xMask exC .copy exEvenCap (zeroData exC) = .ok r ∧ mget exC r 5 = false) ∧ xMask exC .direct exConst (zeroData exC) = .illFormed := by
  obtain ⟨r, h, e⟩ := C86_mask_x86_violated exC_ok exEven (.inr rfl) (zeroData exC)
  obtain ⟨q, g, e'⟩ := C86_mask_x86_partial exC_ok .copy exEvenCap
    (by rintro (h | h) <;> simp [exEvenCap] at h) rfl (zeroData exC)
  exact ⟨⟨r, h, e 5 (by decide)⟩, ⟨q, g, (e' 5 (by decide)).trans rfl⟩, rfl⟩
example : exEven.Pointer ∧ ¬ exEvenCap.Pointer ∧ exConst.Ok ∧ exEvenCap.needsConst = false := by
  refine ⟨.inr rfl, ?_, fun _ => .inl ⟨true, rfl⟩, rfl⟩
  rintro (h | h) <;> simp [exEvenCap] at h
/-- `simd_mask<float> m([](std::size_t i) { return i % 2 == 0; })` has element 1 set; with `[=]` it has not. -/
example : (∃ r : GMask 4, gMask .direct exEven (fun _ => false) = .ok r ∧ r.get 1 = true) ∧
    (∃ r : GMask 4, gMask .direct exEvenCap (fun _ => false) = .ok r ∧ r.get 1 = false) := by
  obtain ⟨r, h, e⟩ := C86_mask_generic_violated (N := 4) exEven (.inr rfl) (fun _ => false)
  obtain ⟨q, g, e'⟩ := C86_mask_generic_partial (N := 4) .direct exEvenCap
    (by rintro (h | h) <;> simp [exEvenCap] at h) (fun _ => false)
  exact ⟨⟨r, h, e 1 (by omega)⟩, ⟨q, g, (e' 1 (by omega)).trans rfl⟩⟩
end Dpm.Construct
