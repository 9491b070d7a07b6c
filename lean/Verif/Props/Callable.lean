import Verif.Model.Callable
import Verif.Props.GenericMath
import Verif.Props.X86Trig
import Verif.Props.X86Shift
/-
Property C59: the functions of the library can be called on the vectors of the x86 backend.
-/
namespace Dpm.Callable
open Dpm Dpm.Generic Dpm.X86 Dpm.GenericMath

/-- The call does not compile, whatever the arguments. -/
def NeverCompiles {α β : Type} (call : α → Out β) : Prop := ∀ a, call a = .illFormed
/-- The call compiles and behaves as its run-time path. -/
def RunsAs {α β : Type} (call run : α → Out β) : Prop := ∀ a, call a = run a

/-- C59 (violated for `abs`, `fabs`): for every element type, size and native vector width, `abs(x)` and `fabs(x)` on an x86 vector do not
compile, although their run-time path does: the branch for constant evaluation instantiates the generic `abs`. -/
theorem C59_abs_violated (c : Cfg) (L : Cmath c.w) : NeverCompiles (callAbs c L) ∧ NeverCompiles (callFabs c L) := by
  refine ⟨fun a => ?_, fun a => ?_⟩ <;> simp [callFabs, callAbs, absConst, packedOf, Out.bind, gFn1, bothBranches]

/-- C59 (violated for the constant shifts): `lsl<k>`, `lsr<k>`, `asl<k>`, `asr<k>` do not compile for any x86 vector type and shift count `k`. -/
theorem C59_shifts_violated (c : Cfg) (k : Nat) :
    NeverCompiles (callLsl c k) ∧ NeverCompiles (callLsr c k) ∧ NeverCompiles (callAsl c k) ∧ NeverCompiles (callAsr c k) := by
  have h : shiftConst c k = .illFormed := by
    unfold shiftConst packedOf maskOfVector; split <;> rfl
  refine ⟨fun a => ?_, fun a => ?_, fun a => ?_, fun a => ?_⟩ <;>
    simp [callLsl, callLsr, callAsl, callAsr, h, bothBranches]

/-- C59 (violated for `sincos` with the compiler builtins, i.e. with GCC and Clang). -/
theorem C59_sincos_violated (c : Cfg) (L : Cmath c.w) (lm : Libm) (o : MathOpt) (fm : Bool) (x os oc : c.Data) :
    callSincos c true L lm o fm x os oc = .illFormed := by simp [callSincos, packedOf, Out.bind, gSincos, bothBranches]

/-- C59 (without those builtins `sincos` compiles and runs its native path, and `sin` always does). -/
theorem C59_sincos (c : Cfg) (L : Cmath c.w) (lm : Libm) (o : MathOpt) (fm : Bool) (os oc : c.Data) :
    RunsAs (fun x => callSincos c false L lm o fm x os oc) (fun x => vSincos c lm o fm x os oc) ∧
    RunsAs (callSin c L lm o fm) (vSin c lm o fm) := by
  refine ⟨fun x => ?_, fun x => ?_⟩
  · obtain ⟨r, hr, _⟩ := (C58_sincos L (⟨fun i => elt c x i⟩ : GSimd (BitVec c.w) c.N)).1
    simp only [callSincos, packedOf, if_true, Out.bind, hr, bothBranches]
  · obtain ⟨r, hr, _⟩ := C58_unary L (⟨fun i => elt c x i⟩ : GSimd (BitVec c.w) c.N) .sin (by decide)
    simp only [callSin, packedOf, if_true, Out.bind, hr, bothBranches]

/-- The run-time paths that never get to run are there: `vAbs`, `vLsl` and `vAsr` of `exI32` are defined for every argument. -/
example (a : exI32.Data) : (∃ r, vAbs exI32 a = .ok r) ∧ (∃ r, vLsl exI32 3 a = .ok r) ∧ ∃ r, vAsr exI32 3 a = .ok r :=
  ⟨⟨_, rfl⟩, ⟨_, rfl⟩, ⟨_, rfl⟩⟩
end Dpm.Callable
