import Verif.Model.CpuidWin
import Verif.Props.Cpuid
/-!
C44 on Windows with MSVC, and when the feature tests are called during static initialisation.
-/
namespace Dpm.Cpuid
open Dpm.Util

theorem reportsWin_eq (w : WinMachine) (f : Feature) :
    reportsWin w f = some (rawBit w.base f && if rawBit w.base .xsave then xmask w.xcr0 f else omask (winMasks w) f) := by
  unfold reportsWin initWin
  have ht : testBit (rawInfo w.base).l1ecx xsave_bit = some (rawBit w.base .xsave) := by
    rw [← raw_bit]; exact test_some _ _ 27 rfl (by decide)
  dsimp only
  rw [ht]
  simp only [Option.bind_eq_bind, Option.bind_some]
  obtain ⟨j, hj, -, -, hb⟩ := maskXcr0_bits w.xcr0 (rawInfo w.base)
  obtain ⟨k, hk, -, -, hc⟩ := maskOs_bits (winMasks w) (rawInfo w.base)
  cases rawBit w.base .xsave
  · simp only [Bool.false_eq_true, if_false, hk, Option.bind_some, has_eq, hc, raw_bit]
  · simp only [if_true, hj, Option.bind_some, has_eq, hb, raw_bit]
theorem raw_win (w : WinMachine) (f : Feature) : rawBit w.base f = true ↔ CpuHas w.base f := by
  unfold rawBit CpuHas leaf
  rw [show w.base.junk = fun _ => 0 from rfl, Bool.and_eq_true, decide_eq_true_eq]

/-- what Windows says about an SSE level -/
def pfOf : Feature → Option PF
  | .sse => some .xmmi
  | .sse2 => some .xmmi64
  | .sse3 => some .sse3
  | .ssse3 => some .ssse3
  | .sse4_1 => some .sse41
  | .sse4_2 => some .sse42
  | _ => none

/-- C44 on Windows, with OSXSAVE: every feature other than F16C, those of leaf 7 included, is reported exactly if the CPU has it and the OS has
enabled its state. -/
theorem C44_windows_xsave_partial {w : WinMachine} (hx : OsXsave w.base) (f : Feature) (hf : f ≠ .f16c) :
    ∃ b, reportsWin w f = some b ∧ (b = true ↔ CpuHas w.base f ∧ OsEnables w.base f) := by
  refine ⟨_, reportsWin_eq w f, ?_⟩
  rw [(raw_win w .xsave).2 hx, if_pos rfl, Bool.and_eq_true, raw_win, xmask_iff w.xcr0 f hf w.base rfl]
/-- C44 on Windows, without OSXSAVE: an SSE level is reported exactly if the CPU has it and Windows says it may be used … -/
theorem C44_windows_sse {w : WinMachine} (hx : ¬ OsXsave w.base) (f : Feature) (p : PF) (hp : pfOf f = some p) :
    ∃ b, reportsWin w f = some b ∧ (b = true ↔ CpuHas w.base f ∧ w.present p = true) := by
  refine ⟨_, reportsWin_eq w f, ?_⟩
  rw [Bool.eq_false_iff.2 (fun h => hx ((raw_win w .xsave).1 h)), if_neg (by decide), Bool.and_eq_true, raw_win]
  have : omask (winMasks w) f = w.present p := by
    revert hp; cases f <;> simp [pfOf, omask, winMasks] <;> rintro rfl <;> rfl
  rw [this]
/-- … and AVX, AVX2, FMA and AVX-512 whenever the CPU has them, although Windows does not keep their state. -/
theorem C44_windows_no_xsave_violated {w : WinMachine} (hx : ¬ OsXsave w.base) (f : Feature) (hf : 2 ∈ f.state) :
    ∃ b, reportsWin w f = some b ∧ (b = true ↔ CpuHas w.base f) := by
  refine ⟨_, reportsWin_eq w f, ?_⟩
  have : omask (winMasks w) f = true := by revert hf; cases f <;> simp [Feature.state, omask]
  rw [Bool.eq_false_iff.2 (fun h => hx ((raw_win w .xsave).1 h)), if_neg (by decide), this, Bool.and_true, raw_win]
/-- C44: called from the initialiser of a namespace-scope object that runs before that of the library's object (the order across translation units
is unspecified), every test answers no, on every machine. -/
theorem C44_static_order_violated (m : Machine) (f : Feature) : reportsAt false m f = some false := by
  unfold reportsAt
  rw [if_neg (by decide), has_eq]
  cases f <;> rfl
/-- once it has been initialised, the answers are those of the other theorems -/
theorem reportsAt_after (m : Machine) (f : Feature) : reportsAt true m f = reports m f := rfl

/-! ### concrete cases -/
def exWin (osx : Bool) : WinMachine := ⟨exCpu osx, 7, fun p => p == .xmmi⟩
example : reportsWin (exWin true) .avx2 = some true := by
  obtain ⟨b, h, hb⟩ := C44_windows_xsave_partial (w := exWin true) (by unfold OsXsave CpuHas; decide) .avx2 (by decide)
  rw [h, hb.2 ⟨by unfold CpuHas; decide, by unfold OsEnables; decide⟩]
example : reportsWin (exWin false) .sse = some true ∧ reportsWin (exWin false) .sse2 = some false ∧ reportsWin (exWin false) .avx = some true := by
  have hx : ¬ OsXsave (exWin false).base := by unfold OsXsave CpuHas; decide
  obtain ⟨b, h, hb⟩ := C44_windows_sse hx .sse .xmmi rfl
  obtain ⟨b2, h2, hb2⟩ := C44_windows_sse hx .sse2 .xmmi64 rfl
  obtain ⟨b3, h3, hb3⟩ := C44_windows_no_xsave_violated hx .avx (by decide)
  refine ⟨by rw [h, hb.2 ⟨by unfold CpuHas; decide, rfl⟩], ?_, by rw [h3, hb3.2 (by unfold CpuHas; decide)]⟩
  rw [h2]
  cases b2
  · rfl
  · exact absurd (hb2.1 rfl).2 (by decide)
/-- too early, AVX2 is denied; later it is reported -/
example : reportsAt false (exM true 0 7 none) .avx2 = some false ∧ reportsAt true (exM true 0 7 none) .avx2 = some true := by
  refine ⟨C44_static_order_violated _ _, ?_⟩
  obtain ⟨b, h, hb⟩ := C44_xsave_partial (exM_nosub true 0 7 none) (by unfold OsXsave CpuHas; decide) .avx2 (by decide) (fun _ => rfl)
  rw [reportsAt_after, h, hb.2 ⟨by unfold CpuHas; decide, by unfold OsEnables; decide⟩]
end Dpm.Cpuid
