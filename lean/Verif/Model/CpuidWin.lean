import Verif.Model.Cpuid
/-
CPU feature detection with MSVC on Windows, and before the detection has run.
CI = /repo/dpm/detail/x86/cpuid.cpp, CH = /repo/dpm/detail/x86/cpuid.hpp.
The FreeBSD branch (CI:184 tests an undeclared name) and the Apple branch (CI:66-71 passes a `string_view` where `sysctlbyname` takes a
`const char *`) do not compile and are not modelled.
-/
namespace Dpm.Cpuid
open Dpm.Util

/-- the features `IsProcessorFeaturePresent` is asked about (CI:149-154) -/
inductive PF | xmmi | xmmi64 | sse3 | ssse3 | sse41 | sse42
  deriving DecidableEq

structure WinMachine where
  /-- the CPUID instruction: EAX, ECX -/
  cpuid : BitVec 32 → BitVec 32 → Regs
  xcr0 : BitVec 32
  /-- `IsProcessorFeaturePresent` -/
  present : PF → Bool
/-- `__cpuid` (CI:41-44) executes CPUID with ECX = 0 (Microsoft Learn, "__cpuid, __cpuidex"); /proc/cpuinfo is not read -/
def WinMachine.base (w : WinMachine) : Machine := ⟨w.cpuid, fun _ => 0, w.xcr0, none⟩
/-- CI:149-154 -/
def winMasks (w : WinMachine) : SseMasks where
  sse := w.present .xmmi
  sse2 := w.present .xmmi64
  sse3 := w.present .sse3
  ssse3 := w.present .ssse3
  sse41 := w.present .sse41
  sse42 := w.present .sse42
/-- the constructor (CI:77-218) in its Windows branches -/
def initWin (w : WinMachine) : Option Info := do
  let i := rawInfo w.base
  if ← testBit i.l1ecx xsave_bit then maskXcr0 w.xcr0 i else maskOs (winMasks w) i
def reportsWin (w : WinMachine) (f : Feature) : Option Bool := (initWin w).bind (fun i => has i f)

/-- `cpu_info` (CI:220) is a namespace-scope object with a constructor that is not constexpr: until the initialisation of its translation
unit has run it is zero-initialised, and the `has_` functions (CH:45-75) read it as it is. `constructed`: has that happened? -/
def reportsAt (constructed : Bool) (m : Machine) (f : Feature) : Option Bool := if constructed then reports m f else has {} f
end Dpm.Cpuid
