import Verif.Model.Cpuid
/-
What the CPU and the OS support, from the Intel SDM (vol. 2A CPUID, vol. 1 ch. 13 XCR0): feature bits by leaf, register and bit;
state components 1 (SSE), 2 (AVX) and 5-7 (AVX-512).
-/
namespace Dpm.Cpuid

/-- leaf (sub-leaf 0), register and bit of a feature -/
def Feature.bit : Feature → Nat × (Regs → BitVec 32) × Nat
  | .sse3 => (1, Regs.ecx, 0) | .ssse3 => (1, Regs.ecx, 9) | .fma => (1, Regs.ecx, 12) | .cmpxchg16b => (1, Regs.ecx, 13)
  | .sse4_1 => (1, Regs.ecx, 19) | .sse4_2 => (1, Regs.ecx, 20) | .xsave => (1, Regs.ecx, 27) | .avx => (1, Regs.ecx, 28) | .f16c => (1, Regs.ecx, 29)
  | .msr => (1, Regs.edx, 5) | .cx8 => (1, Regs.edx, 8) | .sep => (1, Regs.edx, 11) | .cmov => (1, Regs.edx, 15) | .clfsh => (1, Regs.edx, 19)
  | .sse => (1, Regs.edx, 25) | .sse2 => (1, Regs.edx, 26)
  | .avx2 => (7, Regs.ebx, 5) | .avx512f => (7, Regs.ebx, 16) | .avx512dq => (7, Regs.ebx, 17)
  | .avx512cd => (7, Regs.ebx, 28) | .avx512bw => (7, Regs.ebx, 30) | .avx512vl => (7, Regs.ebx, 31)
/-- the CPU implements the feature -/
def CpuHas (m : Machine) (f : Feature) : Prop :=
  f.bit.1 ≤ (m.cpuid 0 0).eax.toNat ∧ (f.bit.2.1 (m.cpuid (BitVec.ofNat 32 f.bit.1) 0)).getLsbD f.bit.2.2 = true
/-- the OS uses XSAVE: only then is XCR0 readable and only then may AVX instructions be executed -/
def OsXsave (m : Machine) : Prop := CpuHas m .xsave
/-- the state components the OS must have enabled for the feature -/
def Feature.state : Feature → List Nat
  | .sse | .sse2 | .sse3 | .ssse3 | .sse4_1 | .sse4_2 => [1]
  | .avx | .avx2 | .fma | .f16c => [1, 2]
  | .avx512f | .avx512cd | .avx512bw | .avx512dq | .avx512vl => [1, 2, 5, 6, 7]
  | _ => []
def OsEnables (m : Machine) (f : Feature) : Prop := ∀ k ∈ f.state, m.xcr0.getLsbD k = true
/-- leaves 0 and 1 do not look at ECX -/
def NoSubleaf (m : Machine) : Prop := ∀ c, m.cpuid 0 c = m.cpuid 0 0 ∧ m.cpuid 1 c = m.cpuid 1 0
/-- a text contains a word after another -/
def ContainsAfter (s a b : List Char) : Prop := ∃ p q r, s = p ++ a ++ q ++ b ++ r
/-- the vendor registers of Intel and AMD processors (SDM vol. 2A, CPUID leaf 0; AMD APM vol. 3) -/
def IntelRegs (r : Regs) : Prop := r.ebx = 0x756e6547 ∧ r.edx = 0x49656e69 ∧ r.ecx = 0x6c65746e
def AmdRegs (r : Regs) : Prop := r.ebx = 0x68747541 ∧ r.edx = 0x69746e65 ∧ r.ecx = 0x444d4163
end Dpm.Cpuid
