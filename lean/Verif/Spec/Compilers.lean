import Verif.Model.Config
/-
What compilers predefine.  GCC and Clang: one macro per enabled extension, and enabling an extension enables those it builds on (GCC manual,
"x86 Options"; gcc/common/config/i386/i386-common.cc, `OPTION_MASK_ISA_*_SET`).  MSVC: the `/arch` option (Microsoft Learn, "Predefined
macros", "/arch (x86)", "/arch (x64)").
-/
namespace Dpm.Config

/-- the extensions the library knows -/
inductive Ext
  | sse | sse2 | sse3 | ssse3 | sse41 | sse42 | avx | fma | avx2 | avx512f | avx512cd | avx512bw | avx512dq | avx512vl
  deriving DecidableEq
/-- the macro GCC and Clang predefine when the extension is enabled -/
def Ext.gnu : Ext → String
  | sse => "__SSE__" | sse2 => "__SSE2__" | sse3 => "__SSE3__" | ssse3 => "__SSSE3__" | sse41 => "__SSE4_1__" | sse42 => "__SSE4_2__"
  | avx => "__AVX__" | fma => "__FMA__" | avx2 => "__AVX2__" | avx512f => "__AVX512F__" | avx512cd => "__AVX512CD__"
  | avx512bw => "__AVX512BW__" | avx512dq => "__AVX512DQ__" | avx512vl => "__AVX512VL__"
/-- the macro by which the library is told -/
def Ext.dpm : Ext → String
  | sse => "DPM_HAS_SSE" | sse2 => "DPM_HAS_SSE2" | sse3 => "DPM_HAS_SSE3" | ssse3 => "DPM_HAS_SSSE3" | sse41 => "DPM_HAS_SSE4_1"
  | sse42 => "DPM_HAS_SSE4_2" | avx => "DPM_HAS_AVX" | fma => "DPM_HAS_FMA" | avx2 => "DPM_HAS_AVX2" | avx512f => "DPM_HAS_AVX512F"
  | avx512cd => "DPM_HAS_AVX512CD" | avx512bw => "DPM_HAS_AVX512BW" | avx512dq => "DPM_HAS_AVX512DQ" | avx512vl => "DPM_HAS_AVX512VL"
/-- the extension an extension directly builds on -/
def Ext.base : Ext → Option Ext
  | sse => none | sse2 => some sse | sse3 => some sse2 | ssse3 => some sse3 | sse41 => some ssse3 | sse42 => some sse41 | avx => some sse42
  | fma => some avx | avx2 => some avx | avx512f => some avx2
  | avx512cd | avx512bw | avx512dq | avx512vl => some avx512f
/-- nobody defines the library's own instruction-set macros from outside -/
def NotPreset (e : Env) : Prop := ∀ x : Ext, e x.dpm = none
/-- a set of enabled extensions closed under what they build on -/
def Closed (on : Ext → Bool) : Prop := ∀ x b, on x = true → x.base = some b → on b = true
/-- GCC or Clang for an x86 target with the extensions `on` enabled; any other macros may be defined -/
structure Gnu (on : Ext → Bool) (e : Env) : Prop where
  closed : Closed on
  macros : ∀ x, defd e x.gnu = on x
  x86 : defd e "__x86_64__" = true ∨ defd e "__i386__" = true
  notMsvc : e "_MSC_VER" = none ∧ e "_M_IX86_FP" = none ∧ e "_M_AMD64" = none ∧ e "_M_X64" = none
  notPreset : NotPreset e
/-- Clang's driver that takes MSVC's options and announces itself as MSVC, 64-bit -/
structure ClangCl (on : Ext → Bool) (e : Env) : Prop where
  closed : Closed on
  macros : ∀ x, defd e x.gnu = on x
  msvc : defd e "_MSC_VER" = true ∧ defd e "_M_X64" = true
  baseline : on .sse2 = true
  notPreset : NotPreset e

/-- MSVC: target and `/arch` -/
inductive Arch | ia32 | sse | sse2 | avx | avx2 | avx512
  deriving DecidableEq
/-- `/arch:IA32`, `/arch:SSE`, `/arch:SSE2` exist for 32-bit targets; 64-bit targets have at least SSE2 -/
def MsvcOk (x64 : Bool) (a : Arch) : Prop := x64 = true → a ≠ .ia32 ∧ a ≠ .sse
/-- `_M_IX86_FP` -/
def Arch.fp : Arch → Int
  | ia32 => 0 | sse => 1 | _ => 2
/-- the extension macros MSVC predefines -/
def msvcMacros (a : Arch) : List String := match a with
  | .avx => ["__AVX__"]
  | .avx2 => ["__AVX__", "__AVX2__"]
  | .avx512 => ["__AVX__", "__AVX2__", "__AVX512F__", "__AVX512CD__", "__AVX512BW__", "__AVX512DQ__", "__AVX512VL__"]
  | _ => []
structure Msvc (x64 : Bool) (a : Arch) (e : Env) : Prop where
  ok : MsvcOk x64 a
  msc : defd e "_MSC_VER" = true
  target : if x64 then defd e "_M_X64" = true ∧ defd e "_M_AMD64" = true ∧ e "_M_IX86_FP" = none
    else defd e "_M_IX86" = true ∧ e "_M_X64" = none ∧ e "_M_AMD64" = none ∧ e "_M_IX86_FP" = some a.fp
  macros : ∀ x : Ext, defd e x.gnu = (msvcMacros a).contains x.gnu
  notPreset : NotPreset e
/-- the extensions code generated with `/arch` may use, per Microsoft's description of the option (AVX implies the SSE levels of every processor
that has it, AVX2 comes with FMA) -/
def Arch.has : Arch → Ext → Bool
  | .ia32, _ => false
  | .sse, x => x == .sse
  | .sse2, x => x == .sse || x == .sse2
  | .avx, x => [Ext.sse, .sse2, .sse3, .ssse3, .sse41, .sse42, .avx].contains x
  | .avx2, x => [Ext.sse, .sse2, .sse3, .ssse3, .sse41, .sse42, .avx, .fma, .avx2].contains x
  | .avx512, _ => true
end Dpm.Config
