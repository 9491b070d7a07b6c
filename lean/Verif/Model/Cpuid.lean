import Verif.Model.Util
/-
CPU feature detection: CI = /repo/dpm/detail/x86/cpuid.cpp, CH = /repo/dpm/detail/x86/cpuid.hpp.
Modelled for GCC/Clang on Linux.  The machine is a parameter: the CPUID instruction as a function of the leaf (EAX) and of ECX, which
CI:52-57 leaves unspecified (`junk`), the low half of XCR0, and what `open`/`read` of /proc/cpuinfo return.
-/
namespace Dpm.Cpuid
open Dpm.Util

structure Regs where
  eax : BitVec 32
  ebx : BitVec 32
  ecx : BitVec 32
  edx : BitVec 32

structure Machine where
  /-- the CPUID instruction: EAX, ECX -/
  cpuid : BitVec 32 → BitVec 32 → Regs
  /-- ECX when CPUID is executed for a leaf -/
  junk : BitVec 32 → BitVec 32
  /-- low half of XCR0 (only readable when OSXSAVE is set) -/
  xcr0 : BitVec 32
  /-- successive results of `read` on /proc/cpuinfo (`[]` after the last); `none` if it cannot be opened -/
  cpuinfo : Option (List (List Char))

/-- the members of class `cpuid` (CH:78-83) -/
structure Info where
  l1ecx : BitVec 32 := 0
  l1edx : BitVec 32 := 0
  l7ebx : BitVec 32 := 0
  isIntel : Bool := false
  isAmd : Bool := false

/-- `platform_cpuid` (CI:52-57) -/
def leaf (m : Machine) (l : BitVec 32) : Regs := m.cpuid l (m.junk l)

/-- the four bytes of a register in memory order -/
def bytes4 (r : BitVec 32) : List Char := [0, 8, 16, 24].map fun k => Char.ofNat ((r.toNat >>> k) % 256)
/-- the vendor string (CI:84-89) -/
def vendor (r : Regs) : List Char := bytes4 r.ebx ++ bytes4 r.edx ++ bytes4 r.ecx

/-- `string_view::find(sub, pos)`: `fuel` characters left to try -/
def findFrom (s sub : List Char) : (fuel pos : Nat) → Option Nat
  | 0, pos => if sub.isPrefixOf (s.drop pos) then some pos else none
  | fuel + 1, pos => if sub.isPrefixOf (s.drop pos) then some pos else findFrom s sub fuel (pos + 1)
def find (s sub : List Char) (pos : Nat) : Option Nat := if pos ≤ s.length then findFrom s sub (s.length - pos) pos else none
/-- `string_view::find_first_not_of(set, pos)` -/
def findNotOf (s set : List Char) (pos : Nat) : Option Nat := ((s.drop pos).findIdx? (fun ch => !set.contains ch)).map (· + pos)

/-- the six flags collected from /proc/cpuinfo (CI:140-145) -/
structure SseMasks where
  sse : Bool := false
  sse2 : Bool := false
  sse3 : Bool := false
  ssse3 : Bool := false
  sse41 : Bool := false
  sse42 : Bool := false

/-- the loop over the reads (CI:157-178); the `continue` of CI:166 goes on to the next read -/
def scan : List (List Char) → SseMasks → SseMasks
  | [], k => k
  | sv :: rest, k =>
    if sv.length = 0 then k
    else
      match find sv "flags".toList 0 with
      | some p =>
        match findNotOf sv "\t :".toList (p + 5) with
        | none => scan rest k
        | some pos =>
          let k : SseMasks := {
            sse := k.sse || (find sv "sse".toList pos).isSome
            sse2 := k.sse2 || (find sv "sse2".toList pos).isSome
            sse3 := k.sse3 || (find sv "pni".toList pos).isSome
            ssse3 := k.ssse3 || (find sv "ssse3".toList pos).isSome
            sse41 := k.sse41 || (find sv "sse4_1".toList pos).isSome
            sse42 := k.sse42 || (find sv "sse4_2".toList pos).isSome }
          if sv.length < 4096 then k else scan rest k
      | none => if sv.length < 4096 then k else scan rest k
def osMasks (m : Machine) : SseMasks := match m.cpuinfo with
  | none => {}
  | some rs => scan rs {}

/-- bit positions (CH:20-44) -/
def xsave_bit : Int := 27
def f16c_bit : Int := 29
def sse_bit : Int := 25
def sse2_bit : Int := 26
def sse3_bit : Int := 0
def ssse3_bit : Int := 9
def sse4_1_bit : Int := 19
def sse4_2_bit : Int := 20
def avx_bit : Int := 28
def avx2_bit : Int := 5
def fma_bit : Int := 12
def avx512f_bit : Int := 16
def avx512cd_bit : Int := 28
def avx512bw_bit : Int := 30
def avx512dq_bit : Int := 17
def avx512vl_bit : Int := 31

/-- the flags before masking (CI:80-106) -/
def rawInfo (m : Machine) : Info :=
  let regs := leaf m 0
  let sv := vendor regs
  let maxLeaf := regs.eax
  let i : Info := { isIntel := sv == "GenuineIntel".toList, isAmd := sv == "AuthenticAMD".toList }
  let i := if maxLeaf.toNat ≥ 1 then { i with l1ecx := (leaf m 1).ecx, l1edx := (leaf m 1).edx } else i
  if maxLeaf.toNat ≥ 7 then { i with l7ebx := (leaf m 7).ebx } else i

/-- XCR0 tells what the OS has enabled (CI:109-136) -/
def maskXcr0 (xcr0 : BitVec 32) (i : Info) : Option Info := do
  let sseM : Bool := decide (xcr0 &&& 0x2 ≠ 0)
  let edx ← maskBit i.l1edx sse_bit sseM
  let edx ← maskBit edx sse2_bit sseM
  let ecx ← maskBit i.l1ecx sse3_bit sseM
  let ecx ← maskBit ecx ssse3_bit sseM
  let ecx ← maskBit ecx sse4_1_bit sseM
  let ecx ← maskBit ecx sse4_2_bit sseM
  let avxM : Bool := decide (xcr0 &&& 0x6 = 0x6)
  let ecx ← maskBit ecx avx_bit avxM
  let ebx ← maskBit i.l7ebx avx2_bit avxM
  let ecx ← maskBit ecx fma_bit avxM
  let avx512M : Bool := decide (xcr0 &&& 0xe6 = 0xe6)
  let ebx ← maskBit ebx avx512f_bit avx512M
  let ebx ← maskBit ebx avx512cd_bit avx512M
  let ebx ← maskBit ebx avx512bw_bit avx512M
  let ebx ← maskBit ebx avx512dq_bit avx512M
  let ebx ← maskBit ebx avx512vl_bit avx512M
  some { i with l1ecx := ecx, l1edx := edx, l7ebx := ebx }
/-- /proc/cpuinfo tells (CI:211-216) -/
def maskOs (k : SseMasks) (i : Info) : Option Info := do
  let edx ← maskBit i.l1edx sse_bit k.sse
  let edx ← maskBit edx sse2_bit k.sse2
  let ecx ← maskBit i.l1ecx sse3_bit k.sse3
  let ecx ← maskBit ecx ssse3_bit k.ssse3
  let ecx ← maskBit ecx sse4_1_bit k.sse41
  let ecx ← maskBit ecx sse4_2_bit k.sse42
  some { i with l1ecx := ecx, l1edx := edx }
/-- the constructor (CI:77-218) -/
def init (m : Machine) : Option Info := do
  let i := rawInfo m
  if ← testBit i.l1ecx xsave_bit then maskXcr0 m.xcr0 i else maskOs (osMasks m) i

/-- the features with a `has_` function (CH:47-75) that the OS has a say in, and the rest -/
inductive Feature
  | msr | cx8 | sep | cmov | clfsh | xsave | cmpxchg16b
  | sse | sse2 | sse3 | ssse3 | sse4_1 | sse4_2
  | f16c | avx | avx2 | fma
  | avx512f | avx512cd | avx512bw | avx512dq | avx512vl
  deriving DecidableEq
/-- `cpuid::has_...()` (CH:50-75, bit positions CH:14-18, 21) -/
def has (i : Info) : Feature → Option Bool
  | .msr => testBit i.l1edx 5
  | .cx8 => testBit i.l1edx 8
  | .sep => testBit i.l1edx 11
  | .cmov => testBit i.l1edx 15
  | .clfsh => testBit i.l1edx 19
  | .xsave => testBit i.l1ecx xsave_bit
  | .f16c => testBit i.l1ecx f16c_bit
  | .cmpxchg16b => testBit i.l1ecx 13
  | .sse => testBit i.l1edx sse_bit
  | .sse2 => testBit i.l1edx sse2_bit
  | .sse3 => testBit i.l1ecx sse3_bit
  | .ssse3 => testBit i.l1ecx ssse3_bit
  | .sse4_1 => testBit i.l1ecx sse4_1_bit
  | .sse4_2 => testBit i.l1ecx sse4_2_bit
  | .avx => testBit i.l1ecx avx_bit
  | .avx2 => testBit i.l7ebx avx2_bit
  | .fma => testBit i.l1ecx fma_bit
  | .avx512f => testBit i.l7ebx avx512f_bit
  | .avx512cd => testBit i.l7ebx avx512cd_bit
  | .avx512bw => testBit i.l7ebx avx512bw_bit
  | .avx512dq => testBit i.l7ebx avx512dq_bit
  | .avx512vl => testBit i.l7ebx avx512vl_bit
/-- what a call of `cpuid::has_...()` returns on machine `m` -/
def reports (m : Machine) (f : Feature) : Option Bool := (init m).bind (fun i => has i f)
def reportsIntel (m : Machine) : Option Bool := (init m).map Info.isIntel
def reportsAmd (m : Machine) : Option Bool := (init m).map Info.isAmd
end Dpm.Cpuid
