import Verif.Model.Vector
/-
Alignment of vector objects and of the memory accesses of `copy_from`/`copy_to` on x86 vectors: the copies of `Model/Vector` with byte
addresses, where an access at a misaligned address is undefined (a fault of MOVAPS/MOVDQA).
X = dpm/detail/x86/type.hpp, FL = dpm/flags.hpp, TR = dpm/traits.hpp, G = dpm/detail/generic/type.hpp.
-/
namespace Dpm.X86
open Dpm.Reg

/-- `alignof(simd<T, avec<N, Align>>)`: `alignas(std::max(Align, sizeof(native_type)))` (X:570, X:702; masks X:70, X:180) -/
def objAlign (c : Cfg) (A : Nat) : Nat := max A c.v.bytes
/-- `alignof` of a generic vector: `alignas(max(alignment == SIZE_MAX ? 0 : alignment, alignof(T[N])))` (G:493, G:548); the argument is
the first operand of `max` -/
def genAlign (A : Nat) (T : Ety) : Nat := max A T.bytes
/-- `memory_alignment_v<simd<T, Abi>, T>` (TR:85-86); `alignof(T) == sizeof(T)` for the vectorizable types -/
def memAlign (c : Cfg) (A : Nat) : Nat := max (objAlign c A) c.T.bytes
/-- `sizeof(simd<T, avec<N, Align>>)`: the array of native vectors (X:702), padded to the alignment -/
def objSize (c : Cfg) (A : Nat) : Nat := (c.dataSize * c.v.bytes + (objAlign c A - 1)) / objAlign c A * objAlign c A
/-- alignment of the buffers of the conversion operator (X:626, 629, 635-636) and of `detail::copy_cast` (G:113-116): the larger of the two
types' -/
def bufAlign (a b : Nat) : Nat := max a b

/-- a native load or store through `*reinterpret_cast<V *>(p)` (dpm/detail/x86/utility.hpp:317-320), element `p` of an array at byte address
`base`: undefined unless aligned to `alignof(V) == sizeof(V)` -/
def storeNativeAt (c : Cfg) (base len p : Nat) (x : Vec c.v) (mem : Mem (BitVec c.w)) : Option (Mem (BitVec c.w)) :=
  if (base + p * c.T.bytes) % c.v.bytes = 0 then storeNative c len p x mem else none
def loadNativeAt (c : Cfg) (base len p : Nat) (mem : Mem (BitVec c.w)) : Option (Vec c.v) :=
  if (base + p * c.T.bytes) % c.v.bytes = 0 then loadNative c len p mem else none
/-- `copy_to(mem, flags)` (X:659-671) to an array at byte address `base` -/
def copyToAt (c : Cfg) (f : Flag) (base : Nat) (d : c.Data) (len : Nat) (mem : Mem (BitVec c.w)) : Option (Mem (BitVec c.w)) :=
  if f.aligned c.v.bytes then
    forRangeM c.dataSize (fun j m => storeNativeAt c base len (j * c.e) (d j) m) mem
  else
    forRangeM c.N (fun i m => if (base + i * c.T.bytes) % c.T.bytes = 0 ∧ i < len then some (m.set i (elt c d i)) else none) mem
/-- `copy_from(mem, flags)` (X:645-657) from an array at byte address `base` -/
def copyFromAt (c : Cfg) (f : Flag) (base : Nat) (d : c.Data) (len : Nat) (mem : Mem (BitVec c.w)) : Option c.Data :=
  if f.aligned c.v.bytes then
    forRangeM c.dataSize (fun j d => (loadNativeAt c base len (j * c.e) mem).map (fun x => d.set j x)) d
  else
    forRangeM c.N (fun i d => if (base + i * c.T.bytes) % c.T.bytes = 0 ∧ i < len then some (setElt c d i (mem i)) else none) d
end Dpm.X86
