import Verif.Model.Reduce
import Verif.Model.Callable
/-
Constant evaluation of the functions on x86 vectors and masks: the branches taken when `std::is_constant_evaluated()`.
A result `none` means that the evaluation is not a constant expression (an out-of-bounds access, a `reinterpret_cast`), i.e. that a
`constexpr` variable initialised with the call does not compile.  `native_bit_cast` is `constexpr` with GCC (and MSVC), see
detail/x86/type_fwd.hpp:67-190; with Clang nothing on x86 vectors is a constant expression.  X = detail/x86/type.hpp, G = detail/generic/type.hpp.
-/
namespace Dpm.X86.Const
open Dpm Dpm.Reg Dpm.Generic Dpm.X86

section
variable (c : Cfg)
/-- `x[i]` on a `const` vector (X:692-698): `native_bit_cast<std::array<T, native_extent>>(_data[i / native_extent])[i]`. -/
def read (d : c.Data) (i : Nat) : Option (BitVec c.w) :=
  if i / c.e < c.dataSize then (if i < c.e then some (lane c.w (d (i / c.e)) i) else none) else none
/-- `m[i]` on a `const` mask (X:169-175) -/
def mread (m : c.Data) (i : Nat) : Option Bool := (read c m i).map fun x => decide (x ≠ 0)
/-- `x[i] = v` on a non-`const` vector (X:688-691): `reinterpret_cast`, never a constant expression. -/
def write (_d : c.Data) (_i : Nat) (_v : BitVec c.w) : Option c.Data := none

/-- the constructors from a value (X:591-597) and a generator (X:613-624) only use `native_bit_cast` -/
def broadcast (x : BitVec c.w) (junk : c.Data) : Option c.Data := some (vbroadcast c x junk)
def generate (gen : Nat → BitVec c.w) (junk : c.Data) : Option c.Data := some (vgenerate c gen junk)
/-- the mask constructors (X:92-97, X:114-124) -/
def maskOfBool (b : Bool) (junk : c.Data) : Option c.Data := some (Mask.ofBool c b junk)
def maskOfGen (gen : Nat → Bool) (junk : c.Data) : Option c.Data := some (Mask.ofGen c gen junk)

/-- `x.copy_to(mem, flags)` in a constant expression (X:659-671): the element loop, whatever the flags -/
def copyTo (d : c.Data) (mem : Mem (BitVec c.w)) : Option (Mem (BitVec c.w)) :=
  forRangeM c.N (fun i m => (read c d i).map fun x => m.set i x) mem
/-- `x.copy_from(mem, flags)` in a constant expression (X:645-657) -/
def copyFrom (d : c.Data) (mem : Mem (BitVec c.w)) : Option c.Data :=
  forRangeM c.N (fun i d => write c d i (mem i)) d
/-- `static_cast<simd<T, packed_buffer<N>>>(x)` (X:623-633) -/
def toPacked (d : c.Data) : Option (GSimd (BitVec c.w) c.N) :=
  (copyTo c d (fun _ => 0#c.w)).map fun buf => GSimd.load (fun _ => 0#c.w) buf
/-- `static_cast<x86_simd<T, N, A>>(packed)` (G:511-512) -/
def fromPacked (junk : c.Data) (g : GSimd (BitVec c.w) c.N) : Option c.Data := copyFrom c junk g.data
/-- the constant-evaluated branch of a unary vector function `f` (e.g. X:776-780, and the math functions) -/
def fn1 (f : GSimd (BitVec c.w) c.N → Option (GSimd (BitVec c.w) c.N)) (junk a : c.Data) : Option c.Data :=
  (toPacked c a).bind fun pa => (f pa).bind fun r => fromPacked c junk r
/-- the constant-evaluated branch of a binary vector function `f` (e.g. X:792-797) -/
def fn2 (f : GSimd (BitVec c.w) c.N → GSimd (BitVec c.w) c.N → Option (GSimd (BitVec c.w) c.N)) (junk a b : c.Data) : Option c.Data :=
  (toPacked c a).bind fun pa => (toPacked c b).bind fun pb => (f pa pb).bind fun r => fromPacked c junk r

/-- `reduce(x, op)` (X:1411, X:1449): `reduce_impl<size>(x, op)` (G:618-624) -/
def reduce (f : BitVec c.w → BitVec c.w → Option (BitVec c.w)) (x : c.Data) : Option (BitVec c.w) :=
  (copyTo c x (fun _ => 0#c.w)).bind fun buf =>
    (reduceImpl (fun p q => p.bind fun a => q.bind fun b => f a b) ((List.range c.N).map (fun i => some (buf i)))).bind id

/-! mask reductions -/
/-- `all_of` (X:381-387): `result &= mask[i]` for every `i` -/
def allOf (m : c.Data) : Option Bool := forRangeM c.N (fun i r => (mread c m i).map fun b => r && b) true
/-- `any_of` (X:406-412) -/
def anyOf (m : c.Data) : Option Bool := forRangeM c.N (fun i r => (mread c m i).map fun b => r || b) false
/-- `none_of` (X:431-432) -/
def noneOf (m : c.Data) : Option Bool := (anyOf c m).map fun b => !b
/-- `some_of` (X:454-455): `any_of(mask) && !all_of(mask)` -/
def someOf (m : c.Data) : Option Bool := (anyOf c m).bind fun a => if a then (allOf c m).map fun b => !b else some false
/-- `reduce_count` (X:485-491) -/
def reduceCount (m : c.Data) : Option Nat := forRangeM c.N (fun i r => (mread c m i).map fun b => r + b.toNat) 0
/-- `reduce_min_index` (X:512-517): `for (i = 0; i != N; ++i) if (mask[i]) return i; return N;` -/
def minIndexGo (m : c.Data) : (fuel i : Nat) → Option Nat
  | 0, _ => some c.N
  | fuel + 1, i => (mread c m i).bind fun b => if b then some i else minIndexGo m fuel (i + 1)
def reduceMinIndex (m : c.Data) : Option Nat := minIndexGo c m c.N 0
/-- `reduce_max_index` (X:537-541): `for (i = N; --i != 0;) if (mask[i]) return i; return N;`; the argument is `i` before `--i`. -/
def maxIndexGo (m : c.Data) : (j : Nat) → Option Nat
  | 0 => some c.N
  | i + 1 => if i = 0 then some c.N else (mread c m i).bind fun b => if b then some i else maxIndexGo m i
def reduceMaxIndex (m : c.Data) : Option Nat := maxIndexGo c m c.N
end
end Dpm.X86.Const
