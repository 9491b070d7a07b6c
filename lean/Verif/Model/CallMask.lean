import Verif.Model.Callable
import Verif.Model.Shuffle
import Verif.Model.Reduce
/-
Which calls involving x86 *masks* compile.  As in `Callable`, the functions have the shape

    if (std::is_constant_evaluated()) { … packed_buffer … } else { … native … }

and instantiating them instantiates both branches.  The constant-evaluated branches convert x86 masks to and from
`simd_mask<T, packed_buffer<N>>`; the conversions instantiate `copy_to`/`copy_from` of the x86 mask class.
X = detail/x86/type.hpp, G = detail/generic/type.hpp, CL = detail/x86/class.hpp.
-/
namespace Dpm.Callable
open Dpm Dpm.Generic Dpm.X86 Dpm.X86.Mask

/-- The types of the expressions copied by `copy_to`/`copy_from`: `bool`, an element (`value_type` or its integer alias), a native
vector (`__m128i`, `__m256d`, …). -/
inductive CTy where
  | bool
  | elem
  | native
deriving DecidableEq, Repr
/-- Is there a conversion (implicit or by `static_cast`) from one to the other?  The arithmetic types convert into each other; a native
vector type converts to no arithmetic type and no arithmetic type converts to it. -/
def CTy.converts : CTy → CTy → Bool
  | .native, .native => true
  | .native, _ => false
  | _, .native => false
  | _, _ => true
/-- an assignment `lhs = static_cast<lhs type>(rhs)` of a function body -/
def assign (lhs rhs : CTy) : Out Unit := if rhs.converts lhs then .ok () else .illFormed

/-- the type of `_data[i]`: `_data` is a `std::array<native_type, data_size>` (X:75, X:179 for masks, X:575, X:702 for vectors) -/
def dataAt : CTy := .native
/- The copies below are written for any type `d` of the expression their bodies access: the code of the library is the case `d = dataAt`;
`d = elemAt` is the program in which they go through `operator[]`, as the unmasked vector copies do. -/
/-- the type of `operator[](i)` (X:165-175, X:688-698) -/
def elemAt : CTy := .elem

/-- `mask.copy_to(mem, flags)` (X:145-149) and the masked version (X:159-163): `mem[i] = static_cast<…>(_data[i])` -/
def maskCopyTo (d : CTy) : Out Unit := assign .bool d
/-- `mask.copy_from(mem, flags)` (X:137-142) and the masked version (X:151-157): `_data[i] = static_cast<bool>(mem[i])` -/
def maskCopyFrom (d : CTy) : Out Unit := assign d .bool
/-- masked `copy_from(mem, m, flags)` of a vector (X:674-679): `_data[i] = static_cast<value_type>(mem[i])` -/
def vecMaskedCopyFrom (d : CTy) : Out Unit := assign d .elem
/-- masked `copy_to(mem, m, flags)` of a vector (X:681-686): `mem[i] = static_cast<…>(_data[i])` -/
def vecMaskedCopyTo (d : CTy) : Out Unit := assign .elem d
/-- the element loops of the unmasked vector copies (X:656, X:670) go through `operator[]` -/
def vecCopyFrom : Out Unit := assign elemAt .elem
def vecCopyTo : Out Unit := assign .elem elemAt

/-- `static_cast<simd_mask<U, OtherAbi>>(x)` for an x86 mask of `N` elements and a target of `M` elements (X:126-133): the conversion
operator calls `copy_to` of the x86 mask. -/
def maskToOther (d : CTy) (N M : Nat) : Out Unit := if M = N then maskCopyTo d else .illFormed
/-- `static_cast<x86_mask<T, N, A>>(packed)` for a `packed_buffer` mask of `M` elements: the generic conversion operator (G:209-210) is
`return simd_mask<U, OtherAbi>{_data, element_aligned}`, which calls `copy_from` of the x86 mask (X:108). -/
def packedToMask (d : CTy) (M N : Nat) : Out Unit := if M = N then maskCopyFrom d else .illFormed
/-- `static_cast<x86_simd<T, N, A>>(packed)` for a `packed_buffer` vector of `M` elements (G:511-512) -/
def packedToVec (M N : Nat) : Out Unit := if M = N then vecCopyFrom else .illFormed
/-- `static_cast<simd<T, packed_buffer<M>>>(x)` for an x86 vector of `N` elements (X:623-642) -/
def vecToPacked (N M : Nat) : Out Unit := if M = N then vecCopyTo else .illFormed

section
variable (d : CTy) (c : Cfg)

/-- binary mask operators with their run-time meaning (`Model/Mask`) -/
inductive MOp2 where
  | and | or | xor | land | eq
deriving DecidableEq, Repr
def MOp2.run : MOp2 → c.Data → c.Data → c.Data
  | .and => Mask.and c | .or => Mask.or c | .xor => Mask.xor c | .land => Mask.land c | .eq => Mask.eq c
/-- `a & b`, `a ^ b`, `a | b`, `a && b`, `a == b` on x86 masks (X:264-312, 334-354, 358-373) -/
def callMask2 (o : MOp2) (ab : c.Data × c.Data) : Out c.Data :=
  bothBranches ((maskToOther d c.N c.N).bind fun _ => (maskToOther d c.N c.N).bind fun _ => packedToMask d c.N c.N) (.ok (o.run c ab.1 ab.2))
/-- `~x` (X:313-328) -/
def callMaskNot (a : c.Data) : Out c.Data :=
  bothBranches ((maskToOther d c.N c.N).bind fun _ => packedToMask d c.N c.N) (.ok (Mask.compl c a))
/-- `!x` (X:329-330) -/
def callMaskLNot (a : c.Data) : Out c.Data := callMaskNot d c a
/-- `a != b` (X:374-375): `!(a == b)` -/
def callMaskNe (ab : c.Data × c.Data) : Out c.Data := (callMask2 d c .eq ab).bind (callMaskLNot d c)
/-- `a || b` (X:355-356): `(a | b) != mask{}` -/
def callMaskLor (ab : c.Data × c.Data) : Out c.Data := (callMask2 d c .or ab).bind fun r => callMaskNe d c (r, zeroData c)
/-- `blend(m, a, b)` of masks (X:234-261) -/
def callMaskBlend (mab : c.Data × c.Data × c.Data) : Out c.Data :=
  bothBranches ((maskToOther d c.N c.N).bind fun _ => (maskToOther d c.N c.N).bind fun _ => (maskToOther d c.N c.N).bind fun _ => packedToMask d c.N c.N)
    (.ok (Mask.blend c mab.1 mab.2.1 mab.2.2))
/-- `blend(m, a, b)` of vectors (X:745-771) -/
def callBlend (mab : c.Data × c.Data × c.Data) : Out c.Data :=
  bothBranches ((maskToOther d c.N c.N).bind fun _ => (vecToPacked c.N c.N).bind fun _ => (vecToPacked c.N c.N).bind fun _ => packedToVec c.N c.N)
    (.ok (Mask.blend c mab.1 mab.2.1 mab.2.2))
/-- `simd_mask(mem, flags)`/`mask.copy_from(mem, flags)` at run time: the intended effect sets every element. -/
def callMaskLoad (mem : Nat → Bool) : Out c.Data := (maskCopyFrom d).map fun _ => forRange c.N (fun i d => Mask.setElem c d i (mem i)) (zeroData c)
/-- `mask.copy_to(mem, flags)` -/
def callMaskStore (m : c.Data) : Out (Nat → Bool) := (maskCopyTo d).map fun _ => mget c m
/-- masked `copy_from`/`copy_to` of a vector -/
def callMaskedLoad (a : c.Data × c.Data × Mem (BitVec c.w)) : Out c.Data :=
  (vecMaskedCopyFrom d).map fun _ => forRange c.N (fun i d => if mget c a.2.1 i then setElt c d i (a.2.2 i) else d) a.1
def callMaskedStore (a : c.Data × c.Data × Mem (BitVec c.w)) : Out (Mem (BitVec c.w)) :=
  (vecMaskedCopyTo d).map fun _ => forRange c.N (fun i mem => if mget c a.2.1 i then mem.set i (elt c a.1 i) else mem) a.2.2

/-- the comparisons of vectors -/
inductive COp where
  | eq | ne | gt | lt | ge | le
deriving DecidableEq, Repr
def COp.run : COp → c.Data → c.Data → Out c.Data
  | .eq => opEq c | .ne => opNe c | .gt => opGt c | .lt => opLt c | .ge => opGe c | .le => opLe c
/-- the constant-evaluated branch of a vector comparison, or of a classification function returning a mask -/
def cmpConst : Out Unit := (vecToPacked c.N c.N).bind fun _ => (vecToPacked c.N c.N).bind fun _ => packedToMask d c.N c.N
/-- `a == b`, `a != b`, … (X:1173-1294).  For the overloads that do not exist (`COp.run` says `illFormed`) the generic template is selected,
which instantiates `copy_from` of the x86 mask as well (see `opGt`).  Simplification: `>=`, `<=` and `<` of integers are written with
the other comparisons and `|`; here they are given a constant-evaluated branch of their own with the same conversions. -/
def callCmp (o : COp) (ab : c.Data × c.Data) : Out c.Data := bothBranches (cmpConst d c) (o.run c ab.1 ab.2)
/-- `!x` of an integer vector (X:969-984) -/
def callLNot (a : c.Data) : Out c.Data := bothBranches ((vecToPacked c.N c.N).bind fun _ => packedToMask d c.N c.N) (opLNot c a)

/-- classification functions (CL:104-183) -/
inductive FCls where
  | isnan | isinf | isfinite | isnormal | signbit
deriving DecidableEq, Repr
def FCls.run : FCls → c.Data → Out c.Data
  | .isnan => vIsnan c | .isinf => vIsinf c | .isfinite => vIsfinite c | .isnormal => vIsnormal c | .signbit => vSignbit c
def callCls (o : FCls) (a : c.Data) : Out c.Data := bothBranches ((vecToPacked c.N c.N).bind fun _ => packedToMask d c.N c.N) (o.run c a)
/-- quiet comparisons (CL:185-286) -/
inductive FRel where
  | isgreater | isgreaterequal | isless | islessequal | islessgreater | isunordered
deriving DecidableEq, Repr
def FRel.run : FRel → c.Data → c.Data → Out c.Data
  | .isgreater => vIsgreater c | .isgreaterequal => vIsgreaterequal c | .isless => vIsless c
  | .islessequal => vIslessequal c | .islessgreater => vIslessgreater c | .isunordered => vIsunordered c
def callRel (o : FRel) (ab : c.Data × c.Data) : Out c.Data := bothBranches (cmpConst d c) (o.run c ab.1 ab.2)

/-- `reduce_min(x)`, `reduce_max(x)` (X:1468-1561): the constant-evaluated branch of the x86 overloads casts the *vector* to a mask.
Where no x86 overload exists the generic template runs. -/
def callReduceMin (fp : FpOps) (a : c.Data) : Out (BitVec c.w) :=
  if redMinmaxOverload c then bothBranches maskOfVector (vReduceMin fp c a) else vReduceMin fp c a
def callReduceMax (fp : FpOps) (a : c.Data) : Out (BitVec c.w) :=
  if redMinmaxOverload c then bothBranches maskOfVector (vReduceMax fp c a) else vReduceMax fp c a

/-- `shuffle<Is…>(x)` of an x86 vector (X:724-742): the constant-evaluated branch casts the shuffled vector, which has `M = sizeof…(Is)`
elements, to `x86_simd<T, N, A>` and returns that as an `x86_simd<T, M, A>`. -/
def callShuffle (v' : VSz) (is : List Nat) (x : c.Data) : Out (c.resized is.length v').Data :=
  bothBranches ((vecToPacked c.N c.N).bind fun _ => packedToVec is.length c.N) (vShuffleNative c v' is x)
/-- `shuffle<Is…>(x)` of an x86 mask (X:213-231) -/
def callMaskShuffle (v' : VSz) (is : List Nat) (x : c.Data) : Out (c.resized is.length v').Data :=
  bothBranches ((maskToOther d c.N c.N).bind fun _ => packedToMask d is.length c.N) (vShuffleNative c v' is x)

/-- the mask reductions (X:378-557): their constant-evaluated branches only use `mask[i]` -/
def callAllOf (m : c.Data) : Out Bool := bothBranches (assign .bool elemAt) (Out.ofUb (Mask.allOf c m))
def callAnyOf (m : c.Data) : Out Bool := bothBranches (assign .bool elemAt) (.ok (Mask.anyOf c m))
def callNoneOf (m : c.Data) : Out Bool := bothBranches (assign .bool elemAt) (.ok (Mask.noneOf c m))
def callSomeOf (m : c.Data) : Out Bool := bothBranches (assign .bool elemAt) (Out.ofUb (Mask.someOf c m))
def callReduceCount (m : c.Data) : Out Nat := bothBranches (assign .bool elemAt) (.ok (Mask.reduceCount c m))
/-- vector arithmetic, e.g. `a + b`, `a - b`, `-a`, `a & b` (X:774-806, 987-1071): both conversions are of vectors -/
def callAdd (fp : FpOps) (ab : c.Data × c.Data) : Out c.Data :=
  bothBranches ((vecToPacked c.N c.N).bind fun _ => (vecToPacked c.N c.N).bind fun _ => packedToVec c.N c.N) (opAdd fp c ab.1 ab.2)
def callSub (fp : FpOps) (ab : c.Data × c.Data) : Out c.Data :=
  bothBranches ((vecToPacked c.N c.N).bind fun _ => (vecToPacked c.N c.N).bind fun _ => packedToVec c.N c.N) (opSub fp c ab.1 ab.2)
def callNeg (a : c.Data) : Out c.Data :=
  bothBranches ((vecToPacked c.N c.N).bind fun _ => packedToVec c.N c.N) (opNeg c a)
end
end Dpm.Callable
