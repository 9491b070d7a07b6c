import Verif.Model.Util
/-!
Types computed from ABI tags: `deduce_t` with hints, `rebind_simd_t`, `resize_simd_t`, `native`, `compatible`, `common_t`
(GA = dpm/detail/generic/abi.hpp, XA = dpm/detail/x86/abi.hpp, G = dpm/detail/generic/type.hpp, TR = dpm/traits.hpp).
A type that does not exist (no candidate, or two candidates none of which is more specialised) is `none`.
-/
namespace Dpm.Util

/-- An element type as far as the ABI selection can see it: `vectorizable<T>` (XA:31-37) and `sizeof(T)`. -/
structure Elem where
  vec : Bool
  sz : Nat
  deriving DecidableEq

/-- `accept_abi<T, N, Abi>` (GA:82-84): `simd_size_v<T, Abi> == N && is_default_constructible_v<simd<T, Abi>>`.  `simd_size_v` is the `size`
of the class, which is that of the tag (TR:78-81, G:189, G:489), and every `simd<T, tag>` is default constructible. -/
def accepts (N : Nat) (t : Tag) : Bool := decide (t.size = N)

/-- `deduce<T, N, Abis...>` (GA:71-91, XA:112-117).
No hints: `deduce`.  Exactly one hint that is an `aligned_vector<M, A>`: the specialisation at GA:77-78 is more specialised than the two
at GA:87-90, whose constraint is not compared.  Otherwise the constrained specialisation GA:89-90 is preferred over GA:87-88 where it
applies. -/
def deduceHints (avx : Bool) (T : Elem) (N : Nat) : List Tag → Option Tag
  | [] => match deduce avx T.vec T.sz N with
    | [t] => some t
    | _ => none
  | [.avec _ a] => some (.avec N a)
  | h :: hs => if accepts N h then some h else deduceHints avx T N hs

/-- A vector or mask type: element type and tag. -/
structure SimdType where
  elem : Elem
  tag : Tag
  deriving DecidableEq
/-- `size()` (G:189, G:489, X:74, X:573): the size of the tag. -/
def SimdType.size (V : SimdType) : Nat := V.tag.size
/-- is `V` one of the x86 specialisations? (X:61, X:559; the alignment of `scalar` is SIZE_MAX, GA:17, and `scalar` is no `aligned_vector`) -/
def SimdType.x86 (avx : Bool) (V : SimdType) : Bool :=
  match V.tag with
  | .scalar => false
  | .avec n a => overloadAny avx V.elem.vec V.elem.sz n a

/-- `rebind_simd<T, V>` (G:27-28, G:40-41): `simd<T, deduce_t<T, simd_size_v<U, Abi>, Abi>>`. -/
def rebindSimd (avx : Bool) (T : Elem) (V : SimdType) : Option SimdType :=
  (deduceHints avx T V.size [V.tag]).map (SimdType.mk T)
/-- `resize_simd<N, V>` (G:29-30, G:42-43): `simd<T, deduce_t<T, N, Abi>>`. -/
def resizeSimd (avx : Bool) (N : Nat) (V : SimdType) : Option SimdType :=
  (deduceHints avx V.elem N [V.tag]).map (SimdType.mk V.elem)

/-- `select_abi<T, Bytes>` (XA:41-42); only for vectorizable types, other types have neither `compatible` nor `native`. -/
def selectAbi (T : Elem) (bytes : Nat) : Option Tag := if T.vec then some (.avec (bytes / T.sz) bytes) else none
/-- `simd_abi::compatible<T>` (GA:22-24, XA:84-86). -/
def compatibleAbi (T : Elem) : Option Tag := selectAbi T 16
/-- `simd_abi::native<T>` (GA:25-27, XA:88-94). -/
def nativeAbi (avx : Bool) (T : Elem) : Option Tag := if avx then selectAbi T 32 else selectAbi T 16

/-- `common_impl` (GA:97-114).  `seq` is the `tag_sequence`.
* no tags left: GA:105-106 computes the two maxima; with an empty sequence that specialisation and GA:113-114 both match.
* `scalar` next: GA:110-111, more specialised than GA:108-109; if the sequence is empty and all tags left are `scalar`, GA:113-114 matches as
  well, and neither is more specialised than the other: ambiguous.
* another tag next: GA:108-109. -/
def commonImpl : (seq : List (Nat × Nat)) → (tags : List Tag) → Option Tag
  | [], [] => none
  | p :: ps, [] => some (.avec (ps.foldl (fun m q => max m q.1) p.1) (ps.foldl (fun m q => max m q.2) p.2))
  | seq, .scalar :: us => if seq = [] ∧ (∀ u ∈ us, u = .scalar) then none else commonImpl seq us
  | seq, .avec n a :: us => commonImpl ((n, a) :: seq) us
/-- `common<Abis...>` (GA:116-129). -/
def common (tags : List Tag) : Option Tag := commonImpl [] tags
end Dpm.Util
