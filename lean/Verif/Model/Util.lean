/-
Model of the compile-time and bit utilities: /repo/dpm/utility.hpp (U), /repo/dpm/detail/alias.hpp (A),
/repo/dpm/detail/generic/abi.hpp (GA), /repo/dpm/detail/x86/abi.hpp (XA).
Template parameter packs of `std::size_t` are `List Nat`.  Simplification: index arithmetic inside packs
is on `Nat` (the indices are lane numbers; wrap-around at 2^64 is not modelled here).
-/
namespace Dpm.Util

/-! ### Index sequences (U:48-96) -/

/-- `reverse_sequence<index_sequence<Js...>, Is...>` (U:49-56); `none` for an empty pack (no
specialisation matches an empty `Is`). -/
def reverseSeqAux : (js : List Nat) → (is : List Nat) → Option (List Nat)
  | _, [] => none
  | js, [i] => some (i :: js)
  | js, i :: j :: is => reverseSeqAux (i :: js) (j :: is)
/-- `reverse_sequence_t` (U:55-56). -/
def reverseSeq (is : List Nat) : Option (List Nat) := reverseSeqAux [] is

/-- `extract_sequence<index_sequence<Js...>, index_sequence<Ks...>, P, N, Is...>` (U:58-65): the
specialisations are selected on the lengths of `Js` and `Ks`.  `Js.length ≠ P ∧ Ks.length = N`
matches none (incomplete type). -/
def extractSeqAux (P N : Nat) : (js ks : List Nat) → (is : List Nat) → Option (List Nat)
  | js, ks, [] => if js.length = P ∧ ks.length = N then some ks else none
  | js, ks, i :: is =>
    if js.length = P then
      if ks.length = N then some ks else extractSeqAux P N js (ks ++ [i]) is
    else if ks.length = N then none
    else extractSeqAux P N (i :: js) ks is
/-- `extract_sequence_t<Pos, N, Is...>` (U:66-67). -/
def extractSeq (P N : Nat) (is : List Nat) : Option (List Nat) := extractSeqAux P N [] [] is

/-- `repeat_sequence<index_sequence<Js...>, N, Off, J, I, Is...>` (U:69-76).  `fuel` bounds the
instantiation depth (`none` = did not terminate / no match). -/
def repeatSeqAux (N Off : Nat) : (fuel : Nat) → (js : List Nat) → (J : Nat) → (is : List Nat) → Option (List Nat)
  | 0, _, _, _ => none
  | _ + 1, _, _, [] => none
  | fuel + 1, js, J, i :: is =>
    if J = N then
      if is = [] then some js else repeatSeqAux N Off fuel js 0 is
    else repeatSeqAux N Off fuel (js ++ [i * N + (N - J - 1) * Off]) (J + 1) (i :: is)
/-- `repeat_sequence_t<N, Off, Is...>` (U:77-78). -/
def repeatSeq (N Off : Nat) (is : List Nat) : Option (List Nat) :=
  repeatSeqAux N Off ((N + 1) * is.length + 1) [] 0 is

/-- `pad_sequence<index_sequence<Js...>, N, Inc, I, Is...>` (U:80-87): the constrained terminal
specialisation (`Js.length >= N`) is preferred over the other one-index specialisation. -/
def padSeqAux (N Inc : Nat) : (fuel : Nat) → (js : List Nat) → (is : List Nat) → Option (List Nat)
  | 0, _, _ => none
  | _ + 1, _, [] => none
  | fuel + 1, js, [i] =>
    if js.length ≥ N then some js else padSeqAux N Inc fuel (js ++ [i]) [i + Inc]
  | fuel + 1, js, i :: j :: is => padSeqAux N Inc fuel (js ++ [i]) (j :: is)
/-- `pad_sequence_t<N, Inc, Is...>` (U:88-89). -/
def padSeq (N Inc : Nat) (is : List Nat) : Option (List Nat) := padSeqAux N Inc (N + is.length + 1) [] is

/-- `shuffle_elements(index_sequence<I, Is...>, dst, src)` (U:91-96): `dst` is returned as the memory
after the call, `o` is the current `dst` offset. -/
def shuffleElements {α : Type} : (is : List Nat) → (o : Nat) → (dst src : Nat → α) → (Nat → α)
  | [], _, dst, _ => dst
  | i :: is, o, dst, src => shuffleElements is (o + 1) (fun k => if k = o then src i else dst k) src

/-! ### Bit utilities (U:136-156) -/

/-- `1 << pos` on `int`: undefined outside `0..31`. -/
def intBit (pos : Int) : Option (BitVec 32) := if 0 ≤ pos ∧ pos < 32 then some (1#32 <<< pos.toNat) else none
/-- `test_bit(T x, int pos)` (U:136-137): `x & static_cast<T>(1 << pos)` converted to `bool`; the cast
of an `int` sign-extends if `T` is wider. -/
def testBit {w : Nat} (x : BitVec w) (pos : Int) : Option Bool :=
  (intBit pos).map (fun b => decide (x &&& b.signExtend w ≠ 0))
/-- `mask_bit(T &x, int pos, bool bit)` (U:138-139): `x &= ~static_cast<T>(!bit << pos)`. -/
def maskBit {w : Nat} (x : BitVec w) (pos : Int) (bit : Bool) : Option (BitVec w) :=
  if 0 ≤ pos ∧ pos < 32 then
    let nb : BitVec 32 := (if bit then 0#32 else 1#32) <<< pos.toNat
    some (x &&& ~~~ (nb.signExtend w))
  else none
/-- `uint_of_size_t<B>`: bits of the unsigned type with at least `B` bytes (U:126-132). -/
def uintOfSize (B : Nat) : Option Nat :=
  if B = 1 then some 8 else if B = 2 then some 16 else if 2 < B ∧ B ≤ 4 then some 32
  else if 4 < B ∧ B ≤ 8 then some 64 else none
/-- The loop of `fill_bits` (U:141-146) on a result of `w` bits. -/
def fillLoop (w : Nat) : Nat → BitVec w
  | 0 => 0
  | n + 1 => fillLoop w n ||| BitVec.ofNat w ((1#64 <<< n).toNat)
/-- `fill_bits<N>()` (U:140-146): the result type is chosen from `N`, value zero-extended to 64 bits.
The counter of type `T` never overflows because `N < 2^w`. -/
def fillBits (N : Nat) : Option (BitVec 64) :=
  (uintOfSize (N / 8 + (if N % 8 ≠ 0 then 1 else 0))).map (fun w => (fillLoop w N).zeroExtend 64)
/-- `extend_bool<T>(b)` (U:148-149): `-static_cast<T>(b)`. -/
def extendBool (w : Nat) (b : Bool) : BitVec w := - (BitVec.ofNat w (if b then 1 else 0))
/-- `align_data<T, N, VSize>()` (U:151-156). -/
def alignData (sz N vsize : Nat) : Nat :=
  let size_mult := vsize / sz
  N / size_mult + (if N % size_mult ≠ 0 then 1 else 0)

/-! ### Mask element references (A:13-45) -/

/-- `basic_mask<T>` (A:14-45): `_value`. -/
structure BasicMask (w : Nat) where
  value : BitVec w

namespace BasicMask
variable {w : Nat}
/-- constructor from bool (A:18-19), assignment (A:23-24). -/
def ofBool (b : Bool) : BasicMask w := ⟨extendBool w b⟩
def assign (_ : BasicMask w) (b : Bool) : BasicMask w := ⟨extendBool w b⟩
/-- `operator bool` (A:21). -/
def toBool (m : BasicMask w) : Bool := decide (m.value ≠ 0)
/-- `|=`, `&=`, `^=` (A:25-30). -/
def orAssign (m : BasicMask w) (b : Bool) : BasicMask w := ⟨m.value ||| extendBool w b⟩
def andAssign (m : BasicMask w) (b : Bool) : BasicMask w := ⟨m.value &&& extendBool w b⟩
def xorAssign (m : BasicMask w) (b : Bool) : BasicMask w := ⟨m.value ^^^ extendBool w b⟩
/-- `operator~` (A:32): `~_value` converted to `bool`.  (For narrow `T` the complement is computed
after promotion to `int`, which is sign-preserving, so it is zero exactly when the narrow one is.) -/
def compl (m : BasicMask w) : Bool := decide (~~~ m.value ≠ 0)
/-- binary `|`, `&`, `^` (A:33-38). -/
def bor (m : BasicMask w) (b : Bool) : Bool := decide (m.value ||| extendBool w b ≠ 0)
def band (m : BasicMask w) (b : Bool) : Bool := decide (m.value &&& extendBool w b ≠ 0)
def bxor (m : BasicMask w) (b : Bool) : Bool := decide (m.value ^^^ extendBool w b ≠ 0)
/-- `swap(basic_mask &, basic_mask &)` (A:40). -/
def swapMM (a b : BasicMask w) : BasicMask w × BasicMask w := (⟨b.value⟩, ⟨a.value⟩)
/-- `swap(bool &a, basic_mask &b)` (A:41): `a = bool(std::exchange(b._value, extend_bool(a)))`. -/
def swapBM (a : Bool) (b : BasicMask w) : Bool × BasicMask w := (b.toBool, ⟨extendBool w a⟩)
/-- `swap(basic_mask &a, bool &b)` (A:42). -/
def swapMB (a : BasicMask w) (b : Bool) : BasicMask w × Bool := (⟨extendBool w b⟩, a.toBool)
end BasicMask

/-! ### ABI selection (GA, XA) -/

/-- `SIZE_MAX`. -/
def sizeMax : Nat := 2 ^ 64 - 1

/-- `overload_default<T, N, A, MinWidth, MaxWidth>` (XA:48-49), `sz = sizeof(T)`; `vec` is
`vectorizable<T>` (XA:31-37). -/
def overloadDefault (vec : Bool) (sz N A minW maxW : Nat) : Bool :=
  vec && decide (A = 0 ∧ N > minW / sz ∧ N ≤ maxW / sz)
/-- `overload_simd<T, N, A, MinAlign, MaxAlign>` (XA:50-51). -/
def overloadSimd (vec : Bool) (N A minA maxA : Nat) : Bool :=
  vec && decide (N > 1 ∧ A ≥ minA ∧ A < maxA)
/-- `x86_overload_256` (XA:57-58; only with AVX). -/
def overload256 (avx vec : Bool) (sz N A : Nat) : Bool :=
  avx && (overloadSimd vec N A 32 sizeMax || overloadDefault vec sz N A 16 sizeMax)
/-- `x86_overload_128` (XA:59-60 with AVX, XA:69-70 without). -/
def overload128 (avx vec : Bool) (sz N A : Nat) : Bool :=
  if avx then overloadSimd vec N A 16 32 || overloadDefault vec sz N A sz 16
  else overloadSimd vec N A 16 sizeMax || overloadDefault vec sz N A sz sizeMax
/-- `x86_overload_any` (XA:61-62, XA:71-72): selects the x86 class templates (X:61, X:559). -/
def overloadAny (avx vec : Bool) (sz N A : Nat) : Bool :=
  overload128 avx vec sz N A || overload256 avx vec sz N A

/-- ABI tags (GA:15-60): `scalar` or `aligned_vector<N, A>`. -/
inductive Tag where
  | scalar
  | avec (n a : Nat)
  deriving DecidableEq
/-- the `size` member (GA:18, GA:43). -/
def Tag.size : Tag → Nat
  | .scalar => 1
  | .avec n _ => n

/-- `deduce<T, N>` (GA:71-78, XA:112-117): the list of most specialised matching candidates.
The x86 specialisations are constrained and hence preferred over `deduce<T, N>`; if both match the
result is ambiguous (two candidates).  `deduce<T, 1>` is more specialised than `deduce<T, N>`. -/
def deduce (avx vec : Bool) (sz N : Nat) : List Tag :=
  let c := (if overload128 avx vec sz N 0 then [Tag.avec N 16] else []) ++
           (if overload256 avx vec sz N 0 then [Tag.avec N 32] else [])
  if N = 1 then Tag.scalar :: c
  else if c = [] then [Tag.avec N 0] else c
end Dpm.Util
