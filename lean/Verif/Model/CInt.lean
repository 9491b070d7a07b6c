/-
C++20 scalar integer semantics (int = 32 bit two's complement, as on every target dpm supports).
This is not code of dpm: it is the language semantics that `a[i] + b[i]` etc. in
/repo/dpm/detail/generic/type.hpp refer to.
-/
namespace Dpm

/-- An integer type: number of bits and signedness. -/
structure IntTy where
  bits : Nat
  signed : Bool
  deriving DecidableEq, Repr

namespace IntTy
def i8 : IntTy := ⟨8, true⟩
def u8 : IntTy := ⟨8, false⟩
def i16 : IntTy := ⟨16, true⟩
def u16 : IntTy := ⟨16, false⟩
def i32 : IntTy := ⟨32, true⟩
def u32 : IntTy := ⟨32, false⟩
def i64 : IntTy := ⟨64, true⟩
def u64 : IntTy := ⟨64, false⟩

/-- Integral promotion [conv.prom]. -/
def promote (t : IntTy) : IntTy := if t.bits < 32 then i32 else t

/-- The mathematical value of a bit pattern. -/
def val (t : IntTy) (x : BitVec t.bits) : Int := if t.signed then x.toInt else (x.toNat : Int)

/-- Is `r` representable? -/
def fits (t : IntTy) (r : Int) : Bool :=
  if t.signed then decide (-(2 ^ (t.bits - 1) : Int) ≤ r ∧ r < 2 ^ (t.bits - 1)) else decide (0 ≤ r ∧ r < 2 ^ t.bits)

/-- Result of an arithmetic operation whose exact result is `r`, computed in the promoted type and
converted back to `t` (conversion is modular in C++20); signed overflow is undefined. -/
def wrap (t : IntTy) (r : Int) : Option (BitVec t.bits) :=
  if t.promote.signed ∧ ¬ t.promote.fits r then none else some (BitVec.ofInt t.bits r)

def add (t : IntTy) (a b : BitVec t.bits) : Option (BitVec t.bits) := t.wrap (t.val a + t.val b)
def sub (t : IntTy) (a b : BitVec t.bits) : Option (BitVec t.bits) := t.wrap (t.val a - t.val b)
def mul (t : IntTy) (a b : BitVec t.bits) : Option (BitVec t.bits) := t.wrap (t.val a * t.val b)
def neg (t : IntTy) (a : BitVec t.bits) : Option (BitVec t.bits) := t.wrap (- t.val a)
/-- `/`: division by zero and an unrepresentable quotient are undefined. -/
def div (t : IntTy) (a b : BitVec t.bits) : Option (BitVec t.bits) :=
  if t.val b = 0 then none else t.wrap ((t.val a).tdiv (t.val b))
/-- `%`: undefined when the quotient is. -/
def rem (t : IntTy) (a b : BitVec t.bits) : Option (BitVec t.bits) :=
  if t.val b = 0 then none
  else if t.promote.signed ∧ ¬ t.promote.fits ((t.val a).tdiv (t.val b)) then none
  else some (BitVec.ofInt t.bits ((t.val a).tmod (t.val b)))
def band (t : IntTy) (a b : BitVec t.bits) : Option (BitVec t.bits) := some (a &&& b)
def bor (t : IntTy) (a b : BitVec t.bits) : Option (BitVec t.bits) := some (a ||| b)
def bxor (t : IntTy) (a b : BitVec t.bits) : Option (BitVec t.bits) := some (a ^^^ b)
def bnot (t : IntTy) (a : BitVec t.bits) : Option (BitVec t.bits) := some (~~~ a)
/-- `<<`: undefined for a negative count or one not below the width of the promoted type. -/
def shlN (t : IntTy) (a : BitVec t.bits) (n : Int) : Option (BitVec t.bits) :=
  if 0 ≤ n ∧ n < t.promote.bits then some (BitVec.ofInt t.bits (t.val a * 2 ^ n.toNat)) else none
/-- `>>`: arithmetic for signed types (C++20). -/
def shrN (t : IntTy) (a : BitVec t.bits) (n : Int) : Option (BitVec t.bits) :=
  if 0 ≤ n ∧ n < t.promote.bits then some (BitVec.ofInt t.bits (t.val a / 2 ^ n.toNat)) else none
def shl (t : IntTy) (a b : BitVec t.bits) : Option (BitVec t.bits) := t.shlN a (t.val b)
def shr (t : IntTy) (a b : BitVec t.bits) : Option (BitVec t.bits) := t.shrN a (t.val b)
end IntTy

/-- The scalar operations of an element type `T` that generic vectors lift: `none` = undefined. -/
structure Scalar (α : Type) where
  zero : α
  one : α
  add : α → α → Option α
  sub : α → α → Option α
  mul : α → α → Option α
  div : α → α → Option α
  rem : α → α → Option α
  band : α → α → Option α
  bor : α → α → Option α
  bxor : α → α → Option α
  neg : α → Option α
  bnot : α → Option α
  shl : α → α → Option α
  shr : α → α → Option α
  shlN : α → Int → Option α
  shrN : α → Int → Option α
  eq : α → α → Bool
  ne : α → α → Bool
  lt : α → α → Bool
  le : α → α → Bool
  gt : α → α → Bool
  ge : α → α → Bool
  lnot : α → Bool

/-- The integer types as element types. -/
def IntTy.scalar (t : IntTy) : Scalar (BitVec t.bits) where
  zero := 0
  one := 1
  add := t.add
  sub := t.sub
  mul := t.mul
  div := t.div
  rem := t.rem
  band := t.band
  bor := t.bor
  bxor := t.bxor
  neg := t.neg
  bnot := t.bnot
  shl := t.shl
  shr := t.shr
  shlN := t.shlN
  shrN := t.shrN
  eq a b := decide (t.val a = t.val b)
  ne a b := decide (t.val a ≠ t.val b)
  lt a b := decide (t.val a < t.val b)
  le a b := decide (t.val a ≤ t.val b)
  gt a b := decide (t.val a > t.val b)
  ge a b := decide (t.val a ≥ t.val b)
  lnot a := decide (t.val a = 0)

end Dpm
