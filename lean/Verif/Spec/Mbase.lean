import Verif.Spec.Ieee
import Verif.Spec.Real
/-
`±a·b ± c` with a single rounding, for finite operands.  Nothing here is taken from dpm.
-/
namespace Dpm.Fp
/-- `r` is `±a·b ± c` (product negated when `np`, `c` negated when `nz`) rounded once; an exact zero is negative only when
both terms are.  Products are in units of `2^(-2 unitExp)`. -/
def IsFma (np nz : Bool) {w : Nat} (a b c r : BitVec w) : Prop :=
  let X : Int := (if np then -1 else 1) * (val a * val b) + (if nz then -1 else 1) * (val c * 2 ^ unitExp w)
  (X ≠ 0 → IsRounded (decide (X < 0)) X.natAbs (2 ^ unitExp w) r) ∧
  (X = 0 → isZero r = true ∧ r.msb = ((a.msb ^^ b.msb ^^ np) && (c.msb ^^ nz)))
/-- `r` is `a·b` rounded -/
def IsProd {w : Nat} (a b r : BitVec w) : Prop := IsRounded (a.msb ^^ b.msb) ((val a).natAbs * (val b).natAbs) (2 ^ unitExp w) r
/-- `r` is `±a ± b` rounded; an exact zero is negative only when both terms are -/
def IsSum (na nb : Bool) {w : Nat} (a b r : BitVec w) : Prop :=
  let X : Int := (if na then -1 else 1) * val a + (if nb then -1 else 1) * val b
  (X ≠ 0 → IsRounded (decide (X < 0)) X.natAbs 1 r) ∧ (X = 0 → isZero r = true ∧ r.msb = ((a.msb ^^ na) && (b.msb ^^ nb)))
end Dpm.Fp
