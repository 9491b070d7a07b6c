import Verif.Spec.Round
/-
IEEE 754 arithmetic in all four rounding directions (MXCSR.RC, `fesetround`): part of the trusted description of the hardware, next to
Spec/Ieee.lean, which is the special case of rounding to nearest (`C83_nearest`).  `IsDirected` is the textbook definition; that the functions
satisfy it is proved in Proofs/RoundDir.lean.
-/
namespace Dpm.Fp

/-- the direction points away from zero for results of sign `s` -/
def away (m : RMode) (s : Bool) : Bool :=
  match m, s with
  | .down, true => true
  | .up, false => true
  | _, _ => false
/-- Rounding the magnitude `n / d` of a number of sign `s` in direction `m` (exponent unbounded): to nearest even; or to the largest magnitude
pattern not above, or the smallest not below, as the direction points towards or away from zero. -/
def IsDirected (m : RMode) (s : Bool) (b n d p : Nat) : Prop :=
  if m = .nearest then IsNearestEven b n d p
  else if away m s then n ≤ magVal b p * d ∧ ∀ q, n ≤ magVal b q * d → p ≤ q
  else magVal b p * d ≤ n ∧ ∀ q, magVal b q * d ≤ n → q ≤ p
/-- the function -/
def rdir (m : RMode) (s : Bool) (b n d : Nat) : Nat :=
  if m = .nearest then rne b n d
  else
    let k := (n / d).log2 - b
    let D := d * 2 ^ k
    k * 2 ^ b + n / D + (if away m s && decide (n % D ≠ 0) then 1 else 0)
/-- correctly rounded `±n/d`; beyond the largest finite number infinity, or the largest finite number if the direction points towards zero -/
def roundDir (w : Nat) (m : RMode) (s : Bool) (n d : Nat) : BitVec w :=
  pack w s (min (rdir m s (mb w) n d) (if m = .nearest ∨ away m s = true then infMag w else infMag w - 1))

/-- addition: a zero sum of opposite signs is `+0`, rounding down `-0` (IEEE 754, 6.3) -/
def faddM (m : RMode) {w : Nat} (x y : BitVec w) : BitVec w :=
  if isNaN x then quiet x
  else if isNaN y then quiet y
  else if isInf x then if isInf y && (neg x != neg y) then defaultNaN w else x
  else if isInf y then y
  else if val x + val y = 0 then pack w (if neg x = neg y then neg x else decide (m = .down)) 0
  else roundDir w m (decide (val x + val y < 0)) (val x + val y).natAbs 1
def fsubM (m : RMode) {w : Nat} (x y : BitVec w) : BitVec w :=
  if isNaN x then quiet x
  else if isNaN y then quiet y
  else faddM m x (y ^^^ BitVec.intMin w)
def fmulM (m : RMode) {w : Nat} (x y : BitVec w) : BitVec w :=
  if isNaN x then quiet x
  else if isNaN y then quiet y
  else if isInf x || isInf y then if isZero x || isZero y then defaultNaN w else pack w (neg x != neg y) (infMag w)
  else roundDir w m (neg x != neg y) ((val x).natAbs * (val y).natAbs) (2 ^ unitExp w)
def fdivM (m : RMode) {w : Nat} (x y : BitVec w) : BitVec w :=
  if isNaN x then quiet x
  else if isNaN y then quiet y
  else if isInf x then if isInf y then defaultNaN w else pack w (neg x != neg y) (infMag w)
  else if isInf y then pack w (neg x != neg y) 0
  else if isZero y then if isZero x then defaultNaN w else pack w (neg x != neg y) (infMag w)
  else roundDir w m (neg x != neg y) ((val x).natAbs * 2 ^ unitExp w) (val y).natAbs
/-- an integer to floating point -/
def ofIntM (m : RMode) (w : Nat) (z : Int) : BitVec w := roundDir w m (decide (z < 0)) (z.natAbs * 2 ^ unitExp w) 1

/-- `r` is `±n/d` correctly rounded in direction `m` -/
def IsRoundedDir (m : RMode) {w : Nat} (s : Bool) (n d : Nat) (r : BitVec w) : Prop :=
  r.msb = s ∧ ∃ p, IsDirected m s (mb w) n d p ∧ ((p < infMag w ∧ mag r = p) ∨
    (infMag w ≤ p ∧ mag r = if m = .nearest ∨ away m s = true then infMag w else infMag w - 1))

/-- what `rint`, `nearbyint` and `lrint` promise in direction `m` (ISO C 7.12.9.3, 7.12.9.4: "using the current rounding direction") -/
def IsInDir : RMode → Int → Int → Int → Prop
  | .nearest => IsRint
  | .down => IsFloor
  | .up => IsCeil
  | .zero => IsTrunc
end Dpm.Fp
