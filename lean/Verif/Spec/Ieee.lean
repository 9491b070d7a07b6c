import Verif.Spec.Float
/-
IEEE 754 arithmetic on bit patterns as performed by SSE2/AVX (round to nearest even, no flush-to-zero):
part of the trusted description of the hardware.  `Dpm.Fp.IsNearestEven` is the textbook definition of correct
rounding; that the functions below satisfy it is proved in Proofs/Ieee.lean.
-/
namespace Dpm.Fp

/-- distance of naturals -/
def dist (a b : Nat) : Nat := (a - b) + (b - a)
/-- Among all magnitude patterns (with unbounded exponent) `m` is the one whose value is nearest to `n / d`, in units
of the smallest subnormal; of two nearest ones it is the even one. -/
def IsNearestEven (b n d m : Nat) : Prop :=
  ∀ m', dist (magVal b m * d) n ≤ dist (magVal b m' * d) n ∧
    (m' ≠ m → dist (magVal b m * d) n = dist (magVal b m' * d) n → m % 2 = 0)

/-- round to nearest even of `n / d` -/
def rne (b n d : Nat) : Nat :=
  let k := (n / d).log2 - b
  let D := d * 2 ^ k
  k * 2 ^ b + n / D + (if D < 2 * (n % D) ∨ (D = 2 * (n % D) ∧ n / D % 2 = 1) then 1 else 0)

/-- magnitude pattern of infinity -/
def infMag (w : Nat) : Nat := emax w * 2 ^ mb w
/-- the pattern with this sign and magnitude -/
def pack (w : Nat) (s : Bool) (m : Nat) : BitVec w := BitVec.ofNat w ((if s then 2 ^ (w - 1) else 0) + m)
/-- correctly rounded `±n/d`: beyond the largest finite number, infinity -/
def round (w : Nat) (s : Bool) (n d : Nat) : BitVec w := pack w s (min (rne (mb w) n d) (infMag w))

/-- a NaN operand as it is returned: made quiet -/
def quiet {w : Nat} (x : BitVec w) : BitVec w := x ||| BitVec.ofNat w (2 ^ (mb w - 1))
/-- the NaN produced by invalid operations ("real indefinite") -/
def defaultNaN (w : Nat) : BitVec w := pack w true (infMag w + 2 ^ (mb w - 1))

def fadd {w : Nat} (x y : BitVec w) : BitVec w :=
  if isNaN x then quiet x
  else if isNaN y then quiet y
  else if isInf x then if isInf y && (neg x != neg y) then defaultNaN w else x
  else if isInf y then y
  else if val x + val y = 0 then pack w (neg x && neg y) 0
  else round w (decide (val x + val y < 0)) (val x + val y).natAbs 1
def fsub {w : Nat} (x y : BitVec w) : BitVec w :=
  if isNaN x then quiet x
  else if isNaN y then quiet y
  else fadd x (y ^^^ BitVec.intMin w)
def fmul {w : Nat} (x y : BitVec w) : BitVec w :=
  if isNaN x then quiet x
  else if isNaN y then quiet y
  else if isInf x || isInf y then if isZero x || isZero y then defaultNaN w else pack w (neg x != neg y) (infMag w)
  else round w (neg x != neg y) ((val x).natAbs * (val y).natAbs) (2 ^ unitExp w)
def fdiv {w : Nat} (x y : BitVec w) : BitVec w :=
  if isNaN x then quiet x
  else if isNaN y then quiet y
  else if isInf x then if isInf y then defaultNaN w else pack w (neg x != neg y) (infMag w)
  else if isInf y then pack w (neg x != neg y) 0
  else if isZero y then if isZero x then defaultNaN w else pack w (neg x != neg y) (infMag w)
  else round w (neg x != neg y) ((val x).natAbs * 2 ^ unitExp w) (val y).natAbs
/-- an integer to floating point -/
def ofInt (w : Nat) (z : Int) : BitVec w := round w (decide (z < 0)) (z.natAbs * 2 ^ unitExp w) 1

/-- `r` is the correctly rounded value of `±n/d`: the nearest pattern, or infinity beyond the largest finite one -/
def IsRounded {w : Nat} (s : Bool) (n d : Nat) (r : BitVec w) : Prop :=
  r.msb = s ∧ ∃ m, IsNearestEven (mb w) n d m ∧ ((m < infMag w ∧ mag r = m) ∨ (infMag w ≤ m ∧ mag r = infMag w))

/-! ### Rounding to integers (`val x / 2^unitExp` is the value of `x`) -/
/-- rounding directions of `ROUNDPS` and the conversions -/
inductive RMode where
  | nearest
  | down
  | up
  | zero
  deriving DecidableEq, Repr
/-- magnitude `n / D` rounded to an integer, for a number of sign `s` -/
def roundNat (m : RMode) (s : Bool) (n D : Nat) : Nat :=
  n / D + (match m with
    | .nearest => if D < 2 * (n % D) ∨ (D = 2 * (n % D) ∧ n / D % 2 = 1) then 1 else 0
    | .down => if s && decide (n % D ≠ 0) then 1 else 0
    | .up => if !s && decide (n % D ≠ 0) then 1 else 0
    | .zero => 0)
/-- the integer a finite `x` is rounded to -/
def toInt {w : Nat} (m : RMode) (x : BitVec w) : Int :=
  let r : Nat := roundNat m (neg x) (val x).natAbs (2 ^ unitExp w)
  if neg x then -(r : Int) else r
/-- `ROUNDPS`/`ROUNDPD`: the integer as floating-point number with the sign of `x` -/
def roundInt {w : Nat} (m : RMode) (x : BitVec w) : BitVec w :=
  if isNaN x then quiet x
  else if isInf x then x
  else round w (neg x) (roundNat m (neg x) (val x).natAbs (2 ^ unitExp w) * 2 ^ unitExp w) 1
/-- conversion to a signed `k`-bit integer (`CVT(T)PS2DQ` etc.): out-of-range values and NaN give `10...0` -/
def cvtInt {w : Nat} (k : Nat) (m : RMode) (x : BitVec w) : BitVec k :=
  if isFinite x && decide (-(2 ^ (k - 1) : Int) ≤ toInt m x) && decide (toInt m x < 2 ^ (k - 1)) then BitVec.ofInt k (toInt m x)
  else BitVec.intMin k
/-- conversion to an unsigned `k`-bit integer (AVX-512 `VCVTPD2UQQ`): out-of-range values and NaN give all ones -/
def cvtUInt {w : Nat} (k : Nat) (m : RMode) (x : BitVec w) : BitVec k :=
  if isFinite x && decide (0 ≤ toInt m x) && decide (toInt m x < 2 ^ k) then BitVec.ofInt k (toInt m x)
  else BitVec.allOnes k

/-! ### What the directions mean -/
/-- `r` is the value of `x` truncated / rounded down / up / to nearest (ties to even), in terms of exact values -/
def IsTrunc (v D : Int) (r : Int) : Prop := (0 ≤ v → r * D ≤ v ∧ v < (r + 1) * D) ∧ (v < 0 → (r - 1) * D < v ∧ v ≤ r * D)
def IsFloor (v D : Int) (r : Int) : Prop := r * D ≤ v ∧ v < (r + 1) * D
def IsCeil (v D : Int) (r : Int) : Prop := (r - 1) * D < v ∧ v ≤ r * D
def IsRint (v D : Int) (r : Int) : Prop := (2 * r - 1) * D ≤ 2 * v ∧ 2 * v ≤ (2 * r + 1) * D ∧ (2 * v = (2 * r - 1) * D ∨ 2 * v = (2 * r + 1) * D → r % 2 = 0)
/-- to nearest, ties away from zero -/
def IsRoundAway (v D : Int) (r : Int) : Prop :=
  (0 ≤ v → (2 * r - 1) * D ≤ 2 * v ∧ 2 * v < (2 * r + 1) * D) ∧ (v < 0 → (2 * r - 1) * D < 2 * v ∧ 2 * v ≤ (2 * r + 1) * D)

end Dpm.Fp
