import Verif.Spec.Ieee
/-
Fused multiply-add and square root of the hardware, on bit patterns (round to nearest even).
Part of the trusted description of the hardware.
-/
namespace Dpm.Fp

/-- `±z`, negated when `n` -/
def sgn (n : Bool) (z : Int) : Int := if n then -z else z
/-- `±(x * y) ± z` rounded once (`VFMADD`, `VFMSUB`, `VFNMADD`, `VFNMSUB`; `np` negates the product, `nz` negates `z`).
Which of several NaN operands is returned depends on the encoding the compiler picks (132, 213, 231); here it is the first. -/
def ffmaG (np nz : Bool) {w : Nat} (x y z : BitVec w) : BitVec w :=
  if isNaN x then quiet x
  else if isNaN y then quiet y
  else if isNaN z then quiet z
  else if isInf x || isInf y then
    if isZero x || isZero y then defaultNaN w
    else if isInf z && (((neg x != neg y) != np) != (neg z != nz)) then defaultNaN w
    else pack w ((neg x != neg y) != np) (infMag w)
  else if isInf z then pack w (neg z != nz) (infMag w)
  else
    let s := sgn np (val x * val y) + sgn nz (val z * 2 ^ unitExp w)
    if s = 0 then pack w (((neg x != neg y) != np) && (neg z != nz)) 0
    else round w (decide (s < 0)) s.natAbs (2 ^ unitExp w)
/-- `x * y + z` rounded once -/
def ffma {w : Nat} (x y z : BitVec w) : BitVec w := ffmaG false false x y z

/-- the integer square root -/
def isqrt (n : Nat) : Nat := go n (n.log2 / 2 + 1) 0
where
  /-- bits from `k - 1` down to 0 -/
  go (n : Nat) : (k r : Nat) → Nat
    | 0, r => r
    | k + 1, r => go n k (if (r + 2 ^ k) * (r + 2 ^ k) ≤ n then r + 2 ^ k else r)
/-- `SQRTPS`/`SQRTPD`: in units of the smallest subnormal the root of `x` is the root of `val x * 2^unitExp`, at least
`2^(unitExp / 2)`, so its integer part and whether it is exact decide the rounding. -/
def fsqrt {w : Nat} (x : BitVec w) : BitVec w :=
  if isNaN x then quiet x
  else if isZero x then x
  else if neg x then defaultNaN w
  else if isInf x then x
  else
    let n := (val x).natAbs * 2 ^ unitExp w
    let r := isqrt n
    round w false (2 * r + (if r * r = n then 0 else 1)) 2
end Dpm.Fp
