import Verif.Spec.Float
/-
Special values of the trigonometric functions, on bit patterns.  Nothing here is taken from dpm.
-/
namespace Dpm.Fp
/-- the binary32 and binary64 numbers nearest to pi, pi/2 and pi/4 -/
def piPat (w : Nat) : BitVec w := if w = 32 then BitVec.ofNat w 0x40490fdb else BitVec.ofNat w 0x400921fb54442d18
def halfPiPat (w : Nat) : BitVec w := if w = 32 then BitVec.ofNat w 0x3fc90fdb else BitVec.ofNat w 0x3ff921fb54442d18
def quarterPiPat (w : Nat) : BitVec w := if w = 32 then BitVec.ofNat w 0x3f490fdb else BitVec.ofNat w 0x3fe921fb54442d18
/-- `|x| = 1` -/
def IsOne {w : Nat} (x : BitVec w) : Prop := isNaN x = false ∧ (val x).natAbs = 2 ^ unitExp w
/-- `p` with the sign of `x` -/
def withSign {w : Nat} (x p : BitVec w) : BitVec w := if x.msb then p ^^^ BitVec.intMin w else p
/-- beyond the arguments the vector kernels handle themselves: `|x| > 2^22` (binary32), `|x| > 2^51` (binary64) -/
def Large {w : Nat} (x : BitVec w) : Prop := 2 ^ (mb w - 1) * 2 ^ unitExp w < (val x).natAbs
end Dpm.Fp
