import Verif.Spec.Ieee
/-
Conversions between binary32 and binary64 (`CVTPS2PD`, `CVTPD2PS`), on bit patterns, rounding to nearest even.
Part of the trusted description of the hardware.
-/
namespace Dpm.Fp
/-- binary32 to binary64: a NaN keeps its payload and becomes quiet -/
def widen (x : BitVec 32) : BitVec 64 :=
  if isNaN x then quiet (pack 64 (neg x) (infMag 64 + manF x * 2 ^ (mb 64 - mb 32)))
  else if isInf x then pack 64 (neg x) (infMag 64)
  else round 64 (neg x) ((val x).natAbs * 2 ^ (unitExp 64 - unitExp 32)) 1
/-- binary64 to binary32: a NaN keeps the upper bits of its payload and becomes quiet -/
def narrow (x : BitVec 64) : BitVec 32 :=
  if isNaN x then quiet (pack 32 (neg x) (infMag 32 + manF x / 2 ^ (mb 64 - mb 32)))
  else if isInf x then pack 32 (neg x) (infMag 32)
  else round 32 (neg x) (val x).natAbs (2 ^ (unitExp 64 - unitExp 32))
end Dpm.Fp
