import Verif.Model.Round
import Verif.Spec.Fma
/-
Fused multiply-add, linear interpolation and square root of the x86 backend.
MB = /repo/dpm/detail/x86/mbase.hpp, PW = /repo/dpm/detail/x86/pow.hpp, PE = /repo/dpm/detail/x86/polevl.hpp.
`fm` says whether DPM_HAS_FMA is defined.
-/
namespace Dpm.X86
open Dpm.Reg Dpm.Fp

/-- `fmadd` (MB:14-17, 32-39, 71-74, 90-97, 149-152, 168-171, 187-194, 220-227) -/
def fmaddV (fm : Bool) (w : Nat) {n : Nat} (a b c : BitVec n) : BitVec n :=
  if fm then map3 w (ffmaG false false) a b c else faddL w (fmulL w a b) c
/-- `fmsub` (MB:18-21, 40-47, 75-78, 98-105, 153-156, 172-175, 195-202, 228-235) -/
def fmsubV (fm : Bool) (w : Nat) {n : Nat} (a b c : BitVec n) : BitVec n :=
  if fm then map3 w (ffmaG false true) a b c else fsubL w (fmulL w a b) c
/-- `fnmadd` (MB:22-25, 48-55, 79-82, 106-113, 157-160, 176-179, 203-210, 236-243) -/
def fnmaddV (fm : Bool) (w : Nat) {n : Nat} (a b c : BitVec n) : BitVec n :=
  if fm then map3 w (ffmaG true false) a b c else fsubL w c (fmulL w a b)
/-- `fnmsub` (MB:26-30, 56-63, 83-88, 114-121, 161-166, 180-185, 211-218, 244-251): without FMA `0 - (a * b + c)` -/
def fnmsubV (fm : Bool) (w : Nat) {n : Nat} (a b c : BitVec n) : BitVec n :=
  if fm then map3 w (ffmaG true true) a b c else fsubL w (0#n) (faddL w (fmulL w a b) c)

/-- `sqrt` (PW:30, 35, 43, 47) -/
def sqrtL (w : Nat) {n : Nat} (x : BitVec n) : BitVec n := map1 w fsqrt x

/-- `unwrap_polevl<N, I>` (PE:13-23): the coefficients from `c[I]` on are still to come -/
def unwrapPolevl (fm : Bool) (w : Nat) (v : VSz) (x y : Vec v) : List (BitVec w) → Vec v
  | [] => y
  | c :: cs => unwrapPolevl fm w v x (fmaddV fm w y x (fillV v c)) cs
/-- `polevl` (PE:24-28); a `span` of static extent 0 has no `c[0]` -/
def polevlV (fm : Bool) (w : Nat) (v : VSz) (x : Vec v) : List (BitVec w) → Vec v
  | [] => 0
  | c :: cs => unwrapPolevl fm w v x (fillV v c) cs

section api
variable (cf : Cfg) (fm : Bool)
/-- the three-operand `vectorize` of X:54-58 -/
def vectorize3 (k : Vec cf.v → Vec cf.v → Vec cf.v → Vec cf.v) (a b c : cf.Data) : cf.Data :=
  forRange cf.dataSize (fun j d => d.set j (k (a j) (b j) (c j))) (zeroData cf)
/-- `fmadd`, `fmsub`, `fnmadd`, `fnmsub`, `fma` (MB:443-520) -/
def vFmadd (a b c : cf.Data) : Out cf.Data := .ok (vectorize3 cf (fun x y z => fmaddV fm cf.w x y z) a b c)
def vFmsub (a b c : cf.Data) : Out cf.Data := .ok (vectorize3 cf (fun x y z => fmsubV fm cf.w x y z) a b c)
def vFnmadd (a b c : cf.Data) : Out cf.Data := .ok (vectorize3 cf (fun x y z => fnmaddV fm cf.w x y z) a b c)
def vFnmsub (a b c : cf.Data) : Out cf.Data := .ok (vectorize3 cf (fun x y z => fnmsubV fm cf.w x y z) a b c)
def vFma (a b c : cf.Data) : Out cf.Data := vFmadd cf fm a b c
/-- run-time expression of `lerp(a, b, f)` (MB:416-421, 433-439): `fmadd(b - a, f, a)` -/
def lerpV (x y z : Vec cf.v) : Vec cf.v := fmaddV fm cf.w (fsubL cf.w y x) z x
/-- `lerp(a, b, f)` with vector or scalar `f` (MB:405-440): the constant-evaluated branch, instantiated with the function, calls
`fmax` with three arguments, and there is no such overload -/
def vLerp (_a _b _f : cf.Data) : Out cf.Data := .illFormed
def vLerpS (_a _b : cf.Data) (_f : BitVec cf.w) : Out cf.Data := .illFormed
/-- `sqrt(x)` (PW:108-123) -/
def vSqrt (x : cf.Data) : Out cf.Data := .ok (vectorize1 cf (fun _ x => sqrtL cf.w x) (zeroData cf) x)
end api
end Dpm.X86
