import Verif.Model.GenericMath
/-
Model of two templates of /repo/dpm/detail/generic/math.hpp (GM) on x86 vectors that were left out of Model/GenericMath.lean because
their results are vectors of `int`: `fpclassify` and `remquo`.  Neither has an x86 overload (class.hpp, mbase.hpp).
-/
namespace Dpm.GenericMath
open Dpm Dpm.Generic Dpm.X86

/-- `fpclassify` (GM:1213-1220) on an x86 vector of configuration `c`; `ci` is the configuration of `rebind_simd_t<int, simd<T, Abi>>`
(generic/type.hpp:41), a vector of `size()` ints: element loop into `std::array<int, size()>`, then a `vector_aligned` load. -/
def xFpclassify (c ci : Cfg) (L : Cmath c.w) (x : c.Data) : Out ci.Data :=
  let m := forRange c.N (fun i (m : Mem (BitVec 32)) => m.set i (L.fpclassify (elt c x i))) (fun _ => 0)
  Out.ofUb (copyFrom ci .vector (zeroData ci) c.N (fun i => (m i).setWidth ci.w))
/-- `remquo(a, b, simd<int, QAbi> *)` (GM:61-71) on x86 vectors; the output vector (configuration `cq`) may have any size and is filled by
`out_quo->copy_from(quo.data(), vector_aligned)` from the `std::array<int, size()>`; the returned vector is loaded from
`std::array<T, size()>`.  (result, `*out_quo`); `setWidth` keeps the 32 bits (`cq.T = int`). -/
def xRemquo (c cq : Cfg) (L : Cmath c.w) (a b : c.Data) (outQuo : cq.Data) : Out (c.Data × cq.Data) :=
  let s := forRange c.N (fun i (s : Mem (BitVec 32) × Mem (BitVec c.w)) =>
    let r := L.remquo (elt c a i) (elt c b i)
    (s.1.set i r.2, s.2.set i r.1)) (fun _ => 0, fun _ => 0)
  (Out.ofUb (copyFrom cq .vector outQuo c.N (fun i => (s.1 i).setWidth cq.w))).bind fun q =>
    (Out.ofUb (copyFrom c .vector (zeroData c) c.N s.2)).map fun r => (r, q)
end Dpm.GenericMath
