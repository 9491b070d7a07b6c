import Verif.Model.FlagExpr
/-
A loop of the client over arrays, with the lane operations it executes:
  std::size_t i = 0;
  for (; i + V::size() <= n; i += V::size()) {
    V x0{in0 + i, element_aligned}; ...; V r = <expression>; r.copy_to(out + i, element_aligned);
  }
  for (; i < n; ++i) out[i] = <the same expression of in0[i], ...>;
The input arrays hold `n` elements each, the output array too, and they do not overlap.
X = /repo/dpm/detail/x86/type.hpp, G = /repo/dpm/detail/generic/type.hpp.
-/
namespace Dpm.X86
open Dpm Dpm.Generic Dpm.Fp

/-- The variables of the loop body: the loading constructor (X:603-605, X:644-657) of each of the `K` vectors; `junk` is the
uninitialised storage of the new objects (X:585, the array `_data` X:701 without initialiser), different for every object and iteration. -/
def xLoad (c : Cfg) (K n i : Nat) (ins : Nat → Mem (BitVec c.w)) (junk : Nat → c.Data) : Option (Nat → c.Data) :=
  forRangeM K (fun k env => (copyFrom c .element (junk k) (n - i) (fun j => ins k (i + j))).map (fun d k' => if k' = k then d else env k')) junk
/-- One iteration at position `i`: load, evaluate, `copy_to` (X:658-671). -/
def xBlock (c : Cfg) (x : FExp c.w) (K n i : Nat) (ins : Nat → Mem (BitVec c.w)) (junk : Nat → c.Data) (s : Mem (BitVec c.w) × List (Ev c.w)) :
    Option (Mem (BitVec c.w) × List (Ev c.w)) :=
  (xLoad c K n i ins junk).bind fun env =>
    let r := xEval c env x
    (copyTo c .element r.1 (n - i) (fun j => s.1 (i + j))).map fun m => (fun p => if i ≤ p then m (p - i) else s.1 p, s.2 ++ r.2)
/-- The scalar tail: from `i`, `d` iterations. -/
def tailLoop {w : Nat} (x : FExp w) (ins : Nat → Mem (BitVec w)) (i d : Nat) (s : Mem (BitVec w) × List (Ev w)) : Mem (BitVec w) × List (Ev w) :=
  forRange d (fun j s => (s.1.set (i + j) (x.scalar (fun k => ins k (i + j))).1, s.2 ++ (x.scalar (fun k => ins k (i + j))).2)) s
/-- The loop; `n / N` is the number of iterations with `i + N ≤ n`. -/
def xFlagLoop (c : Cfg) (x : FExp c.w) (K n : Nat) (ins : Nat → Mem (BitVec c.w)) (junk : Nat → Nat → c.Data) (out : Mem (BitVec c.w)) :
    Option (Mem (BitVec c.w) × List (Ev c.w)) :=
  (forRangeM (n / c.N) (fun b s => xBlock c x K n (b * c.N) ins (junk b) s) (out, [])).map
    (tailLoop x ins (n / c.N * c.N) (n - n / c.N * c.N))

/-- The same loop with vectors of the generic backend (constructor G:504-506, `copy_from` G:514-519, `copy_to` G:521-527). -/
def gBlock {w N : Nat} (x : FExp w) (i : Nat) (ins : Nat → Mem (BitVec w)) (junk : Mem (BitVec w)) (s : Mem (BitVec w) × List (Ev w)) :
    Mem (BitVec w) × List (Ev w) :=
  let r := gEval (N := N) (fun k => (GSimd.uninit junk).copyFrom id (fun j => ins k (i + j))) x
  let m := r.1.copyTo id (fun j => s.1 (i + j))
  (fun p => if i ≤ p then m (p - i) else s.1 p, s.2 ++ r.2)
def gFlagLoop {w : Nat} (N : Nat) (x : FExp w) (n : Nat) (ins : Nat → Mem (BitVec w)) (junk : Mem (BitVec w)) (out : Mem (BitVec w)) :
    Mem (BitVec w) × List (Ev w) :=
  tailLoop x ins (n / N * N) (n - n / N * N) (forRange (n / N) (fun b s => gBlock (N := N) x (b * N) ins junk s) (out, []))
end Dpm.X86
