import Verif.Model.Flags
import Verif.Spec.FlagExpr
import Verif.Spec.FltScalar
/-
Expressions of vectors as sequences of calls, with the lane operations they execute.  X = /repo/dpm/detail/x86/type.hpp, PW = x86/pow.hpp,
G = /repo/dpm/detail/generic/type.hpp, GM = /repo/dpm/detail/generic/math.hpp.
-/
namespace Dpm.X86
open Dpm Dpm.Generic Dpm.Fp

/-- An expression of x86 vectors: each node is a call of the operator (X:793-922), of unary minus (X:776-790, no arithmetic operation), of `sqrt`
(PW:108-123) or of the broadcast constructor (X:600-609). -/
def xEval (c : Cfg) (env : Nat → c.Data) : FExp c.w → c.Data × List (Ev c.w)
  | .var k => (env k, [])
  | .const x => (vbroadcast c x (zeroData c), [])
  | .bin o a b =>
    let x := xEval c env a
    let y := xEval c env b
    let r := tArith ieee c o x.1 y.1
    (r.1, x.2 ++ y.2 ++ r.2)
  | .binS o a s =>
    let x := xEval c env a
    let r := tArithS ieee c o x.1 s
    (r.1, x.2 ++ r.2)
  | .neg a =>
    let x := xEval c env a
    (vectorize1 c (fun _ x => negV c.s c.T c.v x) (zeroData c) x.1, x.2)
  | .sqrt a =>
    let x := xEval c env a
    let r := tSqrt c x.1
    (r.1, x.2 ++ r.2)

/-- The same for vectors of the generic backend (G:697-799; `sqrt`: GM:354-362; broadcast: G:499). -/
def gEval {w N : Nat} (env : Nat → GSimd (BitVec w) N) : FExp w → GSimd (BitVec w) N × List (Ev w)
  | .var k => (env k, [])
  | .const x => (GSimd.fill (fun _ => 0#w) x, [])
  | .bin o a b =>
    let x := gEval env a
    let y := gEval env b
    let r := gTraced 0#w o.fn o.opc x.1 y.1
    (r.1, x.2 ++ y.2 ++ r.2)
  | .binS o a s =>
    let x := gEval env a
    let r := gTraced 0#w o.fn o.opc x.1 (GSimd.fill (fun _ => 0#w) s)
    (r.1, x.2 ++ r.2)
  | .neg a =>
    let x := gEval env a
    (((Generic.opNeg (GenericMath.fpScalar w) x.1)).getD x.1, x.2)
  | .sqrt a =>
    let x := gEval env a
    let r := gTraced 0#w (fun v _ => fsqrt v) .sqrt x.1 x.1
    (r.1, x.2 ++ r.2)
end Dpm.X86
