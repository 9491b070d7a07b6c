import Verif.Model.Program
import Verif.Model.GenericMath
import Verif.Model.Mbase
import Verif.Spec.FltScalar
/-
Client programs over vectors of `float` or `double`: expressions built from the operations both backends offer, and their meaning on each
backend.  G = /repo/dpm/detail/generic/type.hpp, GM = /repo/dpm/detail/generic/math.hpp, X = /repo/dpm/detail/x86/type.hpp,
PW = /repo/dpm/detail/x86/pow.hpp.  Apart from `opDivS`, `opRemS` nothing here models code of its own: each clause only names the API call of
the backend it stands for.
-/
namespace Dpm.X86
open Dpm.Reg Dpm.Util Dpm.Generic Dpm.GenericMath

/-- `x / s` on floats (X:907-922); on integers the generic template (G:830-836) -/
def opDivS (fp : FpOps) (c : Cfg) (a : c.Data) (b : BitVec c.w) : Out c.Data :=
  if c.T.flt then vec1 c (fun x => some (map2 c.w (fp.div c.w) x (fillV c.v b))) a
  else genericTemplate1 c (fun x => c.T.ity.div x b) a
/-- `x % s` on integers (G:839-845) -/
def opRemS (c : Cfg) (a : c.Data) (b : BitVec c.w) : Out c.Data := genericTemplate1 c (fun x => c.T.ity.rem x b) a

/-- binary operators on two vectors, or on a vector and a scalar -/
inductive FBin | add | sub | mul | div | vmin | vmax

/-- Expressions of a client program over floating-point patterns of `w` bits. -/
inductive FEx (w : Nat) : Kind → Type
  | var (k : Nat) : FEx w .vec
  | mvar (k : Nat) : FEx w .msk
  | bcast (s : BitVec w) : FEx w .vec
  | gen (f : Nat → BitVec w) : FEx w .vec
  | mbcast (b : Bool) : FEx w .msk
  | mgen (f : Nat → Bool) : FEx w .msk
  | neg (a : FEx w .vec) : FEx w .vec
  | sqrt (a : FEx w .vec) : FEx w .vec
  | bin (o : FBin) (a b : FEx w .vec) : FEx w .vec
  | binS (o : FBin) (a : FEx w .vec) (s : BitVec w) : FEx w .vec
  | clamp (x lo hi : FEx w .vec) : FEx w .vec
  | blend (m : FEx w .msk) (a b : FEx w .vec) : FEx w .vec
  /-- the vector after `x[k] = s` -/
  | put (x : FEx w .vec) (k : Nat) (s : BitVec w) : FEx w .vec
  | cmp (o : Cmp) (a b : FEx w .vec) : FEx w .msk
  /-- `!x` of a vector -/
  | isZero (a : FEx w .vec) : FEx w .msk
  | mun (o : MUn) (m : FEx w .msk) : FEx w .msk
  | mbin (o : MBin) (a b : FEx w .msk) : FEx w .msk
  | mblend (m a b : FEx w .msk) : FEx w .msk
  | mput (m : FEx w .msk) (k : Nat) (b : Bool) : FEx w .msk

section x86
variable (c : Cfg)
/-- X:793-823, X:859-889, X:1567-1599 on x86 vectors -/
def xfBin : FBin → c.Data → c.Data → Out c.Data
  | .add => opAdd ieee c | .sub => opSub ieee c | .mul => opMul ieee c | .div => opDiv ieee c | .vmin => vMin c | .vmax => vMax c
/-- X:826-857, X:891-922, X:1795-1827 -/
def xfBinS : FBin → c.Data → BitVec c.w → Out c.Data
  | .add => opAddS ieee c | .sub => opSubS ieee c | .mul => opMulS ieee c | .div => opDivS ieee c | .vmin => vMinS c | .vmax => vMaxS c
/-- Evaluation with x86 vectors; `-x` X:777-791, `sqrt` PW:108-123, `clamp` X:1605-1621. -/
def evalXF (ρ : XEnv c) : {k : Kind} → FEx c.w k → Out c.Data
  | _, .var k => .ok (ρ.vec k)
  | _, .mvar k => .ok (ρ.msk k)
  | _, .bcast s => .ok (vbroadcast c s ρ.junk)
  | _, .gen f => .ok (vgenerate c f ρ.junk)
  | _, .mbcast b => .ok (Mask.ofBool c b ρ.junk)
  | _, .mgen f => .ok (Mask.ofGen c f ρ.junk)
  | _, .neg a => (evalXF ρ a).bind fun x => opNeg c x
  | _, .sqrt a => (evalXF ρ a).bind fun x => vSqrt c x
  | _, .bin o a b => (evalXF ρ a).bind fun x => (evalXF ρ b).bind fun y => xfBin c o x y
  | _, .binS o a s => (evalXF ρ a).bind fun x => xfBinS c o x s
  | _, .clamp x lo hi => (evalXF ρ x).bind fun x => (evalXF ρ lo).bind fun l => (evalXF ρ hi).bind fun h => vClamp c x l h
  | _, .blend m a b => (evalXF ρ m).bind fun m => (evalXF ρ a).bind fun x => (evalXF ρ b).bind fun y => .ok (Mask.blend c m x y)
  | _, .put x k s => (evalXF ρ x).bind fun x => if k < c.N then .ok (vset c x k s) else .ub
  | _, .cmp o a b => (evalXF ρ a).bind fun x => (evalXF ρ b).bind fun y => xCmp c o x y
  | _, .isZero a => (evalXF ρ a).bind fun x => opLNot c x
  | _, .mun o m => (evalXF ρ m).bind fun m => .ok (xMUn c o m)
  | _, .mbin o a b => (evalXF ρ a).bind fun x => (evalXF ρ b).bind fun y => .ok (xMBin c o x y)
  | _, .mblend m a b => (evalXF ρ m).bind fun m => (evalXF ρ a).bind fun x => (evalXF ρ b).bind fun y => .ok (Mask.blend c m x y)
  | _, .mput m k b => (evalXF ρ m).bind fun m => if k < c.N then .ok (Mask.setElem c m k b) else .ub
end x86

section generic
variable {w N : Nat} (L : Cmath w)
/-- G:734-749, G:784-799, G:1160-1175 -/
def gfBin : FBin → GSimd (BitVec w) N → GSimd (BitVec w) N → Option (GSimd (BitVec w) N)
  | .add => Generic.opAdd (fpScalar w) | .sub => Generic.opSub (fpScalar w) | .mul => Generic.opMul (fpScalar w)
  | .div => Generic.opDiv (fpScalar w) | .vmin => Generic.vmin (fpScalar w) | .vmax => Generic.vmax (fpScalar w)
/-- G:759-774, G:821-836, G:1179-1194 -/
def gfBinS : FBin → GSimd (BitVec w) N → BitVec w → Option (GSimd (BitVec w) N)
  | .add => Generic.opAddS (fpScalar w) | .sub => Generic.opSubS (fpScalar w) | .mul => Generic.opMulS (fpScalar w)
  | .div => Generic.opDivS (fpScalar w) | .vmin => Generic.vminS (fpScalar w) | .vmax => Generic.vmaxS (fpScalar w)
/-- G:1000-1051 -/
def gfCmp : Cmp → GSimd (BitVec w) N → GSimd (BitVec w) N → GMask N
  | .eq => Generic.opEq (fpScalar w) | .ne => Generic.opNe (fpScalar w) | .lt => Generic.opLt (fpScalar w)
  | .gt => Generic.opGt (fpScalar w) | .le => Generic.opLe (fpScalar w) | .ge => Generic.opGe (fpScalar w)
/-- Evaluation with generic vectors; `-x` G:701-707, `sqrt` GM:358-364, `clamp` G:1225-1240. -/
def evalGF (ρ : GEnv w N) : {k : Kind} → FEx w k → Out (GVal w N k)
  | _, .var k => .ok (ρ.vec k)
  | _, .mvar k => .ok (ρ.msk k)
  | _, .bcast s => .ok (GSimd.fill ρ.junk s : GSimd (BitVec w) N)
  | _, .gen f => .ok (GSimd.generate ρ.junk f : GSimd (BitVec w) N)
  | _, .mbcast b => .ok (GSimd.fill ρ.mjunk b : GMask N)
  | _, .mgen f => .ok (GSimd.generate ρ.mjunk f : GMask N)
  | _, .neg a => (evalGF ρ a).bind fun x => Out.ofUb (Generic.opNeg (fpScalar w) x)
  | _, .sqrt a => (evalGF ρ a).bind fun x => gFn1 L .sqrt x
  | _, .bin o a b => (evalGF ρ a).bind fun x => (evalGF ρ b).bind fun y => Out.ofUb (gfBin o x y)
  | _, .binS o a s => (evalGF ρ a).bind fun x => Out.ofUb (gfBinS o x s)
  | _, .clamp x lo hi => (evalGF ρ x).bind fun x => (evalGF ρ lo).bind fun l => (evalGF ρ hi).bind fun h =>
      Out.ofUb (Generic.vclamp (fpScalar w) x l h)
  | _, .blend m a b => (evalGF ρ m).bind fun m => (evalGF ρ a).bind fun x => (evalGF ρ b).bind fun y => .ok (Generic.blend (fpScalar w).zero m x y)
  | _, .put x k s => (evalGF ρ x).bind fun x => if k < N then .ok (GSimd.setAt x k s) else .ub
  | _, .cmp o a b => (evalGF ρ a).bind fun x => (evalGF ρ b).bind fun y => .ok (gfCmp o x y)
  | _, .isZero a => (evalGF ρ a).bind fun x => .ok (Generic.opLNot (fpScalar w) x)
  | _, .mun o m => (evalGF ρ m).bind fun m => .ok (gMUn o m)
  | _, .mbin o a b => (evalGF ρ a).bind fun x => (evalGF ρ b).bind fun y => .ok (gMBin o x y)
  | _, .mblend m a b => (evalGF ρ m).bind fun m => (evalGF ρ a).bind fun x => (evalGF ρ b).bind fun y => .ok (maskBlend m x y)
  | _, .mput m k b => (evalGF ρ m).bind fun m => if k < N then .ok (GSimd.setAt m k b) else .ub
end generic
end Dpm.X86
