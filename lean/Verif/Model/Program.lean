import Verif.Model.Vector
/-
Client programs: expressions over integer vectors and masks built from the operations both backends offer, and
their meaning on each backend.  G = /repo/dpm/detail/generic/type.hpp, X = /repo/dpm/detail/x86/type.hpp.
Nothing here models code of its own: each clause only names the API call of the backend it stands for.
-/
namespace Dpm.X86
open Dpm.Reg Dpm.Util Dpm.Generic

/-- An expression denotes a vector or a mask. -/
inductive Kind | vec | msk

/-- unary operators on vectors: `-x`, `~x`, `lsl<k>(x)`, `lsr<k>(x)`, `asr<k>(x)` -/
inductive Un | neg | bnot | lsl (k : Nat) | lsr (k : Nat) | asr (k : Nat)
/-- binary operators on two vectors -/
inductive Bin | add | sub | mul | div | rem | band | bor | bxor | shl | shr | vmin | vmax
/-- binary operators on a vector and a scalar -/
inductive BinS | add | sub | mul | band | bor | bxor | shl | shr | vmin | vmax
/-- comparisons of two vectors -/
inductive Cmp | eq | ne | lt | gt | le | ge
/-- `!m`, `~m` on masks -/
inductive MUn | lnot | compl
/-- binary operators on masks: `&`, `|`, `^`, `&&`, `||`, `==`, `!=` -/
inductive MBin | and | or | xor | land | lor | eq | ne

/-- Expressions of a client program over element patterns of `w` bits. -/
inductive Ex (w : Nat) : Kind → Type
  /-- program variables -/
  | var (k : Nat) : Ex w .vec
  | mvar (k : Nat) : Ex w .msk
  /-- broadcast and generator constructors -/
  | bcast (s : BitVec w) : Ex w .vec
  | gen (f : Nat → BitVec w) : Ex w .vec
  | mbcast (b : Bool) : Ex w .msk
  | mgen (f : Nat → Bool) : Ex w .msk
  | un (o : Un) (a : Ex w .vec) : Ex w .vec
  | bin (o : Bin) (a b : Ex w .vec) : Ex w .vec
  | binS (o : BinS) (a : Ex w .vec) (s : BitVec w) : Ex w .vec
  | clamp (x lo hi : Ex w .vec) : Ex w .vec
  | blend (m : Ex w .msk) (a b : Ex w .vec) : Ex w .vec
  /-- the vector after `x[k] = s` -/
  | put (x : Ex w .vec) (k : Nat) (s : BitVec w) : Ex w .vec
  | cmp (o : Cmp) (a b : Ex w .vec) : Ex w .msk
  /-- `!x` of a vector -/
  | isZero (a : Ex w .vec) : Ex w .msk
  | mun (o : MUn) (m : Ex w .msk) : Ex w .msk
  | mbin (o : MBin) (a b : Ex w .msk) : Ex w .msk
  | mblend (m a b : Ex w .msk) : Ex w .msk
  | mput (m : Ex w .msk) (k : Nat) (b : Bool) : Ex w .msk

section x86
variable (fp : FpOps) (c : Cfg)
/-- X:777-791 (`-`), G:858-864 (`~`), X:1300-1362 (constant shifts) on x86 vectors -/
def xUn : Un → c.Data → Out c.Data
  | .neg => opNeg c | .bnot => opNot c | .lsl k => vLsl c k | .lsr k => vLsr c k | .asr k => vAsr c k
/-- X:793-823, X:859-889, X:925-945, X:987-1033, X:1085-1127, X:1567-1734; `/`, `%` are G:793-808 -/
def xBin : Bin → c.Data → c.Data → Out c.Data
  | .add => opAdd fp c | .sub => opSub fp c | .mul => opMul fp c | .div => opDiv fp c | .rem => opRem c
  | .band => opAnd c | .bor => opOr c | .bxor => opXor c | .shl => opShl c | .shr => opShr c
  | .vmin => vMin c | .vmax => vMax c
def xBinS : BinS → c.Data → BitVec c.w → Out c.Data
  | .add => opAddS fp c | .sub => opSubS fp c | .mul => opMulS fp c
  | .band => opAndS c | .bor => opOrS c | .bxor => opXorS c | .shl => opShlS c | .shr => opShrS c
  | .vmin => vMinS c | .vmax => vMaxS c
/-- X:1175-1298 -/
def xCmp : Cmp → c.Data → c.Data → Out c.Data
  | .eq => opEq c | .ne => opNe c | .lt => opLt c | .gt => opGt c | .le => opLe c | .ge => opGe c
/-- X:264-373 -/
def xMUn : MUn → c.Data → c.Data
  | .lnot => Mask.not c | .compl => Mask.compl c
def xMBin : MBin → c.Data → c.Data → c.Data
  | .and => Mask.and c | .or => Mask.or c | .xor => Mask.xor c | .land => Mask.land c | .lor => Mask.lor c
  | .eq => Mask.eq c | .ne => Mask.ne c

/-- Objects of the x86 program: variables and the indeterminate contents of fresh storage. -/
structure XEnv where
  vec : Nat → c.Data
  msk : Nat → c.Data
  junk : c.Data

/-- Evaluation with x86 vectors.  An out-of-range `x[k] = s` is undefined. -/
def evalX (ρ : XEnv c) : {k : Kind} → Ex c.w k → Out c.Data
  | _, .var k => .ok (ρ.vec k)
  | _, .mvar k => .ok (ρ.msk k)
  | _, .bcast s => .ok (vbroadcast c s ρ.junk)
  | _, .gen f => .ok (vgenerate c f ρ.junk)
  | _, .mbcast b => .ok (Mask.ofBool c b ρ.junk)
  | _, .mgen f => .ok (Mask.ofGen c f ρ.junk)
  | _, .un o a => (evalX ρ a).bind fun x => xUn c o x
  | _, .bin o a b => (evalX ρ a).bind fun x => (evalX ρ b).bind fun y => xBin fp c o x y
  | _, .binS o a s => (evalX ρ a).bind fun x => xBinS fp c o x s
  | _, .clamp x lo hi => (evalX ρ x).bind fun x => (evalX ρ lo).bind fun l => (evalX ρ hi).bind fun h => vClamp c x l h
  | _, .blend m a b => (evalX ρ m).bind fun m => (evalX ρ a).bind fun x => (evalX ρ b).bind fun y => .ok (Mask.blend c m x y)
  | _, .put x k s => (evalX ρ x).bind fun x => if k < c.N then .ok (vset c x k s) else .ub
  | _, .cmp o a b => (evalX ρ a).bind fun x => (evalX ρ b).bind fun y => xCmp c o x y
  | _, .isZero a => (evalX ρ a).bind fun x => opLNot c x
  | _, .mun o m => (evalX ρ m).bind fun m => .ok (xMUn c o m)
  | _, .mbin o a b => (evalX ρ a).bind fun x => (evalX ρ b).bind fun y => .ok (xMBin c o x y)
  | _, .mblend m a b => (evalX ρ m).bind fun m => (evalX ρ a).bind fun x => (evalX ρ b).bind fun y => .ok (Mask.blend c m x y)
  | _, .mput m k b => (evalX ρ m).bind fun m => if k < c.N then .ok (Mask.setElem c m k b) else .ub
end x86

section generic
variable {N : Nat} (t : IntTy)
/-- G:701-707, G:858-864, G:1057-1091 -/
def gUn : Un → GSimd (BitVec t.bits) N → Option (GSimd (BitVec t.bits) N)
  | .neg => Generic.opNeg t.scalar | .bnot => Generic.opNot t.scalar
  | .lsl k => vlsl t k | .lsr k => vlsr t k | .asr k => vasr t.bits k
/-- G:734-956, G:1160-1175 -/
def gBin : Bin → GSimd (BitVec t.bits) N → GSimd (BitVec t.bits) N → Option (GSimd (BitVec t.bits) N)
  | .add => Generic.opAdd t.scalar | .sub => Generic.opSub t.scalar | .mul => Generic.opMul t.scalar
  | .div => Generic.opDiv t.scalar | .rem => Generic.opRem t.scalar
  | .band => Generic.opAnd t.scalar | .bor => Generic.opOr t.scalar | .bxor => Generic.opXor t.scalar
  | .shl => Generic.opShl t.scalar | .shr => Generic.opShr t.scalar
  | .vmin => Generic.vmin t.scalar | .vmax => Generic.vmax t.scalar
/-- G:759-845, G:904-928, G:966-981, G:1179-1194; shift counts are `int`s of the scalar's value -/
def gBinS : BinS → GSimd (BitVec t.bits) N → BitVec t.bits → Option (GSimd (BitVec t.bits) N)
  | .add => Generic.opAddS t.scalar | .sub => Generic.opSubS t.scalar | .mul => Generic.opMulS t.scalar
  | .band => Generic.opAndS t.scalar | .bor => Generic.opOrS t.scalar | .bxor => Generic.opXorS t.scalar
  | .shl => fun a n => Generic.opShlS t.scalar a (t.val n) | .shr => fun a n => Generic.opShrS t.scalar a (t.val n)
  | .vmin => Generic.vminS t.scalar | .vmax => Generic.vmaxS t.scalar
/-- G:1000-1051 -/
def gCmp : Cmp → GSimd (BitVec t.bits) N → GSimd (BitVec t.bits) N → GMask N
  | .eq => Generic.opEq t.scalar | .ne => Generic.opNe t.scalar | .lt => Generic.opLt t.scalar
  | .gt => Generic.opGt t.scalar | .le => Generic.opLe t.scalar | .ge => Generic.opGe t.scalar
/-- G:301-307, G:374-380 -/
def gMUn : MUn → GMask N → GMask N
  | .lnot => maskLNot | .compl => maskNot
/-- G:310-398 -/
def gMBin : MBin → GMask N → GMask N → GMask N
  | .and => maskAnd | .or => maskOr | .xor => maskXor | .land => maskLAnd | .lor => maskLOr
  | .eq => Generic.maskEq | .ne => Generic.maskNe

/-- Objects of the generic program. -/
structure GEnv (w N : Nat) where
  vec : Nat → GSimd (BitVec w) N
  msk : Nat → GMask N
  junk : Mem (BitVec w)
  mjunk : Mem Bool

/-- Values of expressions over generic vectors. -/
def GVal (w N : Nat) : Kind → Type
  | .vec => GSimd (BitVec w) N
  | .msk => GMask N

/-- Evaluation with generic vectors: `none` where a scalar operation or `x[k] = s` is undefined. -/
def evalG (ρ : GEnv t.bits N) : {k : Kind} → Ex t.bits k → Option (GVal t.bits N k)
  | _, .var k => some (ρ.vec k)
  | _, .mvar k => some (ρ.msk k)
  | _, .bcast s => some (GSimd.fill ρ.junk s : GSimd (BitVec t.bits) N)
  | _, .gen f => some (GSimd.generate ρ.junk f : GSimd (BitVec t.bits) N)
  | _, .mbcast b => some (GSimd.fill ρ.mjunk b : GMask N)
  | _, .mgen f => some (GSimd.generate ρ.mjunk f : GMask N)
  | _, .un o a => (evalG ρ a).bind fun x => gUn t o x
  | _, .bin o a b => (evalG ρ a).bind fun x => (evalG ρ b).bind fun y => gBin t o x y
  | _, .binS o a s => (evalG ρ a).bind fun x => gBinS t o x s
  | _, .clamp x lo hi => (evalG ρ x).bind fun x => (evalG ρ lo).bind fun l => (evalG ρ hi).bind fun h => Generic.vclamp t.scalar x l h
  | _, .blend m a b => (evalG ρ m).bind fun m => (evalG ρ a).bind fun x => (evalG ρ b).bind fun y => some (Generic.blend t.scalar.zero m x y)
  | _, .put x k s => (evalG ρ x).bind fun x => if k < N then some (GSimd.setAt x k s) else none
  | _, .cmp o a b => (evalG ρ a).bind fun x => (evalG ρ b).bind fun y => some (gCmp t o x y)
  | _, .isZero a => (evalG ρ a).bind fun x => some (Generic.opLNot t.scalar x)
  | _, .mun o m => (evalG ρ m).bind fun m => some (gMUn o m)
  | _, .mbin o a b => (evalG ρ a).bind fun x => (evalG ρ b).bind fun y => some (gMBin o x y)
  | _, .mblend m a b => (evalG ρ m).bind fun m => (evalG ρ a).bind fun x => (evalG ρ b).bind fun y => some (maskBlend m x y)
  | _, .mput m k b => (evalG ρ m).bind fun m => if k < N then some (GSimd.setAt m k b) else none
end generic

end Dpm.X86
