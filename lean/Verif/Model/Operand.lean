import Verif.Model.FloatProgram
/-
Which operator template the compiler selects when an operand is a scalar.  G = /repo/dpm/detail/generic/type.hpp,
X = /repo/dpm/detail/x86/type.hpp.  The operators are namespace-scope function templates, so the element type is deduced from the arguments and no
argument is converted.  Compound assignments (G:751-987) have the parameters of the operators they stand for and are not listed again.
-/
namespace Dpm.Operand
open Dpm Dpm.Reg Dpm.Generic Dpm.X86

/-- arithmetic types of C++; `long` has 64 bits.  The character types besides `char` and `long double` are not modelled. -/
inductive CTy | bool | char | schar | uchar | short | ushort | int | uint | long | ulong | llong | ullong | float | double
deriving DecidableEq
/-- `std::integral` -/
def CTy.integral : CTy → Bool
  | .float | .double => false
  | _ => true
/-- the representation -/
def CTy.ety : CTy → Ety
  | .bool => .u8 | .char => .i8 | .schar => .i8 | .uchar => .u8 | .short => .i16 | .ushort => .u16 | .int => .i32 | .uint => .u32
  | .long => .i64 | .llong => .i64 | .ulong => .u64 | .ullong => .u64 | .float => .f32 | .double => .f64
/-- the value of a scalar of integral type -/
def CTy.val (S : CTy) (x : BitVec S.ety.w) : Int := S.ety.ity.val x

deriving instance DecidableEq for Cmp
/-- binary operators, `min` and `max` of two arguments, comparisons -/
inductive Op | add | sub | mul | div | rem | band | bor | bxor | shl | shr | vmin | vmax | cmp (o : Cmp)
deriving DecidableEq
def Op.isShift : Op → Bool
  | .shl | .shr => true
  | _ => false
def Op.isCmp : Op → Bool
  | .cmp _ => true
  | _ => false
/-- `requires(T l, T r){ l op r; }` (G:734-941) -/
def Op.valid : Op → CTy → Bool
  | .rem, t | .band, t | .bor, t | .bxor, t | .shl, t | .shr, t => t.integral
  | _, _ => true

/-- the type of an argument: a vector, with a native or another ABI, or a scalar -/
inductive Arg
  | vec (t : CTy) (x86 : Bool)
  | scl (S : CTy)
deriving DecidableEq
/-- the type of a parameter: `const simd<T, Abi> &`, `const detail::x86_simd<T, N, A> &`, `T`, `I` -/
inductive Par | simd | xsimd | elem | int
deriving DecidableEq
/-- what deduction of `T` from one parameter gives [temp.deduct.call] -/
inductive Ded
  /-- deduction fails -/
  | fail
  /-- the parameter does not mention `T` -/
  | silent
  /-- `T` is this type -/
  | is (t : CTy)
/-- `T b` deduces the type of the argument; from a vector that contradicts the other parameter, a vector of `T`.  `std::integral I` is the
constraint of `I`. -/
def Par.deduce : Par → Arg → Ded
  | .simd, .vec t _ => .is t
  | .xsimd, .vec t true => .is t
  | .elem, .scl S => .is S
  | .int, .scl S => if S.integral then .silent else .fail
  | _, _ => .fail
/-- a template of two parameters and its constraint on `T` -/
structure Sig where
  p1 : Par
  p2 : Par
  need : CTy → Bool
/-- is the template a candidate for these arguments? -/
def Sig.viable (g : Sig) (l r : Arg) : Bool :=
  match g.p1.deduce l, g.p2.deduce r with
  | .is t, .is u => decide (t = u) && g.need t
  | .is t, .silent => g.need t
  | .silent, .is u => g.need u
  | _, _ => false

/-- the generic templates: `+`, `-` (G:734-777), `*`, `/`, `%` (G:784-845), `&`, `|`, `^` (G:867-928), shifts (G:941-981), comparisons
(G:1000-1051), `min`, `max` (G:1158-1194) -/
def genericSigs (o : Op) : List Sig :=
  if o.isCmp then [⟨.simd, .simd, fun _ => true⟩]
  else if o.isShift then [⟨.simd, .simd, o.valid⟩, ⟨.simd, .int, o.valid⟩]
  else [⟨.simd, .simd, o.valid⟩, ⟨.simd, .elem, o.valid⟩]
/-- the constraint of the x86 templates besides `x86_overload_any`: `std::floating_point` for `/`, `std::integral` for `&`, `^`, `|` and the
shifts; `*` has a pair for either (X:858-967) -/
def xNeed : Op → CTy → Bool
  | .div, t => !t.integral
  | .band, t | .bor, t | .bxor, t | .shl, t | .shr, t => t.integral
  | _, _ => true
/-- the x86 templates: `+`, `-` (X:792-856), `*`, `/` (X:858-967; none for `%`), `&`, `^`, `|` (X:986-1082), shifts (X:1084-1172), comparisons
(X:1174-1298), `min`, `max` (X:1566-1995) -/
def xSigs (o : Op) : List Sig :=
  if o = .rem then []
  else if o.isCmp then [⟨.xsimd, .xsimd, xNeed o⟩]
  else [⟨.xsimd, .xsimd, xNeed o⟩, ⟨.xsimd, .elem, xNeed o⟩]
/-- The template selected: an x86 template is more specialised than the generic ones it competes with [temp.func.order]. -/
def resolve (o : Op) (l r : Arg) : Option Sig :=
  match (xSigs o).find? (fun g => g.viable l r) with
  | some g => some g
  | none => (genericSigs o).find? (fun g => g.viable l r)

/-- An operand: an x86 vector, or a scalar. -/
inductive Operand (c : Cfg)
  | vec (d : c.Data)
  | scl (S : CTy) (x : BitVec S.ety.w)
def Operand.arg {c : Cfg} (t : CTy) : Operand c → Arg
  | .vec _ => .vec t true
  | .scl S _ => .scl S

/-- the body for two vectors -/
def runVV (fp : FpOps) (c : Cfg) : Op → c.Data → c.Data → Out c.Data
  | .add => opAdd fp c | .sub => opSub fp c | .mul => opMul fp c | .div => opDiv fp c | .rem => opRem c
  | .band => opAnd c | .bor => opOr c | .bxor => opXor c | .shl => opShl c | .shr => opShr c
  | .vmin => vMin c | .vmax => vMax c | .cmp o => xCmp c o
/-- the body for a vector and a scalar of the element type; there is none for comparisons -/
def runVS (fp : FpOps) (c : Cfg) : Op → c.Data → BitVec c.w → Out c.Data
  | .add => opAddS fp c | .sub => opSubS fp c | .mul => opMulS fp c | .div => opDivS fp c | .rem => opRemS c
  | .band => opAndS c | .bor => opOrS c | .bxor => opXorS c | .shl => opShlS c | .shr => opShrS c
  | .vmin => vMinS c | .vmax => vMaxS c | .cmp _ => fun _ _ => .illFormed
/-- the body of the generic shift templates: element loop, `return {result.data(), vector_aligned}` (G:966-981) -/
def runShift (c : Cfg) (o : Op) (a : c.Data) (n : Int) : Out c.Data :=
  if o = .shl then genericTemplate1 c (fun x => c.T.ity.shlN x n) a else genericTemplate1 c (fun x => c.T.ity.shrN x n) a
/-- the configuration of a vector with elements `t` -/
@[reducible] def cfgOf (s : ISA) (t : CTy) (N : Nat) (v : VSz) : Cfg := ⟨s, t.ety, N, v⟩
/-- `l o r`, where the vectors among the operands have elements `t`.  The conversion `x.setWidth` is between equal widths: the template was selected
only if the scalar has type `t`. -/
def apply (fp : FpOps) (s : ISA) (t : CTy) (N : Nat) (v : VSz) (o : Op) (l r : Operand (cfgOf s t N v)) : Out (cfgOf s t N v).Data :=
  match resolve o (l.arg t) (r.arg t) with
  | none => .illFormed
  | some g =>
    match g.p2, l, r with
    | .int, .vec a, .scl S x => runShift _ o a (S.val x)
    | .elem, .vec a, .scl _ x => runVS fp _ o a (x.setWidth _)
    | _, .vec a, .vec b => runVV fp _ o a b
    | _, _, _ => .illFormed
end Dpm.Operand
