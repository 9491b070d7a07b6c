import Verif.Lib.Loop
import Verif.Model.CInt
/-
Model of the platform-independent backend, /repo/dpm/detail/generic/type.hpp (called G below).
A `simd<T, Abi>` with `size() == N` owns cells `0 .. N-1` of a `Mem`; a mask likewise with `Bool`.
All loops of the code are kept as loops.
-/
namespace Dpm.Generic
open Dpm

/-- `T _data[size()]` of class simd / simd_mask (G:246, G:548). -/
structure GSimd (α : Type) (N : Nat) where
  data : Mem α

abbrev GMask (N : Nat) := GSimd Bool N

/-- `operator[]` (G:242-243, G:544-545). -/
def GSimd.get {α : Type} {N : Nat} (x : GSimd α N) (i : Nat) : α := x.data i

/-- `x[i] = v` through the reference of G:242/G:544. -/
def GSimd.setAt {α : Type} {N : Nat} (x : GSimd α N) (i : Nat) (v : α) : GSimd α N := ⟨x.data.set i v⟩

section memory
variable {α β : Type} {N : Nat}

/-- `copy_from(mem, Flags)` (G:214-218, G:516-520): `conv` is the `static_cast<value_type>`. -/
def GSimd.copyFrom (x : GSimd α N) (conv : β → α) (mem : Mem β) : GSimd α N :=
  ⟨forRange N (fun i d => d.set i (conv (mem i))) x.data⟩

/-- `copy_to(mem, Flags)` (G:221-225, G:523-527). -/
def GSimd.copyTo (x : GSimd α N) (conv : α → β) (mem : Mem β) : Mem β :=
  forRange N (fun i m => m.set i (conv (x.data i))) mem

/-- masked `copy_from(mem, m, Flags)` (G:229-233, G:531-535). -/
def GSimd.copyFromMasked (x : GSimd α N) (conv : β → α) (mem : Mem β) (m : GMask N) : GSimd α N :=
  ⟨forRange N (fun i d => if m.get i then d.set i (conv (mem i)) else d) x.data⟩

/-- masked `copy_to(mem, m, Flags)` (G:236-240, G:538-542). -/
def GSimd.copyToMasked (x : GSimd α N) (conv : α → β) (mem : Mem β) (m : GMask N) : Mem β :=
  forRange N (fun i mm => if m.get i then mm.set i (conv (x.data i)) else mm) mem

/-- default constructed object: indeterminate contents `junk` (G:195, G:496). -/
def GSimd.uninit (junk : Mem α) : GSimd α N := ⟨junk⟩

/-- `simd(I mem, Flags)` (G:506, G:204): default storage then copy_from. -/
def GSimd.load (junk : Mem α) (mem : Mem α) : GSimd α N := (GSimd.uninit junk).copyFrom id mem

/-- broadcast constructor, `std::fill_n` (G:197, G:499). -/
def GSimd.fill (junk : Mem α) (v : α) : GSimd α N := ⟨forRange N (fun i d => d.set i v) junk⟩

/-- generator constructor through `detail::generate_n` (G:82-90, G:200, G:502).  `generate_n<N,I>`
recurses on I until I = N. -/
def generateN (gen : Nat → α) (data : Mem α) : (fuel : Nat) → (I : Nat) → Mem α
  | 0, _ => data
  | fuel + 1, I => generateN gen (data.set I (gen I)) fuel (I + 1)

def GSimd.generate (junk : Mem α) (gen : Nat → α) : GSimd α N := ⟨generateN gen junk N 0⟩
end memory

section lift
variable {α β γ : Type} {N : Nat}

/-- The common body of the unary operators: `std::array result = {}; for … result[i] = f(x[i]);
return {result.data(), vector_aligned}` (e.g. G:701-707).  `z` is the value-initialised element. -/
def lift1 (z : γ) (f : α → Option γ) (x : GSimd α N) : Option (GSimd γ N) :=
  (forRangeM N (fun i (r : Mem _) => (f (x.get i)).map (fun v => r.set i v)) (fun _ => z)).map
    (fun r => GSimd.load (fun _ => z) r)

/-- Body of the vector-vector operators (e.g. G:734-740). -/
def lift2 (z : γ) (f : α → β → Option γ) (a : GSimd α N) (b : GSimd β N) : Option (GSimd γ N) :=
  (forRangeM N (fun i (r : Mem _) => (f (a.get i) (b.get i)).map (fun v => r.set i v)) (fun _ => z)).map
    (fun r => GSimd.load (fun _ => z) r)

/-- Body of the vector-scalar operators (e.g. G:759-765). -/
def liftS (z : γ) (f : α → β → Option γ) (a : GSimd α N) (b : β) : Option (GSimd γ N) :=
  (forRangeM N (fun i (r : Mem _) => (f (a.get i) b).map (fun v => r.set i v)) (fun _ => z)).map
    (fun r => GSimd.load (fun _ => z) r)
end lift

section arith
variable {α : Type} {N : Nat} (S : Scalar α)

/-- unary `operator+` (G:698). -/
def opPos (x : GSimd α N) : Option (GSimd α N) := some x
/-- unary `operator-` (G:701-707). -/
def opNeg (x : GSimd α N) : Option (GSimd α N) := lift1 S.zero S.neg x
/-- `operator+` (G:734-740). -/
def opAdd (a b : GSimd α N) : Option (GSimd α N) := lift2 S.zero S.add a b
/-- `operator-` (G:743-749). -/
def opSub (a b : GSimd α N) : Option (GSimd α N) := lift2 S.zero S.sub a b
/-- `operator+=` (G:752). -/
def opAddAssign (a b : GSimd α N) : Option (GSimd α N) := opAdd S a b
/-- `operator-=` (G:755). -/
def opSubAssign (a b : GSimd α N) : Option (GSimd α N) := opSub S a b
/-- scalar `operator+` (G:759-765). -/
def opAddS (a : GSimd α N) (b : α) : Option (GSimd α N) := liftS S.zero S.add a b
/-- scalar `operator-` (G:768-774). -/
def opSubS (a : GSimd α N) (b : α) : Option (GSimd α N) := liftS S.zero S.sub a b
/-- scalar `+=`, `-=` (G:777, G:780). -/
def opAddAssignS (a : GSimd α N) (b : α) : Option (GSimd α N) := opAddS S a b
def opSubAssignS (a : GSimd α N) (b : α) : Option (GSimd α N) := opSubS S a b
/-- pre-increment `x = x + 1` (G:727); returns the new object.  Simplification: `x + 1` only
type-checks for `T = int` (template deduction conflict otherwise), `one` stands for `T(1)`. -/
def opPreInc (x : GSimd α N) : Option (GSimd α N) := opAddS S x S.one
/-- pre-decrement (G:730). -/
def opPreDec (x : GSimd α N) : Option (GSimd α N) := opSubS S x S.one
/-- post-increment (G:711-716): (returned copy, new object). -/
def opPostInc (x : GSimd α N) : Option (GSimd α N × GSimd α N) :=
  let tmp := x
  (opPreInc S x).map (fun x' => (tmp, x'))
/-- post-decrement (G:719-724). -/
def opPostDec (x : GSimd α N) : Option (GSimd α N × GSimd α N) :=
  let tmp := x
  (opPreDec S x).map (fun x' => (tmp, x'))
/-- `operator*` (G:784-790). -/
def opMul (a b : GSimd α N) : Option (GSimd α N) := lift2 S.zero S.mul a b
/-- `operator/` (G:793-799). -/
def opDiv (a b : GSimd α N) : Option (GSimd α N) := lift2 S.zero S.div a b
/-- `operator%` (G:802-808). -/
def opRem (a b : GSimd α N) : Option (GSimd α N) := lift2 S.zero S.rem a b
/-- `*=`, `/=`, `%=` (G:811, G:814, G:817). -/
def opMulAssign (a b : GSimd α N) : Option (GSimd α N) := opMul S a b
def opDivAssign (a b : GSimd α N) : Option (GSimd α N) := opDiv S a b
def opRemAssign (a b : GSimd α N) : Option (GSimd α N) := opRem S a b
/-- scalar `*`, `/`, `%` (G:821-845) and compound forms (G:848-854). -/
def opMulS (a : GSimd α N) (b : α) : Option (GSimd α N) := liftS S.zero S.mul a b
def opDivS (a : GSimd α N) (b : α) : Option (GSimd α N) := liftS S.zero S.div a b
def opRemS (a : GSimd α N) (b : α) : Option (GSimd α N) := liftS S.zero S.rem a b
/-- `operator~` (G:858-864). -/
def opNot (x : GSimd α N) : Option (GSimd α N) := lift1 S.zero S.bnot x
/-- `&`, `|`, `^` (G:867-891), compound forms (G:894-900). -/
def opAnd (a b : GSimd α N) : Option (GSimd α N) := lift2 S.zero S.band a b
def opOr (a b : GSimd α N) : Option (GSimd α N) := lift2 S.zero S.bor a b
def opXor (a b : GSimd α N) : Option (GSimd α N) := lift2 S.zero S.bxor a b
def opAndAssign (a b : GSimd α N) : Option (GSimd α N) := opAnd S a b
def opOrAssign (a b : GSimd α N) : Option (GSimd α N) := opOr S a b
def opXorAssign (a b : GSimd α N) : Option (GSimd α N) := opXor S a b
/-- scalar `&`, `|`, `^` (G:904-928), compound forms (G:931-937). -/
def opAndS (a : GSimd α N) (b : α) : Option (GSimd α N) := liftS S.zero S.band a b
def opOrS (a : GSimd α N) (b : α) : Option (GSimd α N) := liftS S.zero S.bor a b
def opXorS (a : GSimd α N) (b : α) : Option (GSimd α N) := liftS S.zero S.bxor a b
/-- vector `<<` (G:941-947). -/
def opShl (a b : GSimd α N) : Option (GSimd α N) := lift2 S.zero S.shl a b
/-- vector `>>` (G:950-956). -/
def opShr (a b : GSimd α N) : Option (GSimd α N) := lift2 S.zero S.shr a b
/-- vector `<<=` (G:959): the body is `return a = a >> b;`. -/
def opShlAssign (a b : GSimd α N) : Option (GSimd α N) := opShr S a b
/-- vector `>>=` (G:962): the body is `return a = a << b;`. -/
def opShrAssign (a b : GSimd α N) : Option (GSimd α N) := opShl S a b
/-- scalar-count `<<` (G:966-972). -/
def opShlS (a : GSimd α N) (n : Int) : Option (GSimd α N) := liftS S.zero S.shlN a n
/-- scalar-count `>>` (G:975-981). -/
def opShrS (a : GSimd α N) (n : Int) : Option (GSimd α N) := liftS S.zero S.shrN a n
/-- scalar-count `>>=`, `<<=` (G:984, G:987). -/
def opShrAssignS (a : GSimd α N) (n : Int) : Option (GSimd α N) := opShrS S a n
def opShlAssignS (a : GSimd α N) (n : Int) : Option (GSimd α N) := opShlS S a n

/-- Comparison body (G:1000-1051): never undefined. -/
def cmpLift (f : α → α → Bool) (a b : GSimd α N) : GMask N :=
  GSimd.load (fun _ => false) (forRange N (fun i r => r.set i (f (a.get i) (b.get i))) (fun _ => false))
/-- `operator!` (G:991-997). -/
def opLNot (x : GSimd α N) : GMask N :=
  GSimd.load (fun _ => false) (forRange N (fun i r => r.set i (S.lnot (x.get i))) (fun _ => false))
def opEq (a b : GSimd α N) : GMask N := cmpLift S.eq a b
def opLe (a b : GSimd α N) : GMask N := cmpLift S.le a b
def opGe (a b : GSimd α N) : GMask N := cmpLift S.ge a b
def opLt (a b : GSimd α N) : GMask N := cmpLift S.lt a b
def opGt (a b : GSimd α N) : GMask N := cmpLift S.gt a b
def opNe (a b : GSimd α N) : GMask N := cmpLift S.ne a b
end arith

section masks
variable {N : Nat}

/-- A `bool` operand promoted to `int` (integral promotion). -/
def boolToInt (b : Bool) : BitVec 32 := if b then 1 else 0
/-- An `int` converted to `bool`. -/
def intToBool (x : BitVec 32) : Bool := decide (x ≠ 0)

/-- Loop storing `f i` in a `std::array<bool, N>` and constructing a mask from it. -/
def maskLoop (f : Nat → Bool) : GMask N :=
  GSimd.load (fun _ => false) (forRange N (fun i r => r.set i (f i)) (fun _ => false))

/-- mask `operator~` (G:301-307): `result[i] = ~x[i]`, the `bool` is promoted to `int`. -/
def maskNot (x : GMask N) : GMask N := maskLoop (fun i => intToBool (~~~ (boolToInt (x.get i))))
/-- mask `operator&` (G:310-316). -/
def maskAnd (a b : GMask N) : GMask N := maskLoop (fun i => a.get i && b.get i)
/-- mask `operator|` (G:319-325). -/
def maskOr (a b : GMask N) : GMask N := maskLoop (fun i => a.get i || b.get i)
/-- mask `operator^` (G:328-334): `int` xor of the promoted operands. -/
def maskXor (a b : GMask N) : GMask N := maskLoop (fun i => intToBool (boolToInt (a.get i) ^^^ boolToInt (b.get i)))
/-- unary `+` (G:338), unary `-` (G:341: `return ~x`). -/
def maskPos (x : GMask N) : GMask N := x
def maskNeg (x : GMask N) : GMask N := maskNot x
/-- `&=`, `|=`, `^=` (G:345, G:348, G:351). -/
def maskAndAssign (a b : GMask N) : GMask N := maskAnd a b
def maskOrAssign (a b : GMask N) : GMask N := maskOr a b
def maskXorAssign (a b : GMask N) : GMask N := maskXor a b
/-- `&&`, `||` (G:355-370). -/
def maskLAnd (a b : GMask N) : GMask N := maskLoop (fun i => a.get i && b.get i)
def maskLOr (a b : GMask N) : GMask N := maskLoop (fun i => a.get i || b.get i)
/-- `!` (G:374-380). -/
def maskLNot (x : GMask N) : GMask N := maskLoop (fun i => !x.get i)
/-- `==`, `!=` (G:383-398). -/
def maskEq (a b : GMask N) : GMask N := maskLoop (fun i => a.get i == b.get i)
def maskNe (a b : GMask N) : GMask N := maskLoop (fun i => a.get i != b.get i)
/-- mask `blend` (G:290-296). -/
def maskBlend (m a b : GMask N) : GMask N := maskLoop (fun i => if m.get i then a.get i else b.get i)

/-- `all_of` (G:404-410): `result &= mask[i]`. -/
def allOf (m : GMask N) : Bool := forRange N (fun i r => r && m.get i) true
/-- `any_of` (G:413-419). -/
def anyOf (m : GMask N) : Bool := forRange N (fun i r => r || m.get i) false
/-- `none_of` (G:422). -/
def noneOf (m : GMask N) : Bool := !anyOf m
/-- `some_of` (G:425-435); state is `(any_true, all_true)`. -/
def someOf (m : GMask N) : Bool :=
  let s := forRange N (fun i (s : Bool × Bool) => (s.1 || m.get i, s.2 && m.get i)) (false, true)
  s.1 && !s.2
/-- `reduce_count` (G:439-445). -/
def reduceCount (m : GMask N) : Nat := forRange N (fun i r => r + (if m.get i then 1 else 0)) 0
/-- One iteration of `if (m[i]) return i;`: a value already returned stays. -/
def returnIf (c : Bool) (i : Nat) (r : Option Nat) : Option Nat :=
  match r with
  | some k => some k
  | none => if c then some i else none
/-- `reduce_min_index` (G:448-453): early return becomes the first `some`. -/
def reduceMinIndex (m : GMask N) : Nat :=
  (forRange N (fun i r => returnIf (m.get i) i r) none).getD N
/-- `reduce_max_index` (G:456-461): downward loop. -/
def reduceMaxIndex (m : GMask N) : Nat :=
  (forRangeDown N (fun i r => returnIf (m.get i) i r) none).getD N
end masks

section misc
variable {α β : Type} {N : Nat}

/-- vector `blend` (G:687-693). -/
def blend (z : α) (m : GMask N) (a b : GSimd α N) : GSimd α N :=
  GSimd.load (fun _ => z) (forRange N (fun i r => r.set i (if m.get i then a.get i else b.get i)) (fun _ => z))

/-- `detail::reduce_impl(std::array)` (G:596-617) on the array's elements.  `N == 0` never
instantiates (`none`).  The lower half is filled with `a[i] = data[0]` (G:606-607) and the upper
half with `b[i] = data[j]` (G:608-609). -/
def reduceImpl (op : α → α → α) (data : List α) : Option α :=
  match _h : data with
  | [] => none
  | [x] => some x
  | [x, y] => some (op x y)
  | x :: _ :: _ :: _ =>
    let n := data.length
    let a := List.replicate (n / 2) x
    let b := data.drop (n / 2)
    match reduceImpl op a, reduceImpl op b with
    | some ra, some rb => some (op ra rb)
    | _, _ => none
termination_by data.length
decreasing_by
  all_goals simp_wf
  all_goals subst _h
  all_goals simp
  all_goals omega

/-- `reduce(x, op)` (G:1098, G:618-624): copy to a buffer, then `reduce_impl`. -/
def reduce (junk : Mem α) (op : α → α → α) (x : GSimd α N) : Option α :=
  reduceImpl op ((List.range N).map (x.copyTo id junk))

/-- `std::min` / `std::max` / `std::clamp` of the standard library. -/
def stdMin (lt : α → α → Bool) (a b : α) : α := if lt b a then b else a
def stdMax (lt : α → α → Bool) (a b : α) : α := if lt a b then b else a
/-- `std::clamp`: undefined if `hi < lo`. -/
def stdClamp (lt : α → α → Bool) (v lo hi : α) : Option α :=
  if lt hi lo then none else some (if lt v lo then lo else if lt hi v then hi else v)

/-- `reduce_min`, `reduce_max` (G:1102, G:1105). -/
def reduceMin (junk : Mem α) (lt : α → α → Bool) (x : GSimd α N) : Option α := reduce junk (stdMin lt) x
def reduceMax (junk : Mem α) (lt : α → α → Bool) (x : GSimd α N) : Option α := reduce junk (stdMax lt) x

/-- `min` (G:1160-1166), `max` (G:1169-1175) and their scalar forms (G:1179-1194). -/
def vmin (S : Scalar α) (a b : GSimd α N) : Option (GSimd α N) := lift2 S.zero (fun x y => some (stdMin S.lt x y)) a b
def vmax (S : Scalar α) (a b : GSimd α N) : Option (GSimd α N) := lift2 S.zero (fun x y => some (stdMax S.lt x y)) a b
def vminS (S : Scalar α) (a : GSimd α N) (b : α) : Option (GSimd α N) := liftS S.zero (fun x y => some (stdMin S.lt x y)) a b
def vmaxS (S : Scalar α) (a : GSimd α N) (b : α) : Option (GSimd α N) := liftS S.zero (fun x y => some (stdMax S.lt x y)) a b

/-- `std::minmax(T const&, T const&)` returns a pair of *references*; which of the two arguments
each refers to. -/
def stdMinmaxRefs (lt : α → α → Bool) (a b : α) : (Bool × Bool) :=
  if lt b a then (true, false) else (false, true)   -- `true` = refers to the second argument

/-- Reading through a reference: a reference to an already destroyed temporary is undefined. -/
def deref (alive : Bool) (v : α) : Option α := if alive then some v else none

/-- `minmax(a, b)` (G:1198-1208): `const auto [min, max] = std::minmax(a[i], b[i]);`.  `a`, `b` are
`const &`, so `a[i]`, `b[i]` (G:545) are prvalues: both temporaries are destroyed at the end of the
full expression, before `result[0][i] = min;`. -/
def vminmax (S : Scalar α) (a b : GSimd α N) : Option (GSimd α N × GSimd α N) :=
  (forRangeM N (fun i (r : Mem α × Mem α) =>
      let refs := stdMinmaxRefs S.lt (a.get i) (b.get i)
      let rd (second : Bool) : Option α :=
        if second then deref false (b.get i) else deref false (a.get i)
      (rd refs.1).bind fun mn => (rd refs.2).map fun mx => (r.1.set i mn, r.2.set i mx))
    (fun _ => S.zero, fun _ => S.zero)).map
  (fun r => (GSimd.load (fun _ => S.zero) r.1, GSimd.load (fun _ => S.zero) r.2))

/-- `clamp` (G:1225-1231) and its scalar form (G:1234-1240). -/
def vclamp (S : Scalar α) (x mn mx : GSimd α N) : Option (GSimd α N) :=
  (forRangeM N (fun i (r : Mem _) => (stdClamp S.lt (x.get i) (mn.get i) (mx.get i)).map (fun v => r.set i v)) (fun _ => S.zero)).map
    (fun r => GSimd.load (fun _ => S.zero) r)
def vclampS (S : Scalar α) (x : GSimd α N) (mn mx : α) : Option (GSimd α N) :=
  (forRangeM N (fun i (r : Mem _) => (stdClamp S.lt (x.get i) mn mx).map (fun v => r.set i v)) (fun _ => S.zero)).map
    (fun r => GSimd.load (fun _ => S.zero) r)

/-- `detail::copy_cast` for different types (G:108-121): through a buffer of `To`s. -/
def copyCast (conv : α → β) (junkBuf : Mem β) (frm : GSimd α N) (to : GSimd β N) : GSimd β N :=
  to.copyFrom id (frm.copyTo conv junkBuf)

/-- `simd_cast`/`static_simd_cast` (G:1131-1144): `result = {}` then copy_cast. -/
def simdCast (z : β) (conv : α → β) (x : GSimd α N) : GSimd β N := copyCast conv (fun _ => z) x ⟨fun _ => z⟩

/-- conversion operator to another generic vector/mask (G:210, G:512). -/
def convOp (junk : Mem β) (conv : α → β) (x : GSimd α N) : GSimd β N := (GSimd.uninit junk).copyFrom conv x.data
end misc

section shuffles
variable {α : Type} {N : Nat}

/-- `detail::is_sequential<Step, I, Is...>` (G:65-70): 64-bit wrap-around of `I + size_t(Step)`. -/
def isSequential (step : Nat) : Nat → List Nat → Bool
  | _, [] => false
  | i, [j] => i == j
  | i, j :: k :: ks => i == j && isSequential step ((i + step) % 2 ^ 64) (k :: ks)

/-- `detail::shuffle_impl<J, I, Is...>` (G:123-136): recursion first, then `to[J] = from[I]`;
the static_assert makes out-of-range indices ill-formed (`none`). -/
def shuffleImpl {M : Nat} (frm : GSimd α N) : Nat → List Nat → GSimd α M → Option (GSimd α M)
  | _, [], to => some to
  | J, I :: Is, to =>
    if J < M ∧ I < N then
      (shuffleImpl frm (J + 1) Is to).map (fun t => t.setAt J (frm.get I))
    else none

/-- `ext::shuffle<I, Is...>(x)` for vectors and masks (G:271-285, G:668-682); `z` value-initialises
the result.  `x[I]` in the broadcast branch requires `I < N`. -/
def shuffle (z : α) (idx : List Nat) (x : GSimd α N) : Option (GSimd α idx.length) :=
  match idx with
  | [] => none
  | I :: Is =>
    if isSequential 1 0 (I :: Is) = true ∧ (I :: Is).length = N then
      some (convOp (fun _ => z) id x |> fun (r : GSimd α N) => ⟨r.data⟩)
    else if Is = [] ∨ Is.all (· == I) then
      if I < N then some (GSimd.fill (fun _ => z) (x.get I)) else none
    else shuffleImpl x 0 (I :: Is) ⟨fun _ => z⟩
end shuffles

section constshift
/-- `lsl<N>` / `asl<N>` on one element (G:1057-1063, G:1076-1082): `x[i] << N`. -/
def lslElem (t : IntTy) (n : Nat) (x : BitVec t.bits) : Option (BitVec t.bits) := t.shlN x n

/-- the compile-time test `T{-1} >> N == T{-1}` (G:629, G:637, G:645): operands are promoted, the
comparison is on values.  Simplification: for unsigned `T` the braces make `T{-1}` a narrowing
error; we model the value `T(-1)`, what a compiler that only warns computes. -/
def minusOneKept (t : IntTy) (n : Nat) : Bool :=
  decide (t.val (BitVec.allOnes t.bits) / 2 ^ n = t.val (BitVec.allOnes t.bits))

/-- `lsr_impl` for unsigned `T` (G:626-633). -/
def lsrImplU (w : Nat) (n : Nat) (x : BitVec w) : BitVec w :=
  if minusOneKept ⟨w, false⟩ n then (x >>> n) &&& (1#w <<< (w - 1)) else x >>> n

/-- `lsr_impl` for signed `T` (G:634-641). -/
def lsrImplS (w : Nat) (n : Nat) (x : BitVec w) : BitVec w :=
  if minusOneKept ⟨w, true⟩ n then lsrImplU w n x else x.sshiftRight n

/-- `ext::lsr<N>` on one element (G:1066-1072). -/
def lsrElem (t : IntTy) (n : Nat) (x : BitVec t.bits) : BitVec t.bits :=
  if t.signed then lsrImplS t.bits n x else lsrImplU t.bits n x

/-- `asr_impl` (G:642-649) for signed `T`: `x < 0 ? ~(~x >> N) : x >> N` or `x >> N`. -/
def asrElem (w : Nat) (n : Nat) (x : BitVec w) : BitVec w :=
  if minusOneKept ⟨w, true⟩ n = false then
    (if x.toInt < 0 then ~~~ ((~~~ x).sshiftRight n) else x.sshiftRight n)
  else x.sshiftRight n

/-- `lsl`, `asl`, `lsr`, `asr` on vectors: the element loop of G:1057-1091. -/
def vlsl {N : Nat} (t : IntTy) (n : Nat) (x : GSimd (BitVec t.bits) N) : Option (GSimd (BitVec t.bits) N) :=
  lift1 0 (lslElem t n) x
def vlsr {N : Nat} (t : IntTy) (n : Nat) (x : GSimd (BitVec t.bits) N) : Option (GSimd (BitVec t.bits) N) :=
  lift1 0 (fun v => some (lsrElem t n v)) x
def vasr {N : Nat} (w n : Nat) (x : GSimd (BitVec w) N) : Option (GSimd (BitVec w) N) :=
  lift1 0 (fun v => some (asrElem w n v)) x
end constshift

end Dpm.Generic
