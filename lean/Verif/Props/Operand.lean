import Verif.Model.Operand
import Verif.Props.X86FloatExpr
import Verif.Props.ScalarProgram
/-!
C87: a scalar may stand for a vector in `v op s` and `s op v`.  `simd<T, Abi>` is constructible, implicitly, from a scalar of any arithmetic type,
with the value in every element; a user expects the operators to accept what the constructor accepts, with that meaning.
-/
namespace Dpm.Operand
open Dpm Dpm.Reg Dpm.Generic Dpm.X86

/-- Which scalar operands the operators accept, on vectors of either backend.  Scalar on the right: only one of exactly the element type - not one
that converts to it, not even a type of the same representation - and not in comparisons; shift counts may have any integral type. -/
def Accepts (o : Op) (t S : CTy) : Prop :=
  (S = t ∧ o.isCmp = false ∧ o.isShift = false ∧ o.valid t = true) ∨ (o.isShift = true ∧ t.integral = true ∧ S.integral = true)
/-- C87: `v o s` compiles exactly if `Accepts`. -/
theorem C87_compiles_iff (o : Op) (t S : CTy) (x86 : Bool) : (resolve o (.vec t x86) (.scl S)).isSome = true ↔ Accepts o t S := by
  unfold Accepts
  cases o with
  | cmp q => cases x86 <;> simp [resolve, xSigs, genericSigs, Sig.viable, Par.deduce, Op.isCmp, Op.isShift]
  | _ => cases x86 <;> cases t <;> cases S <;> decide
/-- C87 is violated: no operator accepts a scalar on the left. -/
theorem C87_left_violated (o : Op) (t S : CTy) (x86 : Bool) : resolve o (.scl S) (.vec t x86) = none := by
  cases o with
  | cmp q => cases x86 <;> rfl
  | _ => cases x86 <;> rfl

section x86
variable (fp : FpOps) {s : ISA} {t : CTy} {N : Nat} {v : VSz}
/-- C87 is violated: whatever the scalar, `s o v` and comparisons `v == s`, ... do not compile, and other operators than shifts do not with a scalar
of another type than the element type. -/
theorem C87_violated (o : Op) (a : (cfgOf s t N v).Data) (S : CTy) (x : BitVec S.ety.w) :
    apply fp s t N v o (.scl S x) (.vec a) = .illFormed ∧
    (o.isCmp = true → apply fp s t N v o (.vec a) (.scl S x) = .illFormed) ∧
    (S ≠ t → o.isShift = false → apply fp s t N v o (.vec a) (.scl S x) = .illFormed) := by
  have none_of : ¬ Accepts o t S → apply fp s t N v o (.vec a) (.scl S x) = .illFormed := by
    intro h
    have h0 : resolve o (.vec t true) (.scl S) = none := by
      cases hr : resolve o (.vec t true) (.scl S) with
      | none => rfl
      | some g => exact absurd ((C87_compiles_iff o t S true).1 (by rw [hr]; rfl)) h
    unfold apply; simp only [Operand.arg, h0]
  refine ⟨?_, fun hc => none_of ?_, fun hS ho => none_of ?_⟩
  · unfold apply; simp only [Operand.arg, C87_left_violated]
  · rintro (⟨-, h, -⟩ | ⟨h, -⟩)
    · rw [hc] at h; cases h
    · cases o <;> first | (cases h; done) | (cases hc; done)
  · rintro (⟨h, -⟩ | ⟨h, -⟩)
    · exact hS h
    · rw [ho] at h; cases h

theorem resolve_same {o : Op} (hv : o.valid t = true) (hc : o.isCmp = false) :
    ∃ g, resolve o (.vec t true) (.scl t) = some g ∧ g.p2 = .elem := by
  cases o with
  | cmp q => cases hc
  | _ => cases t <;> first | (cases hv; done) | exact ⟨_, rfl, rfl⟩
theorem apply_same {o : Op} (hv : o.valid t = true) (hc : o.isCmp = false) (a : (cfgOf s t N v).Data) (x : BitVec t.ety.w) :
    apply fp s t N v o (.vec a) (.scl t x) = runVS fp (cfgOf s t N v) o a x := by
  obtain ⟨g, hg, h2⟩ := resolve_same hv hc
  unfold apply
  simp only [Operand.arg, hg, h2]
  rw [BitVec.setWidth_eq]
theorem resolve_other {o : Op} {S : CTy} (hs : o.isShift = true) (ht : t.integral = true) (hS : S.integral = true) (hne : S ≠ t) :
    ∃ g, resolve o (.vec t true) (.scl S) = some g ∧ g.p2 = .int := by
  cases o <;> first | (cases hs; done) | skip
  all_goals
    cases t <;> first | (cases ht; done) | skip
    all_goals cases S <;> first | (cases hS; done) | exact absurd rfl hne | exact ⟨_, rfl, rfl⟩
theorem apply_other {o : Op} {S : CTy} (hs : o.isShift = true) (ht : t.integral = true) (hS : S.integral = true) (hne : S ≠ t)
    (a : (cfgOf s t N v).Data) (x : BitVec S.ety.w) :
    apply fp s t N v o (.vec a) (.scl S x) = runShift (cfgOf s t N v) o a (S.val x) := by
  obtain ⟨g, hg, h2⟩ := resolve_other hs ht hS hne
  unfold apply
  simp only [Operand.arg, hg, h2]

/-- the operators on integers, as C++ defines them on two scalars of type `t`; `none`: undefined or no such operator here -/
def scalarOp (t : CTy) : Op → BitVec t.ety.w → BitVec t.ety.w → Option (BitVec t.ety.w)
  | .add => t.ety.ity.add | .sub => t.ety.ity.sub | .mul => t.ety.ity.mul | .div => t.ety.ity.div | .rem => t.ety.ity.rem
  | .band => t.ety.ity.band | .bor => t.ety.ity.bor | .bxor => t.ety.ity.bxor | .shl => t.ety.ity.shl | .shr => t.ety.ity.shr
  | .vmin => fun x y => some (Scalar1.smaller t.ety.ity x y)
  | .vmax => fun x y => some (Scalar1.larger t.ety.ity x y)
  | .cmp _ => fun _ _ => none
/-- The operators that work with a scalar of the element type: `+`, `-`, `&`, `|`, `^` always; the others where the x86 code has an instruction for
them, else (the element loop) for sizes that are a multiple of the native extent. -/
def Supported (c : Cfg) : Op → Prop
  | .add | .sub | .band | .bor | .bxor => True
  | .mul => mulNative c = true ∨ c.N % c.e = 0
  | .div | .rem => c.N % c.e = 0
  | .shl | .shr => shiftNative c = true ∨ c.N % c.e = 0
  | .vmin | .vmax => supMin c
  | .cmp _ => False
/-- C87, integers, `v o s` with a scalar of exactly the element type: each element holds the C++ operator applied to the element and the scalar.
Missing: the operators that are not `Supported` (C87_same_type_violated), and `>>` of signed 64-bit elements with SSE4.1, which is wrong (C24). -/
theorem C87_same_type_partial (hc : (cfgOf s t N v).Ok) (ht : t.integral = true) {o : Op} (ho : Supported (cfgOf s t N v) o)
    (hr : o = .shr → ¬ (shiftNative (cfgOf s t N v) = true ∧ t.ety.signed = true)) (a : (cfgOf s t N v).Data) (x : BitVec t.ety.w) :
    YieldsIfDefined (cfgOf s t N v) (apply fp s t N v o (.vec a) (.scl t x)) (fun i => scalarOp t o (elt (cfgOf s t N v) a i) x) := by
  have hint : (cfgOf s t N v).T.flt = false := by cases t <;> first | rfl | cases ht
  have hv : o.valid t = true := by cases o <;> first | rfl | exact ht
  have hcmp : o.isCmp = false := by cases o <;> first | rfl | exact ho.elim
  rw [apply_same fp hv hcmp]
  have bS : ∀ b : BinS, supBinS (cfgOf s t N v) b → ¬ badBinS (cfgOf s t N v) b →
      YieldsIfDefined (cfgOf s t N v) (xBinS fp (cfgOf s t N v) b a x) (fun i => Scalar1.binS t.ety.ity b (elt (cfgOf s t N v) a i) x) := by
    intro b h1 h2
    have := xBinS_ok fp hc hint h1 h2 a x
    simpa only [X86.binS_eq] using this
  cases o with
  | add => exact bS .add trivial id
  | sub => exact bS .sub trivial id
  | mul => exact bS .mul ho id
  | div => exact (C51_scalar_partial fp hc hint ho a x).1
  | rem => exact (C51_scalar_partial fp hc hint ho a x).2
  | band => exact bS .band trivial id
  | bor => exact bS .bor trivial id
  | bxor => exact bS .bxor trivial id
  | shl => exact bS .shl ho id
  | shr => exact bS .shr ho (hr rfl)
  | vmin => exact bS .vmin ho id
  | vmax => exact bS .vmax ho id
  | cmp q => exact ho.elim
/-- C87 is violated: the operators that are not `Supported` give no result, whatever the operands: they do not compile or are undefined. -/
theorem C87_same_type_violated (hc : (cfgOf s t N v).Ok) (ht : t.integral = true) {o : Op} (ho : ¬ Supported (cfgOf s t N v) o)
    (a r : (cfgOf s t N v).Data) (x : BitVec t.ety.w) : apply fp s t N v o (.vec a) (.scl t x) ≠ .ok r := by
  have hint : (cfgOf s t N v).T.flt = false := by cases t <;> first | rfl | cases ht
  have hv : o.valid t = true := by cases o <;> first | rfl | exact ht
  by_cases hcmp : o.isCmp = true
  · rw [(C87_violated fp o a t x).2.1 hcmp]; intro h; cases h
  rw [apply_same fp hv (by simpa using hcmp)]
  cases o with
  | add => exact absurd trivial ho
  | sub => exact absurd trivial ho
  | mul => exact xBinS_unavailable fp hc hint (o := .mul) ho a x r
  | div => rw [show runVS fp (cfgOf s t N v) .div a x = opDivS fp _ a x from rfl, (C51_scalar_violated fp hc hint ho a x).1]; simp
  | rem => rw [show runVS fp (cfgOf s t N v) .rem a x = opRemS _ a x from rfl, (C51_scalar_violated fp hc hint ho a x).2]; simp
  | band => exact absurd trivial ho
  | bor => exact absurd trivial ho
  | bxor => exact absurd trivial ho
  | shl => exact xBinS_unavailable fp hc hint (o := .shl) ho a x r
  | shr => exact xBinS_unavailable fp hc hint (o := .shr) ho a x r
  | vmin => exact xBinS_unavailable fp hc hint (o := .vmin) ho a x r
  | vmax => exact xBinS_unavailable fp hc hint (o := .vmax) ho a x r
  | cmp q => exact absurd rfl hcmp

theorem apply_vectors {o : Op} (hv : o.valid t = true) (a b : (cfgOf s t N v).Data) :
    apply fp s t N v o (.vec a) (.vec b) = runVV fp (cfgOf s t N v) o a b := by
  have : ∃ g, resolve o (.vec t true) (.vec t true) = some g ∧ (g.p2 = .simd ∨ g.p2 = .xsimd) := by
    cases o with
    | cmp q => exact ⟨⟨.xsimd, .xsimd, xNeed (.cmp q)⟩, by simp [resolve, xSigs, Op.isCmp, Sig.viable, Par.deduce, xNeed], .inr rfl⟩
    | _ => cases t <;> first | (cases hv; done) | exact ⟨_, rfl, .inr rfl⟩ | exact ⟨_, rfl, .inl rfl⟩
  obtain ⟨g, hg, -⟩ := this
  unfold apply
  simp only [Operand.arg, hg]
/-- What does work for comparisons, and on either side: the scalar written as a vector, `v == simd<T>(s)`, where the comparison of vectors works
(`supCmp`: ordered comparisons of integers need SSE4.1 and signed elements, C22). -/
theorem C87_broadcast_compare_partial (hc : (cfgOf s t N v).Ok) (q : Cmp) (hq : t.integral = true → supCmp (cfgOf s t N v) q)
    (a junk : (cfgOf s t N v).Data) (x : BitVec t.ety.w) :
    YieldsMask (cfgOf s t N v) (apply fp s t N v (.cmp q) (.vec a) (.vec (vbroadcast (cfgOf s t N v) x junk)))
      (fun i => if t.integral then Scalar1.cmp t.ety.ity q (elt (cfgOf s t N v) a i) x else sfCmp q (elt (cfgOf s t N v) a i) x) ∧
    YieldsMask (cfgOf s t N v) (apply fp s t N v (.cmp q) (.vec (vbroadcast (cfgOf s t N v) x junk)) (.vec a))
      (fun i => if t.integral then Scalar1.cmp t.ety.ity q x (elt (cfgOf s t N v) a i) else sfCmp q x (elt (cfgOf s t N v) a i)) := by
  rw [apply_vectors fp rfl, apply_vectors fp rfl]
  have e : ∀ i, i < N → elt (cfgOf s t N v) (vbroadcast (cfgOf s t N v) x junk) i = x := fun i hi => elt_vbroadcast hc x junk hi
  cases ht : t.integral with
  | true =>
    have hint : (cfgOf s t N v).T.flt = false := by cases t <;> first | rfl | cases ht
    obtain ⟨r, hr, h⟩ := xCmp_ok hc hint (hq ht) a (vbroadcast (cfgOf s t N v) x junk)
    obtain ⟨r', hr', h'⟩ := xCmp_ok hc hint (hq ht) (vbroadcast (cfgOf s t N v) x junk) a
    refine ⟨⟨r, hr, fun i hi => ?_⟩, ⟨r', hr', fun i hi => ?_⟩⟩
    · have := h i hi
      dsimp only at this
      rw [e i hi, X86.cmp_eq] at this; exact this
    · have := h' i hi
      dsimp only at this
      rw [e i hi, X86.cmp_eq] at this; exact this
  | false =>
    have hf : (cfgOf s t N v).T.flt = true := by cases t <;> first | rfl | cases ht
    obtain ⟨r, hr, h⟩ := xfCmp_ok hc hf q a (vbroadcast (cfgOf s t N v) x junk)
    obtain ⟨r', hr', h'⟩ := xfCmp_ok hc hf q (vbroadcast (cfgOf s t N v) x junk) a
    refine ⟨⟨r, hr, fun i hi => ?_⟩, ⟨r', hr', fun i hi => ?_⟩⟩
    · have := h i hi
      dsimp only at this
      rw [e i hi] at this; exact this
    · have := h' i hi
      dsimp only at this
      rw [e i hi] at this; exact this

/-- the operators on floating-point numbers, IEEE 754 to nearest; `none`: no such operator here -/
def scalarOpF (w : Nat) : Op → BitVec w → BitVec w → Option (BitVec w)
  | .add => fun x y => some (Fp.fadd x y) | .sub => fun x y => some (Fp.fsub x y)
  | .mul => fun x y => some (Fp.fmul x y) | .div => fun x y => some (Fp.fdiv x y)
  | .vmin => fun x y => some (if Fp.lt y x then y else x) | .vmax => fun x y => some (if Fp.lt x y then y else x)
  | _ => fun _ _ => none
/-- C87, floating point, `v o s` with a scalar of exactly the element type; the arguments of `min` and `max` have to be comparable. -/
theorem C87_same_type_float_partial (hc : (cfgOf s t N v).Ok) (ht : t.integral = false) {o : Op} (ho : o.isCmp = false) (hv : o.valid t = true)
    (a : (cfgOf s t N v).Data) (x : BitVec t.ety.w)
    (hk : o = .vmin ∨ o = .vmax → ∀ i, i < N → Comparable (elt (cfgOf s t N v) a i) x) :
    YieldsIfDefined (cfgOf s t N v) (apply ieee s t N v o (.vec a) (.scl t x)) (fun i => scalarOpF t.ety.w o (elt (cfgOf s t N v) a i) x) := by
  have hf : (cfgOf s t N v).T.flt = true := by cases t <;> first | rfl | cases ht
  rw [apply_same ieee hv ho]
  have key : ∀ b : FBin, (b.isOrd → ∀ i, i < N → Comparable (elt (cfgOf s t N v) a i) x) →
      ∃ r, xfBinS (cfgOf s t N v) b a x = .ok r ∧ ∀ i, i < N → some (sfBin b (elt (cfgOf s t N v) a i) x) = some (elt (cfgOf s t N v) r i) := by
    intro b hb
    obtain ⟨r, hr, h⟩ := xfBinS_ok hc hf b a x hb
    exact ⟨r, hr, fun i hi => congrArg some (h i hi).symm⟩
  intro _
  cases o with
  | add => exact key .add (fun h => h.elim)
  | sub => exact key .sub (fun h => h.elim)
  | mul => exact key .mul (fun h => h.elim)
  | div => exact key .div (fun h => h.elim)
  | vmin => exact key .vmin (fun _ => hk (.inl rfl))
  | vmax => exact key .vmax (fun _ => hk (.inr rfl))
  | cmp q => cases ho
  | rem => rw [show Op.valid .rem t = t.integral from rfl, ht] at hv; cases hv
  | band => rw [show Op.valid .band t = t.integral from rfl, ht] at hv; cases hv
  | bor => rw [show Op.valid .bor t = t.integral from rfl, ht] at hv; cases hv
  | bxor => rw [show Op.valid .bxor t = t.integral from rfl, ht] at hv; cases hv
  | shl => rw [show Op.valid .shl t = t.integral from rfl, ht] at hv; cases hv
  | shr => rw [show Op.valid .shr t = t.integral from rfl, ht] at hv; cases hv

/-- the shifts of an element by a count of any integral type -/
def scalarShift (t : CTy) (o : Op) (y : BitVec t.ety.w) (n : Int) : Option (BitVec t.ety.w) :=
  if o = .shl then t.ety.ity.shlN y n else t.ety.ity.shrN y n
/-- C87, shifts by a count of another integral type (`v << 1` on elements that are not `int`): the scalar shift of each element by that count, for
sizes that are a multiple of the native extent. -/
theorem C87_count_partial (hc : (cfgOf s t N v).Ok) (hN : N % (cfgOf s t N v).e = 0) {o : Op} {S : CTy} (hs : o.isShift = true)
    (ht : t.integral = true) (hS : S.integral = true) (hne : S ≠ t) (a : (cfgOf s t N v).Data) (x : BitVec S.ety.w) :
    YieldsIfDefined (cfgOf s t N v) (apply fp s t N v o (.vec a) (.scl S x))
      (fun i => scalarShift t o (elt (cfgOf s t N v) a i) (S.ety.ity.val x)) := by
  rw [apply_other fp hs ht hS hne]
  unfold runShift scalarShift
  cases o with
  | shl => exact template1_ok hc hN _ a
  | shr => exact template1_ok hc hN _ a
  | _ => cases hs
/-- C87 is violated: for the other sizes a shift by a count of another integral type is undefined, whatever the elements, the count and the
instruction set (a read past the end of an array). -/
theorem C87_count_violated (hc : (cfgOf s t N v).Ok) (hN : N % (cfgOf s t N v).e ≠ 0) {o : Op} {S : CTy} (hs : o.isShift = true)
    (ht : t.integral = true) (hS : S.integral = true) (hne : S ≠ t) (a : (cfgOf s t N v).Data) (x : BitVec S.ety.w) :
    apply fp s t N v o (.vec a) (.scl S x) = .ub := by
  rw [apply_other fp hs ht hS hne]
  unfold runShift
  cases o with
  | shl => exact template1_ub hc hN _ a
  | shr => exact template1_ub hc hN _ a
  | _ => cases hs
/-- Where the element type has a native shift, a count of the element type avoids that: `v << std::uint64_t{n}` is defined for every size. -/
theorem C87_native_count (hc : (cfgOf s t N v).Ok) (ht : t.integral = true) (hn : shiftNative (cfgOf s t N v) = true)
    (a : (cfgOf s t N v).Data) (x : BitVec t.ety.w) :
    YieldsIfDefined (cfgOf s t N v) (apply fp s t N v .shl (.vec a) (.scl t x)) (fun i => t.ety.ity.shl (elt (cfgOf s t N v) a i) x) := by
  rw [apply_same fp (o := .shl) ht rfl]
  exact (C24_shl_partial hc a a x (.inl hn)).2
end x86

/-- C87 is violated: the type of the count decides between right and wrong.  Four `long` elements -1 under AVX2: `v >> 1` is -1 in each,
`v >> 1l` is `2^63 - 1`. -/
theorem C87_count_type_violated (fp : FpOps) :
    let a := vbroadcast (cfgOf .avx2L .long 4 .v256) (-1) (zeroData (cfgOf .avx2L .long 4 .v256))
    (∃ r, apply fp .avx2L .long 4 .v256 .shr (.vec a) (.scl .int 1) = .ok r ∧ ∀ i, i < 4 → elt (cfgOf .avx2L .long 4 .v256) r i = -1) ∧
    (∃ r, apply fp .avx2L .long 4 .v256 .shr (.vec a) (.scl .long 1) = .ok r ∧ elt (cfgOf .avx2L .long 4 .v256) r 0 = 0x7fffffffffffffff) := by
  intro a
  have e : ∀ i, i < 4 → elt exI64 a i = -1 := fun i hi => elt_vbroadcast exI64_ok (-1) (zeroData exI64) hi
  have hc : (cfgOf .avx2L .long 4 .v256).Ok := exI64_ok
  constructor
  · obtain ⟨r, hr, h⟩ := C87_count_partial fp hc (by decide) (o := .shr) (S := .int) rfl rfl rfl (by decide) a 1 (fun i hi => by
      dsimp only; rw [show elt (cfgOf .avx2L .long 4 .v256) a i = -1 from e i hi]; decide)
    refine ⟨r, hr, fun i hi => ?_⟩
    have := h i hi
    dsimp only at this
    rw [show elt (cfgOf .avx2L .long 4 .v256) a i = -1 from e i hi] at this
    exact (Option.some.inj ((show some (-1 : BitVec 64) = scalarShift .long .shr (-1) 1 from (by decide : some (-1 : BitVec 64) = IntTy.shrN ⟨64, true⟩ (-1) 1)).trans this)).symm
  · refine ⟨_, apply_same fp rfl rfl a 1, ?_⟩
    refine (elt_vec1 hc _ _ _ (by decide)).trans ?_
    refine (shrV64_lane exI64.s exI64.v (a (0 / exI64.e)) (fillV exI64.v 1) (i := 0) (by decide)).trans ?_
    have e1 : lane 64 (a (0 / exI64.e)) 0 = -1#64 := e 0 (by decide)
    have e2 : lane 64 (fillV exI64.v (1 : BitVec 64)) 0 = 1#64 := fillV_lane exI64_ok.ety (1 : BitVec 64) (i := 0) (by decide)
    exact (congrArg₂ (fun (p q : BitVec 64) => p >>> q.toNat) e1 e2).trans (by decide : ((-1#64) >>> (1#64).toNat : BitVec 64) = 0x7fffffffffffffff#64)

/-- The hypotheses are met: `v + 1` on eight `unsigned short` does not compile, `v + std::uint16_t{1}` adds 1 to each, `v << 1` doubles each;
`v + 1ll` on `long` does not compile either. -/
example (fp : FpOps) :
    let a := vbroadcast exU16 7 (zeroData exU16)
    apply fp .sse2L .ushort 8 .v128 .add (.vec a) (.scl .int 1) = .illFormed ∧
    (∃ r, apply fp .sse2L .ushort 8 .v128 .add (.vec a) (.scl .ushort 1) = .ok r ∧ elt exU16 r 3 = 8) ∧
    (∃ r, apply fp .sse2L .ushort 8 .v128 .shl (.vec a) (.scl .int 1) = .ok r ∧ elt exU16 r 3 = 14) ∧
    ¬ Accepts .add .long .llong := by
  intro a
  have e : ∀ i, i < 8 → elt (cfgOf .sse2L .ushort 8 .v128) a i = 7 := fun i hi => elt_vbroadcast exU16_ok 7 (zeroData exU16) hi
  have hc : (cfgOf .sse2L .ushort 8 .v128).Ok := exU16_ok
  refine ⟨(C87_violated fp .add a .int 1).2.2 (by decide) rfl, ?_, ?_, ?_⟩
  · obtain ⟨r, hr, h⟩ := C87_same_type_partial fp hc rfl (o := .add) trivial (by intro h; cases h) a 1
      (fun i hi => by dsimp only; rw [e i hi]; decide)
    refine ⟨r, hr, ?_⟩
    have := h 3 (by decide)
    dsimp only at this
    rw [e 3 (by decide)] at this
    exact (Option.some.inj ((show some (8 : BitVec 16) = scalarOp .ushort .add 7 1 from (by decide : some (8 : BitVec 16) = IntTy.add ⟨16, false⟩ 7 1)).trans this)).symm
  · obtain ⟨r, hr, h⟩ := C87_count_partial fp hc (by decide) (o := .shl) (S := .int) rfl rfl rfl (by decide) a 1 (fun i hi => by
      dsimp only; rw [e i hi]; decide)
    refine ⟨r, hr, ?_⟩
    have := h 3 (by decide)
    dsimp only at this
    rw [e 3 (by decide)] at this
    exact (Option.some.inj ((show some (14 : BitVec 16) = scalarShift .ushort .shl 7 1 from (by decide : some (14 : BitVec 16) = IntTy.shlN ⟨16, false⟩ 7 1)).trans this)).symm
  · rintro (⟨h, -⟩ | ⟨h, -⟩) <;> cases h
/-- `v / 3.0` on two doubles: nothing is required of the elements. -/
example (a : (cfgOf .sse2L .double 2 .v128).Data) (x : BitVec 64) :
    ∃ r, apply ieee .sse2L .double 2 .v128 .div (.vec a) (.scl .double x) = .ok r ∧
      ∀ i, i < 2 → some (Fp.fdiv (elt (cfgOf .sse2L .double 2 .v128) a i) x) = some (elt (cfgOf .sse2L .double 2 .v128) r i) :=
  C87_same_type_float_partial ⟨by decide, by decide, by decide, by decide, by decide⟩ rfl (o := .div) rfl rfl a x
    (by rintro (h | h) <;> cases h) (fun i _ => by simp [scalarOpF])
/-- Six `unsigned` elements on SSE2 (two registers, one half used): `v << 1` is undefined. -/
example (fp : FpOps) (a : exU32p.Data) :
    apply fp .sse2L .uint 6 .v128 .shl (.vec a) (.scl .int 1) = .ub :=
  C87_count_violated fp (t := .uint) (by exact exU32p_ok) (by decide) (o := .shl) rfl rfl rfl (by decide) a 1
/-- Six `unsigned` elements on SSE2: `v + 3u` is supported, `v * 3u` is not. -/
example (fp : FpOps) (a r : exU32p.Data) (x : BitVec 32) :
    apply fp .sse2L .uint 6 .v128 .mul (.vec a) (.scl .uint x) ≠ .ok r ∧ Supported (cfgOf .sse2L .uint 6 .v128) .add :=
  ⟨C87_same_type_violated fp (t := .uint) (by exact exU32p_ok) rfl (o := .mul) (by unfold Supported; decide) a r x, trivial⟩
/-- `v == simd<float>(0.0f)`: nothing is required. -/
example (fp : FpOps) (a junk : (cfgOf .sse2L .float 4 .v128).Data) :
    YieldsMask (cfgOf .sse2L .float 4 .v128)
      (apply fp .sse2L .float 4 .v128 (.cmp .eq) (.vec a) (.vec (vbroadcast (cfgOf .sse2L .float 4 .v128) 0 junk)))
      (fun i => Fp.eq (elt (cfgOf .sse2L .float 4 .v128) a i) 0) :=
  (C87_broadcast_compare_partial fp (t := .float) ⟨by decide, by decide, by decide, by decide, by decide⟩ .eq (fun h => by cases h) a junk 0).1
end Dpm.Operand
