import Verif.Model.GenericMath
import Verif.Props.Generic
import Verif.Proofs.Vector
import Verif.Spec.Calls
import Verif.Spec.Fma
import Verif.Spec.FltScalar
import Verif.Props.X86Float
import Verif.Proofs.Conv
/-
Property C58: the platform-independent math functions apply the `<cmath>` function of the same name to every element.
-/
namespace Dpm.GenericMath
open Dpm Dpm.Generic Dpm.X86 Dpm.Spec

/-! ### Specification -/
/-- The call compiles, is defined, and lane `i` of the result is `f i`, for every lane. -/
def EachLane {α : Type} {N : Nat} (out : Out (GSimd α N)) (f : Nat → α) : Prop :=
  ∃ r, out = .ok r ∧ ∀ i, i < N → r.get i = f i
/-- The call compiles; it is undefined iff `f i` is for some lane, and otherwise lane `i` is `f i`. -/
def EachLaneIfDefined {α : Type} {N : Nat} (out : Out (GSimd α N)) (f : Nat → Option α) : Prop :=
  ((∃ i, i < N ∧ f i = none) ∧ out = .ub) ∨
  ∃ r, out = .ok r ∧ ∀ i, i < N → f i = some (r.get i)
/-- A call on vectors of arbitrary element types returns a vector of `double` whose lanes are given. -/
def ReturnsDouble {N : Nat} (out : Out (AnyVec N)) (f : Nat → BitVec 64) : Prop :=
  ∃ r : GSimd (BitVec 64) N, out = .ok ⟨.f64, r⟩ ∧ ∀ i, i < N → r.get i = f i

/-! ### Lemmas -/
theorem core_ifdef {γ : Type} {N : Nat} (z : γ) (f : Nat → Option γ) :
    EachLaneIfDefined (Out.ofUb ((forRangeM N (fun i (r : Mem γ) => (f i).map (fun v => r.set i v)) (fun _ => z)).map
      (fun r => GSimd.load (N := N) (fun _ => z) r))) f := by
  obtain ⟨h1, h2⟩ := lift_core (N := N) z f
  revert h1 h2
  generalize (forRangeM N (fun i (r : Mem γ) => (f i).map (fun v => r.set i v)) (fun _ => z)).map
      (fun r => GSimd.load (N := N) (fun _ => z) r) = out
  intro h1 h2
  cases out with
  | none => exact .inl ⟨h1.1 rfl, rfl⟩
  | some r => exact .inr ⟨r, rfl, h2 r.get rfl⟩

theorem core_total {γ : Type} {N : Nat} (z : γ) (f : Nat → γ) :
    EachLane (Out.ofUb ((forRangeM N (fun i (r : Mem γ) => (some (f i)).map (fun v => r.set i v)) (fun _ => z)).map
      (fun r => GSimd.load (N := N) (fun _ => z) r))) f := by
  rcases core_ifdef (N := N) z (fun i => some (f i)) with ⟨⟨i, _, h⟩, _⟩ | ⟨r, h, hr⟩
  · simp at h
  · exact ⟨r, h, fun i hi => (Option.some.inj (hr i hi)).symm⟩

theorem store_ifdef {w k N : Nat} (f : BitVec w → Option (BitVec k)) (x : GSimd (BitVec w) N) :
    EachLaneIfDefined (Out.ofUb (storeLoop f x)) (fun i => f (x.get i)) := by
  have e : storeLoop f x = (forRangeM N (fun i (r : Mem (BitVec k)) => (f (x.get i)).map (fun v => r.set i v)) (fun _ => 0)).map
      (fun r => (⟨r⟩ : GSimd (BitVec k) N)) := by
    unfold storeLoop
    have gen : ∀ n (m : Mem (BitVec k)),
        forRangeM n (fun i (r : GSimd (BitVec k) N) => (f (x.get i)).map (fun v => r.setAt i v)) ⟨m⟩ =
        (forRangeM n (fun i (r : Mem (BitVec k)) => (f (x.get i)).map (fun v => r.set i v)) m).map
          (fun r => (⟨r⟩ : GSimd (BitVec k) N)) := by
      intro n m
      induction n with
      | zero => rfl
      | succ n ih =>
        simp only [forRangeM]
        rw [ih]
        cases forRangeM n (fun i (r : Mem (BitVec k)) => (f (x.get i)).map (fun v => r.set i v)) m with
        | none => rfl
        | some r =>
          simp only [Option.map_some, Option.bind_some]
          cases f (x.get n) <;> rfl
    exact gen N _
  obtain ⟨h1, h2⟩ := forRangeM_store N (fun i => f (x.get i)) (fun _ => (0 : BitVec k))
  rw [e]
  revert h1 h2
  generalize forRangeM N (fun i (r : Mem (BitVec k)) => (f (x.get i)).map (fun v => r.set i v)) (fun _ => 0) = out
  intro h1 h2
  cases out with
  | none => exact .inl ⟨h1.1 rfl, rfl⟩
  | some r => exact .inr ⟨⟨r⟩, rfl, fun i hi => (h2 r rfl).1 i hi⟩

theorem store_total {w k N : Nat} (f : BitVec w → BitVec k) (x : GSimd (BitVec w) N) :
    EachLane (Out.ofUb (storeLoop (fun v => some (f v)) x)) (fun i => f (x.get i)) := by
  rcases store_ifdef (fun v => some (f v)) x with ⟨⟨i, _, h⟩, _⟩ | ⟨r, h, hr⟩
  · simp at h
  · exact ⟨r, h, fun i hi => (Option.some.inj (hr i hi)).symm⟩

theorem maskLoop_get {N : Nat} (f : Nat → Bool) {i : Nat} (h : i < N) : (maskLoop (N := N) f).get i = f i := by
  rw [maskLoop, load_get _ _ h, forRange_store]; simp [h]

theorem promote_get {N : Nat} (e : El) (x : GSimd e.Rep N) {i : Nat} (h : i < N) :
    (promote e x).get i = toDouble e (x.get i) := by
  simp [promote, convOp, GSimd.copyFrom, GSimd.get, GSimd.uninit, forRange_store, h]

theorem fits_val (t : IntTy) (hb : 0 < t.bits) (r : BitVec t.bits) : t.fits (t.val r) = true := by
  obtain ⟨b, g⟩ := t
  cases g
  · simp [IntTy.fits, IntTy.val, r.isLt]
    exact_mod_cast r.isLt
  · have h1 := BitVec.toInt_lt (x := r)
    have h2 := BitVec.le_toInt (x := r)
    simp [IntTy.fits, IntTy.val]
    exact ⟨h2, h1⟩
/-- C58 (the conversions used below): `fpToIty t v` and `fpToInt k v` are C++'s conversion of a floating-point value to an integer type: the
result `r` is *the* integer of the type that `v` truncates to, and there is none (undefined behaviour) exactly when `v` is not finite or
no integer of the type is the truncated value. -/
theorem C58_static_cast {w : Nat} (t : IntTy) (hb : 0 < t.bits) (v : BitVec w) (r : BitVec t.bits) :
    fpToIty t v = some r ↔ Fp.isFinite v = true ∧ Fp.IsTrunc (Fp.val v) (2 ^ Fp.unitExp w : Nat) (t.val r) := by
  have hD : (0 : Int) < (2 ^ Fp.unitExp w : Nat) := by exact_mod_cast Nat.two_pow_pos _
  unfold fpToIty
  constructor
  · intro h
    split at h
    · rename_i hc
      cases h
      exact ⟨hc.1, by rw [X86.val_of_fits t hb hc.2]; exact Fp.toInt_trunc v⟩
    · cases h
  · rintro ⟨hf, ht⟩
    have e := Fp.isTrunc_unique hD ht (Fp.toInt_trunc v)
    rw [if_pos ⟨hf, by rw [← e]; exact fits_val t hb r⟩, ← e, X86.ofInt_val]
theorem C58_static_cast_signed {w k : Nat} (hb : 0 < k) (v : BitVec w) (r : BitVec k) :
    fpToInt k v = some r ↔ Fp.isFinite v = true ∧ Fp.IsTrunc (Fp.val v) (2 ^ Fp.unitExp w : Nat) r.toInt :=
  C58_static_cast ⟨k, true⟩ hb v r

section
variable {w N : Nat} (L : Cmath w) (x a b c : GSimd (BitVec w) N) (s : BitVec w)

/-! ### C58 -/
/-- C58 (unary functions): for vectors of a floating-point type, every unary function but `fabs` and `rint` (see
below) yields in every lane the result of the `<cmath>` function of the same name on that lane's element. -/
theorem C58_unary (f : Fn1) (hf : f ≠ .fabs ∧ f ≠ .rint) : EachLane (gFn1 L f x) (fun i => L.fn1 f (x.get i)) := by
  cases f <;> first
    | exact absurd rfl hf.1
    | exact absurd rfl hf.2
    | exact core_total 0#w (fun i => L.fn1 _ (x.get i))

/-- C58 (binary functions on two vectors of one floating-point type). -/
theorem C58_binary (f : Fn2) : EachLane (gFn2 L f a b) (fun i => L.fn2 f (a.get i) (b.get i)) := by
  cases f <;> exact core_total 0#w (fun i => L.fn2 _ (a.get i) (b.get i))

/-- C58 (binary functions on a vector and a scalar): `fmod`, `remainder`, `fmax`, `fdim`, `pow`, `copysign`. -/
theorem C58_binary_scalar (f : Fn2) (hf : f = .fmod ∨ f = .remainder ∨ f = .fmax ∨ f = .fdim ∨ f = .pow ∨ f = .copysign) :
    EachLane (gFn2S L f a s) (fun i => L.fn2 f (a.get i) s) := by
  rcases hf with h | h | h | h | h | h <;> subst h <;> exact core_total 0#w (fun i => L.fn2 _ (a.get i) s)

/-- C58 (linear interpolation), with a vector and with a scalar factor. -/
theorem C58_lerp : EachLane (gLerp L a b c) (fun i => L.lerp (a.get i) (b.get i) (c.get i)) ∧
    EachLane (gLerpS L a b s) (fun i => L.lerp (a.get i) (b.get i) s) :=
  ⟨core_total 0#w (fun i => L.lerp (a.get i) (b.get i) (c.get i)), core_total 0#w (fun i => L.lerp (a.get i) (b.get i) s)⟩

/-- C58 (classification and quiet comparisons): lane `i` of the mask is the `<cmath>` predicate on lane `i`. -/
theorem C58_masks (p : Cls) (r : Rel) (i : Nat) (hi : i < N) :
    (gCls L p x).get i = L.cls p (x.get i) ∧ (gRel L r a b).get i = L.rel r (a.get i) (b.get i) := by
  refine ⟨?_, ?_⟩
  · rw [gCls, maskLoop_get _ hi]; cases p <;> rfl
  · rw [gRel, maskLoop_get _ hi]; cases r <;> rfl

/-- C58 (integer results): `lround`, `llround`, `llrint`, `ilogb`, `fpclassify`. -/
theorem C58_integer :
    EachLane (gRndL L .lround x) (fun i => L.rndL .lround (x.get i)) ∧
    EachLane (gRndL L .llround x) (fun i => L.rndL .llround (x.get i)) ∧
    EachLane (gRndL L .llrint x) (fun i => L.rndL .llrint (x.get i)) ∧
    EachLane (gIlogb L x) (fun i => L.ilogb (x.get i)) ∧
    EachLane (gFpclassify L x) (fun i => L.fpclassify (x.get i)) :=
  ⟨core_total 0#64 (fun i => L.rndL .lround (x.get i)), core_total 0#64 (fun i => L.rndL .llround (x.get i)),
   core_total 0#64 (fun i => L.rndL .llrint (x.get i)), core_total 0#32 (fun i => L.ilogb (x.get i)),
   core_total 0#32 (fun i => L.fpclassify (x.get i))⟩

/-- C58 (conversions to a chosen integer type of `k` bits): `iround<I>` and `irint<I>` yield the low `k` bits of
`std::lround` / `std::lrint`; `itrunc<I>` (and `ltrunc`, `lltrunc`) converts `std::trunc` of each lane, and is undefined
exactly when a lane's truncated value does not fit. -/
theorem C58_to_integer (k : Nat) :
    EachLane (gIround L k x) (fun i => (L.rndL .lround (x.get i)).setWidth k) ∧
    EachLane (gIrint L k x) (fun i => (L.rndL .lrint (x.get i)).setWidth k) ∧
    EachLaneIfDefined (gItrunc L k x) (fun i => fpToInt k (L.fn1 .trunc (x.get i))) ∧
    EachLaneIfDefined (gLtrunc L x) (fun i => fpToInt 64 (L.fn1 .trunc (x.get i))) ∧
    EachLaneIfDefined (gLltrunc L x) (fun i => fpToInt 64 (L.fn1 .trunc (x.get i))) :=
  ⟨store_total _ x, store_total _ x, store_ifdef _ x, store_ifdef _ x, store_ifdef _ x⟩

/-- the two-buffer loop -/
theorem pair_get {β γ : Type} (p : Nat → β) (q : Nat → γ) (m0 : Mem β) (m1 : Mem γ) (n i : Nat) (hi : i < n) :
    (forRange n (fun i (s : Mem β × Mem γ) => (s.1.set i (p i), s.2.set i (q i))) (m0, m1)).1 i = p i ∧
    (forRange n (fun i (s : Mem β × Mem γ) => (s.1.set i (p i), s.2.set i (q i))) (m0, m1)).2 i = q i := by
  induction n with
  | zero => omega
  | succ n ih =>
    simp only [forRange]
    by_cases h : i = n
    · subst h; exact ⟨Mem.set_same .., Mem.set_same ..⟩
    · rw [Mem.set_ne _ _ h, Mem.set_ne _ _ h]; exact ih (by omega)

theorem copyFrom_get {α β : Type} (y : GSimd α N) (conv : β → α) (m : Mem β) {i : Nat} (h : i < N) :
    (y.copyFrom conv m).get i = conv (m i) := by
  simp [GSimd.copyFrom, GSimd.get, forRange_store, h]

/-- C58 (functions with an output vector): `frexp` and `modf` return and store, lane by lane, what the `<cmath>`
function returns and stores, whatever the output vector held. -/
theorem C58_frexp_modf (e : GSimd (BitVec 32) N) (y : GSimd (BitVec w) N) (i : Nat) (hi : i < N) :
    ((gFrexp L x e).1.get i, (gFrexp L x e).2.get i) = L.frexp (x.get i) ∧
    ((gModf L x y).1.get i, (gModf L x y).2.get i) = L.modf (x.get i) := by
  refine ⟨?_, ?_⟩
  · have h := pair_get (fun i => (L.frexp (x.get i)).2) (fun i => (L.frexp (x.get i)).1) (fun _ => 0) (fun _ => 0) N i hi
    unfold gFrexp
    dsimp only
    rw [load_get _ _ hi, copyFrom_get _ _ _ hi, h.1, h.2]; rfl
  · have h := pair_get (fun i => (L.modf (x.get i)).1) (fun i => (L.modf (x.get i)).2) (fun _ => 0) (fun _ => 0) N i hi
    unfold gModf
    dsimp only
    rw [load_get _ _ hi, copyFrom_get _ _ _ hi, h.1, h.2]; rfl

/-- C58 (`remquo`): with a quotient vector of `M` lanes the call is defined iff `M ≤ N`; then every lane of the result,
and each of the `M` quotients, is that of `std::remquo` on the lane. -/
theorem C58_remquo {M : Nat} (q : GSimd (BitVec 32) M) :
    (gRemquo L a b q = none ↔ N < M) ∧
    ∀ r, gRemquo L a b q = some r →
      (∀ i, i < N → r.1.get i = (L.remquo (a.get i) (b.get i)).1) ∧
      (∀ i, i < M → r.2.get i = (L.remquo (a.get i) (b.get i)).2) := by
  unfold gRemquo
  dsimp only
  refine ⟨?_, ?_⟩
  · split
    · rename_i h; exact ⟨fun h' => by simp at h', fun h' => absurd h (by omega)⟩
    · exact ⟨fun _ => by omega, fun _ => rfl⟩
  · intro r hr
    split at hr
    · rename_i hM
      simp only [Option.some.injEq] at hr
      subst hr
      refine ⟨fun i hi => ?_, fun i hi => ?_⟩
      · have h := pair_get (fun i => (L.remquo (a.get i) (b.get i)).2) (fun i => (L.remquo (a.get i) (b.get i)).1) (fun _ => 0) (fun _ => 0) N i hi
        dsimp only
        rw [load_get _ _ hi, h.2]
      · have h := pair_get (fun i => (L.remquo (a.get i) (b.get i)).2) (fun i => (L.remquo (a.get i) (b.get i)).1) (fun _ => 0) (fun _ => 0) N i (by omega)
        dsimp only
        rw [copyFrom_get _ _ _ hi, h.1]; rfl
    · simp at hr

/-- C58 (scaling): `ldexp`, `scalbn`, `scalbln` with a vector of exponents and with one exponent for all lanes. -/
theorem C58_scale {k : Nat} (f : Scale) (e : GSimd (BitVec k) N) (n : BitVec k) :
    EachLane (gScale L f x e) (fun i => L.scale f (x.get i) (e.get i).toInt) ∧
    EachLane (gScaleS L f x n) (fun i => L.scale f (x.get i) n.toInt) := by
  cases f <;> exact ⟨core_total 0#w (fun i => L.scale _ (x.get i) (e.get i).toInt),
    core_total 0#w (fun i => L.scale _ (x.get i) n.toInt)⟩

/-- C58 (`sincos`): without the compiler builtins both outputs are lane-wise; with them (GCC, Clang) the function does
not compile. -/
theorem C58_sincos :
    (∃ r, gSincos L false x = .ok r ∧ ∀ i, i < N → r.1.get i = L.fn1 .sin (x.get i) ∧ r.2.get i = L.fn1 .cos (x.get i)) ∧
    gSincos L true x = .illFormed := by
  refine ⟨?_, rfl⟩
  obtain ⟨s, hs, hs'⟩ := C58_unary L x .sin (by decide)
  obtain ⟨c, hc, hc'⟩ := C58_unary L x .cos (by decide)
  refine ⟨(s, c), ?_, fun i hi => ⟨hs' i hi, hc' i hi⟩⟩
  simp only [gSincos, hs, hc, Out.bind, Out.map, Bool.false_eq_true, if_false]

/-- C58 (violated): `fabs` (and `abs`), `fmin` with a scalar and `lrint` do not compile for any element type, size or
argument. -/
theorem C58_illformed_violated :
    gFn1 L .fabs x = .illFormed ∧ gFn2S L .fmin a s = .illFormed ∧ gRndL L .lrint x = .illFormed := ⟨rfl, rfl, rfl⟩

/-- C58 (`rint`, as written): the result of `std::rint` goes through `long`: the call is undefined iff in some lane that result
is not finite or does not fit `long`, and otherwise every lane is the integer rounded once more to `T`. -/
theorem C58_rint_through_long :
    EachLaneIfDefined (gFn1 L .rint x) (fun i => (fpToInt 64 (L.fn1 .rint (x.get i))).map (fun z => Fp.ofInt w z.toInt)) := by
  change EachLaneIfDefined (Out.ofUb (gRint L x)) _
  unfold gRint
  obtain ⟨h1, h2⟩ := forRangeM_store N (fun i => fpToInt 64 (L.fn1 .rint (x.get i))) (fun _ => (0 : BitVec 64))
  revert h1 h2
  change (forRangeM N (fun i (r : Mem (BitVec 64)) => (fpToInt 64 (L.fn1 .rint (x.get i))).map (fun v => r.set i v)) (fun _ => 0) = none ↔ _) → _ → EachLaneIfDefined (Out.ofUb ((forRangeM N (fun i (r : Mem (BitVec 64)) => (fpToInt 64 (L.fn1 .rint (x.get i))).map (fun v => r.set i v)) (fun _ => 0)).map _)) _
  generalize forRangeM N (fun i (r : Mem (BitVec 64)) => (fpToInt 64 (L.fn1 .rint (x.get i))).map (fun v => r.set i v)) (fun _ => 0) = out
  intro h1 h2
  cases out with
  | none =>
    obtain ⟨i, hi, h⟩ := h1.1 rfl
    exact .inl ⟨⟨i, hi, by dsimp only; rw [h]; rfl⟩, rfl⟩
  | some r =>
    refine .inr ⟨_, rfl, fun i hi => ?_⟩
    dsimp only
    rw [(h2 r rfl).1 i hi, copyFrom_get _ _ _ hi]; rfl
end

/-- A C library whose `rint` rounds correctly, as far as needed below: it keeps `-0` and `+∞`. -/
def RintKeeps {w : Nat} (L : Cmath w) : Prop :=
  L.fn1 .rint (Fp.pack w true 0) = Fp.pack w true 0 ∧ L.fn1 .rint (Fp.pack w false (Fp.infMag w)) = Fp.pack w false (Fp.infMag w)

/-- C58 (`rint` violated): with any such library and for any non-empty vector type, `rint` of a vector of `-0` is not what
`std::rint` gives (it is `+0` in every lane), and `rint` of a vector of infinities is undefined. -/
theorem C58_rint_violated {w N : Nat} (hw : Fp.W w) (hN : 0 < N) (L : Cmath w) (hL : RintKeeps L) :
    (∃ r, gFn1 L .rint (⟨fun _ => Fp.pack w true 0⟩ : GSimd (BitVec w) N) = .ok r ∧
      ∀ i, i < N → r.get i = Fp.pack w false 0 ∧ r.get i ≠ L.fn1 .rint (Fp.pack w true 0)) ∧
    gFn1 L .rint (⟨fun _ => Fp.pack w false (Fp.infMag w)⟩ : GSimd (BitVec w) N) = .ub := by
  obtain ⟨h0, h1⟩ := hL
  have z0 : (fpToInt 64 (Fp.pack w true 0)).map (fun z => Fp.ofInt w z.toInt) = some (Fp.pack w false 0) := by
    rcases hw with h | h <;> subst h <;> decide +kernel
  have zi : fpToInt 64 (Fp.pack w false (Fp.infMag w)) = none := by
    rcases hw with h | h <;> subst h <;> decide +kernel
  have zne : Fp.pack w false 0 ≠ Fp.pack w true 0 := by
    rcases hw with h | h <;> subst h <;> decide +kernel
  refine ⟨?_, ?_⟩
  · rcases C58_rint_through_long L (⟨fun _ => Fp.pack w true 0⟩ : GSimd (BitVec w) N) with ⟨⟨i, _, h⟩, _⟩ | ⟨r, h, hr⟩
    · change (fpToInt 64 (L.fn1 .rint (Fp.pack w true 0))).map (fun z => Fp.ofInt w z.toInt) = none at h
      rw [h0, z0] at h; simp at h
    · refine ⟨r, h, fun i hi => ?_⟩
      have := hr i hi
      change (fpToInt 64 (L.fn1 .rint (Fp.pack w true 0))).map (fun z => Fp.ofInt w z.toInt) = _ at this
      rw [h0, z0] at this
      rw [← Option.some.inj this, h0]
      exact ⟨rfl, zne⟩
  · rcases C58_rint_through_long L (⟨fun _ => Fp.pack w false (Fp.infMag w)⟩ : GSimd (BitVec w) N) with ⟨_, h⟩ | ⟨r, _, hr⟩
    · exact h
    · have := hr 0 hN
      change (fpToInt 64 (L.fn1 .rint (Fp.pack w false (Fp.infMag w)))).map (fun z => Fp.ofInt w z.toInt) = _ at this
      rw [h1, zi] at this; simp at this

/-! ### Multiply-add, reciprocal -/
section
variable {α : Type} {N : Nat} (S : Scalar α) (a b c : GSimd α N)

theorem some_of_total {β : Type} {x : Option β} (h : x ≠ none) : ∃ r, x = some r := by
  cases x with
  | none => exact absurd rfl h
  | some r => exact ⟨r, rfl⟩

/-- chaining two lane-wise steps -/
theorem chain {β γ : Type} (f : Nat → Option β) (g : Nat → β → Option γ) (x : Option (GSimd β N)) (k : GSimd β N → Option (GSimd γ N))
    (hx : (x = none ↔ ∃ i, i < N ∧ f i = none) ∧ ∀ r, x = some r → ∀ i, i < N → f i = some (r.get i))
    (hk : ∀ p, (k p = none ↔ ∃ i, i < N ∧ g i (p.get i) = none) ∧ ∀ r, k p = some r → ∀ i, i < N → g i (p.get i) = some (r.get i)) :
    (x.bind k = none ↔ ∃ i, i < N ∧ (f i).bind (g i) = none) ∧
    ∀ r, x.bind k = some r → ∀ i, i < N → (f i).bind (g i) = some (r.get i) := by
  cases x with
  | none =>
    obtain ⟨i, hi, h⟩ := hx.1.1 rfl
    exact ⟨⟨fun _ => ⟨i, hi, by rw [h]; rfl⟩, fun _ => rfl⟩, fun r h => by simp at h⟩
  | some p =>
    have hp := hx.2 p rfl
    refine ⟨⟨fun h => ?_, fun ⟨i, hi, h⟩ => ?_⟩, fun r h i hi => ?_⟩
    · obtain ⟨i, hi, h'⟩ := (hk p).1.1 h
      exact ⟨i, hi, by rw [hp i hi]; exact h'⟩
    · rw [hp i hi] at h
      exact (hk p).1.2 ⟨i, hi, h⟩
    · rw [hp i hi]; exact (hk p).2 r h i hi

theorem lift2_plain {β γ : Type} (z : γ) (f : α → β → Option γ) (a : GSimd α N) (b : GSimd β N) :
    (lift2 z f a b = none ↔ ∃ i, i < N ∧ f (a.get i) (b.get i) = none) ∧
    ∀ r, lift2 z f a b = some r → ∀ i, i < N → f (a.get i) (b.get i) = some (r.get i) := by
  obtain ⟨h1, h2⟩ := lift2_spec z f a b
  refine ⟨?_, fun r hr => h2 r.get (by rw [hr]; rfl)⟩
  rw [← h1]; cases lift2 z f a b <;> simp

theorem lift1_plain {γ : Type} (z : γ) (f : α → Option γ) (a : GSimd α N) :
    (lift1 z f a = none ↔ ∃ i, i < N ∧ f (a.get i) = none) ∧
    ∀ r, lift1 z f a = some r → ∀ i, i < N → f (a.get i) = some (r.get i) := by
  obtain ⟨h1, h2⟩ := lift1_spec z f a
  refine ⟨?_, fun r hr => h2 r.get (by rw [hr]; rfl)⟩
  rw [← h1]; cases lift1 z f a <;> simp

theorem ifdef_of {out : Option (GSimd α N)} {f : Nat → Option α}
    (h : (out = none ↔ ∃ i, i < N ∧ f i = none) ∧ ∀ r, out = some r → ∀ i, i < N → f i = some (r.get i)) :
    EachLaneIfDefined (Out.ofUb out) f := by
  cases out with
  | none => exact .inl ⟨h.1.1 rfl, rfl⟩
  | some r => exact .inr ⟨r, rfl, h.2 r rfl⟩

/-- C58 (multiply-add): with the operators of the element type, `fmadd` is `a * b + c`, `fmsub` is `a * b - c`, `fnmadd` is
`c - a * b` and `fnmsub` is `-(a * b) - c`, each computed in separate steps; undefined iff a step is in some lane. -/
theorem C58_fma :
    EachLaneIfDefined (Out.ofUb (gFmadd S a b c)) (fun i => (S.mul (a.get i) (b.get i)).bind fun p => S.add p (c.get i)) ∧
    EachLaneIfDefined (Out.ofUb (gFmsub S a b c)) (fun i => (S.mul (a.get i) (b.get i)).bind fun p => S.sub p (c.get i)) ∧
    EachLaneIfDefined (Out.ofUb (gFnmadd S a b c)) (fun i => (S.mul (a.get i) (b.get i)).bind fun p => S.sub (c.get i) p) ∧
    EachLaneIfDefined (Out.ofUb (gFnmsub S a b c))
      (fun i => (S.mul (a.get i) (b.get i)).bind fun p => (S.neg p).bind fun q => S.sub q (c.get i)) := by
  refine ⟨ifdef_of ?_, ifdef_of ?_, ifdef_of ?_, ifdef_of ?_⟩
  · exact chain _ (fun i p => S.add p (c.get i)) _ _ (lift2_plain _ _ a b) (fun p => lift2_plain _ _ p c)
  · exact chain _ (fun i p => S.sub p (c.get i)) _ _ (lift2_plain _ _ a b) (fun p => lift2_plain _ _ p c)
  · exact chain _ (fun i p => S.sub (c.get i) p) _ _ (lift2_plain _ _ a b) (fun p => lift2_plain _ _ c p)
  · exact chain _ (fun i p => (S.neg p).bind fun q => S.sub q (c.get i)) _ _ (lift2_plain _ _ a b)
      (fun p => chain _ (fun i q => S.sub q (c.get i)) _ _ (lift1_plain _ _ p) (fun q => lift2_plain _ _ q c))

/-- C58 (reciprocal): `rcp` divides the element type's one by each lane. -/
theorem C58_rcp : EachLaneIfDefined (Out.ofUb (gRcp S a)) (fun i => S.div S.one (a.get i)) := by
  refine ifdef_of ?_
  have h := lift2_plain S.zero S.div (GSimd.fill (N := N) (fun _ => S.zero) S.one) a
  have hf : ∀ i, i < N → (GSimd.fill (N := N) (fun _ => S.zero) S.one).get i = S.one := by
    intro i hi; simp [GSimd.fill, GSimd.get, forRange_store, hi]
  refine ⟨h.1.trans ⟨?_, ?_⟩, fun r hr i hi => ?_⟩
  · rintro ⟨i, hi, h⟩; rw [hf i hi] at h; exact ⟨i, hi, h⟩
  · rintro ⟨i, hi, h⟩; refine ⟨i, hi, ?_⟩; rw [hf i hi]; exact h
  · have := h.2 r hr i hi; rw [hf i hi] at this; exact this

/-- C58 (reciprocal square root): `rsqrt` divides one by `std::sqrt` of each lane. -/
theorem C58_rsqrt {w : Nat} (S : Scalar (BitVec w)) (L : Cmath w) (x : GSimd (BitVec w) N) :
    EachLaneIfDefined (gRsqrt S L x) (fun i => S.div S.one (L.fn1 .sqrt (x.get i))) := by
  obtain ⟨r, hr, h⟩ := C58_unary L x .sqrt (by decide)
  dsimp only at h
  have := C58_rcp S r
  rw [gRsqrt, hr]
  change EachLaneIfDefined (Out.ofUb (gRcp S r)) _
  rcases this with ⟨⟨i, hi, h1⟩, h2⟩ | ⟨q, hq, h2⟩
  · exact .inl ⟨⟨i, hi, by dsimp only; rw [← h i hi]; exact h1⟩, h2⟩
  · exact .inr ⟨q, hq, fun i hi => by dsimp only; rw [← h i hi]; exact h2 i hi⟩

/-- C58 (`nan`): every lane is the same pattern. -/
theorem C58_nan {w : Nat} (v : BitVec w) (i : Nat) (hi : i < N) : (gNan (N := N) v).get i = v := by
  simp [gNan, GSimd.fill, GSimd.get, forRange_store, hi]
end

/-- C58 (multiply-add violated): the result is documented as that of a fused operation, but the product is rounded first:
`(1 + 2^-12)^2 - (1 + 2^-11)` in `float` gives `0` instead of `2^-24`, in every lane of every vector. -/
theorem C58_fma_violated (N : Nat) :
    ∃ a c : BitVec 32, Fp.ffma a a c = 0x33800000#32 ∧
      ∃ r : GSimd (BitVec 32) N, gFmadd (fpScalar 32) ⟨fun _ => a⟩ ⟨fun _ => a⟩ ⟨fun _ => c⟩ = some r ∧ ∀ i, i < N → r.get i = 0 := by
  refine ⟨0x3f800800#32, 0xbf801000#32, by decide +kernel, ?_⟩
  have h := (C58_fma (fpScalar 32) (⟨fun _ => 0x3f800800#32⟩ : GSimd (BitVec 32) N) ⟨fun _ => 0x3f800800#32⟩ ⟨fun _ => 0xbf801000#32⟩).1
  have e : Fp.fadd (Fp.fmul 0x3f800800#32 0x3f800800#32) 0xbf801000#32 = 0#32 := by decide +kernel
  rcases h with ⟨⟨i, _, h⟩, _⟩ | ⟨r, h, hr⟩
  · simp [fpScalar] at h
  · refine ⟨r, ?_, fun i hi => ?_⟩
    · generalize gFmadd (fpScalar 32) (⟨fun _ => 0x3f800800#32⟩ : GSimd (BitVec 32) N) ⟨fun _ => 0x3f800800#32⟩ ⟨fun _ => 0xbf801000#32⟩ = o at h
      cases o with
      | none => simp [Out.ofUb] at h
      | some q => simp only [Out.ofUb, Out.ok.injEq] at h; rw [h]
    · have := hr i hi
      change some (Fp.fadd (Fp.fmul 0x3f800800#32 0x3f800800#32) 0xbf801000#32) = some (r.get i) at this
      rw [e] at this
      exact (Option.some.inj this).symm

/-! ### Promotion -/
/-- C58 (promotion of one operand): called with a vector of any integer type, the power, exponential, trigonometric, hyperbolic, error
functions and `logb` return a vector of `double`: the `<cmath>` function of the element converted to `double`. -/
theorem C58_promote_unary {N : Nat} (L32 : Cmath 32) (L64 : Cmath 64) (t : IntTy) (f : Fn1)
    (hf : f ∉ [.fabs, .ceil, .floor, .trunc, .nearbyint, .round, .rint]) (x : GSimd (BitVec t.bits) N) :
    ReturnsDouble (gCall1 L32 L64 f ⟨.int t, x⟩) (fun i => L64.fn1 f (Fp.ofInt 64 (t.val (x.get i)))) := by
  have h1 : f ≠ .fabs ∧ f ≠ .rint := ⟨fun h => hf (by simp [h]), fun h => hf (by simp [h])⟩
  have h2 : promotes1 f = true := by cases f <;> first | rfl | exact absurd (by simp) hf
  obtain ⟨r, hr, h⟩ := C58_unary L64 (promote (.int t) x) f h1
  refine ⟨r, ?_, fun i hi => ?_⟩
  · simp only [gCall1, h2, if_true, hr, Out.map, Out.bind]
  · refine (h i hi).trans ?_
    exact congrArg (L64.fn1 f) (promote_get (.int t) x hi)

/-- C58 (promotion of two operands): called with vectors of two different element types, or of one integer type if the function is
`fmod`, `hypot`, `pow`, `atan2`, `nextafter` or `copysign`, a binary function returns a vector of `double`: the `<cmath>` function of
the two elements converted to `double`. -/
theorem C58_promote_binary {N : Nat} (L32 : Cmath 32) (L64 : Cmath 64) (e0 e1 : El) (f : Fn2) (x : GSimd e0.Rep N) (y : GSimd e1.Rep N)
    (h : e0 ≠ e1 ∨ ((∃ t, e0 = .int t) ∧ f ∈ [.fmod, .hypot, .pow, .atan2, .nextafter, .copysign])) :
    ReturnsDouble (gCall2 L32 L64 f ⟨e0, x⟩ ⟨e1, y⟩) (fun i => L64.fn2 f (toDouble e0 (x.get i)) (toDouble e1 (y.get i))) := by
  obtain ⟨r, hr, hl⟩ := C58_binary L64 (promote e0 x) (promote e1 y) f
  refine ⟨r, ?_, fun i hi => ?_⟩
  · have hn : ¬ (unconstrained2 f = true ∧ e0 = e1) := by
      rintro ⟨h1, h2⟩
      rcases h with h | ⟨_, h⟩
      · exact h h2
      · cases f <;> simp [unconstrained2] at h1 h
    have key : gCall2 L32 L64 f ⟨e0, x⟩ ⟨e1, y⟩ = (gFn2 L64 f (promote e0 x) (promote e1 y)).map fun r => ⟨.f64, r⟩ := by
      cases e0 <;> cases e1 <;> first
        | (exfalso; rcases h with h | ⟨⟨t, h⟩, _⟩
           · exact h rfl
           · cases h)
        | (simp only [gCall2]; rw [dif_neg hn]; rfl)
        | (simp only [gCall2]; rw [dif_neg hn])
    rw [key, hr]; rfl
  · refine (hl i hi).trans ?_
    dsimp only
    rw [promote_get _ _ hi, promote_get _ _ hi]

/-- C58 (integer operands, as written): two vectors of one integer type are not promoted by `remainder`, `fmax`, `fmin`, `fdim`: the
`double` result is converted back to that type, which is undefined when it does not fit. -/
theorem C58_integer_operands {N : Nat} (L32 : Cmath 32) (L64 : Cmath 64) (t : IntTy) (f : Fn2) (hf : f ∈ [.remainder, .fmax, .fmin, .fdim])
    (x y : GSimd (BitVec t.bits) N) :
    ((∃ i, i < N ∧ fpToIty t (L64.fn2 f (Fp.ofInt 64 (t.val (x.get i))) (Fp.ofInt 64 (t.val (y.get i)))) = none) ∧
      gCall2 L32 L64 f ⟨.int t, x⟩ ⟨.int t, y⟩ = .ub) ∨
    ∃ r : GSimd (BitVec t.bits) N, gCall2 L32 L64 f ⟨.int t, x⟩ ⟨.int t, y⟩ = .ok ⟨.int t, r⟩ ∧
      ∀ i, i < N → fpToIty t (L64.fn2 f (Fp.ofInt 64 (t.val (x.get i))) (Fp.ofInt 64 (t.val (y.get i)))) = some (r.get i) := by
  have hu : unconstrained2 f = true := by cases f <;> first | rfl | simp at hf
  have hc2 : callee2 f = f := by cases f <;> rfl
  have key : gCall2 L32 L64 f ⟨.int t, x⟩ ⟨.int t, y⟩ = (Out.ofUb (gFn2Int L64 t f x y)).map fun r => ⟨.int t, r⟩ := by
    simp only [gCall2]
    rw [dif_pos ⟨hu, trivial⟩]
    rfl
  have h := lift2_plain 0#t.bits (fun a b => fpToIty t (L64.fn2 (callee2 f) (toDouble (.int t) a) (toDouble (.int t) b))) x y
  rw [key]
  change _ ∨ _
  rw [hc2] at h
  unfold gFn2Int
  rw [hc2]
  generalize lift2 0#t.bits (fun a b => fpToIty t (L64.fn2 f (toDouble (.int t) a) (toDouble (.int t) b))) x y = o at h
  cases o with
  | none => exact .inl ⟨h.1.1 rfl, rfl⟩
  | some r => exact .inr ⟨r, rfl, h.2 r rfl⟩

/-- C58 (integer operands violated): with any C library whose `fmax(x, x)` is `x`, `fmax` of two vectors of `2^53 + 1` of type `long`
does not return the maximum but `2^53` in every lane, and `fmax` of two vectors of `LONG_MAX` is undefined — although a promotion to
`double` is documented. -/
theorem C58_integer_fmax_violated {N : Nat} (hN : 0 < N) (L32 : Cmath 32) (L64 : Cmath 64) (hL : ∀ v, L64.fn2 .fmax v v = v) :
    (∃ r : GSimd (BitVec 64) N,
      gCall2 L32 L64 .fmax ⟨.int .i64, ⟨fun _ => 9007199254740993#64⟩⟩ ⟨.int .i64, ⟨fun _ => 9007199254740993#64⟩⟩ = .ok ⟨.int .i64, r⟩ ∧
      ∀ i, i < N → r.get i = 9007199254740992#64) ∧
    gCall2 (N := N) L32 L64 .fmax ⟨.int .i64, ⟨fun _ => 0x7fffffffffffffff#64⟩⟩ ⟨.int .i64, ⟨fun _ => 0x7fffffffffffffff#64⟩⟩ = .ub := by
  have e1 : fpToIty .i64 (Fp.ofInt 64 (IntTy.i64.val 9007199254740993#64)) = some 9007199254740992#64 :=
    (by decide +kernel : fpToIty ⟨64, true⟩ (Fp.ofInt 64 9007199254740993) = some 9007199254740992#64)
  have e2 : fpToIty .i64 (Fp.ofInt 64 (IntTy.i64.val 0x7fffffffffffffff#64)) = none :=
    (by decide +kernel : fpToIty ⟨64, true⟩ (Fp.ofInt 64 0x7fffffffffffffff) = none)
  refine ⟨?_, ?_⟩
  · rcases C58_integer_operands (N := N) L32 L64 .i64 .fmax (by simp) ⟨fun _ => 9007199254740993#64⟩ ⟨fun _ => 9007199254740993#64⟩ with
      ⟨⟨i, _, h⟩, _⟩ | ⟨r, h, hr⟩
    · change fpToIty .i64 (L64.fn2 .fmax (Fp.ofInt 64 (IntTy.i64.val 9007199254740993#64)) (Fp.ofInt 64 (IntTy.i64.val 9007199254740993#64))) = none at h
      rw [hL, e1] at h; simp at h
    · refine ⟨r, h, fun i hi => ?_⟩
      have := hr i hi
      change fpToIty .i64 (L64.fn2 .fmax (Fp.ofInt 64 (IntTy.i64.val 9007199254740993#64)) (Fp.ofInt 64 (IntTy.i64.val 9007199254740993#64))) = _ at this
      rw [hL, e1] at this
      exact (Option.some.inj this).symm
  · rcases C58_integer_operands (N := N) L32 L64 .i64 .fmax (by simp) ⟨fun _ => 0x7fffffffffffffff#64⟩ ⟨fun _ => 0x7fffffffffffffff#64⟩ with
      ⟨_, h⟩ | ⟨r, _, hr⟩
    · exact h
    · have := hr 0 hN
      change fpToIty .i64 (L64.fn2 .fmax (Fp.ofInt 64 (IntTy.i64.val 0x7fffffffffffffff#64)) (Fp.ofInt 64 (IntTy.i64.val 0x7fffffffffffffff#64))) = _ at this
      rw [hL, e2] at this; simp at this

/-! ### On x86 vectors -/
/-- C58 (x86 vectors, without SVML): the functions with no x86 overload apply the `<cmath>` function to every element, provided
`size()` is a multiple of the number of elements of the native vector. -/
theorem C58_x86_template {c : Cfg} (hc : c.Ok) (hN : c.N % c.e = 0) (L : Cmath c.w) (a b : c.Data) (s : BitVec c.w) :
    (∀ f, x86Template1 f = true → Yields c (xFn1 c L f a) (fun i => L.fn1 f (elt c a i))) ∧
    (∀ f, x86Template2 f = true → Yields c (xFn2 c L f a b) (fun i => L.fn2 f (elt c a i) (elt c b i)) ∧
      (f ≠ .atan2 → Yields c (xFn2S c L f a s) (fun i => L.fn2 f (elt c a i) s))) := by
  refine ⟨fun f hf => ?_, fun f hf => ⟨?_, fun _ => ?_⟩⟩
  · obtain ⟨r, hr, h⟩ := template1_ok hc hN (fun v => some (L.fn1 (callee1 f) v)) a (fun i _ => by simp)
    refine ⟨r, hr, fun i hi => ?_⟩
    rw [← Option.some.inj (h i hi)]
    cases f <;> rfl
  · obtain ⟨r, hr, h⟩ := template2_ok hc hN (fun u v => some (L.fn2 (callee2 f) u v)) a b (fun i _ => by simp)
    refine ⟨r, hr, fun i hi => ?_⟩
    rw [← Option.some.inj (h i hi)]
    cases f <;> rfl
  · obtain ⟨r, hr, h⟩ := template1_ok hc hN (fun u => some (L.fn2 (callee2 f) u s)) a (fun i _ => by simp)
    refine ⟨r, hr, fun i hi => ?_⟩
    rw [← Option.some.inj (h i hi)]
    cases f <;> rfl

/-- C58 (x86 vectors violated): if `size()` is not such a multiple, each of these calls is undefined for every argument and every C
library: the result is loaded from beyond the end of the `std::array` of `size()` elements. -/
theorem C58_x86_template_violated {c : Cfg} (hc : c.Ok) (hN : c.N % c.e ≠ 0) (L : Cmath c.w) (a b : c.Data) (s : BitVec c.w) :
    (∀ f, xFn1 c L f a = .ub) ∧ (∀ f, xFn2 c L f a b = .ub) ∧ (∀ f, xFn2S c L f a s = .ub) :=
  ⟨fun _ => template1_ub hc hN _ a, fun _ => template2_ub hc hN _ a b, fun _ => template1_ub hc hN _ a⟩

/-! ### The hypotheses are met -/
/-- a C library on `double`: the correctly rounded functions where this development has them, constants elsewhere -/
def exLib (w : Nat) : Cmath w where
  fn1 f x := match f with
    | .sqrt => Fp.fsqrt x
    | .rint | .nearbyint => Fp.roundInt .nearest x
    | .ceil => Fp.roundInt .up x
    | .floor => Fp.roundInt .down x
    | .trunc => Fp.roundInt .zero x
    | _ => x
  fn2 f x y := match f with
    | .fmax => if Fp.lt x y then y else x
    | .fmin => if Fp.lt y x then y else x
    | _ => x
  lerp a b f := Fp.fadd a (Fp.fmul f (Fp.fsub b a))
  cls p x := match p with
    | .isfinite => Fp.isFinite x
    | .isinf => Fp.isInf x
    | .isnan => Fp.isNaN x
    | .isnormal => Fp.isNormal x
    | .signbit => Fp.neg x
  rel r x y := match r with
    | .isgreater => Fp.lt y x
    | .isgreaterequal => Fp.le y x
    | .isless => Fp.lt x y
    | .islessequal => Fp.le x y
    | .islessgreater => Fp.lt x y || Fp.lt y x
    | .isunordered => Fp.isNaN x || Fp.isNaN y
  rndL _ x := Fp.cvtInt 64 .nearest x
  ilogb _ := 0
  fpclassify x := if Fp.isNaN x then 0 else 4
  scale _ x _ := x
  frexp x := (x, 0)
  modf x := (x, 0)
  remquo x _ := (x, 0)

/-- `floor` of `2.5` in three lanes, `exp` of a vector of `int` (by this library the converted element), `rint` keeps `-0` and `+∞`, the
maximum of a value with itself. -/
example : (∃ r, gFn1 (exLib 32) .floor (⟨fun _ => 0x40200000#32⟩ : GSimd (BitVec 32) 3) = .ok r ∧ r.get 2 = 0x40000000#32) ∧
    RintKeeps (exLib 32) ∧ RintKeeps (exLib 64) ∧ (∀ v, (exLib 64).fn2 .fmax v v = v) := by
  refine ⟨?_, ⟨by decide +kernel, by decide +kernel⟩, ⟨by decide +kernel, by decide +kernel⟩, fun v => ?_⟩
  · obtain ⟨r, hr, h⟩ := C58_unary (exLib 32) (⟨fun _ => 0x40200000#32⟩ : GSimd (BitVec 32) 3) .floor (by decide)
    refine ⟨r, hr, ?_⟩
    rw [h 2 (by omega)]
    change Fp.roundInt .down 0x40200000#32 = _
    decide +kernel
  · change (if Fp.lt v v then v else v) = v
    simp
example : ReturnsDouble (gCall1 (exLib 32) (exLib 64) .exp ⟨.int .i32, (⟨fun i => BitVec.ofNat 32 i⟩ : GSimd (BitVec 32) 5)⟩)
    (fun i => Fp.ofInt 64 (IntTy.i32.val (BitVec.ofNat 32 i))) :=
  C58_promote_unary (exLib 32) (exLib 64) .i32 .exp (by simp) ⟨fun i => BitVec.ofNat 32 i⟩
example : ∃ f : Nat → BitVec 64, ReturnsDouble (gCall2 (exLib 32) (exLib 64) .fmax ⟨.int .i32, (⟨fun _ => 7#32⟩ : GSimd (BitVec 32) 5)⟩
      ⟨.f32, (⟨fun _ => 0x40000000#32⟩ : GSimd (BitVec 32) 5)⟩) f :=
  ⟨_, C58_promote_binary (exLib 32) (exLib 64) (.int .i32) .f32 .fmax (⟨fun _ => 7#32⟩ : GSimd (BitVec 32) 5)
    (⟨fun _ => 0x40000000#32⟩ : GSimd (BitVec 32) 5) (.inl (by simp))⟩
example : exF64.N % exF64.e = 0 ∧ exF32.N % exF32.e ≠ 0 := by decide
end Dpm.GenericMath
