import Verif.Model.Svml
import Verif.Props.GenericMath
import Verif.Props.X86Round
/-
Property C81: with `DPM_USE_SVML` the mathematical functions return, element by element, what Intel's library returns for the function of that
name (README:196-200).
-/
namespace Dpm.Svml
open Dpm Dpm.Reg Dpm.X86 Dpm.GenericMath

/-- The headers do not compile: the wrapper of `sincos` passes a register where the library takes a pointer. -/
theorem unit_bad (s : ISA) : unitOk included s = false := by
  cases h : s.avx <;> simp [unitOk, included, regs, h, resolves, powQualifier, namespaces]

/-- C81 (violated): with `DPM_USE_SVML` no program that includes the library compiles, so no function can be called, on any instruction set and
with any version of Intel's library. -/
theorem C81_compiles_violated (c : Cfg) (S : Svml) (L : Cmath c.w) (f : Fn1) (x y : c.Data) :
    call1 c S L f x = .illFormed ∧ callPow c S x y = .illFormed ∧ callAtan2 c S x y = .illFormed := by
  simp [call1, callPow, callAtan2, unit_bad]

/-- C81 (violated, the reasons): of all functions that call Intel's library exactly the `sincos` ones are ill-typed - they pass a register where
the library takes a pointer - and `pow.hpp` names a namespace that does not exist.  Either is enough. -/
theorem C81_reasons (s : ISA) :
    (∀ r h wr, wr ∈ wrappers s r h → (wr.ok r = false ↔ wr.name = "sincos")) ∧ (∀ r, wSincos r ∈ wrappers s r .trig) ∧
    resolves powQualifier = false ∧ (∀ hs, Header.trig ∈ hs ∨ Header.pow ∈ hs → unitOk hs s = false) := by
  refine ⟨fun r h wr hw => ?_, fun r => by simp [wrappers, trigWrappers], by decide, fun hs hh => ?_⟩
  · cases h <;> simp only [wrappers, expWrappers, powWrappers, trigWrappers, fmanipWrappers, roundWrappers, hypblWrappers, List.mem_cons,
      List.not_mem_nil, or_false] at hw
    · rcases hw with rfl | rfl <;> simp [Wrapper.ok, w1, w2, signature]
    · rcases hw with rfl | rfl | rfl | rfl | rfl | rfl | rfl <;> simp [Wrapper.ok, w1, signature]
    · rcases hw with rfl | rfl | rfl | rfl | rfl | rfl | rfl | rfl <;> simp [Wrapper.ok, w1, w2, wSincos, signature]
    · split at hw
      · simp only [List.mem_cons, List.not_mem_nil, or_false] at hw
        rcases hw with rfl | rfl | rfl | rfl <;> simp [Wrapper.ok, w1, signature]
      · cases hw
    · subst hw; simp [Wrapper.ok, w1, signature]
    · rcases hw with rfl | rfl | rfl | rfl | rfl | rfl <;> simp [Wrapper.ok, w1, signature]
    · cases r <;> simp only [errfnWrappers, List.mem_cons, List.not_mem_nil, or_false] at hw <;>
        rcases hw with rfl | rfl <;> simp [Wrapper.ok, w1, signature]
  · rcases hh with h | h
    · have : hs.all (fun h => (regs s).all fun r => (wrappers s r h).all (·.ok r)) = false := by
        rw [List.all_eq_false]
        refine ⟨.trig, h, ?_⟩
        cases ha : s.avx <;> simp [regs, ha, wrappers, trigWrappers, wSincos, Wrapper.ok, signature]
      simp [unitOk, this]
    · simp [unitOk, h, resolves, powQualifier, namespaces]

/-! ### What the functions would return
The rest is about the definitions of the single functions: what each computes once the two mistakes above are out of the way. -/
theorem via1_ok {c : Cfg} (hc : c.Ok) {hs : List Header} {S : Svml} {name : String} {r : XReg} {n : String} {f : Fn1}
    (hl : lookup hs c name = some (w1 r n f)) (x : c.Data) : Yields c (via1 hs c S name x) (fun i => S.fn1 f c.v c.w (elt c x i)) := by
  unfold via1
  rw [hl]
  exact ok_vec1 hc (fun v => map1 c.w (S.fn1 f c.v c.w) v) (S.fn1 f c.v c.w) x fun v i hi => lane_map1 _ _ (lane_bound hc.ety hi)
theorem via2_ok {c : Cfg} (hc : c.Ok) {hs : List Header} {S : Svml} {name : String} {r : XReg} {n : String} {f : Fn2}
    (hl : lookup hs c name = some (w2 r n f)) (a b : c.Data) :
    Yields c (via2 hs c S name a b) (fun i => S.fn2 f c.v c.w (elt c a i) (elt c b i)) := by
  unfold via2
  rw [hl]
  exact ok_vec2 hc (fun u v => map2 c.w (S.fn2 f c.v c.w) u v) (S.fn2 f c.v c.w) a b fun u v i hi => lane_map2 _ _ _ (lane_bound hc.ety hi)

/-- what overload resolution finds -/
theorem lookup_eq (c : Cfg) : ∀ p ∈ ([("exp", .exp), ("expm1", .expm1), ("log", .log), ("log2", .log2), ("log10", .log10), ("log1p", .log1p),
      ("cbrt", .cbrt), ("sin", .sin), ("cos", .cos), ("tan", .tan), ("asin", .asin), ("acos", .acos), ("atan", .atan), ("logb", .logb)] :
      List (String × Fn1)), lookup included c p.1 = some (w1 (XReg.of c.T c.v) p.1 p.2) := by
  intro p hp
  simp only [List.mem_cons, List.not_mem_nil, or_false] at hp
  by_cases h : c.s.sse41 = false ∧ (XReg.of c.T c.v = .ps128 ∨ XReg.of c.T c.v = .pd128) <;>
    rcases hp with rfl | rfl | rfl | rfl | rfl | rfl | rfl | rfl | rfl | rfl | rfl | rfl | rfl | rfl <;>
    simp [lookup, included, wrappers, powWrappers, expWrappers, trigWrappers, fmanipWrappers, roundWrappers, h, w1, w2, wSincos]

/-- the functions whose x86 overload calls Intel's function of the same name -/
def Direct : Fn1 → Prop
  | .exp | .expm1 | .log | .log2 | .log10 | .log1p | .cbrt | .sin | .cos | .tan | .asin | .acos | .atan | .logb => True
  | _ => False

/-- C81 (functions of one vector): element by element the value of Intel's function, for every version of that library, every instruction set,
register width and vector size. -/
theorem C81_unary_partial {c : Cfg} (hc : c.Ok) (S : Svml) (L : Cmath c.w) {f : Fn1} (hf : Direct f) (x : c.Data) :
    Yields c (fn1 included c S L f x) (fun i => S.fn1 f c.v c.w (elt c x i)) := by
  cases f with
  | exp => exact via1_ok hc (lookup_eq c ("exp", .exp) (by simp)) x
  | expm1 => exact via1_ok hc (lookup_eq c ("expm1", .expm1) (by simp)) x
  | log => exact via1_ok hc (lookup_eq c ("log", .log) (by simp)) x
  | log2 => exact via1_ok hc (lookup_eq c ("log2", .log2) (by simp)) x
  | log10 => exact via1_ok hc (lookup_eq c ("log10", .log10) (by simp)) x
  | log1p => exact via1_ok hc (lookup_eq c ("log1p", .log1p) (by simp)) x
  | cbrt => exact via1_ok hc (lookup_eq c ("cbrt", .cbrt) (by simp)) x
  | sin => exact via1_ok hc (lookup_eq c ("sin", .sin) (by simp)) x
  | cos => exact via1_ok hc (lookup_eq c ("cos", .cos) (by simp)) x
  | tan => exact via1_ok hc (lookup_eq c ("tan", .tan) (by simp)) x
  | asin => exact via1_ok hc (lookup_eq c ("asin", .asin) (by simp)) x
  | acos => exact via1_ok hc (lookup_eq c ("acos", .acos) (by simp)) x
  | atan => exact via1_ok hc (lookup_eq c ("atan", .atan) (by simp)) x
  | logb => exact via1_ok hc (lookup_eq c ("logb", .logb) (by simp)) x
  | _ => exact hf.elim

/-- C81 (functions of two vectors): likewise `pow` with a vector and with a scalar exponent, and `atan2`. -/
theorem C81_binary_partial {c : Cfg} (hc : c.Ok) (S : Svml) (a b : c.Data) (p : BitVec c.w) :
    Yields c (fnPow included c S a b) (fun i => S.fn2 .pow c.v c.w (elt c a i) (elt c b i)) ∧
    Yields c (fnPowS included c S a p) (fun i => S.fn2 .pow c.v c.w (elt c a i) p) ∧
    Yields c (fnAtan2 included c S a b) (fun i => S.fn2 .atan2 c.v c.w (elt c a i) (elt c b i)) := by
  have hp : lookup included c "pow" = some (w2 (XReg.of c.T c.v) "pow" .pow) := by
    simp [lookup, included, wrappers, powWrappers, w2]
  have ha : lookup included c "atan2" = some (w2 (XReg.of c.T c.v) "atan2" .atan2) := by
    simp [lookup, included, wrappers, powWrappers, expWrappers, trigWrappers, w1, w2, wSincos]
  refine ⟨via2_ok hc hp a b, ?_, via2_ok hc ha a b⟩
  unfold fnPowS
  rw [hp]
  refine ok_vec1 hc (fun v => map2 c.w (S.fn2 .pow c.v c.w) v (fillV c.v p)) (fun u => S.fn2 .pow c.v c.w u p) a fun v i hi => ?_
  rw [lane_map2 _ _ _ (lane_bound hc.ety hi), fillV_lane hc.ety _ hi]

/-- C81 (violated for `exp2`): `exp2(x)` returns the powers of *e*, whatever the library: wherever its `exp` and `exp2` differ the element is
wrong. -/
theorem C81_exp2_violated {c : Cfg} (hc : c.Ok) (S : Svml) (L : Cmath c.w) (x : c.Data) :
    Yields c (fn1 included c S L .exp2 x) (fun i => S.fn1 .exp c.v c.w (elt c x i)) ∧
    ((∃ i, i < c.N ∧ S.fn1 .exp c.v c.w (elt c x i) ≠ S.fn1 .exp2 c.v c.w (elt c x i)) →
      ¬ Yields c (fn1 included c S L .exp2 x) (fun i => S.fn1 .exp2 c.v c.w (elt c x i))) := by
  have h : Yields c (fn1 included c S L .exp2 x) (fun i => S.fn1 .exp c.v c.w (elt c x i)) :=
    via1_ok hc (lookup_eq c ("exp", .exp) (by simp)) x
  refine ⟨h, fun ⟨i, hi, hne⟩ h2 => hne ?_⟩
  obtain ⟨r, hr, h⟩ := h
  obtain ⟨r2, hr2, h2⟩ := h2
  rw [hr] at hr2
  cases hr2
  exact (h i hi).symm.trans (h2 i hi)

/-- the hyperbolic and error functions -/
def Hyperbolic : Fn1 → Prop
  | .sinh | .cosh | .tanh | .asinh | .acosh | .atanh | .erf | .erfc => True
  | _ => False

/-- C81 (violated for the hyperbolic and error functions): Intel's library is never asked - the headers that would do so are not included.  The
call runs the generic template, which calls the C library for every element and is undefined unless `size()` is a multiple of the number of
elements of a register. -/
theorem C81_hyperbolic_violated {c : Cfg} (hc : c.Ok) (S : Svml) (L : Cmath c.w) {f : Fn1} (hf : Hyperbolic f) (x : c.Data) :
    (c.N % c.e = 0 → Yields c (fn1 included c S L f x) (fun i => L.fn1 f (elt c x i))) ∧
    (c.N % c.e ≠ 0 → fn1 included c S L f x = .ub) := by
  have e : fn1 included c S L f x = xFn1 c L f x := by cases f <;> first | exact hf.elim | rfl
  rw [e]
  refine ⟨fun h => (C58_x86_template hc h L x x 0).1 f ?_, fun h => (C58_x86_template_violated hc h L x x 0).1 f⟩
  cases f <;> first | exact hf.elim | rfl

/-- all headers, hypbl.hpp and errfn.hpp included -/
def allHeaders : List Header := included ++ [.hypbl, .errfn]
/-- C81 (violated for `erf` even with the missing headers): for `float` vectors in 16-byte registers the function is spelt `arf`, and `erf` does
not compile; the other hyperbolic and error functions would be Intel's. -/
theorem C81_erf_violated {c : Cfg} (hc : c.Ok) (S : Svml) (L : Cmath c.w) (x : c.Data) :
    (XReg.of c.T c.v = .ps128 → fn1 allHeaders c S L .erf x = .illFormed) ∧
    (∀ f, Hyperbolic f → (f = .erf → XReg.of c.T c.v ≠ .ps128) →
      Yields c (fn1 allHeaders c S L f x) (fun i => S.fn1 f c.v c.w (elt c x i))) := by
  refine ⟨fun h => ?_, fun f hf he => ?_⟩
  · have e : lookup allHeaders c "erf" = none := by
      by_cases hs : c.s.sse41 = false <;>
        simp [lookup, allHeaders, included, wrappers, powWrappers, expWrappers, trigWrappers, fmanipWrappers, roundWrappers, hypblWrappers,
          errfnWrappers, h, hs, w1, w2, wSincos]
    change via1 allHeaders c S "erf" x = _
    unfold via1
    rw [e]; rfl
  · have key : ∀ n g, (n, g) ∈ ([("sinh", .sinh), ("cosh", .cosh), ("tanh", .tanh), ("asinh", .asinh), ("acosh", .acosh), ("atanh", .atanh),
        ("erfc", .erfc)] : List (String × Fn1)) → lookup allHeaders c n = some (w1 (XReg.of c.T c.v) n g) := by
      intro n g hp
      simp only [List.mem_cons, Prod.mk.injEq, List.not_mem_nil, or_false] at hp
      cases hr : XReg.of c.T c.v <;> by_cases hs : c.s.sse41 = false <;>
        rcases hp with ⟨rfl, rfl⟩ | ⟨rfl, rfl⟩ | ⟨rfl, rfl⟩ | ⟨rfl, rfl⟩ | ⟨rfl, rfl⟩ | ⟨rfl, rfl⟩ | ⟨rfl, rfl⟩ <;>
        simp [lookup, allHeaders, included, wrappers, powWrappers, expWrappers, trigWrappers, fmanipWrappers, roundWrappers, hypblWrappers,
          errfnWrappers, hr, hs, w1, w2, wSincos]
    cases f with
    | sinh => exact via1_ok hc (key "sinh" .sinh (by simp)) x
    | cosh => exact via1_ok hc (key "cosh" .cosh (by simp)) x
    | tanh => exact via1_ok hc (key "tanh" .tanh (by simp)) x
    | asinh => exact via1_ok hc (key "asinh" .asinh (by simp)) x
    | acosh => exact via1_ok hc (key "acosh" .acosh (by simp)) x
    | atanh => exact via1_ok hc (key "atanh" .atanh (by simp)) x
    | erfc => exact via1_ok hc (key "erfc" .erfc (by simp)) x
    | erf =>
      have e : lookup allHeaders c "erf" = some (w1 (XReg.of c.T c.v) "erf" .erf) := by
        have := he rfl
        cases hr : XReg.of c.T c.v <;> by_cases hs : c.s.sse41 = false <;>
          simp_all [lookup, allHeaders, included, wrappers, powWrappers, expWrappers, trigWrappers, fmanipWrappers, roundWrappers, hypblWrappers,
            errfnWrappers, w1, w2, wSincos]
      exact via1_ok hc e x
    | _ => exact hf.elim

/-- C81 (nearest-integer functions): before SSE4.1 `ceil`, `floor`, `trunc` and `round` are Intel's; from SSE4.1 on they, and `rint` and
`nearbyint` always, are the functions used without `DPM_USE_SVML` (C39). -/
theorem C81_nearest_partial {c : Cfg} (hc : c.Ok) (S : Svml) (L : Cmath c.w) (x : c.Data) :
    (c.s.sse41 = false → ∀ f ∈ [Fn1.ceil, .floor, .trunc, .round], Yields c (fn1 included c S L f x) (fun i => S.fn1 f c.v c.w (elt c x i))) ∧
    (c.s.sse41 = true → fn1 included c S L .ceil x = vCeil c x ∧ fn1 included c S L .floor x = vFloor c x ∧
      fn1 included c S L .trunc x = vTrunc c x ∧ fn1 included c S L .round x = vRound c x) ∧
    fn1 included c S L .rint x = vRint c x ∧ fn1 included c S L .nearbyint x = vNearbyint c x := by
  refine ⟨fun h f hf => ?_, fun h => ?_, rfl, rfl⟩
  · have hr : XReg.of c.T c.v = .ps128 ∨ XReg.of c.T c.v = .pd128 := by
      have hv : c.v = .v128 := by
        cases hv : c.v with
        | v128 => rfl
        | v256 =>
          have := hc.avx hv
          have := hc.wf; revert this; simp [ISA.Wf, h, *]
      rw [hv]; unfold XReg.of; dsimp only; split <;> simp
    have key : ∀ n g, (n, g) ∈ ([("ceil", .ceil), ("floor", .floor), ("trunc", .trunc), ("round", .round)] : List (String × Fn1)) →
        lookup included c n = some (w1 (XReg.of c.T c.v) n g) := by
      intro n g hp
      simp only [List.mem_cons, Prod.mk.injEq, List.not_mem_nil, or_false] at hp
      rcases hp with ⟨rfl, rfl⟩ | ⟨rfl, rfl⟩ | ⟨rfl, rfl⟩ | ⟨rfl, rfl⟩ <;>
        simp [lookup, included, wrappers, powWrappers, expWrappers, trigWrappers, roundWrappers, hr, h, w1, w2, wSincos]
    have nb : ∀ n b, near included c S n b x = via1 included c S n x := fun n b => by unfold near; rw [h]; rfl
    simp only [List.mem_cons, List.not_mem_nil, or_false] at hf
    rcases hf with rfl | rfl | rfl | rfl
    · change Yields c (near included c S "ceil" (vCeil c x) x) _
      rw [nb]; exact via1_ok hc (key "ceil" .ceil (by simp)) x
    · change Yields c (near included c S "floor" (vFloor c x) x) _
      rw [nb]; exact via1_ok hc (key "floor" .floor (by simp)) x
    · change Yields c (near included c S "trunc" (vTrunc c x) x) _
      rw [nb]; exact via1_ok hc (key "trunc" .trunc (by simp)) x
    · change Yields c (near included c S "round" (vRound c x) x) _
      rw [nb]; exact via1_ok hc (key "round" .round (by simp)) x
  · have nb : ∀ n b, near included c S n b x = b := fun n b => by unfold near; rw [h]; rfl
    exact ⟨nb "ceil" _, nb "floor" _, nb "trunc" _, nb "round" _⟩

/-- concrete cases: five floats in 16-byte registers without SSE4.1, six in a padded 32-byte one; a library whose `exp` and `exp2` differ -/
def exSvml : Svml where
  fn1 f _ w x := match f with
    | .exp => BitVec.ofNat w 0x402df854
    | .exp2 => BitVec.ofNat w 0x40000000
    | .ceil => Fp.roundInt .up x
    | _ => x
  fn2 _ _ _ x _ := x
def exS : Cfg := ⟨ISA.sse2L, .f32, 5, .v128⟩
theorem exS_ok : exS.Ok := ⟨by decide, by decide, by decide, by decide, by decide⟩
example (L : Cmath 32) (x : exS.Data) : ¬ Yields exS (fn1 included exS exSvml L .exp2 x) (fun i => exSvml.fn1 .exp2 exS.v exS.w (elt exS x i)) :=
  (C81_exp2_violated exS_ok exSvml L x).2 ⟨0, by decide, by change BitVec.ofNat 32 0x402df854 ≠ BitVec.ofNat 32 0x40000000; decide⟩
example (L : Cmath 32) (x : exS.Data) : fn1 included exS exSvml L .tanh x = .ub ∧ fn1 allHeaders exS exSvml L .erf x = .illFormed ∧
    Yields exS (fn1 included exS exSvml L .ceil x) (fun i => Fp.roundInt .up (elt exS x i)) :=
  ⟨(C81_hyperbolic_violated exS_ok exSvml L (f := .tanh) trivial x).2 (by decide), (C81_erf_violated exS_ok exSvml L x).1 (by decide),
    (C81_nearest_partial exS_ok exSvml L x).1 (by decide) .ceil (by simp)⟩
example (L : Cmath 32) (x : exF32.Data) : ∃ r, fn1 included exF32 exSvml L .sin x = .ok r ∧ elt exF32 r 5 = elt exF32 x 5 := by
  obtain ⟨r, hr, h⟩ := C81_unary_partial exF32_ok exSvml L (f := .sin) trivial x
  exact ⟨r, hr, h 5 (by decide)⟩
end Dpm.Svml
