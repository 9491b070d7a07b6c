import Verif.Spec.Compilers
/-!
C71: the macros by which the library is told which instructions it may use and which options are on.
-/
namespace Dpm.Config
open Dpm.X86

def x86Target (e : Env) : Bool := defd e "i386" || (defd e "__i386__" || (defd e "__i386" || (defd e "__x86_64__" || (defd e "_M_X86" || (defd e "_M_IX86" || defd e "_M_X64")))))

set_option maxRecDepth 100000 in
set_option maxHeartbeats 4000000 in
theorem unit_ext (e : Env) (hp : NotPreset e) (x : Ext) : defd (unit e) x.dpm = (x86Target e && match x with
    | .sse => defd e "__SSE__" || (defd e "_M_IX86_FP" && decide (1 ≤ (e "_M_IX86_FP").getD 0) || (defd e "_M_AMD64" || defd e "_M_X64"))
    | .sse2 => defd e "__SSE2__" || (defd e "_M_IX86_FP" && decide (2 ≤ (e "_M_IX86_FP").getD 0) || (defd e "_M_AMD64" || defd e "_M_X64"))
    | .sse3 => defd e "__SSE3__" || (defd e "__AVX__" && defd e "_MSC_VER")
    | .ssse3 => defd e "__SSSE3__" || (defd e "__AVX__" && defd e "_MSC_VER")
    | .sse41 => defd e "__SSE4_1__" || (defd e "__AVX__" && defd e "_MSC_VER")
    | .sse42 => defd e "__SSE4_2__" || (defd e "__AVX__" && defd e "_MSC_VER")
    | .avx => defd e "__AVX__"
    | .fma => defd e "__FMA__" || (defd e "__AVX2__" && defd e "_MSC_VER")
    | .avx2 => defd e "__AVX2__"
    | .avx512f => defd e "__AVX512F__"
    | .avx512cd => defd e "__AVX512F__" && defd e "__AVX512CD__"
    | .avx512bw => defd e "__AVX512F__" && defd e "__AVX512BW__"
    | .avx512dq => defd e "__AVX512F__" && defd e "__AVX512DQ__"
    | .avx512vl => defd e "__AVX512F__" && defd e "__AVX512VL__") := by
  have h := hp x
  unfold unit preprocess configHpp archHpp
  simp only [List.cons_append, List.nil_append, List.foldl, step, PP.live, Cond.eval, List.tail, defd, x86Target]
  cases x <;> simp [Ext.dpm] at h ⊢ <;> simp only [h] <;> grind

set_option maxRecDepth 100000 in
set_option maxHeartbeats 4000000 in
/-- the other macros of interest -/
theorem unit_rest (e : Env) :
    defd (unit e) "DPM_PROPAGATE_NAN" = (defd e "DPM_PROPAGATE_NAN" || defd e "DPM_HANDLE_ERRORS") ∧
    defd (unit e) "DPM_HANDLE_ERRORS" = defd e "DPM_HANDLE_ERRORS" ∧
    (x86Target e = true → unit e "DPM_NOT_SSSE3" = some (if defd e "__SSSE3__" then 0 else 1)) := by
  unfold unit preprocess configHpp archHpp
  simp only [List.cons_append, List.nil_append, List.foldl, step, PP.live, Cond.eval, List.tail, defd, x86Target]
  refine ⟨?_, ?_, ?_⟩
  · simp
    cases e "DPM_PROPAGATE_NAN" <;> cases e "DPM_HANDLE_ERRORS" <;> simp
  · simp
  · intro hx
    simp only [Bool.or_eq_true] at hx
    simp
    have hn : ¬ (e "i386" = none ∧ e "__i386__" = none ∧ e "__i386" = none ∧ e "__x86_64__" = none ∧ e "_M_X86" = none ∧ e "_M_IX86" = none ∧
        e "_M_X64" = none) := by
      rintro ⟨h1, h2, h3, h4, h5, h6, h7⟩
      simp [h1, h2, h3, h4, h5, h6, h7] at hx
    simp only [hx, hn, true_and, false_or]
    by_cases hs : e "__SSSE3__" = none
    · simp [hs]
    · simp [hs, Option.isSome_iff_ne_none.2 hs]
/-- a macro no file mentions keeps its definition -/
theorem step_other {s : String} {p : PP} {l : Line} (hl : ∀ v, l ≠ .define s v) : (step p l).env s = p.env s := by
  unfold step
  cases l with
  | define t v =>
    have : (s == t) = false := by
      rw [beq_eq_false_iff_ne]; rintro rfl; exact hl v rfl
    simp [this]
  | els => cases h : p.stack <;> simp
  | _ => rfl
theorem preprocess_other {s : String} (file : List Line) (e : Env) (hf : ∀ v, Line.define s v ∉ file) : preprocess file e s = e s := by
  unfold preprocess
  suffices h : ∀ p : PP, (file.foldl step p).env s = p.env s from h _
  induction file with
  | nil => intro p; rfl
  | cons l r ih =>
    intro p
    rw [List.foldl_cons, ih (fun v hv => hf v (List.mem_cons_of_mem _ hv)),
      step_other (fun v hv => hf v (hv ▸ List.mem_cons_self))]
theorem not_defined (s : String) (h : s ∉ configHpp.filterMap (fun l => match l with | .define t _ => some t | _ => none)) (v : Int) :
    Line.define s v ∉ configHpp := fun hm => h (List.mem_filterMap.2 ⟨_, hm, rfl⟩)

/-- the library is told of exactly the extensions `on` -/
def Told (on : Ext → Bool) (e : Env) : Prop := ∀ x : Ext, defd (unit e) x.dpm = on x
theorem isa_wf {on : Ext → Bool} {e : Env} (hc : Closed on) (ht : Told on e) : (isaOf e).Wf := by
  have h2 : (isaOf e) = ⟨on .sse3, on .ssse3, on .sse41, on .avx, on .avx2, on .avx512vl, on .avx512bw, on .avx512dq⟩ := by
    rw [← ht .sse3, ← ht .ssse3, ← ht .sse41, ← ht .avx, ← ht .avx2, ← ht .avx512vl, ← ht .avx512bw, ← ht .avx512dq]; rfl
  rw [h2]
  unfold ISA.Wf
  have k : ∀ {a b : Ext}, a.base = some b → on a = true → on b = true := fun hb ha => hc _ _ ha hb
  exact ⟨k rfl, k rfl, fun h => k (a := .sse42) rfl (k rfl h), k rfl, fun h => k (a := .avx512f) rfl (k rfl h),
    fun h => k (a := .avx512f) rfl (k rfl h), fun h => k (a := .avx512f) rfl (k rfl h)⟩
/-- C71: told of the extensions `on`, the instruction-set record and the FMA switch every other theorem takes as parameters are exactly those. -/
theorem C71_parameters {on : Ext → Bool} {e : Env} (ht : Told on e) :
    isaOf e = ({ sse3 := on .sse3, ssse3 := on .ssse3, sse41 := on .sse41, avx := on .avx, avx2 := on .avx2, avx512vl := on .avx512vl, avx512bw := on .avx512bw, avx512dq := on .avx512dq } : ISA) ∧ fmaOf e = on .fma := by
  refine ⟨?_, ht .fma⟩
  rw [← ht .sse3, ← ht .ssse3, ← ht .sse41, ← ht .avx, ← ht .avx2, ← ht .avx512vl, ← ht .avx512bw, ← ht .avx512dq]; rfl
/-- C71: with GCC or Clang, whatever extensions are enabled, the library is told of exactly those; the combination it sees is one of those
the other theorems are about. -/
theorem C71_gnu {on : Ext → Bool} {e : Env} (h : Gnu on e) : Told on e ∧ (isaOf e).Wf := by
  have ht : Told on e := by
    intro x
    rw [unit_ext e h.notPreset x]
    have hx : x86Target e = true := by
      unfold x86Target
      rcases h.x86 with h | h <;> simp [h]
    have hn : ∀ s, e s = none → defd e s = false := fun s hs => by unfold defd; rw [hs]; rfl
    rw [hx, hn _ h.notMsvc.1, hn _ h.notMsvc.2.1, hn _ h.notMsvc.2.2.1, hn _ h.notMsvc.2.2.2]
    have hm := h.macros
    have k : ∀ y : Ext, y.base = some .avx512f → (on .avx512f && on y) = on y := by
      intro y hy
      cases hyo : on y
      · simp
      · rw [h.closed y _ hyo hy]; rfl
    have hmx := hm x
    have h5 := hm .avx512f
    cases x <;> simp only [Ext.gnu] at hmx h5 <;> simp [hmx] <;> rw [h5] <;>
      (intro hh; exact h.closed _ _ hh rfl)
  exact ⟨ht, isa_wf h.closed ht⟩
theorem has_closed (a : Arch) : Closed a.has := by
  intro x b
  revert b
  cases a <;> cases x <;> simp [Arch.has, Ext.base]
/-- C71: with MSVC, for every target and `/arch`, the library is told of exactly the extensions the option enables. -/
theorem C71_msvc {x64 : Bool} {a : Arch} {e : Env} (h : Msvc x64 a e) : Told a.has e ∧ (isaOf e).Wf := by
  have ht : Told a.has e := by
    intro x
    rw [unit_ext e h.notPreset x, h.msc]
    have hm := h.macros
    have hx : x86Target e = true := by
      have := h.target
      unfold x86Target
      cases x64 <;> simp at this <;> simp [this]
    rw [hx]
    have ht := h.target
    have ho := h.ok
    unfold MsvcOk at ho
    have hn : ∀ s, e s = none → defd e s = false := fun s hs => by unfold defd; rw [hs]; rfl
    have hfp : (defd e "_M_IX86_FP" = !x64) ∧ (x64 = false → (e "_M_IX86_FP").getD 0 = a.fp) := by
      cases x64 <;> simp at ht
      · exact ⟨by unfold defd; rw [ht.2.2.2]; rfl, fun _ => by rw [ht.2.2.2]; rfl⟩
      · exact ⟨hn _ ht.2.2, fun h => by cases h⟩
    have hx64 : defd e "_M_X64" = x64 ∧ defd e "_M_AMD64" = x64 := by
      cases x64 <;> simp at ht
      · exact ⟨hn _ ht.2.1, hn _ ht.2.2.1⟩
      · exact ⟨ht.1, ht.2.1⟩
    rw [hfp.1, hx64.1, hx64.2]
    have m0 := hm .sse; have m1 := hm .sse2; have m2 := hm .sse3; have m3 := hm .ssse3; have m4 := hm .sse41; have m5 := hm .sse42; have m6 := hm .avx
    have m7 := hm .fma; have m8 := hm .avx2; have m9 := hm .avx512f; have m10 := hm .avx512cd; have m11 := hm .avx512bw; have m12 := hm .avx512dq
    have m13 := hm .avx512vl
    simp only [Ext.gnu] at m0 m1 m2 m3 m4 m5 m6 m7 m8 m9 m10 m11 m12 m13
    simp only [m0, m1, m2, m3, m4, m5, m6, m7, m8, m9, m10, m11, m12, m13]
    have hfp2 := hfp.2
    cases x64
    · rw [hfp2 rfl]; cases a <;> cases x <;> decide
    · have := ho rfl
      cases a <;> cases x <;> first | exact absurd rfl this.1 | exact absurd rfl this.2 | simp [msvcMacros, Arch.has]
  exact ⟨ht, isa_wf (has_closed a) ht⟩
/-- C71: with Clang's MSVC-compatible driver likewise, if FMA is enabled together with AVX2 (`/arch:AVX2` does) … -/
theorem C71_clang_cl_partial {on : Ext → Bool} {e : Env} (h : ClangCl on e) (hf : on .avx2 = true → on .fma = true) : Told on e ∧ (isaOf e).Wf := by
  have ht : Told on e := by
    intro x
    rw [unit_ext e h.notPreset x]
    have hx : x86Target e = true := by unfold x86Target; simp [h.msvc.2]
    have k : ∀ {a b : Ext}, a.base = some b → on a = true → on b = true := fun hb ha => h.closed _ _ ha hb
    have hm := h.macros
    have m0 := hm .sse; have m1 := hm .sse2; have m2 := hm .sse3; have m3 := hm .ssse3; have m4 := hm .sse41; have m5 := hm .sse42; have m6 := hm .avx
    have m7 := hm .fma; have m8 := hm .avx2; have m9 := hm .avx512f; have m10 := hm .avx512cd; have m11 := hm .avx512bw; have m12 := hm .avx512dq
    have m13 := hm .avx512vl
    simp only [Ext.gnu] at m0 m1 m2 m3 m4 m5 m6 m7 m8 m9 m10 m11 m12 m13
    simp only [m0, m1, m2, m3, m4, m5, m6, m7, m8, m9, m10, m11, m12, m13, hx, h.msvc.1, h.msvc.2]
    have b2 := h.baseline
    have b1 : on .sse = true := k rfl b2
    have c42 : on .avx = true → on .sse42 = true := k rfl
    have c41 : on .sse42 = true → on .sse41 = true := k rfl
    have c3s : on .sse41 = true → on .ssse3 = true := k rfl
    have c3 : on .ssse3 = true → on .sse3 = true := k rfl
    have d1 : on .avx512cd = true → on .avx512f = true := k rfl
    have d2 : on .avx512bw = true → on .avx512f = true := k rfl
    have d3 : on .avx512dq = true → on .avx512f = true := k rfl
    have d4 : on .avx512vl = true → on .avx512f = true := k rfl
    clear hm k
    have b1' := b1
    cases x <;> simp [b1, b2] <;> intro hh <;> first | exact hf hh | simp_all
  exact ⟨ht, isa_wf h.closed ht⟩
/-- … and not otherwise: AVX2 without FMA makes the library use FMA instructions the compiler was not asked to generate. -/
theorem C71_clang_cl_violated {on : Ext → Bool} {e : Env} (h : ClangCl on e) (h2 : on .avx2 = true) (hf : on .fma = false) :
    defd (unit e) Ext.fma.dpm = true ∧ ¬ Told on e := by
  have hx : x86Target e = true := by unfold x86Target; simp [h.msvc.2]
  have m : defd e "__AVX2__" = on .avx2 := h.macros .avx2
  have : defd (unit e) Ext.fma.dpm = true := by
    rw [unit_ext e h.notPreset .fma, hx, h.msvc.1]; simp [m, h2]
  exact ⟨this, fun ht => by have := ht .fma; simp_all⟩
/-- C71: for a target that is not x86 no extension is announced. -/
theorem C71_other {e : Env} (hp : NotPreset e) (h : x86Target e = false) : Told (fun _ => false) e := by
  intro x
  rw [unit_ext e hp x, h]; rfl
/-- C71: the options: error handling always comes with NaN propagation, whatever is defined on the command line; each option is on when its macro
is defined. -/
theorem C71_options (e : Env) : (mathOptOf e).Wf ∧ (mathOptOf e).handleErr = defd e "DPM_HANDLE_ERRORS" ∧
    ((mathOptOf e).propNan = true ↔ defd e "DPM_PROPAGATE_NAN" = true ∨ defd e "DPM_HANDLE_ERRORS" = true) := by
  obtain ⟨h1, h2, -⟩ := unit_rest e
  unfold mathOptOf MathOpt.Wf
  simp only [h1, h2, Bool.or_eq_true]
  exact ⟨Or.inr, trivial, trivial⟩
/-- C71: with GCC and Clang the shuffle overload for 1- and 2-byte elements exists when SSSE3 is enabled … -/
theorem C71_shuffle {on : Ext → Bool} {e : Env} (h : Gnu on e) (c : Cfg) (hc : c.s = isaOf e) : shuffleOverloadOf e c = shuffleOverload c := by
  have hx : x86Target e = true := by
    unfold x86Target
    rcases h.x86 with h | h <;> simp [h]
  have h1 := (unit_rest e).2.2 hx
  have h2 : c.s.ssse3 = defd e "__SSSE3__" := by
    rw [hc, show (isaOf e).ssse3 = on .ssse3 from (C71_gnu h).1 .ssse3]
    exact (h.macros .ssse3).symm
  unfold shuffleOverloadOf shuffleOverload
  rw [h1, h2]
  cases defd e "__SSSE3__" <;> simp
/-- … with MSVC it never exists, although the library is told that SSSE3 is there. -/
theorem C71_shuffle_msvc_violated {x64 : Bool} {a : Arch} {e : Env} (h : Msvc x64 a e) (c : Cfg) (hb : c.T.bytes < 4) (hc : c.s = isaOf e) :
    shuffleOverloadOf e c = false ∧ (a.has .ssse3 = true → shuffleOverload c = true) := by
  have hx : x86Target e = true := by
    have := h.target
    unfold x86Target
    cases x64 <;> simp at this <;> simp [this]
  have h1 := (unit_rest e).2.2 hx
  have h2 : defd e "__SSSE3__" = false := by
    have := h.macros .ssse3
    rw [Ext.gnu] at this
    rw [this]; cases a <;> decide
  unfold shuffleOverloadOf shuffleOverload
  rw [h1, h2, hc, show (isaOf e).ssse3 = a.has .ssse3 from (C71_msvc h).1 .ssse3]
  have hb' : ¬ 4 ≤ c.T.bytes := by omega
  refine ⟨by simp [hb'], fun ha => by simp [ha]⟩
/-- C71: kernels guarded by `DPM_HAS_AVX512LV` are never compiled: no compiler and no header defines that macro, with AVX-512VL or without. -/
theorem C71_avx512vl_violated {e : Env} (h : e "DPM_HAS_AVX512LV" = none) : unit e "DPM_HAS_AVX512LV" = none := by
  unfold unit
  rw [preprocess_other _ _ (not_defined _ (by decide +kernel)), h]
/-- C71: the CMake options reach the library: error handling and NaN propagation as requested … -/
theorem C71_cmake_partial {o : Options} {e : Env} (h1 : e "DPM_HANDLE_ERRORS" = none) (h2 : e "DPM_PROPAGATE_NAN" = none) (hs : o.svml = false) :
    mathOptOf (libraryEnv o e) = ⟨o.propNan || o.handleErr, o.handleErr⟩ ∧
    (e "DPM_INLINE_EXTENSIONS" = none → defd (unit (libraryEnv o e)) "DPM_INLINE_EXTENSIONS" = o.inlineExt) := by
  obtain ⟨k1, k2, -⟩ := unit_rest (libraryEnv o e)
  constructor
  · unfold mathOptOf
    rw [k1, k2]
    unfold libraryEnv defd
    cases o.handleErr <;> cases o.propNan <;> simp [hs, h1, h2]
  · intro h
    unfold defd unit
    rw [preprocess_other _ _ (not_defined _ (by decide +kernel))]
    unfold libraryEnv
    cases o.inlineExt <;> simp [h]
/-- … but `DPM_USE_SVML` does not: it is never defined, and NaN propagation is turned on instead. -/
theorem C71_svml_violated {o : Options} {e : Env} (h : e "DPM_USE_SVML" = none) :
    unit (libraryEnv o e) "DPM_USE_SVML" = none ∧ (o.svml = true → (mathOptOf (libraryEnv o e)).propNan = true) := by
  constructor
  · unfold unit
    rw [preprocess_other _ _ (not_defined _ (by decide +kernel))]
    unfold libraryEnv
    simp [h]
  · intro hs
    rw [(C71_options _).2.2]
    left
    unfold libraryEnv defd
    cases o.propNan <;> simp [hs]
/-- C71: and no option reaches the programs that link the library: the definitions they compile the headers with do not depend on them. -/
theorem C71_consumer_violated (o o' : Options) (e : Env) : unit (consumerEnv o e) = unit (consumerEnv o' e) ∧
    (e "DPM_INLINE_EXTENSIONS" = none → unit (consumerEnv { o with inlineExt := true } e) "DPM_INLINE_EXTENSIONS" = none ∧
      defd (unit (libraryEnv { o with inlineExt := true } e)) "DPM_INLINE_EXTENSIONS" = true) := by
  refine ⟨rfl, fun h => ⟨?_, ?_⟩⟩
  · unfold unit
    rw [preprocess_other _ _ (not_defined _ (by decide +kernel))]; exact h
  · unfold unit defd
    rw [preprocess_other _ _ (not_defined _ (by decide +kernel))]
    rfl

/-! ### concrete cases -/
/-- `g++ -mavx2` on x86-64 -/
def exGnu : Env := fun s => if ["__x86_64__", "__SSE__", "__SSE2__", "__SSE3__", "__SSSE3__", "__SSE4_1__", "__SSE4_2__", "__AVX__", "__AVX2__"].contains s then some 1 else none
def exOn (x : Ext) : Bool := [Ext.sse, .sse2, .sse3, .ssse3, .sse41, .sse42, .avx, .avx2].contains x
theorem exGnu_ok : Gnu exOn exGnu where
  closed := by intro x b; revert b; cases x <;> simp [exOn, Ext.base]
  macros := by intro x; cases x <;> decide
  x86 := by decide
  notMsvc := by decide
  notPreset := by intro x; cases x <;> decide
example : isaOf exGnu = ISA.avx2L := by
  have h := (C71_gnu exGnu_ok).1
  have e : isaOf exGnu = ⟨exOn .sse3, exOn .ssse3, exOn .sse41, exOn .avx, exOn .avx2, exOn .avx512vl, exOn .avx512bw, exOn .avx512dq⟩ := by
    rw [← h .sse3, ← h .ssse3, ← h .sse41, ← h .avx, ← h .avx2, ← h .avx512vl, ← h .avx512bw, ← h .avx512dq]; rfl
  rw [e]; decide
/-- `cl /arch:AVX` for x64 and `cl /arch:SSE` for 32 bits -/
def exMsvc : Env := fun s => if ["_MSC_VER", "_M_X64", "_M_AMD64", "__AVX__"].contains s then some 1 else none
theorem exMsvc_ok : Msvc true .avx exMsvc where
  ok := fun _ => by decide
  msc := by decide
  target := by decide
  macros := by intro x; cases x <;> decide
  notPreset := by intro x; cases x <;> decide
def exMsvc32 : Env := fun s => if ["_MSC_VER", "_M_IX86", "_M_IX86_FP"].contains s then some 1 else none
theorem exMsvc32_ok : Msvc false .sse exMsvc32 where
  ok := fun h => by cases h
  msc := by decide
  target := by decide
  macros := by intro x; cases x <;> decide
  notPreset := by intro x; cases x <;> decide
example : (isaOf exMsvc).ssse3 = true ∧ shuffleOverloadOf exMsvc ⟨isaOf exMsvc, .i16, 8, .v128⟩ = false :=
  ⟨(C71_msvc exMsvc_ok).1 .ssse3, (C71_shuffle_msvc_violated exMsvc_ok ⟨isaOf exMsvc, .i16, 8, .v128⟩ (by decide) rfl).1⟩
example : fmaOf exGnu = exOn .fma ∧ (isaOf exGnu).avx2 = exOn .avx2 :=
  ⟨(C71_parameters (C71_gnu exGnu_ok).1).2, congrArg ISA.avx2 (C71_parameters (C71_gnu exGnu_ok).1).1⟩
/-- `clang-cl -mavx2` -/
def exClangCl : Env := fun s => if s = "_MSC_VER" ∨ s = "_M_X64" then some 1 else exGnu s
theorem exClangCl_ok : ClangCl exOn exClangCl where
  closed := exGnu_ok.closed
  macros := by intro x; cases x <;> decide
  msvc := by decide
  baseline := by decide
  notPreset := by intro x; cases x <;> decide
example : defd (unit exClangCl) "DPM_HAS_FMA" = true ∧ defd exClangCl "__FMA__" = false :=
  ⟨(C71_clang_cl_violated exClangCl_ok (by decide) (by decide)).1, by decide⟩
example : (mathOptOf (libraryEnv { handleErr := false, propNan := false, svml := true } exGnu)).propNan = true :=
  (C71_svml_violated (by decide)).2 rfl
end Dpm.Config
