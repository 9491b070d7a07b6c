import Verif.Props.Exec
import Verif.Props.ScalarProgram
/-
C72: programs with loops, branches and memory behave the same on both backends.
-/
namespace Dpm.X86
open Dpm.Reg Dpm.Util Dpm.Generic Dpm.Spec

/-! ### the two backends -/
/-- The same elements in all variables, the same client variables, the same array. -/
structure AgreeState (c : Cfg) (s : XState c) (t : GState c.T.ity c.N) : Prop where
  env : AgreeEnv c s.env t.env
  scal : s.scal = t.scal
  mem : s.mem = t.mem
/-- Questions the x86 backend answers correctly (C18-C20). -/
def supQuery (c : Cfg) : Query → Prop
  | .allOf | .someOf | .count => ¬ wideMask c.s c.T c.v ∧ tailOk c
  | .anyOf | .noneOf => tailOk c
  | .minIndex => True
  | .maxIndex => c.N % c.e = 0
/-- Statements whose operators exist on the x86 backend and are not defective there. -/
def PrimOk (c : Cfg) : Prim c.w → Prop
  | .set _ e => ∀ s, Supported c (e s) ∧ Sound c (e s)
  | .mset _ e => ∀ s, Supported c (e s) ∧ Sound c (e s)
  | .ask _ q _ => supQuery c q
  | .red _ _ _ => False
  | .own _ | .load _ _ | .store _ _ | .get _ _ _ | .mget _ _ _ => True

section
variable (fp : FpOps) {c : Cfg} (hc : c.Ok) (hint : c.T.flt = false)
theorem ofUb_ok {α : Type} {o : Option α} {x : α} : Out.ofUb o = .ok x ↔ o = some x := by
  cases o with
  | none => exact ⟨fun h => (by cases h), fun h => by cases h⟩
  | some y => exact ⟨fun h => (by cases h; rfl), fun h => by cases h; rfl⟩
theorem agree_upd {ρ : XEnv c} {σ : GEnv c.w c.N} (h : AgreeEnv c ρ σ) (k : Nat) {x : c.Data} {g : GSimd (BitVec c.w) c.N} (ha : Agree c .vec x g) :
    AgreeEnv c { ρ with vec := fun j => if j = k then x else ρ.vec j } { σ with vec := fun j => if j = k then g else σ.vec j } := by
  refine ⟨fun j => ?_, h.2⟩
  dsimp only
  split
  · exact ha
  · exact h.1 j
theorem agree_updm {ρ : XEnv c} {σ : GEnv c.w c.N} (h : AgreeEnv c ρ σ) (k : Nat) {x : c.Data} {g : GMask c.N} (ha : Agree c .msk x g) :
    AgreeEnv c { ρ with msk := fun j => if j = k then x else ρ.msk j } { σ with msk := fun j => if j = k then g else σ.msk j } := by
  refine ⟨h.1, fun j => ?_⟩
  dsimp only
  split
  · exact ha
  · exact h.2 j
theorem someTrue_iff {N : Nat} {f : Nat → Bool} : someTrue N f = true ↔ ∃ i, i < N ∧ f i = true := by
  unfold someTrue
  rw [List.any_eq_true]
  exact exists_congr fun i => by rw [List.mem_range]
theorem someTrue_congr {N : Nat} {f g : Nat → Bool} (h : ∀ i, i < N → f i = g i) : someTrue N f = someTrue N g := by
  rw [Bool.eq_iff_iff, someTrue_iff, someTrue_iff]
  exact exists_congr fun i => and_congr_right fun hi => by rw [h i hi]
include hc in
theorem ask_ok {q : Query} (hq : supQuery c q) {m : c.Data} {g : GMask c.N} (h : Agree c .msk m g) {v : Int} (hv : gAsk q g = .ok v) : xAsk c q m = .ok v := by
  have hm : Canon c m := canon_agree h
  have he : ∀ i, i < c.N → mget c m i = g.get i := fun i hi => (h i hi).1
  have qs := C05_quantifiers g
  have bool : ∀ (b : Bool) (p : Prop) [Decidable p], (b = true ↔ p) → decide p = b := by
    intro b p _ hb; cases b
    · exact decide_eq_false (fun h => by cases hb.2 h)
    · exact decide_eq_true (hb.1 rfl)
  have hall : ∀ hq : ¬ wideMask c.s c.T c.v ∧ tailOk c, _ := fun hq => C48_queries_partial hc hq.1 hq.2 m g h
  cases q with
  | allOf => cases hv; simp only [xAsk, (hall hq).1]; rfl
  | anyOf =>
    cases hv
    have : Mask.anyOf c m = Generic.anyOf g := by
      rw [C18_any_of_partial hc hq m hm]
      refine bool _ _ (qs.2.1.trans ?_)
      exact exists_congr fun i => and_congr_right fun hi => by rw [he i hi]
    simp only [xAsk, this]
  | noneOf =>
    cases hv
    have : Mask.noneOf c m = Generic.noneOf g := by
      rw [C18_none_of_partial hc hq m hm]
      refine bool _ _ (qs.2.2.1.trans ?_)
      exact forall_congr' fun i => forall_congr' fun hi => by rw [he i hi]
    simp only [xAsk, this]
  | someOf => cases hv; simp only [xAsk, (hall hq).2.2.2.1]; rfl
  | count => cases hv; simp only [xAsk, (hall hq).2.2.2.2.1]
  | minIndex =>
    simp only [gAsk] at hv
    split at hv
    · rename_i ha
      cases hv
      obtain ⟨k, hk⟩ := first_exists c.N g.get (someTrue_iff.1 ha)
      have h1 := C20_min_index hc m hm (k := k) ⟨hk.1, (he k hk.1).trans hk.2.1, fun i hi => (he i (Nat.lt_trans hi hk.1)).trans (hk.2.2 i hi)⟩
      simp only [xAsk, someTrue_congr he, ha, h1, (C05_min_index g).1 k hk, if_true]; rfl
    · cases hv
  | maxIndex =>
    simp only [gAsk] at hv
    split at hv
    · rename_i ha
      cases hv
      obtain ⟨k, hk⟩ := last_exists c.N g.get (someTrue_iff.1 ha)
      have h1 := C20_max_index_partial hc hq m hm (k := k) ⟨hk.1, (he k hk.1).trans hk.2.1, fun i hi h2 => (he i h2).trans (hk.2.2 i hi h2)⟩
      simp only [xAsk, someTrue_congr he, ha, h1, (C05_max_index g).1 k hk, if_true]; rfl
    · cases hv
include hc hint in
theorem step_sim (len : Nat) (p : Prim c.w) (hp : PrimOk c p) (s : XState c) (t t' : GState c.T.ity c.N) (h : AgreeState c s t)
    (ht : gStep c.T.ity c.N len p t = .ok t') : ∃ s', xStep c fp len p s = .ok s' ∧ AgreeState c s' t' := by
  obtain ⟨sρ, ss, sm⟩ := s
  obtain ⟨tσ, ts, tm⟩ := t
  obtain ⟨he, rfl, rfl⟩ := h
  cases p with
  | own f =>
    simp only [gStep, xStep, gStepE, xStepE] at ht ⊢
    cases hf : f ss sm with
    | none => rw [hf] at ht; cases ht
    | some r => rw [hf] at ht; cases ht; exact ⟨_, rfl, ⟨he, rfl, rfl⟩⟩
  | set k e =>
    simp only [gStep, xStep, gStepE, xStepE] at ht ⊢
    cases hg : evalG c.T.ity tσ (e ss) with
    | none => rw [hg] at ht; cases ht
    | some g =>
      rw [hg] at ht; cases ht
      obtain ⟨r, hr, ha⟩ := C48_refines_partial fp hc hint sρ tσ he (e ss) (hp ss).1 (hp ss).2 g hg
      rw [hr]
      exact ⟨_, rfl, ⟨agree_upd he k ha, rfl, rfl⟩⟩
  | mset k e =>
    simp only [gStep, xStep, gStepE, xStepE] at ht ⊢
    cases hg : evalG c.T.ity tσ (e ss) with
    | none => rw [hg] at ht; cases ht
    | some g =>
      rw [hg] at ht; cases ht
      obtain ⟨r, hr, ha⟩ := C48_refines_partial fp hc hint sρ tσ he (e ss) (hp ss).1 (hp ss).2 g hg
      rw [hr]
      exact ⟨_, rfl, ⟨agree_updm he k ha, rfl, rfl⟩⟩
  | load k a =>
    simp only [gStep, xStep, gStepE, xStepE] at ht ⊢
    split at ht
    · rename_i hl
      cases ht
      have hpos := hc.pos
      obtain ⟨r, hr, hk⟩ := (C15_element_aligned hc (f := .element) (elementFlag c.v) (sρ.vec k) (len - a ss) (from' sm (a ss))).2.1 (by omega)
      rw [hr]
      refine ⟨_, rfl, ⟨agree_upd he k fun i hi => ?_, rfl, rfl⟩⟩
      rw [hk i hi]
      exact ((C06_copy (tσ.vec k) id id (from' sm (a ss))).2.2.1 i hi).symm
    · cases ht
  | store k a =>
    simp only [gStep, xStep, gStepE, xStepE] at ht ⊢
    split at ht
    · rename_i hl
      cases ht
      have hpos := hc.pos
      obtain ⟨r, hr, hk⟩ := (C15_element_aligned hc (f := .element) (elementFlag c.v) (sρ.vec k) (len - a ss) (from' sm (a ss))).1 (by omega)
      rw [hr]
      refine ⟨_, rfl, ⟨he, rfl, ?_⟩⟩
      show patch sm (a ss) r = patch sm (a ss) _
      congr 1
      funext q
      have hcp := C06_copy (tσ.vec k) id id (from' sm (a ss))
      rw [hk]
      split
      · rename_i hq; rw [he.1 k q hq]; exact (hcp.1 q hq).symm
      · rename_i hq; exact (hcp.2.1 q (by omega)).symm
    · cases ht
  | get r k i =>
    simp only [gStep, xStep, gStepE, xStepE] at ht ⊢
    split at ht
    · rename_i hl
      cases ht
      refine ⟨_, if_pos hl, ⟨he, ?_, rfl⟩⟩
      dsimp only
      rw [he.1 k _ hl]
    · cases ht
  | mget r k i =>
    simp only [gStep, xStep, gStepE, xStepE] at ht ⊢
    split at ht
    · rename_i hl
      cases ht
      refine ⟨_, if_pos hl, ⟨he, ?_, rfl⟩⟩
      dsimp only
      rw [(he.2 k _ hl).1]
    · cases ht
  | ask r q k =>
    simp only [gStep, xStep, gStepE, xStepE] at ht ⊢
    cases hg : gAsk q (tσ.msk k) with
    | ok v =>
      rw [hg] at ht; cases ht
      rw [ask_ok hc hp (he.2 k) hg]
      exact ⟨_, rfl, ⟨he, rfl, rfl⟩⟩
    | ub => rw [hg] at ht; cases ht
    | illFormed => rw [hg] at ht; cases ht
  | red r o k => exact absurd hp id

include hc hint in
/-- C72, proved for programs whose operators exist on the x86 backend and are not among its defective ones: from states that agree, whenever
the generic program finishes the x86 program finishes in a state that agrees - the same elements in every variable, the same client
variables and the same array - and whenever the generic program runs forever so does the x86 program.  The program, its loops and branches,
the integer type, the size, the instruction-set level and the contents of uninitialised storage are arbitrary. -/
theorem C72_programs_partial (len : Nat) (p : Stm c.w) (hp : p.All (PrimOk c)) (s : XState c) (t : GState c.T.ity c.N) (h : AgreeState c s t) :
    (∀ t', (gExec c.T.ity c.N len).Finishes p t t' → ∃ s', (xExec c fp len).Finishes p s s' ∧ AgreeState c s' t') ∧
    ((gExec c.T.ity c.N len).Diverges p t → (xExec c fp len).Diverges p s) := by
  exact refine_program (M₁ := xExec c fp len) (M₂ := gExec c.T.ity c.N len) (AgreeState c) (fun s t h => h.scal) (PrimOk c)
    (fun q hq s t t' hR ht => step_sim fp hc hint len q hq s t t' hR ht) p hp s t h
end

/-- C72 in full: no condition on the operators used. -/
def C72_full : Prop := ∀ (fp : FpOps) (c : Cfg), c.Ok → c.T.flt = false → ∀ (len : Nat) (p : Stm c.w) (s s' : XState c) (t t' : GState c.T.ity c.N),
  AgreeState c s t → (gExec c.T.ity c.N len).Finishes p t t' → (xExec c fp len).Finishes p s s' → s'.scal = t'.scal ∧ s'.mem = t'.mem
/-- `m_0 = ~mask(true); s_0 = m_0[0]` -/
def complProg (w : Nat) : Stm w := .seq (.prim (.mset 0 fun _ => .mun .compl (.mbcast true))) (.prim (.mget 0 0 fun _ => 0))
/-- C72 violated for every configuration: the program `m = ~mask(true); s = m[0]` finishes with `s = 0` on x86 and with `s = 1` on the
generic backend. -/
theorem C72_compl_violated (fp : FpOps) {c : Cfg} (hc : c.Ok) (len : Nat) (s : XState c) (t : GState c.T.ity c.N) :
    ∃ s' t', (xExec c fp len).Finishes (complProg c.w) s s' ∧ (gExec c.T.ity c.N len).Finishes (complProg c.w) t t' ∧ s'.scal 0 = 0 ∧ t'.scal 0 = 1 := by
  obtain ⟨r, g, hr, hg, hd⟩ := C48_mask_violated fp hc s.env t.env _ (Or.inl rfl)
  have hpos := hc.pos
  obtain ⟨h1, h2⟩ := hd 0 hpos
  let s1 : XState c := { s with env := { s.env with msk := fun j => if j = 0 then r else s.env.msk j } }
  let t1 : GState c.T.ity c.N := { t with env := { t.env with msk := fun j => if j = 0 then g else t.env.msk j } }
  have a1 : xStep c fp len (.mset 0 fun _ => .mun .compl (.mbcast true)) s = .ok s1 := by simp only [xStep, xStepE, hr]; rfl
  have b1 : gStep c.T.ity c.N len (.mset 0 fun _ => .mun .compl (.mbcast true)) t = .ok t1 := by simp only [gStep, gStepE, hg]; rfl
  have a2 : xStep c fp len (.mget 0 0 fun _ => 0) s1 = .ok { s1 with scal := putScal s1.scal 0 0 } := by
    simp only [xStep, xStepE]; rw [if_pos hpos]; simp only [s1, if_true, h1]; rfl
  have b2 : gStep c.T.ity c.N len (.mget 0 0 fun _ => 0) t1 = .ok { t1 with scal := putScal t1.scal 0 1 } := by
    have : (if GSimd.get (N := c.N) (t1.env.msk 0) 0 then (1 : Int) else 0) = 1 := by
      rw [show t1.env.msk 0 = g from rfl, h2]; rfl
    simp only [gStep, gStepE]; rw [if_pos hpos, this]
  exact ⟨_, _, finishes_seq (M := xExec c fp len) (finishes_prim a1) (finishes_prim a2),
    finishes_seq (M := gExec c.T.ity c.N len) (finishes_prim b1) (finishes_prim b2), rfl, rfl⟩
theorem C72_violated : ¬ C72_full := by
  intro h
  have hag : AgreeState exI32 ⟨zeroX exI32, fun _ => 0, fun _ => 0⟩ ⟨zeroG exI32, fun _ => 0, fun _ => 0⟩ := ⟨zero_agree exI32, rfl, rfl⟩
  obtain ⟨s', t', h1, h2, h3, h4⟩ := C72_compl_violated ⟨fun _ x _ => x, fun _ x _ => x, fun _ x _ => x, fun _ x _ => x⟩ exI32_ok 0
    ⟨zeroX exI32, fun _ => 0, fun _ => 0⟩ ⟨zeroG exI32, fun _ => 0, fun _ => 0⟩
  have := (h _ exI32 exI32_ok rfl 0 _ _ s' _ t' hag h2 h1).1
  rw [this, h4] at h3
  exact absurd h3 (by decide)

/-! ### a program with a data-dependent loop -/
/-- halve every element until all are below 7, counting the rounds: `while (any_of(!(v < 7))) { v = lsr<1>(v); ++rounds; }` -/
def exProg : Stm 32 :=
  .seq (.prim (.mset 0 fun _ => .mun .lnot (.cmp .lt (.var 0) (.bcast 7))))
  (.seq (.prim (.ask 1 .anyOf 0))
    (.loop (fun s => decide (s 1 ≠ 0))
      (.seq (.prim (.set 0 fun _ => .un (.lsr 1) (.var 0)))
      (.seq (.prim (.own fun s m => some (putScal s 2 (s 2 + 1), m)))
      (.seq (.prim (.mset 0 fun _ => .mun .lnot (.cmp .lt (.var 0) (.bcast 7)))) (.prim (.ask 1 .anyOf 0)))))))
theorem exProg_ok : StmOf.All (PrimOk exI32) exProg := by
  have hq : supQuery exI32 .anyOf := show tailOk exI32 by decide
  simp only [StmOf.All, exProg]
  refine ⟨fun _ => ?_, hq, fun _ => ?_, trivial, fun _ => ?_, hq⟩ <;>
    (simp [Supported, Sound, Ex.All, supCmp, supUn, badUn, badMUn]; try decide)
/-- `v[i] = 10 * i` for six `int`s: 50 takes three halvings -/
def exStart : GState exI32.T.ity exI32.N := ⟨⟨fun _ => ⟨fun i => BitVec.ofNat _ (10 * i)⟩, fun _ => ⟨fun _ => false⟩, fun _ => 0, fun _ => false⟩, fun _ => 0, fun _ => 0⟩
def exShow (o : Option (Out (GState exI32.T.ity exI32.N))) : Option (List Int) := o.map fun o => match o with
    | .ok s => [s.scal 1, s.scal 2, ((s.env.vec 0).get 5).toInt]
    | _ => []
theorem exShow_ok {o : Option (Out (GState exI32.T.ity exI32.N))} {a b c : Int} (h : exShow o = some [a, b, c]) :
    ∃ t, o = some (.ok t) ∧ t.scal 2 = b ∧ ((t.env.vec 0).get 5).toInt = c := by
  cases o with
  | none => cases h
  | some o =>
    cases o with
    | ok t =>
      have h := Option.some.inj h
      simp only [List.cons.injEq] at h
      exact ⟨t, rfl, h.2.1, h.2.2.1⟩
    | ub => cases h
    | illFormed => cases h
theorem exProg_run : exShow ((gExec exI32.T.ity exI32.N 0).run 60 exProg exStart) = some [0, 3, 6] := by decide +kernel
def exStartX : XState exI32 :=
  ⟨⟨fun _ => vgenerate exI32 (fun i => BitVec.ofNat _ (10 * i)) (zeroData exI32), fun _ => zeroData exI32, zeroData exI32⟩, fun _ => 0, fun _ => 0⟩
theorem exStart_agree : AgreeState exI32 exStartX exStart := ⟨⟨fun k i hi => elt_vgenerate exI32_ok (fun i => BitVec.ofNat _ (10 * i)) (zeroData exI32) hi, fun k => (zero_agree exI32).2 k⟩, rfl, rfl⟩
example (fp : FpOps) : ∃ s' : XState exI32, (xExec exI32 fp 0).Finishes exProg exStartX s' ∧ s'.scal 2 = 3 ∧ (elt exI32 (s'.env.vec 0) 5).toInt = 6 := by
  obtain ⟨t, hr, h1, h2⟩ := exShow_ok exProg_run
  have hf : (gExec exI32.T.ity exI32.N 0).Finishes exProg exStart t := Exists.intro 60 hr
  obtain ⟨s', f, ha⟩ := (C72_programs_partial fp exI32_ok rfl 0 exProg exProg_ok exStartX exStart exStart_agree).1 t hf
  refine ⟨s', f, ?_, ?_⟩
  · exact (congrFun ha.scal 2).trans h1
  · exact (congrArg BitVec.toInt (ha.env.1 0 5 (by decide))).trans h2
end Dpm.X86
