import Verif.Spec.Machine
import Verif.Props.Imperative
import Verif.Props.X86FloatExpr
import Verif.Props.X86Reduce
/-
C72 and C76: programs with loops, branches and memory mean what they mean for sequences of elements, on both backends, for integers and for
floating point.
-/
namespace Dpm.X86
open Dpm.Reg Dpm.Util Dpm.Generic Dpm.Spec Dpm.Fp Dpm.GenericMath

/-! ### questions about masks -/
theorem find_range {N : Nat} {f : Nat → Bool} {k : Nat} (h : (List.range N).find? f = some k) : IsFirst N f k := by
  obtain ⟨h1, as, bs, h2, h3⟩ := List.find?_eq_some_iff_append.1 h
  have hl := congrArg List.length h2
  simp at hl
  have hk : k = as.length := by
    have h4 : (List.range N)[as.length]'(by simp; omega) = (as ++ k :: bs)[as.length]'(by simp) := by simp only [h2]
    simp at h4
    exact h4.symm
  refine ⟨by omega, h1, fun i hi => ?_⟩
  have : as[i]'(by omega) = i := by
    have h4 : (List.range N)[i]'(by simp; omega) = (as ++ k :: bs)[i]'(by simp; omega) := by simp only [h2]
    rw [List.getElem_append_left (by omega)] at h4
    simpa using h4.symm
  have h5 := h3 _ (List.getElem_mem (by omega : i < as.length))
  rw [this] at h5
  simpa using h5
theorem find_range_rev {N : Nat} {f : Nat → Bool} {k : Nat} (h : (List.range N).reverse.find? f = some k) : IsLast N f k := by
  obtain ⟨h1, as, bs, h2, h3⟩ := List.find?_eq_some_iff_append.1 h
  have h2 : List.range N = bs.reverse ++ k :: as.reverse := by
    have := congrArg List.reverse h2
    simpa using this
  have hl := congrArg List.length h2
  simp at hl
  have hk : k = bs.length := by
    have h4 : (List.range N)[bs.length]'(by simp; omega) = (bs.reverse ++ k :: as.reverse)[bs.length]'(by simp) := by simp only [h2]
    rw [List.getElem_append_right (by simp)] at h4
    simp at h4
    exact h4.symm
  refine ⟨by omega, h1, fun i hi hN => ?_⟩
  have hmem : i ∈ as := by
    have h4 : (List.range N)[i]'(by simp; omega) = (bs.reverse ++ k :: as.reverse)[i]'(by simp; omega) := by simp only [h2]
    rw [List.getElem_append_right (by simp; omega)] at h4
    simp only [List.length_reverse, List.getElem_range] at h4
    obtain ⟨j, hj⟩ : ∃ j, i - bs.length = j + 1 := ⟨i - bs.length - 1, by omega⟩
    simp only [hj, List.getElem_cons_succ] at h4
    rw [h4]
    exact List.mem_reverse.1 (List.getElem_mem _)
  simpa using h3 _ hmem
theorem isFirst_some {N : Nat} {f : Nat → Bool} {k : Nat} (h : IsFirst N f k) : someTrue N f = true := by
  unfold someTrue; rw [List.any_eq_true]; exact ⟨k, List.mem_range.2 h.1, h.2.1⟩
theorem isLast_some {N : Nat} {f : Nat → Bool} {k : Nat} (h : IsLast N f k) : someTrue N f = true := by
  unfold someTrue; rw [List.any_eq_true]; exact ⟨k, List.mem_range.2 h.1, h.2.1⟩
/-- The generic backend answers questions about masks correctly. -/
theorem gAsk_spec {N : Nat} {q : Query} {m : GMask N} {f : Nat → Bool} (h : ∀ i, i < N → m.get i = f i) {v : Int} (hv : sAsk N q f = some v) :
    gAsk q m = .ok v := by
  have qs := C05_quantifiers m
  have bool : ∀ (b : Bool) (p : Prop) [Decidable p], (b = true ↔ p) → (if p then (1 : Int) else 0) = if b then 1 else 0 := by
    intro b p _ hb; cases b
    · rw [if_neg (fun h => by cases hb.2 h)]; rfl
    · rw [if_pos (hb.1 rfl)]; rfl
  cases q with
  | allOf =>
    cases hv
    refine congrArg Out.ok (bool _ _ (qs.1.trans ?_)).symm
    exact forall_congr' fun i => forall_congr' fun hi => by rw [h i hi]
  | anyOf =>
    cases hv
    refine congrArg Out.ok (bool _ _ (qs.2.1.trans ?_)).symm
    exact exists_congr fun i => and_congr_right fun hi => by rw [h i hi]
  | noneOf =>
    cases hv
    refine congrArg Out.ok (bool _ _ (qs.2.2.1.trans ?_)).symm
    exact forall_congr' fun i => forall_congr' fun hi => by rw [h i hi]
  | someOf =>
    cases hv
    refine congrArg Out.ok (bool _ _ (qs.2.2.2.trans ?_)).symm
    exact and_congr (exists_congr fun i => and_congr_right fun hi => by rw [h i hi]) (exists_congr fun i => and_congr_right fun hi => by rw [h i hi])
  | count =>
    cases hv
    simp only [gAsk, C05_count]
    unfold countTrue lanes
    rw [List.map_congr_left fun j hj => h j (List.mem_range.1 hj)]
  | minIndex =>
    obtain ⟨k, hk, rfl⟩ := Option.map_eq_some_iff.1 hv
    have h1 := find_range hk
    have h2 : IsFirst N m.get k := ⟨h1.1, (h k h1.1).trans h1.2.1, fun i hi => (h i (Nat.lt_trans hi h1.1)).trans (h1.2.2 i hi)⟩
    simp only [gAsk, isFirst_some h2, (C05_min_index m).1 k h2, if_true]
  | maxIndex =>
    obtain ⟨k, hk, rfl⟩ := Option.map_eq_some_iff.1 hv
    have h1 := find_range_rev hk
    have h2 : IsLast N m.get k := ⟨h1.1, (h k h1.1).trans h1.2.1, fun i hi hN => (h i hN).trans (h1.2.2 i hi hN)⟩
    simp only [gAsk, isLast_some h2, (C05_max_index m).1 k h2, if_true]
/-- So does the x86 backend where its functions are not defective. -/
theorem xAsk_spec {c : Cfg} (hc : c.Ok) {q : Query} (hq : supQuery c q) {m : c.Data} {f : Nat → Bool} (h : ∀ i, i < c.N → mget c m i = f i) (hm : Canon c m)
    {v : Int} (hv : sAsk c.N q f = some v) : xAsk c q m = .ok v :=
  ask_ok hc hq (g := ⟨f⟩) (fun i hi => ⟨h i hi, hm i hi⟩) (gAsk_spec (fun _ _ => rfl) hv)

/-! ### one statement -/
theorem elems_ok {w : Nat} {α : Type} {N : Nat} {d : α} {g : Nat → Option α} {k : (Nat → α) → SState w} {s : SState w} (h : elems N d g k = .ok s) :
    (∀ i, i < N → g i ≠ none) ∧ s = k fun i => (g i).getD d := by
  unfold elems at h
  split at h
  · rename_i hd
    cases h
    exact ⟨fun i hi hn => (by have := hd i hi; rw [hn] at this; cases this), rfl⟩
  · cases h

section generic
variable {w N : Nat} {E : Kind → Type}
/-- The state of the generic program and the state of the specification. -/
structure GRel (N : Nat) (t : GStateW w N) (s : SState w) : Prop where
  vec : ∀ k i, i < N → (t.env.vec k).get i = s.vec k i
  msk : ∀ k i, i < N → (t.env.msk k).get i = s.msk k i
  scal : t.scal = s.scal
  mem : t.mem = s.mem
theorem GRel.v {t : GStateW w N} {s : SState w} (h : GRel N t s) {i : Nat} (hi : i < N) : t.env.v i = (s.vec · i) := funext fun k => h.vec k i hi
theorem GRel.m {t : GStateW w N} {s : SState w} (h : GRel N t s) {i : Nat} (hi : i < N) : t.env.m i = (s.msk · i) := funext fun k => h.msk k i hi
/-- Statements whose expressions satisfy `Q` and whose questions and reductions satisfy `A` and `R`. -/
def OkFor (Q : {k : Kind} → E k → Prop) (A : Query → Prop) (R : Red → Prop) : PrimE w E → Prop
  | .set _ e => ∀ s, Q (e s)
  | .mset _ e => ∀ s, Q (e s)
  | .ask _ q _ => A q
  | .red _ o _ => R o
  | .own _ | .load _ _ | .store _ _ | .get _ _ _ | .mget _ _ _ => True

theorem gstep_refines (S : Scalar (BitVec w)) (ev : GEnv w N → {k : Kind} → E k → Out (GVal w N k)) (M : Meaning w E) (Q : {k : Kind} → E k → Prop)
    (hev : ∀ (σ : GEnv w N) {k : Kind} (e : E k), Q e → (∀ i, i < N → M.el N i (σ.v i) (σ.m i) e ≠ none) →
      ∃ g, ev σ e = .ok g ∧ ∀ i, i < N → M.el N i (σ.v i) (σ.m i) e = some (gelem g i))
    (R : Red → Prop) (hred : ∀ o, R o → ∀ (x : GSimd (BitVec w) N) v, M.red o (lanes N x.get) = some v → gRed S o x = .ok v)
    (len : Nat) (p : PrimE w E) (hp : OkFor Q (fun _ => True) R p) (t : GStateW w N) (s s' : SState w) (h : GRel N t s)
    (hs : sStep M N len p s = .ok s') : ∃ t', gStepE S ev len p t = .ok t' ∧ GRel N t' s' := by
  obtain ⟨tσ, ts, tm⟩ := t
  obtain ⟨sv, sm, ss, sa⟩ := s
  have hv : ∀ i, i < N → tσ.v i = (sv · i) := fun i hi => h.v hi
  have hm : ∀ i, i < N → tσ.m i = (sm · i) := fun i hi => h.m hi
  have h1 : ∀ k i, i < N → (tσ.vec k).get i = sv k i := h.vec
  have h2 : ∀ k i, i < N → (tσ.msk k).get i = sm k i := h.msk
  obtain ⟨-, -, h3, h4⟩ := h
  obtain rfl : ts = ss := h3
  obtain rfl : tm = sa := h4
  cases p with
  | own f =>
    simp only [sStep, gStepE] at hs ⊢
    cases hf : f ts tm with
    | none => rw [hf] at hs; cases hs
    | some r => rw [hf] at hs; cases hs; exact ⟨_, rfl, ⟨h1, h2, rfl, rfl⟩⟩
  | set k e =>
    simp only [sStep, gStepE] at hs ⊢
    obtain ⟨hd, rfl⟩ := elems_ok hs
    obtain ⟨g, hg, hk⟩ := hev tσ (e ts) (hp ts) (fun i hi => by rw [hv i hi, hm i hi]; exact hd i hi)
    rw [hg]
    refine ⟨_, rfl, ⟨fun j i hi => ?_, h2, rfl, rfl⟩⟩
    dsimp only
    by_cases hj : j = k
    · refine (congrArg (fun g : GSimd (BitVec w) N => g.get i) (if_pos hj)).trans ?_
      rw [if_pos hj]
      have := hk i hi
      rw [hv i hi, hm i hi] at this
      exact (congrArg (fun o : Option (BitVec w) => o.getD 0) this).symm
    · refine (congrArg (fun g : GSimd (BitVec w) N => g.get i) (if_neg hj)).trans ?_
      rw [if_neg hj]; exact h1 j i hi
  | mset k e =>
    simp only [sStep, gStepE] at hs ⊢
    obtain ⟨hd, rfl⟩ := elems_ok hs
    obtain ⟨g, hg, hk⟩ := hev tσ (e ts) (hp ts) (fun i hi => by rw [hv i hi, hm i hi]; exact hd i hi)
    rw [hg]
    refine ⟨_, rfl, ⟨h1, fun j i hi => ?_, rfl, rfl⟩⟩
    dsimp only
    by_cases hj : j = k
    · refine (congrArg (fun g : GMask N => GSimd.get (N := N) g i) (if_pos hj)).trans ?_
      rw [if_pos hj]
      have := hk i hi
      rw [hv i hi, hm i hi] at this
      exact (congrArg (fun o : Option Bool => o.getD false) this).symm
    · refine (congrArg (fun g : GMask N => GSimd.get (N := N) g i) (if_neg hj)).trans ?_
      rw [if_neg hj]; exact h2 j i hi
  | load k a =>
    simp only [sStep, gStepE] at hs ⊢
    split at hs
    · rename_i hl
      cases hs
      refine ⟨_, if_pos hl, ⟨fun j i hi => ?_, h2, rfl, rfl⟩⟩
      dsimp only
      by_cases hj : j = k
      · rw [if_pos hj, if_pos hj]; exact (C06_copy (tσ.vec k) id id (from' tm (a ts))).2.2.1 i hi
      · rw [if_neg hj, if_neg hj]; exact h1 j i hi
    · cases hs
  | store k a =>
    simp only [sStep, gStepE] at hs ⊢
    split at hs
    · rename_i hl
      cases hs
      refine ⟨_, if_pos hl, ⟨h1, h2, rfl, ?_⟩⟩
      have hcp := C06_copy (tσ.vec k) id id (from' tm (a ts))
      funext p
      dsimp only [patch]
      by_cases h3 : a ts ≤ p
      · rw [if_pos h3]
        by_cases h4 : p < a ts + N
        · rw [if_pos ⟨h3, h4⟩, hcp.1 _ (by omega), ← h1 _ _ (by omega)]; rfl
        · rw [if_neg (by omega), hcp.2.1 _ (by omega)]
          show tm (a ts + (p - a ts)) = _
          rw [show a ts + (p - a ts) = p by omega]
      · rw [if_neg h3, if_neg (by omega)]
    · cases hs
  | get r k i =>
    simp only [sStep, gStepE] at hs ⊢
    split at hs
    · rename_i hl
      cases hs
      refine ⟨_, if_pos hl, ⟨h1, h2, ?_, rfl⟩⟩
      dsimp only
      rw [h1 k _ hl]
    · cases hs
  | mget r k i =>
    simp only [sStep, gStepE] at hs ⊢
    split at hs
    · rename_i hl
      cases hs
      refine ⟨_, if_pos hl, ⟨h1, h2, ?_, rfl⟩⟩
      dsimp only
      rw [h2 k _ hl]
    · cases hs
  | ask r q k =>
    simp only [sStep, gStepE] at hs ⊢
    cases ha : sAsk N q (sm k) with
    | none => rw [ha] at hs; cases hs
    | some v =>
      rw [ha] at hs; cases hs
      rw [gAsk_spec (h2 k) ha]
      exact ⟨_, rfl, ⟨h1, h2, rfl, rfl⟩⟩
  | red r o k =>
    simp only [sStep, gStepE] at hs ⊢
    cases ha : M.red o (lanes N (sv k)) with
    | none => rw [ha] at hs; cases hs
    | some v =>
      rw [ha] at hs; cases hs
      have hl : lanes N (tσ.vec k).get = lanes N (sv k) := List.map_congr_left fun i hi => h1 k i (List.mem_range.1 hi)
      rw [hred o hp _ v (by rw [hl]; exact ha)]
      exact ⟨_, rfl, ⟨h1, h2, rfl, rfl⟩⟩
end generic

section x86
variable {c : Cfg} {E : Kind → Type}
/-- The state of the x86 program and the state of the specification; mask variables hold all ones or all zeros per element (C17). -/
structure XRel (c : Cfg) (t : XState c) (s : SState c.w) : Prop where
  vec : ∀ k i, i < c.N → elt c (t.env.vec k) i = s.vec k i
  msk : ∀ k i, i < c.N → mget c (t.env.msk k) i = s.msk k i
  canon : t.env.Canon
  scal : t.scal = s.scal
  mem : t.mem = s.mem
theorem XRel.v {t : XState c} {s : SState c.w} (h : XRel c t s) {i : Nat} (hi : i < c.N) : t.env.v i = (s.vec · i) := funext fun k => h.vec k i hi
theorem XRel.m {t : XState c} {s : SState c.w} (h : XRel c t s) {i : Nat} (hi : i < c.N) : t.env.m i = (s.msk · i) := funext fun k => h.msk k i hi

theorem xstep_refines (hc : c.Ok) (fp : FpOps) (ev : XEnv c → {k : Kind} → E k → Out c.Data) (M : Meaning c.w E) (Q : {k : Kind} → E k → Prop) (R : Red → Prop)
    (hev : ∀ (ρ : XEnv c), ρ.Canon → ∀ {k : Kind} (e : E k), Q e → (∀ i, i < c.N → M.el c.N i (ρ.v i) (ρ.m i) e ≠ none) →
      ∃ r, ev ρ e = .ok r ∧ (∀ i, i < c.N → M.el c.N i (ρ.v i) (ρ.m i) e = some (xelem c r i)) ∧ (k = .msk → Canon c r))
    (hred : ∀ o, R o → ∀ (x : c.Data) v, M.red o (lanes c.N (elt c x)) = some v → xRed c fp o x = .ok v)
    (len : Nat) (p : PrimE c.w E) (hp : OkFor Q (supQuery c) R p) (t : XState c) (s s' : SState c.w) (h : XRel c t s)
    (hs : sStep M c.N len p s = .ok s') : ∃ t', xStepE c fp ev len p t = .ok t' ∧ XRel c t' s' := by
  obtain ⟨tσ, ts, tm⟩ := t
  obtain ⟨sv, sm, ss, sa⟩ := s
  have hv : ∀ i, i < c.N → tσ.v i = (sv · i) := fun i hi => h.v hi
  have hm : ∀ i, i < c.N → tσ.m i = (sm · i) := fun i hi => h.m hi
  have h1 : ∀ k i, i < c.N → elt c (tσ.vec k) i = sv k i := h.vec
  have h2 : ∀ k i, i < c.N → mget c (tσ.msk k) i = sm k i := h.msk
  have hcan : tσ.Canon := h.canon
  have hpos := hc.pos
  obtain ⟨-, -, -, h3, h4⟩ := h
  obtain rfl : ts = ss := h3
  obtain rfl : tm = sa := h4
  cases p with
  | own f =>
    simp only [sStep, xStepE] at hs ⊢
    cases hf : f ts tm with
    | none => rw [hf] at hs; cases hs
    | some r => rw [hf] at hs; cases hs; exact ⟨_, rfl, ⟨h1, h2, hcan, rfl, rfl⟩⟩
  | set k e =>
    simp only [sStep, xStepE] at hs ⊢
    obtain ⟨hd, rfl⟩ := elems_ok hs
    obtain ⟨g, hg, hk, _⟩ := hev tσ hcan (e ts) (hp ts) (fun i hi => by rw [hv i hi, hm i hi]; exact hd i hi)
    rw [hg]
    refine ⟨_, rfl, ⟨fun j i hi => ?_, h2, hcan, rfl, rfl⟩⟩
    dsimp only
    by_cases hj : j = k
    · rw [if_pos hj, if_pos hj]
      have := hk i hi
      rw [hv i hi, hm i hi] at this
      exact (congrArg (fun o : Option (BitVec c.w) => o.getD 0) this).symm
    · rw [if_neg hj, if_neg hj]; exact h1 j i hi
  | mset k e =>
    simp only [sStep, xStepE] at hs ⊢
    obtain ⟨hd, rfl⟩ := elems_ok hs
    obtain ⟨g, hg, hk, hgc⟩ := hev tσ hcan (e ts) (hp ts) (fun i hi => by rw [hv i hi, hm i hi]; exact hd i hi)
    rw [hg]
    refine ⟨_, rfl, ⟨h1, fun j i hi => ?_, fun j => ?_, rfl, rfl⟩⟩
    · dsimp only
      by_cases hj : j = k
      · rw [if_pos hj, if_pos hj]
        have := hk i hi
        rw [hv i hi, hm i hi] at this
        exact (congrArg (fun o : Option Bool => o.getD false) this).symm
      · rw [if_neg hj, if_neg hj]; exact h2 j i hi
    · dsimp only
      split
      · exact hgc rfl
      · exact hcan j
  | load k a =>
    simp only [sStep, xStepE] at hs ⊢
    split at hs
    · rename_i hl
      cases hs
      obtain ⟨r, hr, hk⟩ := (C15_element_aligned hc (f := .element) (elementFlag c.v) (tσ.vec k) (len - a ts) (from' tm (a ts))).2.1 (by omega)
      rw [hr]
      refine ⟨_, rfl, ⟨fun j i hi => ?_, h2, hcan, rfl, rfl⟩⟩
      dsimp only
      by_cases hj : j = k
      · rw [if_pos hj, if_pos hj]; exact hk i hi
      · rw [if_neg hj, if_neg hj]; exact h1 j i hi
    · cases hs
  | store k a =>
    simp only [sStep, xStepE] at hs ⊢
    split at hs
    · rename_i hl
      cases hs
      obtain ⟨r, hr, hk⟩ := (C15_element_aligned hc (f := .element) (elementFlag c.v) (tσ.vec k) (len - a ts) (from' tm (a ts))).1 (by omega)
      rw [hr]
      refine ⟨_, rfl, ⟨h1, h2, hcan, rfl, ?_⟩⟩
      funext p
      dsimp only [patch]
      by_cases h3 : a ts ≤ p
      · rw [if_pos h3, hk]
        by_cases h4 : p < a ts + c.N
        · rw [if_pos (show p - a ts < c.N by omega), if_pos ⟨h3, h4⟩, ← h1 _ _ (by omega)]
        · rw [if_neg (by omega), if_neg (by omega)]
          show tm (a ts + (p - a ts)) = _
          rw [show a ts + (p - a ts) = p by omega]
      · rw [if_neg h3, if_neg (by omega)]
    · cases hs
  | get r k i =>
    simp only [sStep, xStepE] at hs ⊢
    split at hs
    · rename_i hl
      cases hs
      refine ⟨_, if_pos hl, ⟨h1, h2, hcan, ?_, rfl⟩⟩
      dsimp only
      rw [h1 k _ hl]
    · cases hs
  | mget r k i =>
    simp only [sStep, xStepE] at hs ⊢
    split at hs
    · rename_i hl
      cases hs
      refine ⟨_, if_pos hl, ⟨h1, h2, hcan, ?_, rfl⟩⟩
      dsimp only
      rw [h2 k _ hl]
    · cases hs
  | ask r q k =>
    simp only [sStep, xStepE] at hs ⊢
    cases ha : sAsk c.N q (sm k) with
    | none => rw [ha] at hs; cases hs
    | some v =>
      rw [ha] at hs; cases hs
      rw [xAsk_spec hc hp (h2 k) (hcan k) ha]
      exact ⟨_, rfl, ⟨h1, h2, hcan, rfl, rfl⟩⟩
  | red r o k =>
    simp only [sStep, xStepE] at hs ⊢
    cases ha : M.red o (lanes c.N (sv k)) with
    | none => rw [ha] at hs; cases hs
    | some v =>
      rw [ha] at hs; cases hs
      have hl : lanes c.N (elt c (tσ.vec k)) = lanes c.N (sv k) := List.map_congr_left fun i hi => h1 k i (List.mem_range.1 hi)
      rw [hred o hp _ v (by rw [hl]; exact ha)]
      exact ⟨_, rfl, ⟨h1, h2, hcan, rfl, rfl⟩⟩
end x86

/-! ### integers -/
/-- The generic backend runs programs over integers correctly, if they avoid `~m` (C03), `lsr<0>` (C10) and reductions (C07). -/
def GIntOk (t : IntTy) : Prim t.bits → Prop := OkFor (fun e => Plain t e) (fun _ => True) (fun _ => False)
/-- C72 (generic backend), proved for programs without `~m`, `lsr<0>` and `reduce`: from corresponding states, whenever the program
finishes for sequences of elements it finishes on the generic backend in a corresponding state - the same elements in every variable,
the same client variables, the same array - and whenever it runs forever there, it does here. -/
theorem C72_generic_partial {t : IntTy} {N : Nat} (hN : 0 < N) (len : Nat) (p : Stm t.bits) (hp : p.All (GIntOk t)) (g : GState t N) (s : SState t.bits) (h : GRel N g s) :
    (∀ s', (sExec (intMeaning t) N len).Finishes p s s' → ∃ g', (gExec t N len).Finishes p g g' ∧ GRel N g' s') ∧
    ((sExec (intMeaning t) N len).Diverges p s → (gExec t N len).Diverges p g) :=
  refine_program (M₁ := gExec t N len) (M₂ := sExec (intMeaning t) N len) (GRel N) (fun _ _ h => h.scal) (GIntOk t)
    (fun q hq g s s' hR hs => gstep_refines t.scalar (fun σ _ e => Out.ofUb (evalG t σ e)) (intMeaning t) (fun e => Plain t e) (fun σ k e he hd => by
      obtain ⟨r, hr, hk⟩ := generic_elem hN σ e he hd
      exact ⟨r, (by rw [hr]; rfl), hk⟩) _ (fun _ h => h.elim) len q hq g s s' hR hs) p hp g s h

/-- the generic reduction of at most three elements (where it is right, C07) by an operation that is defined on all of them -/
theorem gReduce_small {w N : Nat} (h0 : 0 < N) (h3 : N ≤ 3) {op : BitVec w → BitVec w → Option (BitVec w)} {f : BitVec w → BitVec w → BitVec w}
    (hop : ∀ a b, op a b = some (f a b)) (hassoc : ∀ a b c, f (f a b) c = f a (f b c)) (x : GSimd (BitVec w) N) {v : BitVec w}
    (hv : fold1 f (lanes N x.get) = some v) : gReduce op x = .ok v := by
  have hl : ((List.range N).map fun i => some (x.copyTo id (fun _ => 0) i)) = (lanes N x.get).map some := by
    unfold lanes
    rw [List.map_map]
    exact List.map_congr_left fun i hi => congrArg some (copyTo_get x id (fun _ => 0) (List.mem_range.1 hi))
  unfold gReduce
  rw [hl]
  match N, h0, h3 with
  | 1, _, _ => simp [lanes, List.range_succ, reduceImpl, fold1, Out.ofUb] at hv ⊢; exact hv
  | 2, _, _ => simp [lanes, List.range_succ, reduceImpl, fold1, Out.ofUb, hop] at hv ⊢; exact hv
  | 3, _, _ => simp [lanes, List.range_succ, reduceImpl, fold1, Out.ofUb, hop, hassoc] at hv ⊢; exact hv
/-- the element types whose `+` is never undefined: those of at most 16 bits, which are added as `int`, and the larger unsigned ones -/
def Wraps (t : IntTy) : Prop := t.bits ≤ 16 ∨ (t.signed = false ∧ 32 ≤ t.bits)
theorem val_int16 (t : IntTy) (h : t.bits ≤ 16) (a : BitVec t.bits) : -(2 ^ 16) ≤ t.val a ∧ t.val a < 2 ^ 16 := by
  have hp : 2 ^ t.bits ≤ 2 ^ 16 := Nat.pow_le_pow_right (by omega) h
  have ha := a.isLt
  unfold IntTy.val
  split
  · have h1 := BitVec.le_two_mul_toInt (x := a)
    have h2 := BitVec.two_mul_toInt_lt (x := a)
    have : (2 ^ t.bits : Int) ≤ 2 ^ 16 := by exact_mod_cast hp
    omega
  · omega
theorem add_wraps {t : IntTy} (h : Wraps t) (a b : BitVec t.bits) : t.add a b = some (a + b) := by
  have e : BitVec.ofInt t.bits (t.val a + t.val b) = a + b := by rw [BitVec.ofInt_add, ofInt_val, ofInt_val]
  unfold IntTy.add IntTy.wrap
  rw [if_neg, e]
  rintro ⟨h1, h2⟩
  rcases h with h | ⟨h, hb⟩
  · have hp : t.promote = .i32 := if_pos (show t.bits < 32 by omega)
    rw [hp] at h2
    apply h2
    obtain ⟨a1, a2⟩ := val_int16 t h a
    obtain ⟨b1, b2⟩ := val_int16 t h b
    have e2 : IntTy.fits .i32 (t.val a + t.val b) = decide (-(2 ^ 31 : Int) ≤ t.val a + t.val b ∧ t.val a + t.val b < 2 ^ 31) := rfl
    rw [e2, decide_eq_true_eq]
    omega
  · rw [show t.promote = t from if_neg (show ¬ t.bits < 32 by omega), h] at h1; cases h1
theorem smaller_assoc (t : IntTy) (a b c : BitVec t.bits) : Scalar1.smaller t (Scalar1.smaller t a b) c = Scalar1.smaller t a (Scalar1.smaller t b c) := by
  unfold Scalar1.smaller; split_ifs <;> first | rfl | omega
theorem larger_assoc (t : IntTy) (a b c : BitVec t.bits) : Scalar1.larger t (Scalar1.larger t a b) c = Scalar1.larger t a (Scalar1.larger t b c) := by
  unfold Scalar1.larger; split_ifs <;> first | rfl | omega
/-- the reductions that are right on generic vectors of at most three elements -/
def GRedOk (t : IntTy) (N : Nat) (o : Red) : Prop := N ≤ 3 ∧ (o = .sum → Wraps t)
theorem gRed_spec {t : IntTy} {N : Nat} (hN : 0 < N) (o : Red) (ho : GRedOk t N o) (x : GSimd (BitVec t.bits) N) (v : BitVec t.bits)
    (hv : intRed t o (lanes N x.get) = some v) : gRed t.scalar o x = .ok v := by
  obtain ⟨h3, hw⟩ := ho
  cases o with
  | sum =>
    refine gReduce_small hN h3 (f := (· + ·)) (add_wraps (hw rfl)) (fun a b c => BitVec.add_assoc a b c) x ?_
    rw [← hv]
    match N, hN, h3 with
    | 1, _, _ => simp [lanes, List.range_succ, intRed, fold1, ofInt_val]
    | 2, _, _ => simp [lanes, List.range_succ, intRed, fold1, ofInt_val, BitVec.ofInt_add]
    | 3, _, _ => simp [lanes, List.range_succ, intRed, fold1, ofInt_val, BitVec.ofInt_add, BitVec.add_assoc]
  | band => exact gReduce_small hN h3 (f := (· &&& ·)) (fun _ _ => rfl) (fun a b c => BitVec.and_assoc a b c) x hv
  | bor => exact gReduce_small hN h3 (f := (· ||| ·)) (fun _ _ => rfl) (fun a b c => BitVec.or_assoc a b c) x hv
  | bxor => exact gReduce_small hN h3 (f := (· ^^^ ·)) (fun _ _ => rfl) (fun a b c => BitVec.xor_assoc a b c) x hv
  | least => exact gReduce_small hN h3 (f := Scalar1.smaller t) (fun a b => congrArg some (smaller_eq a b)) (smaller_assoc t) x hv
  | greatest => exact gReduce_small hN h3 (f := Scalar1.larger t) (fun a b => congrArg some (larger_eq a b)) (larger_assoc t) x hv
/-- C72 (generic backend) with reductions, for vectors of at most three elements; a sum only of elements whose `+` is never undefined. -/
theorem C72_generic_reduce_partial {t : IntTy} {N : Nat} (hN : 0 < N) (len : Nat) (p : Stm t.bits)
    (hp : p.All (OkFor (fun e => Plain t e) (fun _ => True) (GRedOk t N))) (g : GState t N) (s : SState t.bits) (h : GRel N g s) :
    (∀ s', (sExec (intMeaning t) N len).Finishes p s s' → ∃ g', (gExec t N len).Finishes p g g' ∧ GRel N g' s') ∧
    ((sExec (intMeaning t) N len).Diverges p s → (gExec t N len).Diverges p g) :=
  refine_program (M₁ := gExec t N len) (M₂ := sExec (intMeaning t) N len) (GRel N) (fun _ _ h => h.scal) (OkFor (fun e => Plain t e) (fun _ => True) (GRedOk t N))
    (fun q hq g s s' hR hs => gstep_refines t.scalar (fun σ _ e => Out.ofUb (evalG t σ e)) (intMeaning t) (fun e => Plain t e) (fun σ k e he hd => by
      obtain ⟨r, hr, hk⟩ := generic_elem hN σ e he hd
      exact ⟨r, (by rw [hr]; rfl), hk⟩) _ (gRed_spec hN) len q hq g s s' hR hs) p hp g s h
/-- three elements 5, 7, 250 of eight bits: the least is 5, the sum wraps around -/
example (x : GSimd (BitVec 8) 3) (hx : lanes 3 x.get = [5, 7, 250]) :
    gRed (IntTy.scalar ⟨8, false⟩) .least x = .ok 5 ∧ gRed (IntTy.scalar ⟨8, false⟩) .sum x = .ok 6 :=
  ⟨gRed_spec (t := ⟨8, false⟩) (by decide) .least ⟨by decide, fun h => by cases h⟩ x 5 (by rw [hx]; decide),
   gRed_spec (t := ⟨8, false⟩) (by decide) .sum ⟨by decide, fun _ => .inl (by decide)⟩ x 6 (by rw [hx]; decide)⟩

/-- Where the reductions of the x86 backend exist and are right (C27). -/
def XRedOk (c : Cfg) : Red → Prop
  | .least | .greatest => redKernel c = true ∧ redMinmaxOverload c = true
  | _ => redKernel c = true
theorem fold_least {t : IntTy} (l : List (BitVec t.bits)) (x : BitVec t.bits) : l.foldl (Scalar1.smaller t) x ∈ x :: l ∧ ∀ y ∈ x :: l, t.val (l.foldl (Scalar1.smaller t) x) ≤ t.val y := by
  induction l generalizing x with
  | nil => exact ⟨List.mem_singleton.2 rfl, fun y hy => by rw [List.mem_singleton.1 hy]; exact Int.le_refl _⟩
  | cons a l ih =>
    obtain ⟨h1, h2⟩ := ih (Scalar1.smaller t x a)
    have hs : Scalar1.smaller t x a = x ∨ Scalar1.smaller t x a = a := by unfold Scalar1.smaller; split <;> simp
    have hl : t.val (Scalar1.smaller t x a) ≤ t.val x ∧ t.val (Scalar1.smaller t x a) ≤ t.val a := by
      unfold Scalar1.smaller; split <;> omega
    rw [List.foldl_cons]
    refine ⟨?_, fun y hy => ?_⟩
    · rcases List.mem_cons.1 h1 with h | h
      · rw [h]; rcases hs with e | e <;> rw [e] <;> simp
      · simp [h]
    · have h0 := h2 _ (List.mem_cons_self ..)
      rcases List.mem_cons.1 hy with rfl | hy
      · omega
      · rcases List.mem_cons.1 hy with rfl | hy
        · omega
        · exact h2 y (List.mem_cons_of_mem _ hy)
theorem fold_greatest {t : IntTy} (l : List (BitVec t.bits)) (x : BitVec t.bits) : l.foldl (Scalar1.larger t) x ∈ x :: l ∧ ∀ y ∈ x :: l, t.val y ≤ t.val (l.foldl (Scalar1.larger t) x) := by
  induction l generalizing x with
  | nil => exact ⟨List.mem_singleton.2 rfl, fun y hy => by rw [List.mem_singleton.1 hy]; exact Int.le_refl _⟩
  | cons a l ih =>
    obtain ⟨h1, h2⟩ := ih (Scalar1.larger t x a)
    have hs : Scalar1.larger t x a = x ∨ Scalar1.larger t x a = a := by unfold Scalar1.larger; split <;> simp
    have hl : t.val x ≤ t.val (Scalar1.larger t x a) ∧ t.val a ≤ t.val (Scalar1.larger t x a) := by
      unfold Scalar1.larger; split <;> omega
    rw [List.foldl_cons]
    refine ⟨?_, fun y hy => ?_⟩
    · rcases List.mem_cons.1 h1 with h | h
      · rw [h]; rcases hs with e | e <;> rw [e] <;> simp
      · simp [h]
    · have h0 := h2 _ (List.mem_cons_self ..)
      rcases List.mem_cons.1 hy with rfl | hy
      · omega
      · rcases List.mem_cons.1 hy with rfl | hy
        · omega
        · exact h2 y (List.mem_cons_of_mem _ hy)
theorem xRed_spec (fp : FpOps) {c : Cfg} (hc : c.Ok) (hint : c.T.flt = false) (o : Red) (ho : XRedOk c o) (x : c.Data) (v : BitVec c.w)
    (hv : intRed c.T.ity o (lanes c.N (elt c x)) = some v) : xRed c fp o x = .ok v := by
  have hf : ∀ {out : Out (BitVec c.w)} {f : BitVec c.w → BitVec c.w → BitVec c.w}, Folds c out f x → fold1 f (lanes c.N (elt c x)) = some v → out = .ok v := by
    rintro out f ⟨r, h1, h2⟩ h3
    rw [h1]; exact congrArg Out.ok (Option.some.inj (h2.symm.trans h3))
  cases o with
  | sum => rw [← Option.some.inj hv]; exact C27_reduce_is_sum_partial fp hc hint ho x
  | band => exact hf (C27_reduce_int_partial fp hc hint ho x).2.1 hv
  | bor => exact hf (C27_reduce_int_partial fp hc hint ho x).2.2.2.1 hv
  | bxor => exact hf (C27_reduce_int_partial fp hc hint ho x).2.2.1 hv
  | least =>
    obtain ⟨r, hr, h1, h2⟩ := (C27_reduce_minmax_partial fp hc hint ho.2 ho.1 x).1
    refine hr.trans (congrArg Out.ok ?_)
    have hl : ∀ y, y ∈ lanes c.N (elt c x) ↔ ∃ i, i < c.N ∧ elt c x i = y := fun y => by
      unfold lanes; rw [List.mem_map]; exact exists_congr fun i => by rw [List.mem_range]
    cases hlist : lanes c.N (elt c x) with
    | nil => rw [hlist] at hv; cases hv
    | cons a l =>
      rw [hlist] at hv hl
      have hv := Option.some.inj hv
      obtain ⟨g1, g2⟩ := fold_least (t := c.T.ity) l a
      rw [hv] at g1 g2
      obtain ⟨i, hi, he⟩ := (hl v).1 g1
      have a1 : c.T.ity.val r ≤ c.T.ity.val v := by rw [← he]; exact h2 i hi
      obtain ⟨j, hj, hje⟩ := h1
      have a2 : c.T.ity.val v ≤ c.T.ity.val r := g2 r ((hl r).2 ⟨j, hj, hje.symm⟩)
      exact (val_inj c.T.ity).1 (Int.le_antisymm a1 a2)
  | greatest =>
    obtain ⟨r, hr, h1, h2⟩ := (C27_reduce_minmax_partial fp hc hint ho.2 ho.1 x).2
    refine hr.trans (congrArg Out.ok ?_)
    have hl : ∀ y, y ∈ lanes c.N (elt c x) ↔ ∃ i, i < c.N ∧ elt c x i = y := fun y => by
      unfold lanes; rw [List.mem_map]; exact exists_congr fun i => by rw [List.mem_range]
    cases hlist : lanes c.N (elt c x) with
    | nil => rw [hlist] at hv; cases hv
    | cons a l =>
      rw [hlist] at hv hl
      have hv := Option.some.inj hv
      obtain ⟨g1, g2⟩ := fold_greatest (t := c.T.ity) l a
      rw [hv] at g1 g2
      obtain ⟨i, hi, he⟩ := (hl v).1 g1
      have a1 : c.T.ity.val v ≤ c.T.ity.val r := by rw [← he]; exact h2 i hi
      obtain ⟨j, hj, hje⟩ := h1
      have a2 : c.T.ity.val r ≤ c.T.ity.val v := g2 r ((hl r).2 ⟨j, hj, hje.symm⟩)
      exact (val_inj c.T.ity).1 (Int.le_antisymm a2 a1)
/-- The x86 backend runs programs over integers correctly where the operators, questions and reductions used exist and are right. -/
def XIntOk (c : Cfg) : Prim c.w → Prop := OkFor (fun e => Supported c e ∧ Sound c e) (supQuery c) (XRedOk c)
/-- C72 (x86 backend), proved for programs whose operators, questions and reductions exist there and are not defective: the same, for every
integer type, size, instruction-set level and contents of uninitialised storage. -/
theorem C72_x86_partial (fp : FpOps) {c : Cfg} (hc : c.Ok) (hint : c.T.flt = false) (len : Nat) (p : Stm c.w) (hp : p.All (XIntOk c))
    (x : XState c) (s : SState c.w) (h : XRel c x s) :
    (∀ s', (sExec (intMeaning c.T.ity) c.N len).Finishes p s s' → ∃ x', (xExec c fp len).Finishes p x x' ∧ XRel c x' s') ∧
    ((sExec (intMeaning c.T.ity) c.N len).Diverges p s → (xExec c fp len).Diverges p x) :=
  refine_program (M₁ := xExec c fp len) (M₂ := sExec (intMeaning c.T.ity) c.N len) (XRel c) (fun _ _ h => h.scal) (XIntOk c)
    (fun q hq g s s' hR hs => xstep_refines hc fp _ (intMeaning c.T.ity) (fun e => Supported c e ∧ Sound c e) (XRedOk c)
      (fun ρ hρ _ e he hd => C73_x86_partial fp hc hint ρ hρ e he.1 he.2 hd) (xRed_spec fp hc hint) len q hq g s s' hR hs) p hp x s h

/-! ### floating point -/
theorem fltMeaning_def {w N i : Nat} {v : Nat → BitVec w} {m : Nat → Bool} {k : Kind} {e : FEx w k} (h : (fltMeaning w).el N i v m e ≠ none) :
    e.InRange N ∧ Tame v m i e ∧ (fltMeaning w).el N i v m e = some (fsval (sEval v m i e)) := by
  by_cases hc : e.InRange N ∧ Tame v m i e
  · exact ⟨hc.1, hc.2, if_pos hc⟩
  · exact absurd (if_neg hc) h
/-- The generic backend runs programs over floating-point vectors correctly, if they avoid `~m` (C03) and reductions (C07). -/
def GFltOk (w : Nat) : FPrim w → Prop := OkFor (fun e => e.Avoids True False) (fun _ => True) (fun _ => False)
/-- C76 (generic backend), proved for programs without `~m` and `reduce`, with a C library whose `sqrt` is correctly rounded: whenever the
program finishes for sequences of IEEE numbers it finishes on the generic backend in a corresponding state, bit for bit, and whenever it runs
forever there it does here. -/
theorem C76_generic_partial {w N : Nat} (hN : 0 < N) (L : Cmath w) (hL : ∀ x, L.fn1 .sqrt x = fsqrt x) (len : Nat) (p : FStm w) (hp : p.All (GFltOk w))
    (g : GStateW w N) (s : SState w) (h : GRel N g s) :
    (∀ s', (sExec (fltMeaning w) N len).Finishes p s s' → ∃ g', (gfExec L N len).Finishes p g g' ∧ GRel N g' s') ∧
    ((sExec (fltMeaning w) N len).Diverges p s → (gfExec L N len).Diverges p g) :=
  refine_program (M₁ := gfExec L N len) (M₂ := sExec (fltMeaning w) N len) (GRel N) (fun _ _ h => h.scal) (GFltOk w)
    (fun q hq g s s' hR hs => gstep_refines (fpScalar w) _ (fltMeaning w) (fun e => e.Avoids True False) (fun σ k e he hd => by
      obtain ⟨r, hr, hk⟩ := C63_generic_partial L hL σ e (fltMeaning_def (hd 0 hN)).1 he (fun i hi => (fltMeaning_def (hd i hi)).2.1)
      refine ⟨r, hr, fun i hi => (fltMeaning_def (hd i hi)).2.2.trans (congrArg some ?_)⟩
      cases k with
      | vec => exact (hk i hi).symm
      | msk => exact (hk i hi).symm) _ (fun _ h => h.elim) len q hq g s s' hR hs) p hp g s h
/-- The x86 backend, if they avoid `m && m` (C16), reductions and defective questions. -/
def XFltOk (c : Cfg) : FPrim c.w → Prop := OkFor (fun e => e.Avoids False True) (supQuery c) (fun _ => False)
/-- C76 (x86 backend), proved for programs without `m && m`, `reduce` and the defective questions about masks: the same, for every size,
instruction-set level and contents of uninitialised storage. -/
theorem C76_x86_partial {c : Cfg} (hc : c.Ok) (hf : c.T.flt = true) (len : Nat) (p : FStm c.w) (hp : p.All (XFltOk c)) (x : XState c) (s : SState c.w)
    (h : XRel c x s) :
    (∀ s', (sExec (fltMeaning c.w) c.N len).Finishes p s s' → ∃ x', (xfExec c len).Finishes p x x' ∧ XRel c x' s') ∧
    ((sExec (fltMeaning c.w) c.N len).Diverges p s → (xfExec c len).Diverges p x) :=
  refine_program (M₁ := xfExec c len) (M₂ := sExec (fltMeaning c.w) c.N len) (XRel c) (fun _ _ h => h.scal) (XFltOk c)
    (fun q hq g s s' hR hs => xstep_refines hc ieee _ (fltMeaning c.w) (fun e => e.Avoids False True) (fun _ => False)
      (fun ρ hρ k e he hd => by
        obtain ⟨r, hr, hk⟩ := C63_expressions_partial hc hf ρ hρ e (fltMeaning_def (hd 0 hc.pos)).1 he (fun i hi => (fltMeaning_def (hd i hi)).2.1)
        refine ⟨r, hr, fun i hi => (fltMeaning_def (hd i hi)).2.2.trans (congrArg some ?_), fun hm => ?_⟩
        · cases k with
          | vec => exact (hk i hi).symm
          | msk => exact (hk i hi).1.symm
        · subst hm; exact fun i hi => (hk i hi).2) (fun _ h => absurd h id) len q hq g s s' hR hs) p hp x s h
end Dpm.X86
