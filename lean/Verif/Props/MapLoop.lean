import Verif.Props.Machine
/-
C74: a vectorised loop over arrays computes what the scalar loop computes.
-/
namespace Dpm.X86
open Dpm.Reg Dpm.Util Dpm.Generic Dpm.Spec

/-! ### the vectorised loop -/
section loops
variable {w : Nat} {E : Kind → Type}
/-- `v_k.copy_from(array + src_k + i, element_aligned)` for `k < K`; `i` is the client's variable 0 -/
def loads (src : Nat → Nat) : Nat → StmOf (PrimE w E)
  | 0 => .prim (.own fun s m => some (s, m))
  | k + 1 => .seq (loads src k) (.prim (.load k fun s => src k + (s 0).toNat))
/-- `for (; i + N <= n; i += N) { v_k.copy_from(array + src_k + i); v_K = e; v_K.copy_to(array + dst + i); }` -/
def vecPart (N n K : Nat) (src : Nat → Nat) (dst : Nat) (e : E .vec) : StmOf (PrimE w E) :=
  .loop (fun s => decide ((s 0).toNat + N ≤ n))
    (.seq (loads src K) (.seq (.prim (.set K fun _ => e)) (.seq (.prim (.store K fun s => dst + (s 0).toNat))
      (.prim (.own fun s m => some (putScal s 0 (s 0 + N), m))))))
/-- `for (; i < n; ++i) array[dst + i] = f(array[src_0 + i], ..)`, in the client's own scalars -/
def tailPart (f : (Nat → BitVec w) → Option (BitVec w)) (n : Nat) (src : Nat → Nat) (dst : Nat) : StmOf (PrimE w E) :=
  .loop (fun s => decide ((s 0).toNat < n))
    (.prim (.own fun s m => (f (fun k => m (src k + (s 0).toNat))).map fun v =>
      (putScal s 0 (s 0 + 1), fun p => if p = dst + (s 0).toNat then v else m p)))
/-- `i = 0;`, the vector loop with the expression `e`, the scalar loop with `f` for the rest -/
def mapLoopOf (f : (Nat → BitVec w) → Option (BitVec w)) (N n K : Nat) (src : Nat → Nat) (dst : Nat) (e : E .vec) : StmOf (PrimE w E) :=
  .seq (.prim (.own fun s m => some (putScal s 0 0, m))) (.seq (vecPart N n K src dst e) (tailPart f n src dst))
end loops
/-- for integers: the scalar loop uses the scalar expression -/
def mapLoop (t : IntTy) (N n K : Nat) (src : Nat → Nat) (dst : Nat) (e : Ex t.bits .vec) : Stm t.bits :=
  mapLoopOf (fun v => elem t 1 0 v (fun _ => false) e) N n K src dst e

theorem elem_map {t : IntTy} {K : Nat} {k : Kind} (e : Ex t.bits k) (he : e.Map K) {N N' i i' : Nat} {v v' : Nat → BitVec t.bits} {m m' : Nat → Bool}
    (hv : ∀ k, k < K → v k = v' k) : elem t N i v m e = elem t N' i' v' m' e := by
  induction e with
  | var k => exact congrArg some (hv k he)
  | mvar _ | gen _ | mgen _ | put _ _ _ _ | mput _ _ _ _ => exact absurd he id
  | bcast _ | mbcast _ => rfl
  | un o a iha => simp only [elem, iha he]; rfl
  | binS o a s iha => simp only [elem, iha he]; rfl
  | isZero a iha => simp only [elem, iha he]
  | mun o a iha => simp only [elem, iha he]
  | bin o a b iha ihb => simp only [elem, iha he.1, ihb he.2]; rfl
  | cmp o a b iha ihb => simp only [elem, iha he.1, ihb he.2]
  | mbin o a b iha ihb => simp only [elem, iha he.1, ihb he.2]
  | clamp a b c iha ihb ihc => simp only [elem, iha he.1, ihb he.2.1, ihc he.2.2]; rfl
  | blend a b c iha ihb ihc => simp only [elem, iha he.1, ihb he.2.1, ihc he.2.2]
  | mblend a b c iha ihb ihc => simp only [elem, iha he.1, ihb he.2.1, ihc he.2.2]

/-! ### the loop for sequences of elements -/
/-- The expression is `f` of the variables `0 .. K-1`, at every element. -/
def Computes {w : Nat} {E : Kind → Type} (M : Meaning w E) (K : Nat) (f : (Nat → BitVec w) → Option (BitVec w)) (e : E .vec) : Prop :=
  ∀ (N i : Nat) (v : Nat → BitVec w) (m : Nat → Bool) (v' : Nat → BitVec w), (∀ k, k < K → v k = v' k) → (M.el N i v m e : Option (BitVec w)) = f v'
section
variable {w N : Nat} {E : Kind → Type} {M : Meaning w E} {src : Nat → Nat} {dst : Nat} {e : E .vec} {f : (Nat → BitVec w) → Option (BitVec w)}

theorem loopOf_le {n : Nat} {a b : Nat → BitVec w} (h : loopOf f src dst n a = some b) {i : Nat} (hi : i ≤ n) :
    ∃ m, loopOf f src dst i a = some m := by
  induction n generalizing b with
  | zero => exact ⟨b, by rw [Nat.le_zero.1 hi]; exact h⟩
  | succ n ih =>
    by_cases he : i = n + 1
    · exact ⟨b, by rw [he]; exact h⟩
    · obtain ⟨m, hm, _⟩ := Option.bind_eq_some_iff.1 h
      exact ih hm (by omega)
theorem loopOf_step {n : Nat} {a b m : Nat → BitVec w} (hm : loopOf f src dst n a = some m)
    (h : loopOf f src dst (n + 1) a = some b) :
    ∃ v : BitVec w, f (fun k => m (src k + n)) = some v ∧ b = fun p => if p = dst + n then v else m p := by
  obtain ⟨m', hm', h⟩ := Option.bind_eq_some_iff.1 h
  cases Option.some.inj (hm.symm.trans hm')
  obtain ⟨v, hv, hb⟩ := Option.bind_eq_some_iff.1 h
  exact ⟨v, hv, (Option.some.inj hb).symm⟩

theorem loads_fin (len i : Nat) (K : Nat) (s : SState w) (hi : s.scal 0 = i) (hb : ∀ k, k < K → src k + i + N ≤ len) :
    ∃ s' : SState w, (sExec M N len).Finishes (loads src K) s s' ∧ s'.scal = s.scal ∧ s'.mem = s.mem ∧ s'.msk = s.msk ∧
      (∀ k, k < K → ∀ j, j < N → s'.vec k j = s.mem (src k + i + j)) ∧ ∀ k, K ≤ k → s'.vec k = s.vec k := by
  induction K with
  | zero => exact ⟨s, finishes_prim (M := sExec M N len) rfl, rfl, rfl, rfl, fun k hk => by omega, fun _ _ => rfl⟩
  | succ K ih =>
    obtain ⟨s1, f1, e1, e2, e2', e3, e4⟩ := ih (fun k hk => hb k (by omega))
    have hin : (s1.scal 0).toNat = i := by rw [e1, hi]; rfl
    have hst : sStep M N len (.load K fun s => src K + (s 0).toNat) s1 =
        .ok { s1 with vec := fun j => if j = K then fun i => s1.mem (src K + (s1.scal 0).toNat + i) else s1.vec j } := by
      simp only [sStep]
      rw [if_pos (by rw [hin]; exact hb K (by omega))]
    refine ⟨_, finishes_seq (M := sExec M N len) f1 (finishes_prim hst), e1, e2, e2', fun k hk j hj => ?_, fun k hk => ?_⟩
    · dsimp only
      by_cases hkK : k = K
      · subst hkK
        rw [if_pos rfl, hin, e2]
      · rw [if_neg hkK]; exact e3 k (by omega) j hj
    · dsimp only
      rw [if_neg (by omega)]; exact e4 k (by omega)

/-- Invariant: the first `i` elements are done. -/
def Done (f : (Nat → BitVec w) → Option (BitVec w)) (src : Nat → Nat) (dst : Nat) (a : Nat → BitVec w) (i : Nat) (s : SState w) : Prop :=
  s.scal 0 = i ∧ loopOf f src dst i a = some s.mem

/-- One chunk: the next `N` iterations of the scalar loop read nothing that they write. -/
theorem chunk_spec {K n i : Nat} {a b m : Nat → BitVec w} (he : ∀ v v', (∀ k, k < K → v k = v' k) → f v = f v') (hd : ∀ k, k < K → dst ≤ src k ∨ src k + N ≤ dst)
    (hb : loopOf f src dst n a = some b) (hn : i + N ≤ n) (hm : loopOf f src dst i a = some m) :
    ∃ val : Nat → BitVec w, (∀ j, j < N → f (fun k => m (src k + i + j)) = some (val j)) ∧
      loopOf f src dst (i + N) a = some (fun p => if dst + i ≤ p ∧ p < dst + i + N then val (p - (dst + i)) else m p) := by
  let val : Nat → BitVec w := fun j => (f (fun k => m (src k + i + j))).getD 0
  have key : ∀ J, J ≤ N → (∀ j, j < J → f (fun k => m (src k + i + j)) = some (val j)) ∧
      loopOf f src dst (i + J) a = some (fun p => if dst + i ≤ p ∧ p < dst + i + J then val (p - (dst + i)) else m p) := by
    intro J
    induction J with
    | zero =>
      intro _
      refine ⟨fun j hj => by omega, ?_⟩
      rw [Nat.add_zero, hm]
      congr 1
      funext p
      rw [if_neg (by omega)]
    | succ J ih =>
      intro hJ
      obtain ⟨h1, h2⟩ := ih (by omega)
      obtain ⟨m', hm'⟩ := loopOf_le hb (i := i + J + 1) (by omega)
      obtain ⟨v, hv, hm''⟩ := loopOf_step h2 hm'
      have hv' : f (fun k => m (src k + i + J)) = some v := by
        rw [← hv]
        refine he _ _ fun k hk => ?_
        have := hd k hk
        rw [if_neg (by omega), Nat.add_assoc]
      have hval : val J = v := by
        show (f (fun k => m (src k + i + J))).getD 0 = v
        rw [hv']; rfl
      refine ⟨fun j hj => ?_, ?_⟩
      · by_cases hjJ : j = J
        · rw [hjJ, hval]; exact hv'
        · exact h1 j (by omega)
      · rw [← Nat.add_assoc, hm', hm'']
        congr 1
        funext p
        by_cases hp : p = dst + (i + J)
        · rw [if_pos hp, if_pos (by omega), show p - (dst + i) = J by omega, hval]
        · rw [if_neg hp]
          by_cases hq : dst + i ≤ p ∧ p < dst + i + J
          · rw [if_pos hq, if_pos (by omega)]
          · rw [if_neg hq, if_neg (by omega)]
  exact ⟨val, key N (Nat.le_refl _)⟩

theorem set_ok {len K : Nat} {s : SState w} {val : Nat → BitVec w} {e : E .vec} (h : ∀ j, j < N → (M.el N j (s.vec · j) (s.msk · j) e : Option (BitVec w)) = some (val j)) :
    ∃ s' : SState w, sStep M N len (.set K fun _ => e) s = .ok s' ∧ s'.scal = s.scal ∧ s'.mem = s.mem ∧ s'.msk = s.msk ∧ (∀ j, j < N → s'.vec K j = val j) ∧
      ∀ k, k ≠ K → s'.vec k = s.vec k := by
  simp only [sStep]
  unfold elems
  refine ⟨_, if_pos (fun j hj => congrArg Option.isSome (h j hj)), rfl, rfl, rfl, fun j hj => ?_, fun k hk => if_neg hk⟩
  dsimp only
  rw [if_pos rfl]
  exact congrArg (fun o : Option (BitVec w) => o.getD 0) (h j hj)

theorem body_fin {len K n i : Nat} {a b : Nat → BitVec w} (he : Computes M K f e) (hd : N ≤ n → ∀ k, k < K → dst ≤ src k ∨ src k + N ≤ dst)
    (hl : dst + n ≤ len ∧ ∀ k, k < K → src k + n ≤ len)
    (hb : loopOf f src dst n a = some b) (hn : i + N ≤ n) (s : SState w) (hs : Done f src dst a i s) :
    ∃ s' : SState w, (sExec M N len).Finishes (.seq (loads src K) (.seq (.prim (.set K fun _ => e)) (.seq (.prim (.store K fun s => dst + (s 0).toNat))
      (.prim (.own fun s m => some (putScal s 0 (s 0 + N), m)))))) s s' ∧ Done f src dst a (i + N) s' := by
  have hf : ∀ v v', (∀ k, k < K → v k = v' k) → f v = f v' := fun v v' h => (he 0 0 v (fun _ => false) v (fun _ _ => rfl)).symm.trans (he 0 0 v (fun _ => false) v' h)
  obtain ⟨val, hval, hres⟩ := chunk_spec hf (hd (by omega)) hb hn hs.2
  obtain ⟨s1, f1, e1, e2, _, e3, _⟩ := loads_fin (M := M) (N := N) (src := src) len i K s hs.1 (fun k hk => by have := hl.2 k hk; omega)
  have hin : (s1.scal 0).toNat = i := by rw [e1, hs.1]; rfl
  obtain ⟨s2, b2, c1, c2, _, c3, _⟩ := set_ok (M := M) (N := N) (len := len) (K := K) (s := s1) (val := val) (e := e) (fun j hj =>
    (he N j _ _ (fun k => s.mem (src k + i + j)) fun k hk => e3 k hk j hj).trans (hval j hj))
  let s3 : SState w := { s2 with mem := fun p => if dst + (s2.scal 0).toNat ≤ p ∧ p < dst + (s2.scal 0).toNat + N then s2.vec K (p - (dst + (s2.scal 0).toNat)) else s2.mem p }
  have hin2 : (s2.scal 0).toNat = i := by rw [c1]; exact hin
  have b3 : sStep M N len (.store K fun s => dst + (s 0).toNat) s2 = .ok s3 := by
    simp only [sStep]
    rw [if_pos (by rw [hin2]; omega)]
  let s4 : SState w := { s3 with scal := putScal s3.scal 0 (s3.scal 0 + N) }
  have b4 : sStep M N len (.own fun s m => some (putScal s 0 (s 0 + N), m)) s3 = .ok s4 := rfl
  refine ⟨s4, finishes_seq (M := sExec M N len) f1 (finishes_seq (finishes_prim b2) (finishes_seq (finishes_prim b3) (finishes_prim b4))), ?_, ?_⟩
  · show s2.scal 0 + (N : Int) = ((i + N : Nat) : Int)
    rw [c1, e1, hs.1]; simp
  · rw [hres]
    congr 1
    funext p
    show _ = if dst + (s2.scal 0).toNat ≤ p ∧ p < dst + (s2.scal 0).toNat + N then s2.vec K (p - (dst + (s2.scal 0).toNat)) else s2.mem p
    rw [hin2, c2, e2]
    by_cases h1 : dst + i ≤ p ∧ p < dst + i + N
    · rw [if_pos h1, if_pos h1, c3 _ (by omega)]
    · rw [if_neg h1, if_neg h1]

theorem vec_fin (hN : 0 < N) {len K n : Nat} {a b : Nat → BitVec w} (he : Computes M K f e) (hd : N ≤ n → ∀ k, k < K → dst ≤ src k ∨ src k + N ≤ dst)
    (hl : dst + n ≤ len ∧ ∀ k, k < K → src k + n ≤ len) (hb : loopOf f src dst n a = some b) (d : Nat) :
    ∀ (i : Nat) (s : SState w), n - i ≤ d → i ≤ n → Done f src dst a i s →
      ∃ i' s', i' ≤ n ∧ (sExec M N len).Finishes (vecPart N n K src dst e) s s' ∧ Done f src dst a i' s' := by
  induction d with
  | zero =>
    intro i s hdd hi hs
    refine ⟨i, s, hi, finishes_done (M := sExec M N len) ?_, hs⟩
    show decide ((s.scal 0).toNat + N ≤ n) = false
    rw [hs.1]
    exact decide_eq_false (by simp; omega)
  | succ d ih =>
    intro i s hdd hi hs
    by_cases hn : i + N ≤ n
    · obtain ⟨s1, f1, h1⟩ := body_fin he hd hl hb hn s hs
      obtain ⟨i', s', hi', f2, h2⟩ := ih (i + N) s1 (by omega) hn h1
      refine ⟨i', s', hi', finishes_again (M := sExec M N len) ?_ f1 f2, h2⟩
      show decide ((s.scal 0).toNat + N ≤ n) = true
      rw [hs.1]
      exact decide_eq_true hn
    · refine ⟨i, s, hi, finishes_done (M := sExec M N len) ?_, hs⟩
      show decide ((s.scal 0).toNat + N ≤ n) = false
      rw [hs.1]
      exact decide_eq_false hn

theorem tail_fin {len n : Nat} {a b : Nat → BitVec w} (hb : loopOf f src dst n a = some b) (d : Nat) :
    ∀ (i : Nat) (s : SState w), n - i = d → i ≤ n → Done f src dst a i s →
      ∃ s', (sExec M N len).Finishes (tailPart f n src dst) s s' ∧ Done f src dst a n s' := by
  induction d with
  | zero =>
    intro i s hdd hi hs
    have : i = n := by omega
    subst this
    refine ⟨s, finishes_done (M := sExec M N len) ?_, hs⟩
    show decide ((s.scal 0).toNat < i) = false
    rw [hs.1]
    exact decide_eq_false (by simp)
  | succ d ih =>
    intro i s hdd hi hs
    obtain ⟨m, hm⟩ := loopOf_le hb (i := i + 1) (by omega)
    obtain ⟨v, hv, hme⟩ := loopOf_step hs.2 hm
    have hin : (s.scal 0).toNat = i := by rw [hs.1]; rfl
    let s1 : SState w := { s with scal := putScal s.scal 0 (s.scal 0 + 1), mem := m }
    have b1 : sStep M N len (.own fun s m => (f (fun k => m (src k + (s 0).toNat))).map fun v =>
      (putScal s 0 (s 0 + 1), fun p => if p = dst + (s 0).toNat then v else m p)) s = .ok s1 := by
      simp only [sStep, hin, hv, s1, hme]; rfl
    obtain ⟨s', f', h'⟩ := ih (i + 1) s1 (by omega) (by omega) ⟨by show s.scal 0 + 1 = ((i + 1 : Nat) : Int); rw [hs.1]; simp, hm⟩
    refine ⟨s', finishes_again (M := sExec M N len) ?_ (finishes_prim b1) f', h'⟩
    show decide ((s.scal 0).toNat < n) = true
    rw [hin]
    exact decide_eq_true (by omega)

/-- (the distance between source and result only matters if there is a whole chunk) -/
theorem mapLoop_spec' (hN : 0 < N) {len n K : Nat} {a b : Nat → BitVec w} (he : Computes M K f e)
    (hd : N ≤ n → ∀ k, k < K → dst ≤ src k ∨ src k + N ≤ dst) (hl : dst + n ≤ len ∧ ∀ k, k < K → src k + n ≤ len)
    (hb : loopOf f src dst n a = some b) (s : SState w) (hs : s.mem = a) :
    ∃ s' : SState w, (sExec M N len).Finishes (mapLoopOf f N n K src dst e) s s' ∧ s'.mem = b := by
  have f0 : (sExec M N len).Finishes (.prim (.own fun s m => some (putScal s 0 0, m))) s { s with scal := putScal s.scal 0 0 } :=
    finishes_prim (M := sExec M N len) rfl
  obtain ⟨i, s1, hi, f1, h1⟩ := vec_fin (M := M) hN (len := len) he hd hl hb n 0 { s with scal := putScal s.scal 0 0 } (by omega) (by omega) ⟨rfl, by rw [← hs]; rfl⟩
  obtain ⟨s2, f2, h2⟩ := tail_fin (M := M) (N := N) (len := len) hb _ i s1 rfl hi h1
  exact ⟨s2, finishes_seq f0 (finishes_seq f1 f2), Option.some.inj (h2.2.symm.trans hb)⟩
theorem mapLoop_spec (hN : 0 < N) {len n K : Nat} {a b : Nat → BitVec w} (he : Computes M K f e)
    (hd : ∀ k, k < K → dst ≤ src k ∨ src k + N ≤ dst) (hl : dst + n ≤ len ∧ ∀ k, k < K → src k + n ≤ len)
    (hb : loopOf f src dst n a = some b) (s : SState w) (hs : s.mem = a) :
    ∃ s' : SState w, (sExec M N len).Finishes (mapLoopOf f N n K src dst e) s s' ∧ s'.mem = b := mapLoop_spec' hN he (fun _ => hd) hl hb s hs
theorem loads_all {Q : {k : Kind} → E k → Prop} {A : Query → Prop} {R : Red → Prop} (src : Nat → Nat) (K : Nat) : (loads src K : StmOf (PrimE w E)).All (OkFor Q A R) := by
  induction K with
  | zero => exact trivial
  | succ K ih => exact ⟨ih, trivial⟩
theorem mapLoop_all {Q : {k : Kind} → E k → Prop} {A : Query → Prop} {R : Red → Prop} (hq : Q e) (f : (Nat → BitVec w) → Option (BitVec w)) (N n K : Nat) (src : Nat → Nat) (dst : Nat) :
    (mapLoopOf f N n K src dst e).All (OkFor Q A R) := ⟨trivial, ⟨loads_all src K, fun _ => hq, trivial, trivial⟩, trivial⟩
end
/-- the elements of the variables of a backend, as a state of the specification -/
def GStateW.abs {w N : Nat} (s : GStateW w N) : SState w := ⟨fun k i => (s.env.vec k).get i, fun k i => (s.env.msk k).get i, s.scal, s.mem⟩
def XState.abs {c : Cfg} (s : XState c) : SState c.w := ⟨fun k i => elt c (s.env.vec k) i, fun k i => mget c (s.env.msk k) i, s.scal, s.mem⟩
theorem grel_abs {w N : Nat} (s : GStateW w N) : GRel N s s.abs := ⟨fun _ _ _ => rfl, fun _ _ _ => rfl, rfl, rfl⟩
theorem xrel_abs {c : Cfg} (s : XState c) (h : s.env.Canon) : XRel c s s.abs := ⟨fun _ _ _ => rfl, fun _ _ _ => rfl, h, rfl, rfl⟩
theorem computes_int {t : IntTy} {K : Nat} {e : Ex t.bits .vec} (he : e.Map K) : Computes (intMeaning t) K (fun v => elem t 1 0 v (fun _ => false) e) e :=
  fun _ _ _ _ _ h => elem_map e he h

/-- C74 (generic backend), proved for expressions without `~m` and `lsr<0>`: for every number of elements `n`, vector size `N` and arrays
inside the client's memory, the vectorised loop with a scalar tail finishes and leaves in memory exactly what the scalar loop leaves,
whenever the scalar loop is defined and no result is stored less than `N` elements after a source (in particular in place and for
disjoint arrays). -/
theorem C74_generic_partial {t : IntTy} {N : Nat} (hN : 0 < N) {src : Nat → Nat} {dst len n K : Nat} {e : Ex t.bits .vec} {a b : Nat → BitVec t.bits} (he : e.Map K) (hp : Plain t e)
    (hd : ∀ k, k < K → dst ≤ src k ∨ src k + N ≤ dst) (hl : dst + n ≤ len ∧ ∀ k, k < K → src k + n ≤ len)
    (hb : scalarLoop t src dst e n a = some b) (s : GState t N) (hs : s.mem = a) :
    ∃ s' : GState t N, (gExec t N len).Finishes (mapLoop t N n K src dst e) s s' ∧ s'.mem = b := by
  obtain ⟨r, f, h⟩ := mapLoop_spec hN (len := len) (computes_int he) hd hl hb s.abs hs
  obtain ⟨s', f', ha⟩ := (C72_generic_partial hN len (mapLoop t N n K src dst e) (mapLoop_all hp _ N n K src dst) s s.abs (grel_abs s)).1 r f
  exact ⟨s', f', ha.mem.trans h⟩
/-- C74 (x86 backend), proved for expressions whose operators exist there and are not among its defective ones: the same, for every
integer type, size, instruction-set level and contents of uninitialised storage. -/
theorem C74_x86_partial (fp : FpOps) {c : Cfg} (hc : c.Ok) (hint : c.T.flt = false) {src : Nat → Nat} {dst len n K : Nat} {e : Ex c.w .vec}
    {a b : Nat → BitVec c.w} (he : e.Map K) (hsup : Supported c e) (hso : Sound c e)
    (hd : ∀ k, k < K → dst ≤ src k ∨ src k + c.N ≤ dst) (hl : dst + n ≤ len ∧ ∀ k, k < K → src k + n ≤ len)
    (hb : scalarLoop c.T.ity src dst e n a = some b) (s : XState c) (hcan : s.env.Canon) (hs : s.mem = a) :
    ∃ s' : XState c, (xExec c fp len).Finishes (mapLoop c.T.ity c.N n K src dst e) s s' ∧ s'.mem = b := by
  obtain ⟨r, f, h⟩ := mapLoop_spec hc.pos (len := len) (computes_int he) hd hl hb s.abs hs
  obtain ⟨s', f', ha⟩ := (C72_x86_partial fp hc hint len (mapLoop c.T.ity c.N n K src dst e) (mapLoop_all ⟨hsup, hso⟩ _ c.N n K src dst) s s.abs (xrel_abs s hcan)).1 r f
  exact ⟨s', f', ha.mem.trans h⟩

/-! ### concrete cases -/
/-- `z[i] = max(x[i] * y[i], 7)` -/
def exMap : Ex exI32.w .vec := .binS .vmax (.bin .mul (.var 0) (.var 1)) 7
theorem exMap_ok : exMap.Map 2 ∧ Supported exI32 exMap ∧ Sound exI32 exMap := by
  refine ⟨⟨show 0 < 2 by decide, show 1 < 2 by decide⟩, ?_⟩
  simp [Supported, Sound, Ex.All, exMap, supBin, supBinS, supMin, badBin, badBinS]
  try decide
/-- 20 elements in vectors of 6 (three chunks and a tail of two): `x = i` at 0, `y = 3` at 20, result at 40 -/
def exMem : Nat → BitVec 32 := fun p => if p < 20 then BitVec.ofNat 32 p else 3
theorem exMap_def : ((scalarLoop exI32.T.ity (fun k => 20 * k) 40 exMap 20 exMem).map fun b => [(b 41).toNat, (b 44).toNat, (b 59).toNat, (b 60).toNat]) = some [7, 12, 57, 3] := by
  decide +kernel
example (fp : FpOps) (ρ : XEnv exI32) (hρ : ρ.Canon) :
    ∃ s', (xExec exI32 fp 60).Finishes (mapLoop exI32.T.ity 6 20 2 (fun k => 20 * k) 40 exMap) ⟨ρ, fun _ => 0, exMem⟩ s' ∧ (s'.mem 41).toNat = 7 ∧ (s'.mem 59).toNat = 57 := by
  have h := exMap_def
  cases hb : scalarLoop exI32.T.ity (fun k => 20 * k) 40 exMap 20 exMem with
  | none => rw [hb] at h; cases h
  | some b =>
    rw [hb] at h
    have h := Option.some.inj h
    simp only [List.cons.injEq] at h
    obtain ⟨s', f, hm⟩ := C74_x86_partial fp exI32_ok rfl (len := 60) exMap_ok.1 exMap_ok.2.1 exMap_ok.2.2
      (fun k hk => Or.inr (by show 20 * k + 6 ≤ 40; omega)) ⟨by decide, fun k hk => by omega⟩ hb ⟨ρ, fun _ => 0, exMem⟩ hρ rfl
    exact ⟨s', f, by rw [hm]; exact h.1, by rw [hm]; exact h.2.2.1⟩
/-- The distance matters: `a[i + 1] = a[i] + 1` on four elements is a recurrence for the scalar loop; one chunk of four reads all before it
writes. -/
def exRec : Ex 32 .vec := .binS .add (.var 0) 1
theorem exRec_scalar : ((scalarLoop IntTy.u32 (fun _ => 0) 1 exRec 4 (fun _ => 0)).map fun b => (b 4).toNat) = some 4 := by decide +kernel
theorem exRec_vector : (((gExec IntTy.u32 4 5).run 20 (mapLoop IntTy.u32 4 4 1 (fun _ => 0) 1 exRec)
    ⟨⟨fun _ => ⟨fun _ => 0⟩, fun _ => ⟨fun _ => false⟩, fun _ => 0, fun _ => false⟩, fun _ => 0, fun _ => 0⟩).map fun o => match o with
      | .ok s => (GStateW.mem s 4).toNat
      | _ => 99) = some 1 := by decide +kernel
end Dpm.X86
