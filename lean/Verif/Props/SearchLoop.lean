import Verif.Props.MapLoop
/-
C75: searching and counting loops over arrays, a vector of elements at a time.
-/
namespace Dpm.X86
open Dpm.Reg Dpm.Util Dpm.Generic Dpm.Spec

/-- The condition `p(array[src_0 + j], array[src_1 + j], ..)` of element `j`, in scalars. -/
def test (t : IntTy) (src : Nat → Nat) (p : Ex t.bits .msk) (a : Nat → BitVec t.bits) (j : Nat) : Option Bool :=
  elem t 1 0 (fun k => a (src k + j)) (fun _ => false) p
section loops
variable {w : Nat} {E : Kind → Type}

/-! ### the programs; `s_0` is `i` -/
/-- `v_k.copy_from(array + src_k + i); m_0 = p` -/
def evalChunk (K : Nat) (src : Nat → Nat) (p : E .msk) : StmOf (PrimE w E) := .seq (loads src K) (.prim (.mset 0 fun _ => p))
/-- ```
i = 0; found = false;
while (!found && i + N <= n) { v_k.copy_from(..); m = p; found = any_of(m); if (found) r = i + reduce_min_index(m); else i += N; }
while (!found && i < n) { if (p(array[src_0 + i], ..)) { found = true; r = i; } else ++i; }
``` -/
def findLoopOf (g : (Nat → BitVec w) → Option Bool) (N n K : Nat) (src : Nat → Nat) (p : E .msk) : StmOf (PrimE w E) :=
  .seq (.prim (.own fun s m => some (putScal (putScal s 0 0) 1 0, m)))
  (.seq (.loop (fun s => decide (s 1 = 0 ∧ (s 0).toNat + N ≤ n))
    (.seq (evalChunk K src p) (.seq (.prim (.ask 1 .anyOf 0)) (.ite (fun s => decide (s 1 ≠ 0))
      (.seq (.prim (.ask 2 .minIndex 0)) (.prim (.own fun s m => some (putScal s 2 (s 2 + s 0), m))))
      (.prim (.own fun s m => some (putScal s 0 (s 0 + N), m)))))))
  (.loop (fun s => decide (s 1 = 0 ∧ (s 0).toNat < n))
    (.prim (.own fun s m => (g (fun k => m (src k + (s 0).toNat))).map fun b =>
      (if b then putScal (putScal s 1 1) 2 (s 0) else putScal s 0 (s 0 + 1), m)))))
/-- ```
i = 0; r = 0;
while (i + N <= n) { v_k.copy_from(..); m = p; r += reduce_count(m); i += N; }
while (i < n) { if (p(array[src_0 + i], ..)) ++r; ++i; }
``` -/
def countLoopOf (g : (Nat → BitVec w) → Option Bool) (N n K : Nat) (src : Nat → Nat) (p : E .msk) : StmOf (PrimE w E) :=
  .seq (.prim (.own fun s m => some (putScal (putScal s 0 0) 1 0, m)))
  (.seq (.loop (fun s => decide ((s 0).toNat + N ≤ n))
    (.seq (evalChunk K src p) (.seq (.prim (.ask 2 .count 0)) (.prim (.own fun s m => some (putScal (putScal s 1 (s 1 + s 2)) 0 (s 0 + N), m))))))
  (.loop (fun s => decide ((s 0).toNat < n))
    (.prim (.own fun s m => (g (fun k => m (src k + (s 0).toNat))).map fun b =>
      (putScal (putScal s 1 (s 1 + if b then 1 else 0)) 0 (s 0 + 1), m)))))
end loops
/-- for integers: the scalar loops use the scalar condition -/
def findLoop (t : IntTy) (N n K : Nat) (src : Nat → Nat) (p : Ex t.bits .msk) : Stm t.bits := findLoopOf (fun v => elem t 1 0 v (fun _ => false) p) N n K src p
def countLoop (t : IntTy) (N n K : Nat) (src : Nat → Nat) (p : Ex t.bits .msk) : Stm t.bits := countLoopOf (fun v => elem t 1 0 v (fun _ => false) p) N n K src p

/-- The condition is `g` of the variables `0 .. K-1`, at every element. -/
def Tests {w : Nat} {E : Kind → Type} (M : Meaning w E) (K : Nat) (g : (Nat → BitVec w) → Option Bool) (p : E .msk) : Prop :=
  ∀ (N i : Nat) (v : Nat → BitVec w) (m : Nat → Bool) (v' : Nat → BitVec w), (∀ k, k < K → v k = v' k) → (M.el N i v m p : Option Bool) = g v'

section
variable {w N : Nat} {E : Kind → Type} {M : Meaning w E} {src : Nat → Nat} {p : E .msk} {g : (Nat → BitVec w) → Option Bool} {f : Nat → Bool} {n K len : Nat} {a : Nat → BitVec w}

theorem mset_ok {s : SState w} {val : Nat → Bool} (h : ∀ j, j < N → (M.el N j (s.vec · j) (s.msk · j) p : Option Bool) = some (val j)) (K : Nat) :
    ∃ s' : SState w, sStep M N len (.mset K fun _ => p) s = .ok s' ∧ s'.scal = s.scal ∧ s'.mem = s.mem ∧ ∀ j, j < N → s'.msk K j = val j := by
  simp only [sStep]
  unfold elems
  refine ⟨_, if_pos (fun j hj => congrArg Option.isSome (h j hj)), rfl, rfl, fun j hj => ?_⟩
  dsimp only
  rw [if_pos rfl]
  exact congrArg (fun o : Option Bool => o.getD false) (h j hj)
theorem chunk_fin (hp : Tests M K g p) (hl : ∀ k, k < K → src k + n ≤ len)
    (hf : ∀ j, j < n → g (fun k => a (src k + j)) = some (f j)) {i : Nat} (hn : i + N ≤ n) (s : SState w) (hi : s.scal 0 = i) (hm : s.mem = a) :
    ∃ s1 : SState w, (sExec M N len).Finishes (evalChunk K src p) s s1 ∧ s1.scal = s.scal ∧ s1.mem = a ∧ ∀ j, j < N → s1.msk 0 j = f (i + j) := by
  obtain ⟨s1, f1, e1, e2, _, e3, _⟩ := loads_fin (M := M) (N := N) (src := src) len i K s hi (fun k hk => by have := hl k hk; omega)
  obtain ⟨s2, b2, c1, c2, c3⟩ := mset_ok (M := M) (N := N) (len := len) (p := p) (s := s1) (val := fun j => f (i + j)) (fun j hj => by
    refine (hp N j _ _ (fun k => a (src k + (i + j))) fun k hk => ?_).trans (hf (i + j) (by omega))
    rw [e3 k hk j hj, hm, Nat.add_assoc]) 0
  exact ⟨s2, finishes_seq (M := sExec M N len) f1 (finishes_prim b2), c1.trans e1, c2.trans (e2.trans hm), c3⟩

/-- search so far: nothing below `i`, or the answer -/
def Found (n : Nat) (f : Nat → Bool) (s : SState w) : Prop := s.scal 1 ≠ 0 ∧ ∃ k : Nat, s.scal 2 = k ∧ IsFirst n f k
def Searching (f : Nat → Bool) (i : Nat) (s : SState w) : Prop := s.scal 1 = 0 ∧ s.scal 0 = i ∧ ∀ j, j < i → f j = false

theorem sAsk_min {N : Nat} {f : Nat → Bool} {k : Nat} (h : IsFirst N f k) : sAsk N .minIndex f = some (k : Int) := by
  have hs : ((List.range N).find? f).isSome = true := List.find?_isSome.2 ⟨k, List.mem_range.2 h.1, h.2.1⟩
  obtain ⟨k', hk'⟩ := Option.isSome_iff_exists.1 hs
  have h' := find_range hk'
  have : k' = k := by
    rcases Nat.lt_trichotomy k k' with hlt | he | hlt
    · have := h'.2.2 k hlt; rw [h.2.1] at this; cases this
    · exact he.symm
    · have := h.2.2 k' hlt; rw [h'.2.1] at this; cases this
  show Option.map _ _ = _
  rw [hk', this]; rfl
theorem find_body (hN : 0 < N) (hp : Tests M K g p) (hl : ∀ k, k < K → src k + n ≤ len)
    (hf : ∀ j, j < n → g (fun k => a (src k + j)) = some (f j)) {i : Nat} (hn : i + N ≤ n) (s : SState w) (hm : s.mem = a) (hs : Searching f i s) :
    ∃ s', (sExec M N len).Finishes (.seq (evalChunk K src p) (.seq (.prim (.ask 1 .anyOf 0)) (.ite (fun s => decide (s 1 ≠ 0))
      (.seq (.prim (.ask 2 .minIndex 0)) (.prim (.own fun s m => some (putScal s 2 (s 2 + s 0), m))))
      (.prim (.own fun s m => some (putScal s 0 (s 0 + N), m)))))) s s' ∧ s'.mem = a ∧ (Found n f s' ∨ Searching f (i + N) s') := by
  obtain ⟨s1, f1, e1, e2, e3⟩ := chunk_fin hp hl hf hn s hs.2.1 hm
  have h0 : s1.scal 0 = i := by rw [e1]; exact hs.2.1
  by_cases hex : ∃ j, j < N ∧ s1.msk 0 j = true
  · obtain ⟨k, hk⟩ := first_exists N _ hex
    let s2 : SState w := { s1 with scal := putScal s1.scal 1 1 }
    have ha : sAsk N .anyOf (s1.msk 0) = some 1 := congrArg some (if_pos hex)
    have b2 : sStep M N len (.ask 1 .anyOf 0) s1 = .ok s2 := by simp only [sStep, ha]; rfl
    let s3 : SState w := { s2 with scal := putScal s2.scal 2 k }
    have b3 : sStep M N len (.ask 2 .minIndex 0) s2 = .ok s3 := by simp only [sStep]; rw [show sAsk N .minIndex (s2.msk 0) = some (k : Int) from sAsk_min hk]; rfl
    let s4 : SState w := { s3 with scal := putScal s3.scal 2 (s3.scal 2 + s3.scal 0) }
    have b4 : sStep M N len (.own fun s m => some (putScal s 2 (s 2 + s 0), m)) s3 = .ok s4 := rfl
    have h1 : s2.scal 1 = 1 := rfl
    refine ⟨s4, finishes_seq (M := sExec M N len) f1 (finishes_seq (finishes_prim b2) (finishes_then (M := sExec M N len) (decide_eq_true (show s2.scal 1 ≠ 0 by rw [h1]; decide)) ?_)), e2, Or.inl ⟨?_, i + k, ?_, ?_⟩⟩
    · exact finishes_seq (M := sExec M N len) (finishes_prim b3) (finishes_prim b4)
    · show s2.scal 1 ≠ 0
      rw [h1]; decide
    · show (k : Int) + s1.scal 0 = _
      rw [h0]
      omega
    · refine ⟨by have := hk.1; omega, by rw [← e3 k hk.1]; exact hk.2.1, fun j hj => ?_⟩
      by_cases hji : j < i
      · exact hs.2.2 j hji
      · have h := hk.2.2 (j - i) (by omega)
        rw [e3 (j - i) (by have := hk.1; omega), show i + (j - i) = j by omega] at h
        exact h
  · let s2 : SState w := { s1 with scal := putScal s1.scal 1 0 }
    have ha : sAsk N .anyOf (s1.msk 0) = some 0 := congrArg some (if_neg hex)
    have b2 : sStep M N len (.ask 1 .anyOf 0) s1 = .ok s2 := by simp only [sStep, ha]; rfl
    let s3 : SState w := { s2 with scal := putScal s2.scal 0 (s2.scal 0 + N) }
    have b3 : sStep M N len (.own fun s m => some (putScal s 0 (s 0 + N), m)) s2 = .ok s3 := rfl
    have h1 : s2.scal 1 = 0 := rfl
    refine ⟨s3, finishes_seq (M := sExec M N len) f1 (finishes_seq (finishes_prim b2) (finishes_else (M := sExec M N len) (decide_eq_false (show ¬ s2.scal 1 ≠ 0 by rw [h1]; decide)) ?_)), e2, Or.inr ⟨h1, ?_, fun j hj => ?_⟩⟩
    · exact finishes_prim (M := sExec M N len) b3
    · show s1.scal 0 + (N : Int) = ((i + N : Nat) : Int)
      rw [h0]; simp
    · by_cases hji : j < i
      · exact hs.2.2 j hji
      · cases hfj : f j with
        | false => rfl
        | true => exact absurd ⟨j - i, by omega, by rw [e3 (j - i) (by omega), show i + (j - i) = j by omega]; exact hfj⟩ hex

theorem find_vec (hN : 0 < N) (hp : Tests M K g p) (hl : ∀ k, k < K → src k + n ≤ len)
    (hf : ∀ j, j < n → g (fun k => a (src k + j)) = some (f j)) (d : Nat) : ∀ (i : Nat) (s : SState w), n - i ≤ d → i ≤ n → s.mem = a → Searching f i s →
    ∃ s', (sExec M N len).Finishes (.loop (fun s => decide (s 1 = 0 ∧ (s 0).toNat + N ≤ n))
      (.seq (evalChunk K src p) (.seq (.prim (.ask 1 .anyOf 0)) (.ite (fun s => decide (s 1 ≠ 0))
        (.seq (.prim (.ask 2 .minIndex 0)) (.prim (.own fun s m => some (putScal s 2 (s 2 + s 0), m))))
        (.prim (.own fun s m => some (putScal s 0 (s 0 + N), m))))))) s s' ∧ s'.mem = a ∧ (Found n f s' ∨ ∃ i, i ≤ n ∧ Searching f i s') := by
  induction d with
  | zero =>
    intro i s hd hi hm hs
    refine ⟨s, finishes_done (M := sExec M N len) ?_, hm, Or.inr ⟨i, hi, hs⟩⟩
    show decide (s.scal 1 = 0 ∧ (s.scal 0).toNat + N ≤ n) = false
    rw [hs.2.1]
    exact decide_eq_false (by simp; omega)
  | succ d ih =>
    intro i s hd hi hm hs
    by_cases hn : i + N ≤ n
    · obtain ⟨s1, f1, m1, h1⟩ := find_body hN hp hl hf hn s hm hs
      have hcond : decide (s.scal 1 = 0 ∧ (s.scal 0).toNat + N ≤ n) = true := by
        rw [hs.2.1]; exact decide_eq_true ⟨hs.1, hn⟩
      rcases h1 with h1 | h1
      · refine ⟨s1, finishes_again (M := sExec M N len) hcond f1 (finishes_done (M := sExec M N len) ?_), m1, Or.inl h1⟩
        exact decide_eq_false (fun h => h1.1 h.1)
      · obtain ⟨s', f2, h2⟩ := ih (i + N) s1 (by omega) hn m1 h1
        exact ⟨s', finishes_again (M := sExec M N len) hcond f1 f2, h2⟩
    · refine ⟨s, finishes_done (M := sExec M N len) ?_, hm, Or.inr ⟨i, hi, hs⟩⟩
      show decide (s.scal 1 = 0 ∧ (s.scal 0).toNat + N ≤ n) = false
      rw [hs.2.1]
      exact decide_eq_false (fun h => hn h.2)

theorem find_tail (hf : ∀ j, j < n → g (fun k => a (src k + j)) = some (f j)) (d : Nat) : ∀ (i : Nat) (s : SState w), n - i = d → i ≤ n → s.mem = a → Searching f i s →
    ∃ s', (sExec M N len).Finishes (.loop (fun s => decide (s 1 = 0 ∧ (s 0).toNat < n))
      (.prim (.own fun s m => (g (fun k => m (src k + (s 0).toNat))).map fun b =>
        (if b then putScal (putScal s 1 1) 2 (s 0) else putScal s 0 (s 0 + 1), m)))) s s' ∧ s'.mem = a ∧ (Found n f s' ∨ Searching f n s') := by
  induction d with
  | zero =>
    intro i s hd hi hm hs
    have : i = n := by omega
    subst this
    refine ⟨s, finishes_done (M := sExec M N len) ?_, hm, Or.inr hs⟩
    show decide (s.scal 1 = 0 ∧ (s.scal 0).toNat < i) = false
    rw [hs.2.1]
    exact decide_eq_false (by simp)
  | succ d ih =>
    intro i s hd hi hm hs
    have hin : (s.scal 0).toNat = i := by rw [hs.2.1]; rfl
    have hcond : decide (s.scal 1 = 0 ∧ (s.scal 0).toNat < n) = true := decide_eq_true ⟨hs.1, by omega⟩
    have hti := hf i (by omega)
    let s1 : SState w := { s with scal := if f i then putScal (putScal s.scal 1 1) 2 (s.scal 0) else putScal s.scal 0 (s.scal 0 + 1) }
    have b1 : sStep M N len (.own fun s m => (g (fun k => m (src k + (s 0).toNat))).map fun b =>
        (if b then putScal (putScal s 1 1) 2 (s 0) else putScal s 0 (s 0 + 1), m)) s = .ok s1 := by
      simp only [sStep, hin, hm, hti]
      simp only [s1, ← hm]; rfl
    cases hfi : f i with
    | true =>
      have hs1 : s1.scal = putScal (putScal s.scal 1 1) 2 (s.scal 0) := if_pos hfi
      have hF : Found n f s1 := ⟨by rw [hs1]; show (1 : Int) ≠ 0; decide, i, by rw [hs1]; exact hs.2.1, by omega, hfi, hs.2.2⟩
      exact ⟨s1, finishes_again (M := sExec M N len) hcond (finishes_prim b1) (finishes_done (M := sExec M N len) (decide_eq_false (fun h => hF.1 h.1))), hm, Or.inl hF⟩
    | false =>
      have hs1 : s1.scal = putScal s.scal 0 (s.scal 0 + 1) := if_neg (by rw [hfi]; decide)
      obtain ⟨s', f', h'⟩ := ih (i + 1) s1 (by omega) (by omega) hm ⟨by rw [hs1]; exact hs.1, by
          rw [hs1]; show s.scal 0 + 1 = ((i + 1 : Nat) : Int); rw [hs.2.1]; simp,
        fun j hj => by
          by_cases hji : j = i
          · rw [hji]; exact hfi
          · exact hs.2.2 j (by omega)⟩
      exact ⟨s', finishes_again (M := sExec M N len) hcond (finishes_prim b1) f', h'⟩

theorem findLoop_spec (hN : 0 < N) (hp : Tests M K g p) (hl : ∀ k, k < K → src k + n ≤ len)
    (hf : ∀ j, j < n → g (fun k => a (src k + j)) = some (f j)) (s : SState w) (hm : s.mem = a) :
    ∃ s', (sExec M N len).Finishes (findLoopOf g N n K src p) s s' ∧ s'.mem = a ∧
      ((s'.scal 1 ≠ 0 ∧ ∃ k : Nat, s'.scal 2 = k ∧ IsFirst n f k) ∨ (s'.scal 1 = 0 ∧ ∀ j, j < n → f j = false)) := by
  let s0 : SState w := { s with scal := putScal (putScal s.scal 0 0) 1 0 }
  have f0 : (sExec M N len).Finishes (.prim (.own fun s m => some (putScal (putScal s 0 0) 1 0, m))) s s0 := finishes_prim (M := sExec M N len) rfl
  obtain ⟨s1, f1, m1, h1⟩ := find_vec hN hp hl hf n 0 s0 (by omega) (by omega) hm ⟨rfl, rfl, fun j hj => by omega⟩
  rcases h1 with h1 | ⟨i, hi, h1⟩
  · exact ⟨s1, finishes_seq f0 (finishes_seq f1 (finishes_done (M := sExec M N len) (decide_eq_false (fun h => h1.1 h.1)))), m1, Or.inl h1⟩
  · obtain ⟨s2, f2, m2, h2⟩ := find_tail (M := M) (N := N) (len := len) hf _ i s1 rfl hi m1 h1
    refine ⟨s2, finishes_seq f0 (finishes_seq f1 f2), m2, ?_⟩
    rcases h2 with h2 | h2
    · exact Or.inl h2
    · exact Or.inr ⟨h2.1, h2.2.2⟩

theorem countTrue_add (i k : Nat) (f : Nat → Bool) : countTrue (i + k) f = countTrue i f + countTrue k (fun j => f (i + j)) := by
  unfold countTrue lanes
  rw [List.range_add, List.map_append, List.countP_append, List.map_map]; rfl
def Counted (f : Nat → Bool) (i : Nat) (s : SState w) : Prop := s.scal 0 = i ∧ s.scal 1 = countTrue i f
theorem count_vec (hN : 0 < N) (hp : Tests M K g p) (hl : ∀ k, k < K → src k + n ≤ len)
    (hf : ∀ j, j < n → g (fun k => a (src k + j)) = some (f j)) (d : Nat) : ∀ (i : Nat) (s : SState w), n - i ≤ d → i ≤ n → s.mem = a → Counted f i s →
    ∃ i' s', (sExec M N len).Finishes (.loop (fun s => decide ((s 0).toNat + N ≤ n))
    (.seq (evalChunk K src p) (.seq (.prim (.ask 2 .count 0)) (.prim (.own fun s m => some (putScal (putScal s 1 (s 1 + s 2)) 0 (s 0 + N), m)))))) s s' ∧
      s'.mem = a ∧ i' ≤ n ∧ Counted f i' s' := by
  induction d with
  | zero =>
    intro i s hd hi hm hs
    refine ⟨i, s, finishes_done (M := sExec M N len) ?_, hm, hi, hs⟩
    show decide ((s.scal 0).toNat + N ≤ n) = false
    rw [hs.1]
    exact decide_eq_false (by simp; omega)
  | succ d ih =>
    intro i s hd hi hm hs
    by_cases hn : i + N ≤ n
    · obtain ⟨s1, f1, e1, e2, e3⟩ := chunk_fin hp hl hf hn s hs.1 hm
      have hcond : decide ((s.scal 0).toNat + N ≤ n) = true := by rw [hs.1]; exact decide_eq_true hn
      let s2 : SState w := { s1 with scal := putScal s1.scal 2 (countTrue N (s1.msk 0)) }
      have b2 : sStep M N len (.ask 2 .count 0) s1 = .ok s2 := rfl
      let s3 : SState w := { s2 with scal := putScal (putScal s2.scal 1 (s2.scal 1 + s2.scal 2)) 0 (s2.scal 0 + N) }
      have b3 : sStep M N len (.own fun s m => some (putScal (putScal s 1 (s 1 + s 2)) 0 (s 0 + N), m)) s2 = .ok s3 := rfl
      have hcnt : countTrue N (s1.msk 0) = countTrue N (fun j => f (i + j)) := by
        unfold countTrue lanes
        congr 1
        exact List.map_congr_left fun j hj => e3 j (List.mem_range.1 hj)
      obtain ⟨i', s', f', h'⟩ := ih (i + N) s3 (by omega) hn e2 ⟨by
          show s1.scal 0 + (N : Int) = ((i + N : Nat) : Int)
          rw [e1, hs.1]; simp, by
          show s1.scal 1 + (countTrue N (s1.msk 0) : Int) = _
          rw [e1, hs.2, hcnt, countTrue_add]; simp⟩
      exact ⟨i', s', finishes_again (M := sExec M N len) hcond (finishes_seq f1 (finishes_seq (finishes_prim b2) (finishes_prim b3))) f', h'⟩
    · refine ⟨i, s, finishes_done (M := sExec M N len) ?_, hm, hi, hs⟩
      show decide ((s.scal 0).toNat + N ≤ n) = false
      rw [hs.1]
      exact decide_eq_false hn
theorem count_tail (hf : ∀ j, j < n → g (fun k => a (src k + j)) = some (f j)) (d : Nat) : ∀ (i : Nat) (s : SState w), n - i = d → i ≤ n → s.mem = a → Counted f i s →
    ∃ s', (sExec M N len).Finishes (.loop (fun s => decide ((s 0).toNat < n))
    (.prim (.own fun s m => (g (fun k => m (src k + (s 0).toNat))).map fun b =>
      (putScal (putScal s 1 (s 1 + if b then 1 else 0)) 0 (s 0 + 1), m)))) s s' ∧ s'.mem = a ∧ Counted f n s' := by
  induction d with
  | zero =>
    intro i s hd hi hm hs
    have : i = n := by omega
    subst this
    refine ⟨s, finishes_done (M := sExec M N len) ?_, hm, hs⟩
    show decide ((s.scal 0).toNat < i) = false
    rw [hs.1]
    exact decide_eq_false (by simp)
  | succ d ih =>
    intro i s hd hi hm hs
    have hin : (s.scal 0).toNat = i := by rw [hs.1]; rfl
    have hcond : decide ((s.scal 0).toNat < n) = true := decide_eq_true (by omega)
    have hti := hf i (by omega)
    let s1 : SState w := { s with scal := putScal (putScal s.scal 1 (s.scal 1 + if f i then 1 else 0)) 0 (s.scal 0 + 1) }
    have b1 : sStep M N len (.own fun s m => (g (fun k => m (src k + (s 0).toNat))).map fun b =>
        (putScal (putScal s 1 (s 1 + if b then 1 else 0)) 0 (s 0 + 1), m)) s = .ok s1 := by
      simp only [sStep, hin, hm, hti]
      simp only [s1, ← hm]; rfl
    have h1 : countTrue 1 (fun j => f (i + j)) = if f i then 1 else 0 := by
      cases hfi : f i <;> simp [countTrue, lanes, hfi]
    obtain ⟨s', f', h'⟩ := ih (i + 1) s1 (by omega) (by omega) hm ⟨by
        show s.scal 0 + 1 = ((i + 1 : Nat) : Int); rw [hs.1]; simp, by
        show s.scal 1 + (if f i then (1 : Int) else 0) = _
        rw [hs.2, countTrue_add, h1]
        cases f i <;> simp⟩
    exact ⟨s', finishes_again (M := sExec M N len) hcond (finishes_prim b1) f', h'⟩
theorem countLoop_spec (hN : 0 < N) (hp : Tests M K g p) (hl : ∀ k, k < K → src k + n ≤ len)
    (hf : ∀ j, j < n → g (fun k => a (src k + j)) = some (f j)) (s : SState w) (hm : s.mem = a) :
    ∃ s', (sExec M N len).Finishes (countLoopOf g N n K src p) s s' ∧ s'.mem = a ∧ s'.scal 1 = countTrue n f := by
  let s0 : SState w := { s with scal := putScal (putScal s.scal 0 0) 1 0 }
  have f0 : (sExec M N len).Finishes (.prim (.own fun s m => some (putScal (putScal s 0 0) 1 0, m))) s s0 := finishes_prim (M := sExec M N len) rfl
  obtain ⟨i, s1, f1, m1, hi, h1⟩ := count_vec hN hp hl hf n 0 s0 (by omega) (by omega) hm ⟨rfl, rfl⟩
  obtain ⟨s2, f2, m2, h2⟩ := count_tail (M := M) (N := N) (len := len) hf _ i s1 rfl hi m1 h1
  exact ⟨s2, finishes_seq f0 (finishes_seq f1 f2), m2, h2.2⟩
theorem find_all {Q : {k : Kind} → E k → Prop} {A : Query → Prop} {R : Red → Prop} (hq : Q p) (h1 : A .anyOf) (h2 : A .minIndex) (g : (Nat → BitVec w) → Option Bool) (N n K : Nat) (src : Nat → Nat) :
    (findLoopOf g N n K src p).All (OkFor Q A R) := ⟨trivial, ⟨⟨loads_all src K, fun _ => hq⟩, h1, ⟨h2, trivial⟩, trivial⟩, trivial⟩
theorem count_all {Q : {k : Kind} → E k → Prop} {A : Query → Prop} {R : Red → Prop} (hq : Q p) (h1 : A .count) (g : (Nat → BitVec w) → Option Bool) (N n K : Nat) (src : Nat → Nat) :
    (countLoopOf g N n K src p).All (OkFor Q A R) := ⟨trivial, ⟨⟨loads_all src K, fun _ => hq⟩, h1, trivial⟩, trivial⟩
end
theorem tests_int {t : IntTy} {K : Nat} {p : Ex t.bits .msk} (he : p.Map K) : Tests (intMeaning t) K (fun v => elem t 1 0 v (fun _ => false) p) p :=
  fun _ _ _ _ _ h => elem_map p he h

section generic
variable {t : IntTy} {N : Nat} {src : Nat → Nat} {p : Ex t.bits .msk} {f : Nat → Bool} {n K len : Nat} {a : Nat → BitVec t.bits}
/-- C75 (search, generic backend), proved for conditions without `~m` and `lsr<0>`: for every number of elements and vector size, the loop
reports exactly the first element satisfying the condition, or that there is none, and leaves the array alone. -/
theorem C75_find_generic_partial (hN : 0 < N) (he : p.Map K) (hp : Plain t p) (hl : ∀ k, k < K → src k + n ≤ len)
    (hf : ∀ j, j < n → test t src p a j = some (f j)) (s : GState t N) (hm : s.mem = a) :
    ∃ s' : GState t N, (gExec t N len).Finishes (findLoop t N n K src p) s s' ∧ s'.mem = a ∧
      ((s'.scal 1 ≠ 0 ∧ ∃ k : Nat, s'.scal 2 = k ∧ IsFirst n f k) ∨ (s'.scal 1 = 0 ∧ ∀ j, j < n → f j = false)) := by
  obtain ⟨r, f, h1, h2⟩ := findLoop_spec hN (len := len) (tests_int he) hl hf s.abs hm
  obtain ⟨s', f', ha⟩ := (C72_generic_partial hN len (findLoop t N n K src p) (find_all hp trivial trivial _ N n K src) s s.abs (grel_abs s)).1 r f
  exact ⟨s', f', ha.mem.trans h1, by rw [ha.scal]; exact h2⟩
/-- C75 (count, generic backend): the loop counts exactly the elements satisfying the condition. -/
theorem C75_count_generic_partial (hN : 0 < N) (he : p.Map K) (hp : Plain t p) (hl : ∀ k, k < K → src k + n ≤ len)
    (hf : ∀ j, j < n → test t src p a j = some (f j)) (s : GState t N) (hm : s.mem = a) :
    ∃ s' : GState t N, (gExec t N len).Finishes (countLoop t N n K src p) s s' ∧ s'.mem = a ∧ s'.scal 1 = countTrue n f := by
  obtain ⟨r, f, h1, h2⟩ := countLoop_spec hN (len := len) (tests_int he) hl hf s.abs hm
  obtain ⟨s', f', ha⟩ := (C72_generic_partial hN len (countLoop t N n K src p) (count_all hp trivial _ N n K src) s s.abs (grel_abs s)).1 r f
  exact ⟨s', f', ha.mem.trans h1, by rw [ha.scal]; exact h2⟩
end generic

section x86
variable (fp : FpOps) {c : Cfg} (hc : c.Ok) (hint : c.T.flt = false) {src : Nat → Nat} {n K len : Nat} {p : Ex c.w .msk} {f : Nat → Bool} {a : Nat → BitVec c.w}
include hc hint in
/-- C75 (search, x86 backend), proved for conditions whose operators exist there and are not defective, where `any_of` is right (C18): the
same, for every integer type, size and instruction-set level. -/
theorem C75_find_x86_partial (ht : tailOk c) (he : p.Map K) (hsup : Supported c p) (hso : Sound c p) (hl : ∀ k, k < K → src k + n ≤ len)
    (hf : ∀ j, j < n → test c.T.ity src p a j = some (f j)) (s : XState c) (hcan : s.env.Canon) (hm : s.mem = a) :
    ∃ s' : XState c, (xExec c fp len).Finishes (findLoop c.T.ity c.N n K src p) s s' ∧ s'.mem = a ∧
      ((s'.scal 1 ≠ 0 ∧ ∃ k : Nat, s'.scal 2 = k ∧ IsFirst n f k) ∨ (s'.scal 1 = 0 ∧ ∀ j, j < n → f j = false)) := by
  obtain ⟨r, f, h1, h2⟩ := findLoop_spec hc.pos (len := len) (tests_int he) hl hf s.abs hm
  obtain ⟨s', f', ha⟩ := (C72_x86_partial fp hc hint len (findLoop c.T.ity c.N n K src p) (find_all ⟨hsup, hso⟩ ht trivial _ c.N n K src) s s.abs (xrel_abs s hcan)).1 r f
  exact ⟨s', f', ha.mem.trans h1, by rw [ha.scal]; exact h2⟩
include hc hint in
/-- C75 (count, x86 backend), where `reduce_count` is right (C19). -/
theorem C75_count_x86_partial (hw : ¬ wideMask c.s c.T c.v) (ht : tailOk c) (he : p.Map K) (hsup : Supported c p) (hso : Sound c p) (hl : ∀ k, k < K → src k + n ≤ len)
    (hf : ∀ j, j < n → test c.T.ity src p a j = some (f j)) (s : XState c) (hcan : s.env.Canon) (hm : s.mem = a) :
    ∃ s' : XState c, (xExec c fp len).Finishes (countLoop c.T.ity c.N n K src p) s s' ∧ s'.mem = a ∧ s'.scal 1 = countTrue n f := by
  obtain ⟨r, f, h1, h2⟩ := countLoop_spec hc.pos (len := len) (tests_int he) hl hf s.abs hm
  obtain ⟨s', f', ha⟩ := (C72_x86_partial fp hc hint len (countLoop c.T.ity c.N n K src p) (count_all ⟨hsup, hso⟩ ⟨hw, ht⟩ _ c.N n K src) s s.abs (xrel_abs s hcan)).1 r f
  exact ⟨s', f', ha.mem.trans h1, by rw [ha.scal]; exact h2⟩
end x86

/-- C75 violated (count): with AVX2, counting the elements of an array of 32 bytes that satisfy `true` gives 64. -/
theorem C75_count_violated (fp : FpOps) (s : XState exW) (hj : s.env.junk = zeroData exW) :
    ∃ s' : XState exW, (xExec exW fp 32).Finishes (countLoop exW.T.ity exW.N 32 0 (fun _ => 0) (.mbcast true)) s s' ∧ s'.scal 1 = 64 := by
  let M := xExec exW fp 32
  let s0 : XState exW := { s with scal := putScal (putScal s.scal 0 0) 1 0 }
  let m : exW.Data := Mask.ofBool exW true (zeroData exW)
  let s1 : XState exW := { s0 with env := { s0.env with msk := fun j => if j = 0 then m else s0.env.msk j } }
  let s2 : XState exW := { s1 with scal := putScal s1.scal 2 64 }
  let s3 : XState exW := { s2 with scal := putScal (putScal s2.scal 1 (s2.scal 1 + s2.scal 2)) 0 (s2.scal 0 + exW.N) }
  have b0 : xStep exW fp 32 (.own fun s m => some (putScal (putScal s 0 0) 1 0, m)) s = .ok s0 := rfl
  have bl : xStep exW fp 32 (.own fun s m => some (s, m)) s0 = .ok s0 := rfl
  have b1 : xStep exW fp 32 (.mset 0 fun _ => .mbcast true) s0 = .ok s1 := by
    have h : evalX fp exW s0.env (.mbcast true) = .ok m := by simp only [evalX, s0, m, hj]
    simp only [xStep, xStepE]; rw [h]; rfl
  have b2 : xStep exW fp 32 (.ask 2 .count 0) s1 = .ok s2 := by
    have h : Mask.reduceCount exW (s1.env.msk 0) = 64 := C19_counterexample.1
    simp only [xStep, xStepE, xAsk]
    rw [h]; rfl
  have b3 : xStep exW fp 32 (.own fun s m => some (putScal (putScal s 1 (s 1 + s 2)) 0 (s 0 + exW.N), m)) s2 = .ok s3 := rfl
  refine ⟨s3, finishes_seq (M := M) (finishes_prim b0) (finishes_seq (a := s3) (finishes_again (M := M) (a := s3) ?_
    (finishes_seq (finishes_seq (finishes_prim bl) (finishes_prim b1)) (finishes_seq (finishes_prim b2) (finishes_prim b3))) (finishes_done (M := M) ?_)) (finishes_done (M := M) ?_)), rfl⟩
  · exact (by decide : decide ((0 : Int).toNat + 32 ≤ 32) = true)
  · exact (by decide : decide ((0 + 32 : Int).toNat + 32 ≤ 32) = false)
  · exact (by decide : decide ((0 + 32 : Int).toNat < 32) = false)

/-! ### concrete cases -/
/-- `x[i] * x[i] > y[i]` on 20 `int`s, `x = i` and `y = 90`: true from 10 on -/
def exTest : Ex exI32.w .msk := .cmp .gt (.bin .mul (.var 0) (.var 0)) (.var 1)
def exMem2 : Nat → BitVec 32 := fun p => if p < 20 then BitVec.ofNat 32 p else 90
theorem exTest_def : ∀ j, j < 20 → test exI32.T.ity (fun k => 20 * k) exTest exMem2 j = some (decide (10 ≤ j)) := by decide +kernel
theorem exTest_ok : exTest.Map 2 ∧ Supported exI32 exTest ∧ Sound exI32 exTest := by
  refine ⟨⟨⟨show 0 < 2 by decide, show 0 < 2 by decide⟩, show 1 < 2 by decide⟩, ?_⟩
  simp [Supported, Sound, Ex.All, exTest, supBin, supCmp, badBin]
  try decide
example (fp : FpOps) (ρ : XEnv exI32) (hρ : ρ.Canon) :
    (∃ s' : XState exI32, (xExec exI32 fp 40).Finishes (findLoop exI32.T.ity exI32.N 20 2 (fun k => 20 * k) exTest) ⟨ρ, fun _ => 0, exMem2⟩ s' ∧ s'.scal 2 = 10) ∧
    ∃ s' : XState exI32, (xExec exI32 fp 40).Finishes (countLoop exI32.T.ity exI32.N 20 2 (fun k => 20 * k) exTest) ⟨ρ, fun _ => 0, exMem2⟩ s' ∧ s'.scal 1 = 10 := by
  have hl : ∀ k, k < 2 → 20 * k + 20 ≤ 40 := fun k hk => by omega
  constructor
  · obtain ⟨s', g, _, h⟩ := C75_find_x86_partial fp exI32_ok rfl (by decide) exTest_ok.1 exTest_ok.2.1 exTest_ok.2.2 (len := 40) hl exTest_def ⟨ρ, fun _ => 0, exMem2⟩ hρ rfl
    refine ⟨s', g, ?_⟩
    rcases h with ⟨_, k, hk, h1, h2, h3⟩ | ⟨_, h⟩
    · rw [hk]
      have h2 : 10 ≤ k := of_decide_eq_true h2
      have h3 : ¬ 10 < k := fun hlt => by have h := h3 10 hlt; exact absurd h (by decide)
      omega
    · exact absurd (h 10 (by decide)) (by decide)
  · obtain ⟨s', g, _, h⟩ := C75_count_x86_partial fp exI32_ok rfl (by decide) (by decide) exTest_ok.1 exTest_ok.2.1 exTest_ok.2.2 (len := 40) hl exTest_def ⟨ρ, fun _ => 0, exMem2⟩ hρ rfl
    exact ⟨s', g, h.trans (by decide)⟩
end Dpm.X86
