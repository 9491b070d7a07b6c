import Verif.Props.FloatLoops
import Verif.Proofs.SumErr
import Verif.Spec.Sum
/-
C79, C80: rounding error of `reduce` and of vectorised summation loops over `float` and `double`.
-/
namespace Dpm.X86
open Dpm.Reg Dpm.Util Dpm.Generic Dpm.Spec Dpm.Fp Dpm.GenericMath

/-- `IsSumOf` as a property of a sum in progress -/
def SumTo {w : Nat} (n : Nat) (y : Nat → BitVec w) (r : BitVec w) : Prop :=
  Adds (∀ j, j < n → isFinite (y j) = true) n (∑ j ∈ Finset.range n, rv (y j)) (∑ j ∈ Finset.range n, |rv (y j)|) r
theorem SumTo.isSum {w n : Nat} {y : Nat → BitVec w} {r : BitVec w} (h : SumTo n y r) : IsSumOf n y r :=
  ⟨fun hr => ⟨h.fin hr, h.err hr⟩, h.ok⟩
theorem forall_lt_succ {n : Nat} {p : Nat → Prop} : (∀ j, j < n + 1 → p j) ↔ (∀ j, j < n → p j) ∧ p n :=
  ⟨fun h => ⟨fun j hj => h j (by omega), h n (by omega)⟩, fun h j hj => by
    by_cases e : j = n
    · rw [e]; exact h.2
    · exact h.1 j (by omega)⟩
theorem SumTo.step {w n : Nat} (hw : W w) {y : Nat → BitVec w} {r : BitVec w} (h : SumTo n y r) : SumTo (n + 1) y (fadd r (y n)) :=
  (adds_fadd hw h (adds_leaf (y n))).congr forall_lt_succ.symm rfl (Finset.sum_range_succ _ _).symm (Finset.sum_range_succ _ _).symm

/-- The elements of a vector are partial sums of `y 0 .. y (i-1)`. -/
structure Partial {w : Nat} (N i : Nat) (y acc : Nat → BitVec w) (F : Nat → Prop) (k : Nat → Nat) (S T : Nat → ℝ) : Prop where
  each : ∀ l, l < N → Adds (F l) (k l) (S l) (T l) (acc l)
  fin : (∀ l, l < N → F l) ↔ ∀ j, j < i → isFinite (y j) = true
  num : ∑ l ∈ Finset.range N, k l = i
  sum : ∑ l ∈ Finset.range N, S l = ∑ j ∈ Finset.range i, rv (y j)
  abs : ∑ l ∈ Finset.range N, T l = ∑ j ∈ Finset.range i, |rv (y j)|
def Partials {w : Nat} (N i : Nat) (y acc : Nat → BitVec w) : Prop := ∃ F k S T, Partial N i y acc F k S T
theorem partials_start {w N : Nat} (hw : W w) {y acc : Nat → BitVec w} (h : ∀ l, l < N → acc l = 0#w) : Partials N 0 y acc :=
  ⟨fun _ => True, fun _ => 0, fun _ => 0, fun _ => 0, ⟨fun l hl => by rw [h l hl]; exact adds_zero hw, ⟨fun _ j hj => by omega, fun _ _ _ => trivial⟩, by simp, by simp, by simp⟩⟩
theorem partials_step {w N i : Nat} (hw : W w) {y acc acc' : Nat → BitVec w} (h : Partials N i y acc) (ha : ∀ l, l < N → acc' l = fadd (acc l) (y (i + l))) :
    Partials N (i + N) y acc' := by
  obtain ⟨F, k, S, T, h⟩ := h
  refine ⟨fun l => F l ∧ isFinite (y (i + l)) = true, fun l => k l + 1, fun l => S l + rv (y (i + l)), fun l => T l + |rv (y (i + l))|,
    ⟨fun l hl => ?_, ⟨fun hh j hj => ?_, fun hh l hl => ⟨?_, hh _ (by omega)⟩⟩, ?_, ?_, ?_⟩⟩
  · rw [ha l hl]; exact adds_fadd hw (h.each l hl) (adds_leaf _)
  · by_cases e : j < i
    · exact h.fin.1 (fun l hl => (hh l hl).1) j e
    · have := (hh (j - i) (by omega)).2
      rwa [show i + (j - i) = j by omega] at this
  · exact h.fin.2 (fun j hj => hh j (by omega)) l hl
  · rw [Finset.sum_add_distrib, h.num]; simp
  · rw [Finset.sum_add_distrib, h.sum, Finset.sum_range_add]
  · rw [Finset.sum_add_distrib, h.abs, Finset.sum_range_add]
/-- combined in any order, with any number of zeros -/
theorem partials_comb {w N i M : Nat} (hw : W w) {y acc : Nat → BitVec w} (h : Partials N i y acc) (hM : N ≤ M) {r : BitVec w}
    (hr : Comb fadd (fun l => if l < N then acc l else 0#w) (List.range M) r) : SumTo i y r := by
  obtain ⟨F, k, S, T, h⟩ := h
  have hz : ∀ {β : Type} [AddCommMonoid β] (f : Nat → β), ((List.range M).map fun l => if l < N then f l else 0).sum = ∑ l ∈ Finset.range N, f l := by
    intro β _ f
    rw [list_sum_range]
    obtain ⟨d, rfl⟩ := Nat.exists_eq_add_of_le hM
    rw [Finset.sum_range_add]
    have h1 : ∑ x ∈ Finset.range d, (if N + x < N then f (N + x) else 0) = 0 := Finset.sum_eq_zero fun x _ => if_neg (by omega)
    rw [h1, add_zero]
    exact Finset.sum_congr rfl fun x hx => if_pos (Finset.mem_range.1 hx)
  have := adds_comb hw hr (F := fun l => l < N → F l) (k := fun l => if l < N then k l else 0) (S := fun l => if l < N then S l else 0) (T := fun l => if l < N then T l else 0)
    (fun l _ => by
      by_cases hl : l < N
      · simp only [hl, if_true]; exact (h.each l hl).congr ⟨fun f _ => f, fun f => f trivial⟩ rfl rfl rfl
      · simp only [hl, if_false]; exact (adds_zero hw).congr ⟨fun _ f => f.elim, fun _ => trivial⟩ rfl rfl rfl)
  refine this.congr ?_ ((hz k).trans h.num) ((hz S).trans h.sum) ((hz T).trans h.abs)
  rw [← h.fin]
  exact ⟨fun hh l hl => hh l (List.mem_range.2 (by omega)) hl, fun hh l _ hl => hh l hl⟩
theorem partials_self {w N : Nat} (y : Nat → BitVec w) : Partials N N y y :=
  ⟨fun l => isFinite (y l) = true, fun _ => 1, fun l => rv (y l), fun l => |rv (y l)|, ⟨fun l _ => adds_leaf (y l), Iff.rfl, by simp, rfl, rfl⟩⟩

/-- C79: `reduce(x)` of `float` and `double` vectors is the sum of the elements up to the rounding errors of `size() - 1` additions, for every
size, instruction-set level and contents of the padding. -/
theorem C79_reduce_error {c : Cfg} (hc : c.Ok) (hf : c.T.flt = true) (x : c.Data) :
    ∃ r, vReduce ieee c .plus x = .ok r ∧ IsSumOf c.N (elt c x) r := by
  obtain ⟨r, M, hr, hM, _, h⟩ := (C27_reduce_float ieee hc hf x).1
  exact ⟨r, hr, (partials_comb (fltW hc.ety hf) (partials_self (elt c x)) hM h).isSum⟩

/-! ### summation loops; `s_0` is `i`, `s_1` the result, `v_K` the accumulator -/
section loops
variable {w : Nat} (N n K : Nat) (src : Nat → Nat) (e : FEx w .vec)
/-- the client's own `s_1 = s_1 + x` -/
def fltPut (s : Scal) (x : BitVec w) : Scal := putScal s 1 (fadd (BitVec.ofInt w (s 1)) x).toNat
/-- `i = 0; v_K = 0; while (i + N <= n) { v_k.copy_from(..); v_K = v_K + e; i += N; }` -/
def sumVec : FStm w :=
  .seq (.prim (.own fun s m => some (putScal s 0 0, m))) (.seq (.prim (.set K fun _ => .bcast 0#w))
    (.loop (fun s => decide ((s 0).toNat + N ≤ n)) (.seq (loads src K)
      (.seq (.prim (.set K fun _ => .bin .add (.var K) e)) (.prim (.own fun s m => some (putScal s 0 (s 0 + N), m)))))))
/-- `while (i < n) { s_1 = s_1 + e(array[src_0 + i], ..); ++i; }` -/
noncomputable def sumTail : FStm w :=
  .loop (fun s => decide ((s 0).toNat < n))
    (.prim (.own fun s m => (fltScalar e (fun k => m (src k + (s 0).toNat))).map fun v => (putScal (fltPut s v) 0 (s 0 + 1), m)))
/-- `s_1 = reduce(v_K)` -/
def sumReduce : FStm w := .prim (.red 1 .sum K)
/-- `s_1 = 0; for (s_2 = 0; s_2 < N; ++s_2) s_1 = s_1 + v_K[s_2];` -/
def sumElements : FStm w :=
  .seq (.prim (.own fun s m => some (putScal (putScal s 1 0) 2 0, m)))
    (.loop (fun s => decide ((s 2).toNat < N)) (.seq (.prim (.get 3 K fun s => (s 2).toNat))
      (.prim (.own fun s m => some (putScal (fltPut s (BitVec.ofInt w (s 3))) 2 (s 2 + 1), m)))))
/-- sum in a vector, add up its elements by `h`, do the rest element by element -/
noncomputable def sumLoop (h : FStm w) : FStm w := .seq (sumVec N n K src e) (.seq h (sumTail n src e))
end loops

section spec
variable {w N n K len : Nat} {src : Nat → Nat} {e : FEx w .vec} {a y : Nat → BitVec w}
theorem sum_body (hw : W w) (he : e.Map K) (hl : ∀ k, k < K → src k + n ≤ len) (hy : ∀ j, j < n → fltScalar e (fun k => a (src k + j)) = some (y j))
    {i : Nat} (hi : i + N ≤ n) (s : SState w) (hm : s.mem = a) (h0 : s.scal 0 = i) (hs : Partials N i y (s.vec K)) :
    ∃ s' : SState w, (sExec (fltMeaning w) N len).Finishes (.seq (loads src K) (.seq (.prim (.set K fun _ => .bin .add (.var K) e))
      (.prim (.own fun s m => some (putScal s 0 (s 0 + N), m))))) s s' ∧ s'.mem = a ∧ s'.scal 0 = (i + N : Nat) ∧ Partials N (i + N) y (s'.vec K) := by
  obtain ⟨s1, f1, e1, e2, _, e3, e4⟩ := loads_fin (M := fltMeaning w) (N := N) (src := src) len i K s h0 (fun k hk => by have := hl k hk; omega)
  have hacc : s1.vec K = s.vec K := e4 K (Nat.le_refl K)
  obtain ⟨s2, b2, c1, c2, _, c3, _⟩ := set_ok (M := fltMeaning w) (N := N) (len := len) (K := K) (s := s1)
    (val := fun l => fadd (s.vec K l) (y (i + l))) (e := .bin .add (.var K) e) (fun l hl => by
      have h1 : ((fltMeaning w).el N l (s1.vec · l) (s1.msk · l) e : Option (BitVec w)) = some (y (i + l)) := by
        refine (computes_flt he N l _ _ (fun k => a (src k + (i + l))) fun k hk => ?_).trans (hy (i + l) (by omega))
        rw [e3 k hk l hl, hm, Nat.add_assoc]
      obtain ⟨r1, r2, r3⟩ := fltMeaning_def (e := e) (N := N) (i := l) (v := (s1.vec · l)) (m := (s1.msk · l)) (fun h => by rw [h1] at h; cases h)
      refine (if_pos ⟨⟨trivial, r1⟩, ⟨trivial, r2, fun h => by cases h⟩⟩).trans (congrArg some ?_)
      show fadd (s1.vec K l) (fsval (sEval (s1.vec · l) (s1.msk · l) l e)) = _
      rw [hacc]
      exact congrArg (fadd (s.vec K l)) (Option.some.inj (r3.symm.trans h1)))
  let s3 : SState w := { s2 with scal := putScal s2.scal 0 (s2.scal 0 + N) }
  have b3 : sStep (fltMeaning w) N len (.own fun s m => some (putScal s 0 (s 0 + N), m)) s2 = .ok s3 := rfl
  refine ⟨s3, finishes_seq (M := sExec (fltMeaning w) N len) f1 (finishes_seq (finishes_prim b2) (finishes_prim b3)), ?_, ?_, ?_⟩
  · show s2.mem = a
    rw [c2, e2, hm]
  · show s2.scal 0 + (N : Int) = ((i + N : Nat) : Int)
    rw [c1, e1, h0]; simp
  · exact partials_step hw hs c3
theorem sum_vec (hw : W w) (hN : 0 < N) (he : e.Map K) (hl : ∀ k, k < K → src k + n ≤ len) (hy : ∀ j, j < n → fltScalar e (fun k => a (src k + j)) = some (y j))
    (d : Nat) : ∀ (i : Nat) (s : SState w), n - i ≤ d → i ≤ n → s.mem = a → s.scal 0 = i → Partials N i y (s.vec K) →
    ∃ i' s', i' ≤ n ∧ (sExec (fltMeaning w) N len).Finishes (.loop (fun s => decide ((s 0).toNat + N ≤ n)) (.seq (loads src K)
      (.seq (.prim (.set K fun _ => .bin .add (.var K) e)) (.prim (.own fun s m => some (putScal s 0 (s 0 + N), m)))))) s s' ∧ s'.mem = a ∧
      s'.scal 0 = (i' : Nat) ∧ Partials N i' y (s'.vec K) := by
  induction d with
  | zero =>
    intro i s hdd hi hm h0 hs
    refine ⟨i, s, hi, finishes_done (M := sExec (fltMeaning w) N len) ?_, hm, h0, hs⟩
    show decide ((s.scal 0).toNat + N ≤ n) = false
    rw [h0]
    exact decide_eq_false (by simp; omega)
  | succ d ih =>
    intro i s hdd hi hm h0 hs
    by_cases hn : i + N ≤ n
    · obtain ⟨s1, f1, m1, h1, g1⟩ := sum_body hw he hl hy hn s hm h0 hs
      obtain ⟨i', s', hi', f2, m2, h2⟩ := ih (i + N) s1 (by omega) hn m1 h1 g1
      refine ⟨i', s', hi', finishes_again (M := sExec (fltMeaning w) N len) ?_ f1 f2, m2, h2⟩
      show decide ((s.scal 0).toNat + N ≤ n) = true
      rw [h0]
      exact decide_eq_true hn
    · refine ⟨i, s, hi, finishes_done (M := sExec (fltMeaning w) N len) ?_, hm, h0, hs⟩
      show decide ((s.scal 0).toNat + N ≤ n) = false
      rw [h0]
      exact decide_eq_false hn
/-- after the vector part, the elements of the accumulator are partial sums of the first `i` values -/
theorem sumVec_spec (hw : W w) (hN : 0 < N) (he : e.Map K) (hl : ∀ k, k < K → src k + n ≤ len) (hy : ∀ j, j < n → fltScalar e (fun k => a (src k + j)) = some (y j))
    (s : SState w) (hm : s.mem = a) : ∃ (i : Nat) (s' : SState w), i ≤ n ∧ (sExec (fltMeaning w) N len).Finishes (sumVec N n K src e) s s' ∧ s'.mem = a ∧
      s'.scal 0 = i ∧ Partials N i y (s'.vec K) := by
  let s0 : SState w := { s with scal := putScal s.scal 0 0 }
  have f0 : (sExec (fltMeaning w) N len).Finishes (.prim (.own fun s m => some (putScal s 0 0, m))) s s0 := finishes_prim (M := sExec (fltMeaning w) N len) rfl
  obtain ⟨s1, b1, c1, c2, _, c3, _⟩ := set_ok (M := fltMeaning w) (N := N) (len := len) (K := K) (s := s0) (val := fun _ => 0#w)
    (e := .bcast 0#w) (fun l hl => (if_pos ⟨trivial, trivial⟩).trans rfl)
  obtain ⟨i, s2, hi, f2, m2, h2⟩ := sum_vec hw hN he hl hy n 0 s1 (by omega) (by omega) (by rw [c2]; exact hm) (by rw [c1]; rfl) (partials_start hw c3)
  exact ⟨i, s2, hi, finishes_seq f0 (finishes_seq (finishes_prim b1) f2), m2, h2⟩
theorem sum_tail (hw : W w) (hy : ∀ j, j < n → fltScalar e (fun k => a (src k + j)) = some (y j)) (d : Nat) : ∀ (i : Nat) (s : SState w) (r : BitVec w),
    n - i = d → i ≤ n → s.mem = a → s.scal 0 = i → s.scal 1 = r.toNat → SumTo i y r →
    ∃ s', (sExec (fltMeaning w) N len).Finishes (sumTail n src e) s s' ∧ s'.mem = a ∧ ∃ r : BitVec w, s'.scal 1 = r.toNat ∧ SumTo n y r := by
  induction d with
  | zero =>
    intro i s r hd hi hm h0 h1 hr
    obtain rfl : i = n := by omega
    refine ⟨s, finishes_done (M := sExec (fltMeaning w) N len) ?_, hm, r, h1, hr⟩
    show decide ((s.scal 0).toNat < i) = false
    rw [h0]
    exact decide_eq_false (by simp)
  | succ d ih =>
    intro i s r hd hi hm h0 h1 hr
    have hin : (s.scal 0).toNat = i := by rw [h0]; rfl
    have hp : BitVec.ofInt w (s.scal 1) = r := by rw [h1]; simp
    let s1 : SState w := { s with scal := putScal (fltPut s.scal (y i)) 0 (s.scal 0 + 1) }
    have b1 : sStep (fltMeaning w) N len (.own fun s m => (fltScalar e (fun k => m (src k + (s 0).toNat))).map fun v => (putScal (fltPut s v) 0 (s 0 + 1), m)) s = .ok s1 := by
      have := hy i (by omega)
      simp only [sStep, hin, hm]
      rw [this]
      simp only [s1, ← hm]; rfl
    obtain ⟨s', f', h'⟩ := ih (i + 1) s1 (fadd r (y i)) (by omega) (by omega) hm (by show s.scal 0 + 1 = ((i + 1 : Nat) : Int); rw [h0]; simp) (by
      show ((fadd (BitVec.ofInt w (s.scal 1)) (y i)).toNat : Int) = _
      rw [hp]) (hr.step hw)
    refine ⟨s', finishes_again (M := sExec (fltMeaning w) N len) ?_ (finishes_prim b1) f', h'⟩
    show decide ((s.scal 0).toNat < n) = true
    rw [hin]
    exact decide_eq_true (by omega)
theorem sumElements_loop (hw : W w) {i : Nat} {F : Nat → Prop} {k : Nat → Nat} {S T : Nat → ℝ} (d : Nat) : ∀ (j : Nat) (s : SState w) (r : BitVec w), N - j = d → j ≤ N →
    Partial N i y (s.vec K) F k S T → s.scal 2 = j → s.scal 1 = r.toNat →
    Adds (∀ l, l < j → F l) (∑ l ∈ Finset.range j, k l) (∑ l ∈ Finset.range j, S l) (∑ l ∈ Finset.range j, T l) r →
    ∃ s', (sExec (fltMeaning w) N len).Finishes (.loop (fun s => decide ((s 2).toNat < N)) (.seq (.prim (.get 3 K fun s => (s 2).toNat))
      (.prim (.own fun s m => some (putScal (fltPut s (BitVec.ofInt w (s 3))) 2 (s 2 + 1), m))))) s s' ∧ s'.mem = s.mem ∧ s'.scal 0 = s.scal 0 ∧
      ∃ r : BitVec w, s'.scal 1 = r.toNat ∧ SumTo i y r := by
  induction d with
  | zero =>
    intro j s r hd hj hP h2 h1 hr
    obtain rfl : j = N := by omega
    refine ⟨s, finishes_done (M := sExec (fltMeaning w) j len) ?_, rfl, rfl, r, h1, hr.congr hP.fin hP.num hP.sum hP.abs⟩
    show decide ((s.scal 2).toNat < j) = false
    rw [h2]
    exact decide_eq_false (by simp)
  | succ d ih =>
    intro j s r hd hj hP h2 h1 hr
    have hin : (s.scal 2).toNat = j := by rw [h2]; rfl
    have hp : BitVec.ofInt w (s.scal 1) = r := by rw [h1]; simp
    let s1 : SState w := { s with scal := putScal s.scal 3 (s.vec K (s.scal 2).toNat).toNat }
    have b1 : sStep (fltMeaning w) N len (.get 3 K fun s => (s 2).toNat) s = .ok s1 := by
      simp only [sStep]
      rw [if_pos (by omega)]
    let s2 : SState w := { s1 with scal := putScal (fltPut s1.scal (BitVec.ofInt w (s1.scal 3))) 2 (s1.scal 2 + 1) }
    have b2 : sStep (fltMeaning w) N len (.own fun s m => some (putScal (fltPut s (BitVec.ofInt w (s 3))) 2 (s 2 + 1), m)) s1 = .ok s2 := rfl
    have h3 : BitVec.ofInt w (s1.scal 3) = s.vec K j := by
      show BitVec.ofInt _ (((s.vec K (s.scal 2).toNat).toNat : Nat) : Int) = _
      rw [hin]; simp
    obtain ⟨s', f', m', h0', h'⟩ := ih (j + 1) s2 (fadd r (s.vec K j)) (by omega) (by omega) hP (by show s.scal 2 + 1 = ((j + 1 : Nat) : Int); rw [h2]; simp) (by
      show ((fadd (BitVec.ofInt w (s.scal 1)) (BitVec.ofInt w (s1.scal 3))).toNat : Int) = _
      rw [hp, h3])
      ((adds_fadd hw hr (hP.each j (by omega))).congr forall_lt_succ.symm (Finset.sum_range_succ _ _).symm (Finset.sum_range_succ _ _).symm (Finset.sum_range_succ _ _).symm)
    refine ⟨s', finishes_again (M := sExec (fltMeaning w) N len) ?_ (finishes_seq (finishes_prim b1) (finishes_prim b2)) f', m', h0', h'⟩
    show decide ((s.scal 2).toNat < N) = true
    rw [hin]
    exact decide_eq_true (by omega)
theorem sumLoop_spec (hw : W w) (hN : 0 < N) (he : e.Map K) (hl : ∀ k, k < K → src k + n ≤ len) (hy : ∀ j, j < n → fltScalar e (fun k => a (src k + j)) = some (y j))
    (s : SState w) (hm : s.mem = a) :
    ∃ s', (sExec (fltMeaning w) N len).Finishes (sumLoop N n K src e (sumElements N K)) s s' ∧ s'.mem = a ∧ ∃ r : BitVec w, s'.scal 1 = r.toNat ∧ SumTo n y r := by
  obtain ⟨i, s1, hi, f1, m1, h1, F, k, S, T, hP⟩ := sumVec_spec hw hN he hl hy s hm
  let s2 : SState w := { s1 with scal := putScal (putScal s1.scal 1 0) 2 0 }
  obtain ⟨s3, f3, m3, h3, r, hr, hs⟩ := sumElements_loop (len := len) hw N 0 s2 0#w (by omega) (by omega) hP rfl (by show (0 : Int) = _; simp)
    ((adds_zero hw).congr ⟨fun _ _ h => by omega, fun _ => trivial⟩ (by simp) (by simp) (by simp))
  obtain ⟨s4, f4, m4, h4⟩ := sum_tail (N := N) (len := len) hw hy _ i s3 r rfl hi (m3.trans m1) (h3.trans h1) hr hs
  exact ⟨s4, finishes_seq f1 (finishes_seq (finishes_seq (M := sExec (fltMeaning w) N len) (finishes_prim rfl) f3) f4), m4, h4⟩
end spec

section generic
variable {w N n K len : Nat} {src : Nat → Nat} {e : FEx w .vec} {a y : Nat → BitVec w}
theorem sum_generic (hw : W w) (hN : 0 < N) (L : Cmath w) (hL : ∀ x, L.fn1 .sqrt x = fsqrt x) (he : e.Map K) (ha : e.Avoids True False)
    (hl : ∀ k, k < K → src k + n ≤ len) (hy : ∀ j, j < n → fltScalar e (fun k => a (src k + j)) = some (y j)) (s : GStateW w N) (hm : s.mem = a) :
    ∃ s' : GStateW w N, (gfExec L N len).Finishes (sumLoop N n K src e (sumElements N K)) s s' ∧ s'.mem = a ∧
      ∃ r : BitVec w, s'.scal 1 = r.toNat ∧ SumTo n y r := by
  obtain ⟨r, f, h1, v, h2, h3⟩ := sumLoop_spec hw hN he hl hy s.abs hm
  obtain ⟨s', f', h'⟩ := (C76_generic_partial hN L hL len (sumLoop N n K src e (sumElements N K))
    ⟨⟨trivial, fun _ => trivial, loads_all src K, fun _ => ⟨trivial, ha⟩, trivial⟩, ⟨trivial, trivial, trivial⟩, trivial⟩ s s.abs (grel_abs s)).1 r f
  exact ⟨s', f', h'.mem.trans h1, v, by rw [h'.scal]; exact h2, h3⟩
/-- C80 (generic backend), proved for expressions without `~m`, a C library whose `sqrt` is correctly rounded, and a client that adds up the
elements of the accumulator itself (`reduce` is wrong there, C07): for every number of elements and vector size the vectorised summation loop
finishes with the sum of all values, up to the rounding errors of `n - 1` additions. -/
theorem C80_sum_generic_partial (hw : W w) (hN : 0 < N) (L : Cmath w) (hL : ∀ x, L.fn1 .sqrt x = fsqrt x) (he : e.Map K) (ha : e.Avoids True False)
    (hl : ∀ k, k < K → src k + n ≤ len) (hy : ∀ j, j < n → fltScalar e (fun k => a (src k + j)) = some (y j)) (s : GStateW w N) (hm : s.mem = a) :
    ∃ s' : GStateW w N, (gfExec L N len).Finishes (sumLoop N n K src e (sumElements N K)) s s' ∧ s'.mem = a ∧
      ∃ r : BitVec w, s'.scal 1 = r.toNat ∧ IsSumOf n y r := by
  obtain ⟨s', f, hm, r, hr, h⟩ := sum_generic hw hN L hL he ha hl hy s hm
  exact ⟨s', f, hm, r, hr, h.isSum⟩
end generic
section x86
variable {c : Cfg} (hc : c.Ok) (hflt : c.T.flt = true) {n K len : Nat} {src : Nat → Nat} {e : FEx c.w .vec} {a y : Nat → BitVec c.w}
include hc hflt
theorem sum_x86 (he : e.Map K) (ha : e.Avoids False True)
    (hl : ∀ k, k < K → src k + n ≤ len) (hy : ∀ j, j < n → fltScalar e (fun k => a (src k + j)) = some (y j)) (s : XState c) (hcan : s.env.Canon) (hm : s.mem = a) :
    ∃ s' : XState c, (xfExec c len).Finishes (sumLoop c.N n K src e (sumReduce K)) s s' ∧ s'.mem = a ∧
      ∃ r : BitVec c.w, s'.scal 1 = r.toNat ∧ SumTo n y r := by
  have hw := fltW hc.ety hflt
  obtain ⟨i, s1, hi, f1, m1, h1, hP⟩ := sumVec_spec hw hc.pos he hl hy s.abs hm
  obtain ⟨x1, g1, r1⟩ := (C76_x86_partial hc hflt len (sumVec c.N n K src e) ⟨trivial, fun _ => trivial, loads_all src K, fun _ => ⟨trivial, ha⟩, trivial⟩ s s.abs (xrel_abs s hcan)).1 s1 f1
  obtain ⟨v, M, hv, hM, _, hC⟩ := (C27_reduce_float ieee hc hflt (x1.env.vec K)).1
  have hP' : Partials c.N i y (elt c (x1.env.vec K)) := by
    obtain ⟨F, k, S, T, h⟩ := hP
    exact ⟨F, k, S, T, ⟨fun l hl => by rw [r1.vec K l hl]; exact h.each l hl, h.fin, h.num, h.sum, h.abs⟩⟩
  let x2 : XState c := { x1 with scal := putScal x1.scal 1 v.toNat }
  have b2 : xfStep c len (.red 1 .sum K) x1 = .ok x2 := by
    show (xRed c ieee .sum (x1.env.vec K)).map _ = _
    have : xRed c ieee .sum (x1.env.vec K) = .ok v := hv
    rw [this]; rfl
  let s2 : SState c.w := { s1 with scal := putScal s1.scal 1 v.toNat }
  have r2 : XRel c x2 s2 := ⟨r1.vec, r1.msk, r1.canon, congrArg (putScal · 1 (v.toNat : Int)) r1.scal, r1.mem⟩
  obtain ⟨s3, f3, m3, r, hr, h3⟩ := sum_tail (N := c.N) (len := len) hw hy _ i s2 v rfl hi m1 (by rw [← h1]; rfl) rfl (partials_comb hw hP' hM hC)
  obtain ⟨x3, g3, r3⟩ := (C76_x86_partial hc hflt len (sumTail n src e) trivial x2 s2 r2).1 s3 f3
  exact ⟨x3, finishes_seq g1 (finishes_seq (finishes_prim (M := xfExec c len) b2) g3), r3.mem.trans m3, r, by rw [r3.scal]; exact hr, h3⟩
/-- C80 (x86 backend), proved for expressions without `m && m`: the same, with `reduce`, for every instruction-set level and contents of
uninitialised storage. -/
theorem C80_sum_x86_partial (he : e.Map K) (ha : e.Avoids False True)
    (hl : ∀ k, k < K → src k + n ≤ len) (hy : ∀ j, j < n → fltScalar e (fun k => a (src k + j)) = some (y j)) (s : XState c) (hcan : s.env.Canon) (hm : s.mem = a) :
    ∃ s' : XState c, (xfExec c len).Finishes (sumLoop c.N n K src e (sumReduce K)) s s' ∧ s'.mem = a ∧
      ∃ r : BitVec c.w, s'.scal 1 = r.toNat ∧ IsSumOf n y r := by
  obtain ⟨s', f, hm, r, hr, h⟩ := sum_x86 hc hflt he ha hl hy s hcan hm
  exact ⟨s', f, hm, r, hr, h.isSum⟩
theorem sum_x86_elements (he : e.Map K) (ha : e.Avoids False True)
    (hl : ∀ k, k < K → src k + n ≤ len) (hy : ∀ j, j < n → fltScalar e (fun k => a (src k + j)) = some (y j)) (s : XState c) (hcan : s.env.Canon) (hm : s.mem = a) :
    ∃ s' : XState c, (xfExec c len).Finishes (sumLoop c.N n K src e (sumElements c.N K)) s s' ∧ s'.mem = a ∧
      ∃ r : BitVec c.w, s'.scal 1 = r.toNat ∧ SumTo n y r := by
  obtain ⟨r, f, h1, v, h2, h3⟩ := sumLoop_spec (fltW hc.ety hflt) hc.pos he hl hy s.abs hm
  obtain ⟨s', f', h'⟩ := (C76_x86_partial hc hflt len (sumLoop c.N n K src e (sumElements c.N K))
    ⟨⟨trivial, fun _ => trivial, loads_all src K, fun _ => ⟨trivial, ha⟩, trivial⟩, ⟨trivial, trivial, trivial⟩, trivial⟩ s s.abs (xrel_abs s hcan)).1 r f
  exact ⟨s', f', h'.mem.trans h1, v, by rw [h'.scal]; exact h2, h3⟩
/-- the same where the client adds up the elements of the accumulator itself -/
theorem C80_sum_x86_elements_partial (he : e.Map K) (ha : e.Avoids False True)
    (hl : ∀ k, k < K → src k + n ≤ len) (hy : ∀ j, j < n → fltScalar e (fun k => a (src k + j)) = some (y j)) (s : XState c) (hcan : s.env.Canon) (hm : s.mem = a) :
    ∃ s' : XState c, (xfExec c len).Finishes (sumLoop c.N n K src e (sumElements c.N K)) s s' ∧ s'.mem = a ∧
      ∃ r : BitVec c.w, s'.scal 1 = r.toNat ∧ IsSumOf n y r := by
  obtain ⟨s', f, hm, r, hr, h⟩ := sum_x86_elements hc hflt he ha hl hy s hcan hm
  exact ⟨s', f, hm, r, hr, h.isSum⟩
end x86

/-! ### dot products -/
theorem IsSumOf.isDot {w n : Nat} (hw : W w) {x z : Nat → BitVec w} {r : BitVec w} (h : IsSumOf n (fun j => fmul (x j) (z j)) r) : IsDotOf n x z r := by
  have hu := ulp_pos w
  have ht := tiny_pos w
  set u := ulpHalf w with hu'
  set P := ∑ j ∈ Finset.range n, |rv (x j) * rv (z j)| with hP
  have hP0 : 0 ≤ P := Finset.sum_nonneg fun _ _ => abs_nonneg _
  have h1 : (1 : ℝ) ≤ (1 + u) ^ (n - 1) := one_le_pow₀ (by linarith)
  have hpow : (1 + u) ^ n * P = (1 + u) ^ (n - 1) * ((1 + u) * P) := by
    rcases n with _ | n
    · simp [hP]
    · rw [Nat.add_sub_cancel, pow_succ]; ring
  have hn0 : (0 : ℝ) ≤ n * tiny w := by positivity
  have err : (∀ j, j < n → isFinite (fmul (x j) (z j)) = true) →
      |∑ j ∈ Finset.range n, rv (fmul (x j) (z j)) - ∑ j ∈ Finset.range n, rv (x j) * rv (z j)| ≤ u * P + n * tiny w ∧
      ∑ j ∈ Finset.range n, |rv (fmul (x j) (z j))| ≤ (1 + u) * P + n * tiny w := by
    intro hf
    have each : ∀ j ∈ Finset.range n, |rv (fmul (x j) (z j)) - rv (x j) * rv (z j)| ≤ u * |rv (x j) * rv (z j)| + tiny w := by
      intro j hj
      have hj := hf j (Finset.mem_range.1 hj)
      obtain ⟨a, b⟩ := fmul_back hw hj
      exact or_add hu.le ht.le (fmul_rv hw a b hj)
    have hs : ∑ j ∈ Finset.range n, (u * |rv (x j) * rv (z j)| + tiny w) = u * P + n * tiny w := by
      rw [Finset.sum_add_distrib, ← Finset.mul_sum, Finset.sum_const, Finset.card_range, nsmul_eq_mul]
    constructor
    · rw [← Finset.sum_sub_distrib, ← hs]
      exact (Finset.abs_sum_le_sum_abs _ _).trans (Finset.sum_le_sum each)
    · have : ∑ j ∈ Finset.range n, |rv (fmul (x j) (z j))| ≤ ∑ j ∈ Finset.range n, (|rv (x j) * rv (z j)| + (u * |rv (x j) * rv (z j)| + tiny w)) :=
        Finset.sum_le_sum fun j hj => by
          have h := each j hj
          have h2 := abs_add_le (rv (x j) * rv (z j)) (rv (fmul (x j) (z j)) - rv (x j) * rv (z j))
          rw [show rv (x j) * rv (z j) + (rv (fmul (x j) (z j)) - rv (x j) * rv (z j)) = rv (fmul (x j) (z j)) by ring] at h2
          linarith
      rw [Finset.sum_add_distrib, hs] at this
      linarith
  refine ⟨fun hr => ?_, fun hf hb => ?_⟩
  · obtain ⟨g1, g2⟩ := h.1 hr
    refine ⟨fun j hj => fmul_back hw (g1 j hj), ?_⟩
    obtain ⟨e1, e2⟩ := err g1
    have g3 : ((1 + u) ^ (n - 1) - 1) * ∑ j ∈ Finset.range n, |rv (fmul (x j) (z j))| ≤ ((1 + u) ^ (n - 1) - 1) * ((1 + u) * P + n * tiny w) :=
      mul_le_mul_of_nonneg_left e2 (by linarith)
    have h2 := abs_add_le (rv r - ∑ j ∈ Finset.range n, rv (fmul (x j) (z j))) (∑ j ∈ Finset.range n, rv (fmul (x j) (z j)) - ∑ j ∈ Finset.range n, rv (x j) * rv (z j))
    rw [sub_add_sub_cancel] at h2
    have : ((1 + u) ^ n - 1) * P = (1 + u) ^ (n - 1) * ((1 + u) * P) - P := by rw [sub_mul, hpow, one_mul]
    rw [this]
    have g4 : ((1 + u) ^ (n - 1) - 1) * ((1 + u) * P + n * tiny w) = (1 + u) ^ (n - 1) * ((1 + u) * P) + (1 + u) ^ (n - 1) * (n * tiny w) - (1 + u) * P - n * tiny w := by ring
    linarith
  · have hPm : P ≤ maxVal w := by
      have : P ≤ (1 + u) ^ n * P := le_mul_of_one_le_left hP0 (one_le_pow₀ (by linarith))
      have : 0 ≤ (1 + u) ^ (n - 1) * (n * tiny w) := by positivity
      linarith
    have hm : ∀ j, j < n → isFinite (fmul (x j) (z j)) = true := fun j hj =>
      fmul_finite2 hw (hf j hj).1 (hf j hj).2 ((Finset.single_le_sum (f := fun j => |rv (x j) * rv (z j)|) (fun _ _ => abs_nonneg _) (Finset.mem_range.2 hj)).trans hPm)
    refine h.2 hm ?_
    have := mul_le_mul_of_nonneg_left (err hm).2 (show 0 ≤ (1 + u) ^ (n - 1) by linarith)
    rw [mul_add, ← hpow] at this
    linarith
/-- `v_0 * v_1` -/
def dotEx (w : Nat) : FEx w .vec := .bin .mul (.var 0) (.var 1)
theorem dotEx_map (w : Nat) : (dotEx w).Map 2 ∧ (dotEx w).Avoids True False ∧ (dotEx w).Avoids False True := by
  refine ⟨⟨show 0 < 2 by decide, show 1 < 2 by decide⟩, ?_, ?_⟩ <;> simp [dotEx, FEx.Avoids]
theorem dotEx_scalar {w : Nat} (v : Nat → BitVec w) : fltScalar (dotEx w) v = some (fmul (v 0) (v 1)) := if_pos (by simp [dotEx, Tame, FBin.isOrd])
/-- C80 (dot products, x86 backend): for every two arrays of `n` elements in the client's memory, at `p` and `q`, whatever they contain, the
vectorised dot-product loop with `reduce` finishes, leaves memory alone, and its result is the dot product up to the classical error bound. -/
theorem C80_dot_x86 {c : Cfg} (hc : c.Ok) (hf : c.T.flt = true) {n p q len : Nat} (hp : p + n ≤ len) (hq : q + n ≤ len) (s : XState c) (hcan : s.env.Canon) :
    ∃ s' : XState c, (xfExec c len).Finishes (sumLoop c.N n 2 (fun k => if k = 0 then p else q) (dotEx c.w) (sumReduce 2)) s s' ∧ s'.mem = s.mem ∧
      ∃ r : BitVec c.w, s'.scal 1 = r.toNat ∧ IsDotOf n (fun j => s.mem (p + j)) (fun j => s.mem (q + j)) r := by
  obtain ⟨s', f, hm, r, hr, h⟩ := C80_sum_x86_partial hc hf (src := fun k => if k = 0 then p else q) (n := n) (len := len) (dotEx_map c.w).1 (dotEx_map c.w).2.2
    (fun k _ => by split <;> assumption) (fun j _ => dotEx_scalar _) s hcan rfl
  exact ⟨s', f, hm, r, hr, IsSumOf.isDot (fltW hc.ety hf) h⟩
/-- C80 (dot products, generic backend), when the client adds up the elements of the accumulator itself -/
theorem C80_dot_generic_partial {w N : Nat} (hw : W w) (hN : 0 < N) (L : Cmath w) (hL : ∀ x, L.fn1 .sqrt x = fsqrt x) {n p q len : Nat} (hp : p + n ≤ len) (hq : q + n ≤ len) (s : GStateW w N) :
    ∃ s' : GStateW w N, (gfExec L N len).Finishes (sumLoop N n 2 (fun k => if k = 0 then p else q) (dotEx w) (sumElements N 2)) s s' ∧ s'.mem = s.mem ∧
      ∃ r : BitVec w, s'.scal 1 = r.toNat ∧ IsDotOf n (fun j => s.mem (p + j)) (fun j => s.mem (q + j)) r := by
  obtain ⟨s', f, hm, r, hr, h⟩ := C80_sum_generic_partial hw hN L hL (src := fun k => if k = 0 then p else q) (n := n) (len := len) (dotEx_map w).1 (dotEx_map w).2.1
    (fun k _ => by split <;> assumption) (fun j _ => dotEx_scalar _) s rfl
  exact ⟨s', f, hm, r, hr, IsSumOf.isDot hw h⟩

/-! ### concrete cases -/
theorem rv_two : rv (0x40000000 : BitVec 32) = 2 := by
  have e : val (0x40000000 : BitVec 32) = 2 * 2 ^ 149 := by decide +kernel
  rw [rv_of_val e (b := 0) rfl]; norm_num
theorem rv_three_halves : rv (0x3fc00000 : BitVec 32) = 3 / 2 := by
  have e : val (0x3fc00000 : BitVec 32) = 3 * 2 ^ 148 := by decide +kernel
  rw [rv_of_val e (b := 1) rfl]; norm_num
theorem ulpHalf32 : ulpHalf 32 = 1 / 2 ^ 24 := rfl
theorem tiny32_le : tiny 32 ≤ 1 / 2 ^ 100 := by
  have : tiny 32 = 1 / 2 ^ 150 := rfl
  rw [this]; norm_num
theorem maxVal32_ge : 2 ^ 126 ≤ maxVal 32 := by
  have : maxVal 32 = 2 ^ 128 * (1 - 1 / 2 ^ 24) := rfl
  rw [this]; norm_num
/-- `reduce` of six `float`s equal to 1.5 is finite and 9 up to 1/1000 (in fact exactly) -/
example (x : exF32.Data) (h : ∀ i, i < exF32.N → elt exF32 x i = 0x3fc00000) :
    ∃ r : BitVec 32, vReduce ieee exF32 .plus x = .ok r ∧ isFinite r = true ∧ |rv r - 9| ≤ 1 / 1000 := by
  obtain ⟨r, hr, h1, h2⟩ := C79_reduce_error exF32_ok rfl x
  have hN : exF32.N = 6 := rfl
  have e1 : ∑ j ∈ Finset.range exF32.N, rv (elt exF32 x j) = 9 := by
    rw [Finset.sum_congr rfl fun j hj => by rw [h j (Finset.mem_range.1 hj)], Finset.sum_const, Finset.card_range, hN]
    show 6 • rv (0x3fc00000 : BitVec 32) = 9
    rw [rv_three_halves]; norm_num
  have e2 : ∑ j ∈ Finset.range exF32.N, |rv (elt exF32 x j)| = 9 := by
    rw [Finset.sum_congr rfl fun j hj => by rw [h j (Finset.mem_range.1 hj)], Finset.sum_const, Finset.card_range, hN]
    show 6 • |rv (0x3fc00000 : BitVec 32)| = 9
    rw [rv_three_halves]; norm_num [abs_of_pos]
  rw [e1, e2, hN] at h1
  rw [e2, hN] at h2
  have hu : ulpHalf exF32.w = 1 / 2 ^ 24 := ulpHalf32
  have hm : 2 ^ 126 ≤ maxVal exF32.w := maxVal32_ge
  rw [hu] at h1 h2
  have hf := h2 (fun j hj => by rw [h j (by rw [hN]; exact hj)]; decide) (by norm_num at hm ⊢; linarith)
  exact ⟨r, hr, hf, (h1 hf).2.trans (by norm_num)⟩
/-- the dot product of two arrays of 20 `float`s, 1.5 and 2 everywhere, in vectors of six: finite and 60 up to 1/1000 -/
example (s : XState exF32) (hs : s.env.Canon) (h : ∀ j, j < 20 → s.mem j = 0x3fc00000 ∧ s.mem (20 + j) = 0x40000000) :
    ∃ s' : XState exF32, (xfExec exF32 40).Finishes (sumLoop exF32.N 20 2 (fun k => if k = 0 then 0 else 20) (dotEx exF32.w) (sumReduce 2)) s s' ∧
      ∃ r : BitVec 32, s'.scal 1 = r.toNat ∧ isFinite r = true ∧ |rv r - 60| ≤ 1 / 1000 := by
  obtain ⟨s', f, _, r, hr, h1, h2⟩ := C80_dot_x86 exF32_ok rfl (n := 20) (p := 0) (q := 20) (len := 40) (by decide) (by decide) s hs
  have h0 : ∀ j, j < 20 → s.mem (0 + j) = 0x3fc00000 := fun j hj => by rw [Nat.zero_add]; exact (h j hj).1
  have ea : rv (0x3fc00000 : BitVec exF32.w) = 3 / 2 := rv_three_halves
  have eb : rv (0x40000000 : BitVec exF32.w) = 2 := rv_two
  have e1 : ∑ j ∈ Finset.range 20, rv (s.mem (0 + j)) * rv (s.mem (20 + j)) = 60 := by
    rw [Finset.sum_congr rfl fun j hj => by rw [h0 j (Finset.mem_range.1 hj), (h j (Finset.mem_range.1 hj)).2, ea, eb], Finset.sum_const, Finset.card_range]
    norm_num
  have e2 : ∑ j ∈ Finset.range 20, |rv (s.mem (0 + j)) * rv (s.mem (20 + j))| = 60 := by
    rw [Finset.sum_congr rfl fun j hj => by rw [h0 j (Finset.mem_range.1 hj), (h j (Finset.mem_range.1 hj)).2, ea, eb], Finset.sum_const, Finset.card_range]
    norm_num [abs_of_pos]
  have hu : ulpHalf exF32.w = 1 / 2 ^ 24 := ulpHalf32
  have hm : 2 ^ 126 ≤ maxVal exF32.w := maxVal32_ge
  have ht : tiny exF32.w ≤ 1 / 2 ^ 100 := tiny32_le
  rw [e1, e2, hu] at h1
  rw [e2, hu] at h2
  have hf := h2 (fun j hj => by dsimp only; rw [h0 j hj, (h j hj).2]; decide) (by norm_num at hm ht ⊢; linarith)
  exact ⟨s', f, r, hr, hf, (h1 hf).2.trans (by norm_num at ht ⊢; linarith)⟩
/-- C79 violated (generic backend, C07): `reduce` of the four `float`s `0, 1, 0, 0` is `0`, which is not their sum up to rounding. -/
theorem C79_generic_violated : ∃ (x : GSimd (BitVec 32) 4) (r : BitVec 32), gRed (fpScalar 32) .sum x = .ok r ∧ ¬ IsSumOf 4 x.get r := by
  refine ⟨⟨fun i => if i = 1 then 0x3f800000 else 0⟩, 0, ?_, fun h => ?_⟩
  · have : (match gRed (fpScalar 32) .sum (⟨fun i => if i = 1 then 0x3f800000 else 0⟩ : GSimd (BitVec 32) 4) with
      | .ok r => r.toNat
      | _ => 99) = 0 := by decide +kernel
    cases hr : gRed (fpScalar 32) .sum (⟨fun i => if i = 1 then 0x3f800000 else 0⟩ : GSimd (BitVec 32) 4) with
    | ok r => rw [hr] at this; exact congrArg _ (BitVec.eq_of_toNat_eq this)
    | ub => rw [hr] at this; cases this
    | illFormed => rw [hr] at this; cases this
  · have e1 : rv (0x3f800000 : BitVec 32) = 1 := by
      have e : val (0x3f800000 : BitVec 32) = 1 * 2 ^ 149 := by decide +kernel
      rw [rv_of_val e (b := 0) rfl]; norm_num
    have e0 : rv (0 : BitVec 32) = 0 := rv_zero (Or.inl rfl)
    have := (h.1 (by decide)).2
    simp only [Finset.sum_range_succ, Finset.sum_range_zero, GSimd.get, ulpHalf32] at this
    norm_num [e0, e1] at this
end Dpm.X86
