import Verif.Props.ThreadSum
import Verif.Props.FloatSum
/-
C84, floating-point sums and dot products divided among threads, in every schedule.
-/
namespace Dpm.X86
open Dpm.Reg Dpm.Util Dpm.Generic Dpm.Spec Dpm.Fp Dpm.GenericMath

section keeps
variable {w N n K : Nat} {src : Nat → Nat} {e : FEx w .vec}
theorem keeps_sumReduce : Keeps N (fun _ => True) (fun _ => False) (fun _ => True) (sumReduce (w := w) K) (fun _ => True) := .red fun _ _ _ => trivial
theorem keeps_sumElements (M : Nat) : Keeps N (fun _ => True) (fun _ => False) (fun _ => True) (sumElements (w := w) M K) (fun _ => True) :=
  .seq (Q := fun _ => True) (keeps_local fun _ _ => trivial) (.weaken (P' := fun _ => True) (fun _ h => h) (fun _ _ => trivial)
    (.loop (.seq (Q := fun _ => True) (.get fun _ _ _ => trivial) (keeps_local fun _ _ => trivial))))
theorem keeps_sum {h : FStm w} (hh : Keeps N (fun _ => True) (fun _ => False) (fun _ => True) h (fun _ => True)) :
    Keeps N (fun _ => True) (fun _ => False) (fun _ => True) (sumLoop N n K src e h) (fun _ => True) := by
  refine .seq (Q := fun _ => True) (.seq (Q := fun _ => True) (keeps_local fun _ _ => trivial) (.seq (Q := fun _ => True) .set ?_)) (.seq hh ?_)
  · refine .weaken (P' := fun _ => True) (fun _ h => h) (fun _ _ => trivial) (.loop (.weaken (P' := fun s => (s 0).toNat + N ≤ n) (fun s hs => of_decide_eq_true hs.2) (fun _ h => h) ?_))
    exact .seq (keeps_loads fun _ _ _ _ => trivial) (.seq .set (keeps_local fun _ _ => trivial))
  · refine .weaken (P' := fun _ => True) (fun _ h => h) (fun _ _ => trivial) (.loop ?_)
    exact keeps_read (w := w) (N := N) (E := FEx w) (P := fun s => True ∧ decide ((s 0).toNat < n) = true)
      (f := fun s m => fltScalar e (fun k => m (src k + (s 0).toNat))) (upd := fun s v => putScal (fltPut s v) 0 (s 0 + 1))
end keeps

section combine
variable {w : Nat} {cut : Nat → Nat} {T n : Nat}
theorem sum_cuts {α : Type} [AddCommMonoid α] (hcut : Cuts cut T n) (f : Nat → α) (u : Nat) :
    ∑ i ∈ Finset.range u, ∑ j ∈ Finset.range (cut (i + 1) - cut i), f (cut i + j) = ∑ j ∈ Finset.range (cut u), f j := by
  induction u with
  | zero => rw [hcut.zero]; simp
  | succ u ih =>
    have h : cut u + (cut (u + 1) - cut u) = cut (u + 1) := by have := hcut.mono u; omega
    rw [Finset.sum_range_succ, ih, ← h, Finset.sum_range_add, h]
/-- Sums of slices, added up in any order and association, are a sum of all elements. -/
theorem sumTo_cuts (hw : W w) (hcut : Cuts cut T n) {y r : Nat → BitVec w} (h : ∀ u, u < T → SumTo (cut (u + 1) - cut u) (fun j => y (cut u + j)) (r u)) {x : BitVec w}
    (hx : Comb fadd r (List.range T) x) : SumTo n y x := by
  have := adds_comb hw hx (fun u hu => h u (List.mem_range.1 hu))
  rw [list_sum_range, list_sum_range, list_sum_range] at this
  refine this.congr ⟨fun hf j hj => ?_, fun hf u hu j hj => hf _ ?_⟩ ?_ ?_ ?_
  · obtain ⟨u, h1, h2, h3⟩ := hcut.find hj
    have := hf u (List.mem_range.2 h1) (j - cut u) (by omega)
    dsimp only at this
    rwa [show cut u + (j - cut u) = j by omega] at this
  · have := hcut.le_n (u + 1); omega
  · have := sum_cuts hcut (fun _ => 1) T
    simpa [hcut.last T (Nat.le_refl _)] using this
  · rw [sum_cuts hcut (fun j => rv (y j)), hcut.last T (Nat.le_refl _)]
  · rw [sum_cuts hcut (fun j => |rv (y j)|), hcut.last T (Nat.le_refl _)]
/-- `r` are the results of the threads: added up in any order and association they are the sum of all elements up to `n - 1` rounding errors. -/
def SumsUp {w : Nat} (T n : Nat) (y : Nat → BitVec w) (r : Nat → Int) : Prop :=
  ∃ x : Nat → BitVec w, (∀ u, u < T → r u = (x u).toNat) ∧ ∀ s, Comb fadd x (List.range T) s → IsSumOf n y s
/-- the same for dot products -/
def DotsUp {w : Nat} (T n : Nat) (y z : Nat → BitVec w) (r : Nat → Int) : Prop :=
  ∃ x : Nat → BitVec w, (∀ u, u < T → r u = (x u).toNat) ∧ ∀ s, Comb fadd x (List.range T) s → IsDotOf n y z s
end combine

theorem together_sum {w len : Nat} {cut : Nat → Nat} {T n K : Nat} {src : Nat → Nat} {e : FEx w .vec} {h : FStm w} {a y : Nat → BitVec w} (hw : W w)
    {B : Backend w (FEx w)} {M : ExecOf (PrimE w (FEx w))} {loc : M.St → B.St} {mem : M.St → Mem (BitVec w)}
    (hB : B.Lawful) (hscal : ∀ s, M.scal s = B.scal (loc s))
    (hstep : ∀ p s s', M.step p s = .ok s' → B.big len p (loc s) (mem s) = .ok (loc s', mem s')) (hcut : Cuts cut T n)
    (hh : Keeps B.N (fun _ => True) (fun _ => False) (fun _ => True) h (fun _ => True)) {s : Nat → M.St} (hm : ∀ t, mem (s t) = a)
    (fin : ∀ u, ∃ s', M.Finishes (sumLoop B.N (cut (u + 1) - cut u) K (fun k => src k + cut u) e h) (s u) s' ∧ mem s' = a ∧
      ∃ r : BitVec w, M.scal s' 1 = r.toNat ∧ SumTo (cut (u + 1) - cut u) (fun j => y (cut u + j)) r) :
    Together B len T (fun u => ⟨[.stm (sumLoop B.N (cut (u + 1) - cut u) K (fun k => src k + cut u) e h)], loc (s u)⟩) a
      (fun q => q.mem = a ∧ SumsUp T n y fun u => B.scal (q.conf u).st 1) := by
  obtain ⟨k, hk⟩ := together_read (T := T) hB hscal hstep (prog := fun u => sumLoop B.N (cut (u + 1) - cut u) K (fun k => src k + cut u) e h)
    (fun u => keeps_sum hh) hm (Q := fun u v => ∃ r : BitVec w, v 1 = r.toNat ∧ SumTo (cut (u + 1) - cut u) (fun j => y (cut u + j)) r) fin
  refine ⟨k, fun σ => ?_⟩
  obtain ⟨q, h1, h2, h3, h4⟩ := hk σ
  refine ⟨q, h1, h2, h3, fun hq => ⟨(h4 hq).1, ?_⟩⟩
  have h5 := (h4 hq).2
  classical
  refine ⟨fun u => if hu : u < T then (h5 u hu).choose else 0#w, fun u hu => ?_, fun x hx => (sumTo_cuts hw hcut (fun u hu => ?_) hx).isSum⟩
  · dsimp only; rw [dif_pos hu]; exact (h5 u hu).choose_spec.1
  · rw [dif_pos hu]; exact (h5 u hu).choose_spec.2
theorem scalar_slice {w : Nat} {src : Nat → Nat} {e : FEx w .vec} {a y : Nat → BitVec w} {cut : Nat → Nat} {T n : Nat} (hcut : Cuts cut T n)
    (hy : ∀ j, j < n → fltScalar e (fun k => a (src k + j)) = some (y j)) (u : Nat) :
    ∀ j, j < cut (u + 1) - cut u → fltScalar e (fun k => a (src k + cut u + j)) = some (y (cut u + j)) := fun j hj => by
  have := hy (cut u + j) (by have := hcut.le_n (u + 1); omega)
  simpa only [Nat.add_assoc] using this

section x86
variable {c : Cfg} (hc : c.Ok) (hflt : c.T.flt = true) {cut : Nat → Nat} {src : Nat → Nat} {len n K T : Nat} {e : FEx c.w .vec} {a y : Nat → BitVec c.w}
include hc hflt
/-- C84 (`float` and `double` sums, x86 backend): the arrays are divided among the threads in any way; for every schedule the results of the threads,
added up in any order and association, are the sum of all values up to the rounding errors of `n - 1` additions - the bound of a single loop. -/
theorem C84_float_sum_x86_partial (hcut : Cuts cut T n) (he : e.Map K) (ha : e.Avoids False True)
    (hl : ∀ k, k < K → src k + n ≤ len) (hy : ∀ j, j < n → fltScalar e (fun k => a (src k + j)) = some (y j)) (ρ : Nat → XEnv c) (hρ : ∀ t, (ρ t).Canon) (v : Nat → Scal) :
    Together (xFlt c) len T (fun u => ⟨[.stm (sumLoop c.N (cut (u + 1) - cut u) K (fun k => src k + cut u) e (sumReduce K))], ⟨ρ u, v u⟩⟩) a
      (fun q => q.mem = a ∧ SumsUp T n y fun u => XLoc.scal (q.conf u).st 1) :=
  together_sum (fltW hc.ety hflt) (B := xFlt c) (M := xfExec c len) (loc := XState.loc) (mem := XState.mem) xBackend_lawful (fun _ => rfl) (fun p s s' h => x_big hc len p s s' h) hcut
    keeps_sumReduce (s := fun u => ⟨ρ u, v u, a⟩) (fun _ => rfl)
    (fun u => sum_x86 hc hflt he ha (fun k hk => by have := hl k hk; have := hcut.le_n (u + 1); have := hcut.mono u; omega)
      (scalar_slice hcut hy u) ⟨ρ u, v u, a⟩ (hρ u) rfl)
/-- C84 (dot products, x86 backend): of two arrays with any contents -/
theorem C84_dot_x86 (hcut : Cuts cut T n) {p q : Nat} (hp : p + n ≤ len) (hq : q + n ≤ len) (a : Nat → BitVec c.w) (ρ : Nat → XEnv c) (hρ : ∀ t, (ρ t).Canon) (v : Nat → Scal) :
    Together (xFlt c) len T (fun u => ⟨[.stm (sumLoop c.N (cut (u + 1) - cut u) 2 (fun k => (if k = 0 then p else q) + cut u) (dotEx c.w) (sumReduce 2))], ⟨ρ u, v u⟩⟩) a
      (fun s => s.mem = a ∧ DotsUp T n (fun j => a (p + j)) (fun j => a (q + j)) fun u => XLoc.scal (s.conf u).st 1) := by
  obtain ⟨k, hk⟩ := C84_float_sum_x86_partial hc hflt (src := fun k => if k = 0 then p else q) hcut (dotEx_map c.w).1 (dotEx_map c.w).2.2
    (fun k _ => by split <;> assumption) (a := a) (fun j _ => dotEx_scalar _) ρ hρ v
  refine ⟨k, fun σ => ?_⟩
  obtain ⟨s, h1, h2, h3, h4⟩ := hk σ
  refine ⟨s, h1, h2, h3, fun hs => ⟨(h4 hs).1, ?_⟩⟩
  obtain ⟨x, g1, g2⟩ := (h4 hs).2
  exact ⟨x, g1, fun t ht => IsSumOf.isDot (fltW hc.ety hflt) (g2 t ht)⟩
end x86
section generic
variable {w N : Nat} {cut : Nat → Nat} {src : Nat → Nat} {len n K T : Nat} {e : FEx w .vec} {a y : Nat → BitVec w}
/-- C84 (`float` and `double` sums, generic backend, the client adds up the elements of the accumulator) -/
theorem C84_float_sum_generic_partial (hw : W w) (hN : 0 < N) (L : Cmath w) (hL : ∀ x, L.fn1 .sqrt x = fsqrt x) (hcut : Cuts cut T n) (he : e.Map K) (ha : e.Avoids True False)
    (hl : ∀ k, k < K → src k + n ≤ len) (hy : ∀ j, j < n → fltScalar e (fun k => a (src k + j)) = some (y j)) (ρ : Nat → GEnv w N) (v : Nat → Scal) :
    Together (gFlt L N) len T (fun u => ⟨[.stm (sumLoop N (cut (u + 1) - cut u) K (fun k => src k + cut u) e (sumElements N K))], ⟨ρ u, v u⟩⟩) a
      (fun q => q.mem = a ∧ SumsUp T n y fun u => GLoc.scal (q.conf u).st 1) :=
  together_sum hw (B := gFlt L N) (M := gfExec L N len) (loc := GStateW.loc) (mem := GStateW.mem) gBackend_lawful (fun _ => rfl) (fun p s s' h => g_big len p s s' h) hcut
    (keeps_sumElements _) (s := fun u => ⟨ρ u, v u, a⟩) (fun _ => rfl)
    (fun u => sum_generic hw hN L hL he ha (fun k hk => by have := hl k hk; have := hcut.le_n (u + 1); have := hcut.mono u; omega)
      (scalar_slice hcut hy u) ⟨ρ u, v u, a⟩ rfl)
end generic

/-! ### concrete cases -/
/-- four threads, two of them without work; 20 elements with any contents -/
example (a : Nat → BitVec 32) (ρ : Nat → XEnv exF32) (hρ : ∀ t, (ρ t).Canon) :
    Together (xFlt exF32) 40 4 (fun u => ⟨[.stm (sumLoop exF32.N (exCut (u + 1) - exCut u) 2 (fun k => (if k = 0 then 0 else 20) + exCut u) (dotEx exF32.w) (sumReduce 2))], ⟨ρ u, fun _ => 0⟩⟩) a
      (fun s => s.mem = a ∧ DotsUp 4 20 (fun j => a (0 + j)) (fun j => a (20 + j)) fun u => XLoc.scal (s.conf u).st 1) :=
  C84_dot_x86 exF32_ok rfl exCut_ok (by decide) (by decide) a ρ hρ (fun _ _ => 0)
/-- such a way of adding up the results exists: from left to right -/
example (r : Nat → BitVec 32) : Comb fadd r (List.range 4) (fadd (fadd (fadd (r 0) (r 1)) (r 2)) (r 3)) :=
  .node (l₁ := [0, 1, 2]) (l₂ := [3]) (.node (l₁ := [0, 1]) (l₂ := [2]) (.node (l₁ := [0]) (l₂ := [1]) (.one 0) (.one 1)) (.one 2)) (.one 3)
end Dpm.X86
