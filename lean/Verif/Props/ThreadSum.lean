import Verif.Props.Threads
import Verif.Props.AccLoop
/-
C84, accumulation: the threads sum up (or combine otherwise) slices of the arrays, in every schedule.
-/
namespace Dpm.X86
open Dpm.Reg Dpm.Util Dpm.Generic Dpm.Spec Dpm.Fp Dpm.GenericMath

/-! ### the loops only read -/
section keeps
variable {w : Nat} {N : Nat}
/-- a statement of the client that leaves the array alone -/
theorem keeps_read {E : Kind → Type} {P : Scal → Prop} {f : Scal → Mem (BitVec w) → Option (BitVec w)} {upd : Scal → BitVec w → Scal} :
    Keeps N (fun _ => True) (fun _ => False) P (.prim (.own fun s m => (f s m).map fun v => (upd s v, m)) : StmOf (PrimE w E)) (fun _ => True) := by
  refine .own (fun s _ => ⟨fun m x s' r hr hx => ?_⟩) (fun _ _ _ _ _ _ => trivial)
  have e : x = m := funext fun p => hx p trivial
  subst e
  cases hv : f s x with
  | none => rw [hv] at hr; cases hr
  | some v => rw [hv] at hr; cases hr; exact ⟨_, rfl, fun _ _ => rfl, fun _ _ => rfl⟩
variable {t : IntTy} {o : Red} {n K : Nat} {src : Nat → Nat} {e : Ex t.bits .vec}
theorem keeps_byReduce : Keeps N (fun _ => True) (fun _ => False) (fun _ => True) (byReduce t o K) (fun _ => True) := .red fun _ _ _ => trivial
theorem keeps_byElements (M : Nat) : Keeps N (fun _ => True) (fun _ => False) (fun _ => True) (byElements t o M K) (fun _ => True) :=
  .seq (Q := fun _ => True) (keeps_local fun _ _ => trivial) (.weaken (P' := fun _ => True) (fun _ h => h) (fun _ _ => trivial)
    (.loop (.seq (Q := fun _ => True) (.get fun _ _ _ => trivial) (keeps_local fun _ _ => trivial))))
theorem keeps_acc {h : Stm t.bits} (hh : Keeps N (fun _ => True) (fun _ => False) (fun _ => True) h (fun _ => True)) :
    Keeps N (fun _ => True) (fun _ => False) (fun _ => True) (accLoop t o N n K src e h) (fun _ => True) := by
  refine .seq (Q := fun _ => True) (.seq (Q := fun _ => True) (keeps_local fun _ _ => trivial) (.seq (Q := fun _ => True) .set ?_)) (.seq hh ?_)
  · refine .weaken (P' := fun _ => True) (fun _ h => h) (fun _ _ => trivial) (.loop (.weaken (P' := fun s => (s 0).toNat + N ≤ n) (fun s hs => of_decide_eq_true hs.2) (fun _ h => h) ?_))
    exact .seq (keeps_loads fun _ _ _ _ => trivial) (.seq .set (keeps_local fun _ _ => trivial))
  · refine .weaken (P' := fun _ => True) (fun _ h => h) (fun _ _ => trivial) (.loop ?_)
    exact keeps_read (w := t.bits) (N := N) (E := Ex t.bits) (P := fun s => True ∧ decide ((s 0).toNat < n) = true)
      (f := fun s m => elem t 1 0 (fun k => m (src k + (s 0).toNat)) (fun _ => false) e) (upd := fun s v => putScal (accPut t o s v) 0 (s 0 + 1))
end keeps

/-! ### combining what the threads report -/
section combine
variable {t : IntTy} {o : Red} {cut : Nat → Nat} {T n : Nat}
/-- The results of the threads, combined, are the combination of all elements. -/
theorem foldAll_cuts (hw : 0 < t.bits) (hcut : Cuts cut T n) (y : Nat → BitVec t.bits) (u : Nat) :
    foldAll t o u (fun i => foldAll t o (cut (i + 1) - cut i) fun j => y (cut i + j)) = foldAll t o (cut u) y := by
  induction u with
  | zero => rw [hcut.zero]; rfl
  | succ u ih =>
    rw [foldAll_succ, ih, ← foldAll_add hw]
    congr 1
    have := hcut.mono u
    omega
theorem sumFits_slice (hcut : Cuts cut T n) {y : Nat → BitVec t.bits} (h : SumFits t n y) (u : Nat) : SumFits t (cut (u + 1) - cut u) (fun j => y (cut u + j)) := by
  rcases h with h | h | h
  · exact Or.inl h
  · exact Or.inr (Or.inl h)
  · refine Or.inr (Or.inr (lt_of_le_of_lt ?_ h))
    have hm := hcut.mono u
    have hn := hcut.le_n (u + 1)
    rw [← Finset.sum_Ico_eq_sum_range (fun j => |t.val (y j)|) (cut u) (cut (u + 1)), Finset.range_eq_Ico]
    exact Finset.sum_le_sum_of_subset_of_nonneg (Finset.Ico_subset_Ico (by omega) hn) (fun _ _ _ => abs_nonneg _)

/-- `r t` are the results the threads report: combined with each other they are the combination of all `n` elements. -/
def Combined (t : IntTy) (o : Red) (T n : Nat) (y : Nat → BitVec t.bits) (r : Nat → Int) : Prop :=
  ∃ x : Nat → BitVec t.bits, (∀ i, i < T → r i = (x i).toNat) ∧ foldAll t o T x = foldAll t o n y
theorem combined (hw : 0 < t.bits) (hcut : Cuts cut T n) {y : Nat → BitVec t.bits} {r : Nat → Int}
    (h : ∀ i, i < T → r i = (foldAll t o (cut (i + 1) - cut i) fun j => y (cut i + j)).toNat) : Combined t o T n y r :=
  ⟨_, h, by rw [foldAll_cuts hw hcut, hcut.last T (Nat.le_refl _)]⟩
/-- sums: the threads' sums add up to the sum of the elements modulo `2^w` -/
theorem Combined.sum {y : Nat → BitVec t.bits} {r : Nat → Int} (h : Combined t .sum T n y r) :
    BitVec.ofInt t.bits (∑ i ∈ Finset.range T, r i) = BitVec.ofInt t.bits (∑ j ∈ Finset.range n, t.val (y j)) := by
  obtain ⟨x, h1, h2⟩ := h
  rw [foldAll_sum, foldAll_sum] at h2
  rw [← h2, Finset.sum_congr rfl fun i hi => h1 i (Finset.mem_range.1 hi)]
  clear h1 h2
  induction T with
  | zero => rfl
  | succ T ih => rw [Finset.sum_range_succ, Finset.sum_range_succ, BitVec.ofInt_add, BitVec.ofInt_add, ih, ofInt_val]; congr 1; simp
end combine

section
variable {w : Nat} {len : Nat} {cut : Nat → Nat} {T n : Nat}
theorem together_acc {t : IntTy} {o : Red} {K : Nat} {src : Nat → Nat} {e : Ex t.bits .vec} {h : Stm t.bits} {a y : Nat → BitVec t.bits} (hw : 0 < t.bits)
    {B : Backend t.bits (Ex t.bits)} {M : ExecOf (PrimE t.bits (Ex t.bits))} {loc : M.St → B.St} {mem : M.St → Mem (BitVec t.bits)}
    (hB : B.Lawful) (hscal : ∀ s, M.scal s = B.scal (loc s))
    (hstep : ∀ p s s', M.step p s = .ok s' → B.big len p (loc s) (mem s) = .ok (loc s', mem s')) (hcut : Cuts cut T n)
    (hh : Keeps B.N (fun _ => True) (fun _ => False) (fun _ => True) h (fun _ => True)) {s : Nat → M.St} (hm : ∀ t, mem (s t) = a)
    (fin : ∀ u, ∃ s', M.Finishes (accLoop t o B.N (cut (u + 1) - cut u) K (fun k => src k + cut u) e h) (s u) s' ∧ mem s' = a ∧
      M.scal s' 1 = (foldAll t o (cut (u + 1) - cut u) fun j => y (cut u + j)).toNat) :
    Together B len T (fun u => ⟨[.stm (accLoop t o B.N (cut (u + 1) - cut u) K (fun k => src k + cut u) e h)], loc (s u)⟩) a
      (fun q => q.mem = a ∧ Combined t o T n y fun u => B.scal (q.conf u).st 1) := by
  obtain ⟨k, hk⟩ := together_read (T := T) hB hscal hstep (prog := fun u => accLoop t o B.N (cut (u + 1) - cut u) K (fun k => src k + cut u) e h)
    (fun u => keeps_acc hh) hm (Q := fun u r => r 1 = (foldAll t o (cut (u + 1) - cut u) fun j => y (cut u + j)).toNat) fin
  refine ⟨k, fun σ => ?_⟩
  obtain ⟨q, h1, h2, h3, h4⟩ := hk σ
  exact ⟨q, h1, h2, h3, fun hq => ⟨(h4 hq).1, combined hw hcut (h4 hq).2⟩⟩
end
theorem value_slice {t : IntTy} {src : Nat → Nat} {e : Ex t.bits .vec} {a y : Nat → BitVec t.bits} {cut : Nat → Nat} {T n : Nat} (hcut : Cuts cut T n)
    (hy : ∀ j, j < n → value t src e a j = some (y j)) (u : Nat) : ∀ j, j < cut (u + 1) - cut u → value t (fun k => src k + cut u) e a j = some (y (cut u + j)) := fun j hj => by
  have := hy (cut u + j) (by have := hcut.le_n (u + 1); omega)
  unfold value at this ⊢
  simpa only [Nat.add_assoc] using this

section x86
variable (fp : FpOps) {c : Cfg} (hc : c.Ok) (hint : c.T.flt = false) {o : Red} {cut : Nat → Nat} {src : Nat → Nat} {len n K T : Nat} {e : Ex c.w .vec} {a y : Nat → BitVec c.w}
include hc hint
/-- C84 (accumulation, x86 backend): sums, dot products, bitwise combinations, least and greatest elements of arrays divided among threads in any
way; each accumulates in a vector of its own and reduces it.  For every schedule the results of the threads combined with each other are the
combination of all elements. -/
theorem C84_accumulate_x86_partial (hcut : Cuts cut T n) (he : e.Map K) (hsup : Supported c e) (hso : Sound c e) (hop : supBin c (redBin o)) (hred : XRedOk c o)
    (hl : ∀ k, k < K → src k + n ≤ len) (hy : ∀ j, j < n → value c.T.ity src e a j = some (y j)) (hf : o = .sum → SumFits c.T.ity n y)
    (ρ : Nat → XEnv c) (hρ : ∀ t, (ρ t).Canon) (v : Nat → Scal) :
    Together (xInt c fp) len T (fun u => ⟨[.stm (accLoop c.T.ity o c.N (cut (u + 1) - cut u) K (fun k => src k + cut u) e (byReduce c.T.ity o K))], ⟨ρ u, v u⟩⟩) a
      (fun q => q.mem = a ∧ Combined c.T.ity o T n y fun u => XLoc.scal (q.conf u).st 1) :=
  together_acc (t := c.T.ity) (B := xInt c fp) (M := xExec c fp len) (loc := XState.loc) (mem := XState.mem) (w_pos hc.ety) xBackend_lawful (fun _ => rfl) (fun p s s' h => x_big hc len p s s' h) hcut
    keeps_byReduce (s := fun u => ⟨ρ u, v u, a⟩) (fun _ => rfl)
    (fun u => C78_x86_partial fp hc hint he hsup hso hop hred (fun k hk => by have := hl k hk; have := hcut.le_n (u + 1); have := hcut.mono u; omega)
      (value_slice hcut hy u) (fun h => sumFits_slice hcut (hf h) u) ⟨ρ u, v u, a⟩ (hρ u) rfl)
/-- C84: the same where each client combines the elements of its accumulator itself (no condition on `reduce`). -/
theorem C84_accumulate_x86_elements_partial (hcut : Cuts cut T n) (he : e.Map K) (hsup : Supported c e) (hso : Sound c e) (hop : supBin c (redBin o))
    (hl : ∀ k, k < K → src k + n ≤ len) (hy : ∀ j, j < n → value c.T.ity src e a j = some (y j)) (hf : o = .sum → SumFits c.T.ity n y)
    (ρ : Nat → XEnv c) (hρ : ∀ t, (ρ t).Canon) (v : Nat → Scal) :
    Together (xInt c fp) len T (fun u => ⟨[.stm (accLoop c.T.ity o c.N (cut (u + 1) - cut u) K (fun k => src k + cut u) e (byElements c.T.ity o c.N K))], ⟨ρ u, v u⟩⟩) a
      (fun q => q.mem = a ∧ Combined c.T.ity o T n y fun u => XLoc.scal (q.conf u).st 1) :=
  together_acc (t := c.T.ity) (B := xInt c fp) (M := xExec c fp len) (loc := XState.loc) (mem := XState.mem) (w_pos hc.ety) xBackend_lawful (fun _ => rfl) (fun p s s' h => x_big hc len p s s' h) hcut
    (keeps_byElements _) (s := fun u => ⟨ρ u, v u, a⟩) (fun _ => rfl)
    (fun u => C78_x86_elements_partial fp hc hint he hsup hso hop (fun k hk => by have := hl k hk; have := hcut.le_n (u + 1); have := hcut.mono u; omega)
      (value_slice hcut hy u) (fun h => sumFits_slice hcut (hf h) u) ⟨ρ u, v u, a⟩ (hρ u) rfl)
/-- C84 (sums, x86 backend): the threads' sums add up to the sum of all elements, modulo `2^w`. -/
theorem C84_sum_x86_partial (hcut : Cuts cut T n) (he : e.Map K) (hsup : Supported c e) (hso : Sound c e) (hred : redKernel c = true)
    (hl : ∀ k, k < K → src k + n ≤ len) (hy : ∀ j, j < n → value c.T.ity src e a j = some (y j)) (hf : SumFits c.T.ity n y)
    (ρ : Nat → XEnv c) (hρ : ∀ t, (ρ t).Canon) (v : Nat → Scal) :
    Together (xInt c fp) len T (fun u => ⟨[.stm (accLoop c.T.ity .sum c.N (cut (u + 1) - cut u) K (fun k => src k + cut u) e (byReduce c.T.ity .sum K))], ⟨ρ u, v u⟩⟩) a
      (fun q => BitVec.ofInt c.w (∑ u ∈ Finset.range T, XLoc.scal (q.conf u).st 1) = BitVec.ofInt c.w (∑ j ∈ Finset.range n, c.T.ity.val (y j))) := by
  obtain ⟨k, hk⟩ := C84_accumulate_x86_partial fp hc hint (o := .sum) hcut he hsup hso trivial hred hl hy (fun _ => hf) ρ hρ v
  refine ⟨k, fun σ => ?_⟩
  obtain ⟨q, h1, h2, h3, h4⟩ := hk σ
  exact ⟨q, h1, h2, h3, fun hq => (h4 hq).2.sum⟩
end x86
section generic
variable {t : IntTy} {o : Red} {N : Nat} {cut : Nat → Nat} {src : Nat → Nat} {len n K T : Nat} {e : Ex t.bits .vec} {a y : Nat → BitVec t.bits}
/-- C84 (accumulation, generic backend, the client combines the elements of the accumulator) -/
theorem C84_accumulate_generic_partial (hw : 0 < t.bits) (hN : 0 < N) (hcut : Cuts cut T n) (he : e.Map K) (hp : Plain t e)
    (hl : ∀ k, k < K → src k + n ≤ len) (hy : ∀ j, j < n → value t src e a j = some (y j)) (hf : o = .sum → SumFits t n y)
    (ρ : Nat → GEnv t.bits N) (v : Nat → Scal) :
    Together (gInt t N) len T (fun u => ⟨[.stm (accLoop t o N (cut (u + 1) - cut u) K (fun k => src k + cut u) e (byElements t o N K))], ⟨ρ u, v u⟩⟩) a
      (fun q => q.mem = a ∧ Combined t o T n y fun u => GLoc.scal (q.conf u).st 1) :=
  together_acc (B := gInt t N) (M := gExec t N len) (loc := GStateW.loc) (mem := GStateW.mem) hw gBackend_lawful (fun _ => rfl) (fun p s s' h => g_big len p s s' h) hcut
    (keeps_byElements _) (s := fun u => ⟨ρ u, v u, a⟩) (fun _ => rfl)
    (fun u => C78_generic_partial hw hN he hp (fun k hk => by have := hl k hk; have := hcut.le_n (u + 1); have := hcut.mono u; omega)
      (value_slice hcut hy u) (fun h => sumFits_slice hcut (hf h) u) ⟨ρ u, v u, a⟩ rfl)
end generic

/-! ### a concrete case -/
/-- the dot product of two arrays of 20 `int`s by four threads, two of which have nothing to do -/
example (fp : FpOps) (ρ : Nat → XEnv exI32) (hρ : ∀ t, (ρ t).Canon) :
    Together (xInt exI32 fp) 40 4 (fun t => ⟨[.stm (accLoop exI32.T.ity .sum exI32.N (exCut (t + 1) - exCut t) 2 (fun k => 20 * k + exCut t) exDot (byReduce exI32.T.ity .sum 2))], ⟨ρ t, fun _ => 0⟩⟩) exMem3
      (fun q => BitVec.ofInt 32 (∑ u ∈ Finset.range 4, XLoc.scal (q.conf u).st 1) = 570#32) := by
  obtain ⟨k, hk⟩ := C84_sum_x86_partial fp exI32_ok rfl (len := 40) exCut_ok exDot_ok.1 exDot_ok.2.1 exDot_ok.2.2 (by decide) (fun k hk => by omega) exDot_def
    (Or.inr (Or.inr (by decide +kernel))) ρ hρ (fun _ _ => 0)
  refine ⟨k, fun σ => ?_⟩
  obtain ⟨q, h1, h2, h3, h4⟩ := hk σ
  exact ⟨q, h1, h2, h3, fun hq => (h4 hq).trans (by show (BitVec.ofInt 32 _ : BitVec 32) = _; decide +kernel)⟩
end Dpm.X86
