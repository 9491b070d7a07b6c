import Verif.Props.FlagExpr
import Verif.Model.FlagLoop
/-
Property C82 for loops over arrays.
-/
namespace Dpm.X86
open Dpm Dpm.Reg Dpm.Util Dpm.Generic Dpm.Fp

theorem scalar_congr {w K : Nat} (x : FExp w) (hx : x.Below K) {env env' : Nat → BitVec w} (h : ∀ k, k < K → env k = env' k) : x.scalar env = x.scalar env' := by
  induction x with
  | var k => show (env k, _) = (env' k, _); rw [h k hx]
  | const v => rfl
  | bin o a b iha ihb => simp only [FExp.scalar, iha hx.1, ihb hx.2]
  | binS o a s iha => simp only [FExp.scalar, iha hx]
  | neg a iha => simp only [FExp.scalar, iha hx]
  | sqrt a iha => simp only [FExp.scalar, iha hx]

/-- what a state of the loop looks like after the elements below `i`: `Q` is what has been signalled -/
structure LoopInv {w : Nat} (x : FExp w) (ins : Nat → Mem (BitVec w)) (out : Mem (BitVec w)) (i : Nat) (s : Mem (BitVec w) × List (Ev w)) : Prop where
  done : ∀ p, p < i → s.1 p = (x.scalar (fun k => ins k p)).1
  rest : ∀ p, i ≤ p → s.1 p = out p
/-- everything signalled for the elements below `i` has been, and - if `ex` - nothing else -/
def LoopSig {w : Nat} (F : FlagSem) (x : FExp w) (ins : Nat → Mem (BitVec w)) (ex : Prop) (i : Nat) (s : Mem (BitVec w) × List (Ev w)) : Prop :=
  ∀ e, ((∃ p, p < i ∧ x.signals F (fun k => ins k p) e) → Raised F s.2 e) ∧ (ex → Raised F s.2 e → ∃ p, p < i ∧ x.signals F (fun k => ins k p) e)

section
variable {w : Nat} (F : FlagSem) {x : FExp w} {ins : Nat → Mem (BitVec w)} {out : Mem (BitVec w)} {ex : Prop}
theorem loop_start : LoopInv x ins out 0 (out, []) ∧ LoopSig F x ins ex 0 (out, []) :=
  ⟨⟨fun _ h => absurd h (Nat.not_lt_zero _), fun _ _ => rfl⟩, fun e => ⟨fun ⟨_, h, _⟩ => absurd h (Nat.not_lt_zero _), fun _ h => absurd h (raised_nil F e)⟩⟩
theorem loop_block {i N : Nat} {s : Mem (BitVec w) × List (Ev w)} (h1 : LoopInv x ins out i s) (h2 : LoopSig F x ins ex i s) (m : Mem (BitVec w)) (ev : List (Ev w))
    (hm : ∀ j, m j = if j < N then (x.scalar (fun k => ins k (i + j))).1 else s.1 (i + j))
    (he : ∀ e, ((∃ j, j < N ∧ x.signals F (fun k => ins k (i + j)) e) → Raised F ev e) ∧ (ex → Raised F ev e → ∃ j, j < N ∧ x.signals F (fun k => ins k (i + j)) e)) :
    LoopInv x ins out (i + N) (fun p => if i ≤ p then m (p - i) else s.1 p, s.2 ++ ev) ∧
    LoopSig F x ins ex (i + N) (fun p => if i ≤ p then m (p - i) else s.1 p, s.2 ++ ev) := by
  refine ⟨⟨fun p hp => ?_, fun p hp => ?_⟩, fun e => ⟨?_, ?_⟩⟩
  · show (if i ≤ p then m (p - i) else s.1 p) = _
    by_cases hi : i ≤ p
    · rw [if_pos hi, hm, if_pos (by omega), show i + (p - i) = p by omega]
    · rw [if_neg hi]; exact h1.done p (by omega)
  · show (if i ≤ p then m (p - i) else s.1 p) = _
    rw [if_pos (by omega), hm, if_neg (by omega), show i + (p - i) = p by omega]
    exact h1.rest p (by omega)
  · rintro ⟨p, hp, h⟩
    show Raised F (s.2 ++ ev) e
    rw [raised_append]
    by_cases hi : i ≤ p
    · refine .inr ((he e).1 ⟨p - i, by omega, ?_⟩)
      rw [show i + (p - i) = p by omega]; exact h
    · exact .inl ((h2 e).1 ⟨p, by omega, h⟩)
  · intro hex h
    have h : Raised F (s.2 ++ ev) e := h
    rw [raised_append] at h
    rcases h with h | h
    · obtain ⟨p, hp, h⟩ := (h2 e).2 hex h; exact ⟨p, by omega, h⟩
    · obtain ⟨j, hj, h⟩ := (he e).2 hex h; exact ⟨i + j, by omega, h⟩
theorem loop_tail {i : Nat} {s : Mem (BitVec w) × List (Ev w)} (h1 : LoopInv x ins out i s) (h2 : LoopSig F x ins ex i s) (d : Nat) :
    LoopInv x ins out (i + d) (tailLoop x ins i d s) ∧ LoopSig F x ins ex (i + d) (tailLoop x ins i d s) := by
  unfold tailLoop
  refine forRange_inv (fun j s => LoopInv x ins out (i + j) s ∧ LoopSig F x ins ex (i + j) s) d _ s ⟨h1, h2⟩ (fun j s _ ⟨h1, h2⟩ => ⟨⟨fun p hp => ?_, fun p hp => ?_⟩, fun e => ⟨?_, ?_⟩⟩)
  · show (s.1.set (i + j) _) p = _
    by_cases hj : p = i + j
    · subst hj; rw [Mem.set_same]
    · rw [Mem.set_ne _ _ hj]; exact h1.done p (by omega)
  · show (s.1.set (i + j) _) p = _
    rw [Mem.set_ne _ _ (by omega)]; exact h1.rest p (by omega)
  · rintro ⟨p, hp, h⟩
    show Raised F (s.2 ++ _) e
    rw [raised_append]
    by_cases hj : p = i + j
    · subst hj; exact .inr h
    · exact .inl ((h2 e).1 ⟨p, by omega, h⟩)
  · intro hex h
    have h : Raised F (s.2 ++ _) e := h
    rw [raised_append] at h
    rcases h with h | h
    · obtain ⟨p, hp, h⟩ := (h2 e).2 hex h; exact ⟨p, by omega, h⟩
    · exact ⟨i + j, by omega, h⟩
end

section
variable {c : Cfg} (hc : c.Ok)
include hc
theorem xLoad_fin {K n i : Nat} (ins : Nat → Mem (BitVec c.w)) (junk : Nat → c.Data) (hi : i + c.N ≤ n) :
    ∃ env, xLoad c K n i ins junk = some env ∧ ∀ k, k < K → ∀ j, j < c.N → elt c (env k) j = ins k (i + j) := by
  unfold xLoad
  induction K with
  | zero => exact ⟨_, rfl, fun _ h => absurd h (Nat.not_lt_zero _)⟩
  | succ K ih =>
    obtain ⟨env, h1, h2⟩ := ih
    obtain ⟨r, h3, h4⟩ := (copyFrom_elem hc (f := .element) (by cases c.v <;> rfl) (junk K) (n - i) (fun j => ins K (i + j))).2 (by omega)
    refine ⟨fun k' => if k' = K then r else env k', ?_, fun k hk j hj => ?_⟩
    · show (forRangeM K _ _).bind _ = _
      rw [h1]
      show (copyFrom c .element (junk K) (n - i) (fun j => ins K (i + j))).map _ = _
      rw [h3]; rfl
    · by_cases hkK : k = K
      · subst hkK; show elt c (if k = k then r else env k) j = _
        rw [if_pos rfl, h4, if_pos hj]
      · show elt c (if k = K then r else env k) j = _
        rw [if_neg hkK]; exact h2 k (by omega) j hj
variable (hf : c.T.flt = true) (F : FlagSem)
include hf
theorem xFlagLoop_spec {x : FExp c.w} {K n : Nat} (hx : x.Below K) (ins : Nat → Mem (BitVec c.w)) (junk : Nat → Nat → c.Data) (out : Mem (BitVec c.w)) :
    ∃ s, xFlagLoop c x K n ins junk out = some s ∧ LoopInv x ins out n s ∧ LoopSig F x ins (c.N % c.e = 0) n s := by
  have main : ∀ b, b ≤ n / c.N → ∃ s, forRangeM b (fun b s => xBlock c x K n (b * c.N) ins (junk b) s) (out, []) = some s ∧
      LoopInv x ins out (b * c.N) s ∧ LoopSig F x ins (c.N % c.e = 0) (b * c.N) s := by
    intro b
    induction b with
    | zero => intro _; rw [Nat.zero_mul]; exact ⟨_, rfl, loop_start F⟩
    | succ b ih =>
      intro hb
      obtain ⟨s, h1, h2, h3⟩ := ih (by omega)
      have hi : b * c.N + c.N ≤ n := by
        have := Nat.mul_le_mul_right c.N hb
        have := Nat.div_mul_le_self n c.N
        rw [Nat.succ_mul] at *; omega
      obtain ⟨env, h4, h5⟩ := xLoad_fin hc (K := K) ins (junk b) hi
      have hcg : ∀ j, j < c.N → x.scalar (fun k => elt c (env k) j) = x.scalar (fun k => ins k (b * c.N + j)) := fun j hj => scalar_congr x hx fun k hk => h5 k hk j hj
      have hsg : ∀ j, j < c.N → ∀ e, x.signals F (fun k => elt c (env k) j) e ↔ x.signals F (fun k => ins k (b * c.N + j)) e := by
        intro j hj e; unfold FExp.signals; rw [hcg j hj]
      have hst := copyTo_elem (c := c) (f := .element) (by cases c.v <;> rfl) (xEval c env x).1 (n - b * c.N) (fun j => s.1 (b * c.N + j))
      rw [if_pos (by omega)] at hst
      have hbl := loop_block (N := c.N) F h2 h3 (fun p => if p < c.N then elt c (xEval c env x).1 p else s.1 (b * c.N + p)) (xEval c env x).2
        (fun j => by
          by_cases hj : j < c.N
          · rw [if_pos hj, if_pos hj, (C82_expr_kept hc hf F env x j hj).1, hcg j hj]
          · rw [if_neg hj, if_neg hj])
        (fun e => ⟨fun ⟨j, hj, h⟩ => (C82_expr_kept hc hf F env x j hj).2 e ((hsg j hj e).2 h), fun hex h => by
          obtain ⟨j, hj, h⟩ := (C82_expr_partial hc hf F hex env x e).1 h
          exact ⟨j, hj, (hsg j hj e).1 h⟩⟩)
      refine ⟨_, ?_, by rw [Nat.succ_mul]; exact hbl⟩
      show (forRangeM b _ _).bind _ = _
      rw [h1]
      show xBlock c x K n (b * c.N) ins (junk b) s = _
      unfold xBlock
      rw [h4]
      show (copyTo c .element (xEval c env x).1 (n - b * c.N) (fun j => s.1 (b * c.N + j))).map _ = _
      rw [hst]; rfl
  obtain ⟨s, h1, h2, h3⟩ := main _ (Nat.le_refl _)
  have ht := loop_tail F h2 h3 (n - n / c.N * c.N)
  rw [show n / c.N * c.N + (n - n / c.N * c.N) = n by have := Nat.div_mul_le_self n c.N; omega] at ht
  refine ⟨_, ?_, ht⟩
  unfold xFlagLoop; rw [h1]; rfl
/-- C82 for loops over arrays: for every number of elements, vector size and arrays, the loop finishes, stores the value of the scalar expression for
every element and nothing else, and loses nothing the scalar loop signals. -/
theorem C82_loop_kept {x : FExp c.w} {K n : Nat} (hx : x.Below K) (ins : Nat → Mem (BitVec c.w)) (junk : Nat → Nat → c.Data) (out : Mem (BitVec c.w)) :
    ∃ r ev, xFlagLoop c x K n ins junk out = some (r, ev) ∧ (∀ p, r p = if p < n then (x.scalar (fun k => ins k p)).1 else out p) ∧
      ∀ e, (∃ i, i < n ∧ x.signals F (fun k => ins k i) e) → Raised F ev e := by
  obtain ⟨s, h1, h2, h3⟩ := xFlagLoop_spec hc hf F (n := n) hx ins junk out
  refine ⟨s.1, s.2, h1, fun p => ?_, fun e => (h3 e).1⟩
  by_cases hp : p < n
  · rw [if_pos hp]; exact h2.done p hp
  · rw [if_neg hp]; exact h2.rest p (by omega)
/-- C82 for loops over arrays, proved for vectors without padding: the loop signals exactly what the scalar loop signals. -/
theorem C82_loop_partial (hN : c.N % c.e = 0) {x : FExp c.w} {K n : Nat} (hx : x.Below K) (ins : Nat → Mem (BitVec c.w)) (junk : Nat → Nat → c.Data) (out : Mem (BitVec c.w)) :
    ∃ r ev, xFlagLoop c x K n ins junk out = some (r, ev) ∧ (∀ p, r p = if p < n then (x.scalar (fun k => ins k p)).1 else out p) ∧
      ∀ e, Raised F ev e ↔ ∃ i, i < n ∧ x.signals F (fun k => ins k i) e := by
  obtain ⟨s, h1, h2, h3⟩ := xFlagLoop_spec hc hf F (n := n) hx ins junk out
  refine ⟨s.1, s.2, h1, fun p => ?_, fun e => ⟨(h3 e).2 hN, (h3 e).1⟩⟩
  by_cases hp : p < n
  · rw [if_pos hp]; exact h2.done p hp
  · rw [if_neg hp]; exact h2.rest p (by omega)
end

/-- C82 for loops over arrays of generic vectors: values, and exactly what the scalar loop signals, for every vector size and number of elements. -/
theorem C82_loop_generic (F : FlagSem) {w : Nat} (N : Nat) (x : FExp w) (n : Nat) (ins : Nat → Mem (BitVec w)) (junk out : Mem (BitVec w)) :
    (∀ p, (gFlagLoop N x n ins junk out).1 p = if p < n then (x.scalar (fun k => ins k p)).1 else out p) ∧
    (∀ e, Raised F (gFlagLoop N x n ins junk out).2 e ↔ ∃ i, i < n ∧ x.signals F (fun k => ins k i) e) := by
  have main : LoopInv x ins out n (gFlagLoop N x n ins junk out) ∧ LoopSig F x ins True n (gFlagLoop N x n ins junk out) := by
    have hb : LoopInv x ins out (n / N * N) (forRange (n / N) (fun b s => gBlock (N := N) x (b * N) ins junk s) (out, [])) ∧
        LoopSig F x ins True (n / N * N) (forRange (n / N) (fun b s => gBlock (N := N) x (b * N) ins junk s) (out, [])) := by
      refine forRange_inv (fun b s => LoopInv x ins out (b * N) s ∧ LoopSig F x ins True (b * N) s) (n / N) _ _ (by rw [Nat.zero_mul]; exact loop_start F) ?_
      rintro b s _ ⟨h1, h2⟩
      rw [Nat.succ_mul]
      have hg := C82_expr_generic F (fun k => (GSimd.uninit junk : GSimd (BitVec w) N).copyFrom id (fun j => ins k (b * N + j))) x
      have hcg : ∀ j, j < N → x.scalar (fun k => ((GSimd.uninit junk : GSimd (BitVec w) N).copyFrom id (fun j => ins k (b * N + j))).get j) = x.scalar (fun k => ins k (b * N + j)) :=
        fun j hj => congrArg (fun en => x.scalar en) (funext fun k => copyFrom_get _ id _ hj)
      refine loop_block (N := N) F h1 h2 _ _ (fun j => ?_) (fun e => ⟨?_, ?_⟩)
      · by_cases hj : j < N
        · rw [if_pos hj, copyTo_get _ id _ hj]
          exact (hg.1 j hj).trans (congrArg Prod.fst (hcg j hj))
        · rw [if_neg hj, copyTo_frame _ id _ (by omega)]
      · rintro ⟨j, hj, h⟩
        refine (hg.2 e).2 ⟨j, hj, ?_⟩
        unfold FExp.signals at h ⊢; rw [hcg j hj]; exact h
      · intro _ h
        obtain ⟨j, hj, h⟩ := (hg.2 e).1 h
        refine ⟨j, hj, ?_⟩
        unfold FExp.signals at h ⊢; rw [hcg j hj] at h; exact h
    have ht := loop_tail F hb.1 hb.2 (n - n / N * N)
    rw [show n / N * N + (n - n / N * N) = n by have := Nat.div_mul_le_self n N; omega] at ht
    exact ht
  refine ⟨fun p => ?_, fun e => ⟨(main.2 e).2 trivial, (main.2 e).1⟩⟩
  by_cases hp : p < n
  · rw [if_pos hp]; exact main.1.done p hp
  · rw [if_neg hp]; exact main.1.rest p (by omega)

/-! ### the padding of loaded vectors -/
/-- C82 violated by loops over arrays: the padding of a loaded vector is whatever the storage held before; with vectors of five floats,
adding two arrays of ones can signal invalid, although the scalar loop signals nothing. -/
theorem C82_loop_violated : ∃ junk r ev, xFlagLoop exFlag (.bin .add (.var 0) (.var 1)) 2 5 (fun _ _ => fOne exFlag) junk (fun _ => 0) = some (r, ev) ∧
    Raised strict ev .invalid ∧ ¬ ∃ i, i < 5 ∧ (FExp.bin .add (.var 0) (.var 1)).signals strict (fun _ => fOne exFlag) .invalid := by
  obtain ⟨s, h1, -, -⟩ := xFlagLoop_spec exFlag_ok rfl strict (x := .bin .add (.var 0) (.var 1)) (K := 2) (n := 5) ⟨(by decide : 0 < 2), (by decide : 1 < 2)⟩
    (fun _ _ => fOne exFlag) (fun _ _ => fillData exFlag (BitVec.ofNat exFlag.w 0x7fa00000)) (fun _ => 0)
  refine ⟨_, s.1, s.2, h1, ⟨(.add, BitVec.ofNat exFlag.w 0x7fa00000, BitVec.ofNat exFlag.w 0x7fa00000), ?_, by unfold strict; decide +kernel⟩, ?_⟩
  · have h : ((xFlagLoop exFlag (.bin .add (.var 0) (.var 1)) 2 5 (fun _ _ => fOne exFlag) (fun _ _ => fillData exFlag (BitVec.ofNat exFlag.w 0x7fa00000)) (fun _ => 0)).map
        fun s => decide ((FOpc.add, BitVec.ofNat exFlag.w 0x7fa00000, BitVec.ofNat exFlag.w 0x7fa00000) ∈ s.2)) = some true := by decide +kernel
    rw [h1] at h
    exact of_decide_eq_true (Option.some.inj h)
  · rintro ⟨_, _, ev, hev, h⟩
    simp only [FExp.scalar, List.mem_append, List.mem_singleton, List.not_mem_nil, false_or] at hev
    subst hev
    exact absurd h (by unfold strict; decide +kernel)

/-! ### examples -/
/-- five floats of one in a loop over 23 elements: `sqrt(a * b - c)` -/
example : ∃ r ev, xFlagLoop exF32 exExp 3 23 (fun _ _ => fOne exF32) (fun _ _ => fillData exF32 0#32) (fun _ => 0) = some (r, ev) ∧ (∀ p, 23 ≤ p → r p = 0) := by
  obtain ⟨r, ev, h1, h2, _⟩ := C82_loop_kept (c := exF32) exF32_ok rfl strict (x := exExp) (K := 3) (n := 23) ⟨⟨(by decide : 0 < 3), (by decide : 1 < 3)⟩, (by decide : 2 < 3)⟩ (fun _ _ => fOne exF32) (fun _ _ => fillData exF32 0#32) (fun _ => 0)
  exact ⟨r, ev, h1, fun p hp => by rw [h2 p, if_neg (by omega)]⟩
end Dpm.X86
