import Verif.Props.SearchLoop
/-
C77: vectorised loops over arrays of `float` and `double` compute what the scalar loops compute, bit for bit.
-/
namespace Dpm.X86
open Dpm.Reg Dpm.Util Dpm.Generic Dpm.Spec Dpm.Fp Dpm.GenericMath

theorem fex_map {w K : Nat} {k : Kind} (e : FEx w k) (he : e.Map K) {i i' : Nat} {v v' : Nat → BitVec w} {m m' : Nat → Bool}
    (hv : ∀ k, k < K → v k = v' k) : sEval v m i e = sEval v' m' i' e ∧ (Tame v m i e ↔ Tame v' m' i' e) := by
  induction e with
  | var k => exact ⟨hv k he, Iff.rfl⟩
  | mvar _ | gen _ | mgen _ | put _ _ _ _ | mput _ _ _ _ => exact absurd he id
  | bcast _ | mbcast _ => exact ⟨rfl, Iff.rfl⟩
  | neg a iha => simp only [sEval, Tame, iha he, and_self]
  | sqrt a iha => simp only [sEval, Tame, iha he, and_self]
  | isZero a iha => simp only [sEval, Tame, iha he, and_self]
  | mun o a iha => simp only [sEval, Tame, iha he, and_self]
  | binS o a s iha => simp only [sEval, Tame, iha he, and_self]
  | bin o a b iha ihb => simp only [sEval, Tame, iha he.1, ihb he.2, and_self]
  | cmp o a b iha ihb => simp only [sEval, Tame, iha he.1, ihb he.2, and_self]
  | mbin o a b iha ihb => simp only [sEval, Tame, iha he.1, ihb he.2, and_self]
  | clamp a b c iha ihb ihc => simp only [sEval, Tame, iha he.1, ihb he.2.1, ihc he.2.2, and_self]
  | blend a b c iha ihb ihc => simp only [sEval, Tame, iha he.1, ihb he.2.1, ihc he.2.2, and_self]
  | mblend a b c iha ihb ihc => simp only [sEval, Tame, iha he.1, ihb he.2.1, ihc he.2.2, and_self]
theorem fex_inRange {w K : Nat} {k : Kind} (e : FEx w k) (he : e.Map K) (N : Nat) : e.InRange N := by
  induction e with
  | var _ | mvar _ | gen _ | mgen _ | bcast _ | mbcast _ => exact trivial
  | put _ _ _ _ | mput _ _ _ _ => exact absurd he id
  | neg a iha | sqrt a iha | isZero a iha | mun o a iha | binS o a s iha => exact iha he
  | bin o a b iha ihb | cmp o a b iha ihb | mbin o a b iha ihb => exact ⟨iha he.1, ihb he.2⟩
  | clamp a b c iha ihb ihc | blend a b c iha ihb ihc | mblend a b c iha ihb ihc => exact ⟨iha he.1, ihb he.2.1, ihc he.2.2⟩
open Classical in
theorem computes_flt {w K : Nat} {e : FEx w .vec} (he : e.Map K) : Computes (fltMeaning w) K (fltScalar e) e := by
  intro N i v m v' h
  obtain ⟨h1, h2⟩ := fex_map e he (i := i) (i' := 0) (m := m) (m' := fun _ => false) h
  show (if e.InRange N ∧ Tame v m i e then some (fsval (sEval v m i e)) else none) = fltScalar e v'
  unfold fltScalar
  by_cases ht : Tame v' (fun _ => false) 0 e
  · rw [if_pos ⟨fex_inRange e he N, h2.2 ht⟩, if_pos ht, h1]; rfl
  · rw [if_neg (fun h => ht (h2.1 h.2)), if_neg ht]; rfl
open Classical in
theorem tests_flt {w K : Nat} {p : FEx w .msk} (he : p.Map K) : Tests (fltMeaning w) K (fltTest p) p := by
  intro N i v m v' h
  obtain ⟨h1, h2⟩ := fex_map p he (i := i) (i' := 0) (m := m) (m' := fun _ => false) h
  show (if p.InRange N ∧ Tame v m i p then some (fsval (sEval v m i p)) else none) = fltTest p v'
  unfold fltTest
  by_cases ht : Tame v' (fun _ => false) 0 p
  · rw [if_pos ⟨fex_inRange p he N, h2.2 ht⟩, if_pos ht, h1]; rfl
  · rw [if_neg (fun h => ht (h2.1 h.2)), if_neg ht]; rfl

section generic
variable {w N : Nat} {src : Nat → Nat} {dst n K len : Nat} {a b : Nat → BitVec w}
/-- C77 (generic backend), proved for expressions without `~m` and a C library whose `sqrt` is correctly rounded: for every number of
elements, vector size and arrays inside the client's memory, the vectorised loop with a scalar tail finishes and leaves in memory exactly
the bits the scalar IEEE loop leaves, whenever that is defined and no result is stored less than `N` elements after a source. -/
theorem C77_map_generic_partial (hN : 0 < N) (L : Cmath w) (hL : ∀ x, L.fn1 .sqrt x = fsqrt x) {e : FEx w .vec} (he : e.Map K) (ha : e.Avoids True False)
    (hd : ∀ k, k < K → dst ≤ src k ∨ src k + N ≤ dst) (hl : dst + n ≤ len ∧ ∀ k, k < K → src k + n ≤ len)
    (hb : loopOf (fltScalar e) src dst n a = some b) (s : GStateW w N) (hs : s.mem = a) :
    ∃ s' : GStateW w N, (gfExec L N len).Finishes (mapLoopOf (fltScalar e) N n K src dst e) s s' ∧ s'.mem = b := by
  obtain ⟨r, f, h⟩ := mapLoop_spec hN (len := len) (computes_flt he) hd hl hb s.abs hs
  obtain ⟨s', f', h'⟩ := (C76_generic_partial hN L hL len (mapLoopOf (fltScalar e) N n K src dst e) (mapLoop_all ha _ N n K src dst) s s.abs (grel_abs s)).1 r f
  exact ⟨s', f', h'.mem.trans h⟩
variable {p : FEx w .msk} {f : Nat → Bool}
/-- C77 (search): the loop reports exactly the first element satisfying the condition, or that there is none. -/
theorem C77_find_generic_partial (hN : 0 < N) (L : Cmath w) (hL : ∀ x, L.fn1 .sqrt x = fsqrt x) (he : p.Map K) (ha : p.Avoids True False)
    (hl : ∀ k, k < K → src k + n ≤ len) (hf : ∀ j, j < n → fltTest p (fun k => a (src k + j)) = some (f j)) (s : GStateW w N) (hm : s.mem = a) :
    ∃ s' : GStateW w N, (gfExec L N len).Finishes (findLoopOf (fltTest p) N n K src p) s s' ∧ s'.mem = a ∧
      ((s'.scal 1 ≠ 0 ∧ ∃ k : Nat, s'.scal 2 = k ∧ IsFirst n f k) ∨ (s'.scal 1 = 0 ∧ ∀ j, j < n → f j = false)) := by
  obtain ⟨r, f, h1, h2⟩ := findLoop_spec hN (len := len) (tests_flt he) hl hf s.abs hm
  obtain ⟨s', f', h'⟩ := (C76_generic_partial hN L hL len (findLoopOf (fltTest p) N n K src p) (find_all ha trivial trivial _ N n K src) s s.abs (grel_abs s)).1 r f
  exact ⟨s', f', h'.mem.trans h1, by rw [h'.scal]; exact h2⟩
/-- C77 (count): the loop counts exactly the elements satisfying the condition. -/
theorem C77_count_generic_partial (hN : 0 < N) (L : Cmath w) (hL : ∀ x, L.fn1 .sqrt x = fsqrt x) (he : p.Map K) (ha : p.Avoids True False)
    (hl : ∀ k, k < K → src k + n ≤ len) (hf : ∀ j, j < n → fltTest p (fun k => a (src k + j)) = some (f j)) (s : GStateW w N) (hm : s.mem = a) :
    ∃ s' : GStateW w N, (gfExec L N len).Finishes (countLoopOf (fltTest p) N n K src p) s s' ∧ s'.mem = a ∧ s'.scal 1 = countTrue n f := by
  obtain ⟨r, f, h1, h2⟩ := countLoop_spec hN (len := len) (tests_flt he) hl hf s.abs hm
  obtain ⟨s', f', h'⟩ := (C76_generic_partial hN L hL len (countLoopOf (fltTest p) N n K src p) (count_all ha trivial _ N n K src) s s.abs (grel_abs s)).1 r f
  exact ⟨s', f', h'.mem.trans h1, by rw [h'.scal]; exact h2⟩
end generic

section x86
variable {c : Cfg} (hc : c.Ok) (hflt : c.T.flt = true) {src : Nat → Nat} {dst n K len : Nat} {a b : Nat → BitVec c.w}
include hc hflt
/-- C77 (x86 backend), proved for expressions without `m && m`: the same, for every size, instruction-set level and contents of uninitialised
storage. -/
theorem C77_map_x86_partial {e : FEx c.w .vec} (he : e.Map K) (ha : e.Avoids False True)
    (hd : ∀ k, k < K → dst ≤ src k ∨ src k + c.N ≤ dst) (hl : dst + n ≤ len ∧ ∀ k, k < K → src k + n ≤ len)
    (hb : loopOf (fltScalar e) src dst n a = some b) (s : XState c) (hcan : s.env.Canon) (hs : s.mem = a) :
    ∃ s' : XState c, (xfExec c len).Finishes (mapLoopOf (fltScalar e) c.N n K src dst e) s s' ∧ s'.mem = b := by
  obtain ⟨r, f, h⟩ := mapLoop_spec hc.pos (len := len) (computes_flt he) hd hl hb s.abs hs
  obtain ⟨s', f', h'⟩ := (C76_x86_partial hc hflt len (mapLoopOf (fltScalar e) c.N n K src dst e) (mapLoop_all ha _ c.N n K src dst) s s.abs (xrel_abs s hcan)).1 r f
  exact ⟨s', f', h'.mem.trans h⟩
variable {p : FEx c.w .msk} {f : Nat → Bool}
/-- C77 (search, x86 backend), where `any_of` is right (C18) -/
theorem C77_find_x86_partial (ht : tailOk c) (he : p.Map K) (ha : p.Avoids False True)
    (hl : ∀ k, k < K → src k + n ≤ len) (hf : ∀ j, j < n → fltTest p (fun k => a (src k + j)) = some (f j)) (s : XState c) (hcan : s.env.Canon) (hm : s.mem = a) :
    ∃ s' : XState c, (xfExec c len).Finishes (findLoopOf (fltTest p) c.N n K src p) s s' ∧ s'.mem = a ∧
      ((s'.scal 1 ≠ 0 ∧ ∃ k : Nat, s'.scal 2 = k ∧ IsFirst n f k) ∨ (s'.scal 1 = 0 ∧ ∀ j, j < n → f j = false)) := by
  obtain ⟨r, f, h1, h2⟩ := findLoop_spec hc.pos (len := len) (tests_flt he) hl hf s.abs hm
  obtain ⟨s', f', h'⟩ := (C76_x86_partial hc hflt len (findLoopOf (fltTest p) c.N n K src p) (find_all ha ht trivial _ c.N n K src) s s.abs (xrel_abs s hcan)).1 r f
  exact ⟨s', f', h'.mem.trans h1, by rw [h'.scal]; exact h2⟩
/-- C77 (count, x86 backend), where `reduce_count` is right (C19) -/
theorem C77_count_x86_partial (hw : ¬ wideMask c.s c.T c.v) (ht : tailOk c) (he : p.Map K) (ha : p.Avoids False True)
    (hl : ∀ k, k < K → src k + n ≤ len) (hf : ∀ j, j < n → fltTest p (fun k => a (src k + j)) = some (f j)) (s : XState c) (hcan : s.env.Canon) (hm : s.mem = a) :
    ∃ s' : XState c, (xfExec c len).Finishes (countLoopOf (fltTest p) c.N n K src p) s s' ∧ s'.mem = a ∧ s'.scal 1 = countTrue n f := by
  obtain ⟨r, f, h1, h2⟩ := countLoop_spec hc.pos (len := len) (tests_flt he) hl hf s.abs hm
  obtain ⟨s', f', h'⟩ := (C76_x86_partial hc hflt len (countLoopOf (fltTest p) c.N n K src p) (count_all ha ⟨hw, ht⟩ _ c.N n K src) s s.abs (xrel_abs s hcan)).1 r f
  exact ⟨s', f', h'.mem.trans h1, by rw [h'.scal]; exact h2⟩
end x86

/-! ### concrete cases -/
/-- saxpy: `y[i] = 2.5 * x[i] + y[i]`, in place -/
def exAxpy : FEx 32 .vec := .bin .add (.binS .mul (.var 0) 0x40200000) (.var 1)
theorem exAxpy_map : exAxpy.Map 2 ∧ exAxpy.Avoids True True ∧ exAxpy.Avoids False True := by
  refine ⟨⟨show 0 < 2 by decide, show 1 < 2 by decide⟩, ?_, ?_⟩ <;> simp [exAxpy, FEx.Avoids]
/-- The scalar loop for it is defined for all arrays, NaNs and infinities included: `y[i]` becomes `fl(fl(x[i] * 2.5) + y[i])`. -/
theorem exAxpy_scalar (v : Nat → BitVec 32) : fltScalar exAxpy v = some (fadd (fmul (v 0) 0x40200000) (v 1)) :=
  if_pos (by simp [exAxpy, Tame, FBin.isOrd])
theorem exAxpy_loop (n : Nat) (a : Nat → BitVec 32) : ∃ b, loopOf (fltScalar exAxpy) (fun k => n * k) n n a = some b ∧
    ∀ p, b p = if n ≤ p ∧ p < n + n then fadd (fmul (a (p - n)) 0x40200000) (a p) else a p := by
  suffices h : ∀ m, m ≤ n → ∃ b, loopOf (fltScalar exAxpy) (fun k => n * k) n m a = some b ∧
      ∀ p, b p = if n ≤ p ∧ p < n + m then fadd (fmul (a (p - n)) 0x40200000) (a p) else a p from h n (Nat.le_refl n)
  intro m
  induction m with
  | zero => intro _; exact ⟨a, rfl, fun p => by rw [if_neg (by omega)]⟩
  | succ m ih =>
    intro hm
    obtain ⟨b, hb, h⟩ := ih (by omega)
    refine ⟨fun p => if p = n + m then fadd (fmul (b m) 0x40200000) (b (n + m)) else b p, ?_, fun p => ?_⟩
    · show (loopOf (fltScalar exAxpy) (fun k => n * k) n m a).bind _ = _
      rw [hb]
      show (fltScalar exAxpy _).bind _ = _
      rw [exAxpy_scalar]
      simp
    · dsimp only
      by_cases hp : p = n + m
      · rw [if_pos hp, if_pos (by omega), h, h, if_neg (by omega), if_neg (by omega), hp, Nat.add_sub_cancel_left]
      · rw [if_neg hp, h]
        by_cases hq : n ≤ p ∧ p < n + m
        · rw [if_pos hq, if_pos (by omega)]
        · rw [if_neg hq, if_neg (by omega)]
/-- 6 `float`s per vector, any number of elements not less than that: every `y[i]` becomes `fl(fl(x[i] * 2.5) + y[i])` -/
example (n : Nat) (hn : 6 ≤ n) (s : XState exF32) (hs : s.env.Canon) :
    ∃ s' : XState exF32, (xfExec exF32 (2 * n)).Finishes (mapLoopOf (fltScalar exAxpy) exF32.N n 2 (fun k => n * k) n exAxpy) s s' ∧
      ∀ i, i < n → s'.mem (n + i) = fadd (fmul (s.mem i) 0x40200000) (s.mem (n + i)) := by
  obtain ⟨b, hb, h⟩ := exAxpy_loop n s.mem
  obtain ⟨s', f, hm⟩ := C77_map_x86_partial exF32_ok rfl (len := 2 * n) exAxpy_map.1 exAxpy_map.2.2
    (fun k hk => by
      rcases (by omega : k = 0 ∨ k = 1) with rfl | rfl
      · right; show n * 0 + 6 ≤ n; omega
      · left; omega) ⟨by omega, fun k hk => by rcases (by omega : k = 0 ∨ k = 1) with rfl | rfl <;> omega⟩ hb s hs rfl
  exact ⟨s', f, fun i hi => by
    rw [hm, h]
    refine (if_pos (by omega)).trans ?_
    rw [Nat.add_sub_cancel_left]; rfl⟩
/-- counting: the NaNs of an array, `x[i] != x[i]` -/
def exNans : FEx 32 .msk := .cmp .ne (.var 0) (.var 0)
example (n : Nat) (s : XState exF32) (hs : s.env.Canon) :
    ∃ s' : XState exF32, (xfExec exF32 n).Finishes (countLoopOf (fltTest exNans) exF32.N n 1 (fun _ => 0) exNans) s s' ∧
      s'.scal 1 = countTrue n fun j => isNaN (s.mem j) := by
  obtain ⟨s', f, _, h⟩ := C77_count_x86_partial exF32_ok rfl (by decide) (by decide) (p := exNans) (K := 1) (src := fun _ => 0) (n := n) (len := n)
    (f := fun j => !Fp.eq (s.mem j) (s.mem j)) ⟨show 0 < 1 by decide, show 0 < 1 by decide⟩ (by simp [exNans, FEx.Avoids]) (fun _ _ => by omega)
    (fun j _ => (if_pos (by simp [exNans, Tame])).trans (by simp [exNans, sEval, sfCmp])) s hs rfl
  refine ⟨s', f, h.trans (congrArg (fun g : Nat → Bool => ((countTrue n g : Nat) : Int)) (funext fun j => ?_))⟩
  have : ∀ x : BitVec 32, (!Fp.eq x x) = isNaN x := by
    intro x
    unfold Fp.eq
    cases isNaN x <;> simp
  exact this _
/-- a data-dependent loop (C76): `while (any_of(v >= 1)) v = v * 0.5`, started with `1` everywhere, ends with `0.5` everywhere -/
def exCond : FPrim 32 := .mset 0 fun _ => .cmp .ge (.var 0) (.bcast 0x3f800000)
def exHalve : FStm 32 :=
  .seq (.prim exCond) (.seq (.prim (.ask 1 .anyOf 0)) (.loop (fun s => decide (s 1 ≠ 0))
    (.seq (.prim (.set 0 fun _ => .binS .mul (.var 0) 0x3f000000)) (.seq (.prim exCond) (.prim (.ask 1 .anyOf 0))))))
theorem exHalve_ok : StmOf.All (XFltOk exF32) exHalve := by
  have hq : supQuery exF32 .anyOf := show tailOk exF32 by decide
  simp only [StmOf.All, exHalve]
  refine ⟨fun _ => ?_, hq, fun _ => ?_, fun _ => ?_, hq⟩ <;> simp [FEx.Avoids]
theorem exCond_step (s : SState 32) (x : BitVec 32) (hx : ∀ j, j < exF32.N → s.vec 0 j = x) :
    ∃ s', sStep (fltMeaning 32) exF32.N 0 exCond s = .ok s' ∧ s'.vec = s.vec ∧ ∃ s'', sStep (fltMeaning 32) exF32.N 0 (.ask 1 .anyOf 0) s' = .ok s'' ∧ s''.vec = s.vec ∧
      s''.scal 1 = if Fp.le 0x3f800000 x then 1 else 0 := by
  have h : ∀ j, j < exF32.N → ((fltMeaning 32).el exF32.N j (s.vec · j) (s.msk · j) (.cmp .ge (.var 0) (.bcast 0x3f800000)) : Option Bool) = some (Fp.le 0x3f800000 x) := by
    intro j hj
    refine (if_pos ⟨by simp [FEx.InRange], by simp [Tame]⟩).trans (congrArg some ?_)
    show Fp.le 0x3f800000 (s.vec 0 j) = _
    rw [hx j hj]
  have h1 : ∀ j, j < exF32.N → (((fltMeaning 32).el exF32.N j (s.vec · j) (s.msk · j) (.cmp .ge (.var 0) (.bcast 0x3f800000)) : Option Bool)).isSome = true := fun j hj => by rw [h j hj]; rfl
  refine ⟨_, if_pos h1, rfl, _, rfl, rfl, ?_⟩
  show (if ∃ i, i < exF32.N ∧ _ = true then (1 : Int) else 0) = _
  have hm : ∀ j, j < exF32.N → (((fltMeaning 32).el exF32.N j (s.vec · j) (s.msk · j) (.cmp .ge (.var 0) (.bcast 0x3f800000)) : Option Bool)).getD false = Fp.le 0x3f800000 x := fun j hj => by rw [h j hj]; rfl
  cases hle : Fp.le 0x3f800000 x
  · rw [if_neg]; · rfl
    rintro ⟨i, hi, he⟩
    have he := (hm i hi).symm.trans he
    rw [hle] at he; cases he
  · rw [if_pos]; · rfl
    exact ⟨0, exF32_ok.pos, (hm 0 exF32_ok.pos).trans hle⟩
theorem exHalve_spec (s : SState 32) (h : ∀ j, j < exF32.N → s.vec 0 j = 0x3f800000) :
    ∃ s', (sExec (fltMeaning 32) exF32.N 0).Finishes exHalve s s' ∧ ∀ j, j < exF32.N → s'.vec 0 j = 0x3f000000 := by
  obtain ⟨s1, b1, v1, s2, b2, v2, q2⟩ := exCond_step s _ h
  obtain ⟨s3, b3, _, _, _, v3, _⟩ := set_ok (M := fltMeaning 32) (N := exF32.N) (len := 0) (K := 0) (s := s2) (val := fun _ => 0x3f000000)
    (e := .binS .mul (.var 0) 0x3f000000) (fun j hj => by
      refine (if_pos ⟨by simp [FEx.InRange], by simp [Tame, FBin.isOrd]⟩).trans (congrArg some ?_)
      show fmul (s2.vec 0 j) 0x3f000000 = _
      rw [v2, h j hj]; decide +kernel)
  obtain ⟨s4, b4, v4, s5, b5, v5, q5⟩ := exCond_step s3 _ v3
  refine ⟨s5, finishes_seq (M := sExec (fltMeaning 32) exF32.N 0) (finishes_prim b1) (finishes_seq (finishes_prim b2) (finishes_again (M := sExec (fltMeaning 32) exF32.N 0) ?_
    (finishes_seq (finishes_prim b3) (finishes_seq (finishes_prim b4) (finishes_prim b5))) (finishes_done (M := sExec (fltMeaning 32) exF32.N 0) ?_))), fun j hj => by rw [v5]; exact v3 j hj⟩
  · show decide (s2.scal 1 ≠ 0) = true
    rw [q2]; decide +kernel
  · show decide (s5.scal 1 ≠ 0) = false
    rw [q5]; decide +kernel
example (s : XState exF32) (hs : s.env.Canon) (h : ∀ j, j < exF32.N → elt exF32 (s.env.vec 0) j = 0x3f800000) :
    ∃ s', (xfExec exF32 0).Finishes exHalve s s' ∧ ∀ j, j < exF32.N → elt exF32 (s'.env.vec 0) j = 0x3f000000 := by
  obtain ⟨r, f, hr⟩ := exHalve_spec s.abs h
  obtain ⟨s', f', ha⟩ := (C76_x86_partial exF32_ok rfl 0 exHalve exHalve_ok s s.abs (xrel_abs s hs)).1 r f
  exact ⟨s', f', fun j hj => (ha.vec 0 j hj).trans (hr j hj)⟩
end Dpm.X86
