import Verif.Proofs.ThreadLoops
import Verif.Props.FloatLoops
/-
C84: several threads using the library at the same time, in every schedule.
-/
namespace Dpm.X86
open Dpm.Reg Dpm.Util Dpm.Generic Dpm.Spec Dpm.Fp Dpm.GenericMath

/-- No two threads are about to access the same element, one of them writing; and two threads may make their next steps in either order. -/
def Independent {w : Nat} {E : Kind → Type} (B : Backend w E) (len : Nat) (q : Pool B) : Prop :=
  (∀ t u x, t ≠ u → (q.conf t).writesNext B x → ¬ (q.conf u).writesNext B x ∧ ¬ (q.conf u).readsNext B x) ∧
  ∀ t u, runPool B len [t, u] q = runPool B len [u, t] q
/-- threads `0 .. T-1` have finished -/
def AllDone {w : Nat} {E : Kind → Type} {B : Backend w E} (T : Nat) (q : Pool B) : Prop := ∀ t, t < T → (q.conf t).todo = []
/-- Whatever the schedule: nothing undefined happens, the threads stay independent, they finish once each of them has been given enough steps
(how many does not depend on the schedule), and when all have finished `P` holds. -/
def Together {w : Nat} {E : Kind → Type} (B : Backend w E) (len T : Nat) (c : Nat → Conf B) (m : Mem (BitVec w)) (P : Pool B → Prop) : Prop :=
  ∃ k : Nat → Nat, ∀ σ : List Nat, ∃ q, runPool B len σ ⟨c, m⟩ = .ok q ∧ Independent B len q ∧
    ((∀ t, t < T → k t ≤ σ.count t) → AllDone T q) ∧ (AllDone T q → P q)

section
variable {w : Nat} {E : Kind → Type} {B : Backend w E} {len : Nat} {M : ExecOf (PrimE w E)} {loc : M.St → B.St} {mem : M.St → Mem (BitVec w)}
  {cut : Nat → Nat} {T n K dst : Nat} {src : Nat → Nat} {a b : Nat → BitVec w}
/-- the slices of different threads -/
theorem cuts_apart (hcut : Cuts cut T n) {t u i j : Nat} (htu : t ≠ u) (h1 : cut t ≤ i) (h2 : i < cut (t + 1)) (h3 : cut u ≤ j) (h4 : j < cut (u + 1)) : i ≠ j := by
  rcases Nat.lt_or_gt_of_ne htu with h | h
  · have := hcut.le (show t + 1 ≤ u by omega); omega
  · have := hcut.le (show u + 1 ≤ t by omega); omega
theorem together_map (hB : B.Lawful) (hscal : ∀ s, M.scal s = B.scal (loc s))
    (hstep : ∀ p s s', M.step p s = .ok s' → B.big len p (loc s) (mem s) = .ok (loc s', mem s')) (hcut : Cuts cut T n)
    {f : (Nat → BitVec w) → Option (BitVec w)} (hf : ∀ v v', (∀ k, k < K → v k = v' k) → f v = f v') {e : E .vec}
    (hd : ∀ k, k < K → src k = dst ∨ dst + n ≤ src k ∨ src k + n ≤ dst) (hb : loopOf f src dst n a = some b) {s : Nat → M.St} (hm : ∀ t, mem (s t) = a)
    (fin : ∀ t b', loopOf f (fun k => src k + cut t) (dst + cut t) (cut (t + 1) - cut t) a = some b' →
      ∃ s', M.Finishes (mapLoopOf f B.N (cut (t + 1) - cut t) K (fun k => src k + cut t) (dst + cut t) e) (s t) s' ∧ mem s' = b') :
    Together B len T (fun t => ⟨[.stm (mapLoopOf f B.N (cut (t + 1) - cut t) K (fun k => src k + cut t) (dst + cut t) e)], loc (s t)⟩) a (fun q => q.mem = b) := by
  obtain ⟨b', h1, h2⟩ := slices hcut hf hd hb
  let W : Nat → Nat → Prop := fun t x => dst + cut t ≤ x ∧ x < dst + cut (t + 1)
  let R : Nat → Nat → Prop := fun t x => W t x ∨ ∃ k, k < K ∧ src k + cut t ≤ x ∧ x < src k + cut (t + 1)
  have hdis : ∀ t u, t ≠ u → ∀ x, R t x → ¬ W u x := by
    rintro t u htu x (hr | ⟨k, hk, hr⟩) hw
    · exact cuts_apart hcut htu (i := x - dst) (j := x - dst) (by omega) (by have := hr.1; have := hr.2; omega) (by omega) (by have := hw.1; have := hw.2; omega) rfl
    · have := hcut.le_n (t + 1)
      have := hcut.le_n (u + 1)
      have := hw.1
      have := hw.2
      rcases hd k hk with h | h | h
      · exact cuts_apart hcut htu (i := x - dst) (j := x - dst) (by omega) (by omega) (by omega) (by omega) rfl
      · omega
      · omega
  have hfin := fun t => fin t (b' t) (h1 t)
  obtain ⟨k, h⟩ := parallel hB (len := len) loc mem hscal hstep (R := R) (W := W) (fun t x h => Or.inl h) hdis
    (prog := fun t => mapLoopOf f B.N (cut (t + 1) - cut t) K (fun k => src k + cut t) (dst + cut t) e) (Q := fun _ _ => True)
    (fun t => keeps_map hf (fun k hk i hi => Or.inr ⟨k, hk, by omega, by omega⟩) (fun i hi => ⟨by omega, by omega⟩)) hm (fun t => (hfin t).choose_spec.1)
  refine ⟨k, fun σ => ?_⟩
  obtain ⟨q, g1, g2, g3, g4, g5, g6⟩ := h σ
  refine ⟨q, g1, ⟨g2, g3⟩, fun hk t ht => g4 t (hk t ht), fun hq => h2 q.mem (fun t ht x hx1 hx2 => ?_) (fun x hx => g6 x fun t hw => ?_)⟩
  · rw [(g5 t (hq t ht)).2 x (Or.inl ⟨hx1, hx2⟩), (hfin t).choose_spec.2]
  · have := hcut.le_n (t + 1)
    have := hw.1
    have := hw.2
    omega
/-- threads that only read -/
theorem together_read (hB : B.Lawful) (hscal : ∀ s, M.scal s = B.scal (loc s))
    (hstep : ∀ p s s', M.step p s = .ok s' → B.big len p (loc s) (mem s) = .ok (loc s', mem s')) {prog : Nat → StmOf (PrimE w E)}
    (hk : ∀ t, Keeps B.N (fun _ => True) (fun _ => False) (fun _ => True) (prog t) (fun _ => True)) {s : Nat → M.St} (hm : ∀ t, mem (s t) = a) {Q : Nat → Scal → Prop}
    (fin : ∀ t, ∃ s', M.Finishes (prog t) (s t) s' ∧ mem s' = a ∧ Q t (M.scal s')) :
    Together B len T (fun t => ⟨[.stm (prog t)], loc (s t)⟩) a (fun q => q.mem = a ∧ ∀ t, t < T → Q t (B.scal (q.conf t).st)) := by
  obtain ⟨k, h⟩ := parallel hB (len := len) loc mem hscal hstep (R := fun _ _ => True) (W := fun _ _ => False) (fun t x h => trivial) (fun _ _ _ _ _ h => h)
    hk hm (fun t => (fin t).choose_spec.1)
  refine ⟨k, fun σ => ?_⟩
  obtain ⟨q, g1, g2, g3, g4, g5, g6⟩ := h σ
  refine ⟨q, g1, ⟨g2, g3⟩, fun hk t ht => g4 t (hk t ht), fun hq => ⟨funext fun x => g6 x fun _ h => h, fun t ht => ?_⟩⟩
  rw [(g5 t (hq t ht)).1, ← hscal]
  exact (fin t).choose_spec.2.2

/-! ### putting the answers of the threads together -/
theorem countTrue_cuts (hcut : Cuts cut T n) (f : Nat → Bool) (u : Nat) :
    ((List.range u).map fun t => countTrue (cut (t + 1) - cut t) fun j => f (cut t + j)).sum = countTrue (cut u) f := by
  induction u with
  | zero => rw [hcut.zero]; rfl
  | succ u ih =>
    rw [List.range_succ, List.map_append, List.sum_append, ih]
    have h := countTrue_add (cut u) (cut (u + 1) - cut u) f
    rw [show cut u + (cut (u + 1) - cut u) = cut (u + 1) by have := hcut.mono u; omega] at h
    rw [h]; simp
/-- what the threads report after a search; `r t` are the variables of thread `t` -/
def Reports (cut : Nat → Nat) (T n : Nat) (f : Nat → Bool) (r : Nat → Scal) : Prop :=
  (∃ t k : Nat, t < T ∧ r t 1 ≠ 0 ∧ (∀ u, u < t → r u 1 = 0) ∧ r t 2 = k ∧ IsFirst n f (cut t + k)) ∨ ((∀ t, t < T → r t 1 = 0) ∧ ∀ j, j < n → f j = false)
theorem reports (hcut : Cuts cut T n) {f : Nat → Bool} {r : Nat → Scal}
    (h : ∀ t, t < T → (r t 1 ≠ 0 ∧ ∃ k : Nat, r t 2 = k ∧ IsFirst (cut (t + 1) - cut t) (fun j => f (cut t + j)) k) ∨
      (r t 1 = 0 ∧ ∀ j, j < cut (t + 1) - cut t → f (cut t + j) = false)) : Reports cut T n f r := by
  have below : ∀ t, t ≤ T → (∀ u, u < t → r u 1 = 0) → ∀ j, j < cut t → f j = false := fun t => by
    induction t with
    | zero => intro _ _ j hj; rw [hcut.zero] at hj; omega
    | succ t ih =>
      intro ht hz j hj
      by_cases hjt : j < cut t
      · exact ih (by omega) (fun u hu => hz u (by omega)) j hjt
      · rcases h t (by omega) with ⟨h1, _⟩ | ⟨_, h1⟩
        · exact absurd (hz t (by omega)) h1
        · have := h1 (j - cut t) (by omega)
          rwa [show cut t + (j - cut t) = j by omega] at this
  by_cases hex : ∃ t, t < T ∧ r t 1 ≠ 0
  · have hex' : ∃ t, (t < T ∧ r t 1 ≠ 0) ∧ ∀ u, u < t → ¬ (u < T ∧ r u 1 ≠ 0) := by
      classical
      exact ⟨Nat.find hex, Nat.find_spec hex, fun u hu => Nat.find_min hex hu⟩
    obtain ⟨t, ⟨ht, hr⟩, hmin⟩ := hex'
    have hz : ∀ u, u < t → r u 1 = 0 := fun u hu => by
      by_contra hne
      exact hmin u hu ⟨by omega, hne⟩
    rcases h t ht with ⟨_, k, hk, h1, h2, h3⟩ | ⟨h1, _⟩
    · refine Or.inl ⟨t, k, ht, hr, hz, hk, ?_, h2, fun j hj => ?_⟩
      · have := hcut.le_n (t + 1); omega
      · by_cases hjt : j < cut t
        · exact below t (by omega) hz j hjt
        · have : f (cut t + (j - cut t)) = false := h3 (j - cut t) (by omega)
          rwa [show cut t + (j - cut t) = j by omega] at this
    · exact absurd h1 hr
  · have hz : ∀ t, t < T → r t 1 = 0 := fun t ht => by
      by_contra hne
      exact hex ⟨t, ht, hne⟩
    exact Or.inr ⟨hz, fun j hj => below T (Nat.le_refl _) hz j (by rw [hcut.last T (Nat.le_refl _)]; exact hj)⟩
/-- a search divided among threads; a count -/
theorem together_find (hB : B.Lawful) (hscal : ∀ s, M.scal s = B.scal (loc s))
    (hstep : ∀ p s s', M.step p s = .ok s' → B.big len p (loc s) (mem s) = .ok (loc s', mem s')) (hcut : Cuts cut T n)
    {g : (Nat → BitVec w) → Option Bool} (hg : ∀ v v', (∀ k, k < K → v k = v' k) → g v = g v') {p : E .msk} {f : Nat → Bool}
    {s : Nat → M.St} (hm : ∀ t, mem (s t) = a)
    (fin : ∀ t, ∃ s', M.Finishes (findLoopOf g B.N (cut (t + 1) - cut t) K (fun k => src k + cut t) p) (s t) s' ∧ mem s' = a ∧
      ((M.scal s' 1 ≠ 0 ∧ ∃ k : Nat, M.scal s' 2 = k ∧ IsFirst (cut (t + 1) - cut t) (fun j => f (cut t + j)) k) ∨
        (M.scal s' 1 = 0 ∧ ∀ j, j < cut (t + 1) - cut t → f (cut t + j) = false))) :
    Together B len T (fun t => ⟨[.stm (findLoopOf g B.N (cut (t + 1) - cut t) K (fun k => src k + cut t) p)], loc (s t)⟩) a
      (fun q => q.mem = a ∧ Reports cut T n f fun t => B.scal (q.conf t).st) := by
  obtain ⟨k, h⟩ := together_read (T := T) hB hscal hstep (prog := fun t => findLoopOf g B.N (cut (t + 1) - cut t) K (fun k => src k + cut t) p)
    (fun t => keeps_find hg (fun _ _ _ _ => trivial)) hm
    (Q := fun t r => (r 1 ≠ 0 ∧ ∃ k : Nat, r 2 = k ∧ IsFirst (cut (t + 1) - cut t) (fun j => f (cut t + j)) k) ∨ (r 1 = 0 ∧ ∀ j, j < cut (t + 1) - cut t → f (cut t + j) = false)) fin
  refine ⟨k, fun σ => ?_⟩
  obtain ⟨q, h1, h2, h3, h4⟩ := h σ
  exact ⟨q, h1, h2, h3, fun hq => ⟨(h4 hq).1, reports hcut (h4 hq).2⟩⟩
theorem together_count (hB : B.Lawful) (hscal : ∀ s, M.scal s = B.scal (loc s))
    (hstep : ∀ p s s', M.step p s = .ok s' → B.big len p (loc s) (mem s) = .ok (loc s', mem s')) (hcut : Cuts cut T n)
    {g : (Nat → BitVec w) → Option Bool} (hg : ∀ v v', (∀ k, k < K → v k = v' k) → g v = g v') {p : E .msk} {f : Nat → Bool}
    {s : Nat → M.St} (hm : ∀ t, mem (s t) = a)
    (fin : ∀ t, ∃ s', M.Finishes (countLoopOf g B.N (cut (t + 1) - cut t) K (fun k => src k + cut t) p) (s t) s' ∧ mem s' = a ∧
      M.scal s' 1 = countTrue (cut (t + 1) - cut t) fun j => f (cut t + j)) :
    Together B len T (fun t => ⟨[.stm (countLoopOf g B.N (cut (t + 1) - cut t) K (fun k => src k + cut t) p)], loc (s t)⟩) a
      (fun q => q.mem = a ∧ ((List.range T).map fun t => B.scal (q.conf t).st 1).sum = countTrue n f) := by
  obtain ⟨k, h⟩ := together_read (T := T) hB hscal hstep (prog := fun t => countLoopOf g B.N (cut (t + 1) - cut t) K (fun k => src k + cut t) p)
    (fun t => keeps_count hg (fun _ _ _ _ => trivial)) hm (Q := fun t r => r 1 = countTrue (cut (t + 1) - cut t) fun j => f (cut t + j)) fin
  refine ⟨k, fun σ => ?_⟩
  obtain ⟨q, h1, h2, h3, h4⟩ := h σ
  refine ⟨q, h1, h2, h3, fun hq => ⟨(h4 hq).1, ?_⟩⟩
  rw [← hcut.last T (Nat.le_refl _), ← countTrue_cuts hcut f T]
  have e : ((List.range T).map fun t => B.scal (q.conf t).st 1) = (List.range T).map fun t => ((countTrue (cut (t + 1) - cut t) fun j => f (cut t + j) : Nat) : Int) :=
    List.map_congr_left fun t ht => (h4 hq).2 t (List.mem_range.1 ht)
  rw [e]
  generalize List.range T = l
  induction l with
  | nil => rfl
  | cons x l ih => simp only [List.map_cons, List.sum_cons, ih]; push_cast; rfl
end

theorem computes_ext {w : Nat} {E : Kind → Type} {M : Meaning w E} {K : Nat} {f : (Nat → BitVec w) → Option (BitVec w)} {e : E .vec} (he : Computes M K f e) :
    ∀ v v', (∀ k, k < K → v k = v' k) → f v = f v' :=
  fun v v' h => (he 0 0 v (fun _ => false) v (fun _ _ => rfl)).symm.trans (he 0 0 v (fun _ => false) v' h)
theorem tests_ext {w : Nat} {E : Kind → Type} {M : Meaning w E} {K : Nat} {g : (Nat → BitVec w) → Option Bool} {p : E .msk} (he : Tests M K g p) :
    ∀ v v', (∀ k, k < K → v k = v' k) → g v = g v' :=
  fun v v' h => (he 0 0 v (fun _ => false) v (fun _ _ => rfl)).symm.trans (he 0 0 v (fun _ => false) v' h)

section x86
variable (fp : FpOps) {c : Cfg} (hc : c.Ok) (hint : c.T.flt = false) {cut : Nat → Nat} {src : Nat → Nat} {dst len n K T : Nat} {a b : Nat → BitVec c.w}
include hc hint
/-- C84 (map, x86 backend): the arrays are divided among the threads in any way, each with vectors of its own; for every schedule they end with
exactly what the scalar loop over the whole arrays leaves, if that is defined and the result is stored over a source or away from it. -/
theorem C84_map_x86_partial (hcut : Cuts cut T n) {e : Ex c.w .vec} (he : e.Map K) (hsup : Supported c e) (hso : Sound c e)
    (hd : ∀ k, k < K → src k = dst ∨ dst + n ≤ src k ∨ src k + n ≤ dst) (hl : dst + n ≤ len ∧ ∀ k, k < K → src k + n ≤ len)
    (hb : scalarLoop c.T.ity src dst e n a = some b) (ρ : Nat → XEnv c) (hρ : ∀ t, (ρ t).Canon) (v : Nat → Scal) :
    Together (xInt c fp) len T (fun t => ⟨[.stm (mapLoop c.T.ity c.N (cut (t + 1) - cut t) K (fun k => src k + cut t) (dst + cut t) e)], ⟨ρ t, v t⟩⟩) a (fun q => q.mem = b) := by
  refine together_map (B := (xInt c fp)) (M := (xExec c fp len)) (loc := XState.loc) (mem := XState.mem) xBackend_lawful (fun _ => rfl) (fun p s s' h => x_big hc len p s s' h) hcut
    (computes_ext (M := (intMeaning c.T.ity)) (e := e) (computes_int he)) hd hb (s := fun t => ⟨ρ t, v t, a⟩) (fun _ => rfl) (fun t b' hb' => ?_)
  have hn := hcut.le_n (t + 1)
  have hmono := hcut.mono t
  obtain ⟨r, f, h⟩ := mapLoop_spec' (N := c.N) hc.pos (len := len) (computes_int he) (fun hN k hk => by have := hd k hk; omega)
    ⟨by omega, fun k hk => by have := hl.2 k hk; omega⟩ hb' (XState.abs ⟨ρ t, v t, a⟩) rfl
  obtain ⟨s', f', ha⟩ := (C72_x86_partial fp hc hint len _ (mapLoop_all ⟨hsup, hso⟩ _ _ _ _ _ _) ⟨ρ t, v t, a⟩ _ (xrel_abs _ (hρ t))).1 r f
  exact ⟨s', f', ha.mem.trans h⟩
/-- C84 (search, x86 backend, where `any_of` is right): the first thread that has found something has found the first element of the whole array, and if none has
there is none. -/
theorem C84_find_x86_partial (ht : tailOk c) (hcut : Cuts cut T n) {p : Ex c.w .msk} {f : Nat → Bool} (he : p.Map K) (hsup : Supported c p) (hso : Sound c p)
    (hl : ∀ k, k < K → src k + n ≤ len) (hf : ∀ j, j < n → test c.T.ity src p a j = some (f j)) (ρ : Nat → XEnv c) (hρ : ∀ t, (ρ t).Canon) (v : Nat → Scal) :
    Together (xInt c fp) len T (fun t => ⟨[.stm (findLoop c.T.ity c.N (cut (t + 1) - cut t) K (fun k => src k + cut t) p)], ⟨ρ t, v t⟩⟩) a
      (fun q => q.mem = a ∧ Reports cut T n f fun i => XLoc.scal (q.conf i).st) :=
  together_find (B := (xInt c fp)) (M := (xExec c fp len)) (loc := XState.loc) (mem := XState.mem) xBackend_lawful (fun _ => rfl) (fun p s s' h => x_big hc len p s s' h) hcut
    (tests_ext (M := (intMeaning c.T.ity)) (p := p) (tests_int he)) (s := fun t => ⟨ρ t, v t, a⟩) (fun _ => rfl)
    (fun t => C75_find_x86_partial fp hc hint ht he hsup hso (fun k hk => by have := hl k hk; have := hcut.le_n (t + 1); have := hcut.mono t; omega)
      (fun j hj => by
        have := hf (cut t + j) (by have := hcut.le_n (t + 1); omega)
        unfold test at this ⊢
        simpa only [Nat.add_assoc] using this) ⟨ρ t, v t, a⟩ (hρ t) rfl)
/-- C84 (count, x86 backend, where `reduce_count` is right): the counts of the threads add up to the count of the whole array. -/
theorem C84_count_x86_partial (hw : ¬ wideMask c.s c.T c.v) (ht : tailOk c) (hcut : Cuts cut T n) {p : Ex c.w .msk} {f : Nat → Bool} (he : p.Map K) (hsup : Supported c p) (hso : Sound c p)
    (hl : ∀ k, k < K → src k + n ≤ len) (hf : ∀ j, j < n → test c.T.ity src p a j = some (f j)) (ρ : Nat → XEnv c) (hρ : ∀ t, (ρ t).Canon) (v : Nat → Scal) :
    Together (xInt c fp) len T (fun t => ⟨[.stm (countLoop c.T.ity c.N (cut (t + 1) - cut t) K (fun k => src k + cut t) p)], ⟨ρ t, v t⟩⟩) a
      (fun q => q.mem = a ∧ ((List.range T).map fun i => XLoc.scal (q.conf i).st 1).sum = countTrue n f) :=
  together_count (B := (xInt c fp)) (M := (xExec c fp len)) (loc := XState.loc) (mem := XState.mem) xBackend_lawful (fun _ => rfl) (fun p s s' h => x_big hc len p s s' h) hcut
    (tests_ext (M := (intMeaning c.T.ity)) (p := p) (tests_int he)) (s := fun t => ⟨ρ t, v t, a⟩) (fun _ => rfl)
    (fun t => C75_count_x86_partial fp hc hint hw ht he hsup hso (fun k hk => by have := hl k hk; have := hcut.le_n (t + 1); have := hcut.mono t; omega)
      (fun j hj => by
        have := hf (cut t + j) (by have := hcut.le_n (t + 1); omega)
        unfold test at this ⊢
        simpa only [Nat.add_assoc] using this) ⟨ρ t, v t, a⟩ (hρ t) rfl)
end x86
section x86f
variable {c : Cfg} (hc : c.Ok) (hflt : c.T.flt = true) {cut : Nat → Nat} {src : Nat → Nat} {dst len n K T : Nat} {a b : Nat → BitVec c.w}
include hc hflt
/-- C84 (map, x86 backend, `float` and `double`): the same, bit for bit -/
theorem C84_map_x86_float_partial (hcut : Cuts cut T n) {e : FEx c.w .vec} (he : e.Map K) (ha : e.Avoids False True)
    (hd : ∀ k, k < K → src k = dst ∨ dst + n ≤ src k ∨ src k + n ≤ dst) (hl : dst + n ≤ len ∧ ∀ k, k < K → src k + n ≤ len)
    (hb : loopOf (fltScalar e) src dst n a = some b) (ρ : Nat → XEnv c) (hρ : ∀ t, (ρ t).Canon) (v : Nat → Scal) :
    Together (xFlt c) len T (fun t => ⟨[.stm (mapLoopOf (fltScalar e) c.N (cut (t + 1) - cut t) K (fun k => src k + cut t) (dst + cut t) e)], ⟨ρ t, v t⟩⟩) a (fun q => q.mem = b) := by
  refine together_map (B := (xFlt c)) (M := (xfExec c len)) (loc := XState.loc) (mem := XState.mem) xBackend_lawful (fun _ => rfl) (fun p s s' h => x_big hc len p s s' h) hcut
    (computes_ext (M := (fltMeaning c.w)) (e := e) (computes_flt he)) hd hb (s := fun t => ⟨ρ t, v t, a⟩) (fun _ => rfl) (fun t b' hb' => ?_)
  have hn := hcut.le_n (t + 1)
  have hmono := hcut.mono t
  obtain ⟨r, f, h⟩ := mapLoop_spec' (N := c.N) hc.pos (len := len) (computes_flt he) (fun hN k hk => by have := hd k hk; omega)
    ⟨by omega, fun k hk => by have := hl.2 k hk; omega⟩ hb' (XState.abs ⟨ρ t, v t, a⟩) rfl
  obtain ⟨s', f', ha⟩ := (C76_x86_partial hc hflt len _ (mapLoop_all ha _ _ _ _ _ _) ⟨ρ t, v t, a⟩ _ (xrel_abs _ (hρ t))).1 r f
  exact ⟨s', f', ha.mem.trans h⟩
/-- C84 (search, x86 backend, `float` and `double`, where `any_of` is right): the first thread that has found something has found the first element of the whole array, and if none has
there is none. -/
theorem C84_find_x86_float_partial (ht : tailOk c) (hcut : Cuts cut T n) {p : FEx c.w .msk} {f : Nat → Bool} (he : p.Map K) (ha : p.Avoids False True)
    (hl : ∀ k, k < K → src k + n ≤ len) (hf : ∀ j, j < n → fltTest p (fun k => a (src k + j)) = some (f j)) (ρ : Nat → XEnv c) (hρ : ∀ t, (ρ t).Canon) (v : Nat → Scal) :
    Together (xFlt c) len T (fun t => ⟨[.stm (findLoopOf (fltTest p) c.N (cut (t + 1) - cut t) K (fun k => src k + cut t) p)], ⟨ρ t, v t⟩⟩) a
      (fun q => q.mem = a ∧ Reports cut T n f fun i => XLoc.scal (q.conf i).st) :=
  together_find (B := (xFlt c)) (M := (xfExec c len)) (loc := XState.loc) (mem := XState.mem) xBackend_lawful (fun _ => rfl) (fun p s s' h => x_big hc len p s s' h) hcut
    (tests_ext (M := (fltMeaning c.w)) (p := p) (tests_flt he)) (s := fun t => ⟨ρ t, v t, a⟩) (fun _ => rfl)
    (fun t => C77_find_x86_partial hc hflt ht he ha (fun k hk => by have := hl k hk; have := hcut.le_n (t + 1); have := hcut.mono t; omega)
      (fun j hj => by
        have := hf (cut t + j) (by have := hcut.le_n (t + 1); omega)
        simpa only [Nat.add_assoc] using this) ⟨ρ t, v t, a⟩ (hρ t) rfl)
/-- C84 (count, x86 backend, `float` and `double`, where `reduce_count` is right): the counts of the threads add up to the count of the whole array. -/
theorem C84_count_x86_float_partial (hw : ¬ wideMask c.s c.T c.v) (ht : tailOk c) (hcut : Cuts cut T n) {p : FEx c.w .msk} {f : Nat → Bool} (he : p.Map K) (ha : p.Avoids False True)
    (hl : ∀ k, k < K → src k + n ≤ len) (hf : ∀ j, j < n → fltTest p (fun k => a (src k + j)) = some (f j)) (ρ : Nat → XEnv c) (hρ : ∀ t, (ρ t).Canon) (v : Nat → Scal) :
    Together (xFlt c) len T (fun t => ⟨[.stm (countLoopOf (fltTest p) c.N (cut (t + 1) - cut t) K (fun k => src k + cut t) p)], ⟨ρ t, v t⟩⟩) a
      (fun q => q.mem = a ∧ ((List.range T).map fun i => XLoc.scal (q.conf i).st 1).sum = countTrue n f) :=
  together_count (B := (xFlt c)) (M := (xfExec c len)) (loc := XState.loc) (mem := XState.mem) xBackend_lawful (fun _ => rfl) (fun p s s' h => x_big hc len p s s' h) hcut
    (tests_ext (M := (fltMeaning c.w)) (p := p) (tests_flt he)) (s := fun t => ⟨ρ t, v t, a⟩) (fun _ => rfl)
    (fun t => C77_count_x86_partial hc hflt hw ht he ha (fun k hk => by have := hl k hk; have := hcut.le_n (t + 1); have := hcut.mono t; omega)
      (fun j hj => by
        have := hf (cut t + j) (by have := hcut.le_n (t + 1); omega)
        simpa only [Nat.add_assoc] using this) ⟨ρ t, v t, a⟩ (hρ t) rfl)
end x86f
section generic
variable {t : IntTy} {N : Nat} {cut : Nat → Nat} {src : Nat → Nat} {dst len n K T : Nat} {a b : Nat → BitVec t.bits}
/-- C84 (map, generic backend): the same -/
theorem C84_map_generic_partial (hN : 0 < N) (hcut : Cuts cut T n) {e : Ex t.bits .vec} (he : e.Map K) (hp : Plain t e)
    (hd : ∀ k, k < K → src k = dst ∨ dst + n ≤ src k ∨ src k + n ≤ dst) (hl : dst + n ≤ len ∧ ∀ k, k < K → src k + n ≤ len)
    (hb : scalarLoop t src dst e n a = some b) (ρ : Nat → GEnv t.bits N) (v : Nat → Scal) :
    Together (gInt t N) len T (fun i => ⟨[.stm (mapLoop t N (cut (i + 1) - cut i) K (fun k => src k + cut i) (dst + cut i) e)], ⟨ρ i, v i⟩⟩) a (fun q => q.mem = b) := by
  refine together_map (B := (gInt t N)) (M := (gExec t N len)) (loc := GStateW.loc) (mem := GStateW.mem) gBackend_lawful (fun _ => rfl) (fun p s s' h => g_big len p s s' h) hcut
    (computes_ext (M := (intMeaning t)) (e := e) (computes_int he)) hd hb (s := fun i => ⟨ρ i, v i, a⟩) (fun _ => rfl) (fun i b' hb' => ?_)
  have hn := hcut.le_n (i + 1)
  have hmono := hcut.mono i
  obtain ⟨r, f, h⟩ := mapLoop_spec' (N := N) hN (len := len) (computes_int he) (fun hN k hk => by have := hd k hk; omega)
    ⟨by omega, fun k hk => by have := hl.2 k hk; omega⟩ hb' (GStateW.abs ⟨ρ i, v i, a⟩) rfl
  obtain ⟨s', f', ha⟩ := (C72_generic_partial hN len _ (mapLoop_all hp _ _ _ _ _ _) ⟨ρ i, v i, a⟩ _ (grel_abs _)).1 r f
  exact ⟨s', f', ha.mem.trans h⟩
/-- C84 (search, generic backend): the first thread that has found something has found the first element of the whole array, and if none has
there is none. -/
theorem C84_find_generic_partial (hN : 0 < N) (hcut : Cuts cut T n) {p : Ex t.bits .msk} {f : Nat → Bool} (he : p.Map K) (hp : Plain t p)
    (hl : ∀ k, k < K → src k + n ≤ len) (hf : ∀ j, j < n → test t src p a j = some (f j)) (ρ : Nat → GEnv t.bits N) (v : Nat → Scal) :
    Together (gInt t N) len T (fun i => ⟨[.stm (findLoop t N (cut (i + 1) - cut i) K (fun k => src k + cut i) p)], ⟨ρ i, v i⟩⟩) a
      (fun q => q.mem = a ∧ Reports cut T n f fun i => GLoc.scal (q.conf i).st) :=
  together_find (B := (gInt t N)) (M := (gExec t N len)) (loc := GStateW.loc) (mem := GStateW.mem) gBackend_lawful (fun _ => rfl) (fun p s s' h => g_big len p s s' h) hcut
    (tests_ext (M := (intMeaning t)) (p := p) (tests_int he)) (s := fun i => ⟨ρ i, v i, a⟩) (fun _ => rfl)
    (fun i => C75_find_generic_partial hN he hp (fun k hk => by have := hl k hk; have := hcut.le_n (i + 1); have := hcut.mono i; omega)
      (fun j hj => by
        have := hf (cut i + j) (by have := hcut.le_n (i + 1); omega)
        unfold test at this ⊢
        simpa only [Nat.add_assoc] using this) ⟨ρ i, v i, a⟩ rfl)
/-- C84 (count, generic backend): the counts of the threads add up to the count of the whole array. -/
theorem C84_count_generic_partial (hN : 0 < N) (hcut : Cuts cut T n) {p : Ex t.bits .msk} {f : Nat → Bool} (he : p.Map K) (hp : Plain t p)
    (hl : ∀ k, k < K → src k + n ≤ len) (hf : ∀ j, j < n → test t src p a j = some (f j)) (ρ : Nat → GEnv t.bits N) (v : Nat → Scal) :
    Together (gInt t N) len T (fun i => ⟨[.stm (countLoop t N (cut (i + 1) - cut i) K (fun k => src k + cut i) p)], ⟨ρ i, v i⟩⟩) a
      (fun q => q.mem = a ∧ ((List.range T).map fun i => GLoc.scal (q.conf i).st 1).sum = countTrue n f) :=
  together_count (B := (gInt t N)) (M := (gExec t N len)) (loc := GStateW.loc) (mem := GStateW.mem) gBackend_lawful (fun _ => rfl) (fun p s s' h => g_big len p s s' h) hcut
    (tests_ext (M := (intMeaning t)) (p := p) (tests_int he)) (s := fun i => ⟨ρ i, v i, a⟩) (fun _ => rfl)
    (fun i => C75_count_generic_partial hN he hp (fun k hk => by have := hl k hk; have := hcut.le_n (i + 1); have := hcut.mono i; omega)
      (fun j hj => by
        have := hf (cut i + j) (by have := hcut.le_n (i + 1); omega)
        unfold test at this ⊢
        simpa only [Nat.add_assoc] using this) ⟨ρ i, v i, a⟩ rfl)
end generic
section genericf
variable {w N : Nat} {cut : Nat → Nat} {src : Nat → Nat} {dst len n K T : Nat} {a b : Nat → BitVec w}
/-- C84 (map, generic backend, `float` and `double`, with a correctly rounded `sqrt`): the same -/
theorem C84_map_generic_float_partial (hN : 0 < N) (L : Cmath w) (hL : ∀ x, L.fn1 .sqrt x = fsqrt x) (hcut : Cuts cut T n) {e : FEx w .vec} (he : e.Map K) (ha : e.Avoids True False)
    (hd : ∀ k, k < K → src k = dst ∨ dst + n ≤ src k ∨ src k + n ≤ dst) (hl : dst + n ≤ len ∧ ∀ k, k < K → src k + n ≤ len)
    (hb : loopOf (fltScalar e) src dst n a = some b) (ρ : Nat → GEnv w N) (v : Nat → Scal) :
    Together (gFlt L N) len T (fun t => ⟨[.stm (mapLoopOf (fltScalar e) N (cut (t + 1) - cut t) K (fun k => src k + cut t) (dst + cut t) e)], ⟨ρ t, v t⟩⟩) a (fun q => q.mem = b) := by
  refine together_map (B := (gFlt L N)) (M := (gfExec L N len)) (loc := GStateW.loc) (mem := GStateW.mem) gBackend_lawful (fun _ => rfl) (fun p s s' h => g_big len p s s' h) hcut
    (computes_ext (M := (fltMeaning w)) (e := e) (computes_flt he)) hd hb (s := fun t => ⟨ρ t, v t, a⟩) (fun _ => rfl) (fun t b' hb' => ?_)
  have hn := hcut.le_n (t + 1)
  have hmono := hcut.mono t
  obtain ⟨r, f, h⟩ := mapLoop_spec' (N := N) hN (len := len) (computes_flt he) (fun hN k hk => by have := hd k hk; omega)
    ⟨by omega, fun k hk => by have := hl.2 k hk; omega⟩ hb' (GStateW.abs ⟨ρ t, v t, a⟩) rfl
  obtain ⟨s', f', ha⟩ := (C76_generic_partial hN L hL len _ (mapLoop_all ha _ _ _ _ _ _) ⟨ρ t, v t, a⟩ _ (grel_abs _)).1 r f
  exact ⟨s', f', ha.mem.trans h⟩
/-- C84 (search, generic backend, `float` and `double`): the first thread that has found something has found the first element of the whole array, and if none has
there is none. -/
theorem C84_find_generic_float_partial (hN : 0 < N) (L : Cmath w) (hL : ∀ x, L.fn1 .sqrt x = fsqrt x) (hcut : Cuts cut T n) {p : FEx w .msk} {f : Nat → Bool} (he : p.Map K) (ha : p.Avoids True False)
    (hl : ∀ k, k < K → src k + n ≤ len) (hf : ∀ j, j < n → fltTest p (fun k => a (src k + j)) = some (f j)) (ρ : Nat → GEnv w N) (v : Nat → Scal) :
    Together (gFlt L N) len T (fun t => ⟨[.stm (findLoopOf (fltTest p) N (cut (t + 1) - cut t) K (fun k => src k + cut t) p)], ⟨ρ t, v t⟩⟩) a
      (fun q => q.mem = a ∧ Reports cut T n f fun i => GLoc.scal (q.conf i).st) :=
  together_find (B := (gFlt L N)) (M := (gfExec L N len)) (loc := GStateW.loc) (mem := GStateW.mem) gBackend_lawful (fun _ => rfl) (fun p s s' h => g_big len p s s' h) hcut
    (tests_ext (M := (fltMeaning w)) (p := p) (tests_flt he)) (s := fun t => ⟨ρ t, v t, a⟩) (fun _ => rfl)
    (fun t => C77_find_generic_partial hN L hL he ha (fun k hk => by have := hl k hk; have := hcut.le_n (t + 1); have := hcut.mono t; omega)
      (fun j hj => by
        have := hf (cut t + j) (by have := hcut.le_n (t + 1); omega)
        simpa only [Nat.add_assoc] using this) ⟨ρ t, v t, a⟩ rfl)
/-- C84 (count, generic backend, `float` and `double`): the counts of the threads add up to the count of the whole array. -/
theorem C84_count_generic_float_partial (hN : 0 < N) (L : Cmath w) (hL : ∀ x, L.fn1 .sqrt x = fsqrt x) (hcut : Cuts cut T n) {p : FEx w .msk} {f : Nat → Bool} (he : p.Map K) (ha : p.Avoids True False)
    (hl : ∀ k, k < K → src k + n ≤ len) (hf : ∀ j, j < n → fltTest p (fun k => a (src k + j)) = some (f j)) (ρ : Nat → GEnv w N) (v : Nat → Scal) :
    Together (gFlt L N) len T (fun t => ⟨[.stm (countLoopOf (fltTest p) N (cut (t + 1) - cut t) K (fun k => src k + cut t) p)], ⟨ρ t, v t⟩⟩) a
      (fun q => q.mem = a ∧ ((List.range T).map fun i => GLoc.scal (q.conf i).st 1).sum = countTrue n f) :=
  together_count (B := (gFlt L N)) (M := (gfExec L N len)) (loc := GStateW.loc) (mem := GStateW.mem) gBackend_lawful (fun _ => rfl) (fun p s s' h => g_big len p s s' h) hcut
    (tests_ext (M := (fltMeaning w)) (p := p) (tests_flt he)) (s := fun t => ⟨ρ t, v t, a⟩) (fun _ => rfl)
    (fun t => C77_count_generic_partial hN L hL he ha (fun k hk => by have := hl k hk; have := hcut.le_n (t + 1); have := hcut.mono t; omega)
      (fun j hj => by
        have := hf (cut t + j) (by have := hcut.le_n (t + 1); omega)
        simpa only [Nat.add_assoc] using this) ⟨ρ t, v t, a⟩ rfl)
end genericf

/-! ### any programs -/
/-- C84 (x86 backend, integers or floating point): threads with any programs, each of which finishes when run alone and keeps to its own elements
`R t` (of which it changes only `W t`) that no other thread changes.  In every schedule nothing undefined happens and they stay independent;
a thread given enough steps has finished; and whoever has finished has the variables, vectors and elements it has when run alone. -/
theorem C84_programs_x86 {c : Cfg} (hc : c.Ok) {fp : FpOps} {E : Kind → Type} {ev : XEnv c → {k : Kind} → E k → Out c.Data} {len : Nat} {R W : Nat → Nat → Prop}
    (hsub : ∀ t x, W t x → R t x) (hdis : ∀ t u, t ≠ u → ∀ x, R t x → ¬ W u x) {prog : Nat → StmOf (PrimE c.w E)} {Q : Nat → Scal → Prop}
    (hk : ∀ t, Keeps c.N (R t) (W t) (fun _ => True) (prog t) (Q t)) {m : Mem (BitVec c.w)} {s s' : Nat → XState c} (hm : ∀ t, (s t).mem = m)
    (hf : ∀ t, ExecOf.Finishes ⟨XState c, XState.scal, xStepE c fp ev len⟩ (prog t) (s t) (s' t)) : ∃ k : Nat → Nat, ∀ σ : List Nat,
    ∃ q, runPool (xBackend c fp ev) len σ ⟨fun t => ⟨[.stm (prog t)], ⟨(s t).env, (s t).scal⟩⟩, m⟩ = .ok q ∧ Independent (xBackend c fp ev) len q ∧
      (∀ t, k t ≤ σ.count t → (q.conf t).todo = []) ∧
      (∀ t, (q.conf t).todo = [] → (q.conf t).st = ⟨(s' t).env, (s' t).scal⟩ ∧ ∀ x, R t x → q.mem x = (s' t).mem x) ∧
      ∀ x, (∀ t, ¬ W t x) → q.mem x = m x := by
  obtain ⟨k, h⟩ := parallel (xBackend_lawful (fp := fp) (ev := ev)) (len := len) (M := ⟨XState c, XState.scal, xStepE c fp ev len⟩) XState.loc XState.mem (fun _ => rfl)
    (fun p s s' h => x_big hc len p s s' h) hsub hdis hk hm hf
  refine ⟨k, fun σ => ?_⟩
  obtain ⟨q, g1, g2, g3, g⟩ := h σ
  exact ⟨q, g1, ⟨g2, g3⟩, g⟩
/-- C84 (generic backend): the same -/
theorem C84_programs_generic {w N : Nat} {S : Scalar (BitVec w)} {E : Kind → Type} {ev : GEnv w N → {k : Kind} → E k → Out (GVal w N k)} {len : Nat} {R W : Nat → Nat → Prop}
    (hsub : ∀ t x, W t x → R t x) (hdis : ∀ t u, t ≠ u → ∀ x, R t x → ¬ W u x) {prog : Nat → StmOf (PrimE w E)} {Q : Nat → Scal → Prop}
    (hk : ∀ t, Keeps N (R t) (W t) (fun _ => True) (prog t) (Q t)) {m : Mem (BitVec w)} {s s' : Nat → GStateW w N} (hm : ∀ t, (s t).mem = m)
    (hf : ∀ t, ExecOf.Finishes ⟨GStateW w N, GStateW.scal, gStepE S ev len⟩ (prog t) (s t) (s' t)) : ∃ k : Nat → Nat, ∀ σ : List Nat,
    ∃ q, runPool (gBackend S ev) len σ ⟨fun t => ⟨[.stm (prog t)], ⟨(s t).env, (s t).scal⟩⟩, m⟩ = .ok q ∧ Independent (gBackend S ev) len q ∧
      (∀ t, k t ≤ σ.count t → (q.conf t).todo = []) ∧
      (∀ t, (q.conf t).todo = [] → (q.conf t).st = ⟨(s' t).env, (s' t).scal⟩ ∧ ∀ x, R t x → q.mem x = (s' t).mem x) ∧
      ∀ x, (∀ t, ¬ W t x) → q.mem x = m x := by
  obtain ⟨k, h⟩ := parallel (gBackend_lawful (S := S) (ev := ev)) (len := len) (M := ⟨GStateW w N, GStateW.scal, gStepE S ev len⟩) GStateW.loc GStateW.mem (fun _ => rfl)
    (fun p s s' h => g_big len p s s' h) hsub hdis hk hm hf
  refine ⟨k, fun σ => ?_⟩
  obtain ⟨q, g1, g2, g3, g⟩ := h σ
  exact ⟨q, g1, ⟨g2, g3⟩, g⟩

/-! ### where the library gets in the way -/
/-- C84 violated for `copy_to(p, vector_aligned)`: if `size()` is not a multiple of the native extent, a thread that stores its `size()` elements
and a thread that assigns the element after them, its own, leave different arrays depending on who comes first: in one order the element is
replaced by the padding of the vector. -/
theorem C84_aligned_violated {c : Cfg} (hc : c.Ok) (hN : c.N % c.e ≠ 0) {f : Flag} (hf : f.aligned c.v.bytes = true) (d : c.Data) (mem : Mem (BitVec c.w)) (y : BitVec c.w)
    (hy : elt c d c.N ≠ y) :
    ∃ m1 m2, ((copyTo c f d (c.dataSize * c.e) mem).map fun m => m.set c.N y) = some m1 ∧ copyTo c f d (c.dataSize * c.e) (mem.set c.N y) = some m2 ∧
      m1 c.N = y ∧ m2 c.N = elt c d c.N ∧ m1 ≠ m2 := by
  obtain ⟨m1, h1, _⟩ := (C15_vector_aligned_violated hc hN hf d mem).2.2
  obtain ⟨m2, h2, h3⟩ := (C15_vector_aligned_violated hc hN hf d (mem.set c.N y)).2.2
  have e1 : (m1.set c.N y) c.N = y := Mem.set_same _ _ _
  exact ⟨_, m2, by rw [h1]; rfl, h2, e1, h3, fun h => hy (by rw [← h3, ← h]; exact e1)⟩
example : ∃ d : exU32p.Data, elt exU32p d exU32p.N ≠ 7 := ⟨vbroadcast exU32p 5 (zeroData exU32p), by decide +kernel⟩

/-! ### concrete cases -/
/-- 20 elements for four threads: the first has 7, the second and third none, the last 13 (more than a vector of 6, and a tail) -/
def exCut : Nat → Nat := fun t => if t = 0 then 0 else if t ≤ 3 then 7 else 20
theorem exCut_ok : Cuts exCut 4 20 where
  zero := rfl
  mono t := by unfold exCut; split <;> split <;> (try split) <;> (try split) <;> omega
  last t ht := by unfold exCut; rw [if_neg (by omega), if_neg (by omega)]
/-- `z[i] = max(x[i] * y[i], 7)`; `x = i`, `y = 3`, in six-element vectors of `int32_t` -/
example (fp : FpOps) (ρ : Nat → XEnv exI32) (hρ : ∀ t, (ρ t).Canon) :
    Together (xInt exI32 fp) 60 4 (fun t => ⟨[.stm (mapLoop exI32.T.ity exI32.N (exCut (t + 1) - exCut t) 2 (fun k => 20 * k + exCut t) (40 + exCut t) exMap)], ⟨ρ t, fun _ => 0⟩⟩) exMem
      (fun q => (q.mem 41).toNat = 7 ∧ (q.mem 59).toNat = 57) := by
  have h := exMap_def
  cases hb : scalarLoop exI32.T.ity (fun k => 20 * k) 40 exMap 20 exMem with
  | none => rw [hb] at h; cases h
  | some b =>
    rw [hb] at h
    have h := Option.some.inj h
    simp only [List.cons.injEq] at h
    obtain ⟨k, hk⟩ := C84_map_x86_partial fp exI32_ok rfl (len := 60) exCut_ok exMap_ok.1 exMap_ok.2.1 exMap_ok.2.2
      (fun k hk => Or.inr (Or.inr (by show 20 * k + 20 ≤ 40; omega))) ⟨by decide, fun k hk => by omega⟩ hb ρ hρ (fun _ _ => 0)
    refine ⟨k, fun σ => ?_⟩
    obtain ⟨q, g1, g2, g3, g4⟩ := hk σ
    exact ⟨q, g1, g2, g3, fun hq => by
      have hm : q.mem = b := g4 hq
      show (q.mem 41).toNat = 7 ∧ (q.mem 59).toNat = 57
      rw [hm]; exact ⟨h.1, h.2.2.1⟩⟩
/-- the NaNs of an array of 20 `float`s, counted by four threads -/
example (a : Nat → BitVec 32) (ρ : Nat → XEnv exF32) (hρ : ∀ t, (ρ t).Canon) :
    Together (xFlt exF32) 20 4 (fun t => ⟨[.stm (countLoopOf (fltTest exNans) exF32.N (exCut (t + 1) - exCut t) 1 (fun _ => 0 + exCut t) exNans)], ⟨ρ t, fun _ => 0⟩⟩) a
      (fun q => q.mem = a ∧ ((List.range 4).map fun t => XLoc.scal (q.conf t).st 1).sum = countTrue 20 fun j => isNaN (a j)) :=
  C84_count_x86_float_partial exF32_ok rfl (p := exNans) (K := 1) (len := 20) (src := fun _ => 0) (by decide) (by decide) exCut_ok ⟨show 0 < 1 by decide, show 0 < 1 by decide⟩ (by simp [exNans, FEx.Avoids]) (fun _ _ => by omega)
    (fun j _ => by
      have h : ∀ x : BitVec 32, (!Fp.eq x x) = isNaN x := fun x => by
        unfold Fp.eq
        cases isNaN x <;> simp
      rw [← h, Nat.zero_add]
      exact (if_pos (by simp [exNans, Tame])).trans (by simp [exNans, sEval, sfCmp]; rfl)) ρ hρ (fun _ _ => 0)
end Dpm.X86
