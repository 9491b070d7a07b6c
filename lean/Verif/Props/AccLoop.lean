import Verif.Props.SearchLoop
import Mathlib.Algebra.BigOperators.Intervals
import Mathlib.Algebra.Order.BigOperators.Group.Finset
/-
C78: accumulating loops over arrays - sums, dot products, bitwise combinations, least and greatest elements.
-/
namespace Dpm.X86
open Dpm.Reg Dpm.Util Dpm.Generic Dpm.Spec

/-! ### the operations -/
section ops
variable {t : IntTy}
theorem unit_bounds (hw : 0 < t.bits) (x : BitVec t.bits) : t.val (redUnit t .greatest) ≤ t.val x ∧ t.val x ≤ t.val (redUnit t .least) := by
  simp only [redUnit, IntTy.val]
  cases t.signed
  · simp only [Bool.false_eq_true, if_false]
    have := x.isLt
    have h1 : (BitVec.allOnes t.bits).toNat = 2 ^ t.bits - 1 := BitVec.toNat_allOnes
    have h2 : (0 : BitVec t.bits).toNat = 0 := by simp
    omega
  · simp only [if_true]
    rw [BitVec.toInt_intMin_of_pos hw, BitVec.toInt_intMax]
    have := BitVec.toInt_lt (x := x)
    have := BitVec.le_toInt (x := x)
    omega
theorem op_comm (o : Red) (x y : BitVec t.bits) : redOp t o x y = redOp t o y x := by
  cases o with
  | sum => exact BitVec.add_comm x y
  | band => exact BitVec.and_comm x y
  | bor => exact BitVec.or_comm x y
  | bxor => exact BitVec.xor_comm x y
  | least =>
    simp only [redOp, Scalar1.smaller]
    split <;> split
    · exact (val_inj t).1 (by omega)
    · rfl
    · rfl
    · omega
  | greatest =>
    simp only [redOp, Scalar1.larger]
    split <;> split
    · exact (val_inj t).1 (by omega)
    · rfl
    · rfl
    · omega
theorem op_assoc (o : Red) (x y z : BitVec t.bits) : redOp t o (redOp t o x y) z = redOp t o x (redOp t o y z) := by
  cases o with
  | sum => exact BitVec.add_assoc x y z
  | band => exact BitVec.and_assoc x y z
  | bor => exact BitVec.or_assoc x y z
  | bxor => exact BitVec.xor_assoc x y z
  | least => simp only [redOp, Scalar1.smaller]; grind
  | greatest => simp only [redOp, Scalar1.larger]; grind
theorem op_unit (hw : 0 < t.bits) (o : Red) (x : BitVec t.bits) : redOp t o (redUnit t o) x = x := by
  cases o with
  | sum => simp [redOp, redUnit]
  | band => simp [redOp, redUnit]
  | bor => simp [redOp, redUnit]
  | bxor => simp [redOp, redUnit]
  | least =>
    have := (unit_bounds hw x).2
    simp only [redOp, Scalar1.smaller]
    split
    · exact (val_inj t).1 (by omega)
    · rfl
  | greatest =>
    have := (unit_bounds hw x).1
    simp only [redOp, Scalar1.larger]
    rw [if_pos this]
theorem foldAll_zero (o : Red) (y : Nat → BitVec t.bits) : foldAll t o 0 y = redUnit t o := rfl
theorem foldAll_succ (o : Red) (n : Nat) (y : Nat → BitVec t.bits) : foldAll t o (n + 1) y = redOp t o (foldAll t o n y) (y n) := by
  simp only [foldAll, lanes, List.range_succ, List.map_append, List.foldl_append]; rfl
theorem foldAll_congr (o : Red) {n : Nat} {y z : Nat → BitVec t.bits} (h : ∀ i, i < n → y i = z i) : foldAll t o n y = foldAll t o n z := by
  unfold foldAll lanes
  rw [List.map_congr_left fun i hi => h i (List.mem_range.1 hi)]
theorem foldAll_add (hw : 0 < t.bits) (o : Red) (i n : Nat) (y : Nat → BitVec t.bits) :
    foldAll t o (i + n) y = redOp t o (foldAll t o i y) (foldAll t o n fun l => y (i + l)) := by
  induction n with
  | zero => rw [foldAll_zero, op_comm, op_unit hw]; rfl
  | succ n ih => rw [← Nat.add_assoc, foldAll_succ, ih, foldAll_succ, op_assoc]
theorem foldAll_op (hw : 0 < t.bits) (o : Red) (n : Nat) (p q : Nat → BitVec t.bits) :
    foldAll t o n (fun l => redOp t o (p l) (q l)) = redOp t o (foldAll t o n p) (foldAll t o n q) := by
  induction n with
  | zero => rw [foldAll_zero, foldAll_zero, foldAll_zero, op_unit hw]
  | succ n ih =>
    rw [foldAll_succ, foldAll_succ, foldAll_succ, ih, op_assoc, op_assoc]
    congr 1
    rw [← op_assoc, ← op_assoc, op_comm o (foldAll t o n q)]
/-- the reduction of a non-empty list -/
theorem intRed_foldAll (hw : 0 < t.bits) (o : Red) {n : Nat} (hn : 0 < n) (y : Nat → BitVec t.bits) : intRed t o (lanes n y) = some (foldAll t o n y) := by
  have hf : ∀ o, fold1 (redOp t o) (lanes n y) = some (foldAll t o n y) := by
    intro o
    obtain ⟨m, rfl⟩ : ∃ m, n = m + 1 := ⟨n - 1, by omega⟩
    unfold foldAll lanes
    rw [List.range_succ_eq_map, List.map_cons, List.foldl_cons, op_unit hw]; rfl
  cases o with
  | sum =>
    refine congrArg some ?_
    unfold foldAll
    have : ∀ (l : List (BitVec t.bits)) (x : BitVec t.bits), l.foldl (redOp t .sum) x = x + BitVec.ofInt _ (l.map t.val).sum := by
      intro l
      induction l with
      | nil => intro x; simp
      | cons a l ih =>
        intro x
        rw [List.foldl_cons, ih, List.map_cons, List.sum_cons, BitVec.ofInt_add, ofInt_val]
        exact BitVec.add_assoc x a _
    rw [this]; simp [redUnit]
  | band => exact hf .band
  | bor => exact hf .bor
  | bxor => exact hf .bxor
  | least => exact hf .least
  | greatest => exact hf .greatest
end ops

/-! ### the programs; `s_0` is `i`, `s_1` the result, `v_K` the accumulator -/
/-- the vector operator of a reduction -/
def redBin : Red → Bin
  | .sum => .add | .band => .band | .bor => .bor | .bxor => .bxor | .least => .vmin | .greatest => .vmax
section loops
variable (t : IntTy) (o : Red) (N n K : Nat) (src : Nat → Nat) (e : Ex t.bits .vec)
/-- the bit pattern kept in a client variable, and the client's own `s_1 = op(s_1, x)` -/
def pat (v : Int) : BitVec t.bits := BitVec.ofInt _ v
def accPut (s : Scal) (x : BitVec t.bits) : Scal := putScal s 1 (redOp t o (pat t (s 1)) x).toNat
/-- `s_1 = reduce(v_K)`, `reduce(v_K, bit_and)`, .., `reduce_max(v_K)` -/
def byReduce : Stm t.bits := .prim (.red 1 o K)
/-- `s_1 = unit; for (s_2 = 0; s_2 < N; ++s_2) s_1 = op(s_1, v_K[s_2]);` -/
def byElements : Stm t.bits :=
  .seq (.prim (.own fun s m => some (putScal (putScal s 1 (redUnit t o).toNat) 2 0, m)))
    (.loop (fun s => decide ((s 2).toNat < N)) (.seq (.prim (.get 3 K fun s => (s 2).toNat))
      (.prim (.own fun s m => some (putScal (accPut t o s (pat t (s 3))) 2 (s 2 + 1), m)))))
/-- `i = 0; v_K = unit; while (i + N <= n) { v_k.copy_from(..); v_K = op(v_K, e); i += N; }` -/
def accVec : Stm t.bits :=
  .seq (.prim (.own fun s m => some (putScal s 0 0, m))) (.seq (.prim (.set K fun _ => .bcast (redUnit t o)))
    (.loop (fun s => decide ((s 0).toNat + N ≤ n)) (.seq (loads src K)
      (.seq (.prim (.set K fun _ => .bin (redBin o) (.var K) e)) (.prim (.own fun s m => some (putScal s 0 (s 0 + N), m)))))))
/-- `while (i < n) { s_1 = op(s_1, e(array[src_0 + i], ..)); ++i; }` -/
def accTail : Stm t.bits :=
  .loop (fun s => decide ((s 0).toNat < n))
    (.prim (.own fun s m => (elem t 1 0 (fun k => m (src k + (s 0).toNat)) (fun _ => false) e : Option (BitVec t.bits)).map fun v =>
      (putScal (accPut t o s v) 0 (s 0 + 1), m)))
/-- accumulate in a vector, combine its elements by `h`, do the rest element by element -/
def accLoop (h : Stm t.bits) : Stm t.bits := .seq (accVec t o N n K src e) (.seq h (accTail t o n src e))
end loops

section spec
variable {t : IntTy} {o : Red} {N n K len : Nat} {src : Nat → Nat} {e : Ex t.bits .vec} {a y : Nat → BitVec t.bits}
/-- the value of the expression at element `j` of the arrays -/
def value (t : IntTy) (src : Nat → Nat) (e : Ex t.bits .vec) (a : Nat → BitVec t.bits) (j : Nat) : Option (BitVec t.bits) :=
  elem t 1 0 (fun k => a (src k + j)) (fun _ => false) e
/-- The vector never overflows: `B i x` holds of every value `x` an element of the accumulator may have after `i` elements. -/
structure NoOverflow (t : IntTy) (o : Red) (n : Nat) (y : Nat → BitVec t.bits) (B : Nat → BitVec t.bits → Prop) : Prop where
  start : B 0 (redUnit t o)
  mono : ∀ i j x, i ≤ j → B i x → B j x
  next : ∀ i j x, i ≤ j → j < n → B i x → Scalar1.bin t (redBin o) x (y j) = some (redOp t o x (y j)) ∧ B (j + 1) (redOp t o x (y j))

structure AccInv (t : IntTy) (o : Red) (N K : Nat) (y : Nat → BitVec t.bits) (B : Nat → BitVec t.bits → Prop) (i : Nat) (s : SState t.bits) : Prop where
  pos : s.scal 0 = i
  bound : ∀ l, l < N → B i (s.vec K l)
  all : foldAll t o N (s.vec K) = foldAll t o i y

theorem acc_body (hw : 0 < t.bits) {B : Nat → BitVec t.bits → Prop} (hB : NoOverflow t o n y B) (he : e.Map K) (hl : ∀ k, k < K → src k + n ≤ len)
    (hy : ∀ j, j < n → value t src e a j = some (y j)) {i : Nat} (hi : i + N ≤ n) (s : SState t.bits) (hm : s.mem = a) (hs : AccInv t o N K y B i s) :
    ∃ s' : SState t.bits, (sExec (intMeaning t) N len).Finishes (.seq (loads src K) (.seq (.prim (.set K fun _ => .bin (redBin o) (.var K) e))
      (.prim (.own fun s m => some (putScal s 0 (s 0 + N), m))))) s s' ∧ s'.mem = a ∧ AccInv t o N K y B (i + N) s' := by
  obtain ⟨s1, f1, e1, e2, _, e3, e4⟩ := loads_fin (M := intMeaning t) (N := N) (src := src) len i K s hs.pos (fun k hk => by have := hl k hk; omega)
  have hacc : s1.vec K = s.vec K := e4 K (Nat.le_refl K)
  obtain ⟨s2, b2, c1, c2, _, c3, _⟩ := set_ok (M := intMeaning t) (N := N) (len := len) (K := K) (s := s1)
    (val := fun l => redOp t o (s.vec K l) (y (i + l))) (e := .bin (redBin o) (.var K) e) (fun l hl => by
      have h1 : (elem t N l (s1.vec · l) (s1.msk · l) e : Option (BitVec t.bits)) = some (y (i + l)) := by
        rw [← hy (i + l) (by omega)]
        refine elem_map e he fun k hk => ?_
        rw [e3 k hk l hl, hm, Nat.add_assoc]
      show (some (s1.vec K l)).bind (fun x => Option.bind (elem t N l (s1.vec · l) (s1.msk · l) e : Option (BitVec t.bits)) fun y => Scalar1.bin t (redBin o) x y) = _
      rw [h1, hacc]
      exact (hB.next i (i + l) _ (by omega) (by omega) (hs.bound l hl)).1)
  let s3 : SState t.bits := { s2 with scal := putScal s2.scal 0 (s2.scal 0 + N) }
  have b3 : sStep (intMeaning t) N len (.own fun s m => some (putScal s 0 (s 0 + N), m)) s2 = .ok s3 := rfl
  refine ⟨s3, finishes_seq (M := sExec (intMeaning t) N len) f1 (finishes_seq (finishes_prim b2) (finishes_prim b3)), ?_, ?_, ?_, ?_⟩
  · show s2.mem = a
    rw [c2, e2, hm]
  · show s2.scal 0 + (N : Int) = ((i + N : Nat) : Int)
    rw [c1, e1, hs.pos]; simp
  · intro l hl
    show B (i + N) (s2.vec K l)
    rw [c3 l hl]
    exact hB.mono (i + l + 1) _ _ (by omega) (hB.next i (i + l) _ (by omega) (by omega) (hs.bound l hl)).2
  · show foldAll t o N (s2.vec K) = _
    rw [foldAll_congr o c3, foldAll_op hw, hs.all, foldAll_add hw]

theorem acc_vec (hw : 0 < t.bits) (hN : 0 < N) {B : Nat → BitVec t.bits → Prop} (hB : NoOverflow t o n y B) (he : e.Map K) (hl : ∀ k, k < K → src k + n ≤ len)
    (hy : ∀ j, j < n → value t src e a j = some (y j)) (d : Nat) : ∀ (i : Nat) (s : SState t.bits), n - i ≤ d → i ≤ n → s.mem = a → AccInv t o N K y B i s →
    ∃ i' s', i' ≤ n ∧ (sExec (intMeaning t) N len).Finishes (.loop (fun s => decide ((s 0).toNat + N ≤ n)) (.seq (loads src K)
      (.seq (.prim (.set K fun _ => .bin (redBin o) (.var K) e)) (.prim (.own fun s m => some (putScal s 0 (s 0 + N), m)))))) s s' ∧ s'.mem = a ∧
      AccInv t o N K y B i' s' := by
  induction d with
  | zero =>
    intro i s hdd hi hm hs
    refine ⟨i, s, hi, finishes_done (M := sExec (intMeaning t) N len) ?_, hm, hs⟩
    show decide ((s.scal 0).toNat + N ≤ n) = false
    rw [hs.pos]
    exact decide_eq_false (by simp; omega)
  | succ d ih =>
    intro i s hdd hi hm hs
    by_cases hn : i + N ≤ n
    · obtain ⟨s1, f1, m1, h1⟩ := acc_body hw hB he hl hy hn s hm hs
      obtain ⟨i', s', hi', f2, m2, h2⟩ := ih (i + N) s1 (by omega) hn m1 h1
      refine ⟨i', s', hi', finishes_again (M := sExec (intMeaning t) N len) ?_ f1 f2, m2, h2⟩
      show decide ((s.scal 0).toNat + N ≤ n) = true
      rw [hs.pos]
      exact decide_eq_true hn
    · refine ⟨i, s, hi, finishes_done (M := sExec (intMeaning t) N len) ?_, hm, hs⟩
      show decide ((s.scal 0).toNat + N ≤ n) = false
      rw [hs.pos]
      exact decide_eq_false hn

theorem acc_tail (hy : ∀ j, j < n → value t src e a j = some (y j)) (d : Nat) : ∀ (i : Nat) (s : SState t.bits), n - i = d → i ≤ n → s.mem = a →
    s.scal 0 = i → s.scal 1 = (foldAll t o i y).toNat →
    ∃ s', (sExec (intMeaning t) N len).Finishes (accTail t o n src e) s s' ∧ s'.mem = a ∧ s'.scal 1 = (foldAll t o n y).toNat := by
  induction d with
  | zero =>
    intro i s hd hi hm h0 h1
    obtain rfl : i = n := by omega
    refine ⟨s, finishes_done (M := sExec (intMeaning t) N len) ?_, hm, h1⟩
    show decide ((s.scal 0).toNat < i) = false
    rw [h0]
    exact decide_eq_false (by simp)
  | succ d ih =>
    intro i s hd hi hm h0 h1
    have hin : (s.scal 0).toNat = i := by rw [h0]; rfl
    have hp : pat t (s.scal 1) = foldAll t o i y := by
      unfold pat; rw [h1]; simp
    let s1 : SState t.bits := { s with scal := putScal (accPut t o s.scal (y i)) 0 (s.scal 0 + 1) }
    have b1 : sStep (intMeaning t) N len (.own fun s m => (elem t 1 0 (fun k => m (src k + (s 0).toNat)) (fun _ => false) e : Option (BitVec t.bits)).map fun v =>
        (putScal (accPut t o s v) 0 (s 0 + 1), m)) s = .ok s1 := by
      have := hy i (by omega)
      unfold value at this
      simp only [sStep, hin, hm]
      rw [this]
      simp only [s1, ← hm]; rfl
    obtain ⟨s', f', m', h'⟩ := ih (i + 1) s1 (by omega) (by omega) hm (by show s.scal 0 + 1 = ((i + 1 : Nat) : Int); rw [h0]; simp) (by
      show ((redOp t o (pat t (s.scal 1)) (y i)).toNat : Int) = _
      rw [hp, foldAll_succ])
    refine ⟨s', finishes_again (M := sExec (intMeaning t) N len) ?_ (finishes_prim b1) f', m', h'⟩
    show decide ((s.scal 0).toNat < n) = true
    rw [hin]
    exact decide_eq_true (by omega)

/-- combining the elements of `v_K` -/
def Combines (t : IntTy) (o : Red) (N K len : Nat) (h : Stm t.bits) : Prop :=
  ∀ s : SState t.bits, ∃ s', (sExec (intMeaning t) N len).Finishes h s s' ∧ s'.mem = s.mem ∧ s'.scal 0 = s.scal 0 ∧ s'.scal 1 = (foldAll t o N (s.vec K)).toNat
theorem byReduce_ok (hw : 0 < t.bits) (hN : 0 < N) : Combines t o N K len (byReduce t o K) := by
  intro s
  refine ⟨{ s with scal := putScal s.scal 1 (foldAll t o N (s.vec K)).toNat }, finishes_prim (M := sExec (intMeaning t) N len) ?_, rfl, rfl, rfl⟩
  show Out.ofUb ((intRed t o (lanes N (s.vec K))).map _) = _
  rw [intRed_foldAll hw o hN]; rfl
theorem byElements_loop (d : Nat) : ∀ (j : Nat) (s : SState t.bits), N - j = d → j ≤ N → s.scal 2 = j → s.scal 1 = (foldAll t o j (s.vec K)).toNat →
    ∃ s', (sExec (intMeaning t) N len).Finishes (.loop (fun s => decide ((s 2).toNat < N)) (.seq (.prim (.get 3 K fun s => (s 2).toNat))
      (.prim (.own fun s m => some (putScal (accPut t o s (pat t (s 3))) 2 (s 2 + 1), m))))) s s' ∧ s'.mem = s.mem ∧ s'.scal 0 = s.scal 0 ∧
      s'.scal 1 = (foldAll t o N (s.vec K)).toNat := by
  induction d with
  | zero =>
    intro j s hd hj h2 h1
    obtain rfl : j = N := by omega
    refine ⟨s, finishes_done (M := sExec (intMeaning t) j len) ?_, rfl, rfl, h1⟩
    show decide ((s.scal 2).toNat < j) = false
    rw [h2]
    exact decide_eq_false (by simp)
  | succ d ih =>
    intro j s hd hj h2 h1
    have hin : (s.scal 2).toNat = j := by rw [h2]; rfl
    have hp : pat t (s.scal 1) = foldAll t o j (s.vec K) := by
      unfold pat; rw [h1]; simp
    let s1 : SState t.bits := { s with scal := putScal s.scal 3 (s.vec K (s.scal 2).toNat).toNat }
    have b1 : sStep (intMeaning t) N len (.get 3 K fun s => (s 2).toNat) s = .ok s1 := by
      simp only [sStep]
      rw [if_pos (by omega)]
    let s2 : SState t.bits := { s1 with scal := putScal (accPut t o s1.scal (pat t (s1.scal 3))) 2 (s1.scal 2 + 1) }
    have b2 : sStep (intMeaning t) N len (.own fun s m => some (putScal (accPut t o s (pat t (s 3))) 2 (s 2 + 1), m)) s1 = .ok s2 := rfl
    have h3 : pat t (s1.scal 3) = s.vec K j := by
      show BitVec.ofInt _ (((s.vec K (s.scal 2).toNat).toNat : Nat) : Int) = _
      rw [hin]; simp
    obtain ⟨s', f', m', h0', h'⟩ := ih (j + 1) s2 (by omega) (by omega) (by show s.scal 2 + 1 = ((j + 1 : Nat) : Int); rw [h2]; simp) (by
      show ((redOp t o (pat t (s.scal 1)) (pat t (s1.scal 3))).toNat : Int) = _
      rw [hp, h3]
      show _ = ((foldAll t o (j + 1) (s.vec K)).toNat : Int)
      rw [foldAll_succ])
    refine ⟨s', finishes_again (M := sExec (intMeaning t) N len) ?_ (finishes_seq (finishes_prim b1) (finishes_prim b2)) f', m', h0', h'⟩
    show decide ((s.scal 2).toNat < N) = true
    rw [hin]
    exact decide_eq_true (by omega)
theorem byElements_ok : Combines t o N K len (byElements t o N K) := by
  intro s
  let s1 : SState t.bits := { s with scal := putScal (putScal s.scal 1 (redUnit t o).toNat) 2 0 }
  obtain ⟨s', f', m', h0, h1⟩ := byElements_loop (t := t) (o := o) (N := N) (K := K) (len := len) N 0 s1 (by omega) (by omega) rfl rfl
  exact ⟨s', finishes_seq (M := sExec (intMeaning t) N len) (finishes_prim rfl) f', m', h0, h1⟩

theorem accLoop_spec (hw : 0 < t.bits) (hN : 0 < N) {B : Nat → BitVec t.bits → Prop} (hB : NoOverflow t o n y B) (he : e.Map K) (hl : ∀ k, k < K → src k + n ≤ len)
    (hy : ∀ j, j < n → value t src e a j = some (y j)) {h : Stm t.bits} (hh : Combines t o N K len h) (s : SState t.bits) (hm : s.mem = a) :
    ∃ s', (sExec (intMeaning t) N len).Finishes (accLoop t o N n K src e h) s s' ∧ s'.mem = a ∧ s'.scal 1 = (foldAll t o n y).toNat := by
  let s0 : SState t.bits := { s with scal := putScal s.scal 0 0 }
  have f0 : (sExec (intMeaning t) N len).Finishes (.prim (.own fun s m => some (putScal s 0 0, m))) s s0 := finishes_prim (M := sExec (intMeaning t) N len) rfl
  obtain ⟨s1, b1, c1, c2, _, c3, _⟩ := set_ok (M := intMeaning t) (N := N) (len := len) (K := K) (s := s0) (val := fun _ => redUnit t o)
    (e := .bcast (redUnit t o)) (fun l hl => rfl)
  have hu : ∀ n, foldAll t o n (fun _ => redUnit t o) = redUnit t o := by
    intro n
    induction n with
    | zero => rfl
    | succ n ih => rw [foldAll_succ, ih, op_unit hw]
  obtain ⟨i, s2, hi, f2, m2, h2⟩ := acc_vec hw hN hB he hl hy n 0 s1 (by omega) (by omega) (by rw [c2]; exact hm)
    ⟨by rw [c1]; rfl, fun l hl => by rw [c3 l hl]; exact hB.start, by rw [foldAll_congr o c3, hu]; rfl⟩
  obtain ⟨s3, f3, m3, h30, h31⟩ := hh s2
  obtain ⟨s4, f4, m4, h4⟩ := acc_tail (N := N) (len := len) (o := o) hy _ i s3 rfl hi (m3.trans m2) (h30.trans h2.pos) (by rw [h31, h2.all])
  exact ⟨s4, finishes_seq (finishes_seq f0 (finishes_seq (finishes_prim b1) f2)) (finishes_seq f3 f4), m4, h4⟩
end spec

/-! ### no overflow -/
section overflow
variable {t : IntTy} {n : Nat} {y : Nat → BitVec t.bits}
theorem bin_total {o : Red} (ho : o ≠ .sum) (x z : BitVec t.bits) : Scalar1.bin t (redBin o) x z = some (redOp t o x z) := by
  cases o <;> first | rfl | exact absurd rfl ho
theorem add_val (x z : BitVec t.bits) : BitVec.ofInt t.bits (t.val x + t.val z) = x + z := by rw [BitVec.ofInt_add, ofInt_val, ofInt_val]
theorem add_defined {x z : BitVec t.bits} (h : t.promote.signed = true → t.promote.fits (t.val x + t.val z) = true) :
    Scalar1.bin t (redBin .sum) x z = some (redOp t .sum x z) := by
  show t.wrap (t.val x + t.val z) = some (x + z)
  rw [← add_val]
  refine if_neg fun hh => ?_
  exact hh.2 (h hh.1)
/-- A signed sum of 32 or 64 bits does not overflow in any order of summation. -/
def SumFits (t : IntTy) (n : Nat) (y : Nat → BitVec t.bits) : Prop :=
  (t.signed = false ∧ 32 ≤ t.bits) ∨ t.bits ≤ 16 ∨ ∑ j ∈ Finset.range n, |t.val (y j)| < 2 ^ (t.bits - 1)
theorem val_small {w : Nat} (x : BitVec w) (s : Bool) (hw : w ≤ 16) : -32768 ≤ IntTy.val ⟨w, s⟩ x ∧ IntTy.val ⟨w, s⟩ x ≤ 65535 := by
  have h1 : (2 : Nat) ^ w ≤ 2 ^ 16 := Nat.pow_le_pow_right (by decide) hw
  have hp : (2 : Int) ^ (w - 1) ≤ 2 ^ 15 := pow_le_pow_right₀ (by decide) (by omega)
  have := x.isLt
  have h2 := BitVec.toInt_lt (x := x)
  have h3 := BitVec.le_toInt (x := x)
  unfold IntTy.val
  cases s
  · simp; omega
  · simp only [if_true]
    norm_num at h1 hp
    omega
theorem noOverflow {o : Red} (h : o = .sum → SumFits t n y) (hb : 0 < t.bits) : ∃ B, NoOverflow t o n y B := by
  have triv : (∀ x z : BitVec t.bits, Scalar1.bin t (redBin o) x z = some (redOp t o x z)) → ∃ B, NoOverflow t o n y B := fun h =>
    ⟨fun _ _ => True, ⟨trivial, fun _ _ _ _ _ => trivial, fun _ _ _ _ _ _ => ⟨h _ _, trivial⟩⟩⟩
  by_cases ho : o = .sum
  · subst ho
    rcases h rfl with ⟨h1, h2⟩ | h1 | h1
    · refine triv fun x z => add_defined fun hs => ?_
      unfold IntTy.promote at hs
      rw [if_neg (by omega), h1] at hs
      cases hs
    · refine triv fun x z => add_defined fun _ => ?_
      have hx := val_small x t.signed h1
      have hz := val_small z t.signed h1
      have e1 : IntTy.val ⟨t.bits, t.signed⟩ x = t.val x := rfl
      have e2 : IntTy.val ⟨t.bits, t.signed⟩ z = t.val z := rfl
      rw [e1] at hx
      rw [e2] at hz
      have : t.promote = IntTy.i32 := if_pos (by omega)
      rw [this]
      refine decide_eq_true (⟨?_, ?_⟩ : -(2 ^ 31 : Int) ≤ _ ∧ _ < (2 ^ 31 : Int)) <;> omega
    · refine ⟨fun i x => |t.val x| ≤ ∑ j ∈ Finset.range i, |t.val (y j)|, ⟨?_, fun i j x hij hx => ?_, fun i j x hij hj hx => ?_⟩⟩
      · simp [redUnit, IntTy.val]
      · exact hx.trans (Finset.sum_le_sum_of_subset_of_nonneg (Finset.range_mono hij) fun _ _ _ => abs_nonneg _)
      · have hm : ∑ k ∈ Finset.range i, |t.val (y k)| ≤ ∑ k ∈ Finset.range j, |t.val (y k)| :=
          Finset.sum_le_sum_of_subset_of_nonneg (Finset.range_mono hij) fun _ _ _ => abs_nonneg _
        have hs : |t.val x + t.val (y j)| ≤ ∑ k ∈ Finset.range (j + 1), |t.val (y k)| := by
          rw [Finset.sum_range_succ]
          exact (abs_add_le _ _).trans (by omega)
        have hlt : |t.val x + t.val (y j)| < 2 ^ (t.bits - 1) := lt_of_le_of_lt (hs.trans (Finset.sum_le_sum_of_subset_of_nonneg (Finset.range_mono hj) fun _ _ _ => abs_nonneg _)) h1
        have hr := abs_lt.1 hlt
        have hnn : t.signed = false → 0 ≤ t.val x + t.val (y j) := by
          intro h; unfold IntTy.val; rw [h]; simp; omega
        refine ⟨add_defined fun hsg => ?_, ?_⟩
        · unfold IntTy.promote at hsg ⊢
          split at hsg
          · rename_i h32
            rw [if_pos h32]
            have hp : (2 : Int) ^ (t.bits - 1) ≤ 2 ^ 31 := pow_le_pow_right₀ (by decide) (by omega)
            refine decide_eq_true (⟨?_, ?_⟩ : -(2 ^ 31 : Int) ≤ _ ∧ _ < (2 ^ 31 : Int)) <;> omega
          · rename_i h32
            rw [if_neg h32]
            unfold IntTy.fits
            rw [if_pos hsg]
            exact decide_eq_true ⟨by omega, hr.2⟩
        · have hv : t.val (x + y j) = t.val x + t.val (y j) := by
            rw [← add_val]
            generalize t.val x + t.val (y j) = r at hr hnn
            have h2 : (2 : Int) ^ t.bits = 2 * 2 ^ (t.bits - 1) := by
              rw [← pow_succ', Nat.sub_add_cancel hb]
            unfold IntTy.val
            cases hsg : t.signed
            · have := hnn hsg
              simp only [Bool.false_eq_true, if_false, BitVec.toNat_ofInt]
              rw [Int.emod_eq_of_lt this (by push_cast; omega)]
              omega
            · simp only [if_true, BitVec.toInt_ofInt]
              apply Int.bmod_eq_of_le
              · push_cast; omega
              · push_cast; omega
          show |t.val (x + y j)| ≤ _
          rw [hv]; exact hs
  · exact triv fun x z => bin_total ho x z
end overflow

/-! ### what the combination is -/
section meaning
variable {t : IntTy} {n : Nat} {y : Nat → BitVec t.bits}
theorem foldAll_sum : foldAll t .sum n y = BitVec.ofInt _ (∑ j ∈ Finset.range n, t.val (y j)) := by
  induction n with
  | zero => simp [foldAll_zero, redUnit]
  | succ n ih => rw [foldAll_succ, ih, Finset.sum_range_succ, BitVec.ofInt_add, ofInt_val]; rfl
/-- The exact sum is recovered when it fits. -/
theorem foldAll_sum_exact (hb : 0 < t.bits) (h : t.fits (∑ j ∈ Finset.range n, t.val (y j)) = true) : t.val (foldAll t .sum n y) = ∑ j ∈ Finset.range n, t.val (y j) := by
  rw [foldAll_sum]
  generalize (∑ j ∈ Finset.range n, t.val (y j)) = r at h
  have h2 : (2 : Int) ^ t.bits = 2 * 2 ^ (t.bits - 1) := by rw [← pow_succ', Nat.sub_add_cancel hb]
  unfold IntTy.fits at h
  unfold IntTy.val
  cases hsg : t.signed
  · simp only [hsg, Bool.false_eq_true, if_false, decide_eq_true_eq] at h
    simp only [Bool.false_eq_true, if_false, BitVec.toNat_ofInt]
    rw [Int.emod_eq_of_lt h.1 (by push_cast; exact h.2)]
    omega
  · simp only [hsg, if_true, decide_eq_true_eq] at h
    simp only [if_true, BitVec.toInt_ofInt]
    apply Int.bmod_eq_of_le
    · push_cast; omega
    · push_cast; omega
/-- the least and the greatest of the elements -/
theorem foldAll_least (hb : 0 < t.bits) (hn : 0 < n) : (∃ j, j < n ∧ foldAll t .least n y = y j) ∧ ∀ j, j < n → t.val (foldAll t .least n y) ≤ t.val (y j) := by
  obtain ⟨m, rfl⟩ : ∃ m, n = m + 1 := ⟨n - 1, by omega⟩
  have h : foldAll t .least (m + 1) y = ((List.range m).map fun i => y (i + 1)).foldl (Scalar1.smaller t) (y 0) := by
    unfold foldAll lanes
    rw [List.range_succ_eq_map, List.map_cons, List.foldl_cons, op_unit hb, List.map_map]; rfl
  obtain ⟨h1, h2⟩ := fold_least (t := t) ((List.range m).map fun i => y (i + 1)) (y 0)
  rw [← h] at h1 h2
  refine ⟨?_, fun j hj => h2 _ ?_⟩
  · rcases List.mem_cons.1 h1 with h | h
    · exact ⟨0, by omega, h⟩
    · obtain ⟨i, hi, e⟩ := List.mem_map.1 h
      exact ⟨i + 1, by have := List.mem_range.1 hi; omega, e.symm⟩
  · cases j with
    | zero => simp
    | succ j => exact List.mem_cons_of_mem _ (List.mem_map.2 ⟨j, List.mem_range.2 (by omega), rfl⟩)
theorem foldAll_greatest (hb : 0 < t.bits) (hn : 0 < n) : (∃ j, j < n ∧ foldAll t .greatest n y = y j) ∧ ∀ j, j < n → t.val (y j) ≤ t.val (foldAll t .greatest n y) := by
  obtain ⟨m, rfl⟩ : ∃ m, n = m + 1 := ⟨n - 1, by omega⟩
  have h : foldAll t .greatest (m + 1) y = ((List.range m).map fun i => y (i + 1)).foldl (Scalar1.larger t) (y 0) := by
    unfold foldAll lanes
    rw [List.range_succ_eq_map, List.map_cons, List.foldl_cons, op_unit hb, List.map_map]; rfl
  obtain ⟨h1, h2⟩ := fold_greatest (t := t) ((List.range m).map fun i => y (i + 1)) (y 0)
  rw [← h] at h1 h2
  refine ⟨?_, fun j hj => h2 _ ?_⟩
  · rcases List.mem_cons.1 h1 with h | h
    · exact ⟨0, by omega, h⟩
    · obtain ⟨i, hi, e⟩ := List.mem_map.1 h
      exact ⟨i + 1, by have := List.mem_range.1 hi; omega, e.symm⟩
  · cases j with
    | zero => simp
    | succ j => exact List.mem_cons_of_mem _ (List.mem_map.2 ⟨j, List.mem_range.2 (by omega), rfl⟩)
end meaning

/-! ### the backends -/
section generic
variable {t : IntTy} {N n K len : Nat} {o : Red} {src : Nat → Nat} {e : Ex t.bits .vec} {a y : Nat → BitVec t.bits}
/-- C78 (generic backend), proved for expressions without `~m` and `lsr<0>` when the client combines the elements of the accumulator itself
(`reduce` is wrong there, C07): for every number of elements and vector size the loop leaves the combination of all elements. -/
theorem C78_generic_partial (hw : 0 < t.bits) (hN : 0 < N) (he : e.Map K) (hp : Plain t e) (hl : ∀ k, k < K → src k + n ≤ len)
    (hy : ∀ j, j < n → value t src e a j = some (y j)) (hf : o = .sum → SumFits t n y) (s : GState t N) (hm : s.mem = a) :
    ∃ s' : GState t N, (gExec t N len).Finishes (accLoop t o N n K src e (byElements t o N K)) s s' ∧ s'.mem = a ∧ s'.scal 1 = (foldAll t o n y).toNat := by
  obtain ⟨B, hB⟩ := noOverflow hf hw
  obtain ⟨r, f, h1, h2⟩ := accLoop_spec hw hN hB he hl hy (byElements_ok (len := len)) s.abs hm
  obtain ⟨s', f', h'⟩ := (C72_generic_partial hN len (accLoop t o N n K src e (byElements t o N K)) ⟨⟨trivial, fun _ => trivial, loads_all src K, fun _ => ⟨trivial, trivial, hp⟩, trivial⟩, ⟨trivial, trivial, trivial⟩, trivial⟩ s s.abs (grel_abs s)).1 r f
  exact ⟨s', f', h'.mem.trans h1, by rw [h'.scal]; exact h2⟩
end generic
section x86
variable (fp : FpOps) {c : Cfg} (hc : c.Ok) (hint : c.T.flt = false) {n K len : Nat} {o : Red} {src : Nat → Nat} {e : Ex c.w .vec} {a y : Nat → BitVec c.w}
include hc hint
/-- C78 (x86 backend), proved where the operators, the reduction included, exist and are not defective: the same, with `reduce`. -/
theorem C78_x86_partial (he : e.Map K) (hsup : Supported c e) (hso : Sound c e) (hop : supBin c (redBin o)) (hred : XRedOk c o) (hl : ∀ k, k < K → src k + n ≤ len)
    (hy : ∀ j, j < n → value c.T.ity src e a j = some (y j)) (hf : o = .sum → SumFits c.T.ity n y) (s : XState c) (hcan : s.env.Canon) (hm : s.mem = a) :
    ∃ s' : XState c, (xExec c fp len).Finishes (accLoop c.T.ity o c.N n K src e (byReduce c.T.ity o K)) s s' ∧ s'.mem = a ∧
      s'.scal 1 = (foldAll c.T.ity o n y).toNat := by
  have hw : 0 < c.T.ity.bits := w_pos hc.ety
  have hbad : ¬ badBin c (redBin o) := by cases o <;> exact id
  obtain ⟨B, hB⟩ := noOverflow hf hw
  obtain ⟨r, f, h1, h2⟩ := accLoop_spec hw hc.pos hB he hl hy (byReduce_ok (len := len) hw hc.pos) s.abs hm
  obtain ⟨s', f', h'⟩ := (C72_x86_partial fp hc hint len (accLoop c.T.ity o c.N n K src e (byReduce c.T.ity o K)) ⟨⟨trivial, fun _ => ⟨trivial, trivial⟩, loads_all src K, fun _ => ⟨⟨hop, trivial, hsup⟩, ⟨hbad, trivial, hso⟩⟩, trivial⟩, hred, trivial⟩ s s.abs (xrel_abs s hcan)).1 r f
  exact ⟨s', f', h'.mem.trans h1, by rw [h'.scal]; exact h2⟩
/-- the same where the client combines the elements itself: no condition on `reduce` -/
theorem C78_x86_elements_partial (he : e.Map K) (hsup : Supported c e) (hso : Sound c e) (hop : supBin c (redBin o)) (hl : ∀ k, k < K → src k + n ≤ len)
    (hy : ∀ j, j < n → value c.T.ity src e a j = some (y j)) (hf : o = .sum → SumFits c.T.ity n y) (s : XState c) (hcan : s.env.Canon) (hm : s.mem = a) :
    ∃ s' : XState c, (xExec c fp len).Finishes (accLoop c.T.ity o c.N n K src e (byElements c.T.ity o c.N K)) s s' ∧ s'.mem = a ∧
      s'.scal 1 = (foldAll c.T.ity o n y).toNat := by
  have hw : 0 < c.T.ity.bits := w_pos hc.ety
  have hbad : ¬ badBin c (redBin o) := by cases o <;> exact id
  obtain ⟨B, hB⟩ := noOverflow hf hw
  obtain ⟨r, f, h1, h2⟩ := accLoop_spec hw hc.pos hB he hl hy (byElements_ok (len := len)) s.abs hm
  obtain ⟨s', f', h'⟩ := (C72_x86_partial fp hc hint len (accLoop c.T.ity o c.N n K src e (byElements c.T.ity o c.N K)) ⟨⟨trivial, fun _ => ⟨trivial, trivial⟩, loads_all src K, fun _ => ⟨⟨hop, trivial, hsup⟩, ⟨hbad, trivial, hso⟩⟩, trivial⟩, ⟨trivial, trivial, trivial⟩, trivial⟩ s s.abs (xrel_abs s hcan)).1 r f
  exact ⟨s', f', h'.mem.trans h1, by rw [h'.scal]; exact h2⟩
/-- C78 (sums, x86 backend): the loop leaves the sum of all elements, modulo `2^w`; and the exact sum if it fits in the type. -/
theorem C78_sum_x86_partial (he : e.Map K) (hsup : Supported c e) (hso : Sound c e) (hred : redKernel c = true) (hl : ∀ k, k < K → src k + n ≤ len)
    (hy : ∀ j, j < n → value c.T.ity src e a j = some (y j)) (hf : SumFits c.T.ity n y) (s : XState c) (hcan : s.env.Canon) (hm : s.mem = a) :
    ∃ s' : XState c, (xExec c fp len).Finishes (accLoop c.T.ity .sum c.N n K src e (byReduce c.T.ity .sum K)) s s' ∧ s'.mem = a ∧
      ∃ r : BitVec c.w, s'.scal 1 = r.toNat ∧ r = BitVec.ofInt _ (∑ j ∈ Finset.range n, c.T.ity.val (y j)) ∧
        (c.T.ity.fits (∑ j ∈ Finset.range n, c.T.ity.val (y j)) = true → c.T.ity.val r = ∑ j ∈ Finset.range n, c.T.ity.val (y j)) := by
  obtain ⟨s', f', h1, h2⟩ := C78_x86_partial fp hc hint (o := .sum) he hsup hso trivial hred hl hy (fun _ => hf) s hcan hm
  exact ⟨s', f', h1, _, h2, foldAll_sum, foldAll_sum_exact (w_pos hc.ety)⟩
/-- C78 (least and greatest element, x86 backend): of a non-empty array, the loop leaves an element that no other is below (above). -/
theorem C78_minmax_x86_partial (he : e.Map K) (hsup : Supported c e) (hso : Sound c e) (hop : supMin c) (hred : redKernel c = true) (hov : redMinmaxOverload c = true)
    (hl : ∀ k, k < K → src k + n ≤ len) (hn : 0 < n)
    (hy : ∀ j, j < n → value c.T.ity src e a j = some (y j)) (s : XState c) (hcan : s.env.Canon) (hm : s.mem = a) :
    (∃ s' : XState c, (xExec c fp len).Finishes (accLoop c.T.ity .least c.N n K src e (byReduce c.T.ity .least K)) s s' ∧ s'.mem = a ∧
      ∃ r : BitVec c.w, s'.scal 1 = r.toNat ∧ (∃ j, j < n ∧ r = y j) ∧ ∀ j, j < n → c.T.ity.val r ≤ c.T.ity.val (y j)) ∧
    (∃ s' : XState c, (xExec c fp len).Finishes (accLoop c.T.ity .greatest c.N n K src e (byReduce c.T.ity .greatest K)) s s' ∧ s'.mem = a ∧
      ∃ r : BitVec c.w, s'.scal 1 = r.toNat ∧ (∃ j, j < n ∧ r = y j) ∧ ∀ j, j < n → c.T.ity.val (y j) ≤ c.T.ity.val r) := by
  have hw : 0 < c.T.ity.bits := w_pos hc.ety
  constructor
  · obtain ⟨s', f', h1, h2⟩ := C78_x86_partial fp hc hint (o := .least) he hsup hso hop ⟨hred, hov⟩ hl hy (fun h => by cases h) s hcan hm
    exact ⟨s', f', h1, _, h2, foldAll_least hw hn⟩
  · obtain ⟨s', f', h1, h2⟩ := C78_x86_partial fp hc hint (o := .greatest) he hsup hso hop ⟨hred, hov⟩ hl hy (fun h => by cases h) s hcan hm
    exact ⟨s', f', h1, _, h2, foldAll_greatest hw hn⟩
end x86

/-- C78 violated (generic backend with `reduce`, C07): the sum of the array `0, 1, 0, 0` in vectors of four `unsigned` is `0`. -/
theorem C78_generic_violated :
    ∃ s' : GState IntTy.u32 4, (gExec IntTy.u32 4 4).Finishes (accLoop IntTy.u32 .sum 4 4 1 (fun _ => 0) (.var 0) (byReduce IntTy.u32 .sum 1))
      ⟨⟨fun _ => ⟨fun _ => 0⟩, fun _ => ⟨fun _ => false⟩, fun _ => 0, fun _ => false⟩, fun _ => 0, fun p => if p = 1 then 1 else 0⟩ s' ∧ s'.scal 1 = 0 := by
  have h : (((gExec IntTy.u32 4 4).run 20 (accLoop IntTy.u32 .sum 4 4 1 (fun _ => 0) (.var 0) (byReduce IntTy.u32 .sum 1))
    ⟨⟨fun _ => ⟨fun _ => 0⟩, fun _ => ⟨fun _ => false⟩, fun _ => 0, fun _ => false⟩, fun _ => 0, fun p => if p = 1 then 1 else 0⟩).map fun o => match o with
      | .ok s => GStateW.scal s 1
      | _ => 99) = some 0 := by decide +kernel
  obtain ⟨r, hr, h⟩ := Option.map_eq_some_iff.1 h
  cases r with
  | ok s => exact ⟨s, ⟨20, hr⟩, h⟩
  | ub => cases h
  | illFormed => cases h

/-! ### concrete cases -/
/-- dot product `x[i] * y[i]` of two arrays of 20 `int`s: `sum i * 3` -/
def exDot : Ex exI32.w .vec := .bin .mul (.var 0) (.var 1)
theorem exDot_ok : exDot.Map 2 ∧ Supported exI32 exDot ∧ Sound exI32 exDot := by
  refine ⟨⟨show 0 < 2 by decide, show 1 < 2 by decide⟩, ?_⟩
  simp [Supported, Sound, Ex.All, exDot, supBin, badBin]
  try decide
theorem exMin_ok : supMin exI32 := by unfold supMin; decide
def exMem3 : Nat → BitVec 32 := fun p => if p < 20 then BitVec.ofNat 32 p else 3
theorem exDot_def : ∀ j, j < 20 → value exI32.T.ity (fun k => 20 * k) exDot exMem3 j = some (BitVec.ofNat 32 (3 * j)) := by
  have h : ∀ j, j < 20 → (value exI32.T.ity (fun k => 20 * k) exDot exMem3 j).map BitVec.toNat = some (3 * j) := by decide +kernel
  intro j hj
  obtain ⟨r, hr, e⟩ := Option.map_eq_some_iff.1 (h j hj)
  rw [hr, ← e]
  exact congrArg some (BitVec.ofNat_toNat 32 r ▸ (BitVec.setWidth_eq r).symm)
/-- vectors of six: three chunks, then two elements -/
example (fp : FpOps) (ρ : XEnv exI32) (hρ : ρ.Canon) :
    (∃ s' : XState exI32, (xExec exI32 fp 40).Finishes (accLoop exI32.T.ity .sum 6 20 2 (fun k => 20 * k) exDot (byReduce exI32.T.ity .sum 2)) ⟨ρ, fun _ => 0, exMem3⟩ s' ∧ s'.scal 1 = 570) ∧
    ∃ s' : XState exI32, (xExec exI32 fp 40).Finishes (accLoop exI32.T.ity .bxor 6 20 2 (fun k => 20 * k) exDot (byReduce exI32.T.ity .bxor 2)) ⟨ρ, fun _ => 0, exMem3⟩ s' ∧ s'.scal 1 = 60 := by
  have hl : ∀ k, k < 2 → 20 * k + 20 ≤ 40 := fun k hk => by omega
  constructor
  · obtain ⟨s', g, _, h⟩ := C78_x86_partial fp exI32_ok rfl (o := .sum) (len := 40) exDot_ok.1 exDot_ok.2.1 exDot_ok.2.2 trivial (show redKernel exI32 = true by decide) hl exDot_def
      (fun _ => Or.inr (Or.inr (by decide +kernel))) ⟨ρ, fun _ => 0, exMem3⟩ hρ rfl
    exact ⟨s', g, h.trans (by decide +kernel)⟩
  · obtain ⟨s', g, _, h⟩ := C78_x86_partial fp exI32_ok rfl (o := .bxor) (len := 40) exDot_ok.1 exDot_ok.2.1 exDot_ok.2.2 trivial (show redKernel exI32 = true by decide) hl exDot_def
      (fun h => by cases h) ⟨ρ, fun _ => 0, exMem3⟩ hρ rfl
    exact ⟨s', g, h.trans (by decide +kernel)⟩
/-- the generic backend, `int` (a signed sum), any vector size -/
example (N : Nat) (hN : 0 < N) (σ : GEnv 32 N) :
    ∃ s' : GState IntTy.i32 N, (gExec IntTy.i32 N 10).Finishes (accLoop IntTy.i32 .sum N 10 1 (fun _ => 0) (.un .neg (.var 0)) (byElements IntTy.i32 .sum N 1))
      ⟨σ, fun _ => 0, fun p => BitVec.ofNat 32 p⟩ s' ∧ s'.scal 1 = 4294967251 := by
  obtain ⟨s', g, _, h⟩ := C78_generic_partial (t := IntTy.i32) (o := .sum) (K := 1) (n := 10) (len := 10) (src := fun _ => 0) (e := .un .neg (.var 0)) (a := fun p => BitVec.ofNat 32 p)
    (y := fun j => BitVec.ofInt 32 (-j)) (by decide) hN (show 0 < 1 by decide) ⟨trivial, trivial⟩ (fun k hk => by omega) (by decide +kernel)
    (fun _ => Or.inr (Or.inr (by decide +kernel))) ⟨σ, fun _ => 0, fun p => BitVec.ofNat 32 p⟩ rfl
  exact ⟨s', g, h.trans (by decide +kernel)⟩
example (fp : FpOps) (ρ : XEnv exI32) (hρ : ρ.Canon) (n : Nat) (hn : 0 < n) (a : Nat → BitVec 32) :
    ∃ s' : XState exI32, (xExec exI32 fp n).Finishes (accLoop exI32.T.ity .greatest 6 n 1 (fun _ => 0) (.var 0) (byReduce exI32.T.ity .greatest 1)) ⟨ρ, fun _ => 0, a⟩ s' ∧
      ∃ r : BitVec 32, s'.scal 1 = r.toNat ∧ (∃ j, j < n ∧ r = a j) ∧ ∀ j, j < n → (a j).toInt ≤ r.toInt := by
  obtain ⟨s', g, _, h⟩ := (C78_minmax_x86_partial fp exI32_ok rfl (e := .var 0) (K := 1) (src := fun _ => 0) (n := n) (len := n) (y := a) (a := a) (show 0 < 1 by decide) trivial trivial
    exMin_ok (by decide) (by decide) (fun k hk => by omega) hn (fun j hj => congrArg some (congrArg a (Nat.zero_add j))) ⟨ρ, fun _ => 0, a⟩ hρ rfl).2
  exact ⟨s', g, h⟩
end Dpm.X86
