import Verif.Model.Flags
import Verif.Props.X86Float
import Verif.Props.X86FloatExpr
import Verif.Spec.Flags
/-
C82: floating-point exceptions of operators, comparisons, classification and rounding to integers.
-/
namespace Dpm.X86
open Dpm.Reg Dpm.Util Dpm.Generic Dpm.Fp Dpm.Spec Dpm.GenericMath

/-- the exception is signalled by some operation that was executed -/
def Raised (F : FlagSem) {w : Nat} (t : List (Ev w)) (e : Exc) : Prop := ∃ ev ∈ t, F w ev.1 ev.2.1 ev.2.2 e

/-! ### an arithmetic unit that conforms to IEEE 754 -/
open Classical in
/-- a unit that signals what IEEE 754 demands and nothing else -/
def strict : FlagSem := fun w o x y e => match e with
  | .invalid => signalsInvalid o x y = true
  | .divByZero => signalsDivByZero o x y = true
  | .inexact => match o with
    | .add => isFinite x = true ∧ isFinite y = true ∧ ∀ z : BitVec w, isFinite z = true → val z ≠ val x + val y
    | .sub => isFinite x = true ∧ isFinite y = true ∧ ∀ z : BitVec w, isFinite z = true → val z ≠ val x - val y
    | .rndX => isFinite x = true ∧ ¬ (2 : Int) ^ unitExp w ∣ val x
    | .sqrt => isFinite x = true ∧ (neg x = false ∨ isZero x = true) ∧ ∀ z : BitVec w, isFinite z = true → val z * val z ≠ val x * 2 ^ unitExp w
    | _ => False
  | _ => False
theorem zeroClass {w : Nat} {x : BitVec w} (h : isZero x = true) : isNaN x = false ∧ isInf x = false ∧ isSNaN x = false := by
  have h1 : manF x = 0 := by unfold isZero at h; simp at h; exact h.2
  have h2 : expF x = 0 := by unfold isZero at h; simp at h; exact h.1
  have h3 : emax w ≠ 0 := by unfold emax; split <;> decide
  have h4 : isNaN x = false := by unfold isNaN; simp [h1]
  refine ⟨h4, ?_, ?_⟩
  · unfold isInf; simp [h2]; intro h; exact absurd h.symm h3
  · unfold isSNaN; rw [h4]; rfl
theorem zeroFinite {w : Nat} {x : BitVec w} (h : isZero x = true) : isFinite x = true := by
  have h2 : expF x = 0 := by unfold isZero at h; simp at h; exact h.1
  have h3 : emax w ≠ 0 := by unfold emax; split <;> decide
  unfold isFinite; simp [h2]; exact fun h => h3 h.symm
theorem zero_val0 {w : Nat} {x : BitVec w} (h : isZero x = true) : val x = 0 := by
  have h1 : manF x = 0 := by unfold isZero at h; simp at h; exact h.2
  have h2 : expF x = 0 := by unfold isZero at h; simp at h; exact h.1
  unfold manF at h1; unfold expF at h2
  unfold val magVal; rw [if_pos h2, h1]; simp
theorem strict_conforms : Conforms strict where
  invalid := fun _ _ _ _ => Iff.rfl
  divByZero := fun _ _ _ _ => Iff.rfl
  addInexact := fun _ _ _ hx hy => ⟨fun h => h.2.2, fun h => ⟨hx, hy, h⟩⟩
  subInexact := fun _ _ _ hx hy => ⟨fun h => h.2.2, fun h => ⟨hx, hy, h⟩⟩
  rndX := fun _ _ _ => Iff.rfl
  rndN := fun _ _ _ h => h
  zeroExact := by
    intro w o x y e ho hx hy h
    have zx := zeroClass hx; have zy := zeroClass hy
    rcases ho with rfl | rfl | rfl <;> cases e <;>
      simp only [strict, signalsInvalid, signalsDivByZero, zx.2.1, zx.2.2, zy.2.1, zy.2.2, Bool.and_false, Bool.false_and, Bool.or_false, Bool.false_eq_true] at h
    · exact h.2.2 x (zeroFinite hx) (by rw [zero_val0 hx, zero_val0 hy]; rfl)
    · exact h.2.2 x (zeroFinite hx) (by rw [zero_val0 hx, zero_val0 hy]; rfl)
  compare := by
    intro w o x y e ho h
    rcases ho with rfl | rfl <;> cases e <;> simp [strict, signalsDivByZero] at h ⊢
  minmax := by
    intro w x y e h
    cases e <;> simp [strict, signalsDivByZero] at h ⊢
  sqrtInexact := fun _ _ _ hx hn => ⟨fun h => h.2.2, fun h => ⟨hx, hn, h⟩⟩
  sqrtOnly := by
    intro w x y e h
    cases e <;> simp [strict, signalsDivByZero] at h ⊢
  sqrtSpecial := by
    rintro w x y (hx | ⟨hn, hz⟩) h
    · exact absurd (hx.symm.trans h.1) (by decide)
    · rcases h.2.1 with h | h
      · exact absurd (hn.symm.trans h) (by decide)
      · exact absurd (hz.symm.trans h) (by decide)
  sqrtUnary := by
    intro w x y y' e h
    cases e <;> exact h

/-! ### the traces -/
theorem traced_fst (c : Cfg) (k : Vec c.v → Vec c.v → Vec c.v × List (Ev c.w)) (a b : c.Data) :
    (traced c k a b).1 = vectorize2 c (fun _ x y => (k x y).1) (zeroData c) a b := by
  unfold traced vectorize2
  have : ∀ n, (forRange n (fun j (s : c.Data × List (Ev c.w)) => let r := k (a j) (b j); (s.1.set j r.1, s.2 ++ r.2)) (zeroData c, [])).1 =
      forRange n (fun i (r : c.Data) => r.set i (k (a i) (b i)).1) (zeroData c) := by
    intro n
    induction n with
    | zero => rfl
    | succ n ih => simp only [forRange] at ih ⊢; rw [ih]
  exact this _
theorem traced_snd (c : Cfg) (k : Vec c.v → Vec c.v → Vec c.v × List (Ev c.w)) (a b : c.Data) (ev : Ev c.w) :
    ev ∈ (traced c k a b).2 ↔ ∃ j, j < c.dataSize ∧ ev ∈ (k (a j) (b j)).2 := by
  unfold traced
  have : ∀ n, ev ∈ (forRange n (fun j (s : c.Data × List (Ev c.w)) => let r := k (a j) (b j); (s.1.set j r.1, s.2 ++ r.2)) (zeroData c, [])).2 ↔
      ∃ j, j < n ∧ ev ∈ (k (a j) (b j)).2 := by
    intro n
    induction n with
    | zero => exact ⟨fun h => (List.not_mem_nil h).elim, fun ⟨j, h, _⟩ => absurd h (Nat.not_lt_zero _)⟩
    | succ n ih =>
      simp only [forRange] at ih ⊢
      rw [List.mem_append, ih]
      constructor
      · rintro (⟨j, h, h'⟩ | h)
        · exact ⟨j, by omega, h'⟩
        · exact ⟨n, by omega, h⟩
      · rintro ⟨j, h, h'⟩
        rcases Nat.lt_succ_iff_lt_or_eq.1 h with h | h
        · exact .inl ⟨j, h, h'⟩
        · subst h; exact .inr h'
  exact this _
theorem mem_lanesEv (c : Cfg) (o : FOpc) (x y : Vec c.v) (ev : Ev c.w) :
    ev ∈ lanesEv c o x y ↔ ∃ k, k < c.e ∧ ev = (o, lane c.w x k, lane c.w y k) := by
  unfold lanesEv
  simp only [List.mem_map, List.mem_range]
  exact ⟨fun ⟨k, h, h'⟩ => ⟨k, h, h'.symm⟩, fun ⟨k, h, h'⟩ => ⟨k, h, h'.symm⟩⟩

section raised
variable {c : Cfg} (hc : c.Ok) (F : FlagSem)
include hc
/-- every lane of the storage of a vector is a position `p < dataSize * e` -/
theorem lanes_iff (P : BitVec c.w → BitVec c.w → Prop) (a b : c.Data) :
    (∃ j, j < c.dataSize ∧ ∃ k, k < c.e ∧ P (lane c.w (a j) k) (lane c.w (b j) k)) ↔
    ∃ p, p < c.dataSize * c.e ∧ P (elt c a p) (elt c b p) := by
  constructor
  · rintro ⟨j, hj, k, hk, h⟩
    refine ⟨j * c.e + k, ?_, ?_⟩
    · have : (j + 1) * c.e ≤ c.dataSize * c.e := Nat.mul_le_mul_right _ hj
      rw [Nat.succ_mul] at this; omega
    · rw [elt_block' hc _ hk, elt_block' hc _ hk]; exact h
  · rintro ⟨p, hp, h⟩
    have he : 0 < c.e := extent_pos hc.ety c.v
    exact ⟨p / c.e, (Nat.div_lt_iff_lt_mul he).2 hp, p % c.e, Nat.mod_lt _ he, h⟩
theorem raised_one {k : Vec c.v → Vec c.v → Vec c.v × List (Ev c.w)} {f : BitVec c.w → BitVec c.w → BitVec c.w × BitVec c.w} {o : FOpc}
    {g : Vec c.v → Vec c.v → Vec c.v × Vec c.v} (hk : ∀ x y, (k x y).2 = lanesEv c o (g x y).1 (g x y).2)
    (hg : ∀ x y i, i < c.e → lane c.w (g x y).1 i = (f (lane c.w x i) (lane c.w y i)).1 ∧ lane c.w (g x y).2 i = (f (lane c.w x i) (lane c.w y i)).2)
    (a b : c.Data) (e : Exc) :
    Raised F (traced c k a b).2 e ↔ ∃ p, p < c.dataSize * c.e ∧ F c.w o (f (elt c a p) (elt c b p)).1 (f (elt c a p) (elt c b p)).2 e := by
  rw [← lanes_iff hc (fun x y => F c.w o (f x y).1 (f x y).2 e)]
  unfold Raised
  constructor
  · rintro ⟨ev, hev, h⟩
    obtain ⟨j, hj, hev⟩ := (traced_snd c k a b ev).1 hev
    rw [hk] at hev
    obtain ⟨i, hi, rfl⟩ := (mem_lanesEv c o _ _ ev).1 hev
    obtain ⟨h1, h2⟩ := hg (a j) (b j) i hi
    refine ⟨j, hj, i, hi, ?_⟩
    rw [← h1, ← h2]; exact h
  · rintro ⟨j, hj, i, hi, h⟩
    obtain ⟨h1, h2⟩ := hg (a j) (b j) i hi
    refine ⟨(o, lane c.w (g (a j) (b j)).1 i, lane c.w (g (a j) (b j)).2 i), ?_, ?_⟩
    · rw [traced_snd]; refine ⟨j, hj, ?_⟩; rw [hk]; exact (mem_lanesEv c o _ _ _).2 ⟨i, hi, rfl⟩
    · show F c.w o _ _ e; rw [h1, h2]; exact h
omit hc in
/-- two instructions in one kernel -/
theorem raised_two {k : Vec c.v → Vec c.v → Vec c.v × List (Ev c.w)} (k1 k2 : Vec c.v → Vec c.v → Vec c.v × List (Ev c.w))
    (hk : ∀ x y, (k x y).2 = (k1 x y).2 ++ (k2 x y).2) (a b : c.Data) (e : Exc) :
    Raised F (traced c k a b).2 e ↔ Raised F (traced c k1 a b).2 e ∨ Raised F (traced c k2 a b).2 e := by
  unfold Raised
  constructor
  · rintro ⟨ev, hev, h⟩
    obtain ⟨j, hj, hev⟩ := (traced_snd c k a b ev).1 hev
    rw [hk, List.mem_append] at hev
    rcases hev with hev | hev
    · exact .inl ⟨ev, (traced_snd c k1 a b ev).2 ⟨j, hj, hev⟩, h⟩
    · exact .inr ⟨ev, (traced_snd c k2 a b ev).2 ⟨j, hj, hev⟩, h⟩
  · rintro (⟨ev, hev, h⟩ | ⟨ev, hev, h⟩)
    · obtain ⟨j, hj, hev⟩ := (traced_snd c k1 a b ev).1 hev
      exact ⟨ev, (traced_snd c k a b ev).2 ⟨j, hj, by rw [hk, List.mem_append]; exact .inl hev⟩, h⟩
    · obtain ⟨j, hj, hev⟩ := (traced_snd c k2 a b ev).1 hev
      exact ⟨ev, (traced_snd c k a b ev).2 ⟨j, hj, by rw [hk, List.mem_append]; exact .inr hev⟩, h⟩
theorem raised_arith (fp : FpOps) (o : Arith) (a b : c.Data) (e : Exc) :
    Raised F (tArith fp c o a b).2 e ↔ ∃ p, p < c.dataSize * c.e ∧ F c.w o.opc (elt c a p) (elt c b p) e :=
  raised_one hc F (f := fun x y => (x, y)) (g := fun x y => (x, y)) (fun x y => by cases o <;> rfl) (fun _ _ _ _ => ⟨rfl, rfl⟩) a b e
theorem elt_fillData (s : BitVec c.w) (p : Nat) : elt c (fillData c s) p = s := by
  have he : 0 < c.e := extent_pos hc.ety c.v
  exact fillV_lane hc.ety s (Nat.mod_lt _ he)
theorem raised_arithS (fp : FpOps) (o : Arith) (a : c.Data) (s : BitVec c.w) (e : Exc) :
    Raised F (tArithS fp c o a s).2 e ↔ ∃ p, p < c.dataSize * c.e ∧ F c.w o.opc (elt c a p) s e := by
  have := raised_arith hc F fp o a (fillData c s) e
  simp only [elt_fillData hc] at this
  exact this
/-- the operands of the comparison instruction, in its order -/
def relArgs {w : Nat} : RelOp → BitVec w → BitVec w → BitVec w × BitVec w
  | .gt, x, y | .ge, x, y => (y, x)
  | .eq, x, y | .ne, x, y | .lt, x, y | .le, x, y => (x, y)
theorem raised_rel (r : RelOp) (a b : c.Data) (e : Exc) :
    Raised F (tRel c r a b).2 e ↔ ∃ p, p < c.dataSize * c.e ∧ F c.w (cmpOpc c.v r) (relArgs r (elt c a p) (elt c b p)).1 (relArgs r (elt c a p) (elt c b p)).2 e := by
  refine raised_one hc F (f := relArgs r) (g := relArgs r) (fun x y => by cases r <;> rfl) (fun x y i hi => ?_) a b e
  cases r <;> exact ⟨rfl, rfl⟩
end raised

/-! ### results -/
/-- C82: the traced calls compute what the calls modelled elsewhere compute. -/
theorem C82_results (fp : FpOps) {c : Cfg} (hf : c.T.flt = true) (a b : c.Data) (s : BitVec c.w) :
    (.ok (tArith fp c .add a b).1 = opAdd fp c a b ∧ .ok (tArith fp c .sub a b).1 = opSub fp c a b ∧
     .ok (tArith fp c .mul a b).1 = opMul fp c a b ∧ .ok (tArith fp c .div a b).1 = opDiv fp c a b) ∧
    (.ok (tArithS fp c .add a s).1 = opAddS fp c a s ∧ .ok (tArithS fp c .sub a s).1 = opSubS fp c a s ∧
     .ok (tArithS fp c .mul a s).1 = opMulS fp c a s ∧ .ok (tArithS fp c .div a s).1 = opDivS fp c a s) ∧
    (.ok (tRel c .eq a b).1 = opEq c a b ∧ .ok (tRel c .ne a b).1 = opNe c a b ∧ .ok (tRel c .lt a b).1 = opLt c a b ∧
     .ok (tRel c .gt a b).1 = opGt c a b ∧ .ok (tRel c .le a b).1 = opLe c a b ∧ .ok (tRel c .ge a b).1 = opGe c a b) ∧
    (.ok (tQRel c .greater a b).1 = vIsgreater c a b ∧ .ok (tQRel c .greaterequal a b).1 = vIsgreaterequal c a b ∧
     .ok (tQRel c .less a b).1 = vIsless c a b ∧ .ok (tQRel c .lessequal a b).1 = vIslessequal c a b ∧
     .ok (tQRel c .lessgreater a b).1 = vIslessgreater c a b ∧ .ok (tQRel c .unordered a b).1 = vIsunordered c a b) ∧
    (.ok (tClass c .nan a).1 = vIsnan c a ∧ .ok (tClass c .inf a).1 = vIsinf c a ∧ .ok (tClass c .finite a).1 = vIsfinite c a ∧
     .ok (tClass c .normal a).1 = vIsnormal c a) ∧
    .ok (tRint c a).1 = vRint c a ∧ ∀ (F : FlagSem) (st : Flags), .ok (tNearbyint c F a st).1 = vNearbyint c a := by
  have hmul : ∀ x y : Vec c.v, mulV fp c.s c.T c.v x y = some (map2 c.T.w (fp.mul c.T.w) x y) := fun x y => if_pos hf
  refine ⟨⟨?_, ?_, ?_, ?_⟩, ⟨?_, ?_, ?_, ?_⟩, ⟨?_, ?_, ?_, ?_, ?_, ?_⟩, ⟨?_, ?_, ?_, ?_, ?_, ?_⟩, ⟨?_, ?_, ?_, ?_⟩, ?_, fun F st => ?_⟩
  · unfold tArith; rw [traced_fst]; rfl
  · unfold tArith; rw [traced_fst]; rfl
  · unfold tArith opMul vec2; rw [traced_fst, if_pos (.inl hf)]; exact (if_pos (by show (mulV fp c.s c.T c.v 0 0).isSome = true; rw [hmul]; rfl)).symm
  · unfold tArith opDiv vec2; rw [traced_fst, if_pos hf]; exact (if_pos rfl).symm
  · unfold tArithS; rw [traced_fst]; rfl
  · unfold tArithS; rw [traced_fst]; rfl
  · unfold tArithS opMulS vec1; rw [traced_fst, if_pos (.inl hf)]; exact (if_pos (by show (mulV fp c.s c.T c.v 0 _).isSome = true; rw [hmul]; rfl)).symm
  · unfold tArithS opDivS vec1; rw [traced_fst, if_pos hf]; exact (if_pos rfl).symm
  · unfold tRel; rw [traced_fst]; rfl
  · unfold tRel; rw [traced_fst]; rfl
  · unfold tRel opLt; rw [traced_fst, if_pos hf]; rfl
  · unfold tRel opGt; rw [traced_fst, if_pos (.inl hf)]
    have : ∀ x y, cmpGtV c.s c.T c.v x y = cmpF (fun x y => fLt y x) c.T c.v x y := fun x y => if_pos hf
    simp only [this]; rfl
  · unfold tRel opLe; rw [traced_fst, if_pos hf]; rfl
  · unfold tRel opGe; rw [traced_fst, if_pos hf]; rfl
  all_goals try (unfold tQRel; rw [traced_fst]; rfl)
  all_goals try (unfold tClass; rw [traced_fst]; rfl)
  · unfold tRint; rw [traced_fst]; rfl
  · unfold tNearbyint vNearbyint vectorize1
    have hk : ∀ (x : Vec c.v) st, (kNearbyint c F x st).1 = rintV c.s c.T c.v x := by
      intro x st; unfold kNearbyint; split <;> rfl
    have : ∀ n, (forRange n (fun j (st : c.Data × Flags) => let r := kNearbyint c F (a j) st.2; (st.1.set j r.1, r.2)) (zeroData c, st)).1 =
        forRange n (fun i (r : c.Data) => r.set i (rintV c.s c.T c.v (a i))) (zeroData c) := by
      intro n
      induction n with
      | zero => rfl
      | succ n ih => simp only [forRange] at ih ⊢; rw [ih, hk]
    rw [this]

/-! ### operators -/
section main
variable {c : Cfg} (hc : c.Ok) {F : FlagSem}
include hc
/-- C82: no exception is lost: whatever the operator signals for an element, the call signals. -/
theorem C82_kept (fp : FpOps) (o : Arith) (a b : c.Data) (s : BitVec c.w) (e : Exc) (i : Nat) (hi : i < c.N) :
    (F c.w o.opc (elt c a i) (elt c b i) e → Raised F (tArith fp c o a b).2 e) ∧
    (F c.w o.opc (elt c a i) s e → Raised F (tArithS fp c o a s).2 e) := by
  have hp : i < c.dataSize * c.e := Nat.lt_of_lt_of_le hi (cap_ge hc)
  exact ⟨fun h => (raised_arith hc F fp o a b e).2 ⟨i, hp, h⟩, fun h => (raised_arithS hc F fp o a s e).2 ⟨i, hp, h⟩⟩
theorem full_iff (hN : c.N % c.e = 0) (P : Nat → Prop) : (∃ p, p < c.dataSize * c.e ∧ P p) ↔ ∃ i, i < c.N ∧ P i := by
  have h1 := (cap_eq_iff hc).2 hN
  have h2 := cap_ge hc
  have : c.dataSize * c.e = c.N := Nat.le_antisymm h1 h2
  rw [this]
/-- C82, proved for vectors without padding: an operator signals an exception exactly if it does for some element. -/
theorem C82_arith_partial (fp : FpOps) (hN : c.N % c.e = 0) (o : Arith) (a b : c.Data) (s : BitVec c.w) (e : Exc) :
    (Raised F (tArith fp c o a b).2 e ↔ ∃ i, i < c.N ∧ F c.w o.opc (elt c a i) (elt c b i) e) ∧
    (Raised F (tArithS fp c o a s).2 e ↔ ∃ i, i < c.N ∧ F c.w o.opc (elt c a i) s e) := by
  rw [raised_arith hc, raised_arithS hc]
  exact ⟨full_iff hc hN _, full_iff hc hN _⟩
/-- the padding of a vector built by a generator is zero -/
theorem pad_vgenerate (gen : Nat → BitVec c.w) (junk : c.Data) {p : Nat} (hp : p < c.dataSize * c.e) (hN : c.N ≤ p) :
    elt c (vgenerate c gen junk) p = 0#c.w := by
  have he : 0 < c.e := extent_pos hc.ety c.v
  have hj : p / c.e < c.dataSize := (Nat.div_lt_iff_lt_mul he).2 hp
  unfold vgenerate elt
  rw [forStride_eq (extent_pos hc.ety c.v), forRange_store, ← dataSize_eq]
  simp only [hj, if_true]
  rw [lane_ofLanes _ (lane_bound hc.ety (idx_mod hc p))]
  have hdm : p / c.e * c.e + p % c.e = p := div_mod_eq p c.e
  have := forRange_store_if c.e (fun k => decide (p / c.e * c.e + k < c.N)) (fun k => gen (p / c.e * c.e + k)) (fun _ => 0#c.w)
  simp only [decide_eq_true_eq] at this
  rw [this]
  simp only [idx_mod hc p, hdm, true_and]
  rw [if_neg (by omega)]
theorem has_pad (hN : c.N % c.e ≠ 0) : c.N < c.dataSize * c.e := by
  have h1 := mt (cap_eq_iff hc).1 hN
  omega
omit hc in
theorem zero_isZero (w : Nat) : isZero (0#w) = true := by
  unfold isZero expF manF mag; simp
/-- C82 violated: dividing two vectors built by generators signals invalid whenever the vector has padding - whatever the elements are. -/
theorem C82_padding_violated (hF : Conforms F) (fp : FpOps) (hN : c.N % c.e ≠ 0) (g h : Nat → BitVec c.w) (j j' : c.Data) :
    Raised F (tArith fp c .div (vgenerate c g j) (vgenerate c h j')).2 .invalid := by
  have hp := has_pad hc hN
  rw [raised_arith hc]
  refine ⟨c.N, hp, ?_⟩
  rw [pad_vgenerate hc g j hp (Nat.le_refl _), pad_vgenerate hc h j' hp (Nat.le_refl _)]
  refine (hF.invalid _ _ _ _).2 ?_
  simp [Arith.opc, signalsInvalid, zero_isZero]
/-- C82: sums, differences and products of vectors built by generators signal an exception exactly if they do for some element, for every size. -/
theorem C82_generated (hF : Conforms F) (fp : FpOps) (o : Arith) (ho : o ≠ .div) (g h : Nat → BitVec c.w) (j j' : c.Data) (e : Exc) :
    Raised F (tArith fp c o (vgenerate c g j) (vgenerate c h j')).2 e ↔ ∃ i, i < c.N ∧ F c.w o.opc (g i) (h i) e := by
  rw [raised_arith hc]
  constructor
  · rintro ⟨p, hp, hr⟩
    by_cases hi : p < c.N
    · rw [elt_vgenerate hc g j hi, elt_vgenerate hc h j' hi] at hr; exact ⟨p, hi, hr⟩
    · rw [pad_vgenerate hc g j hp (by omega), pad_vgenerate hc h j' hp (by omega)] at hr
      refine absurd hr (hF.zeroExact _ _ _ _ _ ?_ (zero_isZero _) (zero_isZero _))
      cases o <;> simp [Arith.opc] at ho ⊢
  · rintro ⟨i, hi, hr⟩
    refine ⟨i, Nat.lt_of_lt_of_le hi (cap_ge hc), ?_⟩
    rw [elt_vgenerate hc g j hi, elt_vgenerate hc h j' hi]; exact hr

/-! ### comparisons -/
omit hc in
theorem cmp_sym (hF : Conforms F) {w : Nat} (o : FOpc) (ho : o = .cmpS ∨ o = .cmpQ) (x y : BitVec w) (e : Exc) : F w o x y e ↔ F w o y x e := by
  have key : ∀ x y : BitVec w, F w o x y e → F w o y x e := by
    intro x y h
    have he := hF.compare w o x y e ho h
    subst he
    refine (hF.invalid _ _ _ _).2 ?_
    have := (hF.invalid _ _ _ _).1 h
    rcases ho with rfl | rfl <;> simp only [signalsInvalid, Bool.or_eq_true] at this ⊢ <;> exact this.symm
  exact ⟨key x y, key y x⟩
omit hc in
theorem cmpOpc_cmp (v : VSz) (r : RelOp) : cmpOpc v r = .cmpS ∨ cmpOpc v r = .cmpQ := by cases v <;> cases r <;> decide
theorem raised_rel' (hF : Conforms F) (r : RelOp) (a b : c.Data) (e : Exc) :
    Raised F (tRel c r a b).2 e ↔ ∃ p, p < c.dataSize * c.e ∧ F c.w (cmpOpc c.v r) (elt c a p) (elt c b p) e := by
  rw [raised_rel hc]
  have : ∀ x y : BitVec c.w, F c.w (cmpOpc c.v r) (relArgs r x y).1 (relArgs r x y).2 e ↔ F c.w (cmpOpc c.v r) x y e := by
    intro x y
    cases r
    case gt => exact cmp_sym hF _ (cmpOpc_cmp _ _) _ _ _
    case ge => exact cmp_sym hF _ (cmpOpc_cmp _ _) _ _ _
    all_goals exact Iff.rfl
  simp only [this]
/-- C82, proved for 16-byte vectors without padding, and for `==` and `!=` of all vectors without padding: a comparison operator signals exactly if it
does for some element. -/
theorem C82_compare_partial (hF : Conforms F) (hN : c.N % c.e = 0) (r : RelOp) (hv : c.v = .v128 ∨ r = .eq ∨ r = .ne) (a b : c.Data) (e : Exc) :
    Raised F (tRel c r a b).2 e ↔ ∃ i, i < c.N ∧ F c.w r.opc (elt c a i) (elt c b i) e := by
  rw [raised_rel' hc hF, full_iff hc hN]
  have : cmpOpc c.v r = r.opc := by
    rcases hv with hv | rfl | rfl
    · rw [hv]; cases r <;> rfl
    · cases c.v <;> rfl
    · cases c.v <;> rfl
  rw [this]
omit hc in
theorem zero_quiet (w : Nat) : isSNaN (0#w) = false ∧ isNaN (0#w) = false := ⟨(zeroClass (zero_isZero w)).2.2, (zeroClass (zero_isZero w)).1⟩
theorem quiet_lanes {g : Nat → BitVec c.w} (j : c.Data) (hg : ∀ i, i < c.N → isSNaN (g i) = false) {p : Nat} (hp : p < c.dataSize * c.e) :
    isSNaN (elt c (vgenerate c g j) p) = false := by
  by_cases hi : p < c.N
  · rw [elt_vgenerate hc g j hi]; exact hg p hi
  · rw [pad_vgenerate hc g j hp (by omega)]; exact (zero_quiet _).1
/-- C82 violated: with 32-byte vectors `<`, `>`, `<=`, `>=` on quiet NaNs signal nothing, although the operators of `float` and `double` signal invalid. -/
theorem C82_order_violated (hF : Conforms F) (hv : c.v = .v256) (r : RelOp) (hr : r ≠ .eq ∧ r ≠ .ne) (g h : Nat → BitVec c.w) (j j' : c.Data)
    (hg : ∀ i, i < c.N → isSNaN (g i) = false) (hh : ∀ i, i < c.N → isSNaN (h i) = false) (i : Nat) (hnan : isNaN (g i) = true) :
    F c.w r.opc (g i) (h i) .invalid ∧ ∀ e, ¬ Raised F (tRel c r (vgenerate c g j) (vgenerate c h j')).2 e := by
  constructor
  · refine (hF.invalid _ _ _ _).2 ?_
    have : r.opc = .cmpS := by cases r <;> simp [RelOp.opc] at hr ⊢
    rw [this]; show (isNaN (g i) || isNaN (h i)) = true; rw [hnan]; rfl
  · intro e he
    obtain ⟨p, hp, he⟩ := (raised_rel' hc hF r _ _ e).1 he
    have hq : cmpOpc c.v r = .cmpQ := by rw [hv]; rfl
    rw [hq] at he
    have := hF.compare _ _ _ _ _ (.inr rfl) he
    subst this
    have := (hF.invalid _ _ _ _).1 he
    simp only [signalsInvalid, quiet_lanes hc j hg hp, quiet_lanes hc j' hh hp, Bool.or_false, Bool.false_eq_true] at this

/-! ### `isgreater` and its relatives -/
theorem raised_qrel (hF : Conforms F) (r : QRel) (a b : c.Data) (e : Exc) :
    Raised F (tQRel c r a b).2 e ↔
      ∃ p, p < c.dataSize * c.e ∧ F c.w (if r = .unordered then .cmpQ else cmpOpc c.v .lt) (elt c a p) (elt c b p) e := by
  have hs := cmp_sym (F := F) hF (w := c.w)
  have hrel : ∀ q : RelOp, cmpOpc c.v q = cmpOpc c.v .lt → (Raised F (traced c (fun x y => kRel c q y x) a b).2 e ↔
      ∃ p, p < c.dataSize * c.e ∧ F c.w (cmpOpc c.v .lt) (elt c a p) (elt c b p) e) := by
    intro q hq
    have h1 := raised_one hc F (k := fun x y => kRel c q y x) (f := fun x y => relArgs q y x) (g := fun x y => relArgs q y x) (o := cmpOpc c.v q)
      (fun x y => by cases q <;> rfl) (fun x y i hi => by cases q <;> exact ⟨rfl, rfl⟩) a b e
    rw [h1, hq]
    have : ∀ x y : BitVec c.w, F c.w (cmpOpc c.v .lt) (relArgs q y x).1 (relArgs q y x).2 e ↔ F c.w (cmpOpc c.v .lt) x y e := by
      intro x y
      cases q
      case gt => exact Iff.rfl
      case ge => exact Iff.rfl
      all_goals exact hs _ (cmpOpc_cmp _ _) _ _ _
    simp only [this]
  have hcmp : ∀ q : RelOp, q = .lt ∨ q = .gt ∨ q = .le ∨ q = .ge → cmpOpc c.v q = cmpOpc c.v .lt := by
    intro q hq; cases c.v <;> rcases hq with rfl | rfl | rfl | rfl <;> rfl
  cases r
  case greater => exact hrel .lt (hcmp _ (by simp))
  case greaterequal => exact hrel .le (hcmp _ (by simp))
  case less => exact hrel .gt (hcmp _ (by simp))
  case lessequal => exact hrel .ge (hcmp _ (by simp))
  case lessgreater =>
    have := raised_two F (k := kQRel c .lessgreater) (fun x y => kRel c .le y x) (fun x y => kRel c .ge y x) (fun _ _ => rfl) a b e
    rw [hrel .le (hcmp _ (by simp)), hrel .ge (hcmp _ (by simp)), or_self] at this
    exact this
  case unordered =>
    exact raised_one hc F (f := fun x y => (x, y)) (g := fun x y => (x, y)) (fun _ _ => rfl) (fun _ _ _ _ => ⟨rfl, rfl⟩) a b e
/-- C82 violated: documented to compare "without setting floating-point exceptions", `isgreater`, .. , `islessgreater` of 16-byte vectors signal
invalid for every NaN. -/
theorem C82_quiet_violated (hF : Conforms F) (hv : c.v = .v128) (r : QRel) (hr : r ≠ .unordered) (a b : c.Data) (i : Nat) (hi : i < c.N)
    (hnan : isNaN (elt c a i) = true ∨ isNaN (elt c b i) = true) : Raised F (tQRel c r a b).2 .invalid := by
  rw [raised_qrel hc hF]
  refine ⟨i, Nat.lt_of_lt_of_le hi (cap_ge hc), ?_⟩
  rw [if_neg hr, hv]
  refine (hF.invalid _ _ _ _).2 ?_
  show (isNaN _ || isNaN _) = true
  rw [Bool.or_eq_true]; exact hnan
/-- C82, proved for 32-byte vectors, and for `isunordered`: the quiet comparisons of vectors built by generators signal invalid exactly if an element
is a signalling NaN, and never signal anything else. -/
theorem C82_quiet_partial (hF : Conforms F) (r : QRel) (hv : c.v = .v256 ∨ r = .unordered) (g h : Nat → BitVec c.w) (j j' : c.Data) (e : Exc) :
    Raised F (tQRel c r (vgenerate c g j) (vgenerate c h j')).2 e ↔
      e = .invalid ∧ ∃ i, i < c.N ∧ (isSNaN (g i) = true ∨ isSNaN (h i) = true) := by
  rw [raised_qrel hc hF]
  have hq : (if r = .unordered then .cmpQ else cmpOpc c.v .lt) = FOpc.cmpQ := by
    rcases hv with hv | hv
    · rw [hv]; split <;> rfl
    · rw [if_pos hv]
  rw [hq]
  constructor
  · rintro ⟨p, hp, he⟩
    have h1 := hF.compare _ _ _ _ _ (.inr rfl) he
    subst h1
    refine ⟨rfl, ?_⟩
    have h2 := (hF.invalid _ _ _ _).1 he
    simp only [signalsInvalid, Bool.or_eq_true] at h2
    by_cases hi : p < c.N
    · rw [elt_vgenerate hc g j hi, elt_vgenerate hc h j' hi] at h2; exact ⟨p, hi, h2⟩
    · rw [pad_vgenerate hc g j hp (by omega), pad_vgenerate hc h j' hp (by omega), (zero_quiet _).1] at h2; simp at h2
  · rintro ⟨rfl, i, hi, h2⟩
    refine ⟨i, Nat.lt_of_lt_of_le hi (cap_ge hc), (hF.invalid _ _ _ _).2 ?_⟩
    rw [elt_vgenerate hc g j hi, elt_vgenerate hc h j' hi]
    simp only [signalsInvalid, Bool.or_eq_true]; exact h2

/-! ### classification -/
omit hc in
theorem nan_mag {w : Nat} {x y : BitVec w} (h : mag x = mag y) : isNaN x = isNaN y ∧ isSNaN x = isSNaN y := by
  unfold isSNaN isNaN expF manF; rw [h]; exact ⟨rfl, rfl⟩
theorem W_of_flt (hf : c.T.flt = true) : W c.w := fltW hc.ety hf
/-- operations `isnan(x)`, `isinf(x)`, `isfinite(x)`, `isnormal(x)` execute on an element -/
def classEvs (c : Cfg) (x : BitVec c.w) : Class → List (Ev c.w)
  | .nan => [(.cmpQ, x, x)]
  | .inf => [(.cmpQ, x &&& BitVec.intMax c.w, infBits c.w)]
  | .finite => [(if c.s.avx then .cmpQ else .cmpS, x &&& BitVec.intMax c.w, infBits c.w)]
  | .normal => [(cmpOpc c.v .lt, infBits c.w, x &&& BitVec.intMax c.w), (cmpOpc c.v .lt, x &&& BitVec.intMax c.w, normMinBits c.w)]
theorem raised_class (k : Class) (a : c.Data) (e : Exc) :
    Raised F (tClass c k a).2 e ↔ ∃ p, p < c.dataSize * c.e ∧ Raised F (classEvs c (elt c a p) k) e := by
  have r1 : ∀ (o : FOpc) (x y : BitVec c.w), Raised F [(o, x, y)] e ↔ F c.w o x y e := fun o x y => by simp [Raised]
  have r2 : ∀ (o o' : FOpc) (x y x' y' : BitVec c.w), Raised F [(o, x, y), (o', x', y')] e ↔ F c.w o x y e ∨ F c.w o' x' y' e :=
    fun o o' x y x' y' => by simp [Raised]
  have fl : ∀ (s : BitVec c.w) i, i < c.e → lane c.w (fillV c.v s) i = s := fun s i hi => fillV_lane hc.ety s hi
  have al : ∀ (x : Vec c.v) i, i < c.e → lane c.w (fabsV c.T c.v x) i = lane c.w x i &&& BitVec.intMax c.w := fun x i hi => fabsV_lane hc.ety hi x
  cases k
  case nan =>
    simp only [classEvs, r1]
    exact raised_one hc F (f := fun x _ => (x, x)) (g := fun x _ => (x, x)) (fun _ _ => rfl) (fun _ _ _ _ => ⟨rfl, rfl⟩) a a e
  case inf =>
    simp only [classEvs, r1]
    exact raised_one hc F (f := fun x _ => (x &&& BitVec.intMax c.w, infBits c.w)) (g := fun x _ => (fabsV c.T c.v x, fillV c.v (infBits c.w)))
      (fun _ _ => rfl) (fun x _ i hi => ⟨al x i hi, fl _ i hi⟩) a a e
  case finite =>
    simp only [classEvs, r1]
    exact raised_one hc F (f := fun x _ => (x &&& BitVec.intMax c.w, infBits c.w)) (g := fun x _ => (fabsV c.T c.v x, fillV c.v (infBits c.w)))
      (fun _ _ => rfl) (fun x _ i hi => ⟨al x i hi, fl _ i hi⟩) a a e
  case normal =>
    simp only [classEvs, r2]
    have ho : (match c.v with | .v128 => FOpc.cmpS | .v256 => FOpc.cmpQ) = cmpOpc c.v .lt := by cases c.v <;> rfl
    have h2 := raised_two F (k := fun x _ => kClass c .normal x)
      (fun x _ => (0, lanesEv c (cmpOpc c.v .lt) (fillV c.v (infBits c.w)) (fabsV c.T c.v x)))
      (fun x _ => (0, lanesEv c (cmpOpc c.v .lt) (fabsV c.T c.v x) (fillV c.v (normMinBits c.w)))) (fun x _ => by rw [← ho]; rfl) a a e
    have h3 := raised_one hc F (k := fun x _ => (0, lanesEv c (cmpOpc c.v .lt) (fillV c.v (infBits c.w)) (fabsV c.T c.v x)))
      (f := fun x _ => (infBits c.w, x &&& BitVec.intMax c.w)) (g := fun x _ => (fillV c.v (infBits c.w), fabsV c.T c.v x))
      (fun _ _ => rfl) (fun x _ i hi => ⟨fl _ i hi, al x i hi⟩) a a e
    have h4 := raised_one hc F (k := fun x _ => (0, lanesEv c (cmpOpc c.v .lt) (fabsV c.T c.v x) (fillV c.v (normMinBits c.w))))
      (f := fun x _ => (x &&& BitVec.intMax c.w, normMinBits c.w)) (g := fun x _ => (fabsV c.T c.v x, fillV c.v (normMinBits c.w)))
      (fun _ _ => rfl) (fun x _ i hi => ⟨al x i hi, fl _ i hi⟩) a a e
    show Raised F (traced c (fun x _ => kClass c .normal x) a a).2 e ↔ _
    rw [h2, h3, h4]
    constructor
    · rintro (⟨p, hp, h⟩ | ⟨p, hp, h⟩)
      · exact ⟨p, hp, .inl h⟩
      · exact ⟨p, hp, .inr h⟩
    · rintro ⟨p, hp, h | h⟩
      · exact .inl ⟨p, hp, h⟩
      · exact .inr ⟨p, hp, h⟩
/-- C82 violated: `isfinite` of a NaN signals invalid without AVX, `isnormal` of a NaN does so with every 16-byte vector; the functions of `float` and
`double` never signal. -/
theorem C82_classify_violated (hF : Conforms F) (hf : c.T.flt = true) (a : c.Data) (i : Nat) (hi : i < c.N) (hnan : isNaN (elt c a i) = true) :
    (c.s.avx = false → Raised F (tClass c .finite a).2 .invalid) ∧ (c.v = .v128 → Raised F (tClass c .normal a).2 .invalid) := by
  have hp := Nat.lt_of_lt_of_le hi (cap_ge hc)
  have hw := W_of_flt hc hf
  have hn : isNaN (elt c a i &&& BitVec.intMax c.w) = true := by
    rw [(nan_mag (abs_sm (w_pos hc.ety) (elt c a i)).2).1]; exact hnan
  constructor
  · intro hs
    rw [raised_class hc]
    refine ⟨i, hp, _, List.mem_singleton.2 rfl, (hF.invalid _ _ _ _).2 ?_⟩
    rw [if_neg (by simp [hs])]
    show (isNaN _ || _) = true
    rw [hn]; rfl
  · intro hv
    rw [raised_class hc]
    refine ⟨i, hp, _, List.mem_cons_self, (hF.invalid _ _ _ _).2 ?_⟩
    rw [hv]
    show (_ || isNaN _) = true
    rw [hn]; simp
omit hc in
theorem const_quiet {w : Nat} (h : W w) : isSNaN (infBits w) = false ∧ isSNaN (normMinBits w) = false := by
  rcases h with h | h <;> subst h <;> decide
/-- C82, proved for `isnan`, `isinf`, for `isfinite` with AVX and for `isnormal` of 32-byte vectors: applied to a vector built by a generator they
signal nothing unless an element is a signalling NaN. -/
theorem C82_classify_partial (hF : Conforms F) (hf : c.T.flt = true) (k : Class) (hk : k = .nan ∨ k = .inf ∨ k = .finite ∧ c.s.avx = true ∨ k = .normal ∧ c.v = .v256)
    (g : Nat → BitVec c.w) (j : c.Data) (hg : ∀ i, i < c.N → isSNaN (g i) = false) (e : Exc) : ¬ Raised F (tClass c k (vgenerate c g j)).2 e := by
  rw [raised_class hc]
  rintro ⟨p, hp, ev, hev, hr⟩
  have hw := W_of_flt hc hf
  have hq := quiet_lanes hc j hg hp
  generalize elt c (vgenerate c g j) p = x at hev hq
  have hqa : isSNaN (x &&& BitVec.intMax c.w) = false := by
    rw [(nan_mag (abs_sm (w_pos hc.ety) x).2).2]; exact hq
  have key : ∀ y z : BitVec c.w, isSNaN y = false → isSNaN z = false → ¬ F c.w .cmpQ y z e := by
    intro y z hy hz h
    have := hF.compare _ _ _ _ _ (.inr rfl) h
    subst this
    have := (hF.invalid _ _ _ _).1 h
    simp [signalsInvalid, hy, hz] at this
  rcases hk with rfl | rfl | ⟨rfl, hs⟩ | ⟨rfl, hv⟩
  · simp only [classEvs, List.mem_singleton] at hev; subst hev; exact key _ _ hq hq hr
  · simp only [classEvs, List.mem_singleton] at hev; subst hev; exact key _ _ hqa (const_quiet hw).1 hr
  · simp only [classEvs, List.mem_singleton, hs, if_true] at hev; subst hev; exact key _ _ hqa (const_quiet hw).1 hr
  · have ho : cmpOpc c.v .lt = .cmpQ := by rw [hv]; rfl
    simp only [classEvs, ho, List.mem_cons, List.not_mem_nil, or_false] at hev
    rcases hev with rfl | rfl
    · exact key _ _ (const_quiet hw).1 hqa hr
    · exact key _ _ hqa (const_quiet hw).2 hr

/-! ### rounding to integers -/
omit hc in
/-- a finite number of magnitude at least `2^(mb+k)` units is a multiple of `2^k` units -/
theorem rep_dvd {w k : Nat} (z : BitVec w) (hz : 2 ^ (mb w + k) ≤ (val z).natAbs) : (2 : Int) ^ k ∣ val z := by
  have h1 : (val z).natAbs = magVal (mb w) (mag z) := natAbs_val z
  have h2 : 2 ^ k ∣ (val z).natAbs := by
    rw [h1] at hz ⊢
    unfold magVal at hz ⊢
    have hr := Nat.mod_lt (mag z) (Nat.two_pow_pos (mb w))
    split at hz
    · have : 2 ^ mb w ≤ 2 ^ (mb w + k) := Nat.pow_le_pow_right (by decide) (by omega)
      omega
    · rename_i he
      rw [if_neg he]
      generalize mag z % 2 ^ mb w = r at hz hr ⊢
      generalize mag z / 2 ^ mb w - 1 = q at hz ⊢
      have hq : k ≤ q := by
        by_contra hlt
        have h3 : (2 ^ mb w + r) * 2 ^ q < 2 ^ (mb w + 1) * 2 ^ q := Nat.mul_lt_mul_of_pos_right (by rw [Nat.pow_succ]; omega) (Nat.two_pow_pos _)
        rw [← Nat.pow_add] at h3
        have h4 : 2 ^ (mb w + 1 + q) ≤ 2 ^ (mb w + k) := Nat.pow_le_pow_right (by decide) (by omega)
        omega
      exact Dvd.dvd.mul_left (pow_dvd_pow 2 hq) _
  have := Int.natCast_dvd.2 h2
  push_cast at this
  exact this
/-- the operand lanes of the older `rint` -/
theorem old_rint (hs : c.s.sse41 = false) (a : c.Data) {p : Nat} (hp : p < c.dataSize * c.e) :
    (.cmpS, offsetBits c.w, elt c a p &&& BitVec.intMax c.w) ∈ (tRint c a).2 ∧ (.add, elt c a p &&& BitVec.intMax c.w, offsetBits c.w) ∈ (tRint c a).2 := by
  have he : 0 < c.e := extent_pos hc.ety c.v
  have hj : p / c.e < c.dataSize := (Nat.div_lt_iff_lt_mul he).2 hp
  have hk : p % c.e < c.e := Nat.mod_lt _ he
  have hoff : lane c.w (fillV c.v (offsetBits c.w)) (p % c.e) = offsetBits c.w := fillV_lane hc.ety _ hk
  have habs : ∀ x : Vec c.v, lane c.w (bitXor x (bitAnd x (fillV c.v (BitVec.intMin c.T.w)))) (p % c.e) = lane c.w x (p % c.e) &&& BitVec.intMax c.w := by
    intro x
    refine (lane_xor _ _ _ _).trans ?_
    have h2 : lane c.w (bitAnd x (fillV c.v (BitVec.intMin c.T.w))) (p % c.e) = lane c.w x (p % c.e) &&& BitVec.intMin c.w := by
      refine (lane_and _ _ _ _).trans ?_
      rw [show lane c.w (fillV c.v (BitVec.intMin c.T.w)) (p % c.e) = BitVec.intMin c.w from fillV_lane hc.ety _ hk]
    rw [h2]; exact Fp.xor_sign _
  unfold tRint
  rw [traced_snd, traced_snd]
  have hk2 : ∀ x, (kRint c x).2 = lanesEv c .cmpS (fillV c.v (offsetBits c.w)) (bitXor x (bitAnd x (fillV c.v (BitVec.intMin c.T.w)))) ++
      lanesEv c .add (bitXor x (bitAnd x (fillV c.v (BitVec.intMin c.T.w)))) (fillV c.v (offsetBits c.w)) ++
      lanesEv c .sub (faddL c.w (bitXor x (bitAnd x (fillV c.v (BitVec.intMin c.T.w)))) (fillV c.v (offsetBits c.w))) (fillV c.v (offsetBits c.w)) := by
    intro x; unfold kRint; exact if_neg (by simp [hs])
  constructor
  · refine ⟨p / c.e, hj, ?_⟩
    rw [hk2]
    refine List.mem_append_left _ (List.mem_append_left _ ((mem_lanesEv _ _ _ _ _).2 ⟨p % c.e, hk, ?_⟩))
    rw [hoff, habs]; rfl
  · refine ⟨p / c.e, hj, ?_⟩
    rw [hk2]
    refine List.mem_append_left _ (List.mem_append_right _ ((mem_lanesEv _ _ _ _ _).2 ⟨p % c.e, hk, ?_⟩))
    rw [hoff, habs]; rfl
omit hc in
theorem offset_val {w : Nat} (h : W w) : isFinite (offsetBits w) = true ∧ val (offsetBits w) = (2 ^ (mb w + unitExp w) : Nat) := by
  rcases h with h | h <;> subst h <;> decide +kernel
omit hc in
theorem absVal_eq {w : Nat} (h : 0 < w) (x : BitVec w) : val (x &&& BitVec.intMax w) = ((val x).natAbs : Int) := by
  rw [natAbs_val]
  unfold val neg
  rw [(abs_sm h x).1, (abs_sm h x).2]; rfl
omit hc in
theorem fin_mag {w : Nat} {x y : BitVec w} (h : mag x = mag y) : isFinite x = isFinite y := by unfold isFinite expF; rw [h]
/-- C82: `rint` signals inexact for every element that is not an integer, on every instruction set. -/
theorem C82_rint_kept (hF : Conforms F) (hf : c.T.flt = true) (a : c.Data) (i : Nat) (hi : i < c.N) (hfin : isFinite (elt c a i) = true)
    (hx : ¬ (2 : Int) ^ unitExp c.w ∣ val (elt c a i)) : Raised F (tRint c a).2 .inexact := by
  have hp := Nat.lt_of_lt_of_le hi (cap_ge hc)
  have hw := W_of_flt hc hf
  cases hs : c.s.sse41 with
  | true =>
    have := raised_one hc F (k := fun x _ => kRint c x) (f := fun x _ => (x, x)) (g := fun x _ => (x, x)) (o := .rndX)
      (fun x _ => by unfold kRint; exact if_pos hs) (fun _ _ _ _ => ⟨rfl, rfl⟩) a a .inexact
    exact this.2 ⟨i, hp, (hF.rndX _ _ _).2 ⟨hfin, hx⟩⟩
  | false =>
    refine ⟨_, (old_rint hc hs a hp).2, ?_⟩
    generalize elt c a i = x at *
    have hfa : isFinite (x &&& BitVec.intMax c.w) = true := by rw [fin_mag (abs_sm (w_pos hc.ety) x).2]; exact hfin
    refine (hF.addInexact _ _ _ hfa (offset_val hw).1).2 ?_
    intro z hz hzv
    rw [absVal_eq (w_pos hc.ety), (offset_val hw).2] at hzv
    have hd := rep_dvd (k := unitExp c.w) z (by rw [hzv]; omega)
    rw [hzv] at hd
    have h1 : (2 : Int) ^ unitExp c.w ∣ ((2 ^ (mb c.w + unitExp c.w) : Nat) : Int) := by
      rw [Nat.pow_add]; push_cast; exact Dvd.intro_left _ rfl
    have h2 : (2 : Int) ^ unitExp c.w ∣ ((val x).natAbs : Int) := (Int.dvd_add_left h1).1 hd
    exact hx (Int.dvd_natAbs.1 h2)
/-- C82, proved with SSE4.1: `rint` of a vector built by a generator signals inexact exactly if an element is not an integer, and invalid exactly if an
element is a signalling NaN. -/
theorem C82_rint_partial (hF : Conforms F) (hs : c.s.sse41 = true) (g : Nat → BitVec c.w) (j : c.Data) :
    (Raised F (tRint c (vgenerate c g j)).2 .inexact ↔ ∃ i, i < c.N ∧ isFinite (g i) = true ∧ ¬ (2 : Int) ^ unitExp c.w ∣ val (g i)) ∧
    (Raised F (tRint c (vgenerate c g j)).2 .invalid ↔ ∃ i, i < c.N ∧ isSNaN (g i) = true) := by
  have key : ∀ e, Raised F (tRint c (vgenerate c g j)).2 e ↔ ∃ p, p < c.dataSize * c.e ∧ F c.w .rndX (elt c (vgenerate c g j) p) (elt c (vgenerate c g j) p) e :=
    fun e => raised_one hc F (k := fun x _ => kRint c x) (f := fun x _ => (x, x)) (g := fun x _ => (x, x)) (o := .rndX)
      (fun x _ => by unfold kRint; exact if_pos hs) (fun _ _ _ _ => ⟨rfl, rfl⟩) _ _ e
  rw [key, key]
  have hz : val (0#c.w) = 0 := zero_val0 (zero_isZero _)
  constructor
  · constructor
    · rintro ⟨p, hp, h⟩
      have h := (hF.rndX _ _ _).1 h
      by_cases hi : p < c.N
      · rw [elt_vgenerate hc g j hi] at h; exact ⟨p, hi, h⟩
      · rw [pad_vgenerate hc g j hp (by omega), hz] at h; exact absurd (Int.dvd_zero _) h.2
    · rintro ⟨i, hi, h⟩
      refine ⟨i, Nat.lt_of_lt_of_le hi (cap_ge hc), (hF.rndX _ _ _).2 ?_⟩
      rw [elt_vgenerate hc g j hi]; exact h
  · constructor
    · rintro ⟨p, hp, h⟩
      have h : isSNaN _ = true := (hF.invalid _ _ _ _).1 h
      by_cases hi : p < c.N
      · rw [elt_vgenerate hc g j hi] at h; exact ⟨p, hi, h⟩
      · rw [pad_vgenerate hc g j hp (by omega), (zero_quiet _).1] at h; exact absurd h (by decide)
    · rintro ⟨i, hi, h⟩
      refine ⟨i, Nat.lt_of_lt_of_le hi (cap_ge hc), (hF.invalid _ _ _ _).2 ?_⟩
      rw [elt_vgenerate hc g j hi]; exact h
/-- C82 violated: without SSE4.1 `rint` signals inexact for the integers `±(2^23 + 1)` (`±(2^52 + 1)`), and invalid for quiet NaNs. -/
theorem C82_rint_violated (hF : Conforms F) (hf : c.T.flt = true) (hs : c.s.sse41 = false) (a : c.Data) (i : Nat) (hi : i < c.N) :
    ((val (elt c a i)).natAbs = (2 ^ mb c.w + 1) * 2 ^ unitExp c.w → isFinite (elt c a i) = true → Raised F (tRint c a).2 .inexact) ∧
    (isNaN (elt c a i) = true → Raised F (tRint c a).2 .invalid) := by
  have hp := Nat.lt_of_lt_of_le hi (cap_ge hc)
  have hw := W_of_flt hc hf
  obtain ⟨e1, e2⟩ := old_rint hc hs a hp
  generalize elt c a i = x at *
  constructor
  · intro hv hfin
    refine ⟨_, e2, ?_⟩
    have hfa : isFinite (x &&& BitVec.intMax c.w) = true := by rw [fin_mag (abs_sm (w_pos hc.ety) x).2]; exact hfin
    refine (hF.addInexact _ _ _ hfa (offset_val hw).1).2 ?_
    intro z hz hzv
    rw [absVal_eq (w_pos hc.ety), (offset_val hw).2, hv] at hzv
    have hsum : val z = ((2 ^ (mb c.w + 1) + 1) * 2 ^ unitExp c.w : Nat) := by
      rw [hzv, ← Nat.cast_add]; congr 1; rw [Nat.pow_add, Nat.pow_succ]; ring
    have hd := rep_dvd (k := unitExp c.w + 1) z (by
      rw [hsum, Int.natAbs_natCast, Nat.add_mul, ← Nat.pow_add, show mb c.w + 1 + unitExp c.w = mb c.w + (unitExp c.w + 1) by omega]; omega)
    rw [hsum] at hd
    have hd2 : 2 ^ (unitExp c.w + 1) ∣ (2 ^ (mb c.w + 1) + 1) * 2 ^ unitExp c.w := by exact_mod_cast hd
    rw [Nat.pow_succ, Nat.mul_comm] at hd2
    have hd3 := Nat.dvd_of_mul_dvd_mul_right (Nat.two_pow_pos _) hd2
    rw [Nat.pow_succ] at hd3
    omega
  · intro hn
    refine ⟨_, e1, (hF.invalid _ _ _ _).2 ?_⟩
    show (_ || isNaN _) = true
    rw [(nan_mag (abs_sm (w_pos hc.ety) x).2).1, hn]; simp
omit hc in
/-- C82: `nearbyint` leaves the inexact flag alone, and before SSE4.1 all flags. -/
theorem C82_nearbyint (hF : Conforms F) (a : c.Data) (st : Flags) :
    ((tNearbyint c F a st).2 .inexact ↔ st .inexact) ∧ (c.s.sse41 = false → (tNearbyint c F a st).2 = st) := by
  unfold tNearbyint
  generalize c.dataSize = n
  constructor
  · induction n with
    | zero => exact Iff.rfl
    | succ n ih =>
      simp only [forRange] at ih ⊢
      rw [← ih]
      unfold kNearbyint
      split
      · unfold execEv
        constructor
        · rintro (h | ⟨ev, hev, h⟩)
          · exact h
          · obtain ⟨k, _, rfl⟩ := (mem_lanesEv c _ _ _ _).1 hev
            exact absurd h (hF.rndN _ _ _)
        · exact fun h => .inl h
      · exact Iff.rfl
  · intro hs
    induction n with
    | zero => rfl
    | succ n ih =>
      simp only [forRange] at ih ⊢
      refine Eq.trans ?_ ih
      unfold kNearbyint
      rw [if_neg (by simp [hs])]
end main

/-! ### the generic backend -/
theorem gTraced_ok {w N : Nat} {γ : Type} (z : γ) (f : BitVec w → BitVec w → γ) (o : FOpc) (a b : GSimd (BitVec w) N) :
    some (gTraced z f o a b).1 = lift2 z (fun x y => some (f x y)) a b ∧
    ∀ ev, ev ∈ (gTraced z f o a b).2 ↔ ∃ i, i < N ∧ ev = (o, a.get i, b.get i) := by
  have key : ∀ n, forRangeM n (fun i (r : Mem γ) => (some (f (a.get i) (b.get i))).map (fun v => r.set i v)) (fun _ => z) =
      some (forRange n (fun i (s : Mem γ × List (Ev w)) => (s.1.set i (f (a.get i) (b.get i)), s.2 ++ [(o, a.get i, b.get i)])) ((fun _ => z), [])).1 ∧
      ∀ ev, ev ∈ (forRange n (fun i (s : Mem γ × List (Ev w)) => (s.1.set i (f (a.get i) (b.get i)), s.2 ++ [(o, a.get i, b.get i)])) ((fun _ => z), [])).2 ↔
        ∃ i, i < n ∧ ev = (o, a.get i, b.get i) := by
    intro n
    induction n with
    | zero => exact ⟨rfl, fun ev => ⟨fun h => (List.not_mem_nil h).elim, fun ⟨i, h, _⟩ => absurd h (Nat.not_lt_zero _)⟩⟩
    | succ n ih =>
      obtain ⟨h1, h2⟩ := ih
      refine ⟨?_, fun ev => ?_⟩
      · simp only [forRange, forRangeM] at h1 ⊢; rw [h1]; rfl
      · simp only [forRange] at h2 ⊢
        rw [List.mem_append, h2, List.mem_singleton]
        constructor
        · rintro (⟨i, h, h'⟩ | h)
          · exact ⟨i, by omega, h'⟩
          · exact ⟨n, by omega, h⟩
        · rintro ⟨i, h, h'⟩
          rcases Nat.lt_succ_iff_lt_or_eq.1 h with h | h
          · exact .inl ⟨i, h, h'⟩
          · subst h; exact .inr h'
  obtain ⟨h1, h2⟩ := key N
  exact ⟨by unfold gTraced lift2; rw [h1]; rfl, h2⟩
/-- C82: vectors of the generic backend signal exactly what the operator signals for their elements, for every size. -/
theorem C82_generic (F : FlagSem) {w N : Nat} (a b : GSimd (BitVec w) N) (e : Exc) :
    (some (gTraced 0 fadd .add a b).1 = Generic.opAdd (fpScalar w) a b ∧ some (gTraced 0 fsub .sub a b).1 = Generic.opSub (fpScalar w) a b ∧
     some (gTraced 0 fmul .mul a b).1 = Generic.opMul (fpScalar w) a b ∧ some (gTraced 0 fdiv .div a b).1 = Generic.opDiv (fpScalar w) a b) ∧
    ∀ {γ : Type} (z : γ) (f : BitVec w → BitVec w → γ) (o : FOpc),
      Raised F (gTraced z f o a b).2 e ↔ ∃ i, i < N ∧ F w o (a.get i) (b.get i) e := by
  refine ⟨⟨(gTraced_ok _ _ _ a b).1, (gTraced_ok _ _ _ a b).1, (gTraced_ok _ _ _ a b).1, (gTraced_ok _ _ _ a b).1⟩, fun z f o => ?_⟩
  unfold Raised
  constructor
  · rintro ⟨ev, hev, h⟩
    obtain ⟨i, hi, rfl⟩ := ((gTraced_ok z f o a b).2 ev).1 hev
    exact ⟨i, hi, h⟩
  · rintro ⟨i, hi, h⟩
    exact ⟨_, ((gTraced_ok z f o a b).2 _).2 ⟨i, hi, rfl⟩, h⟩

/-! ### examples -/
/-- 1.0 and a quiet NaN -/
def fOne (c : Cfg) : BitVec c.w := BitVec.ofNat c.w 0x3f800000
def fQNaN (c : Cfg) : BitVec c.w := BitVec.ofNat c.w 0x7fc00000
/-- 5 floats on SSE2 (one register and a quarter), 5 floats in 32-byte vectors, 8 floats in 32-byte vectors -/
def exFlag : Cfg := ⟨.sse2L, .f32, 5, .v128⟩
def exFlagW : Cfg := ⟨.avx2L, .f32, 5, .v256⟩
def exFlagF : Cfg := ⟨.sse2L, .f32, 4, .v128⟩
theorem exFlag_ok : exFlag.Ok := ⟨by decide, by decide, by decide, by decide, by decide⟩
theorem exFlagW_ok : exFlagW.Ok := ⟨by decide, by decide, by decide, by decide, by decide⟩
theorem exFlagF_ok : exFlagF.Ok := ⟨by decide, by decide, by decide, by decide, by decide⟩
/-- dividing five ones by five ones signals invalid, although 1/1 does not -/
example : Raised strict (tArith ieee exFlag .div (vgenerate exFlag (fun _ => fOne exFlag) (zeroData _)) (vgenerate exFlag (fun _ => fOne exFlag) (zeroData _))).2 .invalid ∧
    ¬ strict 32 .div (fOne exFlag) (fOne exFlag) .invalid :=
  ⟨C82_padding_violated exFlag_ok strict_conforms ieee (by decide) _ _ _ _, by show ¬ (signalsInvalid .div (fOne exFlag) (fOne exFlag) = true); decide⟩
example : Raised strict (tQRel exFlag .greater (fillData _ (fQNaN exFlag)) (fillData _ (fOne exFlag))).2 .invalid :=
  C82_quiet_violated exFlag_ok strict_conforms rfl .greater (by decide) _ _ 0 (by decide) (.inl (by rw [elt_fillData exFlag_ok]; decide))
example : ∀ e, ¬ Raised strict (tRel exFlagW .lt (vgenerate exFlagW (fun _ => fQNaN exFlagW) (zeroData _)) (vgenerate exFlagW (fun _ => fOne exFlagW) (zeroData _))).2 e :=
  (C82_order_violated exFlagW_ok strict_conforms rfl .lt ⟨by decide, by decide⟩ _ _ _ _ (fun _ _ => by decide) (fun _ _ => by decide) 0 (by decide)).2
/-- four floats: 1 / 0 signals division by zero, and the vector operator does too -/
example : Raised strict (tArith ieee exFlagF .div (fillData _ (fOne exFlagF)) (fillData _ 0)).2 .divByZero :=
  (C82_arith_partial exFlagF_ok ieee (by decide) .div _ _ 0 .divByZero).1.2 ⟨0, by decide, by
    rw [elt_fillData exFlagF_ok, elt_fillData exFlagF_ok]; show signalsDivByZero .div (fOne exFlagF) 0 = true; decide⟩
/-- `rint(8388609.0f)` signals inexact on SSE2 -/
example : Raised strict (tRint exFlag (fillData _ (BitVec.ofNat exFlag.w 0x4b000001))).2 .inexact :=
  (C82_rint_violated exFlag_ok strict_conforms rfl rfl _ 0 (by decide)).1 (by rw [elt_fillData exFlag_ok]; decide +kernel) (by rw [elt_fillData exFlag_ok]; decide)
example : Raised strict (tClass exFlag .finite (fillData _ (fQNaN exFlag))).2 .invalid :=
  (C82_classify_violated exFlag_ok strict_conforms rfl _ 0 (by decide) (by rw [elt_fillData exFlag_ok]; decide)).1 rfl
end Dpm.X86
