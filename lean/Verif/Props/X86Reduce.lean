import Verif.Proofs.Reduce
import Verif.Props.X86Int
/-
C27: reductions of x86 vectors.
-/
namespace Dpm.X86
open Dpm.Reg Dpm.Util Dpm.Generic Dpm.Spec

/-- example configurations: 7 x uint16 on SSSE3 (padding lane), 6 x float on SSE2, 6 x int64 on AVX2,
20 x int16 on AVX (32-byte vectors without AVX2), 16 x int16 on AVX2 -/
def exU16s : Cfg := ⟨.ssse3L, .u16, 7, .v128⟩
def exF32p : Cfg := ⟨.sse2L, .f32, 6, .v128⟩
def exI64p : Cfg := ⟨.avx2L, .i64, 6, .v256⟩
def exI16a : Cfg := ⟨.avxL, .i16, 20, .v256⟩
def exI16b : Cfg := ⟨.avx2L, .i16, 16, .v256⟩
theorem exU16s_ok : exU16s.Ok := ⟨by decide, by decide, by decide, by decide, by decide⟩
theorem exF32p_ok : exF32p.Ok := ⟨by decide, by decide, by decide, by decide, by decide⟩
theorem exI64p_ok : exI64p.Ok := ⟨by decide, by decide, by decide, by decide, by decide⟩
theorem exI16a_ok : exI16a.Ok := ⟨by decide, by decide, by decide, by decide, by decide⟩
theorem exI16b_ok : exI16b.Ok := ⟨by decide, by decide, by decide, by decide, by decide⟩

/-- where the x86 reduction kernels exist: 4- and 8-byte elements always; 1- and 2-byte elements from SSSE3 on,
except in 32-byte vectors with AVX2 -/
def redKernel (c : Cfg) : Bool := decide (4 ≤ c.T.bytes) || (c.s.ssse3 && !(decide (c.v = .v256) && c.s.avx2))

theorem redKernel_hred {c : Cfg} (hc : c.Ok) (h : redKernel c = true) : hredExists c.s c.T (redV c) = true := by
  unfold redKernel at h
  unfold redV
  by_cases h4 : 4 ≤ c.T.bytes
  · split
    · simp [hredExists, h4]
    · next hv =>
      cases hcv : c.v with
      | v128 => simp [hredExists, h4]
      | v256 =>
        have : c.s.avx2 = true := by
          rw [hcv] at hv; simpa using hv
        simp [hredExists, h4, this]
  · simp only [h4, decide_false, Bool.false_or, Bool.and_eq_true, Bool.not_eq_true', Bool.and_eq_false_iff, decide_eq_false_iff_not] at h
    cases hcv : c.v with
    | v128 => simp [hredExists, h.1]
    | v256 =>
      have : c.s.avx2 = false := by simpa [hcv] using h.2
      simp [hredExists, h.1, this]

/-- the result is the left fold of the elements `0 .. size()-1` -/
def Folds (c : Cfg) (out : Out (BitVec c.w)) (f : BitVec c.w → BitVec c.w → BitVec c.w) (x : c.Data) : Prop :=
  ∃ r, out = .ok r ∧ fold1 f (lanes c.N (elt c x)) = some r

theorem folds_of {c : Cfg} (hc : c.Ok) (hk : redKernel c = true)
    (op : (v : VSz) → Vec v → Vec v → Option (Vec v)) (idt : (v : VSz) → Vec v) (f : BitVec c.w → BitVec c.w → BitVec c.w) (u : BitVec c.w)
    (hop : ∀ a b, ∃ r, op (redV c) a b = some r ∧ ∀ i, i < extent c.T (redV c) → lane c.w r i = f (lane c.w a i) (lane c.w b i))
    (hidt : ∀ i, i < extent c.T (redV c) → lane c.w (idt (redV c)) i = u)
    (hassoc : ∀ a b d, f (f a b) d = f a (f b d)) (hcomm : ∀ a b, f a b = f b a) (hu : ∀ a, f a u = a) (x : c.Data) :
    Folds c (redNative c op idt x) f x := by
  obtain ⟨r, M, hr, hM, _, _, h⟩ := redNative_comb hc (redKernel_hred hc hk) op idt f u hop hidt x
  exact ⟨r, hr, h.fold_pad hassoc hcomm hu hc.pos hM⟩

theorem mulV_ok {c : Cfg} (fp : FpOps) (hc : c.Ok) (hT : c.T.flt = false)
    (hm : c.T.bytes = 2 ∨ (c.T.bytes = 4 ∧ c.s.sse41 = true)) (v : VSz) (a b : Vec v) :
    ∃ r, mulV fp c.s c.T v a b = some r ∧ ∀ i, i < extent c.T v → lane c.w r i = lane c.w a i * lane c.w b i := by
  have : ∃ r, mulI c.s c.T v a b = some r := by
    cases v with
    | v128 => unfold mulI; dsimp only; rw [if_pos hm]; exact ⟨_, rfl⟩
    | v256 => unfold mulI; dsimp only; rw [if_pos (by rcases hm with h | h; exact .inl h; exact .inr h.1)]; exact ⟨_, rfl⟩
  obtain ⟨r, hr⟩ := this
  refine ⟨r, ?_, fun i hi => mulI_lane c.s hc.ety v a b hi hr⟩
  unfold mulV; rw [hT]; exact hr

/-- C27: for integers `reduce` with `std::plus`, `std::bit_and`, `std::bit_xor`, `std::bit_or` and, where the
multiplication kernel exists, `std::multiplies` is the fold over the elements `0 .. size()-1` modulo `2^w`,
whatever the padding lanes hold. -/
theorem C27_reduce_int_partial (fp : FpOps) {c : Cfg} (hc : c.Ok) (hT : c.T.flt = false) (hk : redKernel c = true) (x : c.Data) :
    Folds c (vReduce fp c .plus x) (modAdd c.T.ity) x ∧
    Folds c (vReduce fp c .bitAnd x) (fun a b => a &&& b) x ∧
    Folds c (vReduce fp c .bitXor x) (fun a b => a ^^^ b) x ∧
    Folds c (vReduce fp c .bitOr x) (fun a b => a ||| b) x ∧
    (c.T.bytes = 2 ∨ (c.T.bytes = 4 ∧ c.s.sse41 = true) → Folds c (vReduce fp c .multiplies x) (modMul c.T.ity) x) := by
  have hsmall : ¬ 4 ≤ c.T.bytes → c.s.ssse3 = true := by
    intro h; unfold redKernel at hk; simp [h] at hk; exact hk.1
  have e1 : vReduce fp c .plus x = redAdd fp c x := by
    unfold vReduce; split
    · rfl
    · next h => unfold vReduceSmall; rw [if_pos (hsmall h)]
  have e2 : vReduce fp c .bitAnd x = redAnd c x := by
    unfold vReduce; split
    · unfold vReduceBig; dsimp only; rw [hT]; rfl
    · next h => unfold vReduceSmall; rw [if_pos (hsmall h)]
  have e3 : vReduce fp c .bitXor x = redXor c x := by
    unfold vReduce; split
    · unfold vReduceBig; dsimp only; rw [hT]; rfl
    · next h => unfold vReduceSmall; rw [if_pos (hsmall h)]
  have e4 : vReduce fp c .bitOr x = redOr c x := by
    unfold vReduce; split
    · unfold vReduceBig; dsimp only; rw [hT]; rfl
    · next h => unfold vReduceSmall; rw [if_pos (hsmall h)]
  have e5 : (c.T.bytes = 2 ∨ (c.T.bytes = 4 ∧ c.s.sse41 = true)) → vReduce fp c .multiplies x = redMul fp c x := by
    intro hm
    unfold vReduce; split
    · next h =>
      have h4 : c.T.bytes = 4 ∧ c.s.sse41 = true := by rcases hm with hm | hm; omega; exact hm
      unfold vReduceBig; dsimp only; rw [hT, h4.2, if_pos rfl, if_pos h4.1]; rfl
    · next h =>
      have h2 : c.T.bytes = 2 := by rcases hm with hm | hm; exact hm; omega
      unfold vReduceSmall; rw [if_pos (hsmall h)]; dsimp only; rw [if_pos h2]
  refine ⟨?_, ?_, ?_, ?_, ?_⟩
  · rw [e1]
    refine folds_of hc hk _ _ _ 0 (fun a b => ⟨_, rfl, fun i hi => ?_⟩) (fun i _ => lane_zero _ _ _) ?_ ?_ ?_ x
    · rw [addV, hT, modAdd_eq]; exact addI_lane c.s hc.ety _ a b hi
    · intro a b d; simp only [modAdd_eq]; exact BitVec.add_assoc _ _ _
    · intro a b; simp only [modAdd_eq]; exact BitVec.add_comm _ _
    · intro a; simp only [modAdd_eq]; exact BitVec.add_zero a
  · rw [e2]
    exact folds_of hc hk _ _ _ (BitVec.allOnes _) (fun a b => ⟨_, rfl, fun i hi => lane_and _ _ _ _⟩)
      (fun i hi => lane_ones (lane_bound hc.ety hi)) BitVec.and_assoc BitVec.and_comm (fun a => BitVec.and_allOnes) x
  · rw [e3]
    exact folds_of hc hk _ _ _ 0 (fun a b => ⟨_, rfl, fun i hi => lane_xor _ _ _ _⟩)
      (fun i hi => lane_zero _ _ _) BitVec.xor_assoc BitVec.xor_comm (fun a => BitVec.xor_zero) x
  · rw [e4]
    exact folds_of hc hk _ _ _ 0 (fun a b => ⟨_, rfl, fun i hi => lane_or _ _ _ _⟩)
      (fun i hi => lane_zero _ _ _) BitVec.or_assoc BitVec.or_comm (fun a => BitVec.or_zero) x
  · intro hm
    rw [e5 hm]
    refine folds_of hc hk _ _ _ 1 (fun a b => ?_) (fun i hi => ?_) ?_ ?_ ?_ x
    · obtain ⟨r, hr, h⟩ := mulV_ok fp hc hT hm (redV c) a b
      exact ⟨r, hr, fun i hi => by rw [modMul_eq]; exact h i hi⟩
    · rw [fillV_lane hc.ety _ hi]; unfold oneOf; rw [hT]; rfl
    · intro a b d; simp only [modMul_eq]; exact BitVec.mul_assoc _ _ _
    · intro a b; simp only [modMul_eq]; exact BitVec.mul_comm _ _
    · intro a; simp only [modMul_eq]; exact BitVec.mul_one a

theorem fold_sum (t : IntTy) : ∀ (l : List (BitVec t.bits)) (r : BitVec t.bits), fold1 (modAdd t) l = some r →
    r = BitVec.ofInt _ (l.map t.val).sum := by
  have h : ∀ (l : List (BitVec t.bits)) (a : BitVec t.bits), l.foldl (modAdd t) a = BitVec.ofInt _ (t.val a + (l.map t.val).sum) := by
    intro l
    induction l with
    | nil => intro a; simp [ofInt_val]
    | cons b l ih =>
      intro a
      simp only [List.foldl_cons, List.map_cons, List.sum_cons]
      rw [ih, BitVec.ofInt_add, ofInt_val, modAdd, BitVec.ofInt_add, BitVec.ofInt_add, BitVec.ofInt_add, BitVec.add_assoc]
  intro l r hr
  cases l with
  | nil => simp [fold1] at hr
  | cons b l =>
    simp only [fold1, Option.some.injEq] at hr
    rw [← hr, h]; rfl

/-- C27: in particular `reduce(x)` of integers is the exact sum of the elements modulo `2^w`. -/
theorem C27_reduce_is_sum_partial (fp : FpOps) {c : Cfg} (hc : c.Ok) (hT : c.T.flt = false) (hk : redKernel c = true) (x : c.Data) :
    vReduce fp c .plus x = .ok (BitVec.ofInt _ ((lanes c.N (elt c x)).map c.T.ity.val).sum) := by
  obtain ⟨r, hr, h⟩ := (C27_reduce_int_partial fp hc hT hk x).1
  rw [hr, fold_sum c.T.ity _ r h]

/-- C27: padding lanes are irrelevant: two vectors with equal elements have equal reductions. -/
theorem C27_padding_irrelevant (fp : FpOps) {c : Cfg} (hc : c.Ok) (hT : c.T.flt = false) (hk : redKernel c = true) (x y : c.Data)
    (h : ∀ i, i < c.N → elt c x i = elt c y i) : vReduce fp c .plus x = vReduce fp c .plus y := by
  rw [C27_reduce_is_sum_partial fp hc hT hk, C27_reduce_is_sum_partial fp hc hT hk]
  have : lanes c.N (elt c x) = lanes c.N (elt c y) := List.map_congr_left (fun i hi => h i (List.mem_range.1 hi))
  rw [this]

/-- the hypotheses are met: 7 x uint16 on SSSE3, 6 x int64 on AVX2, 20 x int16 on AVX -/
example (fp : FpOps) (x : exU16s.Data) :
    vReduce fp exU16s .plus x = .ok (BitVec.ofInt _ ((lanes 7 (elt exU16s x)).map exU16s.T.ity.val).sum) :=
  C27_reduce_is_sum_partial fp exU16s_ok rfl (by decide) x
example (fp : FpOps) (x : exI64p.Data) :
    vReduce fp exI64p .plus x = .ok (BitVec.ofInt _ ((lanes 6 (elt exI64p x)).map exI64p.T.ity.val).sum) :=
  C27_reduce_is_sum_partial fp exI64p_ok rfl (by decide) x
example (fp : FpOps) (x : exI16a.Data) :
    vReduce fp exI16a .plus x = .ok (BitVec.ofInt _ ((lanes 20 (elt exI16a x)).map exI16a.T.ity.val).sum) :=
  C27_reduce_is_sum_partial fp exI16a_ok rfl (by decide) x

/-! ### min and max -/
theorem minLane_sel (t : IntTy) (x z : BitVec t.bits) :
    (minLane t x z = x ∨ minLane t x z = z) ∧ t.val (minLane t x z) ≤ t.val x ∧ t.val (minLane t x z) ≤ t.val z := by
  unfold minLane; split
  · exact ⟨.inl rfl, Int.le_refl _, by omega⟩
  · exact ⟨.inr rfl, by omega, Int.le_refl _⟩
theorem maxLane_sel (t : IntTy) (x z : BitVec t.bits) :
    (maxLane t x z = x ∨ maxLane t x z = z) ∧ - t.val (maxLane t x z) ≤ - t.val x ∧ - t.val (maxLane t x z) ≤ - t.val z := by
  unfold maxLane; split
  · exact ⟨.inl rfl, Int.le_refl _, by omega⟩
  · exact ⟨.inr rfl, by omega, Int.le_refl _⟩

theorem isGreatest_of {α : Type} {key : α → Int} {N : Nat} {y : Nat → α} {r : α} (h : IsLeast (fun a => - key a) N y r) : IsGreatest key N y r :=
  ⟨h.1, fun i hi => by have := h.2 i hi; dsimp only at this; omega⟩

/-- integer limits -/
theorem val_le_max (T : Ety) (hT : T.Ok) (hf : T.flt = false) (x : BitVec T.w) :
    T.ity.val x ≤ T.ity.val (maxOf T) ∧ (T.ity.val (maxOf T) ≤ T.ity.val x → x = maxOf T) := by
  have hw := w_pos hT
  have hp : 2 ^ T.w = 2 * 2 ^ (T.w - 1) := by
    rw [show T.w = (T.w - 1) + 1 by omega, Nat.pow_succ]; simp [Nat.mul_comm]
  have hpos : 0 < 2 ^ (T.w - 1) := Nat.two_pow_pos _
  unfold maxOf; rw [hf]
  cases hs : T.signed
  · have e : T.ity.val (BitVec.allOnes T.w) = ((2 ^ T.w - 1 : Nat) : Int) := by simp [IntTy.val, hs, Ety.ity]
    have e2 : T.ity.val x = (x.toNat : Int) := by simp [IntTy.val, hs, Ety.ity]
    simp only [Bool.false_eq_true, if_false]
    rw [e, e2]
    have := x.isLt
    refine ⟨by omega, fun h => ?_⟩
    apply BitVec.eq_of_toNat_eq
    rw [BitVec.toNat_allOnes]; omega
  · have e : T.ity.val (BitVec.intMax T.w) = ((2 ^ (T.w - 1) - 1 : Nat) : Int) := by
      simp only [IntTy.val, hs, Ety.ity, if_true]
      rw [BitVec.toInt_eq_toNat_cond, BitVec.toNat_intMax, if_pos (by omega)]
    have e2 : T.ity.val x = x.toInt := by simp [IntTy.val, hs, Ety.ity]
    simp only [Bool.false_eq_true, if_false, if_true]
    rw [e, e2]
    have h1 := BitVec.toInt_lt (x := x)
    have hcast : ((2 ^ (T.w - 1) : Nat) : Int) = 2 ^ (T.w - 1) := by push_cast; rfl
    refine ⟨by omega, fun h => ?_⟩
    apply BitVec.eq_of_toInt_eq
    have e3 : (BitVec.intMax T.w).toInt = ((2 ^ (T.w - 1) - 1 : Nat) : Int) := by
      rw [← e]; simp [IntTy.val, hs, Ety.ity]
    rw [e3]; omega
theorem lowest_le_val (T : Ety) (hT : T.Ok) (hf : T.flt = false) (x : BitVec T.w) :
    T.ity.val (lowestOf T) ≤ T.ity.val x ∧ (T.ity.val x ≤ T.ity.val (lowestOf T) → x = lowestOf T) := by
  have hw := w_pos hT
  unfold lowestOf; rw [hf]
  cases hs : T.signed
  · have e2 : T.ity.val x = (x.toNat : Int) := by simp [IntTy.val, hs, Ety.ity]
    have e : T.ity.val (0 : BitVec T.w) = 0 := by simp [IntTy.val, hs, Ety.ity]
    simp only [Bool.false_eq_true, if_false]
    rw [e, e2]
    refine ⟨by omega, fun h => ?_⟩
    apply BitVec.eq_of_toNat_eq
    simp; omega
  · have e2 : T.ity.val x = x.toInt := by simp [IntTy.val, hs, Ety.ity]
    have e : T.ity.val (BitVec.intMin T.w) = (BitVec.intMin T.w).toInt := by simp [IntTy.val, hs, Ety.ity]
    simp only [Bool.false_eq_true, if_false, if_true]
    rw [e, e2, BitVec.toInt_intMin_of_pos hw]
    have h1 := BitVec.le_toInt (x := x)
    refine ⟨by omega, fun h => ?_⟩
    apply BitVec.eq_of_toInt_eq
    rw [BitVec.toInt_intMin_of_pos hw]; omega

/-- C27: integer `reduce_min`/`reduce_max` are the least and greatest of the elements `0 .. size()-1`, where an
x86 overload and the min/max kernel exist. -/
theorem C27_reduce_minmax_partial (fp : FpOps) {c : Cfg} (hc : c.Ok) (hT : c.T.flt = false) (ho : redMinmaxOverload c = true)
    (hk : redKernel c = true) (x : c.Data) :
    (∃ r, vReduceMin fp c x = .ok r ∧ IsLeast c.T.ity.val c.N (elt c x) r) ∧
    (∃ r, vReduceMax fp c x = .ok r ∧ IsGreatest c.T.ity.val c.N (elt c x) r) := by
  have hmm : minmaxExists c.s c.T (redV c) = true := by
    have hB := hc.ety.1
    unfold redMinmaxOverload at ho
    rw [hT] at ho
    unfold redV
    by_cases h41 : c.s.sse41 = true
    · simp only [h41, if_true, Bool.false_or, decide_eq_true_eq] at ho
      have h4 : c.T.bytes ≤ 4 := by omega
      split
      · simp [minmaxExists, h4, h41]
      · next hv =>
        cases hcv : c.v with
        | v128 => simp [minmaxExists, h4, h41]
        | v256 =>
          have : c.s.avx2 = true := by rw [hcv] at hv; simpa using hv
          simp [minmaxExists, h4, this]
    · have h41 : c.s.sse41 = false := by simpa using h41
      simp only [h41, Bool.false_eq_true, if_false, Bool.false_or, Bool.and_eq_true] at ho
      have hv : c.v = .v128 := by
        cases hcv : c.v with
        | v128 => rfl
        | v256 =>
          have h1 := hc.avx hcv
          have := hc.wf.2.2.1 h1
          rw [h41] at this; exact absurd this (by simp)
      rw [if_neg (by simp [hv]), hv]
      simp only [minmaxExists, h41, Bool.and_false, Bool.or_false]
      exact ho.2
  constructor
  · unfold vReduceMin; rw [if_pos ho]
    obtain ⟨r, M, hr, hM, _, _, h⟩ := redNative_comb hc (redKernel_hred hc hk) (fun v a b => minV c.s c.T v a b) (fun v => fillV v (maxOf c.T))
      (minLane c.T.ity) (maxOf c.T) (fun a b => by
        refine ⟨_, ?_, fun i hi => lane_map2 (minLane c.T.ity) a b (lane_bound hc.ety hi)⟩
        unfold minV minI; rw [hT]; simp [hmm]) (fun i hi => fillV_lane hc.ety _ hi) x
    exact ⟨r, hr, h.least_pad c.T.ity.val (fun _ => True) (fun x z _ _ => minLane_sel _ x z) hM (fun _ _ => trivial)
      (fun _ => ⟨trivial, 0, hc.pos, (val_le_max c.T hc.ety hT _).2⟩) hc.pos⟩
  · unfold vReduceMax; rw [if_pos ho]
    obtain ⟨r, M, hr, hM, _, _, h⟩ := redNative_comb hc (redKernel_hred hc hk) (fun v a b => maxV c.s c.T v a b) (fun v => fillV v (lowestOf c.T))
      (maxLane c.T.ity) (lowestOf c.T) (fun a b => by
        refine ⟨_, ?_, fun i hi => lane_map2 (maxLane c.T.ity) a b (lane_bound hc.ety hi)⟩
        unfold maxV maxI; rw [hT]; simp [hmm]) (fun i hi => fillV_lane hc.ety _ hi) x
    exact ⟨r, hr, isGreatest_of (h.least_pad (fun a => - c.T.ity.val a) (fun _ => True) (fun x z _ _ => maxLane_sel _ x z) hM (fun _ _ => trivial)
      (fun _ => ⟨trivial, 0, hc.pos, fun hle => (lowest_le_val c.T hc.ety hT _).2 (by omega)⟩) hc.pos)⟩
/-- met by 6 x int32 on SSE4.1 -/
example (fp : FpOps) (x : exI32.Data) : ∃ r, vReduceMin fp exI32 x = .ok r ∧ IsLeast exI32.T.ity.val 6 (elt exI32 x) r :=
  (C27_reduce_minmax_partial fp exI32_ok rfl (by decide) (by decide) x).1

/-! ### Floating point -/
theorem fmin_sel {w : Nat} (x z : BitVec w) (hx : fNaN x = false) (hz : fNaN z = false) :
    (fminLane x z = x ∨ fminLane x z = z) ∧ fKey (fminLane x z) ≤ fKey x ∧ fKey (fminLane x z) ≤ fKey z := by
  unfold fminLane fLt; rw [hx, hz]
  simp only [Bool.not_false, Bool.true_and, decide_eq_true_eq]
  split
  · exact ⟨.inl rfl, Int.le_refl _, by omega⟩
  · exact ⟨.inr rfl, by omega, Int.le_refl _⟩
theorem fmax_sel {w : Nat} (x z : BitVec w) (hx : fNaN x = false) (hz : fNaN z = false) :
    (fmaxLane x z = x ∨ fmaxLane x z = z) ∧ - fKey (fmaxLane x z) ≤ - fKey x ∧ - fKey (fmaxLane x z) ≤ - fKey z := by
  unfold fmaxLane fLt; rw [hx, hz]
  simp only [Bool.not_false, Bool.true_and, decide_eq_true_eq]
  split
  · exact ⟨.inl rfl, Int.le_refl _, by omega⟩
  · exact ⟨.inr rfl, by omega, Int.le_refl _⟩

/-- bit patterns of the infinities -/
def posInf (w : Nat) : BitVec w := BitVec.ofNat w (fInf w)
def negInf (w : Nat) : BitVec w := BitVec.ofNat w (2 ^ (w - 1) + fInf w)

theorem flt_w {T : Ety} (hT : T.Ok) (hf : T.flt = true) : T.w = 32 ∨ T.w = 64 := by
  rcases (hT.2 hf).1 with h | h <;> simp [Ety.w, h]

theorem fKey_extreme32 (x : BitVec 32) (hx : fNaN x = false) :
    (((fInf 32 : Nat) : Int) - 1 ≤ fKey x → x = 0x7f7fffff#32 ∨ x = 0x7f800000#32) ∧
    (fKey x ≤ - (((fInf 32 : Nat) : Int) - 1) → x = 0xff7fffff#32 ∨ x = 0xff800000#32) := by
  have hlt : x.toNat < 2 ^ 32 := x.isLt
  have hmag : fMag x = x.toNat % 2 ^ 31 := rfl
  have hm : x.msb = decide (2 ^ 31 ≤ x.toNat) := BitVec.msb_eq_decide x
  simp only [fNaN, decide_eq_false_iff_not, hmag, show fInf 32 = 0x7f800000 from rfl] at hx
  simp only [fKey, hmag, hm, decide_eq_true_eq, show fInf 32 = 0x7f800000 from rfl]
  constructor
  · intro h
    split at h
    · omega
    · have : x.toNat = 0x7f7fffff ∨ x.toNat = 0x7f800000 := by omega
      rcases this with e | e
      · exact .inl (BitVec.eq_of_toNat_eq e)
      · exact .inr (BitVec.eq_of_toNat_eq e)
  · intro h
    split at h
    · have : x.toNat = 0xff7fffff ∨ x.toNat = 0xff800000 := by omega
      rcases this with e | e
      · exact .inl (BitVec.eq_of_toNat_eq e)
      · exact .inr (BitVec.eq_of_toNat_eq e)
    · omega
theorem fKey_extreme64 (x : BitVec 64) (hx : fNaN x = false) :
    (((fInf 64 : Nat) : Int) - 1 ≤ fKey x → x = 0x7fefffffffffffff#64 ∨ x = 0x7ff0000000000000#64) ∧
    (fKey x ≤ - (((fInf 64 : Nat) : Int) - 1) → x = 0xffefffffffffffff#64 ∨ x = 0xfff0000000000000#64) := by
  have hlt : x.toNat < 2 ^ 64 := x.isLt
  have hmag : fMag x = x.toNat % 2 ^ 63 := rfl
  have hm : x.msb = decide (2 ^ 63 ≤ x.toNat) := BitVec.msb_eq_decide x
  simp only [fNaN, decide_eq_false_iff_not, hmag, show fInf 64 = 0x7ff0000000000000 from rfl] at hx
  simp only [fKey, hmag, hm, decide_eq_true_eq, show fInf 64 = 0x7ff0000000000000 from rfl]
  constructor
  · intro h
    split at h
    · omega
    · have : x.toNat = 0x7fefffffffffffff ∨ x.toNat = 0x7ff0000000000000 := by omega
      rcases this with e | e
      · exact .inl (BitVec.eq_of_toNat_eq e)
      · exact .inr (BitVec.eq_of_toNat_eq e)
  · intro h
    split at h
    · have : x.toNat = 0xffefffffffffffff ∨ x.toNat = 0xfff0000000000000 := by omega
      rcases this with e | e
      · exact .inl (BitVec.eq_of_toNat_eq e)
      · exact .inr (BitVec.eq_of_toNat_eq e)
    · omega

/-- the four extreme patterns -/
theorem float_limits {T : Ety} (hT : T.Ok) (hf : T.flt = true) :
    fNaN (maxOf T) = false ∧ fNaN (lowestOf T) = false ∧ fNaN (posInf T.w) = false ∧ fNaN (negInf T.w) = false ∧
    fKey (maxOf T) = (fInf T.w : Int) - 1 ∧ fKey (lowestOf T) = - ((fInf T.w : Int) - 1) ∧
    fKey (posInf T.w) = (fInf T.w : Int) ∧ fKey (negInf T.w) = - (fInf T.w : Int) ∧
    ∀ x : BitVec T.w, fNaN x = false → ((fInf T.w : Int) - 1 ≤ fKey x → x = maxOf T ∨ x = posInf T.w) ∧
      (fKey x ≤ - ((fInf T.w : Int) - 1) → x = lowestOf T ∨ x = negInf T.w) := by
  obtain ⟨bytes, flt, sg⟩ := T
  dsimp only at hf; subst hf
  have hb := hT.2 rfl
  dsimp only at hb
  obtain ⟨hb, rfl⟩ := hb
  rcases hb with rfl | rfl
  · exact ⟨by decide, by decide, by decide, by decide, by decide, by decide, by decide, by decide, fun x hx => fKey_extreme32 x hx⟩
  · exact ⟨by decide, by decide, by decide, by decide, by decide, by decide, by decide, by decide, fun x hx => fKey_extreme64 x hx⟩

/-- the float reductions always have kernels -/
theorem redKernel_flt {c : Cfg} (hc : c.Ok) (hT : c.T.flt = true) : redKernel c = true ∧ 4 ≤ c.T.bytes := by
  have : 4 ≤ c.T.bytes := by rcases (hc.ety.2 hT).1 with h | h <;> omega
  exact ⟨by unfold redKernel; simp [this], this⟩

/-- C27: the floating-point `reduce` with `std::plus` (`std::multiplies`) combines every element exactly once, in
an order fixed by the implementation; the only other operands are the `+0` (`1`) that stand in for padding lanes,
and there are none when the width is a multiple of the native extent. -/
theorem C27_reduce_float (fp : FpOps) {c : Cfg} (hc : c.Ok) (hT : c.T.flt = true) (x : c.Data) :
    (∃ r M, vReduce fp c .plus x = .ok r ∧ c.N ≤ M ∧ (c.N % c.e = 0 → M = c.N) ∧
      Comb (fp.add c.w) (fun i => if i < c.N then elt c x i else 0#c.w) (List.range M) r) ∧
    (∃ r M, vReduce fp c .multiplies x = .ok r ∧ c.N ≤ M ∧ (c.N % c.e = 0 → M = c.N) ∧
      Comb (fp.mul c.w) (fun i => if i < c.N then elt c x i else oneOf c.T) (List.range M) r) := by
  obtain ⟨hk, h4⟩ := redKernel_flt hc hT
  constructor
  · obtain ⟨r, M, hr, hM, hM2, _, h⟩ := redNative_comb hc (redKernel_hred hc hk) (fun v a b => some (addV fp c.s c.T v a b)) setzero
      (fp.add c.w) (0#c.w) (fun a b => ⟨_, rfl, fun i hi => by rw [addV, if_pos hT]; exact lane_map2 _ _ _ (lane_bound hc.ety hi)⟩)
      (fun i hi => lane_zero _ _ _) x
    refine ⟨r, M, ?_, hM, hM2, h⟩
    unfold vReduce; rw [if_pos h4]; exact hr
  · obtain ⟨r, M, hr, hM, hM2, _, h⟩ := redNative_comb hc (redKernel_hred hc hk) (fun v a b => mulV fp c.s c.T v a b) (fun v => fillV v (oneOf c.T))
      (fp.mul c.w) (oneOf c.T) (fun a b => ⟨_, by rw [mulV, if_pos hT], fun i hi => lane_map2 _ _ _ (lane_bound hc.ety hi)⟩)
      (fun i hi => fillV_lane hc.ety _ hi) x
    refine ⟨r, M, ?_, hM, hM2, h⟩
    unfold vReduce; rw [if_pos h4]; unfold vReduceBig; dsimp only; rw [if_pos hT]; exact hr

theorem redMin_float {c : Cfg} (hc : c.Ok) (hT : c.T.flt = true) (fp : FpOps) (x : c.Data) :
    ∃ r M, vReduceMin fp c x = .ok r ∧ c.N ≤ M ∧ (c.N % c.e = 0 → M = c.N) ∧ (c.N % extent c.T (redV c) ≠ 0 → c.N < M) ∧
      Comb fminLane (fun i => if i < c.N then elt c x i else maxOf c.T) (List.range M) r := by
  obtain ⟨hk, h4⟩ := redKernel_flt hc hT
  obtain ⟨r, M, hr, h⟩ := redNative_comb hc (redKernel_hred hc hk) (fun v a b => minV c.s c.T v a b) (fun v => fillV v (maxOf c.T))
    fminLane (maxOf c.T) (fun a b => ⟨_, by rw [minV, if_pos hT], fun i hi => lane_map2 _ _ _ (lane_bound hc.ety hi)⟩)
    (fun i hi => fillV_lane hc.ety _ hi) x
  refine ⟨r, M, ?_, h⟩
  unfold vReduceMin redMinmaxOverload; rw [hT]; exact hr
theorem redMax_float {c : Cfg} (hc : c.Ok) (hT : c.T.flt = true) (fp : FpOps) (x : c.Data) :
    ∃ r M, vReduceMax fp c x = .ok r ∧ c.N ≤ M ∧ (c.N % c.e = 0 → M = c.N) ∧ (c.N % extent c.T (redV c) ≠ 0 → c.N < M) ∧
      Comb fmaxLane (fun i => if i < c.N then elt c x i else lowestOf c.T) (List.range M) r := by
  obtain ⟨hk, h4⟩ := redKernel_flt hc hT
  obtain ⟨r, M, hr, h⟩ := redNative_comb hc (redKernel_hred hc hk) (fun v a b => maxV c.s c.T v a b) (fun v => fillV v (lowestOf c.T))
    fmaxLane (lowestOf c.T) (fun a b => ⟨_, by rw [maxV, if_pos hT], fun i hi => lane_map2 _ _ _ (lane_bound hc.ety hi)⟩)
    (fun i hi => fillV_lane hc.ety _ hi) x
  refine ⟨r, M, ?_, h⟩
  unfold vReduceMax redMinmaxOverload; rw [hT]; exact hr

/-- C27: floating-point `reduce_min`/`reduce_max` without NaN elements are the least/greatest element (in the IEEE
order `fKey`), provided the vector has no padding or not all elements are `+inf` (`-inf`). -/
theorem C27_reduce_minmax_float_partial (fp : FpOps) {c : Cfg} (hc : c.Ok) (hT : c.T.flt = true) (x : c.Data)
    (hn : ∀ i, i < c.N → fNaN (elt c x i) = false) :
    ((c.N % c.e = 0 ∨ ∃ i, i < c.N ∧ elt c x i ≠ posInf c.w) →
      ∃ r, vReduceMin fp c x = .ok r ∧ IsLeast fKey c.N (elt c x) r) ∧
    ((c.N % c.e = 0 ∨ ∃ i, i < c.N ∧ elt c x i ≠ negInf c.w) →
      ∃ r, vReduceMax fp c x = .ok r ∧ IsGreatest fKey c.N (elt c x) r) := by
  obtain ⟨l1, l2, l3, l4, l5, l6, l7, l8, l9⟩ := float_limits hc.ety hT
  constructor
  · intro hp
    obtain ⟨r, M, hr, hM, hM2, _, h⟩ := redMin_float hc hT fp x
    refine ⟨r, hr, h.least_pad fKey (fun a => fNaN a = false) (fun x z hx hz => fmin_sel x z hx hz) hM hn (fun hlt => ⟨l1, ?_⟩) hc.pos⟩
    rcases hp with hp | ⟨i, hi, hne⟩
    · rw [hM2 hp] at hlt; omega
    · refine ⟨i, hi, fun hle => ?_⟩
      rw [l5] at hle
      rcases (l9 _ (hn i hi)).1 hle with e | e
      · exact e
      · exact absurd e hne
  · intro hp
    obtain ⟨r, M, hr, hM, hM2, _, h⟩ := redMax_float hc hT fp x
    refine ⟨r, hr, isGreatest_of (h.least_pad (fun a => - fKey a) (fun a => fNaN a = false) (fun x z hx hz => fmax_sel x z hx hz) hM hn (fun hlt => ⟨l2, ?_⟩) hc.pos)⟩
    rcases hp with hp | ⟨i, hi, hne⟩
    · rw [hM2 hp] at hlt; omega
    · refine ⟨i, hi, fun hle => ?_⟩
      rw [l6] at hle
      rcases (l9 _ (hn i hi)).2 (by omega) with e | e
      · exact e
      · exact absurd e hne

/-- C27 violated: with padding, `reduce_min` of a vector of `+inf` is the largest finite value (the padding lanes
are filled with `numeric_limits::max()`), for every element type and width. -/
theorem C27_reduce_min_inf_violated (fp : FpOps) {c : Cfg} (hc : c.Ok) (hT : c.T.flt = true) (x : c.Data)
    (hp : c.N % extent c.T (redV c) ≠ 0) (hx : ∀ i, i < c.N → elt c x i = posInf c.w) :
    vReduceMin fp c x = .ok (maxOf c.T) ∧ maxOf c.T ≠ posInf c.w := by
  obtain ⟨l1, l2, l3, l4, l5, l6, l7, l8, l9⟩ := float_limits hc.ety hT
  obtain ⟨r, M, hr, hM, _, hM3, h⟩ := redMin_float hc hT fp x
  have hlt := hM3 hp
  have h1 := h.least_on fKey (fun a => fNaN a = false) (fun x z hx hz => fmin_sel x z hx hz) (fun i hi => by
    by_cases hh : i < c.N
    · simp only [hh, if_true, hx i hh]; exact l3
    · simp only [hh, if_false]; exact l1)
  have h2 := h1.2 c.N (List.mem_range.2 hlt)
  simp only [Nat.lt_irrefl, if_false] at h2
  constructor
  · rw [hr]
    congr 1
    obtain ⟨i, _, e⟩ := h1.1
    by_cases hh : i < c.N
    · simp only [hh, if_true, hx i hh] at e
      rw [e] at h2
      have : fKey (posInf c.w) = (fInf c.w : Int) := l7
      have : fKey (maxOf c.T) = (fInf c.w : Int) - 1 := l5
      omega
    · simpa only [hh, if_false] using e
  · intro he
    have h3 : fKey (maxOf c.T) = fKey (posInf c.w) := congrArg _ he
    have : fKey (posInf c.w) = (fInf c.w : Int) := l7
    have : fKey (maxOf c.T) = (fInf c.w : Int) - 1 := l5
    omega
/-- 6 floats on SSE2 satisfy the hypotheses -/
example (fp : FpOps) : vReduceMin fp exF32p (fun _ => fillV .v128 (posInf 32)) = .ok (maxOf .f32) :=
  (C27_reduce_min_inf_violated fp exF32p_ok rfl (fun _ => fillV .v128 (posInf 32)) (by decide)
    (fun i hi => fillV_lane exF32p_ok.ety (posInf 32) (idx_mod exF32p_ok i))).1

/-! ### Where `reduce` has no usable implementation -/
/-- C27 violated: `reduce` of 4- and 8-byte integers with any operation other than the five above, and with
`std::multiplies` before SSE4.1, flows off the end of the function (undefined); with `std::multiplies` 8-byte
integers do not compile from SSE4.1 on. -/
theorem C27_reduce_other_violated (fp : FpOps) (c : Cfg) (hT : c.T.flt = false) (h4 : 4 ≤ c.T.bytes) (x : c.Data) :
    (∀ f, vReduce fp c (.other f) x = .ub) ∧
    (c.s.sse41 = false → vReduce fp c .multiplies x = .ub) ∧
    (c.s.sse41 = true → c.T.bytes = 8 → vReduce fp c .multiplies x = .illFormed) := by
  unfold vReduce
  simp only [if_pos h4, vReduceBig, hT]
  refine ⟨fun _ => rfl, fun h => by simp [h], fun h h8 => by simp [h, h8]⟩
/-- C27 violated: hence `reduce_min`/`reduce_max` of 8-byte integers, and of 4-byte integers before SSE4.1, are undefined. -/
theorem C27_reduce_minmax64_violated (fp : FpOps) (c : Cfg) (hT : c.T.flt = false) (h4 : 4 ≤ c.T.bytes)
    (h : c.T.bytes = 8 ∨ c.s.sse41 = false) (x : c.Data) : vReduceMin fp c x = .ub ∧ vReduceMax fp c x = .ub := by
  have ho : redMinmaxOverload c = false := by
    unfold redMinmaxOverload; rw [hT]
    rcases h with h | h
    · simp [h]
    · have h1 : c.T.bytes ≠ 1 := by omega
      have h2 : c.T.bytes ≠ 2 := by omega
      simp [h, h1, h2]
  unfold vReduceMin vReduceMax
  rw [ho]
  exact ⟨(C27_reduce_other_violated fp c hT h4 x).1 _, (C27_reduce_other_violated fp c hT h4 x).1 _⟩
example (fp : FpOps) (x : exI64p.Data) : vReduceMin fp exI64p x = .ub := (C27_reduce_minmax64_violated fp exI64p rfl (by decide) (by decide) x).1
/-- C27 violated: with AVX2 the reductions of 1- and 2-byte integers in 32-byte vectors do not compile. -/
theorem C27_reduce_small_avx2_violated (fp : FpOps) (c : Cfg) (hc : c.Ok) (hT : c.T.flt = false) (h4 : c.T.bytes < 4) (hv : c.v = .v256)
    (h2 : c.s.avx2 = true) (x : c.Data) :
    vReduce fp c .plus x = .illFormed ∧ vReduceMin fp c x = .illFormed := by
  have hs41 : c.s.sse41 = true := hc.wf.2.2.1 (hc.wf.2.2.2.1 h2)
  have hs3 : c.s.ssse3 = true := hc.wf.2.1 hs41
  have hno : hredExists c.s c.T c.v = false := by rw [hv]; simp [hredExists]; omega
  have hnone : ∀ op idt, redNative c op idt x = .illFormed := by
    intro op idt
    unfold redNative
    rw [if_neg (by simp [h2]), if_neg (by simp [hno])]
  constructor
  · unfold vReduce; rw [if_neg (by omega)]; unfold vReduceSmall; rw [if_pos hs3]; exact hnone _ _
  · unfold vReduceMin redMinmaxOverload; rw [hs41]; simp only [if_true]; rw [if_pos (by simp; omega)]; exact hnone _ _
example (fp : FpOps) (x : exI16b.Data) : vReduce fp exI16b .plus x = .illFormed :=
  (C27_reduce_small_avx2_violated fp exI16b exI16b_ok rfl (by decide) rfl rfl x).1
/-- C27 violated: before SSSE3 the sum of eight 16-bit elements goes through the generic recursion, which drops
elements: the sum of `0, 1, 1, ...` is not 7. -/
theorem C27_reduce_fallback_violated (fp : FpOps) :
    vReduce fp exU16 .plus (vgenerate exU16 (fun i => if i = 0 then 0 else 1) (zeroData exU16)) ≠ .ok (7 : BitVec 16) := by
  intro h
  have h2 : vReduce fp exU16 .plus (vgenerate exU16 (fun i => if i = 0 then 0 else 1) (zeroData exU16)) = vReduce ⟨fun _ x _ => x, fun _ x _ => x, fun _ x _ => x, fun _ x _ => x⟩ exU16 .plus (vgenerate exU16 (fun i => if i = 0 then 0 else 1) (zeroData exU16)) := rfl
  rw [h2] at h
  have h3 : (match vReduce ⟨fun _ x _ => x, fun _ x _ => x, fun _ x _ => x, fun _ x _ => x⟩ exU16 .plus (vgenerate exU16 (fun i => if i = 0 then 0 else 1) (zeroData exU16)) with
    | .ok r => r.toNat | _ => 0) ≠ 7 := by decide +kernel
  exact h3 (by rw [h]; rfl)

end Dpm.X86
