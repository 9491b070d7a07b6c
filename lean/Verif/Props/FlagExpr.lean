import Verif.Props.FlagsMath
import Verif.Model.FlagExpr
/-
Property C82 for expressions of any shape.
-/
namespace Dpm.X86
open Dpm Dpm.Reg Dpm.Util Dpm.Generic Dpm.Fp

theorem raised_append (F : FlagSem) {w : Nat} (s t : List (Ev w)) (e : Exc) : Raised F (s ++ t) e ↔ Raised F s e ∨ Raised F t e := by
  unfold Raised
  constructor
  · rintro ⟨ev, hev, h⟩
    rcases List.mem_append.1 hev with h' | h'
    · exact .inl ⟨ev, h', h⟩
    · exact .inr ⟨ev, h', h⟩
  · rintro (⟨ev, hev, h⟩ | ⟨ev, hev, h⟩)
    · exact ⟨ev, List.mem_append.2 (.inl hev), h⟩
    · exact ⟨ev, List.mem_append.2 (.inr hev), h⟩
theorem raised_single (F : FlagSem) {w : Nat} (ev : Ev w) (e : Exc) : Raised F [ev] e ↔ F w ev.1 ev.2.1 ev.2.2 e := by
  unfold Raised
  exact ⟨fun ⟨_, h, h'⟩ => by rw [List.mem_singleton.1 h] at h'; exact h', fun h => ⟨ev, List.mem_singleton.2 rfl, h⟩⟩
theorem raised_nil (F : FlagSem) {w : Nat} (e : Exc) : ¬ Raised F ([] : List (Ev w)) e := fun ⟨_, h, _⟩ => List.not_mem_nil h

section
variable {c : Cfg} (hc : c.Ok) (hf : c.T.flt = true) (F : FlagSem)
include hc hf
/-- every lane of a traced operator, those of the padding included -/
theorem elt_tArith (o : Arith) (a b : c.Data) {p : Nat} (hp : p < c.dataSize * c.e) :
    elt c (tArith ieee c o a b).1 p = o.fn (elt c a p) (elt c b p) := by
  have he : 0 < c.e := extent_pos hc.ety c.v
  have hj : p / c.e < c.dataSize := (Nat.div_lt_iff_lt_mul he).2 hp
  unfold tArith
  rw [traced_fst]
  unfold elt
  rw [vectorize2_eq c _ _ a b hj]
  have hk : (kArith ieee c o (a (p / c.e)) (b (p / c.e))).1 = map2 c.T.w o.fn (a (p / c.e)) (b (p / c.e)) := by
    cases o
    · show addV ieee c.s c.T c.v _ _ = _
      unfold addV; rw [if_pos hf]; rfl
    · show subV ieee c.s c.T c.v _ _ = _
      unfold subV; rw [if_pos hf]; rfl
    · show (mulV ieee c.s c.T c.v _ _).getD 0 = _
      unfold mulV; rw [if_pos hf]; rfl
    · rfl
  rw [hk]
  exact lane_map2 _ _ _ (lane_bound hc.ety (idx_mod hc p))
omit hf in
theorem elt_tSqrt (a : c.Data) {p : Nat} (hp : p < c.dataSize * c.e) : elt c (tSqrt c a).1 p = fsqrt (elt c a p) := by
  have he : 0 < c.e := extent_pos hc.ety c.v
  have hj : p / c.e < c.dataSize := (Nat.div_lt_iff_lt_mul he).2 hp
  unfold tSqrt
  rw [traced_fst]
  unfold elt
  rw [vectorize2_eq c _ _ a a hj]
  exact sqrtL_lane hc.ety (idx_mod hc p) _
theorem elt_neg (a : c.Data) {p : Nat} (hp : p < c.dataSize * c.e) :
    elt c (vectorize1 c (fun _ x => negV c.s c.T c.v x) (zeroData c) a) p = elt c a p ^^^ BitVec.intMin c.w := by
  have he : 0 < c.e := extent_pos hc.ety c.v
  have hj : p / c.e < c.dataSize := (Nat.div_lt_iff_lt_mul he).2 hp
  unfold elt
  rw [vectorize1_eq c _ _ a hj]
  unfold negV bitXor
  rw [if_pos hf, show lane c.w (a (p / c.e) ^^^ fillV c.v (BitVec.intMin c.T.w)) (p % c.e) = _ from lane_xor _ _ _ _, fillV_lane hc.ety _ (idx_mod hc p)]
/-- the lanes of an expression, and what it signals: everything its evaluation signals in some lane -/
theorem xEval_lanes (env : Nat → c.Data) (x : FExp c.w) :
    (∀ p, p < c.dataSize * c.e → elt c (xEval c env x).1 p = (x.scalar (fun k => elt c (env k) p)).1) ∧
    (∀ e, Raised F (xEval c env x).2 e ↔ ∃ p, p < c.dataSize * c.e ∧ x.signals F (fun k => elt c (env k) p) e) := by
  have hcap : ∀ (P Q : Nat → Prop), ((∃ p, p < c.dataSize * c.e ∧ P p) ∨ ∃ p, p < c.dataSize * c.e ∧ Q p) ↔ ∃ p, p < c.dataSize * c.e ∧ (P p ∨ Q p) :=
    fun P Q => ⟨fun h => h.elim (fun ⟨p, h1, h2⟩ => ⟨p, h1, .inl h2⟩) (fun ⟨p, h1, h2⟩ => ⟨p, h1, .inr h2⟩),
      fun ⟨p, h1, h2⟩ => h2.elim (fun h => .inl ⟨p, h1, h⟩) (fun h => .inr ⟨p, h1, h⟩)⟩
  have sig : ∀ (y : FExp c.w) en e, y.signals F en e ↔ Raised F (y.scalar en).2 e := fun _ _ _ => Iff.rfl
  induction x with
  | var k => exact ⟨fun _ _ => rfl, fun e => ⟨fun h => absurd h (raised_nil F e), fun ⟨_, _, h⟩ => absurd h (raised_nil F e)⟩⟩
  | const v => exact ⟨fun p hp => pad_vbroadcast hc v _ hp, fun e => ⟨fun h => absurd h (raised_nil F e), fun ⟨_, _, h⟩ => absurd h (raised_nil F e)⟩⟩
  | bin o a b iha ihb =>
    refine ⟨fun p hp => ?_, fun e => ?_⟩
    · show elt c (tArith ieee c o (xEval c env a).1 (xEval c env b).1).1 p = _
      rw [elt_tArith hc hf _ _ _ hp, iha.1 p hp, ihb.1 p hp]; rfl
    · show Raised F ((xEval c env a).2 ++ (xEval c env b).2 ++ (tArith ieee c o (xEval c env a).1 (xEval c env b).1).2) e ↔ _
      rw [raised_append, raised_append, iha.2 e, ihb.2 e, raised_arith hc, hcap, hcap]
      refine exists_congr fun p => and_congr_right fun hp => ?_
      rw [iha.1 p hp, ihb.1 p hp, sig (.bin o a b)]
      show _ ↔ Raised F (_ ++ _ ++ [_]) e
      rw [raised_append, raised_append, raised_single]; rfl
  | binS o a s iha =>
    refine ⟨fun p hp => ?_, fun e => ?_⟩
    · show elt c (tArith ieee c o (xEval c env a).1 (fillData c s)).1 p = _
      rw [elt_tArith hc hf _ _ _ hp, iha.1 p hp, elt_fillData hc]; rfl
    · show Raised F ((xEval c env a).2 ++ (tArithS ieee c o (xEval c env a).1 s).2) e ↔ _
      rw [raised_append, iha.2 e, raised_arithS hc, hcap]
      refine exists_congr fun p => and_congr_right fun hp => ?_
      rw [iha.1 p hp, sig (.binS o a s)]
      show _ ↔ Raised F (_ ++ [_]) e
      rw [raised_append, raised_single]; rfl
  | neg a iha =>
    refine ⟨fun p hp => ?_, fun e => iha.2 e⟩
    show elt c (vectorize1 c (fun _ x => negV c.s c.T c.v x) (zeroData c) (xEval c env a).1) p = (a.scalar (fun k => elt c (env k) p)).1 ^^^ BitVec.intMin c.w
    rw [elt_neg hc hf _ hp, iha.1 p hp]
  | sqrt a iha =>
    refine ⟨fun p hp => ?_, fun e => ?_⟩
    · show elt c (tSqrt c (xEval c env a).1).1 p = _
      rw [elt_tSqrt hc _ hp, iha.1 p hp]; rfl
    · show Raised F ((xEval c env a).2 ++ (tSqrt c (xEval c env a).1).2) e ↔ _
      rw [raised_append, iha.2 e, raised_sqrt hc, hcap]
      refine exists_congr fun p => and_congr_right fun hp => ?_
      rw [iha.1 p hp, sig (.sqrt a)]
      show _ ↔ Raised F (_ ++ [_]) e
      rw [raised_append, raised_single]; rfl

/-- C82 for expressions: the value of every element is that of the scalar expression, and whatever the scalar expression signals for some element
is signalled by the expression of vectors - for every size and padding. -/
theorem C82_expr_kept (env : Nat → c.Data) (x : FExp c.w) (i : Nat) (hi : i < c.N) :
    elt c (xEval c env x).1 i = (x.scalar (fun k => elt c (env k) i)).1 ∧
    ∀ e, x.signals F (fun k => elt c (env k) i) e → Raised F (xEval c env x).2 e := by
  have hp : i < c.dataSize * c.e := Nat.lt_of_lt_of_le hi (cap_ge hc)
  exact ⟨(xEval_lanes hc hf F env x).1 i hp, fun e h => ((xEval_lanes hc hf F env x).2 e).2 ⟨i, hp, h⟩⟩
/-- C82 for expressions, proved for vectors without padding: an expression of any shape signals an exception exactly if the scalar expression does
for some element. -/
theorem C82_expr_partial (hN : c.N % c.e = 0) (env : Nat → c.Data) (x : FExp c.w) (e : Exc) :
    Raised F (xEval c env x).2 e ↔ ∃ i, i < c.N ∧ x.signals F (fun k => elt c (env k) i) e := by
  rw [(xEval_lanes hc hf F env x).2 e]
  exact full_iff hc hN _

/-! ### expressions on the padding -/
omit hc hf in
theorem zero_cases {w : Nat} (h : W w) {x : BitVec w} (hx : isZero x = true) : x = 0#w ∨ x = BitVec.intMin w := by
  rcases h with rfl | rfl
  · unfold isZero expF manF mag mb at hx
    simp only [Bool.and_eq_true, decide_eq_true_eq] at hx
    have h1 := hx.1; have h2 := hx.2
    have : x.toNat = 0 ∨ x.toNat = 2 ^ 31 := by
      have := x.isLt
      simp at h1 h2
      omega
    rcases this with h | h
    · exact .inl (BitVec.eq_of_toNat_eq (by simpa using h))
    · exact .inr (BitVec.eq_of_toNat_eq (by rw [h]; decide))
  · unfold isZero expF manF mag mb at hx
    simp only [Bool.and_eq_true, decide_eq_true_eq] at hx
    have h1 := hx.1; have h2 := hx.2
    have : x.toNat = 0 ∨ x.toNat = 2 ^ 63 := by
      have := x.isLt
      simp at h1 h2
      omega
    rcases this with h | h
    · exact .inl (BitVec.eq_of_toNat_eq (by simpa using h))
    · exact .inr (BitVec.eq_of_toNat_eq (by rw [h]; decide))
omit hc hf in
theorem zero_fn {w : Nat} (h : W w) (o : Arith) (ho : o ≠ .div) {x y : BitVec w} (hx : isZero x = true) (hy : isZero y = true) : isZero (o.fn x y) = true := by
  rcases zero_cases h hx with rfl | rfl <;> rcases zero_cases h hy with rfl | rfl <;> rcases h with rfl | rfl <;>
    cases o <;> first | exact absurd rfl ho | decide +kernel
omit hc hf in
theorem zero_neg {w : Nat} (h : W w) {x : BitVec w} (hx : isZero x = true) : isZero (x ^^^ BitVec.intMin w) = true := by
  rcases zero_cases h hx with rfl | rfl <;> rcases h with rfl | rfl <;> decide +kernel
omit hc hf in
theorem zero_sqrt {w : Nat} (h : W w) {x : BitVec w} (hx : isZero x = true) : isZero (fsqrt x) = true := by
  rcases zero_cases h hx with rfl | rfl <;> rcases h with rfl | rfl <;> decide +kernel
omit hc hf in
/-- sums, differences, products and square roots of zeros are zeros and signal nothing -/
theorem plain_zero {w : Nat} (h : W w) {F : FlagSem} (hF : Conforms F) (env : Nat → BitVec w) (henv : ∀ k, isZero (env k) = true) (x : FExp w) (hx : x.plain = true) :
    isZero (x.scalar env).1 = true ∧ ∀ e, ¬ x.signals F env e := by
  induction x with
  | var k => exact ⟨henv k, fun e => raised_nil F e⟩
  | const v => exact absurd hx (by simp [FExp.plain])
  | bin o a b iha ihb =>
    simp only [FExp.plain, Bool.and_eq_true, decide_eq_true_eq] at hx
    have ha := iha hx.1.2; have hb := ihb hx.2
    refine ⟨zero_fn h o hx.1.1 ha.1 hb.1, fun e => ?_⟩
    show ¬ Raised F (_ ++ _ ++ [_]) e
    rw [raised_append, raised_append, raised_single]
    rintro ((h' | h') | h')
    · exact ha.2 e h'
    · exact hb.2 e h'
    · refine hF.zeroExact _ _ _ _ _ ?_ ha.1 hb.1 h'
      have := hx.1.1
      cases o <;> simp [Arith.opc] at this ⊢
  | binS o a s iha => exact absurd hx (by simp [FExp.plain])
  | neg a iha => exact ⟨zero_neg h (iha hx).1, (iha hx).2⟩
  | sqrt a iha =>
    have ha := iha hx
    refine ⟨zero_sqrt h ha.1, fun e => ?_⟩
    show ¬ Raised F (_ ++ [_]) e
    rw [raised_append, raised_single]
    rintro (h' | h')
    · exact ha.2 e h'
    · exact sqrt_zero hF ha.1 _ _ h'
/-- C82 for expressions without division and constants, of vectors built by generators, for every size: exactly what the scalar expression signals
for some element. -/
theorem C82_expr_generated (hF : Conforms F) (x : FExp c.w) (hx : x.plain = true) (g : Nat → Nat → BitVec c.w) (j : Nat → c.Data) (e : Exc) :
    Raised F (xEval c (fun k => vgenerate c (g k) (j k)) x).2 e ↔ ∃ i, i < c.N ∧ x.signals F (fun k => g k i) e := by
  rw [(xEval_lanes hc hf F _ x).2 e]
  constructor
  · rintro ⟨p, hp, h⟩
    by_cases hi : p < c.N
    · simp only [elt_vgenerate hc _ _ hi] at h; exact ⟨p, hi, h⟩
    · have hz : (fun k => elt c (vgenerate c (g k) (j k)) p) = fun _ => 0#c.w := funext fun k => pad_vgenerate hc (g k) (j k) hp (by omega)
      rw [hz] at h
      exact absurd h ((plain_zero (fltW hc.ety hf) hF _ (fun _ => zero_isZero _) x hx).2 e)
  · rintro ⟨i, hi, h⟩
    refine ⟨i, Nat.lt_of_lt_of_le hi (cap_ge hc), ?_⟩
    simp only [elt_vgenerate hc _ _ hi]; exact h
end

/-! ### the generic backend -/
theorem gTraced_get {w N : Nat} (f : BitVec w → BitVec w → BitVec w) (o : FOpc) (a b : GSimd (BitVec w) N) {i : Nat} (hi : i < N) :
    (gTraced 0#w f o a b).1.get i = f (a.get i) (b.get i) := by
  have h1 := (gTraced_ok 0#w f o a b).1
  have h2 := lift2_spec 0#w (fun x y => some (f x y)) a b
  rw [← h1] at h2
  have := h2.2 _ rfl i hi
  exact (Option.some.inj this).symm
/-- C82 for expressions of generic vectors: the elements, and exactly what the scalar expression signals for some element, for every size. -/
theorem C82_expr_generic (F : FlagSem) {w N : Nat} (env : Nat → GSimd (BitVec w) N) (x : FExp w) :
    (∀ i, i < N → (gEval env x).1.get i = (x.scalar (fun k => (env k).get i)).1) ∧
    (∀ e, Raised F (gEval env x).2 e ↔ ∃ i, i < N ∧ x.signals F (fun k => (env k).get i) e) := by
  have hcap : ∀ (P Q : Nat → Prop), ((∃ p, p < N ∧ P p) ∨ ∃ p, p < N ∧ Q p) ↔ ∃ p, p < N ∧ (P p ∨ Q p) :=
    fun P Q => ⟨fun h => h.elim (fun ⟨p, h1, h2⟩ => ⟨p, h1, .inl h2⟩) (fun ⟨p, h1, h2⟩ => ⟨p, h1, .inr h2⟩),
      fun ⟨p, h1, h2⟩ => h2.elim (fun h => .inl ⟨p, h1, h⟩) (fun h => .inr ⟨p, h1, h⟩)⟩
  have sig : ∀ (y : FExp w) en e, y.signals F en e ↔ Raised F (y.scalar en).2 e := fun _ _ _ => Iff.rfl
  have hfill : ∀ (s : BitVec w) i, i < N → (GSimd.fill (fun _ => 0#w) s : GSimd (BitVec w) N).get i = s := fun s i hi => by
    simp [GSimd.fill, GSimd.get, forRange_store, hi]
  induction x with
  | var k => exact ⟨fun _ _ => rfl, fun e => ⟨fun h => absurd h (raised_nil F e), fun ⟨_, _, h⟩ => absurd h (raised_nil F e)⟩⟩
  | const v => exact ⟨fun p hp => hfill v p hp, fun e => ⟨fun h => absurd h (raised_nil F e), fun ⟨_, _, h⟩ => absurd h (raised_nil F e)⟩⟩
  | bin o a b iha ihb =>
    refine ⟨fun p hp => ?_, fun e => ?_⟩
    · show (gTraced 0#w o.fn o.opc (gEval env a).1 (gEval env b).1).1.get p = _
      rw [gTraced_get _ _ _ _ hp, iha.1 p hp, ihb.1 p hp]; rfl
    · show Raised F ((gEval env a).2 ++ (gEval env b).2 ++ (gTraced 0#w o.fn o.opc (gEval env a).1 (gEval env b).1).2) e ↔ _
      rw [raised_append, raised_append, iha.2 e, ihb.2 e, (C82_generic F _ _ e).2, hcap, hcap]
      refine exists_congr fun p => and_congr_right fun hp => ?_
      rw [iha.1 p hp, ihb.1 p hp, sig (.bin o a b)]
      show _ ↔ Raised F (_ ++ _ ++ [_]) e
      rw [raised_append, raised_append, raised_single]; rfl
  | binS o a s iha =>
    refine ⟨fun p hp => ?_, fun e => ?_⟩
    · show (gTraced 0#w o.fn o.opc (gEval env a).1 (GSimd.fill (fun _ => 0#w) s)).1.get p = _
      rw [gTraced_get _ _ _ _ hp, iha.1 p hp, hfill s p hp]; rfl
    · show Raised F ((gEval env a).2 ++ (gTraced 0#w o.fn o.opc (gEval env a).1 (GSimd.fill (fun _ => 0#w) s)).2) e ↔ _
      rw [raised_append, iha.2 e, (C82_generic F _ _ e).2, hcap]
      refine exists_congr fun p => and_congr_right fun hp => ?_
      rw [iha.1 p hp, hfill s p hp, sig (.binS o a s)]
      show _ ↔ Raised F (_ ++ [_]) e
      rw [raised_append, raised_single]; rfl
  | neg a iha =>
    refine ⟨fun p hp => ?_, fun e => iha.2 e⟩
    have h2 := lift1_spec 0#w (GenericMath.fpScalar w).neg (gEval env a).1
    show ((Generic.opNeg (GenericMath.fpScalar w) (gEval env a).1).getD (gEval env a).1).get p = _
    have h3 : ∃ r, Generic.opNeg (GenericMath.fpScalar w) (gEval env a).1 = some r := by
      cases h : Generic.opNeg (GenericMath.fpScalar w) (gEval env a).1 with
      | some r => exact ⟨r, rfl⟩
      | none =>
        have h4 : (lift1 0#w (GenericMath.fpScalar w).neg (gEval env a).1).map GSimd.get = none := by
          show (Generic.opNeg (GenericMath.fpScalar w) (gEval env a).1).map GSimd.get = none; rw [h]; rfl
        obtain ⟨i, _, hn⟩ := h2.1.1 h4
        cases hn
    obtain ⟨r, hr⟩ := h3
    have h5 := h2.2 r.get (by show (Generic.opNeg (GenericMath.fpScalar w) (gEval env a).1).map GSimd.get = _; rw [hr]; rfl) p hp
    rw [hr]
    show r.get p = (a.scalar _).1 ^^^ BitVec.intMin w
    rw [← iha.1 p hp]
    exact (Option.some.inj h5).symm
  | sqrt a iha =>
    refine ⟨fun p hp => ?_, fun e => ?_⟩
    · show (gTraced 0#w (fun v _ => fsqrt v) .sqrt (gEval env a).1 (gEval env a).1).1.get p = _
      rw [gTraced_get _ _ _ _ hp, iha.1 p hp]; rfl
    · show Raised F ((gEval env a).2 ++ (gTraced 0#w (fun v _ => fsqrt v) .sqrt (gEval env a).1 (gEval env a).1).2) e ↔ _
      rw [raised_append, iha.2 e, (C82_generic F _ _ e).2, hcap]
      refine exists_congr fun p => and_congr_right fun hp => ?_
      rw [iha.1 p hp, sig (.sqrt a)]
      show _ ↔ Raised F (_ ++ [_]) e
      rw [raised_append, raised_single]; rfl

/-! ### examples -/
/-- `sqrt(a * b - c)` -/
def exExp {w : Nat} : FExp w := .sqrt (.bin .sub (.bin .mul (.var 0) (.var 1)) (.var 2))
/-- with `a = b = c = 1` in five floats nothing is signalled, padding or not -/
example : ¬ Raised strict (xEval exFlag (fun _ => vgenerate exFlag (fun _ => fOne exFlag) (zeroData _)) exExp).2 .invalid := by
  intro h
  obtain ⟨i, _, ev, hev, h⟩ := (C82_expr_generated exFlag_ok rfl strict strict_conforms exExp rfl (fun _ _ => fOne exFlag) (fun _ => zeroData _) .invalid).1 h
  simp only [exExp, FExp.scalar, List.mem_append, List.mem_singleton, List.not_mem_nil, false_or, or_false] at hev
  rcases hev with (rfl | rfl) | rfl <;> exact absurd h (by unfold strict; decide +kernel)
/-- `(a - a) / a` in five floats signals invalid from the padding -/
example : Raised strict (xEval exFlag (fun _ => vgenerate exFlag (fun _ => fOne exFlag) (zeroData _)) (.bin .div (.bin .sub (.var 0) (.var 0)) (.var 0))).2 .invalid := by
  refine ((xEval_lanes exFlag_ok rfl strict _ _).2 _).2 ⟨5, by decide, ?_⟩
  simp only [pad_vgenerate exFlag_ok (fun _ => fOne exFlag) (zeroData _) (p := 5) (by decide) (by decide)]
  exact ⟨_, List.mem_append.2 (.inr (List.mem_singleton.2 rfl)), by unfold strict; decide +kernel⟩
end Dpm.X86
