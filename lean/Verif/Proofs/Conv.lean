import Verif.Model.Conv
import Verif.Proofs.Vector
import Verif.Proofs.Cvt
import Verif.Props.X86Cvt
import Verif.Proofs.ScalbnSpec
import Verif.Spec.Cast
/-
Lemmas for Props/X86Conv.lean.
-/
namespace Dpm.X86
open Dpm.Reg Dpm.Fp Dpm.Generic

/-- a store loop whose cells may be undefined -/
theorem optStore_some {α : Type} {f : Nat → Option α} {y : Nat → α} (n : Nat) (mem : Mem α) (hy : ∀ i, i < n → f i = some (y i)) :
    forRangeM n (fun i (m : Mem α) => (f i).map (fun v => m.set i v)) mem = some (fun p => if p < n then y p else mem p) := by
  induction n with
  | zero => simp [forRangeM]
  | succ n ih =>
    simp only [forRangeM, ih (fun i hi => hy i (by omega))]
    rw [Option.bind_some, hy n (by omega), Option.map_some]
    congr 1
    funext p
    by_cases hp : p = n
    · subst hp; rw [Mem.set_same, if_pos (by omega)]
    · rw [Mem.set_ne _ _ hp]
      by_cases h3 : p < n
      · rw [if_pos h3, if_pos (by omega)]
      · rw [if_neg h3, if_neg (by omega)]
/-- an undefined step makes the loop undefined -/
theorem optLoop_none {α σ : Type} {f : Nat → Option α} (st : Nat → α → σ → σ) {n k : Nat} (hk : k < n) (h : f k = none) (m : σ) :
    forRangeM n (fun i m => (f i).map (fun v => st i v m)) m = none := by
  induction n with
  | zero => omega
  | succ n ih =>
    simp only [forRangeM]
    by_cases hkn : k = n
    · subst hkn
      cases forRangeM k (fun i m => (f i).map (fun v => st i v m)) m with
      | none => rfl
      | some s => simp [h]
    · rw [ih (by omega)]; rfl
/-- an element loop into x86 storage -/
theorem optSet_some {c : Cfg} (hc : c.Ok) {f : Nat → Option (BitVec c.w)} {y : Nat → BitVec c.w} (n : Nat) (d : c.Data) (hy : ∀ i, i < n → f i = some (y i)) :
    ∃ r, forRangeM n (fun i (d : c.Data) => (f i).map (fun v => setElt c d i v)) d = some r ∧ ∀ k, elt c r k = if k < n then y k else elt c d k := by
  induction n with
  | zero => exact ⟨d, rfl, fun k => by simp⟩
  | succ n ih =>
    obtain ⟨r, hr, hk⟩ := ih (fun i hi => hy i (by omega))
    refine ⟨setElt c r n (y n), ?_, ?_⟩
    · simp only [forRangeM]
      rw [hr, Option.bind_some, hy n (by omega), Option.map_some]
    · intro k
      rw [elt_setElt hc, hk]
      by_cases h1 : k = n
      · subst h1; simp
      · by_cases h2 : k < n
        · rw [if_neg h1, if_pos h2, if_pos (by omega)]
        · rw [if_neg h1, if_neg h2, if_neg (by omega)]
theorem optSetG_some {α : Type} {N : Nat} {f : Nat → Option α} {y : Nat → α} (n : Nat) (d : GSimd α N) (hy : ∀ i, i < n → f i = some (y i)) :
    ∃ r, forRangeM n (fun i (d : GSimd α N) => (f i).map (fun v => GSimd.setAt d i v)) d = some r ∧ ∀ k, r.get k = if k < n then y k else d.get k := by
  induction n with
  | zero => exact ⟨d, rfl, fun k => by simp⟩
  | succ n ih =>
    obtain ⟨r, hr, hk⟩ := ih (fun i hi => hy i (by omega))
    refine ⟨GSimd.setAt r n (y n), ?_, ?_⟩
    · simp only [forRangeM]
      rw [hr, Option.bind_some, hy n (by omega), Option.map_some]
    · intro k
      show (r.data.set n (y n)) k = _
      by_cases h1 : k = n
      · subst h1; rw [Mem.set_same, if_pos (by omega)]
      · rw [Mem.set_ne _ _ h1, show r.data k = _ from hk k]
        by_cases h2 : k < n
        · rw [if_pos h2, if_pos (by omega)]
        · rw [if_neg h2, if_neg (by omega)]

/-- the value of a truncated integer -/
theorem val_of_wrap (t : IntTy) (z : Int) : ∃ k : Int, t.val (BitVec.ofInt t.bits z) = z + k * 2 ^ t.bits := by
  have h1 : ∃ k : Int, ((BitVec.ofInt t.bits z).toNat : Int) = z + k * 2 ^ t.bits := by
    refine ⟨-(z / 2 ^ t.bits), ?_⟩
    have h0 : (0 : Int) < 2 ^ t.bits := by exact_mod_cast Nat.two_pow_pos t.bits
    have h2 : ((2 ^ t.bits : Nat) : Int) = 2 ^ t.bits := by norm_cast
    rw [BitVec.toNat_ofInt, h2, Int.toNat_of_nonneg (Int.emod_nonneg _ (by omega))]
    have := Int.mul_ediv_add_emod z (2 ^ t.bits)
    rw [Int.mul_comm] at this
    rw [Int.neg_mul]; omega
  obtain ⟨k, hk⟩ := h1
  unfold IntTy.val
  split
  · rw [BitVec.toInt_eq_toNat_cond]
    split
    · exact ⟨k, hk⟩
    · refine ⟨k - 1, ?_⟩
      have h2 : ((2 ^ t.bits : Nat) : Int) = 2 ^ t.bits := by norm_cast
      rw [hk, h2]
      rw [Int.sub_mul, Int.one_mul]; omega
  · exact ⟨k, hk⟩
/-- representable values survive -/
theorem val_of_fits (t : IntTy) (hb : 0 < t.bits) {z : Int} (hz : t.fits z = true) : t.val (BitVec.ofInt t.bits z) = z := by
  unfold IntTy.fits at hz
  unfold IntTy.val
  split at hz
  · next h =>
    simp at hz
    rw [if_pos h, BitVec.toInt_ofInt_eq_self hb] <;> omega
  · next h =>
    simp at hz
    have h2 : ((2 ^ t.bits : Nat) : Int) = 2 ^ t.bits := by norm_cast
    rw [if_neg h, BitVec.toNat_ofInt, h2, Int.emod_eq_of_lt hz.1 hz.2, Int.toNat_of_nonneg hz.1]

theorem nan_of_mag_gt {w : Nat} {x : BitVec w} {m : Nat} (h : mag x = infMag w + m) (h1 : m < 2 ^ mb w) (h2 : m ≠ 0) : isNaN x = true := by
  have h3 := Nat.two_pow_pos (mb w)
  unfold isNaN expF manF
  rw [h]
  unfold infMag
  rw [Nat.add_comm, Nat.mul_comm, Nat.add_mul_div_left _ _ h3, Nat.div_eq_of_lt h1, Nat.add_mul_mod_self_left, Nat.mod_eq_of_lt h1]
  simp [h2]
theorem inf_of_mag {w : Nat} {x : BitVec w} (h : mag x = infMag w) : isInf x = true := by
  have h3 := Nat.two_pow_pos (mb w)
  unfold isInf expF manF
  rw [h]
  unfold infMag
  rw [Nat.mul_div_cancel _ h3, Nat.mul_mod_left]
  simp
theorem infMag_add_lt {w : Nat} (h : W w) {m : Nat} (h1 : m < 2 ^ mb w) : infMag w + m < 2 ^ (w - 1) := by
  rw [format h]; unfold infMag; rw [Nat.add_mul, Nat.one_mul]; omega
theorem pack_nan {w : Nat} (h : W w) (s : Bool) {m : Nat} (h1 : m < 2 ^ mb w) : isNaN (quiet (pack w s (infMag w + m))) = true := by
  by_cases h2 : m = 0
  · subst h2
    rcases h with h | h <;> subst h <;> cases s <;> decide
  · exact quiet_nan h (nan_of_mag_gt (mag_pack h (infMag_add_lt h h1)) h1 h2)
theorem not_nan_of_inf {w : Nat} {x : BitVec w} (h : isInf x = true) : isNaN x = false := by
  unfold isInf at h; unfold isNaN; simp at h; simp [h]
theorem widen_cast (x : BitVec 32) : IsFltCast x (widen x) := by
  unfold IsFltCast
  rw [if_neg (by decide)]
  refine ⟨fun h => ?_, fun h => ?_, fun h => ?_⟩
  · unfold widen; rw [if_pos h]
    refine pack_nan (Or.inr rfl) _ ?_
    have : manF x < 2 ^ 23 := Nat.mod_lt _ (by decide)
    show manF x * 2 ^ 29 < 2 ^ 52
    omega
  · have hn := not_nan_of_inf h
    unfold widen; rw [hn, if_neg (by decide), if_pos h]
    have hl : infMag 64 < 2 ^ (64 - 1) := by decide
    exact ⟨inf_of_mag (mag_pack (Or.inr rfl) hl), msb_pack (Or.inr rfl) hl⟩
  · rw [finite_eq] at h
    simp at h
    unfold widen; rw [h.1, h.2, if_neg (by decide), if_neg (by decide)]
    exact round_isRounded (Or.inr rfl) _ Nat.one_pos
theorem narrow_cast (x : BitVec 64) : IsFltCast x (narrow x) := by
  unfold IsFltCast
  rw [if_neg (by decide)]
  refine ⟨fun h => ?_, fun h => ?_, fun h => ?_⟩
  · unfold narrow; rw [if_pos h]
    refine pack_nan (Or.inl rfl) _ ?_
    have : manF x < 2 ^ 52 := Nat.mod_lt _ (by decide)
    show manF x / 2 ^ 29 < 2 ^ 23
    omega
  · have hn := not_nan_of_inf h
    unfold narrow; rw [hn, if_neg (by decide), if_pos h]
    have hl : infMag 32 < 2 ^ (32 - 1) := by decide
    exact ⟨inf_of_mag (mag_pack (Or.inl rfl) hl), msb_pack (Or.inl rfl) hl⟩
  · rw [finite_eq] at h
    simp at h
    unfold narrow; rw [h.1, h.2, if_neg (by decide), if_neg (by decide)]
    have := round_isRounded (w := 32) (Or.inl rfl) (neg x) (n := (val x).natAbs * 2 ^ (unitExp 32 - unitExp 64)) (d := 2 ^ (unitExp 64 - unitExp 32)) (Nat.two_pow_pos _)
    rw [show unitExp 32 - unitExp 64 = 0 from rfl, Nat.pow_zero, Nat.mul_one] at this
    rw [show unitExp 32 - unitExp 64 = 0 from rfl, Nat.pow_zero, Nat.mul_one]
    exact this
theorem fltConv_cast {F T : Ety} (hF : F.Ok) (hT : T.Ok) (h1 : F.flt = true) (h2 : T.flt = true) (x : BitVec F.w) : IsFltCast x (fltConv F T x) := by
  have hf := (hF.2 h1)
  have ht := (hT.2 h2)
  obtain ⟨b1, f1, s1⟩ := F
  obtain ⟨b2, f2, s2⟩ := T
  dsimp only at hf ht h1 h2
  unfold fltConv
  rcases hf.1 with h | h <;> rcases ht.1 with h' | h' <;> subst h <;> subst h' <;> dsimp only
  · unfold IsFltCast; rw [if_pos rfl]; exact congrArg BitVec.toNat (BitVec.setWidth_eq x)
  · rw [if_neg (by decide), if_pos rfl]
    have := widen_cast x
    have e1 : BitVec.setWidth 32 x = x := BitVec.setWidth_eq x
    rw [e1]
    have e2 : BitVec.setWidth 64 (widen x) = widen x := BitVec.setWidth_eq _
    exact (congrArg (IsFltCast x) e2).mpr this
  · rw [if_neg (by decide), if_neg (by decide)]
    have := narrow_cast x
    have e1 : BitVec.setWidth 64 x = x := BitVec.setWidth_eq x
    rw [e1]
    have e2 : BitVec.setWidth 32 (narrow x) = narrow x := BitVec.setWidth_eq _
    exact (congrArg (IsFltCast x) e2).mpr this
  · unfold IsFltCast; rw [if_pos rfl]; exact congrArg BitVec.toNat (BitVec.setWidth_eq x)
/-- defined casts give the right value -/
theorem scalarConv_some {F T : Ety} (hF : F.Ok) (hT : T.Ok) {x : BitVec F.w} (hx : CastDefined F T x) :
    ∃ y, scalarConv F T x = some y ∧ IsCast F T x y := by
  unfold scalarConv IsCast
  cases h1 : F.flt <;> cases h2 : T.flt <;> simp only [if_true, if_false, Bool.false_eq_true, Bool.true_eq_false]
  · exact ⟨_, rfl, val_of_wrap T.ity _⟩
  · exact ⟨_, rfl, ofInt_isRounded (fltW hT h2) _⟩
  · obtain ⟨h3, z, h4, h5⟩ := hx h1 h2
    have hz : z = Fp.toInt .zero x := isTrunc_unique (D_pos F.w) h4 (toInt_trunc _)
    refine ⟨_, by unfold castToInt; rw [if_pos ⟨h3, by rw [← hz]; exact h5⟩], h3, ?_⟩
    have hb : 0 < T.ity.bits := by
      have := hT.1
      show 0 < T.w
      unfold Ety.w; omega
    rw [← hz]
    exact (congrArg _ (val_of_fits T.ity hb h5)).mpr h4
  · exact ⟨_, rfl, fltConv_cast hF hT h1 h2 x⟩
/-- and the others are undefined -/
theorem scalarConv_none {F T : Ety} {x : BitVec F.w} (hx : ¬ CastDefined F T x) : scalarConv F T x = none := by
  unfold CastDefined at hx
  unfold scalarConv
  cases h1 : F.flt <;> cases h2 : T.flt <;> simp only [h1, h2] at hx
  · simp at hx
  · simp at hx
  · rw [if_neg (by simp), if_pos rfl]
    unfold castToInt
    refine if_neg fun h => hx fun _ _ => ⟨h.1, _, toInt_trunc x, h.2⟩
  · simp at hx
/-- the result of a cast is unique -/
theorem scalarConv_same (T : Ety) (x : BitVec T.w) : CastDefined T T x ∧ ∀ y, IsCast T T x y → y = x := by
  constructor
  · intro h1 h2; rw [h1] at h2; simp at h2
  · intro y hy
    unfold IsCast at hy
    cases h : T.flt <;> simp only [h, if_true, if_false, Bool.false_eq_true] at hy
    · obtain ⟨k, hk⟩ := hy
      have := congrArg (BitVec.ofInt T.ity.bits) hk
      have e1 : BitVec.ofInt T.ity.bits (T.ity.val x + k * 2 ^ T.w) = BitVec.ofInt T.ity.bits (T.ity.val x) := by
        apply BitVec.eq_of_toNat_eq
        rw [BitVec.toNat_ofInt, BitVec.toNat_ofInt]
        congr 1
        have h2 : ((2 ^ T.ity.bits : Nat) : Int) = 2 ^ T.w := by norm_cast
        rw [h2]; exact Int.add_mul_emod_self_right _ _ _
      rw [e1, Dpm.X86.ofInt_val, Dpm.X86.ofInt_val] at this
      exact this
    · unfold IsFltCast at hy
      rw [if_pos rfl] at hy
      exact BitVec.eq_of_toNat_eq hy

namespace VTy
/-- configurations the library instantiates -/
def Ok : VTy → Prop
  | x86 c => c.Ok
  | gen T _ => T.Ok
/-- the type belongs to the x86 backend -/
def IsX86 : VTy → Prop
  | x86 _ => True
  | gen _ _ => False
/-- the native registers are filled: `size()` is a multiple of the native extent (always for generic vectors) -/
def Whole : VTy → Prop
  | x86 c => c.N % c.e = 0
  | gen _ _ => True
theorem Ok.ety {a : VTy} (h : a.Ok) : a.T.Ok := by
  cases a with
  | x86 c => exact Cfg.Ok.ety h
  | gen T N => exact h

theorem storeT_ok {a : VTy} (h : a.Ok) (hw : a.Whole) (x : a.Obj) : ∃ m, a.storeT x = .ok m ∧ ∀ i, i < a.N → m i = a.get x i := by
  cases a with
  | x86 c =>
    obtain ⟨m, h1, h2⟩ := (C15_vector_aligned_partial h hw (f := .vector) rfl x (fun _ => 0#c.w)).1
    refine ⟨m, ?_, fun i hi => ?_⟩
    · show Out.ofUb (copyTo c .vector x c.N _) = _
      rw [h1]; rfl
    · exact (h2 i).trans (if_pos hi)
  | gen T N => exact ⟨_, rfl, fun i hi => copyTo_get (N := N) x id _ hi⟩
theorem storeT_ub {c : Cfg} (h : c.Ok) (hw : ¬ (x86 c).Whole) (x : (x86 c).Obj) : (x86 c).storeT x = .ub := by
  show Out.ofUb (copyTo c .vector x c.N _) = _
  rw [(C15_vector_aligned_violated h hw (f := .vector) rfl x _).1]; rfl
theorem loadT_ok {a : VTy} (h : a.Ok) (hw : a.Whole) (junk : a.Obj) (mem : Mem (BitVec a.T.w)) :
    ∃ r, a.loadT .vector junk mem = .ok r ∧ ∀ i, i < a.N → a.get r i = mem i := by
  cases a with
  | x86 c =>
    obtain ⟨r, h1, h2⟩ := (C15_vector_aligned_partial h hw (f := .vector) rfl junk mem).2
    refine ⟨r, ?_, fun i hi => h2 i hi⟩
    show Out.ofUb (copyFrom c .vector junk c.N mem) = _
    rw [h1]; rfl
  | gen T N => exact ⟨_, rfl, fun i hi => copyFrom_get (N := N) junk id mem hi⟩
theorem loadT_ub {a : VTy} (h : a.Ok) (hw : ¬ a.Whole) (junk : a.Obj) (mem : Mem (BitVec a.T.w)) : a.loadT .vector junk mem = .ub := by
  cases a with
  | x86 c =>
    show Out.ofUb (copyFrom c .vector junk c.N mem) = _
    rw [(C15_vector_aligned_violated h hw (f := .vector) rfl junk mem).2.1]; rfl
  | gen T N => exact absurd trivial hw
theorem castLoop_ok {F T : Ety} (hF : F.Ok) (hT : T.Ok) {n : Nat} {src : Mem (BitVec F.w)} (hd : ∀ i, i < n → CastDefined F T (src i)) :
    ∃ m, castLoop F T n src = some m ∧ ∀ i, i < n → IsCast F T (src i) (m i) := by
  have h : ∀ i, ∃ y, i < n → scalarConv F T (src i) = some y ∧ IsCast F T (src i) y := fun i => by
    by_cases hi : i < n
    · obtain ⟨y, hy⟩ := scalarConv_some hF hT (hd i hi)
      exact ⟨y, fun _ => hy⟩
    · exact ⟨0, fun h => absurd h hi⟩
  obtain ⟨y, hy⟩ := Classical.skolem.1 h
  refine ⟨_, optStore_some n _ (fun i hi => (hy i hi).1), fun i hi => ?_⟩
  rw [if_pos hi]; exact (hy i hi).2
theorem castLoop_none {F T : Ety} {n k : Nat} (hk : k < n) {src : Mem (BitVec F.w)} (hd : ¬ CastDefined F T (src k)) : castLoop F T n src = none :=
  optLoop_none (fun i v (m : Mem (BitVec T.w)) => m.set i v) hk (scalarConv_none hd) _
theorem loadConv_ok {F : Ety} (hF : F.Ok) {a : VTy} (h : a.Ok) (junk : a.Obj) {mem : Mem (BitVec F.w)} (hd : ∀ i, i < a.N → CastDefined F a.T (mem i)) :
    ∃ r, loadConv F a junk mem = .ok r ∧ ∀ i, i < a.N → IsCast F a.T (mem i) (a.get r i) := by
  have h1 : ∀ i, ∃ y, i < a.N → scalarConv F a.T (mem i) = some y ∧ IsCast F a.T (mem i) y := fun i => by
    by_cases hi : i < a.N
    · obtain ⟨y, hy⟩ := scalarConv_some hF h.ety (hd i hi)
      exact ⟨y, fun _ => hy⟩
    · exact ⟨0, fun h => absurd h hi⟩
  obtain ⟨y, hy⟩ := Classical.skolem.1 h1
  cases a with
  | x86 c =>
    obtain ⟨r, hr, hk⟩ := optSet_some h c.N junk (fun i hi => (hy i hi).1)
    refine ⟨r, congrArg Out.ofUb hr, fun i hi => ?_⟩
    exact (congrArg (IsCast F c.T (mem i)) ((hk i).trans (if_pos hi))).mpr (hy i hi).2
  | gen T N =>
    obtain ⟨r, hr, hk⟩ := optSetG_some (N := N) N junk (fun i hi => (hy i hi).1)
    refine ⟨r, congrArg Out.ofUb hr, fun i hi => ?_⟩
    exact (congrArg (IsCast F T (mem i)) ((hk i).trans (if_pos hi))).mpr (hy i hi).2
theorem loadConv_ub {F : Ety} {a : VTy} (junk : a.Obj) {mem : Mem (BitVec F.w)} {k : Nat} (hk : k < a.N) (hd : ¬ CastDefined F a.T (mem k)) :
    loadConv F a junk mem = .ub := by
  cases a with
  | x86 c => exact congrArg Out.ofUb (optLoop_none (fun i v (d : c.Data) => setElt c d i v) hk (scalarConv_none hd) junk)
  | gen T N => exact congrArg Out.ofUb (optLoop_none (fun i v (d : GSimd (BitVec T.w) N) => GSimd.setAt d i v) hk (scalarConv_none hd) junk)
end VTy
end Dpm.X86
