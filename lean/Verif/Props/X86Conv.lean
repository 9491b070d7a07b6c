import Verif.Proofs.Conv
/-
C62: conversions between vectors of different element types and backends.
`IsCast F T x y` (Spec/Cast.lean): `y` is what C++ `static_cast<T>(x)` gives; `CastDefined`: that cast is not undefined.
`convert`: the conversion operator, `to_fixed_size`, `to_native`, `to_compatible`; `castTo`: `simd_cast`, `static_simd_cast`.
-/
namespace Dpm.X86
open Dpm.Reg Dpm.Fp Dpm.Generic VTy

/-! ### The conversion operators -/
theorem isCast_refl {T : Ety} {x y : BitVec T.w} (h : y = x) : IsCast T T x y := by
  subst h
  unfold IsCast
  split
  · unfold IsFltCast; rw [if_pos rfl]
  · exact ⟨0, by simp⟩

theorem isCast_cast {F T : Ety} (h : F = T) {x : BitVec F.w} {y : BitVec T.w} {hw : F.w = T.w} (hy : y = x.cast hw) : IsCast F T x y := by
  subst h; exact isCast_refl hy
/-- C62, conversion operators: every element is converted by `static_cast`.  Partial: a conversion from an x86 vector needs
both sizes to be multiples of the native extents; one from a generic vector needs nothing. -/
theorem C62_convert_partial {a b : VTy} (ha : a.Ok) (hb : b.Ok) (hN : a.N = b.N) (hw : a.IsX86 → a.Whole ∧ b.Whole)
    (junk : b.Obj) (x : a.Obj) (hd : ∀ i, i < a.N → CastDefined a.T b.T (a.get x i)) :
    ∃ r, convert a b junk x = .ok r ∧ ∀ i, i < a.N → IsCast a.T b.T (a.get x i) (b.get r i) := by
  cases a with
  | x86 c =>
    obtain ⟨hw1, hw2⟩ := hw trivial
    obtain ⟨m, h1, h2⟩ := storeT_ok (a := x86 c) ha hw1 x
    unfold convert
    dsimp only
    rw [h1]
    show ∃ r, (if h : c.T = b.T then _ else _) = _ ∧ _
    by_cases hT : c.T = b.T
    · obtain ⟨r, h3, h4⟩ := loadT_ok hb hw2 junk (fun i => (m i).cast (by show c.T.w = _; rw [hT]))
      refine ⟨r, by rw [dif_pos hT]; exact h3, fun i hi => ?_⟩
      have h5 := h4 i (hN ▸ hi)
      rw [h2 i hi] at h5
      exact isCast_cast hT h5
    · obtain ⟨m2, h3, h4⟩ := castLoop_ok (n := c.N) (src := m) (Cfg.Ok.ety ha) hb.ety (fun i hi => by rw [h2 i hi]; exact hd i hi)
      obtain ⟨r, h5, h6⟩ := loadT_ok hb hw2 junk m2
      refine ⟨r, ?_, fun i hi => ?_⟩
      · rw [dif_neg hT]
        show (Out.ofUb (castLoop c.T b.T c.N m)).bind _ = _
        rw [h3]; exact h5
      · rw [h6 i (hN ▸ hi), ← h2 i hi]; exact h4 i hi
  | gen T N => exact hN ▸ loadConv_ok (F := T) ha hb junk (fun i hi => hd i (hN ▸ hi))

/-- A conversion that needs an undefined `static_cast` (a floating-point value beyond the integer type) is undefined. -/
theorem C62_convert_undefined {a b : VTy} (ha : a.Ok) (hN : a.N = b.N) (junk : b.Obj) (x : a.Obj) {i : Nat} (hi : i < a.N)
    (hd : ¬ CastDefined a.T b.T (a.get x i)) : convert a b junk x = .ub := by
  cases a with
  | x86 c =>
    unfold convert
    dsimp only
    by_cases hw : (x86 c).Whole
    · obtain ⟨m, h1, h2⟩ := storeT_ok (a := x86 c) ha hw x
      rw [h1]
      show (if h : c.T = b.T then _ else _) = _
      rw [dif_neg (fun h => hd fun h1 h2 => by
        have h1' : c.T.flt = true := h1
        rw [h] at h1'; rw [h1'] at h2; simp at h2)]
      show (Out.ofUb (castLoop c.T b.T c.N m)).bind _ = _
      rw [castLoop_none hi (by rw [h2 i hi]; exact hd)]; rfl
    · rw [storeT_ub ha hw]; rfl
  | gen T N => exact loadConv_ub junk (hN ▸ hi) hd

/-- C62 is violated whenever a register of an x86 source or of an x86 target is not filled: the `vector_aligned` copies access
memory beyond the `std::array<T, size()>`. -/
theorem C62_convert_violated {c : Cfg} {b : VTy} (hc : c.Ok) (hb : b.Ok) (hw : ¬ ((x86 c).Whole ∧ b.Whole)) (junk : b.Obj) (x : c.Data) :
    convert (x86 c) b junk x = .ub := by
  unfold convert
  dsimp only
  by_cases hw1 : (x86 c).Whole
  · obtain ⟨m, h1, h2⟩ := storeT_ok (a := x86 c) hc hw1 x
    have hw2 : ¬ b.Whole := fun h => hw ⟨hw1, h⟩
    rw [h1]
    show (if h : c.T = b.T then _ else _) = _
    by_cases hT : c.T = b.T
    · rw [dif_pos hT]; exact loadT_ub hb hw2 _ _
    · rw [dif_neg hT]
      show (Out.ofUb (castLoop c.T b.T c.N m)).bind _ = _
      cases castLoop c.T b.T c.N m with
      | none => rfl
      | some m2 => exact loadT_ub hb hw2 _ _
  · rw [storeT_ub hc hw1]; rfl

/-- Converting integers to a type at least as wide and back gives the original vector. -/
theorem C62_convert_roundtrip_partial {a b : VTy} (ha : a.Ok) (hb : b.Ok) (hN : a.N = b.N) (hwa : a.Whole) (hwb : b.Whole)
    (h1 : a.T.flt = false) (h2 : b.T.flt = false) (hs : a.T.bytes ≤ b.T.bytes) (ja : a.Obj) (jb : b.Obj) (x : a.Obj) :
    ∃ r, (convert a b jb x).bind (convert b a ja) = .ok r ∧ ∀ i, i < a.N → a.get r i = a.get x i := by
  obtain ⟨y, hy1, hy2⟩ := C62_convert_partial ha hb hN (fun _ => ⟨hwa, hwb⟩) jb x (fun i _ h => by rw [h1] at h; simp at h)
  obtain ⟨r, hr1, hr2⟩ := C62_convert_partial hb ha hN.symm (fun _ => ⟨hwb, hwa⟩) ja y (fun i _ h => by rw [h2] at h; simp at h)
  refine ⟨r, by rw [hy1]; exact hr1, fun i hi => ?_⟩
  have e1 := hy2 i hi
  have e2 := hr2 i (hN ▸ hi)
  unfold IsCast at e1 e2
  simp only [h1, h2, Bool.false_eq_true, if_false] at e1 e2
  obtain ⟨k1, e1⟩ := e1
  obtain ⟨k2, e2⟩ := e2
  refine (scalarConv_same a.T (a.get x i)).2 _ ?_
  unfold IsCast
  simp only [h1, Bool.false_eq_true, if_false]
  have hw : b.T.w = a.T.w + (b.T.w - a.T.w) := by unfold Ety.w; omega
  refine ⟨k1 * 2 ^ (b.T.w - a.T.w) + k2, ?_⟩
  rw [e2, e1, hw, Int.pow_add, Int.add_mul]
  rw [show a.T.w + (b.T.w - a.T.w) - a.T.w = b.T.w - a.T.w by omega, Int.mul_assoc, Int.mul_comm (2 ^ a.T.w)]
  omega

/-! ### simd_cast, static_simd_cast -/
theorem optStoreConv_ok {F U : Ety} (hF : F.Ok) (hU : U.Ok) {n : Nat} {src : Nat → BitVec F.w} (hd : ∀ i, i < n → CastDefined F U (src i)) (mem : Mem (BitVec U.w)) :
    ∃ m, forRangeM n (fun i (m : Mem (BitVec U.w)) => (scalarConv F U (src i)).map (fun y => m.set i y)) mem = some m ∧
      ∀ i, i < n → IsCast F U (src i) (m i) := by
  have h : ∀ i, ∃ y, i < n → scalarConv F U (src i) = some y ∧ IsCast F U (src i) y := fun i => by
    by_cases hi : i < n
    · obtain ⟨y, hy⟩ := scalarConv_some hF hU (hd i hi)
      exact ⟨y, fun _ => hy⟩
    · exact ⟨0, fun h => absurd h hi⟩
  obtain ⟨y, hy⟩ := Classical.skolem.1 h
  refine ⟨_, optStore_some n _ (fun i hi => (hy i hi).1), fun i hi => ?_⟩
  rw [if_pos hi]; exact (hy i hi).2
/-- integers of the same size are reinterpreted -/
theorem isCast_reinterpret {F U : Ety} (h1 : F.flt = false) (h2 : U.flt = false) (hb : F.w = U.w) (x : BitVec F.w) : IsCast F U x (x.cast hb) := by
  unfold IsCast
  simp only [h1, h2, Bool.false_eq_true, if_false]
  have e : x.cast hb = BitVec.ofInt U.w (F.ity.val x) := by
    have h := Dpm.X86.ofInt_val F.ity x
    have h3 : BitVec.ofInt F.w (F.ity.val x) = x := h
    apply BitVec.eq_of_toNat_eq
    rw [BitVec.toNat_cast, BitVec.toNat_ofInt, ← hb, ← BitVec.toNat_ofInt, h3]
  rw [e]
  exact val_of_wrap U.ity _
/-- both types take the native path of `copy_to` without a conversion instruction -/
theorem storeConv_same {c : Cfg} (hc : c.Ok) {U : Ety} (hU : U.Ok) (hw : (x86 c).Whole) (hb : U.bytes = c.T.bytes) (hf : U.flt = c.T.flt) (x : c.Data) (mem : Mem (BitVec U.w)) :
    ∃ m, (x86 c).storeConv U x mem = .ok m ∧ ∀ i, i < c.N → IsCast c.T U (elt c x i) (m i) := by
  have hg : ∀ y, nativeVecCast c.s c.T U c.v y = some y := fun y => by
    unfold nativeVecCast
    rw [if_pos]
    cases h : c.T.flt
    · right; exact ⟨rfl, by rw [hf, h], hb.symm⟩
    · left
      have e1 := (hc.ety.2 h).2
      have e2 := (hU.2 (hf.trans h)).2
      rw [h] at hf
      generalize hT : c.T = T at *
      obtain ⟨b1, f1, s1⟩ := T
      obtain ⟨b2, f2, s2⟩ := U
      simp_all
  have hl : c.dataSize * c.e ≤ c.N := (cap_eq_iff hc).2 hw
  have hww : c.T.w = U.w := by unfold Ety.w; omega
  have h0 : (x86 c).storeConv U x mem = copyToAs c U .vector x c.N mem := if_pos hb
  refine ⟨_, h0.trans ((copyToAs_native hc (fun y => y) hg (f := .vector) rfl x c.N mem).trans (if_pos hl)), fun i hi => ?_⟩
  · rw [if_pos (Nat.lt_of_lt_of_le hi (cap_ge hc))]
    have e : lane U.w (x (i / c.e)) (i % c.e) = (elt c x i).cast hww := by
      unfold elt
      generalize x (i / c.e) = y
      revert hww
      show ∀ hww : c.T.w = U.w, lane U.w y (i % c.e) = (lane c.T.w y (i % c.e)).cast hww
      generalize U.w = u
      intro h; subst h; rfl
    rw [e]
    cases h : c.T.flt
    · exact isCast_reinterpret h (hf.trans h) hww _
    · unfold IsCast
      rw [if_pos h, if_pos (hf.trans h)]
      unfold IsFltCast
      rw [if_pos hww, BitVec.toNat_cast]

/-- C62, casts: every element is converted by `static_cast`.  Partial: the registers of an x86 target, and those of an x86
source with elements of the same size, must be filled; and the cast must not be one between integers and floating-point
numbers of the same size from an x86 vector (see the next theorems). -/
theorem C62_cast_partial {a b : VTy} (ha : a.Ok) (hb : b.Ok) (hN : a.N = b.N) (hwa : b.T.bytes = a.T.bytes → a.Whole) (hwb : b.Whole)
    (hm : a.IsX86 → b.T.bytes = a.T.bytes → b.T.flt = a.T.flt)
    (junk : Mem (BitVec b.T.w)) (x : a.Obj) (hd : ∀ i, i < a.N → CastDefined a.T b.T (a.get x i)) :
    ∃ r, castTo a b .differ junk x = .ok r ∧ ∀ i, i < a.N → IsCast a.T b.T (a.get x i) (b.get r i) := by
  have key : ∃ m, a.storeConv b.T x junk = .ok m ∧ ∀ i, i < a.N → IsCast a.T b.T (a.get x i) (m i) := by
    cases a with
    | x86 c =>
      by_cases hs : b.T.bytes = c.T.bytes
      · exact storeConv_same ha hb.ety (hwa hs) hs (hm trivial hs) x junk
      · obtain ⟨m, h1, h2⟩ := optStoreConv_ok (src := fun i => elt c x i) (Cfg.Ok.ety ha) hb.ety hd junk
        refine ⟨m, ?_, h2⟩
        show (if b.T.bytes = c.T.bytes then _ else _) = _
        rw [if_neg hs, h1]; rfl
    | gen T N =>
      obtain ⟨m, h1, h2⟩ := optStoreConv_ok (src := fun i => GSimd.get (N := N) x i) ha hb.ety hd junk
      exact ⟨m, congrArg Out.ofUb h1, h2⟩
  obtain ⟨m, h1, h2⟩ := key
  obtain ⟨r, h3, h4⟩ := loadT_ok hb hwb b.zero m
  refine ⟨r, ?_, fun i hi => ?_⟩
  · unfold castTo; dsimp only; rw [h1]; exact h3
  · rw [h4 i (hN ▸ hi)]; exact h2 i hi
/-- A cast to the very same type copies the vector, whatever its size. -/
theorem C62_cast_same (a : VTy) (junk : Mem (BitVec a.T.w)) (x : a.Obj) : castTo a a (.same rfl) junk x = .ok x := rfl
/-- C62, casts from integers of an x86 vector to floating-point numbers of the same size: the nearest number, outside the
defects of `C29` (`cvtRight`). -/
theorem C62_cast_int_to_float_partial {c : Cfg} {b : VTy} (hc : c.Ok) (hb : b.Ok) (hN : c.N = b.N) (hwa : (x86 c).Whole) (hwb : b.Whole)
    (h1 : c.T.flt = false) (h2 : b.T.flt = true) (hs : b.T.bytes = c.T.bytes) (junk : Mem (BitVec b.T.w)) (x : c.Data)
    (hr : ∀ i, i < c.N → cvtRight c.s c.v c.T (elt c x i)) :
    ∃ r, castTo (x86 c) b .differ junk x = .ok r ∧ ∀ i, i < c.N → IsCast c.T b.T (elt c x i) (b.get r i) := by
  obtain ⟨g, hg, hg2⟩ := cvtI_lane c.s c.v c.T b.T h1 h2 hs (flt_48 hb.ety h2)
  have hl : c.dataSize * c.e ≤ c.N := (cap_eq_iff hc).2 hwa
  have e1 : (x86 c).storeConv b.T x junk = .ok (fun p => if p < c.dataSize * c.e then lane b.T.w (g (x (p / c.e))) (p % c.e) else junk p) := by
    show (if b.T.bytes = c.T.bytes then copyToAs c b.T .vector x c.N junk else _) = _
    rw [if_pos hs, copyToAs_native hc g hg (f := .vector) rfl, if_pos hl]
  obtain ⟨r, h3, h4⟩ := loadT_ok hb hwb b.zero (fun p => if p < c.dataSize * c.e then lane b.T.w (g (x (p / c.e))) (p % c.e) else junk p)
  refine ⟨r, ?_, fun i hi => ?_⟩
  · unfold castTo; dsimp only; rw [e1]; exact h3
  · rw [h4 i (hN ▸ hi)]
    rw [if_pos (Nat.lt_of_lt_of_le hi (cap_ge hc))]
    have hk : i % c.e < extent b.T c.v := by
      have := idx_mod hc i
      unfold extent at this ⊢
      unfold Cfg.e extent at this
      unfold Cfg.e extent
      rw [hs]; exact this
    rw [hg2 _ _ hk (hr i hi)]
    unfold IsCast
    rw [if_neg (by rw [h1]; simp), if_pos h2]
    exact ofInt_isRounded (fltW hb.ety h2) _
/-- C62 is violated by casts from floating-point numbers of an x86 vector to integers of the same size: they round to nearest
instead of truncating (every type but `uint32_t`, whose conversion is worse still, see `C62_cast_violated`). -/
theorem C62_cast_float_to_int_rounds {c : Cfg} {b : VTy} (hc : c.Ok) (hb : b.Ok) (hN : c.N = b.N) (hwa : (x86 c).Whole) (hwb : b.Whole)
    (h1 : c.T.flt = true) (h2 : b.T.flt = false) (hs : b.T.bytes = c.T.bytes) (hu : ¬ (b.T.bytes = 4 ∧ b.T.signed = false))
    (junk : Mem (BitVec b.T.w)) (x : c.Data) (hr : ∀ i, i < c.N → InRange (cvtLo c.s b.T) (cvtHi c.s b.T) (elt c x i)) :
    ∃ r, castTo (x86 c) b .differ junk x = .ok r ∧ ∀ i, i < c.N →
      ∃ z : Int, IsRint (val (elt c x i)) (2 ^ unitExp c.w : Nat) z ∧ b.get r i = BitVec.ofInt b.T.w z := by
  have hl : c.dataSize * c.e ≤ c.N := (cap_eq_iff hc).2 hwa
  obtain ⟨m, h5, h6⟩ := C30_copy_to_aligned_rounds hc h1 h2 hs.symm hu (f := .vector) rfl x c.N hl junk hr
  have e1 : (x86 c).storeConv b.T x junk = .ok m := by
    show (if b.T.bytes = c.T.bytes then copyToAs c b.T .vector x c.N junk else _) = _
    rw [if_pos hs]; exact h5
  obtain ⟨r, h3, h4⟩ := loadT_ok hb hwb b.zero m
  refine ⟨r, ?_, fun i hi => ?_⟩
  · unfold castTo; dsimp only; rw [e1]; exact h3
  · obtain ⟨z, h7, h8⟩ := h6 i hi
    exact ⟨z, h7, (h4 i (hN ▸ hi)).trans h8⟩
/-- `copy_to` to elements of another type always compiles -/
theorem nativeVecCast_exists (s : ISA) {F U : Ety} (hF : F.Ok) (hU : U.Ok) (hb : U.bytes = F.bytes) (v : VSz) :
    ∃ g : Vec v → Vec v, ∀ y, nativeVecCast s F U v y = some (g y) := by
  have hf := hF.2
  have hu := hU.2
  obtain ⟨b1, f1, s1⟩ := F
  obtain ⟨b2, f2, s2⟩ := U
  dsimp only at hb hf hu
  subst hb
  unfold nativeVecCast cvtV
  cases f1 <;> cases f2
  · exact ⟨fun y => y, fun y => by simp⟩
  · rcases (hu rfl).1 with h | h <;> subst h
    · exact ⟨_, fun y => by simp; rfl⟩
    · exact ⟨_, fun y => by simp; rfl⟩
  · rcases (hf rfl).1 with h | h <;> subst h
    · exact ⟨_, fun y => by simp; rfl⟩
    · exact ⟨_, fun y => by simp; rfl⟩
  · have e1 := (hu rfl).2
    have e2 := (hf rfl).2
    subst e1; subst e2
    exact ⟨fun y => y, fun y => by simp⟩
/-- C62 is violated by casts: those to an x86 vector whose registers are not filled, from any backend, and those between
element types of the same size from such a vector access memory out of bounds. -/
theorem C62_cast_violated {a b : VTy} (ha : a.Ok) (hb : b.Ok) (hw : ¬ b.Whole ∨ (b.T.bytes = a.T.bytes ∧ ¬ a.Whole))
    (junk : Mem (BitVec b.T.w)) (x : a.Obj) : castTo a b .differ junk x = .ub := by
  unfold castTo
  dsimp only
  have key : a.storeConv b.T x junk = .ub ∨ ∃ m, a.storeConv b.T x junk = .ok m ∧ (b.T.bytes = a.T.bytes → a.Whole) := by
    cases a with
    | x86 c =>
      by_cases hs : b.T.bytes = c.T.bytes
      · obtain ⟨g, hg⟩ := nativeVecCast_exists c.s (Cfg.Ok.ety ha) hb.ety hs c.v
        have e := copyToAs_native (c := c) ha g hg (f := .vector) rfl x c.N junk
        have e2 : (x86 c).storeConv b.T x junk = copyToAs c b.T .vector x c.N junk := if_pos hs
        rw [e2, e]
        by_cases hw1 : (x86 c).Whole
        · right
          exact ⟨_, if_pos ((cap_eq_iff ha).2 hw1), fun _ => hw1⟩
        · left
          exact if_neg (fun h => hw1 ((cap_eq_iff ha).1 h))
      · have e2 : (x86 c).storeConv b.T x junk = Out.ofUb (forRangeM c.N (fun i m => (scalarConv c.T b.T (elt c x i)).map (fun y => m.set i y)) junk) := if_neg hs
        rw [e2]
        cases forRangeM c.N (fun i m => (scalarConv c.T b.T (elt c x i)).map (fun y => m.set i y)) junk with
        | none => left; rfl
        | some m => right; exact ⟨m, rfl, fun h => absurd h hs⟩
    | gen T N =>
      have e2 : (gen T N).storeConv b.T x junk = Out.ofUb (forRangeM N (fun i m => (scalarConv T b.T (GSimd.get x i)).map (fun y => m.set i y)) junk) := rfl
      rw [e2]
      cases forRangeM N (fun i m => (scalarConv T b.T (GSimd.get x i)).map (fun y => m.set i y)) junk with
      | none => left; rfl
      | some m => right; exact ⟨m, rfl, fun _ => trivial⟩
  rcases key with h | ⟨m, h, h2⟩
  · rw [h]; rfl
  · rw [h]
    refine loadT_ub hb ?_ _ _
    rcases hw with hw | ⟨hs, hw⟩
    · exact hw
    · exact absurd (h2 hs) hw
/-- C62 is violated even where everything is defined: the cast and the conversion of the same vector of `float`s to `int`s
disagree.  Every `1.5f` becomes `2` by `simd_cast<int>` and `1` by the conversion operator, whatever the sizes and registers. -/
theorem C62_cast_disagrees {c : Cfg} {b : VTy} (hc : c.Ok) (hb : b.Ok) (hN : c.N = b.N) (hwa : (x86 c).Whole) (hwb : b.Whole)
    (h1 : c.T = .f32) (h2 : b.T = .i32) (junk : Mem (BitVec b.T.w)) (jb : b.Obj) (x : c.Data)
    (hx : ∀ i, i < c.N → isFinite (elt c x i) = true ∧ val (elt c x i) = 3 * 2 ^ 148) :
    ∃ r q, castTo (x86 c) b .differ junk x = .ok r ∧ convert (x86 c) b jb x = .ok q ∧
      ∀ i, i < c.N → b.T.ity.val (b.get r i) = 2 ∧ b.T.ity.val (b.get q i) = 1 := by
  have hu : unitExp c.w = 149 := by show unitExp c.T.w = 149; rw [h1]; rfl
  obtain ⟨r, h3, h4⟩ := C62_cast_float_to_int_rounds hc hb hN hwa hwb (by rw [h1]; rfl) (by rw [h2]; rfl) (by rw [h1, h2]; rfl) (by rw [h2]; simp [Ety.i32])
    junk x (fun i hi => by
      refine ⟨(hx i hi).1, ?_, ?_⟩
      · rw [(hx i hi).2, hu, h2]
        show (-2 ^ 31 : Int) * (2 ^ 149 : Nat) ≤ _
        decide +kernel
      · rw [(hx i hi).2, hu, h2]
        show _ ≤ (2 ^ 31 - 1 : Int) * (2 ^ 149 : Nat)
        decide +kernel)
  obtain ⟨q, h5, h6⟩ := C62_convert_partial (a := x86 c) hc hb hN (fun _ => ⟨hwa, hwb⟩) jb x (fun i hi _ _ => by
    refine ⟨(hx i hi).1, 1, ?_, ?_⟩
    · show IsTrunc (val (elt c x i)) (2 ^ unitExp c.w : Nat) 1
      rw [(hx i hi).2, hu]
      exact ⟨fun _ => ⟨by decide +kernel, by decide +kernel⟩, fun h => absurd h (by decide +kernel)⟩
    · rw [h2]; decide)
  refine ⟨r, q, h3, h5, fun i hi => ⟨?_, ?_⟩⟩
  · obtain ⟨z, h7, h8⟩ := h4 i hi
    rw [(hx i hi).2, hu] at h7
    have : z = 2 := isRint_unique (D := (2 ^ 149 : Nat)) (by decide +kernel) h7 ⟨by decide +kernel, by decide +kernel, by decide +kernel⟩
    rw [h8, this]
    rw [h2]; decide
  · have h7 := h6 i hi
    unfold IsCast at h7
    rw [if_pos (by show c.T.flt = true; rw [h1]; rfl), if_neg (by rw [h2]; simp [Ety.i32])] at h7
    have h8 := h7.2
    have h9 : IsTrunc (3 * 2 ^ 148) (2 ^ 149 : Nat) (b.T.ity.val (b.get q i)) := by
      rw [← (hx i hi).2]
      show IsTrunc (val (elt c x i)) _ _
      rw [show (2 ^ 149 : Nat) = 2 ^ unitExp c.w by rw [hu]]
      exact h8
    exact isTrunc_unique (D := (2 ^ 149 : Nat)) (by decide +kernel) h9 ⟨fun _ => ⟨by decide +kernel, by decide +kernel⟩, fun h => absurd h (by decide +kernel)⟩

/-! ### The hypotheses can be met -/
/-- four `int`s and four `float`s in SSE2 registers -/
def exI4 : Cfg := ⟨⟨false, false, false, false, false, false, false, false⟩, .i32, 4, .v128⟩
theorem exI4_ok : exI4.Ok := ⟨by decide, by decide, by decide, by decide, by decide⟩
def exF4 : Cfg := ⟨⟨false, false, false, false, false, false, false, false⟩, .f32, 4, .v128⟩
theorem exF4_ok : exF4.Ok := ⟨by decide, by decide, by decide, by decide, by decide⟩
instance (T : Ety) (N : Nat) : Decidable (gen T N).Ok := inferInstanceAs (Decidable T.Ok)
instance (c : Cfg) : Decidable (x86 c).Whole := inferInstanceAs (Decidable (c.N % c.e = 0))
theorem castDefined_int {F T : Ety} (h : F.flt = false) {x : BitVec F.w} : CastDefined F T x := fun h1 => by rw [h] at h1; simp at h1
theorem castDefined_flt {F T : Ety} (h : T.flt = true) {x : BitVec F.w} : CastDefined F T x := fun _ h1 => by rw [h] at h1; simp at h1
/-- four `int`s (SSE4.1) to four generic `double`s: `-3` becomes `-3.0` -/
example : ∃ r, convert (x86 exI4) (gen .f64 4) (gen .f64 4).zero (vbroadcast exI4 (show BitVec 32 from -3#32) (zeroData exI4)) = .ok r ∧
    IsNearestFloat (w := Ety.f64.w) (-3) ((gen .f64 4).get r 2) := by
  obtain ⟨r, h1, h2⟩ := C62_convert_partial (a := x86 exI4) (b := gen .f64 4) exI4_ok (by decide) rfl (fun _ => ⟨by decide, trivial⟩) (gen .f64 4).zero
    (vbroadcast exI4 (show BitVec 32 from -3#32) (zeroData exI4)) (fun i _ => castDefined_int rfl)
  refine ⟨r, h1, ?_⟩
  have h3 := h2 2 (by decide)
  have e : (x86 exI4).get (vbroadcast exI4 (show BitVec 32 from -3#32) (zeroData exI4)) 2 = -3#32 := elt_vbroadcast exI4_ok _ _ (by decide)
  rw [e] at h3
  have h4 : IsCast .i32 .f64 (-3#32) ((gen .f64 4).get r 2) := h3
  unfold IsCast at h4
  rw [if_neg (by decide), if_pos (by decide), show Ety.i32.ity.val (-3#32) = -3 by decide] at h4
  unfold IsNearestFloat
  exact h4
/-- six generic `double`s to six `float`s in SSE registers, which are not filled -/
example : ∃ r, convert (gen .f64 6) (x86 exF32) (zeroData exF32) (gen .f64 6).zero = .ok r ∧
    ∀ i, i < 6 → IsCast .f64 .f32 0#64 (elt exF32 r i) :=
  C62_convert_partial (a := gen .f64 6) (b := x86 exF32) (by decide) exF32_ok rfl (fun h => h.elim) (zeroData exF32) (gen .f64 6).zero
    (fun i _ => castDefined_flt rfl)
/-- the conversion back is out of bounds -/
example (x : exF32.Data) : convert (x86 exF32) (gen .f64 6) (gen .f64 6).zero x = .ub :=
  C62_convert_violated exF32_ok (by decide) (fun h => absurd h.1 (by decide)) _ x
/-- NaN to `int` is undefined -/
example : convert (gen .f32 4) (x86 exI4) (zeroData exI4) ⟨fun _ => 0x7fc00000#32⟩ = .ub :=
  C62_convert_undefined (a := gen .f32 4) (b := x86 exI4) (by decide) rfl (zeroData exI4) ⟨fun _ => 0x7fc00000#32⟩ (i := 0) (by decide)
    (fun h => absurd (h rfl rfl).1 (by decide))
/-- `int` to `long` and back -/
example (x : exI4.Data) : ∃ r, (convert (x86 exI4) (gen .i64 4) (gen .i64 4).zero x).bind (convert (gen .i64 4) (x86 exI4) (zeroData exI4)) = .ok r ∧
    ∀ i, i < 4 → elt exI4 r i = elt exI4 x i :=
  C62_convert_roundtrip_partial (a := x86 exI4) (b := gen .i64 4) exI4_ok (by decide) rfl (by decide) trivial rfl rfl (by decide) (zeroData exI4) (gen .i64 4).zero x
/-- casts: four `int`s to `unsigned short`s, and to `float`s (same size, native conversion) -/
example (x : exI4.Data) : ∃ r, castTo (x86 exI4) (gen .u16 4) .differ (fun _ => 0) x = .ok r ∧ ∀ i, i < 4 → IsCast .i32 .u16 (elt exI4 x i) ((gen .u16 4).get r i) :=
  C62_cast_partial (a := x86 exI4) (b := gen .u16 4) exI4_ok (by decide) rfl (fun h => absurd h (by decide)) trivial (fun _ h => absurd h (by decide)) _ x
    (fun i _ => castDefined_int rfl)
example (x : exI4.Data) : ∃ r, castTo (x86 exI4) (gen .f32 4) .differ (fun _ => 0) x = .ok r ∧ ∀ i, i < 4 → IsCast .i32 .f32 (elt exI4 x i) ((gen .f32 4).get r i) :=
  C62_cast_int_to_float_partial (b := gen .f32 4) exI4_ok (by decide) rfl (by decide) trivial rfl rfl rfl _ x
    (fun i _ => ⟨fun h => absurd h.2 (by decide), fun h => absurd h.1 (by decide)⟩)
/-- a cast of generic vectors to an SSE vector with unfilled registers is out of bounds -/
example : castTo (gen .f64 6) (x86 exF32) .differ (fun _ => 0) (gen .f64 6).zero = .ub :=
  C62_cast_violated (a := gen .f64 6) (b := x86 exF32) (by decide) exF32_ok (Or.inl (by decide)) _ _
/-- four `float`s `1.5f` to `int` -/
example : ∃ r q, castTo (x86 exF4) (gen .i32 4) .differ (fun _ => 0) (vbroadcast exF4 0x3fc00000#32 (zeroData exF4)) = .ok r ∧
    convert (x86 exF4) (gen .i32 4) (gen .i32 4).zero (vbroadcast exF4 0x3fc00000#32 (zeroData exF4)) = .ok q ∧
    ∀ i, i < 4 → Ety.i32.ity.val ((gen .i32 4).get r i) = 2 ∧ Ety.i32.ity.val ((gen .i32 4).get q i) = 1 :=
  C62_cast_disagrees (b := gen .i32 4) exF4_ok (by decide) rfl (by decide) trivial rfl rfl _ _ _ (fun i hi => by
    have e : elt exF4 (vbroadcast exF4 0x3fc00000#32 (zeroData exF4)) i = 0x3fc00000#32 := elt_vbroadcast exF4_ok _ _ hi
    have h : isFinite (0x3fc00000#32) = true ∧ val (0x3fc00000#32) = 3 * 2 ^ 148 := by decide +kernel
    exact (congrArg (fun y : BitVec 32 => isFinite y = true ∧ val y = 3 * 2 ^ 148) e).mpr h)
end Dpm.X86
