import Verif.Proofs.NativeInt
import Verif.Props.Generic
import Verif.Props.X86Mask
import Verif.Spec.Calls
/-! Lemmas about x86 vectors: memory traffic, fallbacks through the generic backend, native lifting. -/
namespace Dpm.X86
open Dpm.Reg Dpm.Util Dpm.Generic Dpm.Spec

theorem elt_block' {c : Cfg} (hc : c.Ok) (d : c.Data) {j k : Nat} (hk : k < c.e) : elt c d (j * c.e + k) = lane c.w (d j) k := by
  have he := extent_pos hc.ety c.v
  unfold elt
  rw [Nat.mul_comm, Nat.mul_add_div he, Nat.mul_add_mod, Nat.div_eq_of_lt hk, Nat.mod_eq_of_lt hk, Nat.add_zero]

theorem div_mod_eq (i e : Nat) : i / e * e + i % e = i := by rw [Nat.mul_comm]; exact Nat.div_add_mod i e

/-- a range of stores at `p .. p + n` -/
theorem forRange_store_at {α : Type} (n p : Nat) (f : Nat → α) (m : Mem α) :
    forRange n (fun k r => r.set (p + k) (f k)) m = fun j => if p ≤ j ∧ j < p + n then f (j - p) else m j := by
  induction n with
  | zero => funext j; simp [forRange]; omega
  | succ n ih =>
    funext j
    simp only [forRange, ih, Mem.set]
    by_cases h : j = p + n
    · subst h; simp
    · by_cases h2 : p ≤ j ∧ j < p + n
      · have : p ≤ j ∧ j < p + (n + 1) := by omega
        simp [h, h2, this]
      · have : ¬ (p ≤ j ∧ j < p + (n + 1)) := by omega
        simp [h, h2, this]

theorem storeLoop_eq {c : Cfg} (hc : c.Ok) (d : c.Data) (len : Nat) (mem : Mem (BitVec c.w)) (n : Nat) :
    forRangeM n (fun j m => storeNative c len (j * c.e) (d j) m) mem =
      if n * c.e ≤ len then some (fun p => if p < n * c.e then elt c d p else mem p) else none := by
  have he : 0 < c.e := extent_pos hc.ety c.v
  induction n with
  | zero => simp [forRangeM]
  | succ n ih =>
    simp only [forRangeM, ih]
    have hs : (n + 1) * c.e = n * c.e + c.e := Nat.succ_mul _ _
    by_cases h1 : (n + 1) * c.e ≤ len
    · have h2 : n * c.e ≤ len := by omega
      rw [if_pos h2, if_pos h1, Option.bind_some, storeNative, if_pos (by omega)]
      congr 1
      funext p
      rw [forRange_store_at]
      dsimp only
      by_cases hp : p < n * c.e
      · rw [if_neg (by omega), if_pos hp, if_pos (by omega)]
      · by_cases hp2 : p < (n + 1) * c.e
        · rw [if_pos (by omega), if_pos hp2]
          have := elt_block' hc d (j := n) (k := p - n * c.e) (by omega)
          rw [← this, show n * c.e + (p - n * c.e) = p by omega]
        · rw [if_neg (by omega), if_neg hp, if_neg hp2]
    · rw [if_neg h1]
      by_cases h2 : n * c.e ≤ len
      · rw [if_pos h2, Option.bind_some, storeNative, if_neg (by omega)]
      · rw [if_neg h2]; rfl

theorem loadLoop_eq {c : Cfg} (hc : c.Ok) (d : c.Data) (len : Nat) (mem : Mem (BitVec c.w)) (n : Nat) :
    forRangeM n (fun j d => (loadNative c len (j * c.e) mem).map (fun x => d.set j x)) d =
      if n * c.e ≤ len then some (fun j => if j < n then ofLanes c.v.bits c.w (fun k => mem (j * c.e + k)) else d j) else none := by
  have he : 0 < c.e := extent_pos hc.ety c.v
  induction n with
  | zero => simp [forRangeM]
  | succ n ih =>
    simp only [forRangeM, ih]
    have hs : (n + 1) * c.e = n * c.e + c.e := Nat.succ_mul _ _
    by_cases h1 : (n + 1) * c.e ≤ len
    · have h2 : n * c.e ≤ len := by omega
      rw [if_pos h2, if_pos h1, Option.bind_some, loadNative, if_pos (by omega), Option.map_some]
      congr 1
      funext p
      by_cases hp : p = n
      · subst hp; rw [Mem.set_same, if_pos (by omega)]
      · rw [Mem.set_ne _ _ hp]
        by_cases h3 : p < n
        · rw [if_pos h3, if_pos (by omega)]
        · rw [if_neg h3, if_neg (by omega)]
    · rw [if_neg h1]
      by_cases h2 : n * c.e ≤ len
      · rw [if_pos h2, Option.bind_some, loadNative, if_neg (by omega)]; rfl
      · rw [if_neg h2]; rfl

theorem eltStoreLoop_eq {β : Type} (f : Nat → β) (len : Nat) (mem : Mem β) (n : Nat) :
    forRangeM n (fun i (m : Mem β) => if i < len then some (m.set i (f i)) else none) mem =
      if n ≤ len then some (fun p => if p < n then f p else mem p) else none := by
  induction n with
  | zero => simp [forRangeM]
  | succ n ih =>
    simp only [forRangeM, ih]
    by_cases h1 : n + 1 ≤ len
    · rw [if_pos (by omega : n ≤ len), if_pos h1, Option.bind_some, if_pos (by omega)]
      congr 1
      funext p
      by_cases hp : p = n
      · subst hp; rw [Mem.set_same, if_pos (by omega)]
      · rw [Mem.set_ne _ _ hp]
        by_cases h3 : p < n
        · rw [if_pos h3, if_pos (by omega)]
        · rw [if_neg h3, if_neg (by omega)]
    · rw [if_neg h1]
      by_cases h2 : n ≤ len
      · rw [if_pos h2, Option.bind_some, if_neg (by omega)]
      · rw [if_neg h2]; rfl

theorem eltLoadLoop {β : Type} {c : Cfg} (hc : c.Ok) (g : β → BitVec c.w) (len : Nat) (mem : Mem β) (d : c.Data) (n : Nat) :
    (len < n → forRangeM n (fun i (d : c.Data) => if i < len then some (setElt c d i (g (mem i))) else none) d = none) ∧
    (n ≤ len → ∃ r, forRangeM n (fun i (d : c.Data) => if i < len then some (setElt c d i (g (mem i))) else none) d = some r ∧
      ∀ k, elt c r k = if k < n then g (mem k) else elt c d k) := by
  induction n with
  | zero => exact ⟨fun h => by omega, fun _ => ⟨d, rfl, fun k => by simp⟩⟩
  | succ n ih =>
    refine ⟨fun h => ?_, fun h => ?_⟩
    · simp only [forRangeM]
      by_cases h2 : len < n
      · rw [ih.1 h2]; rfl
      · obtain ⟨r, hr, _⟩ := ih.2 (by omega)
        rw [hr, Option.bind_some, if_neg (by omega)]
    · obtain ⟨r, hr, hk⟩ := ih.2 (by omega)
      refine ⟨setElt c r n (g (mem n)), ?_, ?_⟩
      · simp only [forRangeM]
        rw [hr, Option.bind_some, if_pos (by omega)]
      · intro k
        rw [elt_setElt hc, hk]
        by_cases h1 : k = n
        · subst h1; simp
        · by_cases h2 : k < n
          · rw [if_neg h1, if_pos h2, if_pos (by omega)]
          · rw [if_neg h1, if_neg h2, if_neg (by omega)]

/-! ### copy_to / copy_from -/
section copy
variable {c : Cfg} (hc : c.Ok)
include hc

/-- `dataSize * e` is the number of lanes of the storage -/
theorem cap_ge : c.N ≤ c.dataSize * c.e := by
  have := ceilDiv_spec (N := c.N) (extent_pos hc.ety c.v) c.dataSize
  rw [← dataSize_eq] at this
  have h2 : ¬ c.dataSize * c.e < c.N := fun h => Nat.lt_irrefl _ (this.1 h)
  omega
theorem cap_eq_iff : c.dataSize * c.e ≤ c.N ↔ c.N % c.e = 0 := by
  have he : 0 < c.e := extent_pos hc.ety c.v
  have hge := cap_ge hc
  constructor
  · intro h
    have : c.N = c.dataSize * c.e := by omega
    rw [this]; exact Nat.mul_mod_left _ _
  · intro h
    have hd := Nat.div_add_mod c.N c.e
    rw [h, Nat.add_zero] at hd
    have : c.dataSize = c.N / c.e := by rw [dataSize_eq, ceilDiv, h]; simp
    rw [this, Nat.mul_comm, hd]; exact Nat.le_refl _

theorem copyTo_native {f : Flag} (hf : f.aligned c.v.bytes = true) (d : c.Data) (len : Nat) (mem : Mem (BitVec c.w)) :
    copyTo c f d len mem = if c.dataSize * c.e ≤ len then some (fun p => if p < c.dataSize * c.e then elt c d p else mem p) else none := by
  unfold copyTo; rw [if_pos hf]; exact storeLoop_eq hc d len mem c.dataSize
omit hc in
theorem copyTo_elem {f : Flag} (hf : f.aligned c.v.bytes = false) (d : c.Data) (len : Nat) (mem : Mem (BitVec c.w)) :
    copyTo c f d len mem = if c.N ≤ len then some (fun p => if p < c.N then elt c d p else mem p) else none := by
  unfold copyTo; rw [hf]; exact eltStoreLoop_eq _ len mem c.N
theorem copyFrom_native {f : Flag} (hf : f.aligned c.v.bytes = true) (d : c.Data) (len : Nat) (mem : Mem (BitVec c.w)) :
    (len < c.dataSize * c.e → copyFrom c f d len mem = none) ∧
    (c.dataSize * c.e ≤ len → ∃ r, copyFrom c f d len mem = some r ∧
      ∀ k, elt c r k = if k < c.dataSize * c.e then mem k else elt c d k) := by
  unfold copyFrom; rw [if_pos hf, loadLoop_eq hc]
  have he : 0 < c.e := extent_pos hc.ety c.v
  refine ⟨fun h => if_neg (by omega), fun h => ⟨_, if_pos h, fun k => ?_⟩⟩
  unfold elt
  by_cases hk : k < c.dataSize * c.e
  · have : k / c.e < c.dataSize := (Nat.div_lt_iff_lt_mul he).2 hk
    rw [if_pos hk]; simp only [this, if_true]
    rw [lane_ofLanes _ (lane_bound hc.ety (idx_mod hc k)), div_mod_eq]
  · have : ¬ k / c.e < c.dataSize := fun h => hk ((Nat.div_lt_iff_lt_mul he).1 h)
    rw [if_neg hk]; simp only [this, if_false]
theorem copyFrom_elem {f : Flag} (hf : f.aligned c.v.bytes = false) (d : c.Data) (len : Nat) (mem : Mem (BitVec c.w)) :
    (len < c.N → copyFrom c f d len mem = none) ∧
    (c.N ≤ len → ∃ r, copyFrom c f d len mem = some r ∧ ∀ k, elt c r k = if k < c.N then mem k else elt c d k) := by
  unfold copyFrom; rw [hf]; exact eltLoadLoop hc id len mem d c.N

omit hc in
theorem elementFlag (v : VSz) : Flag.element.aligned v.bytes = false := by cases v <;> rfl

/-! ### through the generic backend -/
theorem toPacked_ok (hN : c.N % c.e = 0) (x : c.Data) : ∃ g, toPacked c x = .ok g ∧ ∀ i, i < c.N → g.get i = elt c x i := by
  refine ⟨GSimd.load (fun _ => 0#c.w) (fun p => if p < c.dataSize * c.e then elt c x p else 0#c.w), ?_, ?_⟩
  · unfold toPacked
    rw [copyTo_native hc (f := .vector) rfl, if_pos ((cap_eq_iff hc).2 hN)]; rfl
  · intro i hi
    rw [load_get _ _ hi, if_pos (Nat.lt_of_lt_of_le hi (cap_ge hc))]
theorem toPacked_ub (hN : c.N % c.e ≠ 0) (x : c.Data) : toPacked c x = .ub := by
  unfold toPacked
  rw [copyTo_native hc (f := .vector) rfl, if_neg (fun h => hN ((cap_eq_iff hc).1 h))]; rfl
theorem fromPacked_ok (junk : c.Data) (g : GSimd (BitVec c.w) c.N) :
    ∃ r, fromPacked c junk g = .ok r ∧ ∀ i, i < c.N → elt c r i = g.get i := by
  obtain ⟨r, hr, hk⟩ := (copyFrom_elem hc (elementFlag c.v) junk c.N g.data).2 (Nat.le_refl _)
  refine ⟨r, ?_, fun i hi => by rw [hk, if_pos hi]; rfl⟩
  unfold fromPacked; rw [hr]; rfl
theorem fromArray_ok (hN : c.N % c.e = 0) (junk : c.Data) (g : GSimd (BitVec c.w) c.N) :
    ∃ r, fromArray c junk g = .ok r ∧ ∀ i, i < c.N → elt c r i = g.get i := by
  obtain ⟨r, hr, hk⟩ := (copyFrom_native hc (f := .vector) rfl junk c.N g.data).2 ((cap_eq_iff hc).2 hN)
  refine ⟨r, ?_, fun i hi => by rw [hk, if_pos (Nat.lt_of_lt_of_le hi (cap_ge hc))]; rfl⟩
  unfold fromArray; rw [hr]; rfl
theorem fromArray_ub (hN : c.N % c.e ≠ 0) (junk : c.Data) (g : GSimd (BitVec c.w) c.N) : fromArray c junk g = .ub := by
  have : ¬ c.dataSize * c.e ≤ c.N := fun h => hN ((cap_eq_iff hc).1 h)
  unfold fromArray; rw [(copyFrom_native hc (f := .vector) rfl junk c.N g.data).1 (by omega)]; rfl

omit hc in
/-- a defined lift, element by element -/
theorem lane1_ok {α β : Type} {N : Nat} {f : α → Option β} {x : Nat → α} {res : Option (GSimd β N)} (h : LaneWise1 N f x (res.map GSimd.get))
    (hd : ∀ i, i < N → f (x i) ≠ none) : ∃ r, res = some r ∧ ∀ i, i < N → f (x i) = some (r.get i) := by
  cases hr : res with
  | none =>
    obtain ⟨i, hi, hf⟩ := h.1.1 (by rw [hr]; rfl)
    exact absurd hf (hd i hi)
  | some r => exact ⟨r, rfl, fun i hi => h.2 r.get (by rw [hr]; rfl) i hi⟩
omit hc in
theorem lane2_ok {α β γ : Type} {N : Nat} {f : α → β → Option γ} {x : Nat → α} {y : Nat → β} {res : Option (GSimd γ N)}
    (h : LaneWise2 N f x y (res.map GSimd.get))
    (hd : ∀ i, i < N → f (x i) (y i) ≠ none) : ∃ r, res = some r ∧ ∀ i, i < N → f (x i) (y i) = some (r.get i) := by
  cases hr : res with
  | none =>
    obtain ⟨i, hi, hf⟩ := h.1.1 (by rw [hr]; rfl)
    exact absurd hf (hd i hi)
  | some r => exact ⟨r, rfl, fun i hi => h.2 r.get (by rw [hr]; rfl) i hi⟩

theorem packed2_ok (hN : c.N % c.e = 0) {op : GSimd (BitVec c.w) c.N → GSimd (BitVec c.w) c.N → Option (GSimd (BitVec c.w) c.N)}
    {f : BitVec c.w → BitVec c.w → Option (BitVec c.w)} (hop : ∀ x y, LaneWise2 c.N f x.get y.get ((op x y).map GSimd.get))
    (a b : c.Data) : YieldsIfDefined c (packed2 c op a b) (fun i => f (elt c a i) (elt c b i)) := by
  intro hd
  obtain ⟨ga, ha, hga⟩ := toPacked_ok hc hN a
  obtain ⟨gb, hb, hgb⟩ := toPacked_ok hc hN b
  obtain ⟨r, hr, hri⟩ := lane2_ok (hop ga gb) (fun i hi => by rw [hga i hi, hgb i hi]; exact hd i hi)
  obtain ⟨q, hq, hqi⟩ := fromPacked_ok hc (zeroData c) r
  refine ⟨q, ?_, fun i hi => ?_⟩
  · unfold packed2; rw [ha, hb]; simp only [Out.bind, hr, Out.ofUb, hq]
  · have := hri i hi
    rw [hga i hi, hgb i hi] at this
    rw [hqi i hi]; exact this
theorem packed1_ok (hN : c.N % c.e = 0) {op : GSimd (BitVec c.w) c.N → Option (GSimd (BitVec c.w) c.N)}
    {f : BitVec c.w → Option (BitVec c.w)} (hop : ∀ x, LaneWise1 c.N f x.get ((op x).map GSimd.get))
    (a : c.Data) : YieldsIfDefined c (packed1 c op a) (fun i => f (elt c a i)) := by
  intro hd
  obtain ⟨ga, ha, hga⟩ := toPacked_ok hc hN a
  obtain ⟨r, hr, hri⟩ := lane1_ok (hop ga) (fun i hi => by rw [hga i hi]; exact hd i hi)
  obtain ⟨q, hq, hqi⟩ := fromPacked_ok hc (zeroData c) r
  refine ⟨q, ?_, fun i hi => ?_⟩
  · unfold packed1; rw [ha]; simp only [Out.bind, hr, Out.ofUb, hq]
  · have := hri i hi
    rw [hga i hi] at this
    rw [hqi i hi]; exact this
omit hc in
theorem lane2_undef {α β γ : Type} {N : Nat} {f : α → β → Option γ} {x : Nat → α} {y : Nat → β} {res : Option (GSimd γ N)}
    (h : LaneWise2 N f x y (res.map GSimd.get)) {i : Nat} (hi : i < N) (hf : f (x i) (y i) = none) : res = none := by
  have := h.1.2 ⟨i, hi, hf⟩
  cases res with
  | none => rfl
  | some r => cases this
/-- the fallback is undefined when the scalar operation is undefined in some lane -/
theorem packed2_undef {op : GSimd (BitVec c.w) c.N → GSimd (BitVec c.w) c.N → Option (GSimd (BitVec c.w) c.N)}
    {f : BitVec c.w → BitVec c.w → Option (BitVec c.w)} (hop : ∀ x y, LaneWise2 c.N f x.get y.get ((op x y).map GSimd.get))
    (a b : c.Data) {i : Nat} (hi : i < c.N) (hf : f (elt c a i) (elt c b i) = none) : packed2 c op a b = .ub := by
  by_cases hN : c.N % c.e = 0
  · obtain ⟨ga, ha, hga⟩ := toPacked_ok hc hN a
    obtain ⟨gb, hb, hgb⟩ := toPacked_ok hc hN b
    unfold packed2
    rw [ha, hb]
    simp only [Out.bind, lane2_undef (hop ga gb) hi (by rw [hga i hi, hgb i hi]; exact hf), Out.ofUb]
  · unfold packed2; rw [toPacked_ub hc hN a]; rfl
theorem packed2_ub (hN : c.N % c.e ≠ 0) (op) (a b : c.Data) : packed2 c op a b = .ub := by
  unfold packed2; rw [toPacked_ub hc hN a]; rfl
theorem packed1_ub (hN : c.N % c.e ≠ 0) (op) (a : c.Data) : packed1 c op a = .ub := by
  unfold packed1; rw [toPacked_ub hc hN a]; rfl

theorem template2_ok (hN : c.N % c.e = 0) (f : BitVec c.w → BitVec c.w → Option (BitVec c.w)) (a b : c.Data) :
    YieldsIfDefined c (genericTemplate2 c f a b) (fun i => f (elt c a i) (elt c b i)) := by
  intro hd
  obtain ⟨r, hr, hri⟩ := lane2_ok (lift2_spec 0#c.w f (⟨fun i => elt c a i⟩ : GSimd (BitVec c.w) c.N) (⟨fun i => elt c b i⟩ : GSimd (BitVec c.w) c.N)) hd
  obtain ⟨q, hq, hqi⟩ := fromArray_ok hc hN (zeroData c) r
  refine ⟨q, ?_, fun i hi => ?_⟩
  · unfold genericTemplate2; rw [hr]; simp only [Out.ofUb, Out.bind, hq]
  · rw [hqi i hi]; exact hri i hi
theorem template1_ok (hN : c.N % c.e = 0) (f : BitVec c.w → Option (BitVec c.w)) (a : c.Data) :
    YieldsIfDefined c (genericTemplate1 c f a) (fun i => f (elt c a i)) := by
  intro hd
  obtain ⟨r, hr, hri⟩ := lane1_ok (lift1_spec 0#c.w f (⟨fun i => elt c a i⟩ : GSimd (BitVec c.w) c.N)) hd
  obtain ⟨q, hq, hqi⟩ := fromArray_ok hc hN (zeroData c) r
  refine ⟨q, ?_, fun i hi => ?_⟩
  · unfold genericTemplate1; rw [hr]; simp only [Out.ofUb, Out.bind, hq]
  · rw [hqi i hi]; exact hri i hi
theorem template2_ub (hN : c.N % c.e ≠ 0) (f : BitVec c.w → BitVec c.w → Option (BitVec c.w)) (a b : c.Data) :
    genericTemplate2 c f a b = .ub := by
  unfold genericTemplate2
  cases lift2 0#c.w f (⟨fun i => elt c a i⟩ : GSimd (BitVec c.w) c.N) (⟨fun i => elt c b i⟩ : GSimd (BitVec c.w) c.N) with
  | none => rfl
  | some r => exact fromArray_ub hc hN _ r
theorem template1_ub (hN : c.N % c.e ≠ 0) (f : BitVec c.w → Option (BitVec c.w)) (a : c.Data) :
    genericTemplate1 c f a = .ub := by
  unfold genericTemplate1
  cases lift1 0#c.w f (⟨fun i => elt c a i⟩ : GSimd (BitVec c.w) c.N) with
  | none => rfl
  | some r => exact fromArray_ub hc hN _ r

/-! ### native lifting -/
theorem ok_vec1 (k : Vec c.v → Vec c.v) (f : BitVec c.w → BitVec c.w) (a : c.Data)
    (hk : ∀ x i, i < c.e → lane c.w (k x) i = f (lane c.w x i)) :
    Yields c (.ok (vectorize1 c (fun _ x => k x) (zeroData c) a)) (fun i => f (elt c a i)) :=
  ⟨_, rfl, fun i hi => by rw [elt_vec1 hc _ _ _ hi, hk _ _ (idx_mod hc i)]; rfl⟩
theorem ok_vec2 (k : Vec c.v → Vec c.v → Vec c.v) (f : BitVec c.w → BitVec c.w → BitVec c.w) (a b : c.Data)
    (hk : ∀ x y i, i < c.e → lane c.w (k x y) i = f (lane c.w x i) (lane c.w y i)) :
    Yields c (.ok (vectorize2 c (fun _ x y => k x y) (zeroData c) a b)) (fun i => f (elt c a i) (elt c b i)) :=
  ⟨_, rfl, fun i hi => by rw [elt_vec2 hc _ _ _ _ hi, hk _ _ _ (idx_mod hc i)]; rfl⟩
omit hc in
theorem vec1_none {k : Vec c.v → Option (Vec c.v)} (h : k 0 = none) (a : c.Data) : vec1 c k a = .illFormed := if_neg (by rw [h]; simp)
omit hc in
theorem vec2_none {k : Vec c.v → Vec c.v → Option (Vec c.v)} (h : k 0 0 = none) (a b : c.Data) : vec2 c k a b = .illFormed := if_neg (by rw [h]; simp)
/-- kernels returning `Option`: present for all operands, with a lane-wise relation -/
theorem rel_vec1 (k : Vec c.v → Option (Vec c.v)) (P : BitVec c.w → BitVec c.w → Prop) (a : c.Data)
    (hk : ∀ x, ∃ r, k x = some r ∧ ∀ i, i < c.e → P (lane c.w x i) (lane c.w r i)) :
    ∃ r, vec1 c k a = .ok r ∧ ∀ i, i < c.N → P (elt c a i) (elt c r i) := by
  have h0 : (k 0).isSome := by obtain ⟨r, hr, _⟩ := hk 0; rw [hr]; rfl
  refine ⟨_, if_pos h0, fun i hi => ?_⟩
  rw [elt_vec1 hc _ _ _ hi]
  obtain ⟨r, hr, hP⟩ := hk (a (i / c.e))
  rw [hr]; exact hP _ (idx_mod hc i)
theorem rel_vec2 (k : Vec c.v → Vec c.v → Option (Vec c.v)) (P : BitVec c.w → BitVec c.w → BitVec c.w → Prop) (a b : c.Data)
    (hk : ∀ x y, ∃ r, k x y = some r ∧ ∀ i, i < c.e → P (lane c.w x i) (lane c.w y i) (lane c.w r i)) :
    ∃ r, vec2 c k a b = .ok r ∧ ∀ i, i < c.N → P (elt c a i) (elt c b i) (elt c r i) := by
  have h0 : (k 0 0).isSome := by obtain ⟨r, hr, _⟩ := hk 0 0; rw [hr]; rfl
  refine ⟨_, if_pos h0, fun i hi => ?_⟩
  rw [elt_vec2 hc _ _ _ _ hi]
  obtain ⟨r, hr, hP⟩ := hk (a (i / c.e)) (b (i / c.e))
  rw [hr]; exact hP _ (idx_mod hc i)
/-- native comparison -/
theorem mask_vec2 (k : Vec c.v → Vec c.v → Vec c.v) (p : BitVec c.w → BitVec c.w → Bool) (a b : c.Data)
    (hk : ∀ x y i, i < c.e → lane c.w (k x y) i = laneMask c.w (p (lane c.w x i) (lane c.w y i))) :
    YieldsMask c (.ok (vectorize2 c (fun _ x y => k x y) (zeroData c) a b)) (fun i => p (elt c a i) (elt c b i)) := by
  obtain ⟨r, hr, h⟩ := ok_vec2 hc k (fun x y => laneMask c.w (p x y)) a b hk
  exact ⟨r, hr, fun i hi => ⟨mget_of_elt hc (h i hi), h i hi⟩⟩
theorem mask_vec1 (k : Vec c.v → Vec c.v) (p : BitVec c.w → Bool) (a : c.Data)
    (hk : ∀ x i, i < c.e → lane c.w (k x) i = laneMask c.w (p (lane c.w x i))) :
    YieldsMask c (.ok (vectorize1 c (fun _ x => k x) (zeroData c) a)) (fun i => p (elt c a i)) := by
  obtain ⟨r, hr, h⟩ := ok_vec1 hc k (fun x => laneMask c.w (p x)) a hk
  exact ⟨r, hr, fun i hi => ⟨mget_of_elt hc (h i hi), h i hi⟩⟩
end copy

/-! ### modular arithmetic -/
theorem ofInt_val (t : IntTy) (x : BitVec t.bits) : BitVec.ofInt t.bits (t.val x) = x := by
  unfold IntTy.val; split
  · exact BitVec.ofInt_toInt
  · rw [BitVec.ofInt_natCast]; simp
theorem modAdd_eq (t : IntTy) (x y : BitVec t.bits) : modAdd t x y = x + y := by
  rw [modAdd, BitVec.ofInt_add, ofInt_val, ofInt_val]
theorem modNeg_eq (t : IntTy) (x : BitVec t.bits) : modNeg t x = -x := by
  rw [modNeg, BitVec.ofInt_neg, ofInt_val]
theorem modSub_eq (t : IntTy) (x y : BitVec t.bits) : modSub t x y = x - y := by
  rw [modSub, Int.sub_eq_add_neg, BitVec.ofInt_add, BitVec.ofInt_neg, ofInt_val, ofInt_val, BitVec.sub_eq_add_neg]
theorem modMul_eq (t : IntTy) (x y : BitVec t.bits) : modMul t x y = x * y := by
  rw [modMul, BitVec.ofInt_mul, ofInt_val, ofInt_val]
theorem val_inj (t : IntTy) {x y : BitVec t.bits} : t.val x = t.val y ↔ x = y := by
  constructor
  · intro h
    rw [← ofInt_val t x, ← ofInt_val t y, h]
  · rintro rfl; rfl

end Dpm.X86
