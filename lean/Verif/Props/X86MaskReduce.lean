import Verif.Props.X86Mask
/-
C18 (all_of / any_of / none_of / some_of), C19 (reduce_count), C20 (reduce_min_index / reduce_max_index)
on x86 masks.  `m` is any storage whose elements are canonical (C17); padding lanes are arbitrary.
-/
namespace Dpm.X86
open Dpm.Reg Dpm.Util Dpm.Spec

/-! ### Loops -/
theorem bitAndnot_lane {v : VSz} {w i : Nat} (x y : Vec v) (h : (i + 1) * w ≤ v.bits) :
    lane w (bitAndnot x y) i = ~~~ lane w x i &&& lane w y i := by
  unfold bitAndnot; rw [lane_and, lane_not _ h]
theorem bitOr_lane {v : VSz} {w i : Nat} (x y : Vec v) : lane w (bitOr x y) i = lane w x i ||| lane w y i := lane_or _ _ _ _
theorem allLoop_lane {c : Cfg} (hc : c.Ok) (f : Nat → Vec c.v) (n : Nat) {i : Nat} (hi : i < c.e) :
    lane c.w (forRange n (fun j (r : Vec c.v) => bitAndnot (cmpEq c.s c.T c.v (f j) (setzero c.v)) r) (setones c.v)) i
      = laneMask c.w (decide (∀ j, j < n → laneEq c.T (lane c.w (f j) i) 0#c.w = false)) := by
  induction n with
  | zero => simp only [forRange, setones]; rw [lane_ones (lane_bound hc.ety hi)]; simp [laneMask]
  | succ n ih =>
    simp only [forRange]
    rw [bitAndnot_lane _ _ (lane_bound hc.ety hi), ih, cmpEq_lane c.s hc.ety c.v _ _ hi, setzero, lane_zero, laneMask_not, laneMask_and]
    congr 1
    by_cases h : ∀ j, j < n → laneEq c.T (lane c.w (f j) i) 0#c.w = false
    · rw [decide_eq_true h, Bool.and_true]
      cases hl : laneEq c.T (lane c.w (f n) i) 0#c.w
      · symm; simp only [Bool.not_false, decide_eq_true_eq]
        intro j hj
        by_cases hjn : j = n
        · subst hjn; exact hl
        · exact h j (by omega)
      · symm; simp only [Bool.not_true, decide_eq_false_iff_not]
        intro hh; rw [hh n (by omega)] at hl; exact absurd hl (by decide)
    · rw [decide_eq_false h, Bool.and_false]
      symm; simp only [decide_eq_false_iff_not]
      exact fun hh => h (fun j hj => hh j (by omega))
theorem anyLoop_lane {c : Cfg} (f : Nat → Vec c.v) (n : Nat) (i : Nat) (p : Nat → Bool)
    (hp : ∀ j, j < n → lane c.w (f j) i = laneMask c.w (p j)) :
    lane c.w (forRange n (fun j (r : Vec c.v) => bitOr r (f j)) (setzero c.v)) i
      = laneMask c.w (decide (∃ j, j < n ∧ p j = true)) := by
  induction n with
  | zero => simp only [forRange, setzero]; rw [lane_zero]; simp [laneMask]
  | succ n ih =>
    simp only [forRange]
    rw [bitOr_lane, ih (fun j hj => hp j (by omega)), hp n (by omega), laneMask_or]
    congr 1
    by_cases h : ∃ j, j < n ∧ p j = true
    · obtain ⟨j, h1, h2⟩ := h
      rw [decide_eq_true ⟨j, h1, h2⟩, decide_eq_true ⟨j, by omega, h2⟩, Bool.true_or]
    · rw [decide_eq_false h, Bool.false_or]
      cases hl : p n
      · symm; simp only [decide_eq_false_iff_not]
        rintro ⟨j, h1, h2⟩
        by_cases hjn : j = n
        · subst hjn; rw [hl] at h2; exact absurd h2 (by decide)
        · exact h ⟨j, by omega, h2⟩
      · symm; simp only [decide_eq_true_eq]; exact ⟨n, by omega, hl⟩

/-- lanes of the masked native vectors -/
theorem one_lane {c : Cfg} (hc : c.Ok) (ht : tailOk c) (m : c.Data) (hm : Canon c m) {j i : Nat} (hj : j < c.dataSize) (hi : i < c.e) :
    lane c.w (maskone c.s c.T c.v (m j) (Mask.tailN c j)) i = laneMask c.w (decide (c.N ≤ j * c.e + i) || mget c m (j * c.e + i)) := by
  have hn : Mask.tailN c j < 2 ^ 64 := Nat.lt_of_le_of_lt (Nat.sub_le _ _) hc.lt
  rw [maskone_lane c.s hc.ety c.v _ hn hi, replaced_tail hc ht hj hi, ite_decide]
  split
  · next h => rw [decide_eq_true h]; rfl
  · next h => rw [decide_eq_false h, Bool.false_or, ← hm.elt hc (by omega), elt_block hc m hi]
theorem zero_lane {c : Cfg} (hc : c.Ok) (ht : tailOk c) (m : c.Data) (hm : Canon c m) {j i : Nat} (hj : j < c.dataSize) (hi : i < c.e) :
    lane c.w (maskzero c.s c.T c.v (m j) (Mask.tailN c j)) i = laneMask c.w (decide (j * c.e + i < c.N) && mget c m (j * c.e + i)) := by
  have hn : Mask.tailN c j < 2 ^ 64 := Nat.lt_of_le_of_lt (Nat.sub_le _ _) hc.lt
  rw [maskzero_lane c.s hc.ety c.v _ hn hi, replaced_tail hc ht hj hi, ite_decide]
  split
  · next h => rw [decide_eq_false (p := j * c.e + i < c.N) (by omega), Bool.false_and]; rfl
  · next h => rw [decide_eq_true (p := j * c.e + i < c.N) (by omega), Bool.true_and, ← hm.elt hc (by omega), elt_block hc m hi]

theorem block_split {c : Cfg} (hc : c.Ok) {i : Nat} (hi : i < c.N) :
    ∃ j k, j < c.dataSize ∧ k < c.e ∧ i = j * c.e + k :=
  ⟨i / c.e, i % c.e, idx_lt hc hi, idx_mod hc i, by rw [Nat.mul_comm]; exact (Nat.div_add_mod i c.e).symm⟩

theorem fill_spec {T : Ety} (h : T.Ok) (v : VSz) :
    ∃ r, fillBits ((v.bytes / T.bytes) * movemaskBits T) = some r ∧ ∀ i, r.getLsbD i = decide (i < extent T v * movemaskBits T) := by
  have hp : 0 < extent T v * movemaskBits T := Nat.mul_pos (extent_pos h v) (mb_pos T)
  have hb := (bits_total h v).1
  obtain ⟨r, h1, h2, -⟩ := C47_fill_bits (extent T v * movemaskBits T) (by omega) (by omega)
  exact ⟨r, h1, h2⟩

/-- `movemask == fill_bits` means all lanes true, unless the movemask is sign-extended. -/
theorem movemask_eq_fill (s : ISA) {T : Ety} (h : T.Ok) (v : VSz) (x : Vec v) (p : Nat → Bool)
    (hp : ∀ i, i < extent T v → lane T.w x i = laneMask T.w (p i)) (r : BitVec 64)
    (hr : ∀ i, r.getLsbD i = decide (i < extent T v * movemaskBits T)) :
    movemask s T v x = r ↔ ¬ wideMask s T v ∧ ∀ i, i < extent T v → p i = true := by
  have hb := (bits_total h v).1
  have hmb := mb_pos T
  constructor
  · intro heq
    have hbit : ∀ k, k < 64 → (if k < extent T v * movemaskBits T then p (k / movemaskBits T)
      else if wideMask s T v then p (extent T v - 1) else false) = decide (k < extent T v * movemaskBits T) := by
      intro k hk; rw [← movemask_canon s h v x p hp k hk, heq, hr]
    have hall : ∀ i, i < extent T v → p i = true := by
      intro i hi
      have hlt : i * movemaskBits T < extent T v * movemaskBits T := Nat.mul_lt_mul_of_pos_right hi hmb
      have := hbit (i * movemaskBits T) (by omega)
      rw [if_pos hlt, decide_eq_true hlt, Nat.mul_div_cancel _ hmb] at this; exact this
    refine ⟨fun hw => ?_, hall⟩
    have h32 := (bits_total h v).2.2.2 hw.1 hw.2.1
    have := hbit 32 (by omega)
    rw [if_neg (by omega), if_pos hw, hall _ (by have := extent_pos h v; omega), decide_eq_false (by omega)] at this
    exact absurd this (by decide)
  · rintro ⟨hw, hall⟩
    apply BitVec.eq_of_getLsbD_eq
    intro k hk
    rw [movemask_canon s h v x p hp k hk, hr, if_neg hw]
    split
    · next h1 => rw [hall _ ((Nat.div_lt_iff_lt_mul hmb).2 h1), decide_eq_true h1]
    · next h1 => rw [decide_eq_false h1]

theorem allOf_eq {c : Cfg} (hc : c.Ok) (ht : tailOk c) (m : c.Data) (hm : Canon c m) :
    Mask.allOf c m = some (decide (¬ wideMask c.s c.T c.v ∧ ∀ i, i < c.N → mget c m i = true)) := by
  obtain ⟨r, h1, h2⟩ := fill_spec hc.ety c.v
  unfold Mask.allOf
  simp only [h1, Option.map_some, Option.some.injEq]
  apply decide_eq_decide.2
  rw [movemask_eq_fill c.s hc.ety c.v _ _ (fun i hi => allLoop_lane hc (fun j => maskone c.s c.T c.v (m j) (Mask.tailN c j)) c.dataSize hi) r h2]
  apply and_congr Iff.rfl
  have key : ∀ i, i < c.e → ∀ j, j < c.dataSize → (laneEq c.T (lane c.w (maskone c.s c.T c.v (m j) (Mask.tailN c j)) i) 0#c.w = false
      ↔ (c.N ≤ j * c.e + i ∨ mget c m (j * c.e + i) = true)) := by
    intro i hi j hj
    rw [one_lane hc ht m hm hj hi]
    have := laneEq_mask hc.ety (decide (c.N ≤ j * c.e + i) || mget c m (j * c.e + i))
    rw [this]
    by_cases h : c.N ≤ j * c.e + i
    · simp [h]
    · rw [decide_eq_false h]; simp [h]
  constructor
  · intro h i hi
    obtain ⟨j, k, hj, hk, rfl⟩ := block_split hc hi
    have := of_decide_eq_true (h k hk) j hj
    rcases (key k hk j hj).1 this with h | h
    · omega
    · exact h
  · intro h i hi
    apply decide_eq_true
    intro j hj
    rw [key i hi j hj]
    by_cases hlt : c.N ≤ j * c.e + i
    · exact Or.inl hlt
    · exact Or.inr (h _ (by omega))

/-- C18: `all_of` is the universal quantifier over the elements, whatever the padding holds, on every
configuration except the AVX2 32-byte masks of 1/2-byte elements (`wideMask`) and the AVX-only ones whose
tail falls into the low half (`¬ tailOk`). -/
theorem C18_all_of_partial {c : Cfg} (hc : c.Ok) (hw : ¬ wideMask c.s c.T c.v) (ht : tailOk c) (m : c.Data) (hm : Canon c m) :
    Mask.allOf c m = some (decide (∀ i, i < c.N → mget c m i = true)) := by
  rw [allOf_eq hc ht m hm]; simp [hw]
/-- C18 violated: on AVX2, `all_of` of a 32-byte mask of 1- or 2-byte elements is false for every mask. -/
theorem C18_all_of_violated_avx2 {c : Cfg} (hc : c.Ok) (hw : wideMask c.s c.T c.v) (m : c.Data) (hm : Canon c m) :
    Mask.allOf c m = some false := by
  have ht : tailOk c := Or.inl (fun h => by have h1 := h.2.2; rw [hw.2.2] at h1; exact absurd h1 (by decide))
  rw [allOf_eq hc ht m hm]; simp [hw]

theorem nonzero_iff {c : Cfg} (hc : c.Ok) (x : Vec c.v) (p : Nat → Bool)
    (hp : ∀ i, i < c.e → lane c.w x i = laneMask c.w (p i)) : nonzero x = decide (∃ i, i < c.e ∧ p i = true) := by
  unfold nonzero
  apply decide_eq_decide.2
  have hw : 0 < c.w := w_pos hc.ety
  constructor
  · intro h
    apply Classical.byContradiction
    intro hn
    apply h
    apply ext_lanes (w := c.w) (e := c.e) (extent_mul hc.ety c.v).symm
    intro i hi
    rw [hp i hi, lane_zero]
    cases hpi : p i
    · rfl
    · exact absurd ⟨i, hi, hpi⟩ hn
  · rintro ⟨i, hi, hpi⟩ h
    have := hp i hi
    rw [h, lane_zero, hpi] at this
    have h2 := laneMask_eq_zero hw true
    exact absurd this.symm (by rw [h2]; decide)
theorem testMask_iff {c : Cfg} (hc : c.Ok) (x : Vec c.v) (p : Nat → Bool)
    (hp : ∀ i, i < c.e → lane c.w x i = laneMask c.w (p i)) : testMask c.s c.v x = decide (∃ i, i < c.e ∧ p i = true) := by
  obtain ⟨s, T, N, v⟩ := c
  cases v with
  | v256 => exact nonzero_iff hc x p hp
  | v128 =>
    by_cases h4 : s.sse41 = true
    · have e : testMask s .v128 x = nonzero x := if_pos h4
      simp only
      rw [e]; exact nonzero_iff hc x p hp
    · have e : testMask s .v128 x = decide (movmskInt (n := 128) 8 x ≠ 0) := if_neg h4
      simp only
      rw [e]
      apply decide_eq_decide.2
      simp only [Cfg.w, Cfg.e] at hp ⊢
      have hE : extent T .v128 * T.w = 128 := extent_mul hc.ety .v128
      have hB : 0 < T.bytes := hc.ety.bytes_pos
      have hwb : T.w = T.bytes * 8 := by unfold Ety.w; omega
      have hEb : extent T .v128 * T.bytes = 16 := by
        rw [hwb, ← Nat.mul_assoc] at hE; omega
      have key : ∀ i k, i < extent T .v128 → k < T.bytes → (movmskInt (n := 128) 8 x).getLsbD (i * T.bytes + k) = p i := by
        intro i k hi hk
        have hlt : i * T.bytes + k < 16 := by
          have := Nat.mul_le_mul_right T.bytes hi
          rw [Nat.succ_mul] at this; omega
        rw [movmskInt_bit]
        have hk8 : (k + 1) * 8 ≤ T.w := by omega
        have := lane_lane (w := T.w) (v := 8) (i := i) (j := k) x hk8 (i * T.bytes + k) (by rw [hwb, Nat.add_mul, Nat.mul_assoc])
        rw [← this, hp i hi, laneMask_lane _ _ _ hk8, laneMask_msb (by decide)]
        simp only [decide_eq_true (by omega : i * T.bytes + k < 32), decide_eq_true (by omega : (i * T.bytes + k + 1) * 8 ≤ 128), Bool.true_and]
      constructor
      · intro h
        apply Classical.byContradiction
        intro hn
        apply h
        apply BitVec.eq_of_getLsbD_eq
        intro b hb
        rw [show (0 : BitVec 32).getLsbD b = false by simp]
        by_cases hb16 : b < 16
        · have hlt : b / T.bytes < extent T .v128 := (Nat.div_lt_iff_lt_mul hB).2 (by omega)
          have := key (b / T.bytes) (b % T.bytes) hlt (Nat.mod_lt _ hB)
          rw [Nat.mul_comm, Nat.div_add_mod] at this
          rw [this]
          cases hpi : p (b / T.bytes)
          · rfl
          · exact absurd ⟨_, hlt, hpi⟩ hn
        · rw [movmskInt_bit, decide_eq_false (p := (b + 1) * 8 ≤ 128) (by omega)]; simp
      · rintro ⟨i, hi, hpi⟩ h
        have := key i 0 hi hB
        rw [h, hpi] at this
        simp at this

theorem anyBits_lane {c : Cfg} (hc : c.Ok) (ht : tailOk c) (m : c.Data) (hm : Canon c m) {i : Nat} (hi : i < c.e) :
    lane c.w (Mask.anyBits c m) i
      = laneMask c.w (decide (∃ j, j < c.dataSize ∧ (decide (j * c.e + i < c.N) && mget c m (j * c.e + i)) = true)) := by
  have base := anyLoop_lane (c := c) (fun j => maskzero c.s c.T c.v (m j) (Mask.tailN c j)) c.dataSize i
    (fun j => decide (j * c.e + i < c.N) && mget c m (j * c.e + i)) (fun j hj => zero_lane hc ht m hm hj hi)
  unfold Mask.anyBits
  simp only
  split
  · exact base
  · rw [cmpNe_lane c.s hc.ety c.v _ _ hi, base, setzero, lane_zero, laneEq_mask hc.ety, Bool.not_not]
theorem any_exists {c : Cfg} (hc : c.Ok) (m : c.Data) :
    (∃ i, i < c.e ∧ decide (∃ j, j < c.dataSize ∧ (decide (j * c.e + i < c.N) && mget c m (j * c.e + i)) = true) = true)
      ↔ ∃ i, i < c.N ∧ mget c m i = true := by
  constructor
  · rintro ⟨i, -, h⟩
    obtain ⟨j, -, h2⟩ := of_decide_eq_true h
    simp only [Bool.and_eq_true, decide_eq_true_eq] at h2
    exact ⟨_, h2.1, h2.2⟩
  · rintro ⟨i, hi, h⟩
    obtain ⟨j, k, hj, hk, rfl⟩ := block_split hc hi
    refine ⟨k, hk, decide_eq_true ⟨j, hj, ?_⟩⟩
    simp [hi, h]
/-- C18: `any_of` is the existential quantifier over the elements, whatever the padding holds (all
configurations but the AVX-only 1/2-byte ones whose tail falls into the low half). -/
theorem C18_any_of_partial {c : Cfg} (hc : c.Ok) (ht : tailOk c) (m : c.Data) (hm : Canon c m) :
    Mask.anyOf c m = decide (∃ i, i < c.N ∧ mget c m i = true) := by
  unfold Mask.anyOf
  rw [testMask_iff hc _ _ (fun i hi => anyBits_lane hc ht m hm hi)]
  exact decide_eq_decide.2 (any_exists hc m)
/-- C18: `none_of`, same domain. -/
theorem C18_none_of_partial {c : Cfg} (hc : c.Ok) (ht : tailOk c) (m : c.Data) (hm : Canon c m) :
    Mask.noneOf c m = decide (∀ i, i < c.N → mget c m i = false) := by
  have : Mask.noneOf c m = !Mask.anyOf c m := rfl
  rw [this, C18_any_of_partial hc ht m hm, ← decide_not]
  apply decide_eq_decide.2
  constructor
  · intro h i hi
    cases hb : mget c m i
    · rfl
    · exact absurd ⟨i, hi, hb⟩ h
  · rintro h ⟨i, hi, hb⟩
    rw [h i hi] at hb; exact absurd hb (by decide)

theorem pairLoop {α β : Type} (n : Nat) (f : Nat → α → α) (g : Nat → β → β) (a : α) (b : β) :
    forRange n (fun i (r : α × β) => (f i r.1, g i r.2)) (a, b) = (forRange n f a, forRange n g b) := by
  induction n with
  | zero => rfl
  | succ n ih => simp only [forRange, ih]
theorem someOf_eq (c : Cfg) (m : c.Data) :
    Mask.someOf c m = (Mask.allOf c m).map (fun all => Mask.anyOf c m && !all) := by
  unfold Mask.someOf Mask.allOf Mask.anyOf Mask.anyBits
  simp only [pairLoop c.dataSize (fun i r => bitOr r (maskzero c.s c.T c.v (m i) (Mask.tailN c i)))
    (fun i r => bitAndnot (cmpEq c.s c.T c.v (maskone c.s c.T c.v (m i) (Mask.tailN c i)) (setzero c.v)) r)]
  cases fillBits ((c.v.bytes / c.T.bytes) * movemaskBits c.T) with
  | none => rfl
  | some fb => simp only [Option.map_some, decide_not, ne_eq]
/-- C18: `some_of` holds iff some element is true and some is false. -/
theorem C18_some_of_partial {c : Cfg} (hc : c.Ok) (hw : ¬ wideMask c.s c.T c.v) (ht : tailOk c) (m : c.Data) (hm : Canon c m) :
    Mask.someOf c m = some (decide ((∃ i, i < c.N ∧ mget c m i = true) ∧ ∃ i, i < c.N ∧ mget c m i = false)) := by
  rw [someOf_eq, C18_all_of_partial hc hw ht m hm, C18_any_of_partial hc ht m hm]
  simp only [Option.map_some, Option.some.injEq]
  rw [← decide_not, ← Bool.decide_and]
  apply decide_eq_decide.2
  apply and_congr Iff.rfl
  constructor
  · intro h
    apply Classical.byContradiction
    intro hn
    apply h
    intro i hi
    cases hb : mget c m i
    · exact absurd ⟨i, hi, hb⟩ hn
    · rfl
  · rintro ⟨i, hi, hb⟩ h
    rw [h i hi] at hb; exact absurd hb (by decide)
/-- C18 violated: on AVX2 `some_of` of such a mask is just `any_of`: true for an all-true mask. -/
theorem C18_some_of_violated_avx2 {c : Cfg} (hc : c.Ok) (hw : wideMask c.s c.T c.v) (m : c.Data) (hm : Canon c m) :
    Mask.someOf c m = some (decide (∃ i, i < c.N ∧ mget c m i = true)) := by
  have ht : tailOk c := Or.inl (fun h => by have h1 := h.2.2; rw [hw.2.2] at h1; exact absurd h1 (by decide))
  rw [someOf_eq, C18_all_of_violated_avx2 hc hw m hm, C18_any_of_partial hc ht m hm]
  simp

/-! ### C19 -/
/-- C19: `reduce_count` counts the true elements (same domain as `all_of`). -/
theorem C19_reduce_count_partial {c : Cfg} (hc : c.Ok) (hw : ¬ wideMask c.s c.T c.v) (ht : tailOk c) (m : c.Data) (hm : Canon c m) :
    Mask.reduceCount c m = countTrue c.N (mget c m) := by
  have hblock : ∀ j, j < c.dataSize →
      Mask.popcount (movemask c.s c.T c.v (cmpNe c.s c.T c.v (maskzero c.s c.T c.v (m j) (Mask.tailN c j)) (setzero c.v)))
        = movemaskBits c.T * (List.range c.e).countP (fun i => decide (j * c.e + i < c.N) && mget c m (j * c.e + i)) := by
    intro j hj
    apply popcount_movemask c.s hc.ety c.v _ _ _ hw
    intro i hi
    rw [cmpNe_lane c.s hc.ety c.v _ _ hi, zero_lane hc ht m hm hj hi, setzero, lane_zero, laneEq_mask hc.ety, Bool.not_not]
  have hsum : ∀ n, n ≤ c.dataSize → forRange n (fun i (result : Nat) =>
      result + Mask.popcount (movemask c.s c.T c.v (cmpNe c.s c.T c.v (maskzero c.s c.T c.v (m i) (Mask.tailN c i)) (setzero c.v)))) 0
      = movemaskBits c.T * (List.range (n * c.e)).countP (fun i => decide (i < c.N) && mget c m i) := by
    intro n
    induction n with
    | zero => intro _; simp [forRange]
    | succ n ih =>
      intro hn
      simp only [forRange]
      rw [ih (by omega), hblock n (by omega), countP_blocks, countP_blocks]
      simp only [forRange]
      rw [← Nat.mul_add]
  unfold Mask.reduceCount
  simp only
  rw [hsum _ (Nat.le_refl _), Nat.mul_div_cancel_left _ (mb_pos c.T)]
  rw [countP_range_and c.N _ _ ((C50_cover hc).2.2)]
  unfold countTrue lanes
  rw [List.countP_map]; rfl

/-! ### C20 -/
theorem ctz_eq (x : BitVec 64) (k : Nat) (hk : k < 64) (h1 : x.getLsbD k = true) (h0 : ∀ i, i < k → x.getLsbD i = false) :
    Mask.ctz x = k := by
  unfold Mask.ctz
  have : (List.range 64).find? (fun i => x.getLsbD i) = some k := by
    rw [List.find?_range_eq_some]
    exact ⟨h1, List.mem_range.2 hk, fun j hj => by rw [h0 j hj]; rfl⟩
  rw [this]; rfl
theorem clz_eq (x : BitVec 64) (k : Nat) (hk : k < 64) (h1 : x.getLsbD (63 - k) = true) (h0 : ∀ i, i < k → x.getLsbD (63 - i) = false) :
    Mask.clz x = k := by
  unfold Mask.clz
  have : (List.range 64).find? (fun i => x.getLsbD (63 - i)) = some k := by
    rw [List.find?_range_eq_some]
    exact ⟨h1, List.mem_range.2 hk, fun j hj => by rw [h0 j hj]; rfl⟩
  rw [this]; rfl

/-- the lanes tested by the index scans -/
def lit (c : Cfg) (m : c.Data) (j i : Nat) : Bool := !laneEq c.T (lane c.w (m j) i) 0#c.w
theorem lit_valid {c : Cfg} (hc : c.Ok) (m : c.Data) (hm : Canon c m) {j i : Nat} (hi : i < c.e) (hv : j * c.e + i < c.N) :
    lit c m j i = mget c m (j * c.e + i) := by
  unfold lit
  rw [← elt_block hc m hi, hm.elt hc hv, laneEq_mask hc.ety, Bool.not_not]
theorem scan_lane {c : Cfg} (hc : c.Ok) (m : c.Data) (j : Nat) {i : Nat} (hi : i < c.e) :
    lane c.w (cmpNe c.s c.T c.v (m j) (setzero c.v)) i = laneMask c.w (lit c m j i) := by
  rw [cmpNe_lane c.s hc.ety c.v _ _ hi, setzero, lane_zero]; rfl

/-- C20: `reduce_min_index` returns the least true index, on every configuration. -/
theorem C20_min_index {c : Cfg} (hc : c.Ok) (m : c.Data) (hm : Canon c m) {k : Nat} (hk : IsFirst c.N (mget c m) k) :
    Mask.reduceMinIndex c m = some k := by
  obtain ⟨hkN, hkt, hkf⟩ := hk
  have hE : 0 < c.e := extent_pos hc.ety c.v
  have hmb := mb_pos c.T
  have hbt : c.e * movemaskBits c.T ≤ 32 := (bits_total hc.ety c.v).1
  have hdm : k / c.e * c.e + k % c.e = k := by rw [Nat.mul_comm]; exact Nat.div_add_mod k c.e
  have hklt := idx_mod hc k
  have main : ∀ fuel i, i ≤ k / c.e → k / c.e < i + fuel → Mask.minIndexGo c m fuel i = some k := by
    intro fuel
    induction fuel with
    | zero => intro i h1 h2; omega
    | succ fuel ih =>
      intro i h1 h2
      have hbits : ∀ b, b < 64 → (movemask c.s c.T c.v (cmpNe c.s c.T c.v (m i) (setzero c.v))).getLsbD b =
          if b < c.e * movemaskBits c.T then lit c m i (b / movemaskBits c.T)
          else if wideMask c.s c.T c.v then lit c m i (c.e - 1) else false :=
        fun b hb => movemask_canon c.s hc.ety c.v (cmpNe c.s c.T c.v (m i) (setzero c.v)) (lit c m i) (fun l hl => scan_lane hc m i hl) b hb
      unfold Mask.minIndexGo
      simp only
      by_cases hlt : i < k / c.e
      · have hfull : ∀ l, l < c.e → lit c m i l = false := by
          intro l hl
          have h3 : (i + 1) * c.e ≤ k / c.e * c.e := Nat.mul_le_mul_right _ hlt
          rw [Nat.succ_mul] at h3
          rw [lit_valid hc m hm hl (by omega)]
          exact hkf _ (by omega)
        have hz : movemask c.s c.T c.v (cmpNe c.s c.T c.v (m i) (setzero c.v)) = 0 := by
          apply BitVec.eq_of_getLsbD_eq
          intro b hb
          rw [hbits b hb]
          rw [show (0 : BitVec 64).getLsbD b = false by simp]
          split
          · next h5 => exact hfull _ ((Nat.div_lt_iff_lt_mul hmb).2 h5)
          · split
            · exact hfull _ (by omega)
            · rfl
        rw [if_neg (by rw [hz]; simp)]
        exact ih (i + 1) (by omega) (by omega)
      · have hi : i = k / c.e := by omega
        subst hi
        have hpos : k % c.e * movemaskBits c.T < c.e * movemaskBits c.T := Nat.mul_lt_mul_of_pos_right hklt hmb
        have hset : (movemask c.s c.T c.v (cmpNe c.s c.T c.v (m (k / c.e)) (setzero c.v))).getLsbD (k % c.e * movemaskBits c.T) = true := by
          rw [hbits _ (by omega), if_pos hpos, Nat.mul_div_cancel _ hmb, lit_valid hc m hm hklt (by omega), hdm]; exact hkt
        have hctz := ctz_eq _ (k % c.e * movemaskBits c.T) (by omega) hset (by
          intro b hb
          have hb2 : b / movemaskBits c.T < k % c.e := (Nat.div_lt_iff_lt_mul hmb).2 hb
          rw [hbits b (by omega), if_pos (by omega), lit_valid hc m hm (by omega) (by omega)]
          exact hkf _ (by omega))
        have hne : movemask c.s c.T c.v (cmpNe c.s c.T c.v (m (k / c.e)) (setzero c.v)) ≠ 0 := by
          intro h0; rw [h0] at hset; simp at hset
        have hscale : k / c.e * c.v.bytes / c.T.bytes = k / c.e * c.e := by
          have := tailN_eq hc (k / c.e)
          unfold Cfg.e extent
          rcases hc.ety.1 with h | h | h | h <;> rw [h] <;> cases c.v <;> simp only [VSz.bytes] <;> omega
        rw [if_pos hne, hctz, Nat.mul_div_cancel _ hmb, hscale, Nat.add_comm, hdm]
  exact main c.dataSize 0 (Nat.zero_le _) (by have := idx_lt hc hkN; omega)

theorem shlLoop_eq (mb k : Nat) (b : BitVec 64) : shlLoop mb k b = b <<< (k * mb) := by
  induction k generalizing b with
  | zero => simp [shlLoop]
  | succ k ih =>
    simp only [shlLoop]
    rw [ih, ← BitVec.shiftLeft_add, Nat.succ_mul, Nat.add_comm]

/-- bits of `movemask_l` -/
theorem movemaskL_bit (s : ISA) {T : Ety} (h : T.Ok) (v : VSz) (x : Vec v) (p : Nat → Bool)
    (hp : ∀ i, i < extent T v → lane T.w x i = laneMask T.w (p i)) (n : Nat) (b : Nat) (hb : b < 64) :
    (movemaskL s T v x n).getLsbD (63 - b) =
      (decide (b < extent T v * movemaskBits T - (extent T v - n) * movemaskBits T) &&
        p ((extent T v * movemaskBits T - 1 - (extent T v - n) * movemaskBits T - b) / movemaskBits T)) := by
  have hbt := (bits_total h v).1
  have hmb := mb_pos T
  have e1 : movemaskL s T v x n = movemask s T v x <<< (64 - extent T v * movemaskBits T + (extent T v - n) * movemaskBits T) := by
    unfold movemaskL
    simp only
    split
    · rw [shlLoop_eq, ← BitVec.shiftLeft_add]
    · next hn => rw [show extent T v - n = 0 by omega]; simp
  have hle : (extent T v - n) * movemaskBits T ≤ extent T v * movemaskBits T := Nat.mul_le_mul_right _ (by omega)
  rw [e1, BitVec.getLsbD_shiftLeft]
  generalize hS : (extent T v - n) * movemaskBits T = S at *
  generalize hM : extent T v * movemaskBits T = M at *
  by_cases hlt : b < M - S
  · rw [decide_eq_true hlt, Bool.true_and, decide_eq_true (by omega : 63 - b < 64), decide_eq_false (by omega : ¬ 63 - b < 64 - M + S)]
    simp only [Bool.not_false, Bool.true_and]
    rw [movemask_canon s h v x p hp _ (by omega), hM, if_pos (by omega)]
    congr 2; omega
  · rw [decide_eq_false hlt, Bool.false_and, decide_eq_true (by omega : 63 - b < 64 - M + S)]
    simp

/-- C20: what `reduce_max_index` returns: the greatest true index `k` when it lies in a full native
vector, but `k` plus the number of padding lanes when it lies in the partial last one. -/
theorem C20_max_index_exact {c : Cfg} (hc : c.Ok) (m : c.Data) (hm : Canon c m) {k : Nat} (hk : IsLast c.N (mget c m) k) :
    Mask.reduceMaxIndex c m = some (if k / c.e * c.e + c.e ≤ c.N then k else k + (k / c.e * c.e + c.e - c.N)) := by
  obtain ⟨hkN, hkt, hkf⟩ := hk
  have hE : 0 < c.e := extent_pos hc.ety c.v
  have hmb := mb_pos c.T
  have hbt : c.e * movemaskBits c.T ≤ 32 := (bits_total hc.ety c.v).1
  have hdm : k / c.e * c.e + k % c.e = k := by rw [Nat.mul_comm]; exact Nat.div_add_mod k c.e
  have hklt := idx_mod hc k
  have hcover := (C50_cover hc).2.2
  have main : ∀ j, k / c.e < j → j ≤ c.dataSize → Mask.maxIndexGo c m j = some (if k / c.e * c.e + c.e ≤ c.N then k else k + (k / c.e * c.e + c.e - c.N)) := by
    intro j
    induction j with
    | zero => intro h; exact absurd h (Nat.not_lt_zero _)
    | succ i ih =>
      intro h1 h2
      have hblk := block_lt hc (by omega : i < c.dataSize)
      have hbits := fun n b hb => movemaskL_bit c.s hc.ety c.v (cmpNe c.s c.T c.v (m i) (setzero c.v)) (lit c m i) (fun l hl => scan_lane hc m i hl) n b hb
      have hsub : ∀ n, n ≤ c.e → c.e * movemaskBits c.T - (c.e - n) * movemaskBits c.T = n * movemaskBits c.T := by
        intro n hn
        rw [← Nat.sub_mul]; congr 1; omega
      unfold Mask.maxIndexGo
      simp only
      -- number of valid lanes in this vector
      have hn0 : 0 < c.N - i * c.e := by omega
      obtain ⟨nv, hnv, hnvE, hnvS⟩ : ∃ nv, nv = min (c.N - i * c.e) c.e ∧ nv ≤ c.e ∧ c.e - (c.N - i * c.e) = c.e - nv :=
        ⟨_, rfl, Nat.min_le_right _ _, by omega⟩
      have hbits2 : ∀ b, b < 64 → (movemaskL c.s c.T c.v (cmpNe c.s c.T c.v (m i) (setzero c.v)) (c.N - i * c.e)).getLsbD (63 - b)
          = (decide (b < nv * movemaskBits c.T) && mget c m (i * c.e + (nv * movemaskBits c.T - 1 - b) / movemaskBits c.T)) := by
        intro b hb
        rw [hbits _ b hb]
        have e0 : extent c.T c.v = c.e := rfl
        rw [e0, hnvS, hsub nv hnvE]
        by_cases hlt : b < nv * movemaskBits c.T
        · rw [decide_eq_true hlt, Bool.true_and, Bool.true_and]
          have hle : (c.e - nv) * movemaskBits c.T ≤ c.e * movemaskBits c.T := Nat.mul_le_mul_right _ (by omega)
          have h4 := hsub nv hnvE
          have e2 : c.e * movemaskBits c.T - 1 - (c.e - nv) * movemaskBits c.T - b = nv * movemaskBits c.T - 1 - b := by omega
          rw [e2]
          have hq : (nv * movemaskBits c.T - 1 - b) / movemaskBits c.T < nv := (Nat.div_lt_iff_lt_mul hmb).2 (by omega)
          rw [lit_valid hc m hm (by omega) (by omega)]
        · rw [decide_eq_false hlt]; simp
      have hnvM : nv * movemaskBits c.T ≤ 32 := Nat.le_trans (Nat.mul_le_mul_right _ hnvE) hbt
      by_cases hlt : k / c.e < i
      · have hz : movemaskL c.s c.T c.v (cmpNe c.s c.T c.v (m i) (setzero c.v)) (c.N - i * c.e) = 0 := by
          apply BitVec.eq_of_getLsbD_eq
          intro b hb
          rw [show (0 : BitVec 64).getLsbD b = false by simp, show b = 63 - (63 - b) by omega, hbits2 _ (by omega)]
          by_cases hb2 : 63 - b < nv * movemaskBits c.T
          · rw [decide_eq_true hb2, Bool.true_and]
            have hq : (nv * movemaskBits c.T - 1 - (63 - b)) / movemaskBits c.T < nv := (Nat.div_lt_iff_lt_mul hmb).2 (by omega)
            have h3 : (k / c.e + 1) * c.e ≤ i * c.e := Nat.mul_le_mul_right _ hlt
            rw [Nat.succ_mul] at h3
            generalize (nv * movemaskBits c.T - 1 - (63 - b)) / movemaskBits c.T = q at hq ⊢
            exact hkf _ (by omega) (by omega)
          · rw [decide_eq_false hb2, Bool.false_and]
        rw [if_neg (by rw [hz]; simp)]
        exact ih (by omega) (by omega)
      · have hi : i = k / c.e := by omega
        subst hi
        have hknv : k % c.e < nv := by omega
        -- position of the first set bit from the top
        have hpos : (nv - 1 - k % c.e) * movemaskBits c.T < nv * movemaskBits c.T := Nat.mul_lt_mul_of_pos_right (by omega) hmb
        have hdiv : ∀ q b, q < nv → b < movemaskBits c.T → (nv * movemaskBits c.T - 1 - ((nv - 1 - q) * movemaskBits c.T + b)) / movemaskBits c.T = q := by
          intro q b hq hb
          have : nv * movemaskBits c.T = (nv - 1 - q) * movemaskBits c.T + q * movemaskBits c.T + movemaskBits c.T := by
            rw [← Nat.add_mul, ← Nat.succ_mul]; congr 1; omega
          have h5 : nv * movemaskBits c.T - 1 - ((nv - 1 - q) * movemaskBits c.T + b) = movemaskBits c.T * q + (movemaskBits c.T - 1 - b) := by
            rw [Nat.mul_comm _ q]; omega
          rw [h5, Nat.mul_add_div hmb, Nat.div_eq_of_lt (by omega), Nat.add_zero]
        have hset : (movemaskL c.s c.T c.v (cmpNe c.s c.T c.v (m (k / c.e)) (setzero c.v)) (c.N - k / c.e * c.e)).getLsbD
            (63 - (nv - 1 - k % c.e) * movemaskBits c.T) = true := by
          rw [hbits2 _ (by omega), decide_eq_true hpos, Bool.true_and]
          have := hdiv (k % c.e) 0 hknv hmb
          rw [Nat.add_zero] at this
          rw [this, hdm]; exact hkt
        have hclz := clz_eq _ ((nv - 1 - k % c.e) * movemaskBits c.T) (by omega) hset (by
          intro b hb
          have hq : b / movemaskBits c.T < nv - 1 - k % c.e := (Nat.div_lt_iff_lt_mul hmb).2 hb
          obtain ⟨q, hqd⟩ : ∃ q, q = b / movemaskBits c.T := ⟨_, rfl⟩
          rw [← hqd] at hq
          have hb3 : movemaskBits c.T * q + b % movemaskBits c.T = b := by rw [hqd]; exact Nat.div_add_mod b (movemaskBits c.T)
          have hb4 := Nat.mod_lt b hmb
          have hd := hdiv (nv - 1 - q) (b % movemaskBits c.T) (by omega) hb4
          rw [show nv - 1 - (nv - 1 - q) = q by omega, Nat.mul_comm q, hb3] at hd
          rw [hbits2 _ (by omega), hd]
          rw [hkf (k / c.e * c.e + (nv - 1 - q)) (by omega) (by omega), Bool.and_false])
        have hne : movemaskL c.s c.T c.v (cmpNe c.s c.T c.v (m (k / c.e)) (setzero c.v)) (c.N - k / c.e * c.e) ≠ 0 := by
          intro h0; rw [h0] at hset; simp at hset
        rw [if_pos hne, hclz, Nat.mul_div_cancel _ hmb, Nat.succ_mul]
        congr 1
        split <;> omega
  exact main c.dataSize (idx_lt hc hkN) (Nat.le_refl _)
/-- C20: `reduce_max_index` returns the greatest true index when the width is a multiple of the native
extent. -/
theorem C20_max_index_partial {c : Cfg} (hc : c.Ok) (hN : c.N % c.e = 0) (m : c.Data) (hm : Canon c m) {k : Nat} (hk : IsLast c.N (mget c m) k) :
    Mask.reduceMaxIndex c m = some k := by
  rw [C20_max_index_exact hc m hm hk, if_pos]
  have hE : 0 < c.e := extent_pos hc.ety c.v
  have h1 := Nat.div_add_mod c.N c.e
  have hlt : k / c.e < c.N / c.e := by
    apply (Nat.div_lt_iff_lt_mul hE).2
    rw [Nat.mul_comm]; have := hk.1; omega
  have := Nat.mul_le_mul_right c.e hlt
  rw [Nat.succ_mul, Nat.mul_comm (c.N / c.e)] at this; omega
/-- C20 violated: whenever the last native vector is partial and holds the last true element, the index
returned is not its index (and is at least `size()` whenever the true element is near the end). -/
theorem C20_max_index_violated {c : Cfg} (hc : c.Ok) (m : c.Data) (hm : Canon c m) {k : Nat} (hk : IsLast c.N (mget c m) k)
    (hp : c.N < k / c.e * c.e + c.e) : ∃ r, Mask.reduceMaxIndex c m = some r ∧ k < r := by
  rw [C20_max_index_exact hc m hm hk, if_neg (by omega)]
  exact ⟨_, rfl, by omega⟩

/-! ### Satisfiability and concrete violations -/
/-- AVX without AVX2, 32-byte masks of `uint8_t`, 5 elements. -/
def exA : Cfg := ⟨.avxL, .u8, 5, .v256⟩
/-- AVX2, 32-byte masks of `uint8_t`, 32 elements. -/
def exW : Cfg := ⟨.avx2L, .u8, 32, .v256⟩
theorem exA_ok : exA.Ok := ⟨by decide, by decide, by decide, by decide, by decide⟩
theorem exW_ok : exW.Ok := ⟨by decide, by decide, by decide, by decide, by decide⟩
example : ¬ wideMask exC.s exC.T exC.v ∧ tailOk exC := by decide
example : ¬ wideMask exF.s exF.T exF.v ∧ tailOk exF := by decide
example : IsLast exC.N (mget exC (Mask.ofGen exC (fun i => i == 3) (zeroData exC))) 3 := by
  have h := fun i hi => (C17_constructors exC_ok true (fun i => i == 3) (zeroData exC) (zeroData exC) 0 (i := i) hi).2.1
  refine ⟨by decide, by rw [h 3 (by decide)]; rfl, fun i h1 h2 => by rw [h i h2]; simp; omega⟩
/-- C20 violated on a concrete mask: 5 x `uint16_t` on SSE2, only element 4 true, `reduce_max_index` is 7. -/
theorem C20_max_index_counterexample :
    Mask.reduceMaxIndex exC (Mask.ofGen exC (fun i => i == 4) (zeroData exC)) = some 7 := by
  have h := fun i hi => (C17_constructors exC_ok true (fun i => i == 4) (zeroData exC) (zeroData exC) 0 (i := i) hi).2.1
  rw [C20_max_index_exact exC_ok _ (C17_canonical exC_ok (.ofGen _ _)) (k := 4)
    ⟨by decide, by rw [h 4 (by decide)]; rfl, fun i h1 h2 => by rw [h i h2]; simp; omega⟩]
  decide
/-- C18 violated on a concrete mask: `all_of` of an all-true `uint8_t` mask is false on AVX2. -/
theorem C18_all_of_counterexample : ∃ m : exW.Data, ApiMask exW m ∧ (∀ i, i < exW.N → mget exW m i = true) ∧
    Mask.allOf exW m = some false :=
  ⟨_, .ofBool true (zeroData exW), fun i hi => (C17_constructors exW_ok true (fun _ => true) _ (zeroData exW) 0 hi).1,
    C18_all_of_violated_avx2 exW_ok (by decide) _ (C17_canonical exW_ok (.ofBool _ _))⟩
/-- C18 violated on AVX without AVX2: `any_of(!simd_mask(gen))` is true (and `none_of` false) although every
element of the mask is false: the padding in the high half is not masked. -/
theorem C18_any_of_counterexample : ∃ m : exA.Data, ApiMask exA m ∧ (∀ i, i < exA.N → mget exA m i = false) ∧
    Mask.anyOf exA m = true ∧ Mask.noneOf exA m = false := by
  refine ⟨_, .not (.ofGen (fun _ => true) (zeroData exA)), ?_, by decide +kernel, by decide +kernel⟩
  intro i hi
  rw [(C16_not exA_ok (C17_canonical exA_ok (.ofGen _ _)) hi).1,
    (C17_constructors exA_ok true (fun _ => true) _ (zeroData exA) 0 hi).2.1]; rfl
/-- C18/C19 violated likewise: an all-true mask has `all_of` false and `some_of` true there. -/
theorem C18_all_of_counterexample_avx : ∃ m : exA.Data, ApiMask exA m ∧ (∀ i, i < exA.N → mget exA m i = true) ∧
    Mask.allOf exA m = some false ∧ Mask.someOf exA m = some true := by
  refine ⟨_, .ofGen (fun _ => true) (zeroData exA), ?_, by decide +kernel, by decide +kernel⟩
  intro i hi
  exact (C17_constructors exA_ok true (fun _ => true) _ (zeroData exA) 0 hi).2.1
/-- C19 violated on AVX2: `reduce_count` of an all-true 32 x `uint8_t` mask is 64; on AVX an all-false mask
of width 5 counts 16. -/
theorem C19_counterexample :
    Mask.reduceCount exW (Mask.ofBool exW true (zeroData exW)) = 64 ∧
    Mask.reduceCount exA (Mask.not exA (Mask.ofGen exA (fun _ => true) (zeroData exA))) = 16 := by
  decide +kernel
end Dpm.X86
