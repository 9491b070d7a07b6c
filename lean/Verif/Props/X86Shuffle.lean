import Verif.Proofs.Shuffle
import Verif.Proofs.Vector
import Verif.Props.X86Int
/-
C28: `shuffle<Is...>(x)` of x86 vectors and masks.
-/
namespace Dpm.X86
open Dpm.Reg Dpm.Util Dpm.Generic

/-- element `i` of an array of native vectors of size `v` -/
def eltAt (T : Ety) (v : VSz) (d : Mem (Vec v)) (i : Nat) : BitVec T.w := lane T.w (d (i / extent T v)) (i % extent T v)
theorem lo_setHL (h l : BitVec 128) : lo (setHL h l) = l := by
  apply ext_lanes (w := 1) (e := 128) rfl; intro i hi
  rw [lane_lo _ (by omega), lane_setHL_lo _ _ (by omega)]
theorem hi_setHL (h l : BitVec 128) : Reg.hi (setHL h l) = h := by
  apply ext_lanes (w := 1) (e := 128) rfl; intro i hi
  rw [lane_hi (i := i + 128) _ (by omega) (by omega), lane_setHL_hi (j := i) _ _ (by omega)]
theorem view_unview (d : Mem (BitVec 128)) : view128 .v256 (unview128 d) = d := by
  funext j
  simp only [view128, unview128]
  split
  · next h => rw [lo_setHL]; congr 1; omega
  · next h => rw [hi_setHL]; congr 1; omega
/-- native vector size the driver works with: 16 bytes unless source and result are both made of 32-byte vectors -/
def workSize : VSz → VSz → VSz
  | .v256, .v256 => .v256
  | _, _ => .v128
/-- index of the last element the driver reads when it fills the last native vector of the result:
the last index of the pack plus the number of missing indices -/
def lastRead (T : Ety) (u : VSz) (is : List Nat) : Nat :=
  is.getLast?.getD 0 + (ceilDiv is.length (extent T u) * extent T u - is.length)

theorem ceilDiv_mul_ge {n e : Nat} (he : 0 < e) : n ≤ ceilDiv n e * e := by
  apply Classical.byContradiction; intro h
  exact absurd ((ceilDiv_spec he _).1 (by omega : ceilDiv n e * e < n)) (by omega)

theorem packIdx_bound {T : Ety} {u : VSz} (he : 0 < extent T u) {is : List Nat} (hne : is ≠ []) {S : Nat} (hS : ∀ i ∈ is, i < S) :
    (lastRead T u is < S → ∀ j, j < ceilDiv is.length (extent T u) * extent T u → packIdx is j < S) ∧
    (¬ lastRead T u is < S → ∃ j, j < ceilDiv is.length (extent T u) * extent T u ∧ ¬ packIdx is j < S) := by
  obtain ⟨js, l, rfl⟩ : ∃ js l, is = js ++ [l] := ⟨is.dropLast, is.getLast hne, (List.dropLast_concat_getLast hne).symm⟩
  have hge := ceilDiv_mul_ge (n := (js ++ [l]).length) he
  have hl : (js ++ [l]).length = js.length + 1 := by simp
  unfold lastRead
  rw [List.getLast?_append]
  simp only [List.getLast?_singleton, Option.some_or, Option.getD_some]
  generalize ceilDiv (js ++ [l]).length (extent T u) * extent T u = m at *
  constructor
  · intro h j hj
    by_cases hjl : j < js.length
    · rw [packIdx_lt (by omega)]; exact hS _ (List.getElem_mem _)
    · rw [packIdx_ge (by omega)]; omega
  · intro h
    refine ⟨m - 1, by omega, ?_⟩
    rw [packIdx_ge (by omega)]; omega

theorem driveAny_spec {T : Ety} (hT : T.Ok) (v v' : VSz) (D : Nat) (d : Mem (Vec v)) (is : List Nat) (hne : is ≠ [])
    (h62 : ∀ i ∈ is, i < 2 ^ 62) (hS : ∀ i ∈ is, i < D * extent T v) :
    (lastRead T (workSize v v') is < D * extent T v →
      ∃ r, driveAny T is v v' (srcOf D d) = .ok r ∧ ∀ (j : Nat) (hj : j < is.length), eltAt T v' r j = eltAt T v d is[j]) ∧
    (¬ lastRead T (workSize v v') is < D * extent T v → driveAny T is v v' (srcOf D d) = .ub) := by
  have hpos : 0 < is.length := List.length_pos_iff.2 hne
  -- one statement per working size
  have main : ∀ (u : VSz) (D' : Nat) (d' : Mem (Vec u)), D' * extent T u = D * extent T v → 
      (lastRead T u is < D * extent T v → ∃ r, drive T u (srcOf D' d') (is.length + 2) is 0 (fun _ => 0#u.bits) = .ok r ∧
        ∀ (j : Nat) (hj : j < is.length), eltAt T u r j = eltAt T u d' is[j]) ∧
      (¬ lastRead T u is < D * extent T v → drive T u (srcOf D' d') (is.length + 2) is 0 (fun _ => 0#u.bits) = .ub) := by
    intro u D' d' hD
    have he := extent_pos hT u
    have ds := drive_spec hT u D' d' is.length is rfl hpos h62 (is.length + 2) 0 (fun _ => 0#u.bits) (by omega)
    obtain ⟨b1, b2⟩ := packIdx_bound he hne hS
    constructor
    · intro h
      obtain ⟨r, hr, h1, _⟩ := ds.good (fun j hj => by
        rw [Nat.div_lt_iff_lt_mul he, hD]; exact b1 h j hj)
      refine ⟨r, hr, fun j hj => ?_⟩
      have := h1 j (by have := ceilDiv_mul_ge (n := is.length) he; omega)
      rw [Nat.zero_add, packIdx_lt hj] at this
      exact this
    · intro h
      obtain ⟨j, hj, hb⟩ := b2 h
      refine ds.bad ⟨j, hj, ?_⟩
      rw [Nat.div_lt_iff_lt_mul he, hD]; exact hb
  have hh := extent_half hT
  cases v with
  | v128 =>
    cases v' with
    | v128 => exact main .v128 D d rfl
    | v256 =>
      obtain ⟨g, b⟩ := main .v128 D d rfl
      refine ⟨fun h => ?_, fun h => ?_⟩
      · obtain ⟨r, hr, h1⟩ := g h
        refine ⟨unview128 r, ?_, fun j hj => ?_⟩
        · show Out.map unview128 (drive T .v128 (srcOf D d) _ _ _ _) = _
          have hr' : drive T .v128 (srcOf D d) (is.length + 2) is 0 (fun _ => 0#128) = .ok r := hr
          rw [hr']; rfl
        · rw [← h1 j hj]
          have := view128_lane hT (unview128 r) j
          rw [view_unview] at this
          exact this.symm
      · have hb : drive T .v128 (srcOf D d) (is.length + 2) is 0 (fun _ => 0#128) = .ub := b h
        show Out.map unview128 (drive T .v128 (srcOf D d) _ _ _ _) = _
        rw [hb]; rfl
  | v256 =>
    cases v' with
    | v256 => exact main .v256 D d rfl
    | v128 =>
      obtain ⟨g, b⟩ := main .v128 (2 * D) (view128 .v256 d) (by rw [hh, Nat.mul_comm 2 D, Nat.mul_assoc])
      have hv : driveAny T is .v256 .v128 (srcOf D d) = drive T .v128 (srcOf (2 * D) (view128 .v256 d)) (is.length + 2) is 0 (fun _ => 0#128) := by
        show drive T .v128 (srcView128 .v256 (srcOf D d)) _ _ _ _ = _
        rw [srcView128_srcOf]
      rw [hv]
      refine ⟨fun h => ?_, b⟩
      obtain ⟨r, hr, h1⟩ := g h
      refine ⟨r, hr, fun j hj => ?_⟩
      rw [h1 j hj]
      exact view128_lane hT d is[j]

section C28
variable {c : Cfg} (hc : c.Ok) (v' : VSz) (is : List Nat) (hne : is ≠ []) (hin : ∀ i ∈ is, i < c.N) (hN : c.N ≤ 2 ^ 62)
include hc hne hin hN

/-- C28 (exact behaviour of the x86 shuffle of vectors; masks use the same storage and code): for every pack of
valid indices and every combination of 16/32-byte source and result, if filling the last native vector of the result
reads no element past the storage of `x`, element `j` of the result is element `Is[j]` of `x`; otherwise the call is
undefined. -/
theorem C28_shuffle_exact (x : c.Data) :
    (lastRead c.T (workSize c.v v') is < c.dataSize * c.e →
      ∃ r, vShuffleNative c v' is x = .ok r ∧ ∀ (j : Nat) (hj : j < is.length), elt (c.resized is.length v') r j = elt c x is[j]) ∧
    (¬ lastRead c.T (workSize c.v v') is < c.dataSize * c.e → vShuffleNative c v' is x = .ub) :=
  driveAny_spec hc.ety c.v v' c.dataSize x is hne (fun i hi => by have := hin i hi; omega)
    (fun i hi => Nat.lt_of_lt_of_le (hin i hi) (cap_ge hc))

/-- C28 (the part that holds): packs whose length is a multiple of the native extent. -/
theorem C28_shuffle_partial (hm : is.length % extent c.T (workSize c.v v') = 0) (x : c.Data) :
    ∃ r, vShuffleNative c v' is x = .ok r ∧ ∀ (j : Nat) (hj : j < is.length), elt (c.resized is.length v') r j = elt c x is[j] := by
  refine (C28_shuffle_exact hc v' is hne hin hN x).1 ?_
  have hlast : is.getLast?.getD 0 < c.N := by
    rw [List.getLast?_eq_some_getLast hne]; exact hin _ (List.getLast_mem hne)
  have hcap := cap_ge hc
  unfold lastRead
  have : ceilDiv is.length (extent c.T (workSize c.v v')) * extent c.T (workSize c.v v') = is.length := by
    rw [ceilDiv, if_neg (by omega), Nat.add_zero, Nat.mul_comm]
    have := Nat.div_add_mod is.length (extent c.T (workSize c.v v')); omega
  omega

/-- C28 (masks): `shuffle` of a mask under the same condition picks the Boolean elements, and keeps canonical
elements canonical. -/
theorem C28_mask_partial (hp : lastRead c.T (workSize c.v v') is < c.dataSize * c.e) (m : c.Data) :
    ∃ r, vShuffleNative c v' is m = .ok r ∧ ∀ (j : Nat) (hj : j < is.length),
      mget (c.resized is.length v') r j = mget c m is[j] ∧
      ((elt c m is[j] = 0 ∨ elt c m is[j] = BitVec.allOnes _) → (elt (c.resized is.length v') r j = 0 ∨ elt (c.resized is.length v') r j = BitVec.allOnes _)) := by
  obtain ⟨r, hr, h⟩ := (C28_shuffle_exact hc v' is hne hin hN m).1 hp
  refine ⟨r, hr, fun j hj => ⟨?_, ?_⟩⟩
  · unfold mget; rw [h j hj]
  · rw [h j hj]; exact id
end C28

/-- C28 violated for *every* 16-byte configuration whose vectors fill their storage: a pack that is one index short of
a native vector and ends in the last element is undefined (`shuffle<1, 2, 3>` of four floats reads a fifth..eighth). -/
theorem C28_violated {c : Cfg} (hc : c.Ok) (hN : c.N ≤ 2 ^ 62) (hfull : c.N % c.e = 0) (x : c.Data) :
    vShuffleNative c .v128 [c.N - 1, c.N - 1 - 1, c.N - 1] x = .ub ∨ extent c.T .v128 = 2 := by
  by_cases h2 : extent c.T .v128 = 2
  · exact Or.inr h2
  · left
    have hpos := hc.pos
    refine (C28_shuffle_exact hc .v128 _ (by simp) (by simp; omega) hN x).2 ?_
    have hu : workSize c.v .v128 = .v128 := by cases c.v <;> rfl
    have hcap := (cap_eq_iff hc).2 hfull
    have he : extent c.T .v128 = 4 ∨ extent c.T .v128 = 8 ∨ extent c.T .v128 = 16 := by
      rcases hc.ety.1 with h | h | h | h <;> simp [extent, VSz.bytes, h] at h2 ⊢
    rw [hu, lastRead]
    have : ceilDiv [c.N - 1, c.N - 1 - 1, c.N - 1].length (extent c.T .v128) * extent c.T .v128 = extent c.T .v128 := by
      rw [ceilDiv_small (by simp) (by simp; omega), Nat.one_mul]
    rw [this]
    simp only [List.getLast?_cons_cons, List.getLast?_singleton, Option.getD_some, List.length_cons, List.length_nil]
    omega

/-- six floats on AVX with 32-byte vectors -/
def exF32q : Cfg := ⟨.avxL, .f32, 12, .v256⟩
theorem exF32q_ok : exF32q.Ok := ⟨by decide, by decide, by decide, by decide, by decide⟩
/-- reversal of eight of twelve floats into a 32-byte result, for any contents -/
example (x : exF32q.Data) : ∃ r, vShuffleNative exF32q .v256 [11, 10, 9, 8, 3, 2, 1, 0] x = .ok r ∧
    elt (exF32q.resized 8 .v256) r 0 = elt exF32q x 11 ∧ elt (exF32q.resized 8 .v256) r 5 = elt exF32q x 2 := by
  obtain ⟨r, hr, h⟩ := C28_shuffle_partial exF32q_ok .v256 [11, 10, 9, 8, 3, 2, 1, 0] (by decide) (by decide) (by decide) (by decide) x
  exact ⟨r, hr, h 0 (by decide), h 5 (by decide)⟩
/-- the same source into a 16-byte result, padded pack `3, 4, 5, (6)` -/
example (x : exF32q.Data) : ∃ r, vShuffleNative exF32q .v128 [3, 4, 5] x = .ok r ∧
    elt (exF32q.resized 3 .v128) r 2 = elt exF32q x 5 := by
  obtain ⟨r, hr, h⟩ := (C28_shuffle_exact exF32q_ok .v128 [3, 4, 5] (by decide) (by decide) (by decide) x).1 (by decide)
  exact ⟨r, hr, h 2 (by decide)⟩
/-- `shuffle<3, 2, 3>` of four unsigned ints is undefined -/
example (x : exU32.Data) : vShuffleNative exU32 .v128 [3, 2, 3] x = .ub :=
  (C28_violated exU32_ok (by decide) (by decide) x).resolve_right (by decide)

/-! ### The generic template on x86 vectors (1- and 2-byte elements without SSSE3) -/
section generic
variable {c : Cfg} (hc : c.Ok)
include hc
theorem shuffleImplX_spec (c' : Cfg) (hc' : c'.Ok) (hT : c'.T = c.T) (x : c.Data) : ∀ (is : List Nat) (J : Nat) (d : c'.Data),
    (∀ i ∈ is, i < c.N) → J + is.length = c'.N →
    ∃ r, shuffleImplX c c' hT x J is d = .ok r ∧
      (∀ (j : Nat) (hj : j < is.length), elt c' r (J + j) = (elt c x is[j]).cast (by rw [Cfg.w, Cfg.w, hT])) ∧
      ∀ p, p < J → elt c' r p = elt c' d p := by
  intro is
  induction is with
  | nil => intro J d _ _; exact ⟨d, rfl, fun j hj => by simp at hj, fun _ _ => rfl⟩
  | cons I Is ih =>
    intro J d hin hlen
    have hl : (I :: Is).length = Is.length + 1 := rfl
    obtain ⟨r, hr, h1, h2⟩ := ih (J + 1) d (fun i hi => hin i (List.mem_cons_of_mem _ hi)) (by omega)
    refine ⟨setElt c' r J ((elt c x I).cast (by rw [Cfg.w, Cfg.w, hT])), ?_, fun j hj => ?_, fun p hp => ?_⟩
    · rw [shuffleImplX, if_pos ⟨by omega, hin I (by simp)⟩, hr]; rfl
    · cases j with
      | zero => rw [Nat.add_zero, elt_setElt hc', if_pos rfl]; rfl
      | succ j =>
        rw [elt_setElt hc', if_neg (by omega), show J + (j + 1) = J + 1 + j by omega, h1 j (by omega)]; rfl
    · rw [elt_setElt hc', if_neg (by omega), h2 p (by omega)]

/-- C28 (the generic template, used for 1- and 2-byte elements without SSSE3): element `j` of the result is element
`Is[j]` of `x`, for every pack of valid indices, unless the identity pack has to convert between two ABIs. -/
theorem C28_generic_partial (v' : VSz) (hv' : v' = .v256 → c.s.avx = true) (sameAbi : Bool) (is : List Nat) (hne : is ≠ []) (hin : ∀ i ∈ is, i < c.N)
    (hlen : is.length < 2 ^ 64)
    (hid : is.length = c.N → sameAbi = true ∧ v' = c.v ∨ isSequential 1 0 is = false) (x : c.Data) :
    ∃ r, vShuffleGeneric c v' sameAbi is x = .ok r ∧ ∀ (j : Nat) (hj : j < is.length), elt (c.resized is.length v') r j = elt c x is[j] := by
  match is, hne with
  | I :: Is, _ =>
    have hc' : (c.resized (I :: Is).length v').Ok := ⟨hc.wf, hc.ety, by show 0 < (I :: Is).length; simp, hlen, hv'⟩
    dsimp only [vShuffleGeneric]
    by_cases h1 : isSequential 1 0 (I :: Is) = true ∧ (I :: Is).length = c.N
    · rw [if_pos h1]
      have h2 : sameAbi = true ∧ v' = c.v := (hid h1.2).resolve_right (by rw [h1.1]; decide)
      rw [dif_pos h2]
      have hs := (C13_is_sequential 1 (I :: Is) 0 (by omega) (by simp)).1 h1.1
      obtain ⟨_, rfl⟩ := h2
      refine ⟨x, rfl, fun j hj => ?_⟩
      rw [hs j hj, Nat.zero_add, Nat.mul_one, Nat.mod_eq_of_lt (by omega)]
      rfl
    · rw [if_neg h1]
      split
      · next hall =>
        refine ⟨_, rfl, fun j hj => ?_⟩
        rw [elt_vbroadcast hc' _ _ hj]
        have : (I :: Is)[j] = I := by
          cases j with
          | zero => rfl
          | succ j =>
            have := List.all_eq_true.1 hall _ (List.getElem_mem (by simpa using hj : j < Is.length))
            simpa using this
        rw [this]
      · obtain ⟨r, hr, h, _⟩ := shuffleImplX_spec hc _ hc' rfl x (I :: Is) 0 (zeroData _) hin (by show 0 + _ = _; rw [Nat.zero_add])
        refine ⟨r, hr, fun j hj => ?_⟩
        have := h j hj
        rw [Nat.zero_add] at this
        exact this

/-- C28 violated: the identity pack converting between ABIs goes through arrays of `size()` elements with
`vector_aligned` and is undefined unless `size()` is a multiple of the native extent. -/
theorem C28_generic_violated (v' : VSz) (is : List Nat) (hs : isSequential 1 0 is = true) (hlen : is.length = c.N) (hN : c.N % c.e ≠ 0) (x : c.Data) :
    vShuffleGeneric c v' false is x = .ub := by
  match is with
  | [] => simp [isSequential] at hs
  | I :: Is =>
    dsimp only [vShuffleGeneric]
    rw [if_pos ⟨hs, hlen⟩, dif_neg (by simp)]
    have : copyTo c .vector x c.N (fun _ => 0#c.w) = none := by
      rw [copyTo_native hc (f := .vector) rfl, if_neg]
      intro h; exact hN ((cap_eq_iff hc).1 h)
    rw [this]; rfl
end generic
/-- reversal of eight unsigned shorts on SSE2 -/
example (x : exU16.Data) : ∃ r, vShuffleGeneric exU16 .v128 true [7, 6, 5, 4, 3, 2, 1, 0] x = .ok r ∧ elt (exU16.resized 8 .v128) r 2 = elt exU16 x 5 := by
  obtain ⟨r, hr, h⟩ := C28_generic_partial exU16_ok .v128 (by decide) true [7, 6, 5, 4, 3, 2, 1, 0] (by decide) (by decide) (by decide) (fun _ => Or.inl ⟨rfl, rfl⟩) x
  exact ⟨r, hr, h 2 (by decide)⟩

end Dpm.X86
