import Verif.Model.Shuffle
import Verif.Proofs.Reduce
import Verif.Props.Util
namespace Dpm.X86
open Dpm.Reg Dpm.Util Dpm.Generic

theorem srcOf_ok {v : VSz} {D : Nat} (d : Mem (Vec v)) {j : Nat} (h : j < D) : srcOf D d j = .ok (d j) := if_pos h
theorem srcOf_ub {v : VSz} {D : Nat} (d : Mem (Vec v)) {j : Nat} (h : ¬ j < D) : srcOf D d j = .ub := if_neg h
theorem srcView128_srcOf (D : Nat) (d : Mem (Vec .v256)) : srcView128 .v256 (srcOf D d) = srcOf (v := .v128) (2 * D) (view128 .v256 d) := by
  funext j
  simp only [srcView128, srcOf]
  by_cases h : j < 2 * D
  · rw [if_pos h, if_pos (by omega)]; simp only [Out.map, Out.bind, view128]
  · rw [if_neg h, if_neg (by omega)]; rfl

/-- a descending pack inside one native vector is that vector -/
theorem seqShuffle_spec {e I : Nat} {Is : List Nat} (he : 0 < e) (he2 : e ≤ 32) (hI : I < 2 ^ 64) (hlen : (I :: Is).length = e)
    (h : seqShuffle e I Is = true) : ∀ (k : Nat) (hk : k < (I :: Is).length), (I :: Is)[k] / e = I / e ∧ (I :: Is)[k] % e = e - 1 - k := by
  obtain ⟨h1, h2⟩ := Bool.and_eq_true_iff.1 h
  have hs := (C13_is_sequential (2 ^ 64 - 1) (I :: Is) I hI (by simp)).1 h2
  have hq : ∀ (k : Nat) (hk : k < (I :: Is).length), (I :: Is)[k] / e = I / e := by
    intro k hk
    cases k with
    | zero => rfl
    | succ k =>
      have := List.all_eq_true.1 h1 _ (List.getElem_mem (by simpa using hk : k < Is.length))
      simp only [beq_iff_eq] at this
      exact this.symm
  have hb : ∀ (k : Nat) (hk : k < (I :: Is).length), I / e * e ≤ (I :: Is)[k] ∧ (I :: Is)[k] < I / e * e + e := by
    intro k hk
    rw [← hq k hk]
    refine ⟨Nat.div_mul_le_self _ _, ?_⟩
    have := Nat.lt_mul_div_succ ((I :: Is)[k]) he
    rw [Nat.mul_add, Nat.mul_comm] at this; omega
  have h0 := hb 0 (by omega)
  have hl := hb (e - 1) (by omega)
  rw [hs (e - 1) (by omega)] at hl
  have h0' : I / e * e ≤ I ∧ I < I / e * e + e := h0
  have htop : I = I / e * e + (e - 1) := by
    generalize I / e * e = q at *
    omega
  intro k hk
  refine ⟨hq k hk, ?_⟩
  have hkk := hb k hk
  rw [hs k hk] at hkk ⊢
  have hkv : (I + k * (2 ^ 64 - 1)) % 2 ^ 64 = I / e * e + (e - 1 - k) := by
    generalize I / e * e = q at *
    omega
  rw [hkv, Nat.mul_comm, Nat.mul_add_mod, Nat.mod_eq_of_lt (by omega)]

/-- lane `k` of `r` is element `is[e - 1 - k]` of the source (`is`: highest lane first) -/
def Picks (w e : Nat) {n : Nat} (is : List Nat) (d : Nat → BitVec n) (r : BitVec n) : Prop :=
  ∀ (k : Nat) (_ : k < e) (h : e - 1 - k < is.length), lane w r k = lane w (d (is[e - 1 - k] / e)) (is[e - 1 - k] % e)

/-- what every kernel must satisfy -/
structure KernelSpec (w e D : Nat) {v : VSz} (is : List Nat) (d : Mem (Vec v)) (out : Out (Vec v)) : Prop where
  good : (∀ i ∈ is, i / e < D) → ∃ r, out = .ok r ∧ Picks w e is d r
  bad : (∃ i ∈ is, ¬ i / e < D) → out = .ub

theorem seq_kernel {w e D I : Nat} {v : VSz} {Is : List Nat} (he : 0 < e) (he2 : e ≤ 32) (hI : I < 2 ^ 64) (hlen : (I :: Is).length = e)
    (d : Mem (Vec v)) (h : seqShuffle e I Is = true) : KernelSpec w e D (I :: Is) d (srcOf D d (I / e)) := by
  have hs := seqShuffle_spec he he2 hI hlen h
  constructor
  · intro hD
    refine ⟨d (I / e), srcOf_ok d (hD I (by simp)), fun k hk hl => ?_⟩
    obtain ⟨h1, h2⟩ := hs _ hl
    rw [h1, h2]; congr 1; omega
  · rintro ⟨i, hi, hD⟩
    obtain ⟨k, hk, rfl⟩ := List.getElem_of_mem hi
    rw [(hs k hk).1] at hD
    exact srcOf_ub d hD

theorem shufPs_0 (a b : BitVec 128) (z y x w : Nat) : lane 32 (shufPs a b z y x w) 0 = lane 32 a w := by
  rw [shufPs, lane_ofLanes _ (by omega)]; show lane 32 a (4 * 0 + w) = _; rw [Nat.zero_add]
theorem shufPs_1 (a b : BitVec 128) (z y x w : Nat) : lane 32 (shufPs a b z y x w) 1 = lane 32 a x := by
  rw [shufPs, lane_ofLanes _ (by omega)]; show lane 32 a (4 * 0 + x) = _; rw [Nat.zero_add]
theorem shufPs_2 (a b : BitVec 128) (z y x w : Nat) : lane 32 (shufPs a b z y x w) 2 = lane 32 b y := by
  rw [shufPs, lane_ofLanes _ (by omega)]; show lane 32 b (4 * 0 + y) = _; rw [Nat.zero_add]
theorem shufPs_3 (a b : BitVec 128) (z y x w : Nat) : lane 32 (shufPs a b z y x w) 3 = lane 32 b z := by
  rw [shufPs, lane_ofLanes _ (by omega)]; show lane 32 b (4 * 0 + z) = _; rw [Nat.zero_add]
theorem shufPd_0 (a b : BitVec 128) (h l : Nat) (hl : l < 2) : lane 64 (shufPd a b (h * 2 + l)) 0 = lane 64 a l := by
  rw [shufPd, lane_ofLanes _ (by omega), if_pos rfl]; congr 1; omega
theorem shufPd_1 (a b : BitVec 128) (h l : Nat) (hl : l < 2) (hh : h < 2) : lane 64 (shufPd a b (h * 2 + l)) 1 = lane 64 b h := by
  rw [shufPd, lane_ofLanes _ (by omega), if_neg (by omega)]; congr 1; omega

theorem kernel8_spec (D : Nat) (d : Mem (Vec .v128)) {is : List Nat} (hlen : is.length = 2) (h64 : ∀ i ∈ is, i < 2 ^ 64) :
    KernelSpec 64 2 D is d (kernel8 is (srcOf D d)) := by
  match is, hlen with
  | [I1, I0], _ =>
    dsimp only [kernel8]
    split
    · next h => exact seq_kernel (by omega) (by omega) (h64 I1 (by simp)) rfl d h
    · constructor
      · intro hD
        rw [srcOf_ok d (hD I0 (by simp)), srcOf_ok d (hD I1 (by simp))]
        refine ⟨_, rfl, fun k hk hl => ?_⟩
        rcases (by omega : k = 0 ∨ k = 1) with rfl | rfl
        · exact shufPd_0 _ _ _ _ (by omega)
        · exact shufPd_1 _ _ _ _ (by omega) (by omega)
      · rintro ⟨i, hi, hD⟩
        by_cases h0 : I0 / 2 < D
        · have : i = I1 := by
            rcases List.mem_cons.1 hi with h | h
            · exact h
            · rw [List.mem_singleton] at h; subst h; exact absurd h0 hD
          subst this
          rw [srcOf_ok d h0, srcOf_ub d hD]; rfl
        · rw [srcOf_ub d h0]; rfl

theorem kernel4_spec (D : Nat) (d : Mem (Vec .v128)) {is : List Nat} (hlen : is.length = 4) (h64 : ∀ i ∈ is, i < 2 ^ 64) :
    KernelSpec 32 4 D is d (kernel4 is (srcOf D d)) := by
  match is, hlen with
  | [I3, I2, I1, I0], _ =>
    dsimp only [kernel4]
    split
    · next h => exact seq_kernel (by omega) (by omega) (h64 I3 (by simp)) rfl d h
    · constructor
      · intro hD
        rw [srcOf_ok d (hD I0 (by simp)), srcOf_ok d (hD I1 (by simp)), srcOf_ok d (hD I2 (by simp)), srcOf_ok d (hD I3 (by simp))]
        simp only [Out.bind, Out.map]
        split
        · next hp =>
          refine ⟨_, rfl, fun k hk hl => ?_⟩
          rcases (by omega : k = 0 ∨ k = 1 ∨ k = 2 ∨ k = 3) with rfl | rfl | rfl | rfl
          · exact shufPs_0 _ _ _ _ _ _
          · exact (shufPs_1 _ _ _ _ _ _).trans (by rw [hp.1]; rfl)
          · exact shufPs_2 _ _ _ _ _ _
          · exact (shufPs_3 _ _ _ _ _ _).trans (by rw [hp.2]; rfl)
        · refine ⟨_, rfl, fun k hk hl => ?_⟩
          rcases (by omega : k = 0 ∨ k = 1 ∨ k = 2 ∨ k = 3) with rfl | rfl | rfl | rfl
          · exact (shufPs_0 _ _ _ _ _ _).trans (shufPs_0 _ _ _ _ _ _)
          · exact (shufPs_1 _ _ _ _ _ _).trans (shufPs_2 _ _ _ _ _ _)
          · exact (shufPs_2 _ _ _ _ _ _).trans (shufPs_0 _ _ _ _ _ _)
          · exact (shufPs_3 _ _ _ _ _ _).trans (shufPs_2 _ _ _ _ _ _)
      · rintro ⟨i, hi, hD⟩
        by_cases h0 : I0 / 4 < D
        · rw [srcOf_ok d h0]
          by_cases h2 : I2 / 4 < D
          · rw [srcOf_ok d h2]; simp only [Out.bind]
            have hi' : i = I3 ∨ i = I1 := by
              simp only [List.mem_cons, List.not_mem_nil, or_false] at hi
              rcases hi with h | h | h | h
              · exact Or.inl h
              · subst h; exact absurd h2 hD
              · exact Or.inr h
              · subst h; exact absurd h0 hD
            rw [if_neg (by
              rintro ⟨e1, e2⟩
              rcases hi' with h | h <;> subst h
              · rw [← e2] at hD; exact hD h2
              · rw [← e1] at hD; exact hD h0)]
            by_cases h1 : I1 / 4 < D
            · rw [srcOf_ok d h1]
              have : i = I3 := by
                rcases hi' with h | h
                · exact h
                · subst h; exact absurd h1 hD
              subst this
              rw [srcOf_ub d hD]; rfl
            · rw [srcOf_ub d h1]
          · rw [srcOf_ub d h2]; rfl
        · rw [srcOf_ub d h0]; rfl
theorem shuffleBytes_spec (D : Nat) (d : Mem (Vec .v128)) : ∀ (is : List Nat) (o : Nat) (dst : Mem (BitVec 8)),
    ((∀ i ∈ is, i / 16 < D) → ∃ r, shuffleBytes (srcOf D d) is o dst = .ok r ∧
      (∀ (k : Nat) (hk : k < is.length), r (o + k) = lane 8 (d (is[k] / 16)) (is[k] % 16)) ∧ ∀ k, k < o → r k = dst k) ∧
    ((∃ i ∈ is, ¬ i / 16 < D) → shuffleBytes (srcOf D d) is o dst = .ub) := by
  intro is
  induction is with
  | nil => intro o dst; exact ⟨fun _ => ⟨dst, rfl, fun k hk => by simp at hk, fun _ _ => rfl⟩, fun ⟨i, hi, _⟩ => by simp at hi⟩
  | cons i is ih =>
    intro o dst
    rw [shuffleBytes]
    by_cases hi : i / 16 < D
    · rw [srcOf_ok d hi]
      obtain ⟨ih1, ih2⟩ := ih (o + 1) (dst.set o (lane 8 (d (i / 16)) (i % 16)))
      constructor
      · intro h
        obtain ⟨r, hr, h1, h2⟩ := ih1 (fun j hj => h j (List.mem_cons_of_mem _ hj))
        refine ⟨r, hr, fun k hk => ?_, fun k hk => ?_⟩
        · cases k with
          | zero => rw [Nat.add_zero, h2 o (by omega)]; exact if_pos rfl
          | succ k => have := h1 k (by simpa using hk); rw [show o + (k + 1) = o + 1 + k by omega, this]; rfl
        · rw [h2 k (by omega)]; exact if_neg (by omega)
      · rintro ⟨j, hj, hD⟩
        rcases List.mem_cons.1 hj with rfl | hj
        · exact absurd hi hD
        · exact ih2 ⟨j, hj, hD⟩
    · rw [srcOf_ub d hi]
      exact ⟨fun h => absurd (h i (by simp)) hi, fun _ => rfl⟩

theorem kernel1_spec (D : Nat) (d : Mem (Vec .v128)) {is : List Nat} (hlen : is.length = 16) (h64 : ∀ i ∈ is, i < 2 ^ 64) :
    KernelSpec 8 16 D is d (kernel1 is (srcOf D d)) := by
  cases is with
  | nil => simp at hlen
  | cons I Is =>
    dsimp only [kernel1]
    split
    · next h => exact seq_kernel (by omega) (by omega) (h64 I (by simp)) hlen d h
    · split
      · rw [C13_reverse _ (by simp)]
        obtain ⟨h1, h2⟩ := shuffleBytes_spec D d (I :: Is).reverse 0 (fun _ => 0#8)
        constructor
        · intro hD
          obtain ⟨r, hr, h3, _⟩ := h1 (fun i hi => hD i (List.mem_reverse.1 hi))
          refine ⟨ofLanes 128 8 r, ?_, fun k hk hl => ?_⟩
          · show Out.map _ (shuffleBytes _ _ _ _) = _
            rw [hr]; rfl
          · have := h3 k (by rw [List.length_reverse]; omega)
            have e0 : lane 8 (ofLanes 128 8 r) k = r k := lane_ofLanes _ (by omega)
            refine e0.trans ?_
            rw [Nat.zero_add, List.getElem_reverse] at this
            rw [this]
            have e : (I :: Is).length - 1 - k = 16 - 1 - k := by omega
            congr 2 <;> congr 2
        · rintro ⟨i, hi, hD⟩
          show Out.map _ (shuffleBytes _ _ _ _) = _
          rw [h2 ⟨i, List.mem_reverse.2 hi, hD⟩]; rfl
      · next hall =>
        have hq : ∀ (k : Nat) (hk : k < (I :: Is).length), (I :: Is)[k] / 16 = I / 16 := by
          intro k hk
          cases k with
          | zero => rfl
          | succ k =>
            have := List.all_eq_true.1 (by simpa using hall : Is.all (fun k => I / 16 == k / 16) = true) _ (List.getElem_mem (by simpa using hk : k < Is.length))
            simp only [beq_iff_eq] at this
            exact this.symm
        constructor
        · intro hD
          rw [srcOf_ok d (hD I (by simp))]
          refine ⟨_, rfl, fun k hk hl => ?_⟩
          have hrow : ((I :: Is).map (· % 16)).reverse.getD k 0 = (I :: Is)[16 - 1 - k] % 16 := by
            rw [List.getD_eq_getElem?_getD, List.getElem?_eq_getElem (by rw [List.length_reverse, List.length_map]; omega), Option.getD_some,
              List.getElem_reverse, List.getElem_map]
            congr 2; rw [List.length_map]; omega
          rw [shufEpi8_lane _ _ hk, hrow, if_neg (by omega), hq _ hl, Nat.mod_mod]
        · rintro ⟨i, hi, hD⟩
          obtain ⟨k, hk, rfl⟩ := List.getElem_of_mem hi
          rw [hq k hk] at hD
          rw [srcOf_ub d hD]; rfl

/-- the word shuffle used by `shuffle16pairs` -/
def shufHalf (J : Nat) (v : BitVec 128) (i3 i2 i1 i0 : Nat) : BitVec 128 := if J = 1 then shufhi16 v i3 i2 i1 i0 else shuflo16 v i3 i2 i1 i0
theorem shufHalf_lane (v : BitVec 128) (i3 i2 i1 i0 : Nat) {J k : Nat} (hJ : J < 2) (hk : k < 4) :
    lane 16 (shufHalf J v i3 i2 i1 i0) (4 * J + k) = lane 16 v (4 * J + (match k with | 0 => i0 | 1 => i1 | 2 => i2 | _ => i3)) := by
  rcases (by omega : J = 0 ∨ J = 1) with rfl | rfl
  · rw [shufHalf, if_neg (by omega), shuflo16, lane_ofLanes _ (by omega), if_pos (by omega)]
    rcases (by omega : k = 0 ∨ k = 1 ∨ k = 2 ∨ k = 3) with rfl | rfl | rfl | rfl <;> (simp only [Nat.mul_zero, Nat.zero_add])
  · rw [shufHalf, if_pos rfl, shufhi16, lane_ofLanes _ (by omega), if_pos (by omega)]
    rcases (by omega : k = 0 ∨ k = 1 ∨ k = 2 ∨ k = 3) with rfl | rfl | rfl | rfl <;> rfl
theorem lane16_of64 {n m : Nat} {x : BitVec n} {y : BitVec m} {i j k : Nat} (h : lane 64 x i = lane 64 y j) (hk : k < 4) :
    lane 16 x (4 * i + k) = lane 16 y (4 * j + k) := by
  rw [← lane_lane (w := 64) (i := i) (j := k) x (by omega) (4 * i + k) (by omega),
    ← lane_lane (w := 64) (i := j) (j := k) y (by omega) (4 * j + k) (by omega), h]

theorem pairs_spec (D : Nat) (d : Mem (Vec .v128)) (a3 a2 a1 a0 b3 b2 b1 b0 : Nat)
    (h64 : ∀ i ∈ [a3, a2, a1, a0, b3, b2, b1, b0], i < 2 ^ 63) :
    KernelSpec 16 8 D [a3, a2, a1, a0, b3, b2, b1, b0] d (shuffle16pairs [a3, a2, a1, a0] [b3, b2, b1, b0] (srcOf D d)) := by
  dsimp only [shuffle16pairs]
  split
  · next hp =>
    obtain ⟨⟨ha2, ha1, ha0⟩, ⟨hb2, hb1, hb0⟩, _⟩ := hp
    constructor
    · intro hD
      rw [srcOf_ok d (hD a3 (by simp)), srcOf_ok d (hD b3 (by simp))]
      refine ⟨_, rfl, fun k hk hl => ?_⟩
      have h1 : lane 64 (shufPd (shufHalf (b3 / 4 % 2) (d (b3 / 8)) (b3 % 4) (b2 % 4) (b1 % 4) (b0 % 4)) (shufHalf (a3 / 4 % 2) (d (a3 / 8)) (a3 % 4) (a2 % 4) (a1 % 4) (a0 % 4))
          (a3 / 4 % 2 * 2 + b3 / 4 % 2)) 1 = lane 64 (shufHalf (a3 / 4 % 2) (d (a3 / 8)) (a3 % 4) (a2 % 4) (a1 % 4) (a0 % 4)) (a3 / 4 % 2) :=
        shufPd_1 _ _ _ _ (by omega) (by omega)
      have h0 : lane 64 (shufPd (shufHalf (b3 / 4 % 2) (d (b3 / 8)) (b3 % 4) (b2 % 4) (b1 % 4) (b0 % 4)) (shufHalf (a3 / 4 % 2) (d (a3 / 8)) (a3 % 4) (a2 % 4) (a1 % 4) (a0 % 4))
          (a3 / 4 % 2 * 2 + b3 / 4 % 2)) 0 = lane 64 (shufHalf (b3 / 4 % 2) (d (b3 / 8)) (b3 % 4) (b2 % 4) (b1 % 4) (b0 % 4)) (b3 / 4 % 2) :=
        shufPd_0 _ _ _ _ (by omega)
      by_cases hk4 : k < 4
      · have e1 := (lane16_of64 h0 hk4).trans (shufHalf_lane (d (b3 / 8)) (b3 % 4) (b2 % 4) (b1 % 4) (b0 % 4) (J := b3 / 4 % 2) (by omega) hk4)
        rw [Nat.mul_zero, Nat.zero_add] at e1
        refine Eq.trans e1 ?_
        rcases (by omega : k = 0 ∨ k = 1 ∨ k = 2 ∨ k = 3) with rfl | rfl | rfl | rfl
        · show lane 16 (d (b3 / 8)) (4 * (b3 / 4 % 2) + b0 % 4) = lane 16 (d (b0 / 8)) (b0 % 8)
          rw [show b0 / 8 = b3 / 8 by omega]; congr 1; omega
        · show lane 16 (d (b3 / 8)) (4 * (b3 / 4 % 2) + b1 % 4) = lane 16 (d (b1 / 8)) (b1 % 8)
          rw [show b1 / 8 = b3 / 8 by omega]; congr 1; omega
        · show lane 16 (d (b3 / 8)) (4 * (b3 / 4 % 2) + b2 % 4) = lane 16 (d (b2 / 8)) (b2 % 8)
          rw [show b2 / 8 = b3 / 8 by omega]; congr 1; omega
        · show lane 16 (d (b3 / 8)) (4 * (b3 / 4 % 2) + b3 % 4) = lane 16 (d (b3 / 8)) (b3 % 8)
          congr 1; omega
      · obtain ⟨j, rfl⟩ : ∃ j, k = 4 + j := ⟨k - 4, by omega⟩
        have hj4 : j < 4 := by omega
        have e1 := (lane16_of64 h1 hj4).trans (shufHalf_lane (d (a3 / 8)) (a3 % 4) (a2 % 4) (a1 % 4) (a0 % 4) (J := a3 / 4 % 2) (by omega) hj4)
        rw [Nat.mul_one] at e1
        refine Eq.trans e1 ?_
        rcases (by omega : j = 0 ∨ j = 1 ∨ j = 2 ∨ j = 3) with rfl | rfl | rfl | rfl
        · show lane 16 (d (a3 / 8)) (4 * (a3 / 4 % 2) + a0 % 4) = lane 16 (d (a0 / 8)) (a0 % 8)
          rw [show a0 / 8 = a3 / 8 by omega]; congr 1; omega
        · show lane 16 (d (a3 / 8)) (4 * (a3 / 4 % 2) + a1 % 4) = lane 16 (d (a1 / 8)) (a1 % 8)
          rw [show a1 / 8 = a3 / 8 by omega]; congr 1; omega
        · show lane 16 (d (a3 / 8)) (4 * (a3 / 4 % 2) + a2 % 4) = lane 16 (d (a2 / 8)) (a2 % 8)
          rw [show a2 / 8 = a3 / 8 by omega]; congr 1; omega
        · show lane 16 (d (a3 / 8)) (4 * (a3 / 4 % 2) + a3 % 4) = lane 16 (d (a3 / 8)) (a3 % 8)
          congr 1; omega
    · rintro ⟨i, hi, hD⟩
      have : i / 8 = a3 / 8 ∨ i / 8 = b3 / 8 := by
        simp only [List.mem_cons, List.not_mem_nil, or_false] at hi
        rcases hi with h | h | h | h | h | h | h | h <;> subst h
        all_goals first | (left; omega) | (right; omega)
      by_cases ha : a3 / 8 < D
      · rw [srcOf_ok d ha]
        by_cases hb : b3 / 8 < D
        · rcases this with h | h <;> rw [h] at hD <;> exact absurd (by assumption) hD
        · rw [srcOf_ub d hb]; rfl
      · rw [srcOf_ub d ha]; rfl
  · rw [C13_repeat 2 1 _ (by simp)]
    obtain ⟨hg, hb⟩ := kernel1_spec D d (is := List.flatMap (subLanes 2 1) ([a3, a2, a1, a0] ++ [b3, b2, b1, b0])) rfl (by
      intro i hi
      rw [List.mem_flatMap] at hi
      obtain ⟨j, hj, hi⟩ := hi
      have := h64 j hj
      simp only [subLanes, List.mem_map, List.mem_range] at hi
      obtain ⟨J, hJ, rfl⟩ := hi
      omega)
    have hmem : ∀ i ∈ List.flatMap (subLanes 2 1) ([a3, a2, a1, a0] ++ [b3, b2, b1, b0]), ∃ j ∈ [a3, a2, a1, a0, b3, b2, b1, b0], i / 16 = j / 8 := by
      intro i hi
      rw [List.mem_flatMap] at hi
      obtain ⟨j, hj, hi⟩ := hi
      simp only [subLanes, List.mem_map, List.mem_range] at hi
      obtain ⟨J, hJ, rfl⟩ := hi
      exact ⟨j, hj, by omega⟩
    constructor
    · intro hD
      obtain ⟨r, hr, hp⟩ := hg (by
        intro i hi
        obtain ⟨j, hj, h⟩ := hmem i hi
        rw [h]; exact hD j hj)
      refine ⟨r, hr, fun k hk hl => ?_⟩
      have key : ∀ j x, j < 8 → lane 8 r (2 * j) = lane 8 (d ((x * 2 + 0) / 16)) ((x * 2 + 0) % 16) →
          lane 8 r (2 * j + 1) = lane 8 (d ((x * 2 + 1) / 16)) ((x * 2 + 1) % 16) → lane 16 r j = lane 16 (d (x / 8)) (x % 8) := by
        intro j x _ e0 e1
        apply lane16_ext
        · rw [e0, show (x * 2 + 0) / 16 = x / 8 by omega, show (x * 2 + 0) % 16 = 2 * (x % 8) by omega]
        · rw [e1, show (x * 2 + 1) / 16 = x / 8 by omega, show (x * 2 + 1) % 16 = 2 * (x % 8) + 1 by omega]
      rcases (by omega : k = 0 ∨ k = 1 ∨ k = 2 ∨ k = 3 ∨ k = 4 ∨ k = 5 ∨ k = 6 ∨ k = 7) with rfl | rfl | rfl | rfl | rfl | rfl | rfl | rfl
      · exact key 0 b0 (by omega) (hp 0 (by omega) (by show _ < 16; omega)) (hp 1 (by omega) (by show _ < 16; omega))
      · exact key 1 b1 (by omega) (hp 2 (by omega) (by show _ < 16; omega)) (hp 3 (by omega) (by show _ < 16; omega))
      · exact key 2 b2 (by omega) (hp 4 (by omega) (by show _ < 16; omega)) (hp 5 (by omega) (by show _ < 16; omega))
      · exact key 3 b3 (by omega) (hp 6 (by omega) (by show _ < 16; omega)) (hp 7 (by omega) (by show _ < 16; omega))
      · exact key 4 a0 (by omega) (hp 8 (by omega) (by show _ < 16; omega)) (hp 9 (by omega) (by show _ < 16; omega))
      · exact key 5 a1 (by omega) (hp 10 (by omega) (by show _ < 16; omega)) (hp 11 (by omega) (by show _ < 16; omega))
      · exact key 6 a2 (by omega) (hp 12 (by omega) (by show _ < 16; omega)) (hp 13 (by omega) (by show _ < 16; omega))
      · exact key 7 a3 (by omega) (hp 14 (by omega) (by show _ < 16; omega)) (hp 15 (by omega) (by show _ < 16; omega))
    · rintro ⟨j, hj, hD⟩
      refine hb ⟨j * 2 + 0, List.mem_flatMap.2 ⟨j, hj, ?_⟩, by omega⟩
      simp [subLanes]
      exact ⟨1, by omega, by omega⟩

theorem kernel2_spec (D : Nat) (d : Mem (Vec .v128)) {is : List Nat} (hlen : is.length = 8) (h64 : ∀ i ∈ is, i < 2 ^ 63) :
    KernelSpec 16 8 D is d (kernel2 is (srcOf D d)) := by
  match is, hlen with
  | [a3, a2, a1, a0, b3, b2, b1, b0], _ =>
    dsimp only [kernel2]
    split
    · next h => exact seq_kernel (by omega) (by omega) (by have := h64 a3 (by simp); omega) rfl d h
    · rw [C13_extract 0 4 _ (by omega) (by simp), C13_extract 4 4 _ (by omega) (by simp)]
      exact pairs_spec D d a3 a2 a1 a0 b3 b2 b1 b0 h64

theorem kernel128_spec {T : Ety} (hT : T.Ok) (D : Nat) (d : Mem (Vec .v128)) {is : List Nat} (hlen : is.length = extent T .v128)
    (h64 : ∀ i ∈ is, i < 2 ^ 63) : KernelSpec T.w (extent T .v128) D is d (kernel128 T is (srcOf D d)) := by
  obtain ⟨bytes, flt, sg⟩ := T
  have hb := hT.1
  dsimp only at hb
  rcases hb with rfl | rfl | rfl | rfl
  · have e : extent ⟨1, flt, sg⟩ .v128 = 16 := by simp [extent, VSz.bytes]
    rw [e] at hlen ⊢
    exact kernel1_spec D d hlen (fun i hi => by have := h64 i hi; omega)
  · have e : extent ⟨2, flt, sg⟩ .v128 = 8 := by simp [extent, VSz.bytes]
    rw [e] at hlen ⊢
    exact kernel2_spec D d hlen h64
  · have e : extent ⟨4, flt, sg⟩ .v128 = 4 := by simp [extent, VSz.bytes]
    rw [e] at hlen ⊢
    exact kernel4_spec D d hlen (fun i hi => by have := h64 i hi; omega)
  · have e : extent ⟨8, flt, sg⟩ .v128 = 2 := by simp [extent, VSz.bytes]
    rw [e] at hlen ⊢
    exact kernel8_spec D d hlen (fun i hi => by have := h64 i hi; omega)

theorem view128_lane {T : Ety} (hT : T.Ok) (d : Mem (Vec .v256)) (i : Nat) :
    lane T.w (view128 .v256 d (i / extent T .v128)) (i % extent T .v128) = lane T.w (d (i / extent T .v256)) (i % extent T .v256) :=
  view128_elt (c := ⟨.avx2L, T, 1, .v256⟩) ⟨(by decide : ISA.avx2L.Wf), hT, by show 0 < 1; omega, by show 1 < 2 ^ 64; omega, fun _ => rfl⟩ d i

theorem extent_le32 {T : Ety} (hT : T.Ok) (v : VSz) : extent T v ≤ 32 := by
  have hb := hT.1
  cases v <;> rcases hb with h | h | h | h <;> simp [extent, VSz.bytes, h]

theorem kernel_spec {T : Ety} (hT : T.Ok) : ∀ (v : VSz) (D : Nat) (d : Mem (Vec v)) {is : List Nat} (_ : is.length = extent T v)
    (_ : ∀ i ∈ is, i < 2 ^ 63), KernelSpec T.w (extent T v) D is d (kernel T v is (srcOf D d)) := by
  intro v
  cases v with
  | v128 => intro D d is hlen h64; exact kernel128_spec hT D d hlen h64
  | v256 =>
    intro D d is hlen h64
    have h2 := extent_half hT
    have hp := extent_pos hT .v128
    cases is with
    | nil => simp at hlen; omega
    | cons I Is =>
      dsimp only [kernel]
      split
      · next h => exact seq_kernel (extent_pos hT .v256) (extent_le32 hT .v256) (by have := h64 I (by simp); omega) hlen d h
      · have he : 16 / T.bytes = extent T .v128 := rfl
        rw [he, C13_extract _ _ _ hp (by omega), C13_extract _ _ _ hp (by omega), srcView128_srcOf]
        generalize hE : extent T .v128 = e at *
        generalize hE2 : extent T .v256 = e2 at *
        have hl1 : (((I :: Is).drop e).take e).length = e := by rw [List.length_take, List.length_drop]; omega
        have hl2 : (((I :: Is).drop 0).take e).length = e := by rw [List.length_take, List.length_drop]; omega
        have m1 : ∀ i ∈ ((I :: Is).drop e).take e, i ∈ I :: Is := fun i hi => List.mem_of_mem_drop (List.mem_of_mem_take hi)
        have m2 : ∀ i ∈ ((I :: Is).drop 0).take e, i ∈ I :: Is := fun i hi => List.mem_of_mem_drop (List.mem_of_mem_take hi)
        have s1 := kernel128_spec hT (2 * D) (view128 .v256 d) (by rw [hE]; exact hl1) (fun i hi => h64 i (m1 i hi))
        have s2 := kernel128_spec hT (2 * D) (view128 .v256 d) (by rw [hE]; exact hl2) (fun i hi => h64 i (m2 i hi))
        rw [hE] at s1 s2
        have hdiv : ∀ i, i / e < 2 * D ↔ i / e2 < D := by
          intro i
          rw [Nat.div_lt_iff_lt_mul hp, Nat.div_lt_iff_lt_mul (by omega), h2, Nat.mul_comm 2 D, Nat.mul_assoc]
        have hview : ∀ i, lane T.w (view128 .v256 d (i / e)) (i % e) = lane T.w (d (i / e2)) (i % e2) := by
          intro i; rw [← hE, ← hE2]; exact view128_lane hT d i
        have hwe : e * T.w = 128 := by rw [← hE]; exact extent_mul hT .v128
        constructor
        · intro hD
          obtain ⟨l, hl, pl⟩ := s1.good (fun i hi => (hdiv i).2 (hD i (m1 i hi)))
          obtain ⟨h, hh, ph⟩ := s2.good (fun i hi => (hdiv i).2 (hD i (m2 i hi)))
          refine ⟨setHL h l, ?_, fun k hk hlk => ?_⟩
          · simp only [Out.ofExists, Out.bind]
            rw [hl]; show Out.map _ _ = _; rw [hh]; rfl
          · by_cases hke : k < e
            · have h3 : (k + 1) * T.w ≤ 128 := by rw [← hwe]; exact Nat.mul_le_mul_right _ hke
              rw [lane_setHL_lo _ _ h3, pl k hke (by omega), hview]
              rw [List.getElem_take, List.getElem_drop]
              congr 3 <;> congr 1 <;> omega
            · have h3 : k * T.w = (k - e) * T.w + 128 := by
                rw [← hwe, ← Nat.add_mul]; congr 1; omega
              rw [lane_setHL_hi _ _ h3, ph (k - e) (by omega) (by omega), hview]
              rw [List.getElem_take, List.getElem_drop]
              congr 3 <;> congr 1 <;> omega
        · rintro ⟨i, hi, hD⟩
          have hD' : ¬ i / e < 2 * D := fun h => hD ((hdiv i).1 h)
          have hsplit : i ∈ ((I :: Is).drop e).take e ∨ i ∈ ((I :: Is).drop 0).take e := by
            rw [List.drop_zero, List.take_of_length_le (by rw [List.length_drop]; omega)]
            rw [← List.take_append_drop e (I :: Is)] at hi
            rcases List.mem_append.1 hi with h | h
            · exact Or.inr h
            · exact Or.inl h
          by_cases hl : ∀ j ∈ ((I :: Is).drop e).take e, j / e < 2 * D
          · obtain ⟨l, hl', _⟩ := s1.good hl
            have := s2.bad ⟨i, (hsplit.resolve_left (fun h => hD' (hl i h))), hD'⟩
            simp only [Out.ofExists, Out.bind]
            rw [hl']; show Out.map _ _ = _; rw [this]; rfl
          · have : ∃ j ∈ ((I :: Is).drop e).take e, ¬ j / e < 2 * D := by
              apply Classical.byContradiction
              intro hc
              exact hl (fun j hj => Classical.byContradiction fun h => hc ⟨j, hj, h⟩)
            simp only [Out.ofExists, Out.bind]
            rw [s1.bad this]

/-- the pack continued by `last + 1, last + 2, ...` -/
def packIdx (is : List Nat) (j : Nat) : Nat := is.getD j (is.getLast?.getD 0 + (j + 1 - is.length))
theorem packIdx_lt {is : List Nat} {j : Nat} (h : j < is.length) : packIdx is j = is[j] := by
  rw [packIdx, List.getD_eq_getElem?_getD, List.getElem?_eq_getElem h]; rfl
theorem packIdx_ge {is : List Nat} {l j : Nat} (h : is.length < j + 1) : packIdx (is ++ [l]) j = l + (j - is.length) := by
  by_cases hj : j = is.length
  · subst hj; rw [packIdx_lt (by simp)]; simp
  · rw [packIdx, List.getD_eq_getElem?_getD, List.getElem?_eq_none (by simp; omega), Option.getD_none, List.getLast?_append]
    simp

/-- what the driver must satisfy -/
structure DriveSpec (w e D : Nat) {v : VSz} (is : List Nat) (d : Mem (Vec v)) (o : Nat) (dst : Mem (Vec v)) (out : Out (Mem (Vec v))) : Prop where
  good : (∀ j, j < ceilDiv is.length e * e → packIdx is j / e < D) → ∃ r, out = .ok r ∧
    (∀ j, j < ceilDiv is.length e * e → lane w (r (o + j / e)) (j % e) = lane w (d (packIdx is j / e)) (packIdx is j % e)) ∧ ∀ p, p < o → r p = dst p
  bad : (∃ j, j < ceilDiv is.length e * e ∧ ¬ packIdx is j / e < D) → out = .ub

theorem ceilDiv_self {e : Nat} (he : 0 < e) : ceilDiv e e = 1 := by simp [ceilDiv, Nat.div_self he]
theorem ceilDiv_small {n e : Nat} (h0 : 0 < n) (h : n < e) : ceilDiv n e = 1 := by
  rw [ceilDiv, Nat.div_eq_of_lt h, Nat.mod_eq_of_lt h, if_pos (by omega)]
theorem ceilDiv_add {n e : Nat} (he : 0 < e) (h : e ≤ n) : ceilDiv n e = ceilDiv (n - e) e + 1 := by
  obtain ⟨m, rfl⟩ : ∃ m, n = m + e := ⟨n - e, by omega⟩
  rw [Nat.add_sub_cancel, ceilDiv, ceilDiv, Nat.add_div_right _ he, Nat.add_mod_right]; omega

theorem drive_exact {T : Ety} (hT : T.Ok) (v : VSz) (D : Nat) (d : Mem (Vec v)) (is : List Nat) (hlen : is.length = extent T v)
    (h63 : ∀ i ∈ is, i < 2 ^ 63) (fuel o : Nat) (dst : Mem (Vec v)) :
    DriveSpec T.w (extent T v) D is d o dst (drive T v (srcOf D d) (fuel + 1) is o dst) := by
  have he := extent_pos hT v
  have hne : is ≠ [] := by rintro rfl; simp at hlen; omega
  rw [drive, if_pos hlen, C13_reverse _ hne]
  have ks := kernel_spec hT v D d (is := is.reverse) (by rw [List.length_reverse, hlen]) (fun i hi => h63 i (List.mem_reverse.1 hi))
  simp only [Out.ofExists, Out.bind]
  constructor
  · intro hD
    rw [hlen, ceilDiv_self he, Nat.one_mul] at hD
    obtain ⟨r, hr, hp⟩ := ks.good (by
      intro i hi
      obtain ⟨k, hk, rfl⟩ := List.getElem_of_mem (List.mem_reverse.1 hi)
      have := hD k (by omega)
      rwa [packIdx_lt hk] at this)
    refine ⟨_, by rw [hr]; rfl, fun j hj => ?_, fun p hp => if_neg (by omega)⟩
    rw [hlen, ceilDiv_self he, Nat.one_mul] at hj
    have e1 := hp j hj (by rw [List.length_reverse]; omega)
    rw [Nat.div_eq_of_lt hj, Nat.mod_eq_of_lt hj, Nat.add_zero]
    rw [if_pos rfl, e1, packIdx_lt (by omega)]
    rw [List.getElem_reverse]
    congr 3 <;> congr 1 <;> omega
  · rintro ⟨j, hj, hD⟩
    rw [hlen, ceilDiv_self he, Nat.one_mul] at hj
    rw [packIdx_lt (by omega)] at hD
    rw [ks.bad ⟨_, List.mem_reverse.2 (List.getElem_mem (by omega : j < is.length)), hD⟩]; rfl

theorem drive_spec {T : Ety} (hT : T.Ok) (v : VSz) (D : Nat) (d : Mem (Vec v)) : ∀ (n : Nat) (is : List Nat), is.length = n → 0 < n →
    (∀ i ∈ is, i < 2 ^ 62) → ∀ (fuel o : Nat) (dst : Mem (Vec v)), n + 2 ≤ fuel →
    DriveSpec T.w (extent T v) D is d o dst (drive T v (srcOf D d) fuel is o dst) := by
  intro n
  have he := extent_pos hT v
  have he32 := extent_le32 hT v
  induction n using Nat.strongRecOn with
  | _ n ih =>
    intro is hn hpos h62 fuel o dst hf
    obtain ⟨f, rfl⟩ : ∃ f, fuel = f + 1 := ⟨fuel - 1, by omega⟩
    by_cases h1 : is.length = extent T v
    · exact drive_exact hT v D d is h1 (fun i hi => by have := h62 i hi; omega) f o dst
    · rw [drive, if_neg h1]
      by_cases h2 : is.length > extent T v
      · rw [if_pos h2, C13_extract _ _ _ he (by omega), C13_extract _ _ _ (by omega) (by omega)]
        simp only [Out.ofExists, Out.bind]
        rw [List.drop_zero, List.take_of_length_le (l := is.drop _) (by rw [List.length_drop]; omega)]
        have hl1 : (is.take (extent T v)).length = extent T v := by rw [List.length_take]; omega
        have hl2 : (is.drop (extent T v)).length = n - extent T v := by rw [List.length_drop]; omega
        obtain ⟨f', rfl⟩ : ∃ f', f = f' + 1 := ⟨f - 1, by omega⟩
        have d1 := drive_exact hT v D d _ hl1 (fun i hi => by have := h62 i (List.mem_of_mem_take hi); omega) f' o dst
        have d2 := fun dst => ih (n - extent T v) (by omega) _ hl2 (by omega) (fun i hi => h62 i (List.mem_of_mem_drop hi)) (f' + 1) (o + 1) dst (by omega)
        have hcap : ceilDiv is.length (extent T v) * extent T v = extent T v + ceilDiv (is.drop (extent T v)).length (extent T v) * extent T v := by
          rw [ceilDiv_add he (by omega), Nat.add_mul, Nat.one_mul, List.length_drop, Nat.add_comm]
        have i1 : ∀ j, j < extent T v → packIdx is j = packIdx (is.take (extent T v)) j := by
          intro j hj; rw [packIdx_lt (by omega), packIdx_lt (by omega), List.getElem_take]
        have i2 : ∀ j, packIdx is (extent T v + j) = packIdx (is.drop (extent T v)) j := by
          intro j
          rw [packIdx, packIdx, List.getD_eq_getElem?_getD, List.getD_eq_getElem?_getD, List.getElem?_drop, List.length_drop]
          congr 1
          rw [List.getLast?_drop, if_neg (by omega)]; omega
        have c1 : ceilDiv (is.take (extent T v)).length (extent T v) * extent T v = extent T v := by rw [hl1, ceilDiv_self he, Nat.one_mul]
        generalize hE : extent T v = e at *
        constructor
        · intro hD
          rw [hcap] at hD
          obtain ⟨r1, hr1, p1, q1⟩ := d1.good (fun j hj => by rw [c1] at hj; rw [← i1 j hj]; exact hD j (by omega))
          rw [hr1]
          obtain ⟨r2, hr2, p2, q2⟩ := (d2 r1).good (fun j hj => by rw [← i2 j]; exact hD _ (by omega))
          refine ⟨r2, hr2, fun j hj => ?_, fun p hp => by rw [q2 p (by omega), q1 p hp]⟩
          rw [hcap] at hj
          by_cases hje : j < e
          · have := p1 j (by rw [c1]; exact hje)
            rw [Nat.div_eq_of_lt hje, Nat.mod_eq_of_lt hje, Nat.add_zero] at this ⊢
            rw [q2 o (by omega), i1 j hje]; exact this
          · obtain ⟨k, rfl⟩ : ∃ k, j = e + k := ⟨j - e, by omega⟩
            have := p2 k (by omega)
            rw [Nat.add_div_left _ he, Nat.add_mod_left, i2, show o + (k / e).succ = o + 1 + k / e by omega]; exact this
        · rintro ⟨j, hj, hD⟩
          rw [hcap] at hj
          by_cases hg : ∀ j, j < e → packIdx (is.take e) j / e < D
          · obtain ⟨r1, hr1, _, _⟩ := d1.good (fun j hj => by rw [c1] at hj; exact hg j hj)
            rw [hr1]
            refine (d2 r1).bad ⟨j - e, ?_, ?_⟩
            · have : ¬ j < e := fun h => hD (by rw [i1 j h]; exact hg j h)
              omega
            · have : ¬ j < e := fun h => hD (by rw [i1 j h]; exact hg j h)
              rw [← i2, show e + (j - e) = j by omega]; exact hD
          · have : ∃ j, j < e ∧ ¬ packIdx (is.take e) j / e < D := by
              apply Classical.byContradiction
              intro hc
              exact hg (fun j hj => Classical.byContradiction fun h => hc ⟨j, hj, h⟩)
            obtain ⟨k, hk, hkD⟩ := this
            rw [d1.bad ⟨k, by rw [c1]; exact hk, hkD⟩]
      · rw [if_neg h2]
        have hne : is ≠ [] := by rintro rfl; simp at hn; omega
        obtain ⟨js, l, rfl⟩ : ∃ js l, is = js ++ [l] := ⟨is.dropLast, is.getLast hne, (List.dropLast_concat_getLast hne).symm⟩
        have hjl : (js ++ [l]).length = js.length + 1 := by simp
        obtain ⟨p, hp, hpl, ⟨t, ht⟩, hpad⟩ := C13_pad (extent T v) 1 js l (by omega)
        rw [hp]
        simp only [Out.ofExists, Out.bind]
        obtain ⟨f', rfl⟩ : ∃ f', f = f' + 1 := ⟨f - 1, by omega⟩
        have hidx : ∀ j, j < extent T v → packIdx (js ++ [l]) j = packIdx p j := by
          intro j hj
          rw [packIdx_lt (is := p) (by omega)]
          by_cases hjj : j < js.length
          · rw [packIdx_lt (by omega)]
            subst ht
            exact (List.getElem_append_left (by omega)).symm
          · rw [packIdx_ge (by omega)]
            have := hpad (j - js.length) (by omega)
            rw [show js.length + (j - js.length) = j by omega, List.getElem?_eq_getElem (by omega), Nat.mul_one] at this
            injection this with this
            rw [this]
        have hlt : ∀ i ∈ p, i < 2 ^ 63 := by
          intro i hi
          obtain ⟨k, hk, rfl⟩ := List.getElem_of_mem hi
          have h3 := hidx k (by omega)
          rw [packIdx_lt hk] at h3
          rw [← h3]
          by_cases hkk : k < js.length
          · rw [packIdx_lt (by omega)]; have := h62 _ (List.getElem_mem (by omega : k < (js ++ [l]).length)); omega
          · rw [packIdx_ge (by omega)]; have := h62 l (by simp); omega
        have dd := drive_exact hT v D d p hpl hlt f' o dst
        have c1 : ceilDiv (js ++ [l]).length (extent T v) * extent T v = extent T v := by
          rw [ceilDiv_small (by omega) (by omega), Nat.one_mul]
        have c2 : ceilDiv p.length (extent T v) * extent T v = extent T v := by rw [hpl, ceilDiv_self he, Nat.one_mul]
        constructor
        · intro hD
          rw [c1] at hD
          obtain ⟨r, hr, h3, h4⟩ := dd.good (fun j hj => by rw [c2] at hj; rw [← hidx j hj]; exact hD j hj)
          refine ⟨r, hr, fun j hj => ?_, h4⟩
          rw [c1] at hj
          rw [hidx j hj]; exact h3 j (by rw [c2]; exact hj)
        · rintro ⟨j, hj, hD⟩
          rw [c1] at hj
          exact dd.bad ⟨j, by rw [c2]; exact hj, by rw [← hidx j hj]; exact hD⟩

end Dpm.X86
