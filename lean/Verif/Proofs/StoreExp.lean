import Verif.Proofs.Vector
import Verif.Model.FloatManip
/-! Where frexp and ilogb store their integer results. -/
namespace Dpm.X86
open Dpm.Reg

theorem low32 {n : Nat} (x : BitVec n) (k : Nat) : lane 32 x (2 * k) = BitVec.setWidth 32 (lane 64 x k) := by
  apply BitVec.eq_of_getLsbD_eq
  intro b hb
  rw [getLsbD_lane, BitVec.getLsbD_setWidth, getLsbD_lane, show 2 * k * 32 + b = k * 64 + b by omega]
  simp [hb, show b < 64 by omega]
theorem shufPs_lane {n : Nat} (a b : BitVec n) {k : Nat} (hk : (k + 1) * 32 ≤ n) :
    lane 32 (shufPs2020 a b) k = if k % 4 < 2 then lane 32 a (4 * (k / 4) + 2 * (k % 4)) else lane 32 b (4 * (k / 4) + 2 * (k % 4 - 2)) :=
  lane_ofLanes _ hk
theorem cvtI64I32_lane (v : VSz) (x : Vec v) {q : Nat} (hq : q < v.bits / 64) : lane 32 (cvtI64I32 v x) q = lane 32 x (2 * q) := by
  cases v with
  | v128 =>
    have hq' : q < 2 := hq
    refine (shufPs_lane (n := 128) x x (by omega)).trans ?_
    rw [if_pos (by omega)]; congr 1; omega
  | v256 =>
    have hq' : q < 4 := hq
    refine (shufPs_lane (lo x) (hi x) (by omega)).trans ?_
    split
    · rw [lane_lo x (by omega)]; congr 1; omega
    · exact lane_hi x (by omega) (by omega)
theorem cvtI64x2_lane (v : VSz) (a b : Vec v) {q : Nat} (hq : q < v.bits / 32) :
    lane 32 (cvtI64x2I32 v a b) q = if q < v.bits / 64 then lane 32 a (2 * q) else lane 32 b (2 * (q - v.bits / 64)) := by
  cases v with
  | v128 =>
    have hq' : q < 4 := hq
    refine (shufPs_lane (n := 128) a b (by omega)).trans ?_
    show _ = if q < 2 then lane 32 a (2 * q) else lane 32 b (2 * (q - 2))
    rw [show q % 4 = q by omega, show 4 * (q / 4) = 0 by omega, Nat.zero_add, Nat.zero_add]
  | v256 =>
    have hq' : q < 8 := hq
    have h1 : lane 32 (cvtI64x2I32 .v256 a b) q = lane 32 (lane 64 (cvtI64x2I32 .v256 a b) (q / 2)) (q % 2) :=
      (lane_lane _ (by omega) q (by omega)).symm
    have h2 : lane 64 (cvtI64x2I32 .v256 a b) (q / 2) = lane 64 (shufPs2020 (n := 256) a b) (if q / 2 = 1 then 2 else if q / 2 = 2 then 1 else q / 2) :=
      lane_ofLanes _ (by show _ ≤ 256; omega)
    rw [h1, h2]
    show _ = if q < 4 then lane 32 a (2 * q) else lane 32 b (2 * (q - 4))
    generalize hk : (if q / 2 = 1 then 2 else if q / 2 = 2 then 1 else q / 2) = k
    have hk4 : k < 4 := by rw [← hk]; (split <;> (try split) <;> omega)
    rw [lane_lane (shufPs2020 (n := 256) a b) (by omega) (2 * k + q % 2) (by omega)]
    refine (shufPs_lane (n := 256) a b (by omega)).trans ?_
    by_cases hq4 : q < 4
    · rw [if_pos hq4, if_pos]
      · congr 1; rw [← hk]; (split <;> (try split) <;> omega)
      · rw [← hk]; (split <;> (try split) <;> omega)
    · rw [if_neg hq4, if_neg]
      · congr 1; rw [← hk]; (split <;> (try split) <;> omega)
      · rw [← hk]; (split <;> (try split) <;> omega)

theorem setWord_lane {v : VSz} {w : Nat} (hw : w = 64 ∨ w = 128) (d : Mem (Vec v)) (i j q : Nat) (x : BitVec w) (hq : q < v.bits / 32) :
    lane 32 (setWord w d i x j) q =
      if j = i / (v.bits / w) ∧ q / (w / 32) = i % (v.bits / w) then lane 32 x (q % (w / 32)) else lane 32 (d j) q := by
  unfold setWord Mem.set
  by_cases hj : j = i / (v.bits / w)
  · rw [if_pos hj]
    have hb : v.bits = 128 ∨ v.bits = 256 := by cases v; exact Or.inl rfl; exact Or.inr rfl
    have h1 : ∀ y : Vec v, lane 32 y q = lane 32 (lane w y (q / (w / 32))) (q % (w / 32)) := by
      intro y
      refine (lane_lane y ?_ q ?_).symm
      · rcases hw with hw | hw <;> subst hw <;> omega
      · rcases hw with hw | hw <;> subst hw <;> omega
    rw [h1, lane_ofLanes]
    · by_cases hk : q / (w / 32) = i % (v.bits / w)
      · rw [if_pos hk, if_pos ⟨hj, hk⟩]
      · rw [if_neg hk, if_neg (fun h => hk h.2), ← h1, hj]
    · rcases hw with hw | hw <;> subst hw <;> rcases hb with hb | hb <;> rw [hb] at hq ⊢ <;> omega
  · rw [if_neg hj, if_neg (fun h => hj h.1)]

/-- store of one vector of 64-bit results -/
def store1 (v : VSz) (x : Vec v) (out : Mem (Vec v)) (i : Nat) : Mem (Vec v) :=
  match v, x, out with
  | .v128, x, out => setWord 64 out i (lane 64 (cvtI64I32 .v128 x) 0)
  | .v256, x, out => setWord 128 out i (cvtI64I32 .v256 x)
theorem store1_lane (v : VSz) (x : Vec v) (out : Mem (Vec v)) (j : Nat) {q : Nat} (hq : q < v.bits / 64) :
    lane 32 (store1 v x out (2 * j) j) q = lane 32 x (2 * q) := by
  cases v with
  | v128 =>
    have hq' : q < 2 := hq
    refine (setWord_lane (v := .v128) (Or.inl rfl) out (2 * j) j q _ (by show q < 4; omega)).trans ?_
    have e1 : VSz.v128.bits / 64 = 2 := rfl
    rw [e1, if_pos (by omega), ← cvtI64I32_lane .v128 x hq]
    refine lane_lane _ (by omega) q (by omega)
  | v256 =>
    have hq' : q < 4 := hq
    refine (setWord_lane (v := .v256) (Or.inr rfl) out (2 * j) j q _ (by show q < 8; omega)).trans ?_
    have e1 : VSz.v256.bits / 128 = 2 := rfl
    rw [e1, if_pos (by omega), ← cvtI64I32_lane .v256 x hq]
    congr 1; omega
/-- the loops for doubles when storage has the same native size -/
theorem pairs_lane (v : VSz) (E : Nat → Vec v) (out : Mem (Vec v)) (n : Nat) {j q : Nat} (hq : q < v.bits / 32)
    (hp : 2 * j + q / (v.bits / 64) < n) :
    lane 32 ((let out := forRange (n / 2) (fun j (out : Mem (Vec v)) => out.set j (cvtI64x2I32 v (E (2 * j)) (E (2 * j + 1)))) out
      if n % 2 = 1 then store1 v (E (n - 1)) out (n - 1) else out) j) q = lane 32 (E (2 * j + q / (v.bits / 64))) (2 * (q % (v.bits / 64))) := by
  rw [forRange_store]
  have hb : v.bits / 64 = 2 ∧ v.bits / 32 = 4 ∨ v.bits / 64 = 4 ∧ v.bits / 32 = 8 := by cases v; exact Or.inl ⟨rfl, rfl⟩; exact Or.inr ⟨rfl, rfl⟩
  have h2 : ∀ a b, lane 32 (cvtI64x2I32 v a b) q = lane 32 (if q / (v.bits / 64) = 0 then a else b) (2 * (q % (v.bits / 64))) := by
    intro a b
    rw [cvtI64x2_lane v a b hq]
    by_cases h : q < v.bits / 64
    · rw [if_pos h, if_pos (Nat.div_eq_of_lt h), Nat.mod_eq_of_lt h]
    · rw [if_neg h, if_neg (by rcases hb with hb | hb <;> rw [hb.1] at h ⊢ <;> omega)]
      congr 2; rcases hb with hb | hb <;> rw [hb.1] at h ⊢ <;> omega
  have hpair : lane 32 (cvtI64x2I32 v (E (2 * j)) (E (2 * j + 1))) q = lane 32 (E (2 * j + q / (v.bits / 64))) (2 * (q % (v.bits / 64))) := by
    rw [h2]
    congr 1
    rcases (by rcases hb with hb | hb <;> rw [hb.1] <;> omega : q / (v.bits / 64) = 0 ∨ q / (v.bits / 64) = 1) with h | h
    · rw [h]; rfl
    · rw [h]; rfl
  dsimp only
  split
  · next hodd =>
    by_cases hj : j = n / 2
    · have hn : n - 1 = 2 * j := by omega
      have hq0 : q / (v.bits / 64) = 0 := by generalize q / (v.bits / 64) = r at *; omega
      have hq1 : q < v.bits / 64 := by rcases hb with hb | hb <;> rw [hb.1] at hq0 ⊢ <;> omega
      rw [hn, store1_lane v _ _ j hq1, hq0, Nat.mod_eq_of_lt hq1]; rfl
    · have hne : ∀ (x : Vec v) d, store1 v x d (n - 1) j = d j := by
        intro x d
        cases v with
        | v128 =>
          show Mem.set _ _ _ j = _
          exact Mem.set_ne _ _ (by show j ≠ (n - 1) / 2; omega)
        | v256 =>
          show Mem.set _ _ _ j = _
          exact Mem.set_ne _ _ (by show j ≠ (n - 1) / 2; omega)
      have hlt : j < n / 2 := by generalize q / (v.bits / 64) = r at *; omega
      rw [hne, if_pos hlt, hpair]
  · have hlt : j < n / 2 := by generalize q / (v.bits / 64) = r at *; omega
    dsimp only; rw [if_pos hlt, hpair]

theorem extent8 (v : VSz) (f sg : Bool) : extent ⟨8, f, sg⟩ v = v.bits / 64 := by cases v <;> simp [extent, VSz.bytes, VSz.bits]
/-- Element `p` of the integer result holds the low 32 bits of the exponent computed for element `p`. -/
theorem storeExps_elt {c ci : Cfg} (hc : c.Ok) (hT : c.T.flt = true) (hi : c.IntOf ci) (e : Nat → Vec c.v) (out : ci.Data) {p : Nat} (hp : p < c.N) :
    elt ci (storeExps c ci e out) p = BitVec.setWidth ci.w (lane c.w (e (p / c.e)) (p % c.e)) := by
  obtain ⟨s, T, N, v⟩ := c
  obtain ⟨si, Ti, Ni, vi⟩ := ci
  obtain ⟨h1, h2, h3, h4⟩ := hi
  dsimp only at h1 h2 h3 h4 hT hp e out ⊢
  subst h1; subst h2; subst h3
  have hpos := hc.pos
  dsimp only at hpos
  rcases (hc.ety.2 hT).1 with hb | hb
  · -- float
    dsimp only at hb
    have h4 : vi = v := by
      rcases h4 with h4 | h4
      · exact h4
      · exfalso; have := h4.1; omega
    subst h4
    obtain ⟨b, fl, sg⟩ := T
    dsimp only at hb; subst hb
    have hd := idx_lt hc hp
    unfold storeExps
    dsimp only
    rw [if_neg (by omega)]
    have e2 : ∀ d, forRange (Cfg.dataSize ⟨si, ⟨4, fl, sg⟩, Ni, vi⟩) (fun i out => storeExp1 ⟨si, ⟨4, fl, sg⟩, Ni, vi⟩ ⟨si, .i32, Ni, vi⟩ (e i) out i) d =
        fun j => if j < Cfg.dataSize ⟨si, ⟨4, fl, sg⟩, Ni, vi⟩ then BitVec.setWidth vi.bits (e j) else d j := fun d => forRange_store _ (fun i => BitVec.setWidth vi.bits (e i)) d
    rw [e2]
    unfold elt
    dsimp only
    have e3 : Cfg.e ⟨si, .i32, Ni, vi⟩ = Cfg.e ⟨si, ⟨4, fl, sg⟩, Ni, vi⟩ := rfl
    rw [e3, if_pos hd, BitVec.setWidth_eq]
    exact (BitVec.setWidth_eq _).symm
  · -- double
    dsimp only at hb
    obtain ⟨b, fl, sg⟩ := T
    dsimp only at hb hT; subst hb; subst hT
    have hlow : ∀ (x : Vec v) k, lane 32 x (2 * k) = BitVec.setWidth 32 (lane 64 x k) := fun x k => low32 x k
    show elt ⟨si, .i32, Ni, vi⟩ _ p = BitVec.setWidth 32 (lane 64 (e (p / (extent ⟨8, true, sg⟩ v))) (p % (extent ⟨8, true, sg⟩ v)))
    rw [← hlow]
    unfold storeExps
    dsimp only
    have hn : Cfg.dataSize ⟨si, ⟨8, true, sg⟩, Ni, v⟩ = ceilDiv Ni (extent ⟨8, true, sg⟩ v) := rfl
    have hni : Cfg.dataSize ⟨si, .i32, Ni, vi⟩ = ceilDiv Ni (extent .i32 vi) := rfl
    have hd : p / (extent ⟨8, true, sg⟩ v) < ceilDiv Ni (extent ⟨8, true, sg⟩ v) := idx_lt hc hp
    rw [hn, hni]
    rcases h4 with h4 | h4
    · subst h4
      have hee : extent ⟨8, true, sg⟩ vi = vi.bits / 64 := extent8 vi true sg
      have hei : extent .i32 vi = vi.bits / 32 := by cases vi <;> decide
      have hb : vi.bits / 64 = 2 ∧ vi.bits / 32 = 4 ∨ vi.bits / 64 = 4 ∧ vi.bits / 32 = 8 := by cases vi; exact Or.inl ⟨rfl, rfl⟩; exact Or.inr ⟨rfl, rfl⟩
      rw [hee] at hd
      rw [hee, hei]
      unfold elt
      dsimp only
      rw [show Cfg.e ⟨si, .i32, Ni, vi⟩ = vi.bits / 32 from hei]
      have hq : p % (vi.bits / 32) < vi.bits / 32 := by rcases hb with hb | hb <;> rw [hb.2] <;> omega
      have hidx : 2 * (p / (vi.bits / 32)) + p % (vi.bits / 32) / (vi.bits / 64) = p / (vi.bits / 64) ∧ p % (vi.bits / 32) % (vi.bits / 64) = p % (vi.bits / 64) := by
        rcases hb with hb | hb <;> rw [hb.1, hb.2] <;> omega
      have hs1 : ∀ (x : Vec vi) (d : Mem (Vec vi)) i, storeExp1 ⟨si, ⟨8, true, sg⟩, Ni, vi⟩ ⟨si, .i32, Ni, vi⟩ x d i = store1 vi x d i := by
        intro x d i; cases vi <;> rfl
      have hs2 : ∀ (x y : Vec vi) (d : Mem (Vec vi)) j, storeExp2 ⟨si, ⟨8, true, sg⟩, Ni, vi⟩ ⟨si, .i32, Ni, vi⟩ x y d (2 * j) = d.set j (cvtI64x2I32 vi x y) := by
        intro x y d j
        show d.set (2 * j / 2) (BitVec.setWidth vi.bits _) = _
        rw [BitVec.setWidth_eq, show 2 * j / 2 = j by omega]
      by_cases h1 : ceilDiv Ni (vi.bits / 32) < ceilDiv Ni (vi.bits / 64)
      · rw [if_pos ⟨by omega, h1⟩]
        simp only [hs1, hs2]
        have := pairs_lane vi e out (ceilDiv Ni (vi.bits / 64)) hq (j := p / (vi.bits / 32)) (by rw [hidx.1]; exact hd)
        rw [hidx.1, hidx.2] at this
        exact this
      · have hone : ceilDiv Ni (vi.bits / 64) = 1 := by
          unfold ceilDiv at h1 ⊢
          rcases hb with hb | hb <;> rw [hb.1, hb.2] at h1 <;> rw [hb.1] <;> (split at h1 <;> split at h1 <;> try split) <;> omega
        rw [if_neg (fun h => h1 h.2), hone]
        simp only [hs1]
        rw [hone] at hd
        have := pairs_lane vi e out 1 hq (j := p / (vi.bits / 32)) (by rw [hidx.1]; exact hd)
        rw [hidx.1, hidx.2] at this
        exact this
    · obtain ⟨_, h5, h6, h7⟩ := h4
      subst h5; subst h6
      have e8 : extent ⟨8, true, sg⟩ .v256 = 4 := extent8 .v256 true sg
      have e4 : extent .i32 .v128 = 4 := rfl
      rw [e8] at hd ⊢
      rw [e4]
      have c1 : ceilDiv Ni 4 = 1 := by rcases h7 with h | h <;> (try dsimp only at h) <;> subst h <;> decide
      rw [c1, if_neg (by omega)]
      have hs : forRange 1 (fun i out => storeExp1 ⟨si, ⟨8, true, sg⟩, Ni, .v256⟩ ⟨si, .i32, Ni, .v128⟩ (e i) out i) out =
        setWord (v := .v128) 128 out 0 (cvtI64I32 .v256 (e 0)) := rfl
      rw [hs]
      unfold elt
      dsimp only
      rw [show Cfg.e ⟨si, .i32, Ni, .v128⟩ = 4 from e4]
      rw [c1] at hd
      have hp4 : p < 4 := by rcases h7 with h | h <;> (try dsimp only at h) <;> omega
      refine (setWord_lane (v := .v128) (Or.inr rfl) out 0 _ _ _ (by show p % 4 < 4; omega)).trans ?_
      have e1 : VSz.v128.bits / 128 = 1 := rfl
      rw [e1, if_pos (by omega), show p / 4 = 0 by omega]
      refine (congrArg (lane 32 _) (by omega : p % 4 % (128 / 32) = p % 4)).trans ?_
      exact cvtI64I32_lane .v256 (e 0) (by show p % 4 < 4; omega)
end Dpm.X86
