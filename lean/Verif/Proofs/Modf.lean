import Verif.Proofs.ScalbnSpec
/-
modf, lane by lane and on exact values.
-/
namespace Dpm.X86
open Dpm.Reg Dpm.Fp

/-- the fraction bits of the significand of `x` -/
def modfMask {w : Nat} (x : BitVec w) : BitVec w :=
  if expF x < bias w then 0#w else BitVec.ofNat w (2 ^ (mb w - (expF x - bias w)) - 1)
def modfLane {w : Nat} (o : MathOpt) (x : BitVec w) : BitVec w × BitVec w :=
  let int := decide (bias w + mb w ≤ expF x)
  let fr := decide (expF x < bias w)
  let mz := decide (mag (x &&& modfMask x) = 0) && !fr && !int
  let sgn := x &&& BitVec.intMin w
  let x2 := ~~~ modfMask x &&& x
  (if o.propNan && isNaN x then x else if int then sgn else if fr then x else if mz then sgn else fsub x x2,
   if o.propNan && isNaN x then x else if mz then x else x2)

theorem expF_sub {w : Nat} (h : W w) (x : BitVec w) :
    BitVec.ofNat w (expF x) - BitVec.ofNat w (bias w) = BitVec.ofInt w ((expF x : Int) - bias w) := by
  have := ofNat_sub2 (w := w) (expF x) (bias w) 0
  rw [show (BitVec.ofNat w 0 : BitVec w) = 0#w from rfl, BitVec.sub_zero] at this
  rw [this]; simp
theorem modfMask_eq {w : Nat} (h : W w) (x : BitVec w) :
    (BitVec.allOnes w >>> (expBits w + 1)) >>> (BitVec.ofInt w ((expF x : Int) - bias w)).toNat = modfMask x := by
  have hm := mb_lt h
  have hb := expBits_eq h
  have he := expF_le h x
  have h2 := emax_bias h
  have hbw : bias w ≤ 1023 := by rcases h with h | h <;> subst h <;> decide
  have hbw2 : 2 * bias w + 1 < 2 ^ w := by rcases h with h | h <;> subst h <;> decide
  have hw1 : bias w + w ≤ 2 ^ w := by rcases h with h | h <;> subst h <;> decide
  have hall : (BitVec.allOnes w >>> (expBits w + 1)).toNat = 2 ^ mb w - 1 := by
    rcases h with h | h <;> subst h <;> decide
  apply BitVec.eq_of_toNat_eq
  rw [BitVec.toNat_ushiftRight, hall, BitVec.toNat_ofInt, Nat.shiftRight_eq_div_pow]
  unfold modfMask
  have hmw : 2 ^ mb w < 2 ^ w := Nat.pow_lt_pow_right (by omega) (by omega)
  have hpos : ∀ k, 0 < 2 ^ k := fun k => Nat.two_pow_pos k
  split
  · rename_i hlt
    have e1 : (((expF x : Int) - bias w) % ((2 ^ w : Nat) : Int)).toNat = 2 ^ w - (bias w - expF x) := by
      rw [← Int.add_emod_right, Int.emod_eq_of_lt (by omega) (by omega)]; omega
    rw [e1]
    have h3 : w ≤ 2 ^ w - (bias w - expF x) := by omega
    rw [Nat.div_eq_of_lt]
    · simp
    · have : 2 ^ w ≤ 2 ^ (2 ^ w - (bias w - expF x)) := Nat.pow_le_pow_right (by omega) h3
      omega
  · rename_i hge
    have e1 : (((expF x : Int) - bias w) % ((2 ^ w : Nat) : Int)).toNat = expF x - bias w := by
      rw [Int.emod_eq_of_lt (by omega) (by omega)]; omega
    rw [e1, BitVec.toNat_ofNat]
    generalize expF x - bias w = k
    have hle : 2 ^ (mb w - k) ≤ 2 ^ mb w := Nat.pow_le_pow_right (by omega) (by omega)
    rw [Nat.mod_eq_of_lt (by have := hpos (mb w - k); omega)]
    by_cases hk : k ≤ mb w
    · have e2 : 2 ^ mb w = 2 ^ (mb w - k) * 2 ^ k := by rw [← Nat.pow_add]; congr 1; omega
      rw [e2]
      have := hpos (mb w - k)
      have h5 := hpos k
      generalize 2 ^ (mb w - k) = A at *
      generalize 2 ^ k = B at *
      obtain ⟨a, rfl⟩ : ∃ a, A = a + 1 := ⟨A - 1, by omega⟩
      rw [show (a + 1) * B - 1 = a * B + (B - 1) by rw [Nat.add_mul]; omega, Nat.mul_comm, Nat.mul_add_div h5, Nat.div_eq_of_lt (by omega)]
      omega
    · rw [show mb w - k = 0 by omega, Nat.div_eq_of_lt]
      · have : 2 ^ mb w ≤ 2 ^ k := Nat.pow_le_pow_right (by omega) (by omega)
        have := hpos (mb w)
        omega

/-- where the scalar shifts of the pre-AVX2 float version are defined: `1 <= |x| < 2^32` in every lane of the register -/
def ModfShiftOk (s : ISA) (T : Ety) (v : VSz) (x : Vec v) : Prop :=
  T.bytes = 8 ∨ s.avx2 = true ∨ ∀ i, i < extent T v → bias T.w ≤ expF (lane T.w x i) ∧ expF (lane T.w x i) < bias T.w + 32

section
variable {T : Ety} (h : T.Ok) (hf : T.flt = true) {v : VSz}
include h hf
theorem shrVI_lane (s : ISA) (a b : Vec v) (m : Vec v) (hm : shrVI s T v a b = some m) {i : Nat} (hi : i < extent T v) :
    lane T.w m i = lane T.w a i >>> (lane T.w b i).toNat := by
  have hb := lane_bound h hi
  unfold shrVI at hm
  split at hm
  · rename_i h8
    have hw : T.w = 64 := hx_w64 h8
    cases hm
    rw [hw] at hb ⊢
    exact shrV64_lane s v a b hb
  · rename_i h8
    have hw : T.w = 32 := by rcases (h.2 hf).1 with h4 | h4; · unfold Ety.w; omega
                             · exact absurd h4 h8
    have hm2 : m = srlvL 32 a b := by
      unfold shrV32 at hm
      split at hm
      · exact (Option.some.inj hm).symm
      · split at hm
        · exact (Option.some.inj hm).symm
        · cases hm
    subst hm2
    rw [hw] at hb ⊢
    exact lane_map2 (w := 32) _ _ _ hb
theorem shrVI_none (s : ISA) (a b : Vec v) : shrVI s T v a b = none ↔
    (T.bytes = 4 ∧ s.avx2 = false ∧ ∃ i, i < extent T v ∧ 32 ≤ (lane T.w b i).toNat) := by
  unfold shrVI
  split
  · rename_i h8; simp; omega
  · rename_i h8
    have h4 : T.bytes = 4 := by rcases (h.2 hf).1 with h4 | h4; · exact h4
                                · exact absurd h4 h8
    have hw : T.w = 32 := by unfold Ety.w; omega
    have he : extent T v = v.bits / 32 := by unfold extent; rw [h4]; cases v <;> rfl
    unfold shrV32
    rw [he, hw]
    cases s.avx2
    · simp only [Bool.false_eq_true, if_false]
      by_cases hall : ∀ i, i < v.bits / 32 → (lane 32 b i).toNat < 32
      · rw [if_pos hall]
        simp only [reduceCtorEq, false_iff]
        rintro ⟨_, _, i, h1, h2⟩
        have := hall i h1
        omega
      · rw [if_neg hall]
        simp only [true_iff]
        refine ⟨h4, trivial, ?_⟩
        false_or_by_contra
        rename_i hc
        apply hall
        intro i h1
        false_or_by_contra
        exact hc ⟨i, h1, by omega⟩
    · simp

theorem modfV_exp (s : ISA) (x : Vec v) {i : Nat} (hi : i < extent T v) :
    lane T.w (subI s T.toI v (bitAnd (shrC s T.toI (mantBits T.w) v x) (fillV v (BitVec.ofNat T.w (expMask T.w)))) (fillV v (BitVec.ofNat T.w (expOff T.w)))) i =
      BitVec.ofInt T.w ((expF (lane T.w x i) : Int) - bias T.w) := by
  have hw := fltW h hf
  rw [subT_lane h hi, fillV_lane h _ hi, bitAnd_lane, shrT_lane h hi, fillV_lane h _ hi, shr_mant_ofNat hw, expOff_eq hw, expF_sub hw]

theorem modfV_none (o : MathOpt) (s : ISA) (x : Vec v) : modfV o s T v x = none ↔ ¬ ModfShiftOk s T v x := by
  have hw := fltW h hf
  unfold modfV
  extract_lets I e0 e1 e intMask intX frMask frIp frX
  rw [Option.map_eq_none_iff, shrVI_none h hf]
  have hx : ∀ i, i < extent T v → (32 ≤ (lane T.w e i).toNat ↔ ¬ (bias T.w ≤ expF (lane T.w x i) ∧ expF (lane T.w x i) < bias T.w + 32)) := by
    intro i hi
    have h1 : lane T.w e i = _ := modfV_exp h hf s x hi
    have he := expF_le hw (lane T.w x i)
    have h2 := emax_bias hw
    have hbw : bias T.w ≤ 1023 ∧ 2 * bias T.w + 33 ≤ 2 ^ T.w := by rcases hw with h | h <;> rw [h] <;> decide
    rw [h1, BitVec.toNat_ofInt]
    by_cases hlt : expF (lane T.w x i) < bias T.w
    · rw [← Int.add_emod_right, Int.emod_eq_of_lt (by omega) (by omega)]; omega
    · rw [Int.emod_eq_of_lt (by omega) (by omega)]; omega
  unfold ModfShiftOk
  constructor
  · rintro ⟨h1, h2, i, hi, h3⟩ hn
    rcases hn with hn | hn | hn
    · omega
    · rw [h2] at hn; cases hn
    · exact (hx i hi).1 h3 (hn i hi)
  · intro hn
    refine ⟨?_, ?_, ?_⟩
    · rcases (h.2 hf).1 with h4 | h4
      · exact h4
      · exact absurd (Or.inl h4) hn
    · cases h2 : s.avx2
      · rfl
      · exact absurd (Or.inr (Or.inl h2)) hn
    · false_or_by_contra
      rename_i hc
      apply hn
      right; right
      intro i hi
      false_or_by_contra
      rename_i h3
      exact hc ⟨i, hi, (hx i hi).2 h3⟩

theorem modfV_lane (o : MathOpt) (s : ISA) (x : Vec v) (p : Vec v × Vec v) (hp : modfV o s T v x = some p) {i : Nat} (hi : i < extent T v) :
    lane T.w p.1 i = (modfLane o (lane T.w x i)).1 ∧ lane T.w p.2 i = (modfLane o (lane T.w x i)).2 := by
  have hw := fltW h hf
  have hfill : ∀ x : BitVec T.w, lane T.w (fillV v x) i = x := fun x => fillV_lane h x hi
  have hz : lane T.w (setzero v) i = 0#T.w := setzero_lane v i
  unfold modfV at hp
  extract_lets -merge I e0 e1 e intMask intX frMask frIp frX x1 i0 nm at hp
  cases hm : shrVI s T v (shrC s I (expBits T.w + 1) v (fillV v (BitVec.allOnes T.w))) e with
  | none => rw [hm] at hp; cases hp
  | some mask =>
    rw [hm, Option.map_some] at hp
    have hp := Option.some.inj hp
    extract_lets -merge mz0 mz1 mz x2 i1 y0 y1 y2 at hp
    generalize hX : lane T.w x i = X
    have he : lane T.w e i = BitVec.ofInt T.w ((expF X : Int) - bias T.w) := by rw [← hX]; exact modfV_exp h hf s x hi
    have hbw : bias T.w ≤ 1023 ∧ mb T.w ≤ 52 ∧ 0 < mb T.w := by rcases hw with h | h <;> rw [h] <;> decide
    have hel := expF_le hw X
    have hem := emax_bias hw
    have hei : (lane T.w e i).toInt = (expF X : Int) - bias T.w := by rw [he, small_toInt hw (by omega) (by omega)]
    have hmask : lane T.w mask i = modfMask X := by
      rw [shrVI_lane h hf s _ _ _ hm hi, he, ← modfMask_eq hw]
      congr 1
      refine (shrT_lane h hi s _ _).trans ?_
      rw [hfill]
    have hint : lane T.w intMask i = laneMask T.w (decide (bias T.w + mb T.w ≤ expF X)) := by
      refine (cmpGtI_lane s h v _ _ hi).trans ?_
      rw [hfill, hei]
      have : (BitVec.ofNat T.w (mantBits T.w - 1)).toInt = ((mb T.w - 1 : Nat) : Int) := by
        rw [mantBits_eq hw, ← BitVec.ofInt_natCast, small_toInt hw (by omega) (by omega)]
      simp only [this]
      congr 1
      apply decide_eq_decide.2
      omega
    have hfr : lane T.w frMask i = laneMask T.w (decide (expF X < bias T.w)) := by
      refine (cmpGtI_lane s h v _ _ hi).trans ?_
      rw [hz, hei]
      congr 1
      apply decide_eq_decide.2
      rw [BitVec.toInt_zero]
      omega
    have hsg : lane T.w (bitAnd x (fillV v (signBit T.w))) i = X &&& BitVec.intMin T.w := by
      refine (bitAnd_lane _ _ _ _).trans ?_
      rw [hfill, hX]; rfl
    have hmz : lane T.w mz i = laneMask T.w (decide (mag (X &&& modfMask X) = 0) && !decide (expF X < bias T.w) && !decide (bias T.w + mb T.w ≤ expF X)) := by
      refine (andnot_lane h hi _ _).trans ?_
      rw [hint, laneMask_not]
      have : lane T.w mz1 i = laneMask T.w (decide (mag (X &&& modfMask X) = 0) && !decide (expF X < bias T.w)) := by
        refine (andnot_lane h hi _ _).trans ?_
        rw [hfr, laneMask_not]
        have h0 : lane T.w mz0 i = laneMask T.w (decide (mag (X &&& modfMask X) = 0)) := by
          refine (cmpEq_lane s h v _ _ hi).trans ?_
          unfold laneEq
          rw [if_pos hf, bitAnd_lane, hX, hmask, hz, fEq_zero hw]
        rw [h0, laneMask_and, Bool.and_comm]
      rw [this, laneMask_and, Bool.and_comm]
    have hx2 : lane T.w x2 i = ~~~ modfMask X &&& X := by
      refine (andnot_lane h hi _ _).trans ?_
      rw [hmask, hX]
    have hi1 : lane T.w i1 i = if decide (mag (X &&& modfMask X) = 0) && !decide (expF X < bias T.w) && !decide (bias T.w + mb T.w ≤ expF X) then X else ~~~ modfMask X &&& X := by
      refine (blendv_lane s h v _ _ _ hi _ hmz).trans ?_
      rw [hx2]
      have h0 : lane T.w i0 i = if decide (expF X < bias T.w) then X &&& BitVec.intMin T.w else X := by
        refine (blendv_lane s h v _ _ _ hi _ hfr).trans ?_
        rw [hX, hsg]
      rw [h0]
      cases decide (expF X < bias T.w) <;> simp
    have hy2 : lane T.w y2 i = if decide (bias T.w + mb T.w ≤ expF X) then X &&& BitVec.intMin T.w else if decide (expF X < bias T.w) then X else
        if decide (mag (X &&& modfMask X) = 0) && !decide (expF X < bias T.w) && !decide (bias T.w + mb T.w ≤ expF X) then X &&& BitVec.intMin T.w
        else fsub X (~~~ modfMask X &&& X) := by
      refine (blendv_lane s h v _ _ _ hi _ hint).trans ?_
      rw [hsg]
      congr 1
      refine (blendv_lane s h v _ _ _ hi _ hfr).trans ?_
      rw [show lane T.w frX i = X from hX]
      congr 1
      refine (blendv_lane s h v _ _ _ hi _ hmz).trans ?_
      rw [show lane T.w x1 i = _ from hsg]
      congr 1
      refine (fsubL_lane h hi _ _).trans ?_
      rw [hX, hx2]
    unfold modfLane
    dsimp only
    rw [← hp]
    cases o.propNan
    · simp only [Bool.false_eq_true, if_false, Bool.false_and]
      exact ⟨hy2, hi1⟩
    · have hn : lane T.w (isunordV T v x x) i = laneMask T.w (isNaN X) := by
        rw [isunordV_lane h hi, hX, fNaN_eq hw, Bool.or_self]
      simp only [if_true, Bool.true_and]
      constructor
      · refine (blendv_lane s h v _ _ _ hi _ hn).trans ?_
        rw [hX, hy2]
      · refine (blendv_lane s h v _ _ _ hi _ hn).trans ?_
        rw [hX, hi1]
end
end Dpm.X86
