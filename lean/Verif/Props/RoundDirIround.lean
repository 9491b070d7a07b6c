import Verif.Props.RoundDirInt
/-
C83: `ext::iround` in the four rounding directions.  The subtraction is exact and the product with the number just below two stays on its side of
one in every direction, so the result never depends on the direction.
-/
namespace Dpm.X86
open Dpm Dpm.Reg Dpm.Fp Dpm.Generic Dpm.GenericMath Dpm.Callable

/-- C83: rounding to nearest, `ext::iround` is that of Model/RoundInt.lean (C60). -/
theorem C83_iround_nearest (c ci : Cfg) (L : Cmath c.w) (x : c.Data) : mIround .nearest c ci L x = vIround c ci L x := by
  have a1 : ∀ w, (fmulM .nearest : BitVec w → BitVec w → BitVec w) = fmul := fun w => funext fun _ => funext fun _ => fmulM_nearest _ _
  have a2 : ∀ w, (fsubM .nearest : BitVec w → BitVec w → BitVec w) = fsub := fun w => funext fun _ => funext fun _ => fsubM_nearest _ _
  have a3 : ∀ w, ofIntM .nearest w = ofInt w := fun w => funext fun _ => ofIntM_nearest _ _
  have b1 : ∀ {n : Nat} (y : BitVec n), roundPsM .nearest y = roundPs y := fun y => by
    unfold roundPsM roundPs fmulLM fsubLM cvtepiLM cvtepiL fmulL fsubL; rw [a1, a2, a3]
  have b2 : ∀ {n : Nat} (y : BitVec n), roundPd64M .nearest y = roundPd64 y := fun y => by
    unfold roundPd64M roundPd64 fmulLM fsubLM cvtepiLM cvtepiL fmulL fsubL; rw [a1, a2, a3]
  have b3 : ∀ (v : VSz) (y : Vec v), roundPdM .nearest v y = roundPd v y := fun v y => by
    unfold roundPdM roundPd fmulLM fsubLM cvtepi32PdM cvtepi32Pd fmulL fsubL; rw [a1, a2, a3]
  have k : roundKM .nearest c ci = roundK c ci := by
    obtain ⟨s, T, N, v⟩ := c
    cases v <;> (unfold roundKM roundK; simp only [b1, b2, b3])
  unfold mIround vIround; rw [k]

/-- one lane of `round<I>` in direction `m` -/
def iroundLaneM (m : RMode) (k : Nat) {w : Nat} (x : BitVec w) : BitVec k :=
  cvtInt k .zero x + cvtInt k .zero (fmulM m (fsubM m x (ofIntM m w (cvtInt k .zero x).toInt)) (nearTwo w))
/-- the lane is the same in every direction -/
theorem iroundLaneM_eq (m : RMode) {w k : Nat} (h : W w) (hk : 2 ≤ k) {x : BitVec w} (hr : InRange (-(2 ^ (k - 1) : Int)) (2 ^ (k - 1) - 1) x) :
    iroundLaneM m k x = iroundLane k x := by
  obtain ⟨hfin, h1, h2⟩ := hr
  have hD : (0 : Int) < (2 ^ unitExp w : Nat) := by exact_mod_cast Nat.two_pow_pos (unitExp w)
  obtain ⟨b1, b2⟩ := trunc_bounds hD h1 h2 (toInt_trunc x)
  have e2 : (cvtInt k .zero x).toInt = toInt .zero x := by
    have : cvtInt k .zero x = BitVec.ofInt k (toInt .zero x) := by
      unfold cvtInt
      rw [if_pos]
      simp only [hfin, Bool.true_and, Bool.and_eq_true, decide_eq_true_eq]
      omega
    rw [this]; exact toInt_ofInt_fit (by omega) b1 (by omega)
  have hrep : Repr w ((toInt .zero x).natAbs * 2 ^ unitExp w) := by rw [natAbs_toInt]; exact repr_roundNat h .zero (neg x) hfin
  obtain ⟨t1, t2, -⟩ := Fp.ofInt_val h (z := toInt .zero x) hrep
  obtain ⟨a1, a2⟩ := rem_int_gen h m hfin t1 t2
  obtain ⟨c1, c2⟩ := rem_int_gen h .nearest hfin t1 t2
  rw [fsubM_nearest, fmulM_nearest] at c1 c2
  have e3 : ofIntM m w (toInt .zero x) = ofInt w (toInt .zero x) := by
    unfold ofIntM; exact roundDir_repr m _ hrep
  unfold iroundLaneM iroundLane
  rw [e2, e3]
  congr 1
  unfold cvtInt
  rw [a1, c1, a2, c2]
theorem roundPsM_lane (m : RMode) {n : Nat} (x : BitVec n) {k : Nat} (hk : (k + 1) * 32 ≤ n) : lane 32 (roundPsM m x) k = iroundLaneM m 32 (lane 32 x k) := by
  unfold roundPsM iroundLaneM addL cvtfpL cvtepiLM fmulLM fsubLM
  dsimp only
  simp only [lane_map2 _ _ _ hk, lane_map1 _ _ hk, set1_lane _ hk]
theorem roundPd64M_lane (m : RMode) {n : Nat} (x : BitVec n) {k : Nat} (hk : (k + 1) * 64 ≤ n) : lane 64 (roundPd64M m x) k = iroundLaneM m 64 (lane 64 x k) := by
  unfold roundPd64M iroundLaneM addL cvtfpL cvtepiLM fmulLM fsubLM
  dsimp only
  simp only [lane_map2 _ _ _ hk, lane_map1 _ _ hk, set1_lane _ hk]
theorem roundPdM_lane (m : RMode) (v : VSz) (x : Vec v) {k : Nat} (hk : k < 4) :
    lane 32 (roundPdM m v x) k = if k < v.bits / 64 then iroundLaneM m 32 (lane 64 x k) else 0#32 := by
  have hk4 : (k + 1) * 32 ≤ 128 := by omega
  unfold roundPdM addL
  dsimp only
  rw [lane_map2 _ _ _ hk4, cvtpd_lane _ _ _ hk, cvtpd_lane _ _ _ hk]
  by_cases h : k < v.bits / 64
  · rw [if_pos h, if_pos h, if_pos h]
    have hk8 : (k + 1) * 64 ≤ v.bits := by cases v <;> simp [VSz.bits] at h ⊢ <;> omega
    unfold iroundLaneM fmulLM fsubLM cvtepi32PdM
    simp only [lane_map2 _ _ _ hk8, set1_lane _ hk8, lane_ofLanes _ hk8, cvtpd_lane _ _ _ hk, if_pos h]
  · rw [if_neg h, if_neg h, if_neg h]; rfl
theorem iroundM_runs {c ci : Cfg} (m : RMode) (L : Cmath c.w) (x : c.Data) : mIround m c ci L x = vectorizeI c ci (roundKM m c ci) x := both_ofUb _ _

/-- Both calls return; the elements of the results for elements of the argument meeting `P` are equal. -/
def SameInt (c ci : Cfg) (P : BitVec c.w → Prop) (x : c.Data) (o o' : Out ci.Data) : Prop :=
  ∃ r r', o = .ok r ∧ o' = .ok r' ∧ ∀ i, i < c.N → P (elt c x i) → elt ci r i = elt ci r' i
theorem SameInt.each {c ci : Cfg} {P Q : BitVec c.w → Prop} {x : c.Data} {o o' : Out ci.Data} {R : Int → Int → Int → Prop} (h : SameInt c ci P x o o')
    (hQ : ∀ a, Q a → P a) (he : EachInt c ci R Q x o') : EachInt c ci R Q x o := by
  obtain ⟨r, r', h1, h2, h3⟩ := h
  obtain ⟨r'', h4, h5⟩ := he
  have : r' = r'' := by rw [h2] at h4; exact Out.ok.inj h4
  subst this
  exact ⟨r, h1, fun i hi hq => by rw [h3 i hi (hQ _ hq)]; exact h5 i hi hq⟩

section int32
variable {c ci : Cfg} (hc : c.Ok) (hi : c.IntOf ci) (L : Cmath c.w) (m : RMode)
include hc hi
/-- C83, `ext::iround<int>` of floats: the same result in every direction (which for elements not halfway between two integers is the right one,
`C60_iround_float_partial`).  Partial: elements in the range of `int`; with AVX and 32-byte vectors AVX2 (otherwise the call does not compile). -/
theorem C83_iround_float_partial (h4 : c.T = .f32) (ha : c.v = .v256 → c.s.avx2 = true) (x : c.Data) :
    SameInt c ci Int32Range x (mIround m c ci L x) (vIround c ci L x) ∧
    EachInt c ci IsRoundAway (fun a => Int32Range a ∧ NoTie a) x (mIround m c ci L x) := by
  suffices hS : SameInt c ci Int32Range x (mIround m c ci L x) (vIround c ci L x) from
    ⟨hS, hS.each (fun _ h => h.1) (C60_iround_float_partial hc hi L h4 ha x)⟩
  rw [iroundM_runs, (irint_runs L x).2]
  have hw := fltW hc.ety (by rw [h4]; rfl)
  obtain ⟨s, T, N, v⟩ := c
  obtain ⟨s', T', N', v'⟩ := ci
  obtain ⟨h1, h2, h3, h5⟩ := hi
  dsimp only at h1 h2 h3 h4 h5 ha
  subst h1; subst h2; subst h3; subst h4
  have h5 : v' = v := by rcases h5 with h | ⟨h, _⟩; exact h; exact absurd h (by decide)
  subst h5
  have hn : ¬ (v' = .v256 ∧ s'.avx2 = false) := by
    rintro ⟨a, b⟩; rw [ha a] at b; cases b
  obtain ⟨r, h1, h2⟩ := int_float hc (fun y => roundPsM m y) (fun a => iroundLaneM m 32 a) (fun y k hk => roundPsM_lane m y hk) x
  obtain ⟨r', h1', h2'⟩ := int_float hc (fun y => roundPs y) (fun a => iroundLane 32 a) (fun y k hk => roundPs_lane y hk) x
  have e : roundKM m ⟨s', .f32, N', v'⟩ ⟨s', .i32, N', v'⟩ = some fun y d j => putVec (Cfg.dataSize ⟨s', .i32, N', v'⟩) d j (BitVec.setWidth v'.bits (roundPsM m y)) := by
    unfold roundKM
    exact (if_pos rfl).trans ((if_pos rfl).trans (if_neg hn))
  have e' : roundK ⟨s', .f32, N', v'⟩ ⟨s', .i32, N', v'⟩ = some fun y d j => putVec (Cfg.dataSize ⟨s', .i32, N', v'⟩) d j (BitVec.setWidth v'.bits (roundPs y)) := by
    unfold roundK
    exact (if_pos rfl).trans ((if_pos rfl).trans (if_neg hn))
  rw [e, e']
  refine ⟨r, r', h1, h1', fun i hi hp => ?_⟩
  rw [h2 i hi, h2' i hi]
  exact iroundLaneM_eq m (w := 32) (k := 32) hw (by omega) hp
theorem iroundM_pairs (h8 : c.T = .f64) (x : c.Data) : PairsUp c ci (fun a z => z = (iroundLaneM m 32 a).toInt) x (mIround m c ci L x) := by
  rw [iroundM_runs]
  have k2 : roundKM m c ci = some fun y => putI32 ci (roundPdM m c.v y) := by
    unfold roundKM; rw [hi.T, h8]; rfl
  rw [k2]
  have he : c.e = c.v.bits / 64 := by
    show extent c.T c.v = _; rw [h8]; exact extent8 _ _ _
  refine pairs_double hc h8 hi _ _ (fun y k hk => ?_) x
  rw [roundPdM_lane _ _ _ hk, he, show c.w = 64 by unfold Cfg.w; rw [h8]; rfl]
/-- C83, `ext::iround<int>` of doubles: the same result in every direction.  Partial: at most one native vector of elements, in the range of `int`. -/
theorem C83_iround_double_partial (h8 : c.T = .f64) (hN : c.N ≤ c.e) (x : c.Data) :
    SameInt c ci Int32Range x (mIround m c ci L x) (vIround c ci L x) ∧
    EachInt c ci IsRoundAway (fun a => Int32Range a ∧ NoTie a) x (mIround m c ci L x) := by
  suffices hS : SameInt c ci Int32Range x (mIround m c ci L x) (vIround c ci L x) from
    ⟨hS, hS.each (fun _ h => h.1) (C60_iround_double_partial hc hi L h8 hN x)⟩
  obtain ⟨r, h1, h2⟩ := iroundM_pairs hc hi L m h8 x
  obtain ⟨r', h1', h2'⟩ := (irint_pairs hc hi L h8 x).2
  refine ⟨r, r', h1, h1', fun i hi' hp => ?_⟩
  have hle := int_e_le h8 hi
  have a := (h2 i hi').1
  have b := (h2' i hi').1
  rw [Nat.mod_eq_of_lt (by omega), Nat.div_eq_of_lt (by omega), Nat.zero_mul, Nat.zero_add] at a b
  have a := a (by omega)
  have b := b (by omega)
  dsimp only at a b
  rw [iroundLaneM_eq m (k := 32) (fltW hc.ety (by rw [h8]; rfl)) (by omega) hp] at a
  exact BitVec.eq_of_toInt_eq (a.trans b.symm)
end int32

section int64
variable {c cl : Cfg} (hc : c.Ok) (hl : c.LongOf cl) (L : Cmath c.w) (m : RMode)
include hc hl
omit hc hl in
theorem widen256 (t : BitVec 128) {k : Nat} (hk : k < 4) :
    lane 64 (setHL (unpackhiEpi32 t (sraiL 32 t 31)) (unpackloEpi32 t (sraiL 32 t 31))) k = (lane 32 t k).signExtend 64 := by
  by_cases h : k < 2
  · rw [lane_setHL_lo _ _ (by omega), unpacklo_sext _ h]
  · rw [lane_setHL_hi (j := k - 2) _ _ (by omega), unpackhi_sext' _ (by omega), show 2 + (k - 2) = k by omega]
/-- C83, `ext::iround<int64_t>` of doubles: the same result in every direction.  Partial: 32-byte vectors or AVX-512 DQ and VL (otherwise the call
writes behind its result), elements in the range of `Round64Range`. -/
theorem C83_iround64_double_partial (h8 : c.T = .f64) (hd : c.v = .v256 ∨ c.s.dqvl = true) (x : c.Data) :
    SameInt c cl (Round64Range c.s) x (mIround m c cl L x) (vIround c cl L x) ∧
    EachInt c cl IsRoundAway (fun a => Round64Range c.s a ∧ NoTie a) x (mIround m c cl L x) := by
  suffices hS : SameInt c cl (Round64Range c.s) x (mIround m c cl L x) (vIround c cl L x) from
    ⟨hS, hS.each (fun _ h => h.1) (C60_iround64_double_partial hc hl L h8 hd x)⟩
  rw [iroundM_runs, (irint_runs L x).2]
  have hw := fltW hc.ety (by rw [h8]; rfl)
  obtain ⟨s, T, N, v⟩ := c
  obtain ⟨s', T', N', v'⟩ := cl
  obtain ⟨h1, h2, h3, h4⟩ := hl
  dsimp only at h1 h2 h3 h4 h8 hd
  subst h1; subst h2; subst h3; subst h8
  have h4 : v' = v := by rcases h4 with h | ⟨h, _⟩; exact h; exact absurd h (by decide)
  subst h4
  by_cases hq : s'.dqvl = true
  · have k : roundKM m ⟨s', .f64, N', v'⟩ ⟨s', .i64, N', v'⟩ = some fun y d j => putVec (Cfg.dataSize ⟨s', .i64, N', v'⟩) d j (BitVec.setWidth v'.bits (roundPd64M m y)) := by
      unfold roundKM
      exact (if_neg (show ¬ ((8 : Nat) = 4) by decide)).trans ((if_pos rfl).trans ((if_neg (show ¬ ((8 : Nat) = 4) by decide)).trans (if_pos hq)))
    have k' : roundK ⟨s', .f64, N', v'⟩ ⟨s', .i64, N', v'⟩ = some fun y d j => putVec (Cfg.dataSize ⟨s', .i64, N', v'⟩) d j (BitVec.setWidth v'.bits (roundPd64 y)) := by
      unfold roundK
      exact (if_neg (show ¬ ((8 : Nat) = 4) by decide)).trans ((if_pos rfl).trans ((if_neg (show ¬ ((8 : Nat) = 4) by decide)).trans (if_pos hq)))
    rw [k, k']
    refine ⟨_, _, vectorizeI_put1 (c := ⟨s', .f64, N', v'⟩) (ci := ⟨s', .i64, N', v'⟩) rfl (fun y => BitVec.setWidth v'.bits (roundPd64M m y)) x,
      vectorizeI_put1 (c := ⟨s', .f64, N', v'⟩) (ci := ⟨s', .i64, N', v'⟩) rfl (fun y => BitVec.setWidth v'.bits (roundPd64 y)) x, fun i hi hr => ?_⟩
    rw [eltI1 (c := ⟨s', .f64, N', v'⟩) (ci := ⟨s', .i64, N', v'⟩) (n := Cfg.dataSize ⟨s', .i64, N', v'⟩) hc rfl (fun y => BitVec.setWidth v'.bits (roundPd64M m y)) x _ rfl hi,
      eltI1 (c := ⟨s', .f64, N', v'⟩) (ci := ⟨s', .i64, N', v'⟩) (n := Cfg.dataSize ⟨s', .i64, N', v'⟩) hc rfl (fun y => BitVec.setWidth v'.bits (roundPd64 y)) x _ rfl hi,
      BitVec.setWidth_eq, BitVec.setWidth_eq]
    unfold Round64Range at hr
    rw [if_pos hq, if_pos hq] at hr
    have hbd : (i % Cfg.e ⟨s', .f64, N', v'⟩ + 1) * 64 ≤ v'.bits := lane_bound hc.ety (idx_mod hc i)
    exact (roundPd64M_lane m _ hbd).trans ((iroundLaneM_eq m (w := 64) (k := 64) hw (by omega) hr).trans (roundPd64_lane _ hbd).symm)
  · have hv : v' = .v256 := by rcases hd with h | h; exact h; exact absurd h hq
    subst hv
    have k : roundKM m ⟨s', .f64, N', .v256⟩ ⟨s', .i64, N', .v256⟩ = some fun y d j => putVec (Cfg.dataSize ⟨s', .i64, N', .v256⟩) d j
        (BitVec.setWidth 256 (setHL (unpackhiEpi32 (roundPdM m .v256 (BitVec.setWidth 256 y)) (sraiL 32 (roundPdM m .v256 (BitVec.setWidth 256 y)) 31))
          (unpackloEpi32 (roundPdM m .v256 (BitVec.setWidth 256 y)) (sraiL 32 (roundPdM m .v256 (BitVec.setWidth 256 y)) 31)))) := by
      unfold roundKM
      exact (if_neg (show ¬ ((8 : Nat) = 4) by decide)).trans ((if_pos rfl).trans ((if_neg (show ¬ ((8 : Nat) = 4) by decide)).trans (if_neg hq)))
    have k' : roundK ⟨s', .f64, N', .v256⟩ ⟨s', .i64, N', .v256⟩ = some fun y d j => putVec (Cfg.dataSize ⟨s', .i64, N', .v256⟩) d j
        (BitVec.setWidth 256 (setHL (unpackhiEpi32 (roundPd .v256 (BitVec.setWidth 256 y)) (sraiL 32 (roundPd .v256 (BitVec.setWidth 256 y)) 31))
          (unpackloEpi32 (roundPd .v256 (BitVec.setWidth 256 y)) (sraiL 32 (roundPd .v256 (BitVec.setWidth 256 y)) 31)))) := by
      unfold roundK
      exact (if_neg (show ¬ ((8 : Nat) = 4) by decide)).trans ((if_pos rfl).trans ((if_neg (show ¬ ((8 : Nat) = 4) by decide)).trans (if_neg hq)))
    rw [k, k']
    refine ⟨_, _, vectorizeI_put1 (c := ⟨s', .f64, N', .v256⟩) (ci := ⟨s', .i64, N', .v256⟩) rfl (fun y => BitVec.setWidth 256 (setHL (unpackhiEpi32 (roundPdM m .v256 (BitVec.setWidth 256 y)) (sraiL 32 (roundPdM m .v256 (BitVec.setWidth 256 y)) 31))
          (unpackloEpi32 (roundPdM m .v256 (BitVec.setWidth 256 y)) (sraiL 32 (roundPdM m .v256 (BitVec.setWidth 256 y)) 31)))) x,
      vectorizeI_put1 (c := ⟨s', .f64, N', .v256⟩) (ci := ⟨s', .i64, N', .v256⟩) rfl (fun y => BitVec.setWidth 256 (setHL (unpackhiEpi32 (roundPd .v256 (BitVec.setWidth 256 y)) (sraiL 32 (roundPd .v256 (BitVec.setWidth 256 y)) 31))
          (unpackloEpi32 (roundPd .v256 (BitVec.setWidth 256 y)) (sraiL 32 (roundPd .v256 (BitVec.setWidth 256 y)) 31)))) x, fun i hi hr => ?_⟩
    rw [eltI1 (c := ⟨s', .f64, N', .v256⟩) (ci := ⟨s', .i64, N', .v256⟩) (n := Cfg.dataSize ⟨s', .i64, N', .v256⟩) hc rfl (fun y => BitVec.setWidth 256 (setHL (unpackhiEpi32 (roundPdM m .v256 (BitVec.setWidth 256 y)) (sraiL 32 (roundPdM m .v256 (BitVec.setWidth 256 y)) 31))
          (unpackloEpi32 (roundPdM m .v256 (BitVec.setWidth 256 y)) (sraiL 32 (roundPdM m .v256 (BitVec.setWidth 256 y)) 31)))) x _ rfl hi,
      eltI1 (c := ⟨s', .f64, N', .v256⟩) (ci := ⟨s', .i64, N', .v256⟩) (n := Cfg.dataSize ⟨s', .i64, N', .v256⟩) hc rfl (fun y => BitVec.setWidth 256 (setHL (unpackhiEpi32 (roundPd .v256 (BitVec.setWidth 256 y)) (sraiL 32 (roundPd .v256 (BitVec.setWidth 256 y)) 31))
          (unpackloEpi32 (roundPd .v256 (BitVec.setWidth 256 y)) (sraiL 32 (roundPd .v256 (BitVec.setWidth 256 y)) 31)))) x _ rfl hi]
    unfold Round64Range at hr
    rw [if_neg hq, if_neg hq] at hr
    have hk : i % Cfg.e ⟨s', .f64, N', .v256⟩ < 4 := by
      have := idx_mod hc i
      rwa [show Cfg.e ⟨s', .f64, N', .v256⟩ = 4 from (by decide : extent .f64 .v256 = 4)] at this ⊢
    have h5 := iroundLaneM_eq m (w := 64) (k := 32) hw (by omega) hr
    simp only [BitVec.setWidth_eq]
    refine (widen256 _ hk).trans (Eq.trans ?_ (widen256 _ hk).symm)
    rw [roundPdM_lane _ _ _ hk, roundPd_lane _ _ hk, if_pos (by exact hk), if_pos (by exact hk)]
    exact congrArg (BitVec.signExtend 64) h5
end int64

/-! ### The hypotheses can be met -/
/-- any six floats with SSE2, any four doubles with AVX, in every direction; `2.75` is in the range and rounded to 3 -/
example (m : RMode) (x : exF32.Data) (y : exF64.Data) :
    SameInt exF32 exF32i Int32Range x (mIround m exF32 exF32i (exLib 32) x) (vIround exF32 exF32i (exLib 32) x) ∧
    SameInt exF64 exF64i Int32Range y (mIround m exF64 exF64i (exLib 64) y) (vIround exF64 exF64i (exLib 64) y) ∧
    SameInt exF64 exF64l (Round64Range exF64.s) y (mIround m exF64 exF64l (exLib 64) y) (vIround exF64 exF64l (exLib 64) y) :=
  ⟨(C83_iround_float_partial exF32_ok exF32i_of _ m rfl (by decide) x).1, (C83_iround_double_partial exF64_ok exF64i_of _ m rfl (by decide) y).1,
    (C83_iround64_double_partial exF64_ok exF64l_of _ m rfl (Or.inl rfl) y).1⟩
example (m : RMode) : ∃ r, mIround m exF64 exF64l (exLib 64) (vbroadcast exF64 0x4006000000000000 (zeroData exF64)) = .ok r ∧
    ∀ i, i < 4 → IsRoundAway (11 * 2 ^ 1072) (2 ^ 1074) (elt exF64l r i).toInt := by
  obtain ⟨r, hr, h⟩ := int_bcast exF64_ok _ (C83_iround64_double_partial exF64_ok exF64l_of (exLib 64) m rfl (Or.inl rfl) (vbroadcast exF64 0x4006000000000000 (zeroData exF64))).2
    ⟨by unfold Round64Range; decide +kernel, fun k hk => by
      have e1 : 2 * val (0x4006000000000000 : BitVec exF64.w) = 22 * 2 ^ 1072 := by decide +kernel
      have e2 : ((2 ^ unitExp exF64.w : Nat) : Int) = 4 * 2 ^ 1072 := by decide +kernel
      rw [e1, e2, ← Int.mul_assoc] at hk
      have := Int.eq_of_mul_eq_mul_right (Int.pow_ne_zero (by decide)) hk
      omega⟩
  refine ⟨r, hr, fun i hi => ?_⟩
  have := h i hi
  rwa [show val (0x4006000000000000 : BitVec exF64.w) = 11 * 2 ^ 1072 by decide +kernel] at this
end Dpm.X86
