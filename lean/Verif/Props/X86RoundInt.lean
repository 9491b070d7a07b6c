import Verif.Proofs.RoundVec
import Verif.Props.X86Round
import Verif.Props.X86Cvt
import Verif.Props.X86Scalbn
import Verif.Props.Callable
/-
Property C60: rounding to vectors of integers on the x86 backend.
`IsRint`, `IsRoundAway`, `IsTrunc` (Spec/Ieee.lean) say which integer a real number is rounded to by `rint` (to nearest, ties to even),
`round` (to nearest, ties away from zero) and `trunc`.
-/
namespace Dpm.X86
open Dpm Dpm.Reg Dpm.Fp Dpm.Generic Dpm.GenericMath Dpm.Callable

/-- The call returns a vector of integers; every element meeting `P` is rounded to the integer the relation `R` asks for. -/
def EachInt (c ci : Cfg) (R : Int → Int → Int → Prop) (P : BitVec c.w → Prop) (x : c.Data) (o : Out ci.Data) : Prop :=
  ∃ r, o = .ok r ∧ ∀ i, i < c.N → P (elt c x i) → R (val (elt c x i)) (2 ^ unitExp c.w : Nat) (elt ci r i).toInt

theorem both_ofUb {α β : Type} (o : Option β) (r : Out α) : bothBranches (Out.ofUb o) r = r := by cases o <;> rfl
theorem toInt_ofInt_fit {k : Nat} (hk : 1 ≤ k) {z : Int} (h1 : -(2 ^ (k - 1) : Int) ≤ z) (h2 : z < 2 ^ (k - 1)) : (BitVec.ofInt k z).toInt = z := by
  rw [BitVec.toInt_ofInt]
  have e : ((2 ^ k : Nat) : Int) = 2 * 2 ^ (k - 1) := by
    obtain ⟨j, rfl⟩ : ∃ j, k = j + 1 := ⟨k - 1, by omega⟩
    push_cast
    rw [Int.pow_succ, Int.mul_comm]
  exact Int.bmod_eq_of_le (by omega) (by omega)
/-- `cvt*2dq`, `cvt*2qq` in range -/
theorem cvtInt_rint {w k : Nat} (hk : 1 ≤ k) {x : BitVec w} (hr : InRange (-(2 ^ (k - 1) : Int)) (2 ^ (k - 1) - 1) x) :
    IsRint (val x) (2 ^ unitExp w : Nat) (cvtInt k .nearest x).toInt := by
  have hb := rint_bounds (D_pos w) hr.2.1 hr.2.2 (toInt_rint x)
  rw [cvtInt_range hr (by omega) (by omega), toInt_ofInt_fit hk hb.1 (by omega)]
  exact toInt_rint x
/-- the range in which the library converts doubles to 64-bit integers: `±2^51` without AVX-512 DQ and VL -/
def Cvt64Range (s : ISA) {w : Nat} (x : BitVec w) : Prop :=
  InRange (if s.dqvl then -2 ^ 63 else -2 ^ 51) (if s.dqvl then 2 ^ 63 - 1 else 2 ^ 51) x
theorem cvtF64I64_rint (s : ISA) (v : VSz) (x : Vec v) {i : Nat} (hi : i < extent .f64 v) (hr : Cvt64Range s (lane 64 x i)) :
    IsRint (val (lane 64 x i)) (2 ^ unitExp 64 : Nat) (lane 64 (cvtF64I64 s v x) i).toInt := by
  obtain ⟨g, hg, hg2⟩ := cvtF_lane s v .i64 .f64 rfl rfl rfl (Or.inr rfl) (by decide)
  have e : g x = cvtF64I64 s v x := by
    have h1 := hg x
    unfold nativeVecCast cvtV at h1
    simp [Ety.f64, Ety.i64] at h1
    exact h1.symm
  obtain ⟨r, h1, h2⟩ := hg2 x i hi hr
  rw [e] at h2
  have hb := rint_bounds (D_pos 64) hr.2.1 hr.2.2 h1
  have h3 : (lane 64 (cvtF64I64 s v x) i).toInt = r := by
    refine (congrArg BitVec.toInt h2).trans (toInt_ofInt_fit (k := 64) (by omega) ?_ ?_)
    · refine Int.le_trans ?_ hb.1; split <;> decide
    · refine Int.lt_of_le_of_lt hb.2 ?_; split <;> decide
  rw [h3]; exact h1

theorem eltI1 {c ci : Cfg} (hc : c.Ok) (he : ci.e = c.e) (g : Vec c.v → Vec ci.v) (x : c.Data) (z : ci.Data) {n : Nat} (hn : n = c.dataSize) {i : Nat} (hi : i < c.N) :
    elt ci (fun j => if j < n then g (x j) else z j) i = lane ci.w (g (x (i / c.e))) (i % c.e) := by
  have h := idx_lt hc hi
  unfold elt
  dsimp only
  rw [he, if_pos (by omega)]

/-- more than half of the last native vector of the argument is in use -/
def FillsLast (c : Cfg) : Prop := c.N % c.e = 0 ∨ c.e / 2 < c.N % c.e
theorem ceil_halves {n m : Nat} (hm : 0 < m) : 2 * ceilDiv n (2 * m) ≤ ceilDiv n m ↔ n % (2 * m) = 0 ∨ m < n % (2 * m) := by
  have h1 := Nat.div_add_mod n (2 * m)
  have h2 := Nat.mod_lt n (show 0 < 2 * m by omega)
  unfold ceilDiv
  generalize n / (2 * m) = q at *
  generalize hr : n % (2 * m) = r at *
  have hn : n = r + m * (2 * q) := by rw [← h1]; grind
  have d1 : n / m = r / m + 2 * q := by rw [hn, Nat.add_mul_div_left _ _ hm]
  have d2 : n % m = r % m := by rw [hn, Nat.add_mul_mod_self_left]
  rw [d1, d2]
  by_cases hrm : r < m
  · rw [Nat.div_eq_of_lt hrm, Nat.mod_eq_of_lt hrm]
    split <;> omega
  · have e1 : r / m = 1 := by rw [Nat.div_eq_iff hm]; omega
    have e2 : r % m = r - m := by rw [Nat.mod_eq_sub_mod (by omega), Nat.mod_eq_of_lt (by omega)]
    rw [e1, e2]
    split <;> split <;> omega
theorem extent4 (v : VSz) : extent .f32 v = v.bits / 32 := by cases v <;> rfl
theorem extentL (v : VSz) : extent .i64 v = v.bits / 64 := by cases v <;> rfl
theorem ext_double (s : ISA) (N : Nat) (v : VSz) : Cfg.e ⟨s, .f32, N, v⟩ = 2 * Cfg.e ⟨s, .i64, N, v⟩ := by
  show extent .f32 v = 2 * extent .i64 v
  cases v <;> decide

theorem toInt_sext32 (y : BitVec 32) : (y.signExtend 64).toInt = y.toInt := BitVec.toInt_signExtend_of_le (by omega)

theorem away_of_rint {v D z : Int} (h : IsRint v D z) (hn : ∀ k : Int, 2 * v ≠ (2 * k + 1) * D) : IsRoundAway v D z := by
  have h1 := hn z
  have h2 := hn (z - 1)
  rw [show 2 * (z - 1) + 1 = 2 * z - 1 by omega] at h2
  obtain ⟨a, b, _⟩ := h
  exact ⟨fun _ => ⟨a, by omega⟩, fun _ => ⟨by omega, b⟩⟩
/-- `v / D` lies halfway between two integers and the even one is nearer to zero: then `z` is the even one, which is not the number rounded
away from zero -/
def EvenTie (v D z : Int) : Prop :=
  ∀ m : Int, (0 ≤ m ∧ 2 * v = (4 * m + 1) * D) ∨ (m ≤ 0 ∧ 2 * v = (4 * m - 1) * D) → z = 2 * m ∧ ¬ IsRoundAway v D z
theorem evenTie_of_rint {v D z : Int} (hD : 0 < D) (h : IsRint v D z) : EvenTie v D z := by
  intro m hm
  have hz : z = 2 * m := by
    refine isRint_unique hD h ?_
    rcases hm with ⟨h0, e⟩ | ⟨h0, e⟩
    · refine ⟨?_, ?_, fun _ => by omega⟩
      · rw [e]; exact Int.mul_le_mul_of_nonneg_right (by omega) (by omega)
      · rw [e]; exact Int.mul_le_mul_of_nonneg_right (by omega) (by omega)
    · refine ⟨?_, ?_, fun _ => by omega⟩
      · rw [e]; exact Int.mul_le_mul_of_nonneg_right (by omega) (by omega)
      · rw [e]; exact Int.mul_le_mul_of_nonneg_right (by omega) (by omega)
  refine ⟨hz, fun ha => ?_⟩
  subst hz
  rcases hm with ⟨h0, e⟩ | ⟨h0, e⟩
  · have : 0 ≤ (4 * m + 1) * D := Int.mul_nonneg (by omega) (by omega)
    have := (ha.1 (by omega)).2
    rw [e, show 2 * (2 * m) + 1 = 4 * m + 1 by omega] at this
    omega
  · have : 0 < (1 - 4 * m) * D := Int.mul_pos (by omega) hD
    have e1 : (4 * m - 1) * D = -((1 - 4 * m) * D) := by rw [← Int.neg_mul]; congr 1; omega
    have := (ha.2 (by omega)).1
    rw [e, show 2 * (2 * m) - 1 = 4 * m - 1 by omega] at this
    omega

section llrint
variable {c cl : Cfg} (hc : c.Ok) (hl : c.LongOf cl) (L : Cmath c.w)
include hc hl
theorem strided_double (h8 : c.T = .f64) (x : c.Data) : EachInt c cl IsRint (Cvt64Range c.s) x (strided c cl (rintK c cl) x) := by
  obtain ⟨s, T, N, v⟩ := c
  obtain ⟨s', T', N', v'⟩ := cl
  obtain ⟨h1, h2, h3, h4⟩ := hl
  dsimp only at h1 h2 h3 h4 h8
  subst h1; subst h2; subst h3; subst h8
  have h4 : v' = v := by rcases h4 with h | ⟨h, _⟩; exact h; exact absurd h (by decide)
  subst h4
  have e : strided ⟨s', .f64, N', v'⟩ ⟨s', .i64, N', v'⟩ (rintK ⟨s', .f64, N', v'⟩ ⟨s', .i64, N', v'⟩) x = _ :=
    strided_put1 (c := ⟨s', .f64, N', v'⟩) (ci := ⟨s', .i64, N', v'⟩) hc rfl rfl (fun y => BitVec.setWidth v'.bits (cvtF64I64 s' v' y)) x
  refine ⟨_, e, fun i hi hr => ?_⟩
  rw [eltI1 (ci := ⟨s', .i64, N', v'⟩) hc rfl (fun y => BitVec.setWidth v'.bits (cvtF64I64 s' v' y)) x _ rfl hi, BitVec.setWidth_eq]
  exact cvtF64I64_rint s' v' (x (i / Cfg.e ⟨s', .f64, N', v'⟩)) (idx_mod hc i) hr

omit hc hl in
/-- the elements of a result with two vectors per vector of the argument -/
theorem put2_elt {s : ISA} {N : Nat} {v : VSz} (hc : Cfg.Ok ⟨s, .f32, N, v⟩) (g0 g1 : Vec v → Vec v) (F : BitVec 32 → BitVec 64)
    (h0 : ∀ y k, k < v.bits / 64 → lane 64 (g0 y) k = F (lane 32 y k)) (h1 : ∀ y k, k < v.bits / 64 → lane 64 (g1 y) k = F (lane 32 y (v.bits / 64 + k)))
    (x : Cfg.Data ⟨s, .f32, N, v⟩) (z : Cfg.Data ⟨s, .i64, N, v⟩) {i : Nat} (hi : i < N) :
    elt ⟨s, .i64, N, v⟩ (fun j => if j < 2 * Cfg.dataSize ⟨s, .f32, N, v⟩ then
      (if j % 2 = 0 then BitVec.setWidth v.bits (g0 (x (j / 2))) else BitVec.setWidth v.bits (g1 (x (j / 2)))) else z j) i = F (elt ⟨s, .f32, N, v⟩ x i) := by
  have hd : i / Cfg.e ⟨s, .f32, N, v⟩ < Cfg.dataSize ⟨s, .f32, N, v⟩ := idx_lt hc hi
  have e1 : Cfg.e ⟨s, .i64, N, v⟩ = v.bits / 64 := extentL v
  have e2 : Cfg.e ⟨s, .f32, N, v⟩ = 2 * (v.bits / 64) := by rw [ext_double, e1]
  have hp : 0 < v.bits / 64 := by cases v <;> decide
  show lane 64 ((fun j => if j < 2 * Cfg.dataSize ⟨s, .f32, N, v⟩ then
      (if j % 2 = 0 then BitVec.setWidth v.bits (g0 (x (j / 2))) else BitVec.setWidth v.bits (g1 (x (j / 2)))) else z j) (i / Cfg.e ⟨s, .i64, N, v⟩)) (i % Cfg.e ⟨s, .i64, N, v⟩)
    = F (lane 32 (x (i / Cfg.e ⟨s, .f32, N, v⟩)) (i % Cfg.e ⟨s, .f32, N, v⟩))
  dsimp only
  rw [e2] at hd ⊢
  rw [e1]
  generalize v.bits / 64 = m at *
  have hq : i / (2 * m) = i / m / 2 := by rw [Nat.mul_comm, Nat.div_div_eq_div_mul]
  have hk : i % m < m := Nat.mod_lt _ hp
  have hr : i % (2 * m) = m * (i / m % 2) + i % m := by rw [Nat.mul_comm 2 m, Nat.mod_mul]; omega
  rw [hq] at hd ⊢
  rw [hr]
  generalize i / m = j at *
  rw [if_pos (by omega)]
  by_cases h2 : j % 2 = 0
  · rw [if_pos h2, BitVec.setWidth_eq, h0 _ _ hk, h2, Nat.mul_zero, Nat.zero_add]
  · rw [if_neg h2, BitVec.setWidth_eq, h1 _ _ hk, show j % 2 = 1 by omega, Nat.mul_one]

/-- the elements a conversion of floats can represent: 32-bit integers, but 64-bit ones on 16-byte vectors with AVX-512 DQ and VL -/
def Cvt32Range (s : ISA) (v : VSz) {w : Nat} (x : BitVec w) : Prop :=
  if v = .v128 ∧ s.dqvl = true then InRange (-2 ^ 63) (2 ^ 63 - 1) x else InRange (-2 ^ 31) (2 ^ 31 - 1) x
theorem strided_float (h4 : c.T = .f32) (hv : cl.v = c.v) (ha : c.v = .v256 → c.s.avx2 = true) (hN : FillsLast c) (x : c.Data) :
    EachInt c cl IsRint (Cvt32Range c.s c.v) x (strided c cl (rintK c cl) x) := by
  obtain ⟨s, T, N, v⟩ := c
  obtain ⟨s', T', N', v'⟩ := cl
  obtain ⟨h1, h2, h3, -⟩ := hl
  dsimp only at h1 h2 h3 h4 hv ha
  subst h1; subst h2; subst h3; subst h4; subst hv
  have hp : 0 < Cfg.e ⟨s', .i64, N', v'⟩ := by show 0 < extent .i64 v'; cases v' <;> decide
  have hd : 2 * Cfg.dataSize ⟨s', .f32, N', v'⟩ ≤ Cfg.dataSize ⟨s', .i64, N', v'⟩ := by
    unfold FillsLast at hN
    rw [dataSize_eq, dataSize_eq, ext_double]
    rw [ext_double] at hN
    refine (ceil_halves hp).2 ?_
    rw [Nat.mul_div_cancel_left _ (by omega : 0 < 2)] at hN
    exact hN
  have hnl : ¬ (v' = .v256 ∧ s'.avx2 = false) := by
    rintro ⟨a, b⟩; rw [ha a] at b; cases b
  by_cases hq : v' = .v128 ∧ s'.dqvl = true
  · have e : rintK ⟨s', .f32, N', v'⟩ ⟨s', .i64, N', v'⟩ = some fun y => put2 ⟨s', .f32, N', v'⟩ ⟨s', .i64, N', v'⟩
        (ofLanes v'.bits 64 (fun k => cvtInt 64 .nearest (lane 32 y k))) (ofLanes v'.bits 64 (fun k => cvtInt 64 .nearest (lane 32 y (2 + k)))) := by
      unfold rintK
      exact (if_neg (show ¬ ((8 : Nat) = 4) by decide)).trans ((if_pos rfl).trans ((if_pos rfl).trans ((if_neg (fun h => h rfl)).trans ((if_neg hnl).trans (if_pos hq)))))
    rw [e]
    refine ⟨_, strided_put2 (c := ⟨s', .f32, N', v'⟩) (ci := ⟨s', .i64, N', v'⟩) hc (ext_double _ _ _) hp _ _ x hd, fun i hi hr => ?_⟩
    rw [put2_elt hc (fun y => ofLanes v'.bits 64 (fun k => cvtInt 64 .nearest (lane 32 y k))) (fun y => ofLanes v'.bits 64 (fun k => cvtInt 64 .nearest (lane 32 y (2 + k))))
      (fun a => cvtInt 64 .nearest a) ?_ ?_ x _ hi]
    · unfold Cvt32Range at hr
      rw [if_pos hq] at hr
      exact cvtInt_rint (k := 64) (by omega) hr
    · intro y k hk
      exact lane_ofLanes _ (by omega)
    · intro y k hk
      have e2 : v'.bits / 64 = 2 := by rw [hq.1]; rfl
      rw [e2]
      exact lane_ofLanes _ (by omega)
  · have e : rintK ⟨s', .f32, N', v'⟩ ⟨s', .i64, N', v'⟩ = some fun y => put2 ⟨s', .f32, N', v'⟩ ⟨s', .i64, N', v'⟩
        (widenLo v' (cvtfpL 32 .nearest y) (sraiL 32 (cvtfpL 32 .nearest y) 31)) (widenHi v' (cvtfpL 32 .nearest y) (sraiL 32 (cvtfpL 32 .nearest y) 31)) := by
      unfold rintK
      exact (if_neg (show ¬ ((8 : Nat) = 4) by decide)).trans ((if_pos rfl).trans ((if_pos rfl).trans ((if_neg (fun h => h rfl)).trans ((if_neg hnl).trans (if_neg hq)))))
    rw [e]
    refine ⟨_, strided_put2 (c := ⟨s', .f32, N', v'⟩) (ci := ⟨s', .i64, N', v'⟩) hc (ext_double _ _ _) hp _ _ x hd, fun i hi hr => ?_⟩
    have hl32 : ∀ (y : Vec v') k, k < v'.bits / 32 → lane 32 (cvtfpL 32 .nearest y) k = cvtInt 32 .nearest (lane 32 y k) :=
      fun y k hk => lane_map1 (w := 32) (fun a => cvtInt 32 .nearest a) y (by cases v' <;> simp [VSz.bits] at hk ⊢ <;> omega)
    have hb : v'.bits / 64 + v'.bits / 64 = v'.bits / 32 := by cases v' <;> rfl
    rw [put2_elt hc (fun y => widenLo v' (cvtfpL 32 .nearest y) (sraiL 32 (cvtfpL 32 .nearest y) 31)) (fun y => widenHi v' (cvtfpL 32 .nearest y) (sraiL 32 (cvtfpL 32 .nearest y) 31))
      (fun a => (cvtInt 32 .nearest a).signExtend 64) ?_ ?_ x _ hi]
    · unfold Cvt32Range at hr
      rw [if_neg hq] at hr
      have e3 := toInt_sext32 (cvtInt 32 .nearest (elt ⟨s', .f32, N', v'⟩ x i))
      have e4 := cvtInt_rint (k := 32) (by omega) hr
      rw [← e3] at e4
      exact e4
    · intro y k hk
      refine (widenLo_lane v' _ hk).trans ?_
      rw [hl32 _ _ (by omega)]
    · intro y k hk
      refine (widenHi_lane v' _ hk).trans ?_
      rw [hl32 _ _ (by omega)]

omit hc hl in
theorem llrint_runs (x : c.Data) : vLlrint c cl L x = strided c cl (rintK c cl) x ∧ vLround c cl L x = strided c cl (rintK c cl) x ∧
    vLlround c cl L x = strided c cl (rintK c cl) x := ⟨both_ofUb _ _, both_ofUb _ _, both_ofUb _ _⟩

/-- C60, `llrint` of doubles: to nearest, ties to even.  Partial: without AVX-512 DQ and VL only elements within `±2^51`. -/
theorem C60_llrint_double_partial (h8 : c.T = .f64) (x : c.Data) : EachInt c cl IsRint (Cvt64Range c.s) x (vLlrint c cl L x) := by
  rw [(llrint_runs L x).1]; exact strided_double hc hl h8 x
/-- C60, `llrint` of floats.  Partial: vectors of the native size of the result, AVX2 for 32-byte vectors, sizes that use more than half of the
last native vector, and elements in the range of `int32_t` (of `int64_t` on 16-byte vectors with AVX-512 DQ and VL). -/
theorem C60_llrint_float_partial (h4 : c.T = .f32) (hv : cl.v = c.v) (ha : c.v = .v256 → c.s.avx2 = true) (hN : FillsLast c) (x : c.Data) :
    EachInt c cl IsRint (Cvt32Range c.s c.v) x (vLlrint c cl L x) := by
  rw [(llrint_runs L x).1]; exact strided_float hc hl h4 hv ha hN x
/-- C60 (violated): when at most half of the last native vector is in use, `llrint`, `lround` and `llround` of floats write behind their
result, whatever the argument. -/
theorem C60_float_out_of_bounds_violated (h4 : c.T = .f32) (hv : cl.v = c.v) (ha : c.v = .v256 → c.s.avx2 = true) (hN : ¬ FillsLast c) (x : c.Data) :
    vLlrint c cl L x = .ub ∧ vLround c cl L x = .ub ∧ vLlround c cl L x = .ub := by
  obtain ⟨r1, r2, r3⟩ := llrint_runs (cl := cl) L x
  rw [r1, r2, r3]
  suffices h : strided c cl (rintK c cl) x = .ub from ⟨h, h, h⟩
  obtain ⟨s, T, N, v⟩ := c
  obtain ⟨s', T', N', v'⟩ := cl
  obtain ⟨h1, h2, h3, -⟩ := hl
  dsimp only at h1 h2 h3 h4 hv ha
  subst h1; subst h2; subst h3; subst h4; subst hv
  have hp : 0 < Cfg.e ⟨s', .i64, N', v'⟩ := by show 0 < extent .i64 v'; cases v' <;> decide
  have hd : Cfg.dataSize ⟨s', .i64, N', v'⟩ < 2 * Cfg.dataSize ⟨s', .f32, N', v'⟩ := by
    unfold FillsLast at hN
    rw [dataSize_eq, dataSize_eq, ext_double]
    rw [ext_double] at hN
    refine Nat.lt_of_not_le (fun h => hN ?_)
    rw [Nat.mul_div_cancel_left _ (by omega : 0 < 2)]
    exact (ceil_halves hp).1 h
  have hnl : ¬ (v' = .v256 ∧ s'.avx2 = false) := by
    rintro ⟨a, b⟩; rw [ha a] at b; cases b
  by_cases hq : v' = .v128 ∧ s'.dqvl = true
  · have e : rintK ⟨s', .f32, N', v'⟩ ⟨s', .i64, N', v'⟩ = some fun y => put2 ⟨s', .f32, N', v'⟩ ⟨s', .i64, N', v'⟩
        (ofLanes v'.bits 64 (fun k => cvtInt 64 .nearest (lane 32 y k))) (ofLanes v'.bits 64 (fun k => cvtInt 64 .nearest (lane 32 y (2 + k)))) := by
      unfold rintK
      exact (if_neg (show ¬ ((8 : Nat) = 4) by decide)).trans ((if_pos rfl).trans ((if_pos rfl).trans ((if_neg (fun h => h rfl)).trans ((if_neg hnl).trans (if_pos hq)))))
    rw [e]
    exact strided_put2_ub (c := ⟨s', .f32, N', v'⟩) (ci := ⟨s', .i64, N', v'⟩) hc (ext_double _ _ _) hp _ _ x hd
  · have e : rintK ⟨s', .f32, N', v'⟩ ⟨s', .i64, N', v'⟩ = some fun y => put2 ⟨s', .f32, N', v'⟩ ⟨s', .i64, N', v'⟩
        (widenLo v' (cvtfpL 32 .nearest y) (sraiL 32 (cvtfpL 32 .nearest y) 31)) (widenHi v' (cvtfpL 32 .nearest y) (sraiL 32 (cvtfpL 32 .nearest y) 31)) := by
      unfold rintK
      exact (if_neg (show ¬ ((8 : Nat) = 4) by decide)).trans ((if_pos rfl).trans ((if_pos rfl).trans ((if_neg (fun h => h rfl)).trans ((if_neg hnl).trans (if_neg hq)))))
    rw [e]
    exact strided_put2_ub (c := ⟨s', .f32, N', v'⟩) (ci := ⟨s', .i64, N', v'⟩) hc (ext_double _ _ _) hp _ _ x hd
omit hc in
/-- C60 (violated): the same calls do not compile for 3 or 4 floats with AVX and the default alignment (the result takes a 32-byte vector, the
argument a 16-byte one), nor for 32-byte vectors of floats without AVX2. -/
theorem C60_float_mismatch_violated (h4 : c.T = .f32) (hv : cl.v ≠ c.v ∨ (c.v = .v256 ∧ c.s.avx2 = false)) :
    NeverCompiles (vLlrint c cl L) ∧ NeverCompiles (vLround c cl L) ∧ NeverCompiles (vLlround c cl L) := by
  suffices h : ∀ x, strided c cl (rintK c cl) x = .illFormed from
    ⟨fun x => (llrint_runs L x).1.trans (h x), fun x => (llrint_runs L x).2.1.trans (h x), fun x => (llrint_runs L x).2.2.trans (h x)⟩
  intro x
  have e : rintK c cl = none := by
    unfold rintK
    rw [hl.T, h4]
    refine (if_neg (show ¬ ((8 : Nat) = 4) by decide)).trans ((if_pos rfl).trans ((if_pos rfl).trans ?_))
    by_cases hm : c.v = cl.v
    · rw [if_neg (by simp [hm]), if_pos]
      rcases hv with h | h
      · exact absurd hm.symm h
      · exact h
    · rw [if_pos hm]
  rw [e]; rfl
omit hc hl in
/-- C60 (violated): `lrint` does not compile for any vector, although the same loop would run. -/
theorem C60_lrint_violated : NeverCompiles (vLrint c cl L) := fun _ => rfl

/-- C60, `lround` and `llround` of doubles.  Partial: elements that are not halfway between two integers (and in the range above). -/
theorem C60_lround_partial (h8 : c.T = .f64) (x : c.Data) :
    EachInt c cl IsRoundAway (fun v => Cvt64Range c.s v ∧ ∀ k : Int, 2 * val v ≠ (2 * k + 1) * (2 ^ unitExp c.w : Nat)) x (vLround c cl L x) ∧
    EachInt c cl IsRoundAway (fun v => Cvt64Range c.s v ∧ ∀ k : Int, 2 * val v ≠ (2 * k + 1) * (2 ^ unitExp c.w : Nat)) x (vLlround c cl L x) := by
  rw [(llrint_runs L x).2.1, (llrint_runs L x).2.2]
  suffices h : EachInt c cl IsRoundAway (fun v => Cvt64Range c.s v ∧ ∀ k : Int, 2 * val v ≠ (2 * k + 1) * (2 ^ unitExp c.w : Nat)) x (strided c cl (rintK c cl) x) from ⟨h, h⟩
  obtain ⟨r, h1, h2⟩ := strided_double hc hl h8 x
  exact ⟨r, h1, fun i hi hp => away_of_rint (h2 i hi hp.1) hp.2⟩
/-- C60 (violated): `lround` and `llround` of doubles round halfway cases to the even neighbour, as `rint` does: `0.5` becomes `0`, `2.5` becomes
`2`, `-4.5` becomes `-4`. -/
theorem C60_lround_tie_violated (h8 : c.T = .f64) (x : c.Data) :
    EachInt c cl EvenTie (Cvt64Range c.s) x (vLround c cl L x) ∧ EachInt c cl EvenTie (Cvt64Range c.s) x (vLlround c cl L x) := by
  rw [(llrint_runs L x).2.1, (llrint_runs L x).2.2]
  suffices h : EachInt c cl EvenTie (Cvt64Range c.s) x (strided c cl (rintK c cl) x) from ⟨h, h⟩
  obtain ⟨r, h1, h2⟩ := strided_double hc hl h8 x
  exact ⟨r, h1, fun i hi hp => evenTie_of_rint (D_pos _) (h2 i hi hp)⟩
end llrint

/-! ### `ext::irint<I>`, `ext::iround<I>`, `ext::itrunc<I>` -/
theorem irint_runs {c ci : Cfg} (L : Cmath c.w) (x : c.Data) : vIrint c ci L x = vectorizeI c ci (rintK c ci) x ∧ vIround c ci L x = vectorizeI c ci (roundK c ci) x :=
  ⟨both_ofUb _ _, both_ofUb _ _⟩
theorem roundPs_lane {n : Nat} (x : BitVec n) {k : Nat} (hk : (k + 1) * 32 ≤ n) : lane 32 (roundPs x) k = iroundLane 32 (lane 32 x k) := by
  unfold roundPs iroundLane addL cvtfpL cvtepiL fmulL fsubL
  dsimp only
  simp only [lane_map2 _ _ _ hk, lane_map1 _ _ hk, set1_lane _ hk]
theorem roundPd64_lane {n : Nat} (x : BitVec n) {k : Nat} (hk : (k + 1) * 64 ≤ n) : lane 64 (roundPd64 x) k = iroundLane 64 (lane 64 x k) := by
  unfold roundPd64 iroundLane addL cvtfpL cvtepiL fmulL fsubL
  dsimp only
  simp only [lane_map2 _ _ _ hk, lane_map1 _ _ hk, set1_lane _ hk]
theorem roundPd_lane (v : VSz) (x : Vec v) {k : Nat} (hk : k < 4) :
    lane 32 (roundPd v x) k = if k < v.bits / 64 then iroundLane 32 (lane 64 x k) else 0#32 := by
  have hk4 : (k + 1) * 32 ≤ 128 := by omega
  unfold roundPd addL
  dsimp only
  rw [lane_map2 _ _ _ hk4, cvtpd_lane _ _ _ hk, cvtpd_lane _ _ _ hk]
  by_cases h : k < v.bits / 64
  · rw [if_pos h, if_pos h, if_pos h]
    have hk8 : (k + 1) * 64 ≤ v.bits := by cases v <;> simp [VSz.bits] at h ⊢ <;> omega
    unfold iroundLane fmulL fsubL cvtepi32Pd
    simp only [lane_map2 _ _ _ hk8, set1_lane _ hk8, lane_ofLanes _ hk8, cvtpd_lane _ _ _ hk, if_pos h]
  · rw [if_neg h, if_neg h, if_neg h]; rfl

theorem ceilDiv_mono {n a b : Nat} (ha : 0 < a) (h : a ≤ b) : ceilDiv n b ≤ ceilDiv n a := by
  refine Nat.le_of_not_lt (fun h2 => ?_)
  have h3 := (ceilDiv_spec (N := n) (e := b) (by omega) (ceilDiv n a)).2 h2
  have h4 : ¬ ceilDiv n a * a < n := fun h => Nat.lt_irrefl _ ((ceilDiv_spec ha (ceilDiv n a)).1 h)
  have := Nat.mul_le_mul_left (ceilDiv n a) h
  omega
/-- The loop over the vectors of the result, for doubles to 4-byte integers: `F` of the elements of the argument, but those of the vector with
the same *vector* index, followed by zeros. -/
def PairsUp (c ci : Cfg) (F : BitVec c.w → Int → Prop) (x : c.Data) (o : Out ci.Data) : Prop :=
  ∃ r, o = .ok r ∧ ∀ i, i < c.N →
    (i % ci.e < c.e → F (elt c x (i / ci.e * c.e + i % ci.e)) (elt ci r i).toInt) ∧ (c.e ≤ i % ci.e → (elt ci r i).toInt = 0)
theorem pairs_double {c ci : Cfg} (hc : c.Ok) (h8 : c.T = .f64) (hi : c.IntOf ci) (g : Vec c.v → BitVec 128) (F : BitVec c.w → BitVec 32)
    (hg : ∀ y k, k < 4 → lane 32 (g y) k = if k < c.e then F (lane c.w y k) else 0#32) (x : c.Data) :
    PairsUp c ci (fun a z => z = (F a).toInt) x (vectorizeI c ci (some fun y => putI32 ci (g y)) x) := by
  obtain ⟨s, T, N, v⟩ := c
  obtain ⟨s', T', N', v'⟩ := ci
  obtain ⟨h1, h2, h3, h4⟩ := hi
  dsimp only at h1 h2 h3 h4 h8
  subst h1; subst h2; subst h3; subst h8
  have e1 : Cfg.e ⟨s', .i32, N', v'⟩ = v'.bits / 32 := by show extent .i32 v' = _; cases v' <;> decide
  have e2 : Cfg.e ⟨s', .f64, N', v⟩ = v.bits / 64 := by show extent .f64 v = _; cases v <;> decide
  have hvv : v.bits / 64 ≤ v'.bits / 32 := by
    rcases h4 with h | ⟨-, h, h', -⟩
    · subst h; cases v' <;> decide
    · subst h; subst h'; decide
  have hp : 0 < v.bits / 64 := by cases v <;> decide
  have hd : Cfg.dataSize ⟨s', .i32, N', v'⟩ ≤ Cfg.dataSize ⟨s', .f64, N', v⟩ := by
    rw [dataSize_eq, dataSize_eq, e1, e2]
    exact ceilDiv_mono hp hvv
  refine ⟨_, vectorizeI_put32 (c := ⟨s', .f64, N', v⟩) (ci := ⟨s', .i32, N', v'⟩) hd g x, fun i hi => ?_⟩
  have hpi : 0 < v'.bits / 32 := by omega
  have hds : i / (v'.bits / 32) < Cfg.dataSize ⟨s', .i32, N', v'⟩ := by
    rw [dataSize_eq, e1]
    refine (ceilDiv_spec hpi _).1 ?_
    exact Nat.lt_of_le_of_lt (Nat.div_mul_le_self i _) hi
  have hm : i % (v'.bits / 32) < v'.bits / 32 := Nat.mod_lt _ hpi
  have key : elt ⟨s', .i32, N', v'⟩ (fun j => if j < Cfg.dataSize ⟨s', .i32, N', v'⟩ then BitVec.setWidth v'.bits (g (x j)) else zeroData ⟨s', .i32, N', v'⟩ j) i
      = if i % (v'.bits / 32) < v.bits / 64 then F (lane 64 (x (i / (v'.bits / 32))) (i % (v'.bits / 32))) else 0#32 := by
    show lane 32 ((fun j => if j < Cfg.dataSize ⟨s', .i32, N', v'⟩ then BitVec.setWidth v'.bits (g (x j)) else zeroData ⟨s', .i32, N', v'⟩ j) (i / Cfg.e ⟨s', .i32, N', v'⟩)) (i % Cfg.e ⟨s', .i32, N', v'⟩) = _
    dsimp only
    rw [e1, if_pos hds]
    by_cases h : i % (v'.bits / 32) < 4
    · rw [lane_setWidth_lt _ (by omega), hg _ _ h, e2]; rfl
    · have h4 : v.bits / 64 ≤ 4 := by cases v <;> decide
      rw [lane_setWidth_ge _ (by omega), if_neg (by omega)]
  rw [key]
  dsimp only
  rw [e1, e2]
  constructor
  · intro h
    rw [if_pos h]
    show (F _).toInt = (F (lane 64 (x ((i / (v'.bits / 32) * (v.bits / 64) + i % (v'.bits / 32)) / Cfg.e ⟨s', .f64, N', v⟩)) ((i / (v'.bits / 32) * (v.bits / 64) + i % (v'.bits / 32)) % Cfg.e ⟨s', .f64, N', v⟩))).toInt
    rw [e2, Nat.mul_comm (i / (v'.bits / 32)), Nat.mul_add_div hp, Nat.div_eq_of_lt h, Nat.add_zero, Nat.mul_add_mod, Nat.mod_eq_of_lt h]
  · intro h
    rw [if_neg (by omega)]; rfl
/-- one native vector -/
theorem pairs_one {c ci : Cfg} {R : Int → Int → Int → Prop} {P : BitVec c.w → Prop} {F : BitVec c.w → Int → Prop} {x : c.Data} {o : Out ci.Data}
    (h : PairsUp c ci F x o) (hN : c.N ≤ c.e) (hle : c.e ≤ ci.e) (hR : ∀ a z, P a → F a z → R (val a) (2 ^ unitExp c.w : Nat) z) : EachInt c ci R P x o := by
  obtain ⟨r, h1, h2⟩ := h
  refine ⟨r, h1, fun i hi hp => ?_⟩
  have h3 := (h2 i hi).1
  rw [Nat.mod_eq_of_lt (by omega), Nat.div_eq_of_lt (by omega), Nat.zero_mul, Nat.zero_add] at h3
  exact hR _ _ hp (h3 (by omega))
theorem int_e_le {c ci : Cfg} (h8 : c.T = .f64) (hi : c.IntOf ci) : c.e ≤ ci.e := by
  obtain ⟨s, T, N, v⟩ := c
  obtain ⟨s', T', N', v'⟩ := ci
  obtain ⟨h1, h2, h3, h4⟩ := hi
  dsimp only at h1 h2 h3 h4 h8
  subst h1; subst h2; subst h3; subst h8
  show extent .f64 v ≤ extent .i32 v'
  rcases h4 with h | ⟨-, h, h', -⟩
  · subst h; cases v' <;> decide
  · subst h; subst h'; decide

/-- `v / D` lies halfway between two integers: then `z` is the one nearer to zero, not the one `round` asks for -/
def TowardTie (v D z : Int) : Prop := ∀ k : Int, 2 * v = (2 * k + 1) * D → IsTrunc v D z ∧ ¬ IsRoundAway v D z
theorem towardTie_of {v : Int} {D : Nat} {z : Int} (hD : 0 < D) (h : IsRoundToward v D z) : TowardTie v D z :=
  fun _ hk => tie_trunc hD (tie_of_odd hD hk) h
abbrev Int32Range {w : Nat} (x : BitVec w) : Prop := InRange (-2 ^ 31) (2 ^ 31 - 1) x
/-- not halfway between two integers -/
def NoTie {w : Nat} (x : BitVec w) : Prop := ∀ k : Int, 2 * val x ≠ (2 * k + 1) * (2 ^ unitExp w : Nat)

section int32
variable {c ci : Cfg} (hc : c.Ok) (hi : c.IntOf ci) (L : Cmath c.w)
include hc hi
omit hc hi in
theorem int_float {s : ISA} {N : Nat} {v : VSz} (hc : Cfg.Ok ⟨s, .f32, N, v⟩) (g : Vec v → Vec v) (F : BitVec 32 → BitVec 32)
    (hg : ∀ y k, (k + 1) * 32 ≤ v.bits → lane 32 (g y) k = F (lane 32 y k)) (x : Cfg.Data ⟨s, .f32, N, v⟩) :
    ∃ r, vectorizeI ⟨s, .f32, N, v⟩ ⟨s, .i32, N, v⟩ (some fun y d j => putVec (Cfg.dataSize ⟨s, .i32, N, v⟩) d j (BitVec.setWidth v.bits (g y))) x = .ok r ∧
      ∀ i, i < N → elt ⟨s, .i32, N, v⟩ r i = F (elt ⟨s, .f32, N, v⟩ x i) := by
  refine ⟨_, vectorizeI_put1 (c := ⟨s, .f32, N, v⟩) (ci := ⟨s, .i32, N, v⟩) rfl (fun y => BitVec.setWidth v.bits (g y)) x, fun i hi => ?_⟩
  refine (eltI1 (c := ⟨s, .f32, N, v⟩) (ci := ⟨s, .i32, N, v⟩) hc rfl (fun y => BitVec.setWidth v.bits (g y)) x (zeroData _) (n := Cfg.dataSize ⟨s, .i32, N, v⟩) rfl hi).trans ?_
  rw [BitVec.setWidth_eq]
  exact hg _ _ (lane_bound hc.ety (idx_mod hc i))
/-- C60, `ext::irint<int>` of floats: to nearest, ties to even, for all elements in the range of `int` -/
theorem C60_irint_float (h4 : c.T = .f32) (x : c.Data) : EachInt c ci IsRint Int32Range x (vIrint c ci L x) := by
  rw [(irint_runs L x).1]
  obtain ⟨s, T, N, v⟩ := c
  obtain ⟨s', T', N', v'⟩ := ci
  obtain ⟨h1, h2, h3, h5⟩ := hi
  dsimp only at h1 h2 h3 h4 h5
  subst h1; subst h2; subst h3; subst h4
  have h5 : v' = v := by rcases h5 with h | ⟨h, _⟩; exact h; exact absurd h (by decide)
  subst h5
  obtain ⟨r, h1, h2⟩ := int_float hc (fun y => cvtfpL 32 .nearest y) (fun a => cvtInt 32 .nearest a) (fun y k hk => lane_map1 _ _ hk) x
  refine ⟨r, h1, fun i hi hp => ?_⟩
  rw [h2 i hi]
  exact cvtInt_rint (k := 32) (by omega) hp
theorem iround_float_toward (h4 : c.T = .f32) (ha : c.v = .v256 → c.s.avx2 = true) (x : c.Data) : EachInt c ci IsRoundToward Int32Range x (vIround c ci L x) := by
  rw [(irint_runs L x).2]
  have hw := fltW hc.ety (by rw [h4]; rfl)
  obtain ⟨s, T, N, v⟩ := c
  obtain ⟨s', T', N', v'⟩ := ci
  obtain ⟨h1, h2, h3, h5⟩ := hi
  dsimp only at h1 h2 h3 h4 h5 ha
  subst h1; subst h2; subst h3; subst h4
  have h5 : v' = v := by rcases h5 with h | ⟨h, _⟩; exact h; exact absurd h (by decide)
  subst h5
  obtain ⟨r, h1, h2⟩ := int_float hc (fun y => roundPs y) (fun a => iroundLane 32 a) (fun y k hk => roundPs_lane y hk) x
  have e : roundK ⟨s', .f32, N', v'⟩ ⟨s', .i32, N', v'⟩ = some fun y d j => putVec (Cfg.dataSize ⟨s', .i32, N', v'⟩) d j (BitVec.setWidth v'.bits (roundPs y)) := by
    unfold roundK
    refine (if_pos rfl).trans ((if_pos rfl).trans (if_neg ?_))
    rintro ⟨a, b⟩
    have b' : s'.avx2 = false := b
    rw [ha a] at b'; cases b'
  rw [e]
  refine ⟨r, h1, fun i hi hp => ?_⟩
  rw [h2 i hi]
  exact iroundLane_toward (w := 32) (k := 32) hw (by omega) hp.1 hp.2.1 hp.2.2
/-- C60, `ext::iround<int>` of floats.  Partial: elements that are not halfway between two integers; with AVX and 32-byte vectors AVX2. -/
theorem C60_iround_float_partial (h4 : c.T = .f32) (ha : c.v = .v256 → c.s.avx2 = true) (x : c.Data) :
    EachInt c ci IsRoundAway (fun a => Int32Range a ∧ NoTie a) x (vIround c ci L x) := by
  obtain ⟨r, h1, h2⟩ := iround_float_toward hc hi L h4 ha x
  exact ⟨r, h1, fun i hi hp => away_of_toward (D_pos _) (h2 i hi hp.1) hp.2⟩
/-- C60 (violated): `ext::iround<int>` of floats rounds halfway cases toward zero: `0.5` becomes `0`, `-2.5` becomes `-2`. -/
theorem C60_iround_tie_violated (h4 : c.T = .f32) (ha : c.v = .v256 → c.s.avx2 = true) (x : c.Data) :
    EachInt c ci TowardTie Int32Range x (vIround c ci L x) := by
  obtain ⟨r, h1, h2⟩ := iround_float_toward hc hi L h4 ha x
  exact ⟨r, h1, fun i hi hp => towardTie_of (Nat.two_pow_pos _) (h2 i hi hp)⟩
omit hc in
/-- C60 (violated): on 32-byte vectors of floats without AVX2 `ext::iround<int>` does not compile. -/
theorem C60_iround_avx_violated (h4 : c.T = .f32) (hv : c.v = .v256) (ha : c.s.avx2 = false) : NeverCompiles (vIround c ci L) := by
  intro x
  rw [(irint_runs L x).2]
  have e : roundK c ci = none := by
    unfold roundK
    rw [hi.T, h4]
    exact (if_pos rfl).trans ((if_pos rfl).trans (if_pos ⟨hv, ha⟩))
  rw [e]; rfl

theorem irint_pairs (h8 : c.T = .f64) (x : c.Data) :
    PairsUp c ci (fun a z => z = (cvtInt 32 .nearest a).toInt) x (vIrint c ci L x) ∧
    PairsUp c ci (fun a z => z = (iroundLane 32 a).toInt) x (vIround c ci L x) := by
  rw [(irint_runs L x).1, (irint_runs L x).2]
  have k1 : rintK c ci = some fun y => putI32 ci (cvtpdEpi32 .nearest c.v y) := by
    unfold rintK; rw [hi.T, h8]; rfl
  have k2 : roundK c ci = some fun y => putI32 ci (roundPd c.v y) := by
    unfold roundK; rw [hi.T, h8]; rfl
  rw [k1, k2]
  have he : c.e = c.v.bits / 64 := by
    show extent c.T c.v = _; rw [h8]; exact extent8 _ _ _
  constructor
  · refine pairs_double hc h8 hi _ _ (fun y k hk => ?_) x
    rw [cvtpd_lane _ _ _ hk, he, show c.w = 64 by unfold Cfg.w; rw [h8]; rfl]
  · refine pairs_double hc h8 hi _ _ (fun y k hk => ?_) x
    rw [roundPd_lane _ _ hk, he, show c.w = 64 by unfold Cfg.w; rw [h8]; rfl]
/-- C60, `ext::irint<int>` of doubles.  Partial: at most one native vector of elements. -/
theorem C60_irint_double_partial (h8 : c.T = .f64) (hN : c.N ≤ c.e) (x : c.Data) : EachInt c ci IsRint Int32Range x (vIrint c ci L x) :=
  pairs_one (irint_pairs hc hi L h8 x).1 hN (int_e_le h8 hi) (fun a z hp hz => by rw [hz]; exact cvtInt_rint (k := 32) (by omega) hp)
/-- C60, `ext::iround<int>` of doubles.  Partial: at most one native vector of elements, no halfway cases. -/
theorem C60_iround_double_partial (h8 : c.T = .f64) (hN : c.N ≤ c.e) (x : c.Data) :
    EachInt c ci IsRoundAway (fun a => Int32Range a ∧ NoTie a) x (vIround c ci L x) :=
  pairs_one (irint_pairs hc hi L h8 x).2 hN (int_e_le h8 hi) (fun a z hp hz => by
    rw [hz]
    exact away_of_toward (D_pos _) (iroundLane_toward (fltW hc.ety (by rw [h8]; rfl)) (by omega) hp.1.1 hp.1.2.1 hp.1.2.2) hp.2)
/-- C60 (violated): with more elements than one native vector of doubles holds, `ext::irint<int>` and `ext::iround<int>` of doubles take the
elements from the wrong places and leave zeros: the element behind the first native vector is zero whatever the argument. -/
theorem C60_int_double_violated (h8 : c.T = .f64) (hN : c.e < c.N) (hv : ci.v = c.v) (x : c.Data) :
    (∃ r, vIrint c ci L x = .ok r ∧ (elt ci r c.e).toInt = 0) ∧ ∃ r, vIround c ci L x = .ok r ∧ (elt ci r c.e).toInt = 0 := by
  have he : c.e % ci.e = c.e := by
    have h1 : c.e = c.v.bits / 64 := by show extent c.T c.v = _; rw [h8]; exact extent8 _ _ _
    have h2 : ci.e = c.v.bits / 32 := by show extent ci.T ci.v = _; rw [hi.T, hv]; cases c.v <;> decide
    rw [h1, h2]; cases c.v <;> decide
  obtain ⟨⟨r, h1, h2⟩, r', h3, h4⟩ := irint_pairs hc hi L h8 x
  exact ⟨⟨r, h1, (h2 _ hN).2 (by omega)⟩, r', h3, (h4 _ hN).2 (by omega)⟩
end int32

section int64
variable {c cl : Cfg} (hc : c.Ok) (hl : c.LongOf cl) (L : Cmath c.w)
include hc hl
/-- C60, `ext::irint<int64_t>` of doubles: as `llrint` -/
theorem C60_irint64_double_partial (h8 : c.T = .f64) (x : c.Data) : EachInt c cl IsRint (Cvt64Range c.s) x (vIrint c cl L x) := by
  rw [(irint_runs L x).1]
  obtain ⟨s, T, N, v⟩ := c
  obtain ⟨s', T', N', v'⟩ := cl
  obtain ⟨h1, h2, h3, h4⟩ := hl
  dsimp only at h1 h2 h3 h4 h8
  subst h1; subst h2; subst h3; subst h8
  have h4 : v' = v := by rcases h4 with h | ⟨h, _⟩; exact h; exact absurd h (by decide)
  subst h4
  have e : vectorizeI ⟨s', .f64, N', v'⟩ ⟨s', .i64, N', v'⟩ (rintK ⟨s', .f64, N', v'⟩ ⟨s', .i64, N', v'⟩) x = _ :=
    vectorizeI_put1 (c := ⟨s', .f64, N', v'⟩) (ci := ⟨s', .i64, N', v'⟩) rfl (fun y => BitVec.setWidth v'.bits (cvtF64I64 s' v' y)) x
  refine ⟨_, e, fun i hi hr => ?_⟩
  rw [eltI1 (c := ⟨s', .f64, N', v'⟩) (ci := ⟨s', .i64, N', v'⟩) (n := Cfg.dataSize ⟨s', .i64, N', v'⟩) hc rfl (fun y => BitVec.setWidth v'.bits (cvtF64I64 s' v' y)) x _ rfl hi, BitVec.setWidth_eq]
  exact cvtF64I64_rint s' v' (x (i / Cfg.e ⟨s', .f64, N', v'⟩)) (idx_mod hc i) hr
/-- the elements `ext::iround<int64_t>` of doubles handles: the range of `int32_t` without AVX-512 DQ and VL -/
def Round64Range (s : ISA) {w : Nat} (x : BitVec w) : Prop :=
  InRange (if s.dqvl then -2 ^ 63 else -2 ^ 31) (if s.dqvl then 2 ^ 63 - 1 else 2 ^ 31 - 1) x
theorem iround64_toward (h8 : c.T = .f64) (hd : c.v = .v256 ∨ c.s.dqvl = true) (x : c.Data) :
    EachInt c cl IsRoundToward (Round64Range c.s) x (vIround c cl L x) := by
  rw [(irint_runs L x).2]
  have hw := fltW hc.ety (by rw [h8]; rfl)
  obtain ⟨s, T, N, v⟩ := c
  obtain ⟨s', T', N', v'⟩ := cl
  obtain ⟨h1, h2, h3, h4⟩ := hl
  dsimp only at h1 h2 h3 h4 h8 hd
  subst h1; subst h2; subst h3; subst h8
  have h4 : v' = v := by rcases h4 with h | ⟨h, _⟩; exact h; exact absurd h (by decide)
  subst h4
  by_cases hq : s'.dqvl = true
  · have k : roundK ⟨s', .f64, N', v'⟩ ⟨s', .i64, N', v'⟩ = some fun y d j => putVec (Cfg.dataSize ⟨s', .i64, N', v'⟩) d j (BitVec.setWidth v'.bits (roundPd64 y)) := by
      unfold roundK
      exact (if_neg (show ¬ ((8 : Nat) = 4) by decide)).trans ((if_pos rfl).trans ((if_neg (show ¬ ((8 : Nat) = 4) by decide)).trans (if_pos hq)))
    have e := vectorizeI_put1 (c := ⟨s', .f64, N', v'⟩) (ci := ⟨s', .i64, N', v'⟩) rfl (fun y => BitVec.setWidth v'.bits (roundPd64 y)) x
    rw [k]
    refine ⟨_, e, fun i hi hr => ?_⟩
    rw [eltI1 (c := ⟨s', .f64, N', v'⟩) (ci := ⟨s', .i64, N', v'⟩) (n := Cfg.dataSize ⟨s', .i64, N', v'⟩) hc rfl (fun y => BitVec.setWidth v'.bits (roundPd64 y)) x _ rfl hi, BitVec.setWidth_eq]
    unfold Round64Range at hr
    rw [if_pos hq, if_pos hq] at hr
    have hbd : (i % Cfg.e ⟨s', .f64, N', v'⟩ + 1) * 64 ≤ v'.bits := lane_bound hc.ety (idx_mod hc i)
    have h5 := iroundLane_toward (w := 64) (k := 64) hw (by omega) hr.1 hr.2.1 hr.2.2
    have h6 := roundPd64_lane (x (i / Cfg.e ⟨s', .f64, N', v'⟩)) hbd
    rw [show elt ⟨s', .f64, N', v'⟩ x i = lane 64 (x (i / Cfg.e ⟨s', .f64, N', v'⟩)) (i % Cfg.e ⟨s', .f64, N', v'⟩) from rfl] at h5
    rw [← h6] at h5
    exact h5
  · have hv : v' = .v256 := by rcases hd with h | h; exact h; exact absurd h hq
    subst hv
    have hq' : s'.dqvl = false := by cases h : s'.dqvl; rfl; exact absurd h hq
    have k : roundK ⟨s', .f64, N', .v256⟩ ⟨s', .i64, N', .v256⟩ = some fun y d j => putVec (Cfg.dataSize ⟨s', .i64, N', .v256⟩) d j
        (BitVec.setWidth 256 (setHL (unpackhiEpi32 (roundPd .v256 (BitVec.setWidth 256 y)) (sraiL 32 (roundPd .v256 (BitVec.setWidth 256 y)) 31))
          (unpackloEpi32 (roundPd .v256 (BitVec.setWidth 256 y)) (sraiL 32 (roundPd .v256 (BitVec.setWidth 256 y)) 31)))) := by
      unfold roundK
      exact (if_neg (show ¬ ((8 : Nat) = 4) by decide)).trans ((if_pos rfl).trans ((if_neg (show ¬ ((8 : Nat) = 4) by decide)).trans (if_neg hq)))
    rw [k]
    refine ⟨_, vectorizeI_put1 (c := ⟨s', .f64, N', .v256⟩) (ci := ⟨s', .i64, N', .v256⟩) rfl (fun y => BitVec.setWidth 256 (setHL (unpackhiEpi32 (roundPd .v256 (BitVec.setWidth 256 y)) (sraiL 32 (roundPd .v256 (BitVec.setWidth 256 y)) 31))
          (unpackloEpi32 (roundPd .v256 (BitVec.setWidth 256 y)) (sraiL 32 (roundPd .v256 (BitVec.setWidth 256 y)) 31)))) x, fun i hi hr => ?_⟩
    rw [eltI1 (c := ⟨s', .f64, N', .v256⟩) (ci := ⟨s', .i64, N', .v256⟩) (n := Cfg.dataSize ⟨s', .i64, N', .v256⟩) hc rfl (fun y => BitVec.setWidth 256 (setHL (unpackhiEpi32 (roundPd .v256 (BitVec.setWidth 256 y)) (sraiL 32 (roundPd .v256 (BitVec.setWidth 256 y)) 31))
          (unpackloEpi32 (roundPd .v256 (BitVec.setWidth 256 y)) (sraiL 32 (roundPd .v256 (BitVec.setWidth 256 y)) 31)))) x _ rfl hi, BitVec.setWidth_eq, BitVec.setWidth_eq]
    unfold Round64Range at hr
    rw [if_neg hq, if_neg hq] at hr
    have h5 := iroundLane_toward (w := 64) (k := 32) hw (by omega) hr.1 hr.2.1 hr.2.2
    have hk : i % Cfg.e ⟨s', .f64, N', .v256⟩ < 4 := by
      have := idx_mod hc i
      rwa [show Cfg.e ⟨s', .f64, N', .v256⟩ = 4 from (by decide : extent .f64 .v256 = 4)] at this ⊢
    have h6 : lane 64 (setHL (unpackhiEpi32 (roundPd .v256 (x (i / Cfg.e ⟨s', .f64, N', .v256⟩))) (sraiL 32 (roundPd .v256 (x (i / Cfg.e ⟨s', .f64, N', .v256⟩))) 31))
          (unpackloEpi32 (roundPd .v256 (x (i / Cfg.e ⟨s', .f64, N', .v256⟩))) (sraiL 32 (roundPd .v256 (x (i / Cfg.e ⟨s', .f64, N', .v256⟩))) 31))) (i % Cfg.e ⟨s', .f64, N', .v256⟩)
        = (iroundLane 32 (lane 64 (x (i / Cfg.e ⟨s', .f64, N', .v256⟩)) (i % Cfg.e ⟨s', .f64, N', .v256⟩))).signExtend 64 := by
      generalize i % Cfg.e ⟨s', .f64, N', .v256⟩ = k at *
      generalize x (i / Cfg.e ⟨s', .f64, N', .v256⟩) = y at *
      by_cases h : k < 2
      · rw [lane_setHL_lo _ _ (by omega), unpacklo_sext _ h, roundPd_lane _ _ hk, if_pos (by exact hk)]
      · rw [lane_setHL_hi (j := k - 2) _ _ (by omega), unpackhi_sext' _ (by omega), show 2 + (k - 2) = k by omega, roundPd_lane _ _ hk, if_pos (by exact hk)]
    have h7 := congrArg BitVec.toInt h6
    rw [toInt_sext32] at h7
    rw [show elt ⟨s', .f64, N', .v256⟩ x i = lane 64 (x (i / Cfg.e ⟨s', .f64, N', .v256⟩)) (i % Cfg.e ⟨s', .f64, N', .v256⟩) from rfl] at h5
    rw [← h7] at h5
    exact h5
/-- C60, `ext::iround<int64_t>` of doubles.  Partial: 32-byte vectors or AVX-512 DQ and VL; without the latter only the range of `int32_t`; no
halfway cases. -/
theorem C60_iround64_double_partial (h8 : c.T = .f64) (hd : c.v = .v256 ∨ c.s.dqvl = true) (x : c.Data) :
    EachInt c cl IsRoundAway (fun a => Round64Range c.s a ∧ NoTie a) x (vIround c cl L x) := by
  obtain ⟨r, h1, h2⟩ := iround64_toward hc hl L h8 hd x
  exact ⟨r, h1, fun i hi hp => away_of_toward (D_pos _) (h2 i hi hp.1) hp.2⟩
/-- C60 (violated): on 16-byte vectors without AVX-512 DQ and VL, `ext::iround<int64_t>` of doubles writes behind its result. -/
theorem C60_iround64_double_violated (h8 : c.T = .f64) (hv : c.v = .v128) (hq : c.s.dqvl = false) (x : c.Data) : vIround c cl L x = .ub := by
  rw [(irint_runs L x).2]
  obtain ⟨s, T, N, v⟩ := c
  obtain ⟨s', T', N', v'⟩ := cl
  obtain ⟨h1, h2, h3, h4⟩ := hl
  dsimp only at h1 h2 h3 h4 h8 hv hq
  subst h1; subst h2; subst h3; subst h8; subst hv
  have h4 : v' = .v128 := by rcases h4 with h | ⟨h, _⟩; exact h; exact absurd h (by decide)
  subst h4
  have hn : 0 < Cfg.dataSize ⟨s', .i64, N', .v128⟩ := by
    have := idx_lt hc (i := 0) hc.pos
    exact Nat.lt_of_le_of_lt (Nat.zero_le _) this
  have k : ∃ g0 g1 : Vec .v128 → Vec .v128, roundK ⟨s', .f64, N', .v128⟩ ⟨s', .i64, N', .v128⟩ = some fun y => put2 ⟨s', .f64, N', .v128⟩ ⟨s', .i64, N', .v128⟩ (g0 y) (g1 y) := by
    refine ⟨fun y => BitVec.setWidth 128 (unpackloEpi32 (roundPd .v128 (BitVec.setWidth 128 y)) (roundPd .v128 (BitVec.setWidth 128 y) ^^^ roundPd .v128 (BitVec.setWidth 128 y))),
      fun y => BitVec.setWidth 128 (unpackhiEpi32 (roundPd .v128 (BitVec.setWidth 128 y)) (roundPd .v128 (BitVec.setWidth 128 y) ^^^ roundPd .v128 (BitVec.setWidth 128 y))), ?_⟩
    unfold roundK
    exact (if_neg (show ¬ ((8 : Nat) = 4) by decide)).trans ((if_pos rfl).trans ((if_neg (show ¬ ((8 : Nat) = 4) by decide)).trans (if_neg (by intro h; have h' : s'.dqvl = true := h; rw [hq] at h'; cases h'))))
  obtain ⟨g0, g1, k⟩ := k
  rw [k]
  exact vectorizeI_put2_ub (c := ⟨s', .f64, N', .v128⟩) (ci := ⟨s', .i64, N', .v128⟩) hn g0 g1 x
/-- C60 (violated): `ext::irint<int64_t>` and `ext::iround<int64_t>` of floats never work: they do not compile or write behind their result. -/
theorem C60_int64_float_violated (h4 : c.T = .f32) (x : c.Data) :
    (vIrint c cl L x = .illFormed ∨ vIrint c cl L x = .ub) ∧ (vIround c cl L x = .illFormed ∨ vIround c cl L x = .ub) := by
  rw [(irint_runs L x).1, (irint_runs L x).2]
  have hn : 0 < cl.dataSize := by
    have hp : 0 < cl.e := by show 0 < extent cl.T cl.v; rw [hl.T]; cases cl.v <;> decide
    rw [dataSize_eq, hl.N]
    refine (ceilDiv_spec hp 0).1 ?_
    rw [Nat.zero_mul]; exact hc.pos
  constructor
  · have k : rintK c cl = none ∨ ∃ g0 g1 : Vec c.v → Vec c.v, rintK c cl = some fun y => put2 c cl (g0 y) (g1 y) := by
      unfold rintK
      rw [hl.T, h4]
      rw [if_neg (show ¬ (Ety.i64.bytes = 4) by decide), if_pos (show Ety.i64.bytes = 8 from rfl), if_pos (show Ety.f32.bytes = 4 from rfl)]
      split
      · exact Or.inl rfl
      · split
        · exact Or.inl rfl
        · split
          · exact Or.inr ⟨_, _, rfl⟩
          · exact Or.inr ⟨_, _, rfl⟩
    rcases k with k | ⟨g0, g1, k⟩
    · rw [k]; exact Or.inl rfl
    · rw [k]; exact Or.inr (vectorizeI_put2_ub hn g0 g1 x)
  · have k : roundK c cl = none ∨ ∃ g0 g1 : Vec c.v → Vec c.v, roundK c cl = some fun y => put2 c cl (g0 y) (g1 y) := by
      unfold roundK
      rw [hl.T, h4]
      rw [if_neg (show ¬ (Ety.i64.bytes = 4) by decide), if_pos (show Ety.i64.bytes = 8 from rfl), if_pos (show Ety.f32.bytes = 4 from rfl)]
      split
      · exact Or.inl rfl
      · split
        · exact Or.inl rfl
        · split
          · exact Or.inl rfl
          · exact Or.inr ⟨_, _, rfl⟩
    rcases k with k | ⟨g0, g1, k⟩
    · rw [k]; exact Or.inl rfl
    · rw [k]; exact Or.inr (vectorizeI_put2_ub hn g0 g1 x)
end int64
/-- C60 (violated): `ext::itrunc<I>` does not compile for any vector and any `I`; `ext::irint<I>` and `ext::iround<I>` do not compile for
`I` of 1 or 2 bytes. -/
theorem C60_itrunc_violated (c ci : Cfg) (L : Cmath c.w) :
    NeverCompiles (vItrunc c ci L) ∧ (ci.T.bytes = 1 ∨ ci.T.bytes = 2 → NeverCompiles (vIrint c ci L) ∧ NeverCompiles (vIround c ci L)) := by
  refine ⟨fun x => both_ofUb _ _, fun h => ⟨fun x => ?_, fun x => ?_⟩⟩
  · rw [(irint_runs L x).1]
    unfold rintK
    rw [if_neg (by omega), if_neg (by omega)]; rfl
  · rw [(irint_runs L x).2]
    unfold roundK
    rw [if_neg (by omega), if_neg (by omega)]; rfl

/-! ### The hypotheses can be met -/
/-- 7 floats and 7 `long`s, SSE2 only: the last native vector of floats holds 3; and 5 floats: it holds 1 -/
def exL7 : Cfg := ⟨.sse2L, .f32, 7, .v128⟩
def exL7l : Cfg := ⟨.sse2L, .i64, 7, .v128⟩
def exL5 : Cfg := ⟨.sse2L, .f32, 5, .v128⟩
def exL5l : Cfg := ⟨.sse2L, .i64, 5, .v128⟩
theorem exL7_ok : exL7.Ok := ⟨by decide, by decide, by decide, by decide, by decide⟩
theorem exL5_ok : exL5.Ok := ⟨by decide, by decide, by decide, by decide, by decide⟩
theorem exL7_of : exL7.LongOf exL7l := ⟨rfl, rfl, rfl, Or.inl rfl⟩
theorem exL5_of : exL5.LongOf exL5l := ⟨rfl, rfl, rfl, Or.inl rfl⟩
def exF64l : Cfg := ⟨.avxL, .i64, 4, .v256⟩
theorem exF64l_of : exF64.LongOf exF64l := ⟨rfl, rfl, rfl, Or.inl rfl⟩
def exR2i : Cfg := ⟨.sse2L, .i32, 6, .v128⟩
theorem exR2i_of : exR2.IntOf exR2i := ⟨rfl, rfl, rfl, Or.inl rfl⟩
theorem int_bcast {c ci : Cfg} (hc : c.Ok) {R : Int → Int → Int → Prop} {P : BitVec c.w → Prop} (b : BitVec c.w) {o : Out ci.Data}
    (h : EachInt c ci R P (vbroadcast c b (zeroData c)) o) (hP : P b) : ∃ r, o = .ok r ∧ ∀ i, i < c.N → R (val b) (2 ^ unitExp c.w : Nat) (elt ci r i).toInt := by
  obtain ⟨r, hr, h⟩ := h
  refine ⟨r, hr, fun i hi => ?_⟩
  have := h i hi
  rw [elt_vbroadcast hc _ _ hi] at this
  exact this hP
theorem rint_eq {v D z z' : Int} (hD : 0 < D) (h : IsRint v D z') (h1 : (2 * z - 1) * D < 2 * v) (h2 : 2 * v < (2 * z + 1) * D) : z' = z :=
  isRint_unique hD h ⟨by omega, by omega, fun h => by omega⟩
instance (c : Cfg) : Decidable (FillsLast c) := by unfold FillsLast; infer_instance
instance {w : Nat} (lo hi : Int) (x : BitVec w) : Decidable (InRange lo hi x) := by unfold InRange; infer_instance
instance {w : Nat} (s : ISA) (x : BitVec w) : Decidable (Cvt64Range s x) := by unfold Cvt64Range; infer_instance
instance {w : Nat} (s : ISA) (v : VSz) (x : BitVec w) : Decidable (Cvt32Range s v x) := by unfold Cvt32Range; infer_instance
/-- `llrint` of seven floats `-2.75` is seven times `-3`; with five floats it writes behind the result -/
example : (∃ r, vLlrint exL7 exL7l (exLib 32) (vbroadcast exL7 0xc0300000 (zeroData exL7)) = .ok r ∧ ∀ i, i < 7 → (elt exL7l r i).toInt = -3) ∧
    ∀ x, vLlrint exL5 exL5l (exLib 32) x = .ub := by
  constructor
  · obtain ⟨r, hr, h⟩ := int_bcast exL7_ok _ (C60_llrint_float_partial exL7_ok exL7_of (exLib 32) rfl rfl (by decide) (by decide) (vbroadcast exL7 0xc0300000 (zeroData exL7)))
      (by decide +kernel)
    exact ⟨r, hr, fun i hi => rint_eq (D_pos _) (h i hi) (by decide +kernel) (by decide +kernel)⟩
  · exact fun x => (C60_float_out_of_bounds_violated exL5_ok exL5_of (exLib 32) rfl rfl (by decide) (by decide) x).1
/-- four doubles `2.5`: `lround` gives `2` -/
example : ∃ r, vLround exF64 exF64l (exLib 64) (vbroadcast exF64 0x4004000000000000 (zeroData exF64)) = .ok r ∧
    ∀ i, i < 4 → (elt exF64l r i).toInt = 2 := by
  obtain ⟨r, hr, h⟩ := int_bcast exF64_ok _ (C60_lround_tie_violated exF64_ok exF64l_of (exLib 64) rfl (vbroadcast exF64 0x4004000000000000 (zeroData exF64))).1
    (by decide +kernel)
  exact ⟨r, hr, fun i hi => (h i hi 1 (Or.inl ⟨by omega, by decide +kernel⟩)).1⟩
/-- six floats `2.5`: `ext::irint<int>` gives `2`, and `ext::iround<int>` truncates to `2` -/
example : (∃ r, vIrint exF32 exF32i (exLib 32) (vbroadcast exF32 0x40200000 (zeroData exF32)) = .ok r ∧ ∀ i, i < 6 → (elt exF32i r i).toInt = 2) ∧
    ∃ r, vIround exF32 exF32i (exLib 32) (vbroadcast exF32 0x40200000 (zeroData exF32)) = .ok r ∧ ∀ i, i < 6 → IsTrunc (5 * 2 ^ 148) (2 ^ 149) (elt exF32i r i).toInt := by
  constructor
  · obtain ⟨r, hr, h⟩ := int_bcast exF32_ok _ (C60_irint_float exF32_ok exF32i_of (exLib 32) rfl (vbroadcast exF32 0x40200000 (zeroData exF32))) (by decide +kernel)
    exact ⟨r, hr, fun i hi => (evenTie_of_rint (D_pos _) (h i hi) 1 (Or.inl ⟨by omega, by decide +kernel⟩)).1⟩
  · obtain ⟨r, hr, h⟩ := int_bcast exF32_ok _ (C60_iround_tie_violated exF32_ok exF32i_of (exLib 32) rfl (by decide) (vbroadcast exF32 0x40200000 (zeroData exF32))) (by decide +kernel)
    refine ⟨r, hr, fun i hi => ?_⟩
    have := (h i hi 2 (by decide +kernel)).1
    rwa [show val (0x40200000 : BitVec exF32.w) = 5 * 2 ^ 148 by decide +kernel] at this
/-- six doubles on SSE2: element 2 of `ext::irint<int>` is zero for every argument -/
example (x : exR2.Data) : ∃ r, vIrint exR2 exR2i (exLib 64) x = .ok r ∧ (elt exR2i r 2).toInt = 0 :=
  (C60_int_double_violated exR2_ok exR2i_of (exLib 64) rfl (by decide) rfl x).1
/-- four doubles with AVX fit one native vector -/
example (x : exF64.Data) : EachInt exF64 exF64i IsRint Int32Range x (vIrint exF64 exF64i (exLib 64) x) ∧
    EachInt exF64 exF64i IsRoundAway (fun a => Int32Range a ∧ NoTie a) x (vIround exF64 exF64i (exLib 64) x) ∧
    EachInt exF64 exF64l IsRoundAway (fun a => Round64Range exF64.s a ∧ NoTie a) x (vIround exF64 exF64l (exLib 64) x) :=
  ⟨C60_irint_double_partial exF64_ok exF64i_of _ rfl (by decide) x, C60_iround_double_partial exF64_ok exF64i_of _ rfl (by decide) x,
    C60_iround64_double_partial exF64_ok exF64l_of _ rfl (Or.inl rfl) x⟩
/-- `2.75` is in range and not halfway -/
example : Int32Range (0x40300000 : BitVec 32) ∧ NoTie (0x40300000 : BitVec 32) := by
  refine ⟨by decide +kernel, fun k h => ?_⟩
  rw [show val (0x40300000 : BitVec 32) = 11 * 2 ^ 147 by decide +kernel, show ((2 ^ unitExp 32 : Nat) : Int) = 4 * 2 ^ 147 by decide +kernel] at h
  obtain ⟨U, hU⟩ : ∃ U : Int, U = 2 ^ 147 := ⟨_, rfl⟩
  rw [← hU] at h
  have hU0 : U ≠ 0 := by rw [hU]; decide +kernel
  have h2 : (22 - (8 * k + 4)) * U = 0 := by rw [Int.sub_mul, Int.add_mul]; grind
  rcases Int.mul_eq_zero.1 h2 with h3 | h3
  · omega
  · exact hU0 h3
end Dpm.X86
