import Verif.Props.RoundDir
import Verif.Props.X86RoundInt
/-
C83: conversions to vectors of integers (`llrint`, `lround`, `llround`, `ext::irint`) in the four rounding directions.
-/
namespace Dpm.X86
open Dpm Dpm.Reg Dpm.Fp Dpm.Generic Dpm.GenericMath Dpm.Callable

/-- C83: rounding to nearest, the calls are those of Model/RoundInt.lean (C60). -/
theorem C83_int_nearest (c ci : Cfg) (L : Cmath c.w) (x : c.Data) : mLround .nearest c ci L x = vLround c ci L x ∧
    mLlround .nearest c ci L x = vLlround c ci L x ∧ mLlrint .nearest c ci L x = vLlrint c ci L x ∧ mIrint .nearest c ci L x = vIrint c ci L x := by
  have e1 : ∀ w, (faddM .nearest : BitVec w → BitVec w → BitVec w) = fadd := fun w => funext fun _ => funext fun _ => faddM_nearest _ _
  have e2 : ∀ n, (f64i64LM .nearest : BitVec n → BitVec n) = f64i64L := fun n => funext fun a => by unfold f64i64LM f64i64L faddLM faddL; rw [e1]
  have e3 : cvtF64I64M .nearest = cvtF64I64 := by
    funext s v y
    cases v <;> unfold cvtF64I64M cvtF64I64 <;> simp only [e2]
  have e4 : rintKM .nearest c ci = rintK c ci := by unfold rintKM rintK; simp only [e3]
  unfold mLround mLlround mLlrint mIrint vLround vLlround vLlrint vIrint
  rw [e4]
  exact ⟨rfl, rfl, rfl, rfl⟩

theorem inDir_bounds {m : RMode} {v D lo hi r : Int} (hD : 0 < D) (h1 : lo * D ≤ v) (h2 : v ≤ hi * D) (hr : IsInDir m v D r) : lo ≤ r ∧ r ≤ hi := by
  have fl : ∀ r, r * D ≤ v → v < (r + 1) * D → lo ≤ r ∧ r ≤ hi := fun r a b => by
    have c1 := Int.lt_of_mul_lt_mul_right (Int.lt_of_le_of_lt h1 b) (by omega)
    have c2 := Int.le_of_mul_le_mul_right (Int.le_trans a h2) hD
    omega
  have ce : ∀ r, (r - 1) * D < v → v ≤ r * D → lo ≤ r ∧ r ≤ hi := fun r a b => by
    have c1 := Int.le_of_mul_le_mul_right (Int.le_trans h1 b) hD
    have c2 := Int.lt_of_mul_lt_mul_right (Int.lt_of_lt_of_le a h2) (by omega)
    omega
  cases m with
  | nearest => exact rint_bounds hD h1 h2 hr
  | down => exact fl r hr.1 hr.2
  | up => exact ce r hr.1 hr.2
  | zero =>
    obtain ⟨a, b⟩ := hr
    by_cases h : 0 ≤ v
    · exact fl r (a h).1 (a h).2
    · exact ce r (b (by omega)).1 (b (by omega)).2
/-- `cvt*2dq`, `cvt*2qq` in range -/
theorem cvtInt_dir (m : RMode) {w k : Nat} (hk : 1 ≤ k) {x : BitVec w} (hr : InRange (-(2 ^ (k - 1) : Int)) (2 ^ (k - 1) - 1) x) :
    IsInDir m (val x) (2 ^ unitExp w : Nat) (cvtInt k m x).toInt := by
  have hb := inDir_bounds (D_pos w) hr.2.1 hr.2.2 (toInt_inDir m x)
  have e : cvtInt k m x = BitVec.ofInt k (Fp.toInt m x) := by
    unfold cvtInt
    rw [if_pos]
    simp only [hr.1, Bool.true_and, Bool.and_eq_true, decide_eq_true_eq]
    omega
  rw [e, toInt_ofInt_fit hk hb.1 (by omega)]
  exact toInt_inDir m x

/-! ### adding `1.5 * 2^52` -/
/-- a positive sum in the binade of spacing 1: down unless the direction is upwards -/
theorem f64i64_dir {m : RMode} (hm : m ≠ .nearest) (x : BitVec 64) (hx : isFinite x = true) (h1 : -((2 ^ 51 * 2 ^ 1074 : Nat) : Int) ≤ val x)
    (h2 : val x ≤ ((2 ^ 51 * 2 ^ 1074 : Nat) : Int)) :
    ∃ r : Int, (if m = .up then IsCeil (val x) (2 ^ 1074 : Nat) r else IsFloor (val x) (2 ^ 1074 : Nat) r) ∧
      faddM m x (ofInt 64 0x0018000000000000) - ofInt 64 0x0018000000000000 = BitVec.ofInt 64 r := by
  have hc : ofInt 64 0x0018000000000000 = 0x4338000000000000#64 := by decide +kernel
  rw [hc]
  have ho : isFinite (0x4338000000000000#64) = true := by decide
  have hv : val (0x4338000000000000#64) = ((3 * 2 ^ 51 * 2 ^ 1074 : Nat) : Int) := by decide +kernel
  have hU : 0 < 2 ^ 1074 := Nat.two_pow_pos _
  obtain ⟨n, hn⟩ : ∃ n : Nat, val x + ((3 * 2 ^ 51 * 2 ^ 1074 : Nat) : Int) = n := ⟨(val x + ((3 * 2 ^ 51 * 2 ^ 1074 : Nat) : Int)).toNat, by
    generalize (2 : Nat) ^ 1074 = U at *; omega⟩
  have hlo : 2 ^ 52 * 2 ^ 1074 ≤ n := by generalize (2 : Nat) ^ 1074 = U at *; omega
  have hhi : n ≤ 2 ^ 53 * 2 ^ 1074 := by generalize (2 : Nat) ^ 1074 = U at *; omega
  have ha : away m false = decide (m = .up) := by cases m <;> rfl
  have hadd : faddM m x 0x4338000000000000#64 = roundDir 64 m false n 1 := by
    rw [faddM_fin hx ho, hv, hn, if_neg (by generalize (2 : Nat) ^ 1074 = U at *; omega), decide_eq_false (by omega), Int.natAbs_natCast]
  have hdm := Nat.div_add_mod n (2 ^ 1074)
  have hml := Nat.mod_lt n hU
  have hq1 : 2 ^ 52 ≤ n / 2 ^ 1074 := (Nat.le_div_iff_mul_le hU).2 hlo
  have hq2 : n / 2 ^ 1074 ≤ 2 ^ 53 := by
    have := Nat.div_le_div_right (c := 2 ^ 1074) hhi
    rwa [Nat.mul_div_cancel _ hU] at this
  -- the pattern
  have hpat : ∃ u : Nat, rdir m false 52 n 1 = 1074 * 2 ^ 52 + (n / 2 ^ 1074 + u) ∧ (u = if m = .up ∧ n % 2 ^ 1074 ≠ 0 then 1 else 0) := by
    refine ⟨_, ?_, rfl⟩
    have mv : magVal 52 (1074 * 2 ^ 52 + n / 2 ^ 1074) = n / 2 ^ 1074 * 2 ^ 1074 := magVal_kf (Or.inr hq1) hq2
    by_cases h0 : n % 2 ^ 1074 = 0
    · have e := rdir_exact (m := m) (s := false) (b := 52) (p := 1074 * 2 ^ 52 + n / 2 ^ 1074) (d := 1) (by omega) Nat.one_pos
      rw [mv, Nat.mul_one, Nat.mul_comm, show 2 ^ 1074 * (n / 2 ^ 1074) = n by omega] at e
      rw [e, if_neg (by simp [h0]), Nat.add_zero]
    · have hlt : n / 2 ^ 1074 < 2 ^ 53 := by
        rcases Nat.lt_or_eq_of_le hq2 with h | h
        · exact h
        · rw [h, Nat.mul_comm] at hdm; omega
      have mv1 : magVal 52 (1074 * 2 ^ 52 + n / 2 ^ 1074 + 1) = (n / 2 ^ 1074 + 1) * 2 ^ 1074 :=
        magVal_kf (k := 1074) (f := n / 2 ^ 1074 + 1) (Or.inr (Nat.le_succ_of_le hq1)) hlt
      have e1 : n / 2 ^ 1074 * 2 ^ 1074 = 2 ^ 1074 * (n / 2 ^ 1074) := Nat.mul_comm _ _
      have e2 : (n / 2 ^ 1074 + 1) * 2 ^ 1074 = 2 ^ 1074 * (n / 2 ^ 1074) + 2 ^ 1074 := by rw [Nat.succ_mul, Nat.mul_comm]
      rw [rdir_char hm (d := 1) (p := 1074 * 2 ^ 52 + n / 2 ^ 1074) Nat.one_pos (by rw [mv, Nat.mul_one, e1]; omega) (by rw [mv1, Nat.mul_one, e2]; omega), ha, mv]
      have hne : n / 2 ^ 1074 * 2 ^ 1074 * 1 ≠ n := by rw [Nat.mul_one, e1]; omega
      by_cases hu : m = .up
      · rw [if_pos (by simp [hu]; omega), if_pos ⟨hu, h0⟩]; omega
      · rw [if_neg (by simp [hu]), if_neg (fun h => hu h.1)]; omega
  obtain ⟨u, hp, hu⟩ := hpat
  have hu1 : u ≤ 1 := by rw [hu]; split <;> omega
  have hres : (faddM m x 0x4338000000000000#64).toNat = 1074 * 2 ^ 52 + (n / 2 ^ 1074 + u) := by
    rw [hadd]
    unfold roundDir
    rw [show mb 64 = 52 from rfl, hp]
    have hi : 1074 * 2 ^ 52 + (n / 2 ^ 1074 + u) < infMag 64 - 1 := by
      have : infMag 64 = 2047 * 2 ^ 52 := rfl
      rw [this]; generalize n / 2 ^ 1074 = q at *; omega
    rw [Nat.min_eq_left (by split <;> omega)]
    have hl : 1074 * 2 ^ 52 + (n / 2 ^ 1074 + u) < 2 ^ 63 := by
      have : infMag 64 = 2047 * 2 ^ 52 := rfl
      omega
    unfold pack
    simp only [Bool.false_eq_true, if_false]
    rw [BitVec.toNat_ofNat, Nat.mod_eq_of_lt]
    · omega
    · omega
  refine ⟨(n / 2 ^ 1074 + u : Nat) - 3 * 2 ^ 51, ?_, ?_⟩
  · have hx2 : val x = (2 ^ 1074 : Nat) * ((n / 2 ^ 1074 : Nat) : Int) + (n % 2 ^ 1074 : Nat) - 3 * 2 ^ 51 * (2 ^ 1074 : Nat) := by
      have : ((2 ^ 1074 * (n / 2 ^ 1074) + n % 2 ^ 1074 : Nat) : Int) = n := by exact_mod_cast hdm
      rw [Int.natCast_add, Int.natCast_mul] at this
      rw [this, ← hn]
      generalize (2 : Nat) ^ 1074 = U at *
      omega
    generalize hQ : n / 2 ^ 1074 = q at *
    generalize hF : n % 2 ^ 1074 = f at *
    generalize (2 : Nat) ^ 1074 = U at *
    clear hp hres hadd
    have z0 : (((q + u : Nat) : Int) - 3 * 2 ^ 51) * U = U * q + u * U - 3 * 2 ^ 51 * U := by push_cast; grind
    have z1 : (((q + u : Nat) : Int) - 3 * 2 ^ 51 + 1) * U = U * q + u * U - 3 * 2 ^ 51 * U + U := by push_cast; grind
    have z2 : (((q + u : Nat) : Int) - 3 * 2 ^ 51 - 1) * U = U * q + u * U - 3 * 2 ^ 51 * U - U := by push_cast; grind
    split
    · next hup =>
      unfold IsCeil
      rw [z0, z2, hx2]
      by_cases h0 : f = 0
      · have : u = 0 := by rw [hu, if_neg (by simp [h0])]
        subst this; constructor <;> push_cast <;> omega
      · have : u = 1 := by rw [hu, if_pos ⟨hup, h0⟩]
        subst this; constructor <;> push_cast <;> omega
    · next hup =>
      have : u = 0 := by rw [hu, if_neg (fun h => hup h.1)]
      subst this
      unfold IsFloor
      rw [z0, z1, hx2]
      constructor <;> push_cast <;> omega
  · apply BitVec.eq_of_toInt_eq
    rw [BitVec.toInt_sub, BitVec.toInt_ofInt, BitVec.toInt_eq_toNat_bmod, BitVec.toInt_eq_toNat_bmod, ← Int.sub_bmod, hres]
    congr 1
    have : (0x4338000000000000#64).toNat = 1074 * 2 ^ 52 + 3 * 2 ^ 51 := by decide
    rw [this]
    generalize n / 2 ^ 1074 = q at *
    push_cast; omega
def f64i64LaneM (m : RMode) (x : BitVec 64) : BitVec 64 := faddM m x (ofInt 64 0x0018000000000000) - ofInt 64 0x0018000000000000
theorem f64i64LM_lane (m : RMode) {n : Nat} (x : BitVec n) {i : Nat} (hb : (i + 1) * 64 ≤ n) : lane 64 (f64i64LM m x) i = f64i64LaneM m (lane 64 x i) := by
  unfold f64i64LM subL faddLM
  dsimp only
  rw [lane_map2 _ _ _ hb, lane_map2 _ _ _ hb, set1_lane _ hb]; rfl
theorem cvtF64I64M_lane (m : RMode) (s : ISA) (v : VSz) (x : Vec v) {i : Nat} (hi : i < extent .f64 v) :
    lane 64 (cvtF64I64M m s v x) i = if s.dqvl then cvtInt 64 m (lane 64 x i) else f64i64LaneM m (lane 64 x i) := by
  have hT : Ety.f64.Ok := by decide
  have hbd : (i + 1) * 64 ≤ v.bits := lane_bound hT hi
  cases v with
  | v128 =>
    unfold cvtF64I64M; dsimp only
    split
    · exact lane_map1 (w := 64) (fun a => cvtInt 64 m a) x hbd
    · exact f64i64LM_lane m (n := 128) x hbd
  | v256 =>
    unfold cvtF64I64M; dsimp only
    split
    · exact lane_map1 (w := 64) (fun a => cvtInt 64 m a) x hbd
    · split
      · exact f64i64LM_lane m (n := 256) x hbd
      · exact mux1_lane hT (f64i64LM m) (f64i64LaneM m) (fun a i hi => f64i64LM_lane m a (lane_bound hT (v := .v128) hi)) x hi
/-- `cvt_f64_i64`: in the current direction, but down instead of towards zero without AVX-512 DQ and VL -/
theorem cvtF64I64M_dir (m : RMode) (s : ISA) (v : VSz) (x : Vec v) {i : Nat} (hi : i < extent .f64 v) (hr : Cvt64Range s (lane 64 x i)) :
    if m ≠ .zero ∨ s.dqvl = true then IsInDir m (val (lane 64 x i)) (2 ^ unitExp 64 : Nat) (lane 64 (cvtF64I64M m s v x) i).toInt
    else IsFloor (val (lane 64 x i)) (2 ^ unitExp 64 : Nat) (lane 64 (cvtF64I64M m s v x) i).toInt := by
  by_cases hm : m = .nearest
  · subst hm
    rw [if_pos (Or.inl (by simp))]
    have e2 : ∀ n, (f64i64LM .nearest : BitVec n → BitVec n) = f64i64L := fun n => funext fun a => by
      unfold f64i64LM f64i64L faddLM faddL
      rw [show (faddM .nearest : BitVec 64 → BitVec 64 → BitVec 64) = fadd from funext fun _ => funext fun _ => faddM_nearest _ _]
    have e3 : cvtF64I64M .nearest s v x = cvtF64I64 s v x := by
      cases v <;> unfold cvtF64I64M cvtF64I64 <;> simp only [e2]
    rw [e3]; exact cvtF64I64_rint s v x hi hr
  · rw [cvtF64I64M_lane m s v x hi]
    generalize lane 64 x i = y at *
    by_cases hs : s.dqvl = true
    · rw [if_pos (Or.inr hs), if_pos hs]
      unfold Cvt64Range at hr
      rw [if_pos hs, if_pos hs] at hr
      exact cvtInt_dir m (k := 64) (by omega) hr
    · rw [if_neg hs]
      unfold Cvt64Range at hr
      rw [if_neg hs, if_neg hs] at hr
      obtain ⟨r, h1, h2⟩ := f64i64_dir hm y hr.1 (by have := hr.2.1; rw [w64_lit] at this; push_cast at this ⊢; omega)
        (by have := hr.2.2; rw [w64_lit] at this; push_cast at this ⊢; omega)
      have hb : -2 ^ 51 ≤ r ∧ r ≤ 2 ^ 51 := by
        have hd : IsInDir (if m = .up then .up else .down) (val y) (2 ^ unitExp 64 : Nat) r := by
          split at h1
          · next h => rw [if_pos h]; exact h1
          · next h => rw [if_neg h]; exact h1
        exact inDir_bounds (D_pos 64) hr.2.1 hr.2.2 hd
      have h3 : (f64i64LaneM m y).toInt = r := (congrArg BitVec.toInt h2).trans (toInt_ofInt_fit (k := 64) (by omega) (by omega) (by omega))
      rw [h3]
      cases m with
      | nearest => exact absurd rfl hm
      | up => rw [if_pos (Or.inl (by simp))]; exact h1
      | down => rw [if_pos (Or.inl (by simp))]; exact h1
      | zero => rw [if_neg (by simp [hs])]; exact h1

section llrint
variable {c cl : Cfg} (hc : c.Ok) (hl : c.LongOf cl) (L : Cmath c.w) (m : RMode)
include hc hl
theorem strided_doubleM' (h8 : c.T = .f64) (x : c.Data) :
    EachInt c cl (fun v D z => if m ≠ .zero ∨ c.s.dqvl = true then IsInDir m v D z else IsFloor v D z) (Cvt64Range c.s) x (strided c cl (rintKM m c cl) x) ∧
    EachInt c cl (fun v D z => if m ≠ .zero ∨ c.s.dqvl = true then IsInDir m v D z else IsFloor v D z) (Cvt64Range c.s) x (vectorizeI c cl (rintKM m c cl) x) := by
  obtain ⟨s, T, N, v⟩ := c
  obtain ⟨s', T', N', v'⟩ := cl
  obtain ⟨h1, h2, h3, h4⟩ := hl
  dsimp only at h1 h2 h3 h4 h8
  subst h1; subst h2; subst h3; subst h8
  have h4 : v' = v := by rcases h4 with h | ⟨h, _⟩; exact h; exact absurd h (by decide)
  subst h4
  constructor
  · have e : strided ⟨s', .f64, N', v'⟩ ⟨s', .i64, N', v'⟩ (rintKM m ⟨s', .f64, N', v'⟩ ⟨s', .i64, N', v'⟩) x = _ :=
      strided_put1 (c := ⟨s', .f64, N', v'⟩) (ci := ⟨s', .i64, N', v'⟩) hc rfl rfl (fun y => BitVec.setWidth v'.bits (cvtF64I64M m s' v' y)) x
    refine ⟨_, e, fun i hi hr => ?_⟩
    rw [eltI1 (ci := ⟨s', .i64, N', v'⟩) hc rfl (fun y => BitVec.setWidth v'.bits (cvtF64I64M m s' v' y)) x _ rfl hi, BitVec.setWidth_eq]
    exact cvtF64I64M_dir m s' v' (x (i / Cfg.e ⟨s', .f64, N', v'⟩)) (idx_mod hc i) hr
  · have e : vectorizeI ⟨s', .f64, N', v'⟩ ⟨s', .i64, N', v'⟩ (rintKM m ⟨s', .f64, N', v'⟩ ⟨s', .i64, N', v'⟩) x = _ :=
      vectorizeI_put1 (c := ⟨s', .f64, N', v'⟩) (ci := ⟨s', .i64, N', v'⟩) rfl (fun y => BitVec.setWidth v'.bits (cvtF64I64M m s' v' y)) x
    refine ⟨_, e, fun i hi hr => ?_⟩
    rw [eltI1 (c := ⟨s', .f64, N', v'⟩) (ci := ⟨s', .i64, N', v'⟩) (n := Cfg.dataSize ⟨s', .i64, N', v'⟩) hc rfl (fun y => BitVec.setWidth v'.bits (cvtF64I64M m s' v' y)) x _ rfl hi, BitVec.setWidth_eq]
    exact cvtF64I64M_dir m s' v' (x (i / Cfg.e ⟨s', .f64, N', v'⟩)) (idx_mod hc i) hr

theorem strided_floatM (h4 : c.T = .f32) (hv : cl.v = c.v) (ha : c.v = .v256 → c.s.avx2 = true) (hN : FillsLast c) (x : c.Data) :
    EachInt c cl (IsInDir m) (Cvt32Range c.s c.v) x (strided c cl (rintKM m c cl) x) := by
  obtain ⟨s, T, N, v⟩ := c
  obtain ⟨s', T', N', v'⟩ := cl
  obtain ⟨h1, h2, h3, -⟩ := hl
  dsimp only at h1 h2 h3 h4 hv ha
  subst h1; subst h2; subst h3; subst h4; subst hv
  have hp : 0 < Cfg.e ⟨s', .i64, N', v'⟩ := by show 0 < extent .i64 v'; cases v' <;> decide
  have hd : 2 * Cfg.dataSize ⟨s', .f32, N', v'⟩ ≤ Cfg.dataSize ⟨s', .i64, N', v'⟩ := by
    unfold FillsLast at hN
    rw [dataSize_eq, dataSize_eq, ext_double]
    rw [ext_double] at hN
    refine (ceil_halves hp).2 ?_
    rw [Nat.mul_div_cancel_left _ (by omega : 0 < 2)] at hN
    exact hN
  have hnl : ¬ (v' = .v256 ∧ s'.avx2 = false) := by
    rintro ⟨a, b⟩; rw [ha a] at b; cases b
  by_cases hq : v' = .v128 ∧ s'.dqvl = true
  · have e : rintKM m ⟨s', .f32, N', v'⟩ ⟨s', .i64, N', v'⟩ = some fun y => put2 ⟨s', .f32, N', v'⟩ ⟨s', .i64, N', v'⟩
        (ofLanes v'.bits 64 (fun k => cvtInt 64 m (lane 32 y k))) (ofLanes v'.bits 64 (fun k => cvtInt 64 m (lane 32 y (2 + k)))) := by
      unfold rintKM
      exact (if_neg (show ¬ ((8 : Nat) = 4) by decide)).trans ((if_pos rfl).trans ((if_pos rfl).trans ((if_neg (fun h => h rfl)).trans ((if_neg hnl).trans (if_pos hq)))))
    rw [e]
    refine ⟨_, strided_put2 (c := ⟨s', .f32, N', v'⟩) (ci := ⟨s', .i64, N', v'⟩) hc (ext_double _ _ _) hp _ _ x hd, fun i hi hr => ?_⟩
    rw [put2_elt hc (fun y => ofLanes v'.bits 64 (fun k => cvtInt 64 m (lane 32 y k))) (fun y => ofLanes v'.bits 64 (fun k => cvtInt 64 m (lane 32 y (2 + k))))
      (fun a => cvtInt 64 m a) ?_ ?_ x _ hi]
    · unfold Cvt32Range at hr
      rw [if_pos hq] at hr
      exact cvtInt_dir m (k := 64) (by omega) hr
    · intro y k hk
      exact lane_ofLanes _ (by omega)
    · intro y k hk
      have e2 : v'.bits / 64 = 2 := by rw [hq.1]; rfl
      rw [e2]
      exact lane_ofLanes _ (by omega)
  · have e : rintKM m ⟨s', .f32, N', v'⟩ ⟨s', .i64, N', v'⟩ = some fun y => put2 ⟨s', .f32, N', v'⟩ ⟨s', .i64, N', v'⟩
        (widenLo v' (cvtfpL 32 m y) (sraiL 32 (cvtfpL 32 m y) 31)) (widenHi v' (cvtfpL 32 m y) (sraiL 32 (cvtfpL 32 m y) 31)) := by
      unfold rintKM
      exact (if_neg (show ¬ ((8 : Nat) = 4) by decide)).trans ((if_pos rfl).trans ((if_pos rfl).trans ((if_neg (fun h => h rfl)).trans ((if_neg hnl).trans (if_neg hq)))))
    rw [e]
    refine ⟨_, strided_put2 (c := ⟨s', .f32, N', v'⟩) (ci := ⟨s', .i64, N', v'⟩) hc (ext_double _ _ _) hp _ _ x hd, fun i hi hr => ?_⟩
    have hl32 : ∀ (y : Vec v') k, k < v'.bits / 32 → lane 32 (cvtfpL 32 m y) k = cvtInt 32 m (lane 32 y k) :=
      fun y k hk => lane_map1 (w := 32) (fun a => cvtInt 32 m a) y (by cases v' <;> simp [VSz.bits] at hk ⊢ <;> omega)
    have hb : v'.bits / 64 + v'.bits / 64 = v'.bits / 32 := by cases v' <;> rfl
    rw [put2_elt hc (fun y => widenLo v' (cvtfpL 32 m y) (sraiL 32 (cvtfpL 32 m y) 31)) (fun y => widenHi v' (cvtfpL 32 m y) (sraiL 32 (cvtfpL 32 m y) 31))
      (fun a => (cvtInt 32 m a).signExtend 64) ?_ ?_ x _ hi]
    · unfold Cvt32Range at hr
      rw [if_neg hq] at hr
      have e3 := toInt_sext32 (cvtInt 32 m (elt ⟨s', .f32, N', v'⟩ x i))
      have e4 := cvtInt_dir m (k := 32) (by omega) hr
      rw [← e3] at e4
      exact e4
    · intro y k hk
      refine (widenLo_lane v' _ hk).trans ?_
      rw [hl32 _ _ (by omega)]
    · intro y k hk
      refine (widenHi_lane v' _ hk).trans ?_
      rw [hl32 _ _ (by omega)]

omit hc hl in
theorem llrintM_runs (x : c.Data) : mLlrint m c cl L x = strided c cl (rintKM m c cl) x ∧ mLround m c cl L x = strided c cl (rintKM m c cl) x ∧
    mLlround m c cl L x = strided c cl (rintKM m c cl) x := ⟨both_ofUb _ _, both_ofUb _ _, both_ofUb _ _⟩
omit hc hl in
theorem irintM_runs (x : c.Data) : mIrint m c cl L x = vectorizeI c cl (rintKM m c cl) x := both_ofUb _ _
omit hc hl in
theorem eachInt_weaken {R R' : Int → Int → Int → Prop} {P : BitVec c.w → Prop} {x : c.Data} {o : Out cl.Data}
    (h : EachInt c cl R P x o) (hR : ∀ v z, R v (2 ^ unitExp c.w : Nat) z → R' v (2 ^ unitExp c.w : Nat) z) : EachInt c cl R' P x o := by
  obtain ⟨r, h1, h2⟩ := h
  exact ⟨r, h1, fun i hi hp => hR _ _ (h2 i hi hp)⟩

/-- C83, `llrint` and `ext::irint<int64_t>` of doubles: in the current direction.  Partial: without AVX-512 DQ and VL only elements within
`±2^51` and not `FE_TOWARDZERO`. -/
theorem C83_llrint_double_partial (h8 : c.T = .f64) (hz : m ≠ .zero ∨ c.s.dqvl = true) (x : c.Data) :
    EachInt c cl (IsInDir m) (Cvt64Range c.s) x (mLlrint m c cl L x) ∧ EachInt c cl (IsInDir m) (Cvt64Range c.s) x (mIrint m c cl L x) := by
  obtain ⟨h1, h2⟩ := strided_doubleM' hc hl m h8 x
  rw [(llrintM_runs L m x).1, irintM_runs L m x]
  exact ⟨eachInt_weaken h1 (fun v z h => by rw [if_pos hz] at h; exact h), eachInt_weaken h2 (fun v z h => by rw [if_pos hz] at h; exact h)⟩
/-- C83, `llrint` of floats: in the current direction.  Partial: as `C60_llrint_float_partial`. -/
theorem C83_llrint_float_partial (h4 : c.T = .f32) (hv : cl.v = c.v) (ha : c.v = .v256 → c.s.avx2 = true) (hN : FillsLast c) (x : c.Data) :
    EachInt c cl (IsInDir m) (Cvt32Range c.s c.v) x (mLlrint m c cl L x) := by
  rw [(llrintM_runs L m x).1]; exact strided_floatM hc hl m h4 hv ha hN x
/-- rounded down, which for a negative number that is no integer is not the number rounded towards zero -/
def DownNotTrunc (v D z : Int) : Prop := IsFloor v D z ∧ (v < 0 → (∀ k : Int, v ≠ k * D) → ¬ IsTrunc v D z)
omit hc hl in
theorem downNotTrunc_of {v D z : Int} (h : IsFloor v D z) : DownNotTrunc v D z := by
  refine ⟨h, fun hv hk ht => ?_⟩
  have h1 := (ht.2 (by omega)).2
  exact hk z (by have := h.1; omega)
/-- C83 (violated): before AVX-512 DQ and VL, `llrint`, `ext::irint<int64_t>`, `lround` and `llround` of doubles round down when the direction
is `FE_TOWARDZERO`. -/
theorem C83_llrint_zero_violated (h8 : c.T = .f64) (hs : c.s.dqvl = false) (x : c.Data) :
    EachInt c cl DownNotTrunc (Cvt64Range c.s) x (mLlrint .zero c cl L x) ∧ EachInt c cl DownNotTrunc (Cvt64Range c.s) x (mIrint .zero c cl L x) ∧
    EachInt c cl DownNotTrunc (Cvt64Range c.s) x (mLround .zero c cl L x) ∧ EachInt c cl DownNotTrunc (Cvt64Range c.s) x (mLlround .zero c cl L x) := by
  obtain ⟨h1, h2⟩ := strided_doubleM' hc hl .zero h8 x
  rw [(llrintM_runs L .zero x).1, (llrintM_runs L .zero x).2.1, (llrintM_runs L .zero x).2.2, irintM_runs L .zero x]
  have e : ¬ (RMode.zero ≠ .zero ∨ c.s.dqvl = true) := by rw [hs]; simp
  have h1 := eachInt_weaken h1 (R' := DownNotTrunc) (fun v z h => by rw [if_neg e] at h; exact downNotTrunc_of h)
  exact ⟨h1, eachInt_weaken h2 (fun v z h => by rw [if_neg e] at h; exact downNotTrunc_of h), h1, h1⟩
/-- above `k` and below `k + 1/2` the result is `k + 1`, which is not the nearest integer -/
def UpNotNearest (v D z : Int) : Prop := ∀ k : Int, 0 ≤ k → k * D < v → 2 * v < (2 * k + 1) * D → z = k + 1 ∧ ¬ IsRoundAway v D z
omit hc hl in
theorem upNotNearest_of {v D z : Int} (hD : 0 < D) (h : IsCeil v D z) : UpNotNearest v D z := by
  intro k hk h1 h2
  have hz : z = k + 1 := by
    obtain ⟨a, b⟩ := h
    have c1 := Int.lt_of_mul_lt_mul_right (Int.lt_of_lt_of_le h1 b) (by omega)
    have c2 : z - 1 < k + 1 := by
      refine Int.lt_of_mul_lt_mul_right (Int.lt_trans a ?_) (by omega : 0 ≤ D)
      rw [Int.add_mul] at h2 ⊢
      rw [Int.mul_assoc] at h2
      omega
    omega
  refine ⟨hz, fun ha => ?_⟩
  have hv : 0 < v := Int.lt_of_le_of_lt (Int.mul_nonneg hk (by omega)) h1
  have := (ha.1 (by omega)).1
  rw [hz, show 2 * (k + 1) - 1 = 2 * k + 1 by omega] at this
  omega
/-- C83 (violated): `lround` and `llround` should round to the nearest integer in every direction, but they follow the current one: with
`FE_UPWARD` numbers just above an integer are rounded up. -/
theorem C83_llround_violated (h8 : c.T = .f64) (x : c.Data) :
    EachInt c cl UpNotNearest (Cvt64Range c.s) x (mLround .up c cl L x) ∧ EachInt c cl UpNotNearest (Cvt64Range c.s) x (mLlround .up c cl L x) := by
  obtain ⟨h1, h2⟩ := strided_doubleM' hc hl .up h8 x
  rw [(llrintM_runs L .up x).2.1, (llrintM_runs L .up x).2.2]
  have h1 := eachInt_weaken h1 (R' := UpNotNearest) (fun v z h => by rw [if_pos (Or.inl (by simp))] at h; exact upNotNearest_of (D_pos _) h)
  exact ⟨h1, h1⟩
end llrint
section int32
variable {c ci : Cfg} (hc : c.Ok) (hi : c.IntOf ci) (L : Cmath c.w) (m : RMode)
include hc hi
/-- C83, `ext::irint<int>` of floats: in the current direction, for all elements in the range of `int` -/
theorem C83_irint_float (h4 : c.T = .f32) (x : c.Data) : EachInt c ci (IsInDir m) Int32Range x (mIrint m c ci L x) := by
  rw [irintM_runs]
  obtain ⟨s, T, N, v⟩ := c
  obtain ⟨s', T', N', v'⟩ := ci
  obtain ⟨h1, h2, h3, h5⟩ := hi
  dsimp only at h1 h2 h3 h4 h5
  subst h1; subst h2; subst h3; subst h4
  have h5 : v' = v := by rcases h5 with h | ⟨h, _⟩; exact h; exact absurd h (by decide)
  subst h5
  obtain ⟨r, h1, h2⟩ := int_float hc (fun y => cvtfpL 32 m y) (fun a => cvtInt 32 m a) (fun y k hk => lane_map1 _ _ hk) x
  refine ⟨r, h1, fun i hi hp => ?_⟩
  rw [h2 i hi]
  exact cvtInt_dir m (k := 32) (by omega) hp
theorem irintM_pairs (h8 : c.T = .f64) (x : c.Data) : PairsUp c ci (fun a z => z = (cvtInt 32 m a).toInt) x (mIrint m c ci L x) := by
  rw [irintM_runs L m x]
  have k1 : rintKM m c ci = some fun y => putI32 ci (cvtpdEpi32 m c.v y) := by
    unfold rintKM; rw [hi.T, h8]; rfl
  rw [k1]
  have he : c.e = c.v.bits / 64 := by
    show extent c.T c.v = _; rw [h8]; exact extent8 _ _ _
  refine pairs_double hc h8 hi _ _ (fun y k hk => ?_) x
  rw [cvtpd_lane _ _ _ hk, he, show c.w = 64 by unfold Cfg.w; rw [h8]; rfl]
/-- C83, `ext::irint<int>` of doubles: in the current direction.  Partial: at most one native vector of elements. -/
theorem C83_irint_double_partial (h8 : c.T = .f64) (hN : c.N ≤ c.e) (x : c.Data) : EachInt c ci (IsInDir m) Int32Range x (mIrint m c ci L x) :=
  pairs_one (irintM_pairs hc hi L m h8 x) hN (int_e_le h8 hi) (fun a z hp hz => by rw [hz]; exact cvtInt_dir m (k := 32) (by omega) hp)
end int32

/-! ### The hypotheses can be met -/
/-- four doubles `2.25` with AVX: `llround` upwards gives 3, `llrint` downwards 2; `-2.25` towards zero gives `-3` -/
example : (∃ r, mLlround .up exF64 exF64l (exLib 64) (vbroadcast exF64 0x4002000000000000 (zeroData exF64)) = .ok r ∧ ∀ i, i < 4 → (elt exF64l r i).toInt = 3) ∧
    (∃ r, mLlrint .down exF64 exF64l (exLib 64) (vbroadcast exF64 0x4002000000000000 (zeroData exF64)) = .ok r ∧
      ∀ i, i < 4 → IsFloor (9 * 2 ^ 1072) (2 ^ 1074) (elt exF64l r i).toInt) ∧
    ∃ r, mLlrint .zero exF64 exF64l (exLib 64) (vbroadcast exF64 0xC002000000000000 (zeroData exF64)) = .ok r ∧
      ∀ i, i < 4 → IsFloor (-9 * 2 ^ 1072) (2 ^ 1074) (elt exF64l r i).toInt := by
  refine ⟨?_, ?_, ?_⟩
  · obtain ⟨r, hr, h⟩ := int_bcast exF64_ok _ (C83_llround_violated exF64_ok exF64l_of (exLib 64) rfl (vbroadcast exF64 0x4002000000000000 (zeroData exF64))).2
      (by decide +kernel)
    exact ⟨r, hr, fun i hi => (h i hi 2 (by omega) (by decide +kernel) (by decide +kernel)).1⟩
  · obtain ⟨r, hr, h⟩ := int_bcast exF64_ok _ (C83_llrint_double_partial exF64_ok exF64l_of (exLib 64) .down rfl (Or.inl (by simp)) (vbroadcast exF64 0x4002000000000000 (zeroData exF64))).1
      (by decide +kernel)
    refine ⟨r, hr, fun i hi => ?_⟩
    have := h i hi
    rwa [show val (0x4002000000000000 : BitVec exF64.w) = 9 * 2 ^ 1072 by decide +kernel] at this
  · obtain ⟨r, hr, h⟩ := int_bcast exF64_ok _ (C83_llrint_zero_violated exF64_ok exF64l_of (exLib 64) rfl (by decide) (vbroadcast exF64 0xC002000000000000 (zeroData exF64))).1
      (by decide +kernel)
    refine ⟨r, hr, fun i hi => ?_⟩
    have := (h i hi).1
    rwa [show val (0xC002000000000000 : BitVec exF64.w) = -9 * 2 ^ 1072 by decide +kernel] at this
/-- seven floats `-2.75` upwards; six floats and four doubles to `int` -/
example (m : RMode) (x : exF32.Data) (y : exF64.Data) :
    (∃ r, mLlrint .up exL7 exL7l (exLib 32) (vbroadcast exL7 0xc0300000 (zeroData exL7)) = .ok r ∧ ∀ i, i < 7 → IsCeil (-11 * 2 ^ 147) (2 ^ 149) (elt exL7l r i).toInt) ∧
    EachInt exF32 exF32i (IsInDir m) Int32Range x (mIrint m exF32 exF32i (exLib 32) x) ∧
    EachInt exF64 exF64i (IsInDir m) Int32Range y (mIrint m exF64 exF64i (exLib 64) y) := by
  refine ⟨?_, C83_irint_float exF32_ok exF32i_of _ m rfl x, C83_irint_double_partial exF64_ok exF64i_of _ m rfl (by decide) y⟩
  obtain ⟨r, hr, h⟩ := int_bcast exL7_ok _ (C83_llrint_float_partial exL7_ok exL7_of (exLib 32) .up rfl rfl (by decide) (by decide) (vbroadcast exL7 0xc0300000 (zeroData exL7)))
    (by decide +kernel)
  refine ⟨r, hr, fun i hi => ?_⟩
  have := h i hi
  rwa [show val (0xc0300000 : BitVec exL7.w) = -11 * 2 ^ 147 by decide +kernel] at this
end Dpm.X86
