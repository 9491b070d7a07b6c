import Verif.Proofs.Cvt
import Verif.Props.X86Float
/-
C29, C30: conversions between integers and floating point.  In this library they happen in `copy_from` / `copy_to` with
an iterator over another arithmetic type (and in the constructors from memory, which call `copy_from`).
`IsRounded s n d r`: `r` is the correctly rounded `±n/d` (Spec/Ieee.lean); values are counted in units `2^-unitExp`.
-/
namespace Dpm.X86
open Dpm.Reg Dpm.Fp

/-- `r` is the floating-point number nearest to the integer `z` (ties to even) -/
def IsNearestFloat {w : Nat} (z : Int) (r : BitVec w) : Prop := IsRounded (decide (z < 0)) (z.natAbs * 2 ^ unitExp w) 1 r

theorem nearest_ofInt {w : Nat} (h : W w) (z : Int) : IsNearestFloat z (ofInt w z) := ofInt_isRounded h z
theorem nearest_unique {w : Nat} (h : W w) {z : Int} {r : BitVec w} (hr : IsNearestFloat z r) : r = ofInt w z := isRounded_unique h Nat.one_pos hr

/-! ### C29 -/
/-- The conversions that aligned copies get right: all but odd `uint32_t` values from `2^25` on and, with SSE4.1 but
without AVX-512, `int64_t` in 128-bit registers or without AVX2. -/
def cvtRight (s : ISA) (v : VSz) (U : Ety) (x : BitVec U.w) : Prop :=
  (U.bytes = 4 ∧ U.signed = false → x.toNat % 2 = 0 ∨ x.toNat < 2 ^ 25) ∧
  (U.bytes = 8 ∧ U.signed = true → s.sse41 = false ∨ s.dqvl = true ∨ (v = .v256 ∧ s.avx2 = true))

theorem cvtI_lane (s : ISA) (v : VSz) (U T : Ety) (hU : U.flt = false) (hT : T.flt = true) (hb : T.bytes = U.bytes) (h48 : T.bytes = 4 ∨ T.bytes = 8) :
    ∃ g : Vec v → Vec v, (∀ x, nativeVecCast s U T v x = some (g x)) ∧
      ∀ x i, i < extent T v → cvtRight s v U (lane U.w x i) → lane T.w (g x) i = ofInt T.w (U.ity.val (lane U.w x i)) := by
  obtain ⟨ub, uf, us⟩ := U
  obtain ⟨tb, tf, ts⟩ := T
  dsimp only at hU hT hb h48
  subst hU hT hb
  have hne : ¬ ((⟨tb, false, us⟩ : Ety) = ⟨tb, true, ts⟩ ∨ (false = false ∧ true = false ∧ tb = tb)) := by simp
  rcases h48 with h | h <;> subst h
  · refine ⟨fun x => if us then cvtepiL 32 x else cvtU32F32 s v x, fun x => by
      unfold nativeVecCast cvtV; simp, fun x i hi hr => ?_⟩
    have hbd : (i + 1) * 32 ≤ v.bits := lane_bound (T := ⟨4, true, true⟩) (by decide) hi
    dsimp only
    cases us
    · have hr' := hr.1 ⟨rfl, rfl⟩
      rw [if_neg (by simp)]
      show lane 32 (cvtU32F32 s v x) i = ofInt 32 (lane 32 x i).toNat
      rw [cvtU32F32_lane s v x (i := i) (by simpa [extent, Ety.f32] using hi)]
      exact u32f32_core _ hr'
    · exact lane_map1 (w := 32) (fun a => ofInt 32 a.toInt) x hbd
  · refine ⟨fun x => if us then cvtI64F64 s v x else cvtU64F64 s v x, fun x => by
      unfold nativeVecCast cvtV; simp, fun x i hi hr => ?_⟩
    have hbd : (i + 1) * 64 ≤ v.bits := lane_bound (T := ⟨8, true, true⟩) (by decide) hi
    dsimp only
    cases us
    · rw [if_neg (by simp)]
      show lane 64 (cvtU64F64 s v x) i = ofInt 64 (lane 64 x i).toNat
      cases v with
      | v128 =>
        unfold cvtU64F64; dsimp only; split
        · exact lane_map1 (w := 64) (fun a => ofInt 64 a.toNat) x hbd
        · exact u64f64Sse_lane s x (by simpa [extent, VSz.bytes] using hi)
      | v256 =>
        unfold cvtU64F64; dsimp only; split
        · exact lane_map1 (w := 64) (fun a => ofInt 64 a.toNat) x hbd
        · exact u64f64Avx_lane s x (by simpa [extent, VSz.bytes] using hi)
    · have hr' := hr.2 ⟨rfl, rfl⟩
      rw [if_pos rfl]
      show lane 64 (cvtI64F64 s v x) i = ofInt 64 (lane 64 x i).toInt
      cases v with
      | v128 =>
        unfold cvtI64F64; dsimp only; split
        · exact lane_map1 (w := 64) (fun a => ofInt 64 a.toInt) x hbd
        · next h => exact i64f64Sse_lane s (by simpa [h] using hr') x (by simpa [extent, VSz.bytes] using hi)
      | v256 =>
        unfold cvtI64F64; dsimp only; split
        · exact lane_map1 (w := 64) (fun a => ofInt 64 a.toInt) x hbd
        · next h => exact i64f64Avx_lane s (by rcases hr' with h1 | h1 | h1; exact Or.inr h1; exact absurd h1 h; exact Or.inl h1.2) x (by simpa [extent, VSz.bytes] using hi)

theorem flt_48 {T : Ety} (h : T.Ok) (hf : T.flt = true) : T.bytes = 4 ∨ T.bytes = 8 := (h.2 hf).1

/-- C29, aligned `copy_from`: elements of an integer array of the element size become the nearest floating-point
numbers.  Partial: without the values and instruction sets excluded by `cvtRight`. -/
theorem C29_copy_from_aligned_partial {c : Cfg} (hc : c.Ok) (hf : c.T.flt = true) {U : Ety} (hU : U.flt = false) (hb : c.T.bytes = U.bytes)
    {f : Flag} (hfl : f.aligned c.v.bytes = true) (d : c.Data) (len : Nat) (hl : c.dataSize * c.e ≤ len) (mem : Mem (BitVec U.w))
    (hr : ∀ i, i < c.N → cvtRight c.s c.v U (mem i)) :
    ∃ r, copyFromAs c U f d len mem = .ok r ∧ ∀ i, i < c.N → IsNearestFloat (U.ity.val (mem i)) (elt c r i) := by
  obtain ⟨g, hg, hg2⟩ := cvtI_lane c.s c.v U c.T hU hf hb (flt_48 hc.ety hf)
  obtain ⟨r, h1, h2⟩ := copyFromAs_native hc g hg hfl d len mem hl
  refine ⟨r, h1, fun i hi => ?_⟩
  have hw : U.w = c.T.w := by unfold Ety.w; omega
  have hbd : (i % c.e + 1) * U.w ≤ c.v.bits := by rw [hw]; exact lane_bound hc.ety (idx_mod hc i)
  have e1 : lane U.w (ofLanes c.v.bits U.w (fun k => mem (i / c.e * c.e + k))) (i % c.e) = mem i := by
    rw [lane_ofLanes _ hbd, div_mod_eq]
  rw [h2 i hi, show lane c.w _ (i % c.e) = _ from hg2 _ _ (idx_mod hc i) (by rw [e1]; exact hr i hi), e1]
  exact nearest_ofInt (fltW hc.ety hf) _

/-- C29, element-wise `copy_from` (`element_aligned`): every integer is converted to the nearest floating-point number. -/
theorem C29_copy_from_element {c : Cfg} (hc : c.Ok) (hf : c.T.flt = true) {U : Ety} (hU : U.flt = false)
    {f : Flag} (hfl : f.aligned c.v.bytes = false) (d : c.Data) (len : Nat) (hl : c.N ≤ len) (mem : Mem (BitVec U.w)) :
    ∃ r, copyFromAs c U f d len mem = .ok r ∧ ∀ i, i < c.N → IsNearestFloat (U.ity.val (mem i)) (elt c r i) := by
  obtain ⟨r, h1, h2⟩ := copyFromAs_elem hc hfl d len mem (fun i => ofInt c.w (U.ity.val (mem i)))
    (fun i _ => by unfold scalarCast; rw [if_neg (by rw [hf, hU]; simp), if_pos hf]) hl
  exact ⟨r, h1, fun i hi => by rw [h2 i hi]; exact nearest_ofInt (fltW hc.ety hf) _⟩

/-- C29 is violated for `uint32_t`: `2^25 + 3` is rounded twice, on every instruction set. -/
theorem C29_violated_u32 {c : Cfg} (hc : c.Ok) (hT : c.T = .f32) {f : Flag} (hfl : f.aligned c.v.bytes = true) (d : c.Data) (len : Nat)
    (hl : c.dataSize * c.e ≤ len) :
    ∃ r, copyFromAs c .u32 f d len (fun _ => 33554435#32) = .ok r ∧ ∀ i, i < c.N → ¬ IsNearestFloat 33554435 (elt c r i) := by
  obtain ⟨s, T, N, v⟩ := c
  dsimp only at hT; subst hT
  obtain ⟨r, h1, h2⟩ := copyFromAs_native hc (U := .u32) (cvtU32F32 s v) (fun x => by unfold nativeVecCast cvtV; simp [Ety.u32, Ety.f32]) hfl d len (fun _ => 33554435#32) hl
  refine ⟨r, h1, fun i hi hn => ?_⟩
  have hbd : (i % Cfg.e ⟨s, .f32, N, v⟩ + 1) * 32 ≤ v.bits := lane_bound hc.ety (idx_mod hc i)
  have e1 : lane 32 (ofLanes v.bits 32 (fun _ => 33554435#32)) (i % Cfg.e ⟨s, .f32, N, v⟩) = 33554435#32 := lane_ofLanes _ hbd
  have e2 : lane 32 (cvtU32F32 s v (ofLanes v.bits 32 (fun _ => 33554435#32))) (i % Cfg.e ⟨s, .f32, N, v⟩) =
      u32f32Lane 33554435#32 := by
    rw [cvtU32F32_lane s v _ (idx_mod hc i), e1]
  have h3 := nearest_unique (fltW hc.ety rfl) hn
  rw [h2 i hi] at h3
  have h4 : u32f32Lane 33554435#32 = ofInt 32 33554435 := by
    rw [← e2]; exact h3
  revert h4
  decide +kernel

/-- C29 is violated for `int64_t` with SSE4.1 in 128-bit registers (without AVX-512): `2^48` becomes `0`. -/
theorem C29_violated_i64 {c : Cfg} (hc : c.Ok) (hT : c.T = .f64) (hv : c.v = .v128) (hs : c.s.sse41 = true) (hq : c.s.dqvl = false)
    {f : Flag} (hfl : f.aligned c.v.bytes = true) (d : c.Data) (len : Nat) (hl : c.dataSize * c.e ≤ len) :
    ∃ r, copyFromAs c .i64 f d len (fun _ => 281474976710656#64) = .ok r ∧ ∀ i, i < c.N → ¬ IsNearestFloat 281474976710656 (elt c r i) := by
  obtain ⟨s, T, N, v⟩ := c
  dsimp only at hT hv hs hq; subst hT; subst hv
  obtain ⟨r, h1, h2⟩ := copyFromAs_native hc (U := .i64) (cvtI64F64 s .v128) (fun x => by unfold nativeVecCast cvtV; simp [Ety.i64, Ety.f64]) hfl d len (fun _ => 281474976710656#64) hl
  refine ⟨r, h1, fun i hi hn => ?_⟩
  have he : Cfg.e ⟨s, .f64, N, .v128⟩ = 2 := by show extent .f64 .v128 = 2; decide
  have hk := idx_mod hc i
  rw [he] at hk
  have h3 := nearest_unique (fltW hc.ety rfl) hn
  rw [h2 i hi] at h3
  unfold cvtI64F64 at h3
  dsimp only at h3
  have hbd : (i % 2 + 1) * 64 ≤ 128 := by omega
  rw [hq, if_neg (by simp), he] at h3
  have h5 : i64f64Bad 281474976710656#64 = ofInt 64 281474976710656 := by
    have h6 := i64f64Sse_bad s hs (ofLanes 128 64 fun _ => 281474976710656#64) hk
    rw [lane_ofLanes _ hbd] at h6
    exact h6.symm.trans h3
  revert h5
  decide +kernel

theorem small_u32 (n : Nat) (h : n < 2 ^ 25) : (BitVec.ofNat 32 n).toNat < 2 ^ 25 := by rw [BitVec.toNat_ofNat]; omega
theorem u32_val (n : Nat) (h : n < 2 ^ 32) : Ety.u32.ity.val (BitVec.ofNat 32 n) = n := by
  show ((BitVec.ofNat 32 n).toNat : Int) = n
  rw [BitVec.toNat_ofNat, Nat.mod_eq_of_lt h]
/-- the hypotheses can be met: odd `uint32_t` values below `2^25`, `int64_t` on AVX2 -/
example : ∃ r, copyFromAs exF32 .u32 .vector (zeroData exF32) 8 (fun i => BitVec.ofNat 32 (2 * i + 16777217)) = .ok r ∧
    ∀ i, i < 6 → IsNearestFloat (2 * i + 16777217 : Nat) (elt exF32 r i) := by
  obtain ⟨r, h, h2⟩ := C29_copy_from_aligned_partial exF32_ok rfl (U := .u32) rfl rfl (f := .vector) rfl (zeroData exF32) 8 (by decide)
    (fun i => BitVec.ofNat 32 (2 * i + 16777217)) (fun i hi => by
      have hi' : i < 6 := hi
      refine ⟨fun _ => Or.inr ?_, fun h => absurd h.1 (by decide)⟩
      exact small_u32 _ (by omega))
  refine ⟨r, h, fun i hi => ?_⟩
  have := h2 i hi
  rwa [u32_val _ (by omega)] at this

/-! ### C30 -/
/-- the integers between which aligned copies to an integer type other than `uint32_t` are defined -/
def cvtLo (s : ISA) (U : Ety) : Int :=
  if U.signed then if U.bytes = 4 then -2 ^ 31 else if s.dqvl then -2 ^ 63 else -2 ^ 51 else 0
def cvtHi (s : ISA) (U : Ety) : Int :=
  if U.signed then if U.bytes = 4 then 2 ^ 31 - 1 else if s.dqvl then 2 ^ 63 - 1 else 2 ^ 51
  else if s.dqvl then 2 ^ 64 - 1 else 2 ^ 52 - 1
/-- `x` is finite and between `lo` and `hi` -/
def InRange (lo hi : Int) {w : Nat} (x : BitVec w) : Prop :=
  isFinite x = true ∧ lo * (2 ^ unitExp w : Nat) ≤ val x ∧ val x ≤ hi * (2 ^ unitExp w : Nat)

theorem rint_bounds {v D lo hi r : Int} (hD : 0 < D) (h1 : lo * D ≤ v) (h2 : v ≤ hi * D) (hr : IsRint v D r) : lo ≤ r ∧ r ≤ hi := by
  obtain ⟨a, b, _⟩ := hr
  constructor
  · have h : (2 * lo) * D ≤ (2 * r + 1) * D := by
      rw [Int.mul_assoc]; omega
    have := Int.le_of_mul_le_mul_right h hD
    omega
  · have h : (2 * r - 1) * D ≤ (2 * hi) * D := by
      rw [Int.mul_assoc 2 hi]; omega
    have := Int.le_of_mul_le_mul_right h hD
    omega
theorem D_pos (w : Nat) : (0 : Int) < (2 ^ unitExp w : Nat) := by
  have := Nat.two_pow_pos (unitExp w)
  exact_mod_cast this
theorem cvtInt_range {w k : Nat} {x : BitVec w} {lo hi : Int} (hr : InRange lo hi x) (h1 : -(2 ^ (k - 1) : Int) ≤ lo) (h2 : hi < 2 ^ (k - 1)) :
    cvtInt k .nearest x = BitVec.ofInt k (Fp.toInt .nearest x) := by
  have hb := rint_bounds (D_pos w) hr.2.1 hr.2.2 (toInt_rint x)
  unfold cvtInt
  rw [if_pos]
  simp only [hr.1, Bool.true_and, Bool.and_eq_true, decide_eq_true_eq]
  omega
theorem cvtUInt_range {w k : Nat} {x : BitVec w} {lo hi : Int} (hr : InRange lo hi x) (h1 : 0 ≤ lo) (h2 : hi < 2 ^ k) :
    cvtUInt k .nearest x = BitVec.ofInt k (Fp.toInt .nearest x) := by
  have hb := rint_bounds (D_pos w) hr.2.1 hr.2.2 (toInt_rint x)
  unfold cvtUInt
  rw [if_pos]
  simp only [hr.1, Bool.true_and, Bool.and_eq_true, decide_eq_true_eq]
  omega
theorem f64i64L_lane {n : Nat} (x : BitVec n) {i : Nat} (hb : (i + 1) * 64 ≤ n) :
    lane 64 (f64i64L x) i = fadd (lane 64 x i) (ofInt 64 0x0018000000000000) - ofInt 64 0x0018000000000000 := by
  unfold f64i64L subL faddL
  dsimp only
  rw [lane_map2 _ _ _ hb, lane_map2 _ _ _ hb, set1_lane _ hb]
theorem f64u64L_lane {n : Nat} (x : BitVec n) {i : Nat} (hb : (i + 1) * 64 ≤ n) :
    lane 64 (f64u64L x) i = fadd (lane 64 x i) (ofInt 64 0x0010000000000000) ^^^ ofInt 64 0x0010000000000000 := by
  unfold f64u64L faddL
  dsimp only
  rw [lane_xor, lane_map2 _ _ _ hb, set1_lane _ hb]
/-- what `cvt_f64_i64` computes in each lane without AVX-512 -/
def f64i64Lane (x : BitVec 64) : BitVec 64 := fadd x (ofInt 64 0x0018000000000000) - ofInt 64 0x0018000000000000
theorem cvtF64I64_lane (s : ISA) (v : VSz) (x : Vec v) {i : Nat} (hi : i < extent .f64 v) :
    lane 64 (cvtF64I64 s v x) i = if s.dqvl then cvtInt 64 .nearest (lane 64 x i) else f64i64Lane (lane 64 x i) := by
  have hT : Ety.f64.Ok := by decide
  have hbd : (i + 1) * 64 ≤ v.bits := lane_bound hT hi
  cases v with
  | v128 =>
    unfold cvtF64I64; dsimp only
    split
    · exact lane_map1 (w := 64) (fun a => cvtInt 64 .nearest a) x hbd
    · exact f64i64L_lane (n := 128) x hbd
  | v256 =>
    unfold cvtF64I64; dsimp only
    split
    · exact lane_map1 (w := 64) (fun a => cvtInt 64 .nearest a) x hbd
    · split
      · exact f64i64L_lane (n := 256) x hbd
      · exact mux1_lane hT f64i64L f64i64Lane (fun a i hi => f64i64L_lane a (lane_bound hT (v := .v128) hi)) x hi
theorem w64_lit : unitExp 64 = 1074 := rfl

theorem cvtF_lane (s : ISA) (v : VSz) (U T : Ety) (hU : U.flt = false) (hT : T.flt = true) (hb : T.bytes = U.bytes) (h48 : T.bytes = 4 ∨ T.bytes = 8)
    (hu : ¬ (U.bytes = 4 ∧ U.signed = false)) :
    ∃ g : Vec v → Vec v, (∀ x, nativeVecCast s T U v x = some (g x)) ∧
      ∀ x i, i < extent T v → InRange (cvtLo s U) (cvtHi s U) (lane T.w x i) →
        ∃ r : Int, IsRint (val (lane T.w x i)) (2 ^ unitExp T.w : Nat) r ∧ lane U.w (g x) i = BitVec.ofInt U.w r := by
  obtain ⟨ub, uf, us⟩ := U
  obtain ⟨tb, tf, ts⟩ := T
  dsimp only at hU hT hb h48 hu
  subst hU hT hb
  rcases h48 with h | h <;> subst h
  · have hus : us = true := by cases us <;> simp_all
    subst hus
    refine ⟨fun x => cvtfpL 32 .nearest x, fun x => by unfold nativeVecCast cvtV; simp, fun x i hi hr => ?_⟩
    have hbd : (i + 1) * 32 ≤ v.bits := lane_bound (T := ⟨4, true, true⟩) (by decide) hi
    refine ⟨_, toInt_rint _, ?_⟩
    have e : lane 32 (cvtfpL 32 .nearest x) i = cvtInt 32 .nearest (lane 32 x i) := lane_map1 (w := 32) (fun a => cvtInt 32 .nearest a) x hbd
    refine e.trans (cvtInt_range hr ?_ ?_) <;> simp [cvtLo, cvtHi]
  · cases us
    · refine ⟨fun x => cvtF64U64 s v x, fun x => by unfold nativeVecCast cvtV; simp, fun x i hi hr => ?_⟩
      have hbd : (i + 1) * 64 ≤ v.bits := lane_bound (T := ⟨8, true, true⟩) (by decide) hi
      show ∃ r : Int, _ ∧ lane 64 (cvtF64U64 s v x) i = BitVec.ofInt 64 r
      unfold cvtF64U64
      cases hd : s.dqvl
      · rw [if_neg (by simp), f64u64L_lane x hbd]
        have hr' : InRange 0 (2 ^ 52 - 1) (lane 64 x i) := by have h := hr; simp [cvtLo, cvtHi, hd] at h; exact h
        have h3 := hr'.2.1
        rw [Int.zero_mul] at h3
        exact f64u64_core _ hr'.1 h3 (by rw [Int.natCast_mul]; exact hr'.2.2)
      · rw [if_pos rfl]
        refine ⟨_, toInt_rint _, ?_⟩
        have e : lane 64 (cvtfpuL 64 .nearest x) i = cvtUInt 64 .nearest (lane 64 x i) := lane_map1 (w := 64) (fun a => cvtUInt 64 .nearest a) x hbd
        refine e.trans (cvtUInt_range hr ?_ ?_) <;> simp [cvtLo, cvtHi, hd]
    · refine ⟨fun x => cvtF64I64 s v x, fun x => by unfold nativeVecCast cvtV; simp, fun x i hi hr => ?_⟩
      show ∃ r : Int, _ ∧ lane 64 (cvtF64I64 s v x) i = BitVec.ofInt 64 r
      rw [cvtF64I64_lane s v x (by simpa [extent, Ety.f64] using hi)]
      cases hd : s.dqvl
      · rw [if_neg (by simp)]
        have hr' : InRange (-2 ^ 51) (2 ^ 51) (lane 64 x i) := by have h := hr; simp [cvtLo, cvtHi, hd] at h; exact h
        have h3 := hr'.2.1
        rw [Int.neg_mul] at h3
        exact f64i64_core _ hr'.1 (by rw [Int.natCast_mul]; exact h3) (by rw [Int.natCast_mul]; exact hr'.2.2)
      · rw [if_pos rfl]
        refine ⟨_, toInt_rint _, ?_⟩
        refine (cvtInt_range hr ?_ ?_) <;> simp [cvtLo, cvtHi, hd]

/-- C30 is violated by aligned `copy_to`: the elements are rounded to nearest even instead of being truncated.
For every instruction set and every integer type of the element size but `uint32_t`, and within the range of the
conversion, the stored integer is the rounded one. -/
theorem C30_copy_to_aligned_rounds {c : Cfg} (hc : c.Ok) (hf : c.T.flt = true) {U : Ety} (hU : U.flt = false) (hb : c.T.bytes = U.bytes)
    (hu : ¬ (U.bytes = 4 ∧ U.signed = false)) {f : Flag} (hfl : f.aligned c.v.bytes = true) (d : c.Data) (len : Nat)
    (hl : c.dataSize * c.e ≤ len) (mem : Mem (BitVec U.w)) (hr : ∀ i, i < c.N → InRange (cvtLo c.s U) (cvtHi c.s U) (elt c d i)) :
    ∃ m, copyToAs c U f d len mem = .ok m ∧ ∀ i, i < c.N →
      ∃ r : Int, IsRint (val (elt c d i)) (2 ^ unitExp c.w : Nat) r ∧ m i = BitVec.ofInt U.w r := by
  obtain ⟨g, hg, hg2⟩ := cvtF_lane c.s c.v U c.T hU hf hb (flt_48 hc.ety hf) hu
  refine ⟨_, by rw [copyToAs_native hc g hg hfl, if_pos hl], fun i hi => ?_⟩
  have hlt : i < c.dataSize * c.e := Nat.lt_of_lt_of_le hi (cap_ge hc)
  obtain ⟨r, h1, h2⟩ := hg2 (d (i / c.e)) (i % c.e) (idx_mod hc i) (hr i hi)
  exact ⟨r, h1, (if_pos hlt).trans h2⟩

/-- C30, aligned `copy_to`.  Partial: for elements that hold an integer (then rounding and truncating agree). -/
theorem C30_copy_to_aligned_partial {c : Cfg} (hc : c.Ok) (hf : c.T.flt = true) {U : Ety} (hU : U.flt = false) (hb : c.T.bytes = U.bytes)
    (hu : ¬ (U.bytes = 4 ∧ U.signed = false)) {f : Flag} (hfl : f.aligned c.v.bytes = true) (d : c.Data) (len : Nat)
    (hl : c.dataSize * c.e ≤ len) (mem : Mem (BitVec U.w)) (hr : ∀ i, i < c.N → InRange (cvtLo c.s U) (cvtHi c.s U) (elt c d i))
    (hz : ∀ i, i < c.N → ∃ z : Int, val (elt c d i) = z * (2 ^ unitExp c.w : Nat)) :
    ∃ m, copyToAs c U f d len mem = .ok m ∧ ∀ i, i < c.N →
      ∃ r : Int, IsTrunc (val (elt c d i)) (2 ^ unitExp c.w : Nat) r ∧ m i = BitVec.ofInt U.w r := by
  obtain ⟨m, h1, h2⟩ := C30_copy_to_aligned_rounds hc hf hU hb hu hfl d len hl mem hr
  refine ⟨m, h1, fun i hi => ?_⟩
  obtain ⟨r, h3, h4⟩ := h2 i hi
  obtain ⟨z, h5⟩ := hz i hi
  rw [h5] at h3 ⊢
  have := isRint_unique (D_pos c.w) h3 (isRint_of_eq (D_pos c.w))
  subst this
  exact ⟨r, isTrunc_of_eq (D_pos c.w), h4⟩

/-- C30, element-wise `copy_to` (`element_aligned`): elements whose truncated value is representable are truncated. -/
theorem C30_copy_to_element {c : Cfg} (hc : c.Ok) (hf : c.T.flt = true) {U : Ety} (hU : U.flt = false)
    {f : Flag} (hfl : f.aligned c.v.bytes = false) (d : c.Data) (len : Nat) (hl : c.N ≤ len) (mem : Mem (BitVec U.w))
    (hr : ∀ i, i < c.N → isFinite (elt c d i) = true ∧ ∃ z : Int, IsTrunc (val (elt c d i)) (2 ^ unitExp c.w : Nat) z ∧ U.ity.fits z = true) :
    ∃ m, copyToAs c U f d len mem = .ok m ∧ ∀ i, i < c.N →
      ∃ r : Int, IsTrunc (val (elt c d i)) (2 ^ unitExp c.w : Nat) r ∧ m i = BitVec.ofInt U.w r := by
  refine ⟨_, copyToAs_elem hc hfl d len mem (fun i => BitVec.ofInt U.w (Fp.toInt .zero (elt c d i))) (fun i hi => ?_) hl,
    fun i hi => ⟨_, toInt_trunc (elt c d i), if_pos hi⟩⟩
  obtain ⟨h1, z, h2, h3⟩ := hr i hi
  have hz : z = Fp.toInt .zero (elt c d i) := isTrunc_unique (D_pos c.w) h2 (toInt_trunc _)
  subst hz
  unfold scalarCast castToInt
  rw [if_neg (by rw [hf, hU]; simp), if_neg (by rw [hU]; simp), if_pos ⟨h1, h3⟩]

/-- The violations, concretely and for every configuration: `1.5f` is stored as `2` in an `int32_t`, and `1.0f` as `2`
in a `uint32_t`. -/
theorem C30_violated {c : Cfg} (hc : c.Ok) (hT : c.T = .f32) {f : Flag} (hfl : f.aligned c.v.bytes = true) (d : c.Data) (len : Nat)
    (hl : c.dataSize * c.e ≤ len) (mem : Mem (BitVec 32)) :
    ((∀ i, i < c.N → val (elt c d i) = 3 * 2 ^ 148) → (∀ i, i < c.N → isFinite (elt c d i) = true) →
      ∃ m, copyToAs c .i32 f d len mem = .ok m ∧ ∀ i, i < c.N → m i = 2#32) ∧
    ((∀ i, i < c.N → val (elt c d i) = 2 ^ 149) → (∀ i, i < c.N → isFinite (elt c d i) = true) →
      ∃ m, copyToAs c .u32 f d len mem = .ok m ∧ ∀ i, i < c.N → m i = 2#32) := by
  obtain ⟨s, T, N, v⟩ := c
  dsimp only at hT; subst hT
  constructor
  · intro h1 h2
    obtain ⟨m, h3, h4⟩ := C30_copy_to_aligned_rounds hc rfl (U := .i32) rfl rfl (by simp [Ety.i32]) hfl d len hl mem (fun i hi => ⟨h2 i hi, by
      rw [h1 i hi]
      show (-2 ^ 31 : Int) * (2 ^ 149 : Nat) ≤ _
      decide +kernel, by
      rw [h1 i hi]
      show _ ≤ (2 ^ 31 - 1 : Int) * (2 ^ 149 : Nat)
      decide +kernel⟩)
    refine ⟨m, h3, fun i hi => ?_⟩
    obtain ⟨r, h5, h6⟩ := h4 i hi
    rw [h1 i hi] at h5
    have : r = 2 := isRint_unique (D_pos 32) h5 ⟨by decide +kernel, by decide +kernel, by decide +kernel⟩
    rw [h6, this]; rfl
  · intro h1 h2
    refine ⟨_, (copyToAs_native hc (U := .u32) (cvtF32U32 v) (fun x => by unfold nativeVecCast cvtV; simp [Ety.u32, Ety.f32]) hfl d len mem).trans (if_pos hl), fun i hi => ?_⟩
    have hlt : i < Cfg.dataSize ⟨s, .f32, N, v⟩ * Cfg.e ⟨s, .f32, N, v⟩ := Nat.lt_of_lt_of_le hi (cap_ge hc)
    refine Eq.trans (if_pos hlt) ?_
    have hbd : (i % Cfg.e ⟨s, .f32, N, v⟩ + 1) * 32 ≤ v.bits := lane_bound hc.ety (idx_mod hc i)
    have e : lane 32 (cvtF32U32 v (d (i / Cfg.e ⟨s, .f32, N, v⟩))) (i % Cfg.e ⟨s, .f32, N, v⟩) =
        fadd (lane 32 (d (i / Cfg.e ⟨s, .f32, N, v⟩)) (i % Cfg.e ⟨s, .f32, N, v⟩)) (ofInt 32 0x400000) ^^^ ofInt 32 0x400000 := by
      unfold cvtF32U32 faddL
      dsimp only
      rw [lane_xor, lane_map2 _ _ _ hbd, set1_lane _ hbd]
    obtain ⟨r, h5, h6⟩ := f32u32_core (lane 32 (d (i / Cfg.e ⟨s, .f32, N, v⟩)) (i % Cfg.e ⟨s, .f32, N, v⟩)) (h2 i hi)
      (by rw [show val (lane 32 _ _) = _ from h1 i hi]; decide +kernel) (by rw [show val (lane 32 _ _) = _ from h1 i hi]; decide +kernel)
    rw [show val (lane 32 _ _) = _ from h1 i hi] at h5
    have : r = 2 := isRint_unique (D_pos 32) h5 ⟨by decide +kernel, by decide +kernel, by decide +kernel⟩
    refine e.trans ?_
    rw [h6, this]; rfl

/-- the hypotheses can be met: `-1.5` truncated element by element and `2.0` stored aligned -/
example : ∃ m, copyToAs exF32 .i32 .element (vbroadcast exF32 0xbfc00000 (zeroData exF32)) 6 (fun _ => 0) = .ok m ∧ m 5 = -1#32 := by
  have hv : ∀ i, i < 6 → elt exF32 (vbroadcast exF32 0xbfc00000 (zeroData exF32)) i = (0xbfc00000 : BitVec 32) := fun i hi => elt_vbroadcast exF32_ok _ _ hi
  have hT : IsTrunc (val (0xbfc00000 : BitVec 32)) (2 ^ unitExp 32 : Nat) (-1) := ⟨by decide +kernel, by decide +kernel⟩
  obtain ⟨m, h, h2⟩ := C30_copy_to_element exF32_ok rfl (U := .i32) rfl (f := .element) rfl (vbroadcast exF32 0xbfc00000 (zeroData exF32)) 6 (by decide)
    (fun _ => 0) (fun i hi => by rw [hv i hi]; exact ⟨by decide +kernel, -1, hT, by decide⟩)
  refine ⟨m, h, ?_⟩
  obtain ⟨r, h3, h4⟩ := h2 5 (by decide)
  rw [hv 5 (by decide)] at h3
  rw [h4, isTrunc_unique (D_pos 32) h3 hT]; rfl
example : ∃ m, copyToAs exF64 .i64 .vector (vbroadcast exF64 0xc000000000000000 (zeroData exF64)) 4 (fun _ => 0) = .ok m ∧ m 3 = -2#64 := by
  have hv : ∀ i, i < 4 → elt exF64 (vbroadcast exF64 0xc000000000000000 (zeroData exF64)) i = (0xc000000000000000 : BitVec 64) :=
    fun i hi => elt_vbroadcast exF64_ok _ _ hi
  have hz : val (0xc000000000000000 : BitVec 64) = (-2) * (2 ^ unitExp 64 : Nat) := by decide +kernel
  obtain ⟨m, h, h2⟩ := C30_copy_to_aligned_partial exF64_ok rfl (U := .i64) rfl rfl (by simp [Ety.i64]) (f := .vector) rfl
    (vbroadcast exF64 0xc000000000000000 (zeroData exF64)) 4 (by decide) (fun _ => 0)
    (fun i hi => by rw [hv i hi]; exact ⟨by decide +kernel, by decide +kernel, by decide +kernel⟩) (fun i hi => by rw [hv i hi]; exact ⟨-2, hz⟩)
  refine ⟨m, h, ?_⟩
  obtain ⟨r, h3, h4⟩ := h2 3 (by decide)
  rw [hv 3 (by decide)] at h3
  rw [h4, isTrunc_unique (D_pos 64) h3 (by show IsTrunc (val (0xc000000000000000 : BitVec 64)) _ _; rw [hz]; exact isTrunc_of_eq (D_pos 64))]; rfl
end Dpm.X86
