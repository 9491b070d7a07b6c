import Verif.Proofs.ScalbnSpec
import Verif.Props.X86Manip
/-!
C35: scalbn, ldexp, scalbln of the x86 backend (meaning: Spec/Manip.lean).
-/
namespace Dpm.X86
open Dpm.Reg Dpm.Fp

theorem lowCmp_false {c : Cfg} (h : c.s.sse41 = true ∨ c.v = .v256) : lowCmp c.s c.T c.v = false := by
  unfold lowCmp
  rcases h with h | h <;> rw [h] <;> simp
theorem expOk_of {c : Cfg} {N : Int} (h : N + emax c.w ≤ 2147483648 ∨ (c.T.bytes = 8 ∧ (c.s.sse41 = true ∨ c.v = .v256))) :
    ExpOk c.w (lowCmp c.s c.T c.v) N := by
  rcases h with h | h
  · exact Or.inl h
  · exact Or.inr ⟨by show 8 * c.T.bytes = 64; omega, lowCmp_false h.2⟩
theorem toInt32_bounds (n : BitVec 32) : -2147483648 ≤ n.toInt ∧ n.toInt < 2147483648 := by
  have h1 := BitVec.two_mul_toInt_lt (x := n)
  have h2 := BitVec.le_two_mul_toInt (x := n)
  omega
theorem signExtend_ofInt (w : Nat) (n : BitVec 32) : n.signExtend w = BitVec.ofInt w n.toInt := rfl

section C35
variable {c : Cfg} (hc : c.Ok) (hf : c.T.flt = true)
include hc hf
theorem vScalbnS_elts (o : MathOpt) (x : c.Data) (n : BitVec 32) : ∃ r, vScalbnS c o x n = .ok r ∧ ∀ p, p < c.N →
    elt c r p = scalbnLane o (lowCmp c.s c.T c.v) (elt c x p) (BitVec.ofInt c.w n.toInt) := by
  refine ⟨_, rfl, fun p hp => ?_⟩
  rw [elt_vec1 hc _ _ _ hp, scalbnV_lane o c.s hc.ety hf (idx_mod hc p), fillV_lane hc.ety _ (idx_mod hc p)]; rfl
/-- C35 with an `int` exponent, except for exponents so close to `INT_MAX` that adding the exponent field wraps (which cannot
happen for doubles from SSE4.1 on): with error handling, `x * 2^n` correctly rounded in every element, for every finite `x`,
normal, subnormal or zero, including results that are subnormal, underflow or overflow; infinities and NaNs propagate. -/
theorem C35_scalbn_partial {o : MathOpt} (ho : o.Wf) (hh : o.handleErr = true) (x : c.Data) (n : BitVec 32)
    (hn : n.toInt + emax c.w ≤ 2147483648 ∨ (c.T.bytes = 8 ∧ (c.s.sse41 = true ∨ c.v = .v256))) :
    ∃ r, vScalbnS c o x n = .ok r ∧ ∀ p, p < c.N → IsScalbnResult (elt c x p) n.toInt (elt c r p) := by
  obtain ⟨r, hr, h⟩ := vScalbnS_elts hc hf o x n
  refine ⟨r, hr, fun p hp => ?_⟩
  rw [h p hp]
  exact scalbnLane_result (fltW hc.ety hf) hh (ho hh) rfl (toInt32_bounds n) (expOk_of hn)
/-- Without error handling: `x * 2^n` correctly rounded for finite `x` wherever the exact result lies between the smallest
subnormal and the largest finite number. -/
theorem C35_scalbn_no_errors (o : MathOpt) (x : c.Data) (n : BitVec 32) :
    ∃ r, vScalbnS c o x n = .ok r ∧ ∀ p, p < c.N → isFinite (elt c x p) = true →
      2 ^ (-n.toInt).toNat ≤ (val (elt c x p)).natAbs * 2 ^ n.toInt.toNat →
      (val (elt c x p)).natAbs * 2 ^ n.toInt.toNat < magVal (mb c.w) (infMag c.w) * 2 ^ (-n.toInt).toNat →
      IsScalbn (elt c x p) n.toInt (elt c r p) := by
  obtain ⟨r, hr, h⟩ := vScalbnS_elts hc hf o x n
  refine ⟨r, hr, fun p hp h1 h2 h3 => ?_⟩
  rw [h p hp]
  exact scalbnLane_in_range (fltW hc.ety hf) rfl (toInt32_bounds n) h1 h2 h3
/-- C35 violated: for floats, and for doubles before SSE4.1, with exponents just below `INT_MAX` every `|x| >= 1` becomes
zero, although `x * 2^n` overflows. -/
theorem C35_scalbn_violated {o : MathOpt} (hh : o.handleErr = true) (x : c.Data) (n : BitVec 32)
    (hn : 2147483648 ≤ n.toInt + bias c.w) (hd : c.T.bytes = 4 ∨ (c.s.sse41 = false ∧ c.v = .v128)) :
    ∃ r, vScalbnS c o x n = .ok r ∧ ∀ p, p < c.N → isFinite (elt c x p) = true → 2 ^ unitExp c.w ≤ (val (elt c x p)).natAbs →
      isZero (elt c r p) = true ∧ ¬ IsScalbn (elt c x p) n.toInt (elt c r p) := by
  have hw := fltW hc.ety hf
  obtain ⟨r, hr, h⟩ := vScalbnS_elts hc hf o x n
  refine ⟨r, hr, fun p hp h1 h2 => ?_⟩
  have hU := Nat.two_pow_pos (unitExp c.w)
  rw [h p hp]
  generalize elt c x p = X at *
  have h0 : mag X ≠ 0 := by
    intro h0
    have hv : val X = 0 := (val_zero_iff X).2 h0
    rw [hv] at h2; simp at h2
  obtain ⟨k, hk⟩ := norm_spec hw h1 h0
  have hk2 := norm_ge_one hw hk h2
  have hb := toInt32_bounds n
  have hr2 := scalbnLane_wrap hw (o := o) hh (low := lowCmp c.s c.T c.v) hk h0 rfl hb.2 (show 2147483648 ≤ k + n.toInt by
      have e : (bias c.T.w : Int) ≤ k := hk2
      have e2 : 2147483648 ≤ n.toInt + (bias c.T.w : Int) := hn
      omega) (by
    rcases hd with hd | hd
    · left; show 8 * c.T.bytes = 32; omega
    · rcases (hc.ety.2 hf).1 with h4 | h4
      · left; show 8 * c.T.bytes = 32; omega
      · right; unfold lowCmp; rw [hd.1, hd.2]; simp [h4])
  rw [hr2]
  have hP : (0 : Nat) < 2 ^ (c.w - 1) := Nat.two_pow_pos _
  refine ⟨(zero_iff _).2 (mag_pack hw hP), fun hs => ?_⟩
  have hbs : bias c.w ≤ 1023 ∧ emax c.w ≤ 2047 ∧ mb c.w ≤ 52 := by rcases hw with h | h <;> rw [show c.w = _ from h] <;> decide
  have hN : 1000000 ≤ n.toInt.toNat := by omega
  have e1 : (-n.toInt).toNat = 0 := by omega
  have hi := infMag_lt hw
  have h5 := isRounded_unique hw (Nat.two_pow_pos _) hs
  rw [e1, Nat.pow_zero, round_huge Nat.one_pos] at h5
  · have h6 := congrArg mag h5
    rw [mag_pack hw hP, mag_pack hw hi] at h6
    have : 0 < infMag c.w := Nat.mul_pos (by rcases hw with h | h <;> rw [show c.w = _ from h] <;> decide) (Nat.two_pow_pos _)
    have h7 : (0 : Nat) = infMag c.w := h6
    omega
  · have : magVal (mb c.T.w) (infMag c.T.w) = 2 ^ mb c.T.w * 2 ^ (emax c.T.w - 1) := magVal_infMag hw
    rw [this, Nat.mul_one, ← Nat.pow_add]
    have h8 : 2 ^ (mb c.T.w + (emax c.T.w - 1)) ≤ 1 * 2 ^ n.toInt.toNat := by
      rw [Nat.one_mul]
      apply Nat.pow_le_pow_right (by omega)
      have : mb c.T.w ≤ 52 := hbs.2.2
      have : emax c.T.w ≤ 2047 := hbs.2.1
      omega
    exact Nat.le_trans h8 (Nat.mul_le_mul_right _ (by omega))
/-- scalbln with a `long` exponent: a float is scaled by the exponent reduced modulo 2^32 (C35 holds when it fits an `int`) -/
theorem C35_scalbln_float {o : MathOpt} (ho : o.Wf) (hh : o.handleErr = true) (h4 : c.T.bytes = 4) (x : c.Data) (n : BitVec 64)
    (hn : (n.setWidth 32).toInt + emax c.w ≤ 2147483648) :
    ∃ r, vScalblnS c o x n = .ok r ∧ ∀ p, p < c.N → IsScalbnResult (elt c x p) (n.setWidth 32).toInt (elt c r p) := by
  have hw4 : c.T.w = 32 := by show 8 * c.T.bytes = 32; omega
  obtain ⟨r, hr, h⟩ := C35_scalbn_partial hc hf ho hh x (n.setWidth 32) (Or.inl hn)
  refine ⟨r, ?_, h⟩
  rw [← hr]
  have e : ∀ w, w = 32 → n.setWidth w = (n.setWidth 32).signExtend w := by
    intro w hw; subst hw; rw [BitVec.signExtend_eq]
  unfold vScalblnS vScalbnS
  rw [e c.T.w hw4]
/-- scalbln of doubles: C35 holds for every `long` exponent that fits an `int`. -/
theorem C35_scalbln_double_partial {o : MathOpt} (ho : o.Wf) (hh : o.handleErr = true) (h8 : c.T.bytes = 8) (x : c.Data) (n : BitVec 64)
    (h1 : -2147483648 ≤ n.toInt ∧ n.toInt < 2147483648) (hn : n.toInt + emax c.w ≤ 2147483648 ∨ c.s.sse41 = true ∨ c.v = .v256) :
    ∃ r, vScalblnS c o x n = .ok r ∧ ∀ p, p < c.N → IsScalbnResult (elt c x p) n.toInt (elt c r p) := by
  have hw8 : c.T.w = 64 := by show 8 * c.T.bytes = 64; omega
  have hl : (BitVec.ofInt 32 n.toInt).toInt = n.toInt := by rw [BitVec.toInt_ofInt, Int.bmod_eq_of_le (by omega) (by omega)]
  obtain ⟨r, hr, h⟩ := C35_scalbn_partial hc hf ho hh x (BitVec.ofInt 32 n.toInt) (by rw [hl]; rcases hn with h | h; exact Or.inl h; exact Or.inr ⟨h8, h⟩)
  rw [hl] at h
  refine ⟨r, ?_, h⟩
  rw [← hr]
  have e : ∀ w, w = 64 → n.setWidth w = (BitVec.ofInt 32 n.toInt).signExtend w := by
    intro w hw; subst hw
    rw [signExtend_ofInt, hl, BitVec.setWidth_eq, BitVec.ofInt_toInt]
  unfold vScalblnS vScalbnS
  rw [e c.T.w hw8]
end C35
/-- scalbln of a float by 2^32: the exponent is taken as 0, every finite float comes back unchanged instead of overflowing -/
theorem C35_scalbln_violated {o : MathOpt} (ho : o.Wf) (hh : o.handleErr = true) {c : Cfg} (hc : c.Ok) (hf : c.T.flt = true) (h4 : c.T.bytes = 4)
    (x : c.Data) : ∃ r, vScalblnS c o x 0x100000000 = .ok r ∧ ∀ p, p < c.N → isFinite (elt c x p) = true → elt c r p = elt c x p := by
  have hw := fltW hc.ety hf
  have h0 : ((0x100000000 : BitVec 64).setWidth 32).toInt = 0 := by decide
  obtain ⟨r, hr, h⟩ := C35_scalbln_float hc hf ho hh h4 x 0x100000000 (by
    rw [h0]
    have : emax c.w ≤ 2047 := by rcases hw with h | h <;> rw [show c.w = _ from h] <;> decide
    omega)
  refine ⟨r, hr, fun p hp h1 => ?_⟩
  have h2 := (h p hp).fin h1
  rw [h0] at h2
  have h3 := isRounded_unique hw (Nat.two_pow_pos _) h2
  refine h3.trans ?_
  exact round_val hw (by have := (finite_iff hw _).1 h1; exact Nat.le_of_lt this) (Nat.two_pow_pos _) rfl rfl
/-- 3 * 2^-150 (float): the tie between 2^-149 and 2 * 2^-149 goes to the even one -/
example : ∃ r, vScalbnS exF32 ⟨true, true⟩ (vbroadcast exF32 0x40400000 (zeroData exF32)) (-150) = .ok r ∧
    IsScalbn (0x40400000 : BitVec 32) (-150) (elt exF32 r 5) := by
  obtain ⟨r, hr, h⟩ := C35_scalbn_partial (o := ⟨true, true⟩) exF32_ok rfl (fun _ => rfl) rfl (vbroadcast exF32 0x40400000 (zeroData exF32)) (-150) (by decide)
  have h2 := (h 5 (by decide)).fin (by rw [elt_vbroadcast exF32_ok _ _ (by decide)]; decide)
  rw [elt_vbroadcast exF32_ok _ _ (by decide)] at h2
  exact ⟨r, hr, h2⟩
/-- 1.0f * 2^INT_MAX = 0 -/
example : ∃ r, vScalbnS exF32 ⟨true, true⟩ (vbroadcast exF32 0x3f800000 (zeroData exF32)) 0x7fffffff = .ok r ∧ isZero (elt exF32 r 5) = true := by
  obtain ⟨r, hr, h⟩ := C35_scalbn_violated (o := ⟨true, true⟩) exF32_ok rfl rfl (vbroadcast exF32 0x3f800000 (zeroData exF32)) 0x7fffffff (by decide) (Or.inl rfl)
  have h2 := h 5 (by decide) (by rw [elt_vbroadcast exF32_ok _ _ (by decide)]; decide) (by rw [elt_vbroadcast exF32_ok _ _ (by decide)]; decide)
  exact ⟨r, hr, h2.1⟩

/-! ### a vector of exponents -/
/-- Which exponent `scalbn(x, exp)` uses for element `p`. -/
def expIdx (c ci : Cfg) (p : Nat) : Nat :=
  if c.T.bytes = 8 ∧ c.v = .v256 then
    if c.s.avx2 = true ∧ ci.v = .v256 then 8 * (p / 8) + 4 * (p % 4 / 2) + 2 * (p / 4 % 2) + p % 2
    else 4 * (p / 4 + p % 4 / 2) + 2 + p % 2
  else p
/-- whether `scalbn(x, exp)` reads outside the exponents -/
def expOob (c ci : Cfg) : Prop :=
  c.T.bytes = 8 ∧ c.v = .v256 ∧ ¬ (c.s.avx2 = true ∧ ci.v = .v256) ∧ ci.dataSize * (ci.v.bits / 128) ≤ c.dataSize

theorem unpackhi_sext (w : BitVec 128) {l : Nat} (hl : l < 2) :
    lane 64 (unpackhiEpi32 w (sraiL 32 w 31)) l = (lane 32 w (2 + l)).signExtend 64 := by
  have h := widenExp_lane (q := 1) rfl w 1 (l := l) (by omega)
  rw [show 4 * (l / 2) + 2 * (1 % 2) + l % 2 = 2 + l by omega] at h
  rw [← h]; rfl

theorem word128_lane {v : VSz} (d : Mem (Vec v)) (i : Nat) {k : Nat} (hk : k < 4) :
    lane 32 (word128 d i) k = lane 32 (d ((4 * i + k) / (v.bits / 32))) ((4 * i + k) % (v.bits / 32)) := by
  unfold word128
  rw [lane_lane (w := 128) (v := 32) (i := i % (v.bits / 128)) (j := k) _ (by omega) (4 * (i % (v.bits / 128)) + k) (by omega)]
  have hb : v.bits / 128 = 1 ∧ v.bits / 32 = 4 ∨ v.bits / 128 = 2 ∧ v.bits / 32 = 8 := by cases v; exact Or.inl ⟨rfl, rfl⟩; exact Or.inr ⟨rfl, rfl⟩
  have h1 : (4 * i + k) / (v.bits / 32) = i / (v.bits / 128) := by rcases hb with hb | hb <;> rw [hb.1, hb.2] <;> omega
  have h2 : (4 * i + k) % (v.bits / 32) = 4 * (i % (v.bits / 128)) + k := by rcases hb with hb | hb <;> rw [hb.1, hb.2] <;> omega
  rw [h1, h2]

section vec
variable {c ci : Cfg} (hc : c.Ok) (hf : c.T.flt = true) (hi : c.IntOf ci)
include hc hf hi
theorem scalbn32_lane (o : MathOpt) (x : Vec c.v) (exp : ci.Data) (j : Nat)
    (hn : ¬ (c.T.bytes = 8 ∧ c.v = .v256 ∧ ¬ (c.s.avx2 = true ∧ ci.v = .v256) ∧ ci.dataSize * (ci.v.bits / 128) ≤ j + 1)) :
    ∃ y, scalbn32 c ci o x exp j = some y ∧ ∀ k, k < c.e →
      lane c.w y k = scalbnLane o (lowCmp c.s c.T c.v) (lane c.w x k) (BitVec.ofInt c.w (elt ci exp (expIdx c ci (j * c.e + k))).toInt) := by
  obtain ⟨s, T, N, v⟩ := c
  obtain ⟨si, Ti, Ni, vi⟩ := ci
  obtain ⟨h1, h2, h3, h4⟩ := hi
  dsimp only at h1 h2 h3 h4 hf x exp ⊢
  subst h1; subst h2; subst h3
  have hety : T.Ok := hc.ety
  have hi32 : ∀ v, extent .i32 v = v.bits / 32 := by intro v; cases v <;> decide
  rcases (hc.ety.2 hf).1 with hb | hb
  · dsimp only at hb
    have h4 : vi = v := by
      rcases h4 with h4 | h4
      · exact h4
      · exfalso; have := h4.1; omega
    subst h4
    have e0 : scalbn32 ⟨si, T, Ni, vi⟩ ⟨si, .i32, Ni, vi⟩ o x exp j = some (scalbnV o si T vi x (BitVec.setWidth vi.bits (exp j))) := by
      unfold scalbn32; rw [if_neg (by dsimp only; omega)]
    refine ⟨_, e0, fun k hk => ?_⟩
    refine (scalbnV_lane o si hety hf hk _ _).trans ?_
    congr 1
    have e1 : expIdx ⟨si, T, Ni, vi⟩ ⟨si, .i32, Ni, vi⟩ (j * Cfg.e ⟨si, T, Ni, vi⟩ + k) = j * Cfg.e ⟨si, T, Ni, vi⟩ + k := by
      unfold expIdx; rw [if_neg (by dsimp only; omega)]
    rw [e1]
    have e2 : Cfg.e ⟨si, T, Ni, vi⟩ = Cfg.e ⟨si, .i32, Ni, vi⟩ := by unfold Cfg.e extent; dsimp only; rw [hb]; rfl
    have hk2 : k < Cfg.e ⟨si, .i32, Ni, vi⟩ := by rw [← e2]; exact hk
    rw [e2, elt_block' (c := ⟨si, .i32, Ni, vi⟩) ⟨hc.wf, (by show Ety.Ok .i32; decide), hc.pos, hc.lt, hc.avx⟩ exp hk2, BitVec.setWidth_eq]
    obtain ⟨b, fl, sg⟩ := T
    dsimp only at hb; subst hb
    exact (BitVec.ofInt_toInt).symm
  · dsimp only at hb
    obtain ⟨b, fl, sg⟩ := T
    dsimp only at hb hf; subst hb; subst hf
    have hE : Cfg.e ⟨si, ⟨8, true, sg⟩, Ni, v⟩ = v.bits / 64 := extent8 v true sg
    cases v with
    | v128 =>
      have h4 : vi = .v128 := by
        rcases h4 with h4 | h4
        · exact h4
        · exact absurd h4.2.1 (by decide)
      subst h4
      refine ⟨scalbnV o si ⟨8, true, sg⟩ .v128 x (widenExp (BitVec.setWidth 128 (exp (j / 2))) j), rfl, fun k hk => ?_⟩
      refine (scalbnV_lane o si hety rfl hk _ _).trans ?_
      congr 1
      have hk2 : k < 2 := by rw [hE] at hk; exact hk
      refine (widenExp_lane (q := 1) rfl _ j (by omega)).trans ?_
      have e1 : expIdx ⟨si, ⟨8, true, sg⟩, Ni, .v128⟩ ⟨si, .i32, Ni, .v128⟩ (j * Cfg.e ⟨si, ⟨8, true, sg⟩, Ni, .v128⟩ + k) = j * 2 + k := by
        rw [hE]; unfold expIdx; rw [if_neg (by simp)]; rfl
      rw [e1]
      unfold elt
      dsimp only
      rw [show Cfg.e ⟨si, .i32, Ni, .v128⟩ = 4 from (by show extent .i32 .v128 = 4; decide), show (j * 2 + k) / 4 = j / 2 by omega, show (j * 2 + k) % 4 = 2 * (j % 2) + k by omega,
        show 4 * (k / 2) + 2 * (j % 2) + k % 2 = 2 * (j % 2) + k by omega, BitVec.setWidth_eq]
      rfl
    | v256 =>
      by_cases ha : si.avx2 = true ∧ vi = .v256
      · obtain ⟨h2, h5⟩ := ha
        subst h5
        have e0 : scalbn32 ⟨si, ⟨8, true, sg⟩, Ni, .v256⟩ ⟨si, .i32, Ni, .v256⟩ o x exp j =
            some (scalbnV o si ⟨8, true, sg⟩ .v256 x (widenExp (BitVec.setWidth 256 (exp (j / 2))) j)) := by
          unfold scalbn32; dsimp only; rw [if_pos rfl, if_pos ⟨h2, rfl⟩]
        refine ⟨_, e0, fun k hk => ?_⟩
        refine (scalbnV_lane o si hety rfl hk _ _).trans ?_
        congr 1
        have hk2 : k < 4 := by rw [hE] at hk; exact hk
        refine (widenExp_lane (q := 2) rfl _ j (by omega)).trans ?_
        have e1 : expIdx ⟨si, ⟨8, true, sg⟩, Ni, .v256⟩ ⟨si, .i32, Ni, .v256⟩ (j * Cfg.e ⟨si, ⟨8, true, sg⟩, Ni, .v256⟩ + k) =
            8 * (j / 2) + 4 * (k / 2) + 2 * (j % 2) + k % 2 := by
          rw [hE]; unfold expIdx; rw [if_pos ⟨rfl, rfl⟩, if_pos ⟨h2, rfl⟩]
          show 8 * ((j * 4 + k) / 8) + 4 * ((j * 4 + k) % 4 / 2) + 2 * ((j * 4 + k) / 4 % 2) + (j * 4 + k) % 2 = _
          omega
        rw [e1]
        unfold elt
        dsimp only
        rw [show Cfg.e ⟨si, .i32, Ni, .v256⟩ = 8 from (by show extent .i32 .v256 = 8; decide), show (8 * (j / 2) + 4 * (k / 2) + 2 * (j % 2) + k % 2) / 8 = j / 2 by omega,
          show (8 * (j / 2) + 4 * (k / 2) + 2 * (j % 2) + k % 2) % 8 = 4 * (k / 2) + 2 * (j % 2) + k % 2 by omega, BitVec.setWidth_eq]
        rfl
      · have hn2 : j + 1 < Cfg.dataSize ⟨si, .i32, Ni, vi⟩ * (vi.bits / 128) := by
          apply Classical.byContradiction
          intro hcn
          exact hn ⟨rfl, rfl, ha, by show Cfg.dataSize ⟨si, .i32, Ni, vi⟩ * (vi.bits / 128) ≤ j + 1; omega⟩
        have e0 : scalbn32 ⟨si, ⟨8, true, sg⟩, Ni, .v256⟩ ⟨si, .i32, Ni, vi⟩ o x exp j =
            some (setHL (scalbnV o si ⟨8, true, sg⟩ .v128 (hi x) (unpackhiEpi32 (word128 exp (j + 1)) (sraiL 32 (word128 exp (j + 1)) 31)))
              (scalbnV o si ⟨8, true, sg⟩ .v128 (lo x) (unpackhiEpi32 (word128 exp j) (sraiL 32 (word128 exp j) 31)))) := by
          unfold scalbn32; dsimp only; rw [if_pos rfl, if_neg ha]; unfold scalbn32Avx; rw [if_pos hn2]
        refine ⟨_, e0, fun k hk => ?_⟩
        have hk2 : k < 4 := by rw [hE] at hk; exact hk
        have hsse : si.sse41 = true := hc.wf.2.2.1 (hc.avx rfl)
        have hl1 : lowCmp si ⟨8, true, sg⟩ .v128 = false := by unfold lowCmp; rw [hsse]; simp
        have hl2 : lowCmp si ⟨8, true, sg⟩ .v256 = false := by unfold lowCmp; simp
        show lane 64 _ k = scalbnLane o (lowCmp si ⟨8, true, sg⟩ .v256) (lane 64 x k) _
        have e1 : expIdx ⟨si, ⟨8, true, sg⟩, Ni, .v256⟩ ⟨si, .i32, Ni, vi⟩ (j * Cfg.e ⟨si, ⟨8, true, sg⟩, Ni, .v256⟩ + k) =
            4 * (j + k / 2) + 2 + k % 2 := by
          rw [hE]; unfold expIdx; rw [if_pos ⟨rfl, rfl⟩, if_neg ha]
          show 4 * ((j * 4 + k) / 4 + (j * 4 + k) % 4 / 2) + 2 + (j * 4 + k) % 2 = _
          omega
        have hw2 : ∀ w q, q < 2 → lane 32 (word128 exp w) (2 + q) = elt ⟨si, .i32, Ni, vi⟩ exp (4 * w + 2 + q) := by
          intro w q hq
          rw [word128_lane exp w (by omega), show 4 * w + (2 + q) = 4 * w + 2 + q by omega]
          unfold elt; dsimp only; rw [show Cfg.e ⟨si, .i32, Ni, vi⟩ = vi.bits / 32 from hi32 vi]; rfl
        rw [e1, hl2]
        by_cases hkl : k < 2
        · rw [lane_setHL_lo _ _ (by omega)]
          refine (scalbnV_lane o si hety rfl (T := ⟨8, true, sg⟩) (v := .v128) (i := k) (by rw [extent8]; exact hkl) _ _).trans ?_
          rw [hl1]
          congr 1
          · exact lane_lo (w := 64) x (by omega)
          · refine (unpackhi_sext _ hkl).trans ?_
            rw [hw2 j k hkl, show 4 * (j + k / 2) + 2 + k % 2 = 4 * j + 2 + k by omega]; rfl
        · refine (lane_setHL_hi _ _ (j := k - 2) (by omega)).trans ?_
          refine (scalbnV_lane o si hety rfl (T := ⟨8, true, sg⟩) (v := .v128) (i := k - 2) (by rw [extent8]; show k - 2 < 2; omega) _ _).trans ?_
          rw [hl1]
          congr 1
          · exact lane_hi (w := 64) x (by omega) (by omega)
          · refine (unpackhi_sext _ (by omega)).trans ?_
            rw [hw2 (j + 1) (k - 2) (by omega), show 4 * (j + k / 2) + 2 + k % 2 = 4 * (j + 1) + 2 + (k - 2) by omega]; rfl
end vec
section vecApi
variable {c ci : Cfg} (hc : c.Ok) (hf : c.T.flt = true) (hi : c.IntOf ci)
include hc hf hi
theorem vScalbn_elts (o : MathOpt) (x : c.Data) (exp : ci.Data) (hn : ¬ expOob c ci) : ∃ r, vScalbn c ci o x exp = .ok r ∧ ∀ p, p < c.N →
    elt c r p = scalbnLane o (lowCmp c.s c.T c.v) (elt c x p) (BitVec.ofInt c.w (elt ci exp (expIdx c ci p)).toInt) := by
  have hl : ∀ j, j < c.dataSize → ∃ y, scalbn32 c ci o (x j) exp j = some y ∧ ∀ k, k < c.e →
      lane c.w y k = scalbnLane o (lowCmp c.s c.T c.v) (lane c.w (x j) k) (BitVec.ofInt c.w (elt ci exp (expIdx c ci (j * c.e + k))).toInt) := by
    intro j hj
    apply scalbn32_lane hc hf hi
    rintro ⟨h1, h2, h3, h4⟩
    exact hn ⟨h1, h2, h3, by omega⟩
  have hst := forRangeM_store c.dataSize (fun j => scalbn32 c ci o (x j) exp j) (zeroData c)
  unfold vScalbn
  cases hr : forRangeM c.dataSize (fun j (r : c.Data) => (scalbn32 c ci o (x j) exp j).map (fun y => r.set j y)) (zeroData c) with
  | none =>
    obtain ⟨j, hj, h1⟩ := hst.1.1 hr
    obtain ⟨y, h2, _⟩ := hl j hj
    rw [h2] at h1; cases h1
  | some r =>
    refine ⟨r, rfl, fun p hp => ?_⟩
    have hd := idx_lt hc hp
    have h1 := (hst.2 r hr).1 (p / c.e) hd
    obtain ⟨y, h2, h3⟩ := hl (p / c.e) hd
    rw [h2] at h1
    have h4 := h3 (p % c.e) (idx_mod hc p)
    rw [div_mod_eq] at h4
    unfold elt at h4 ⊢
    rw [← h4]
    congr 1
    exact (Option.some.inj h1).symm
/-- C35 with a vector of exponents, for floats, and for doubles in 16-byte native vectors. -/
theorem C35_scalbn_vector_partial {o : MathOpt} (ho : o.Wf) (hh : o.handleErr = true) (hfl : c.T.bytes = 4 ∨ c.v = .v128) (x : c.Data) (exp : ci.Data)
    (hn : ∀ p, p < c.N → (elt ci exp p).toInt + emax c.w ≤ 2147483648 ∨ (c.T.bytes = 8 ∧ (c.s.sse41 = true ∨ c.v = .v256))) :
    ∃ r, vScalbn c ci o x exp = .ok r ∧ ∀ p, p < c.N → IsScalbnResult (elt c x p) (elt ci exp p).toInt (elt c r p) := by
  obtain ⟨r, hr, h⟩ := vScalbn_elts hc hf hi o x exp (fun h => by
    rcases hfl with h1 | h1
    · have := h.1; omega
    · have := h.2.1; rw [h1] at this; cases this)
  refine ⟨r, hr, fun p hp => ?_⟩
  have e : expIdx c ci p = p := by
    unfold expIdx
    rw [if_neg]
    rintro ⟨h1, h2⟩
    rcases hfl with h3 | h3
    · omega
    · rw [h3] at h2; cases h2
  rw [h p hp, e]
  have hciw : ci.w = 32 := by show 8 * ci.T.bytes = 32; rw [hi.T]; rfl
  exact scalbnLane_result (fltW hc.ety hf) hh (ho hh) rfl (by
    have hb : ∀ w (z : BitVec w), w = 32 → -2147483648 ≤ z.toInt ∧ z.toInt < 2147483648 := by
      intro w z hw; subst hw; exact toInt32_bounds z
    exact hb _ _ hciw) (expOk_of (hn p hp))
/-- C35 violated for doubles in 32-byte native vectors: element `p` is scaled by the exponent of element `expIdx p` instead
of its own (with AVX2 elements 2, 3 use exponents 4, 5 and vice versa; without, element 0 uses exponent 2, ...). -/
theorem C35_scalbn_vector_violated {o : MathOpt} (ho : o.Wf) (hh : o.handleErr = true) (hd : c.T.bytes = 8) (hv : c.v = .v256) (x : c.Data) (exp : ci.Data)
    (hn : ¬ expOob c ci) : ∃ r, vScalbn c ci o x exp = .ok r ∧ ∀ p, p < c.N →
      IsScalbnResult (elt c x p) (elt ci exp (expIdx c ci p)).toInt (elt c r p) := by
  obtain ⟨r, hr, h⟩ := vScalbn_elts hc hf hi o x exp hn
  refine ⟨r, hr, fun p hp => ?_⟩
  rw [h p hp]
  have hciw : ci.w = 32 := by show 8 * ci.T.bytes = 32; rw [hi.T]; rfl
  exact scalbnLane_result (fltW hc.ety hf) hh (ho hh) rfl (by
    have hb : ∀ w (z : BitVec w), w = 32 → -2147483648 ≤ z.toInt ∧ z.toInt < 2147483648 := by
      intro w z hw; subst hw; exact toInt32_bounds z
    exact hb _ _ hciw) (expOk_of (Or.inr ⟨hd, Or.inr hv⟩))
omit hf in
/-- C35 violated: the exponents are read out of bounds for 3 or 4 doubles with AVX and the default ABI, and without AVX2
whenever the number of native vectors is even. -/
theorem C35_scalbn_vector_ub (o : MathOpt) (x : c.Data) (exp : ci.Data) (hn : expOob c ci) : vScalbn c ci o x exp = .ub := by
  obtain ⟨h1, h2, h3, h4⟩ := hn
  have hst := forRangeM_store c.dataSize (fun j => scalbn32 c ci o (x j) exp j) (zeroData c)
  have hpos : 0 < c.dataSize := Nat.lt_of_le_of_lt (Nat.zero_le _) (idx_lt hc hc.pos)
  have hnone : scalbn32 c ci o (x (c.dataSize - 1)) exp (c.dataSize - 1) = none := by
    obtain ⟨s, T, N, v⟩ := c
    dsimp only at h2 h1 h3
    subst h2
    unfold scalbn32
    dsimp only at *
    rw [if_pos h1, if_neg h3]
    unfold scalbn32Avx
    rw [if_neg]
    omega
  unfold vScalbn
  rw [hst.1.2 ⟨c.dataSize - 1, by omega, hnone⟩]; rfl
end vecApi
/-- 4 doubles with AVX and the default ABI -/
example : expOob exF64 exF64i := by refine ⟨rfl, rfl, ?_, ?_⟩ <;> decide
/-- 8 doubles with AVX2: 1.0 in every element, the exponents are 0 except that of element 4, which is 3.
Element 2 should be 1.0 and becomes 8.0; element 4 should be 8.0 and becomes 1.0. -/
def exD8 : Cfg := ⟨⟨true, true, true, true, true, false, false, false⟩, .f64, 8, .v256⟩
def exD8i : Cfg := { exD8 with T := .i32 }
theorem exD8_ok : exD8.Ok := ⟨by decide, by decide, by decide, by decide, fun _ => rfl⟩
theorem exD8i_of : exD8.IntOf exD8i := ⟨rfl, rfl, rfl, Or.inl rfl⟩
def exD8exp : exD8i.Data := fun _ => ofLanes 256 32 (fun k => if k = 4 then 3 else 0)
theorem exD8exp_elt {k : Nat} (hk : k < 8) : elt exD8i exD8exp k = (if k = 4 then 3 else 0 : BitVec 32) := by
  have e : exD8i.e = 8 := by decide
  unfold elt
  rw [e, Nat.mod_eq_of_lt hk]
  exact lane_ofLanes _ (by show (k + 1) * 32 ≤ 256; omega)
theorem eight_eq (a b : BitVec 64) (ha : a = 0x3ff0000000000000) (hb : b = 0x4020000000000000) :
    (val a).natAbs * 2 ^ Int.toNat 3 = (val b).natAbs * 2 ^ (-3 : Int).toNat := by
  subst ha; subst hb; decide +kernel
theorem C35_counterexample : ∃ r, vScalbn exD8 exD8i ⟨true, true⟩ (vbroadcast exD8 0x3ff0000000000000 (zeroData exD8)) exD8exp = .ok r ∧
    (elt exD8i exD8exp 2).toInt = 0 ∧ elt exD8 r 2 = 0x4020000000000000 := by
  obtain ⟨r, hr, h⟩ := C35_scalbn_vector_violated (o := ⟨true, true⟩) exD8_ok rfl exD8i_of (fun _ => rfl) rfl rfl rfl
    (vbroadcast exD8 0x3ff0000000000000 (zeroData exD8)) exD8exp (by rintro ⟨_, _, h, _⟩; exact h ⟨rfl, rfl⟩)
  refine ⟨r, hr, by rw [exD8exp_elt (by decide)]; rfl, ?_⟩
  have h2 := (h 2 (by decide)).fin (by rw [elt_vbroadcast exD8_ok _ _ (by decide)]; decide)
  rw [elt_vbroadcast exD8_ok _ _ (by decide)] at h2
  have e : (elt exD8i exD8exp (expIdx exD8 exD8i 2)).toInt = 3 := by rw [show expIdx exD8 exD8i 2 = 4 by decide, exD8exp_elt (by decide)]; rfl
  rw [e] at h2
  have h3 := isRounded_unique (w := 64) (Or.inr rfl) (Nat.two_pow_pos _) h2
  refine h3.trans ?_
  refine round_val (w := 64) (Or.inr rfl) (by decide) (Nat.two_pow_pos _) (by decide) ?_
  generalize ha : (0x3ff0000000000000 : BitVec exD8.w) = a
  generalize hb : (0x4020000000000000 : BitVec exD8.w) = b
  exact eight_eq a b ha.symm hb.symm

/-! ### scalbln with a vector of 64-bit `long` -/
section vecLong
variable {c cl : Cfg} (hc : c.Ok) (hf : c.T.flt = true) (hl : c.LongOf cl)
include hc hf hl
/-- scalbln of doubles with a vector of exponents that fit an `int` -/
theorem C35_scalbln_vector_double_partial {o : MathOpt} (ho : o.Wf) (hh : o.handleErr = true) (h8 : c.T.bytes = 8) (x : c.Data) (exp : cl.Data)
    (hn : ∀ p, p < c.N → -2147483648 ≤ (elt cl exp p).toInt ∧ (elt cl exp p).toInt < 2147483648 ∧
      ((elt cl exp p).toInt + emax c.w ≤ 2147483648 ∨ c.s.sse41 = true ∨ c.v = .v256)) :
    ∃ r, vScalbln c cl o x exp = .ok r ∧ ∀ p, p < c.N → IsScalbnResult (elt c x p) (elt cl exp p).toInt (elt c r p) := by
  have hw := fltW hc.ety hf
  obtain ⟨s, T, N, v⟩ := c
  obtain ⟨s', T', N', v'⟩ := cl
  obtain ⟨h1, h2, h3, h4⟩ := hl
  dsimp only at h1 h2 h3 h4 h8
  subst h1; subst h2; subst h3
  have h4 : v' = v := by rcases h4 with h | ⟨h, _⟩; exact h; omega
  subst h4
  have hst := forRangeM_store (Cfg.dataSize ⟨s', T, N', v'⟩) (fun j => scalbn64 ⟨s', T, N', v'⟩ ⟨s', .i64, N', v'⟩ o (x j) exp j) (zeroData ⟨s', T, N', v'⟩)
  have hsc : ∀ j, scalbn64 ⟨s', T, N', v'⟩ ⟨s', .i64, N', v'⟩ o (x j) exp j = some (scalbnV o s' T v' (x j) (exp j)) := by
    intro j
    unfold scalbn64
    dsimp only
    rw [if_pos h8, BitVec.setWidth_eq]
  unfold vScalbln
  cases hr : forRangeM (Cfg.dataSize ⟨s', T, N', v'⟩) (fun j (r : Cfg.Data ⟨s', T, N', v'⟩) =>
      (scalbn64 ⟨s', T, N', v'⟩ ⟨s', .i64, N', v'⟩ o (x j) exp j).map (fun y => r.set j y)) (zeroData ⟨s', T, N', v'⟩) with
  | none =>
    obtain ⟨j, hj, h1⟩ := hst.1.1 hr
    rw [hsc] at h1; cases h1
  | some r =>
    refine ⟨r, rfl, fun p hp => ?_⟩
    have hd := idx_lt hc hp
    have h1 := (hst.2 r hr).1 _ hd
    rw [hsc] at h1
    have h2 := Option.some.inj h1
    obtain ⟨hb1, hb2, hb3⟩ := hn p hp
    have e : Cfg.e ⟨s', .i64, N', v'⟩ = Cfg.e ⟨s', T, N', v'⟩ := by
      show extent .i64 v' = extent T v'
      have : ∀ (T : Ety), T.bytes = 8 → extent .i64 v' = extent T v' := by
        rintro ⟨b, f, sg⟩ h; dsimp only at h; subst h
        rw [extent8]; cases v' <;> decide
      exact this T h8
    have hT : T.w = 64 := by show 8 * T.bytes = 64; omega
    have hx : elt ⟨s', T, N', v'⟩ r p = scalbnLane o (lowCmp s' T v') (elt ⟨s', T, N', v'⟩ x p) (BitVec.ofInt T.w (elt ⟨s', .i64, N', v'⟩ exp p).toInt) := by
      unfold elt
      rw [e]
      have hq := scalbnV_lane o s' hc.ety hf (idx_mod hc p) (x (p / Cfg.e ⟨s', T, N', v'⟩)) (exp (p / Cfg.e ⟨s', T, N', v'⟩))
      rw [h2] at hq
      refine hq.trans ?_
      congr 1
      have : ∀ w (h : w = 64), lane w (exp (p / Cfg.e ⟨s', T, N', v'⟩)) (p % Cfg.e ⟨s', T, N', v'⟩) =
          BitVec.ofInt w (lane 64 (exp (p / Cfg.e ⟨s', T, N', v'⟩)) (p % Cfg.e ⟨s', T, N', v'⟩)).toInt := by
        intro w h; subst h; rw [BitVec.ofInt_toInt]
      exact this T.w hT
    rw [hx]
    exact scalbnLane_result hw hh (ho hh) rfl ⟨hb1, hb2⟩ (expOk_of (c := ⟨s', T, N', v'⟩) (by
      rcases hb3 with h | h; exact Or.inl h; exact Or.inr ⟨h8, h⟩))
omit hf in
/-- scalbln of floats in 16-byte native vectors with a vector of `long`: out of bounds when N is 1 or 2 modulo 4 -/
theorem C35_scalbln_vector_ub (o : MathOpt) (h4 : c.T.bytes = 4) (hv : c.v = .v128) (hv' : cl.v = .v128) (hN : c.N % 4 = 1 ∨ c.N % 4 = 2)
    (x : c.Data) (exp : cl.Data) : vScalbln c cl o x exp = .ub := by
  have hpos : 0 < c.dataSize := Nat.lt_of_le_of_lt (Nat.zero_le _) (idx_lt hc hc.pos)
  have hst := forRangeM_store c.dataSize (fun j => scalbn64 c cl o (x j) exp j) (zeroData c)
  have hnone : scalbn64 c cl o (x (c.dataSize - 1)) exp (c.dataSize - 1) = none := by
    obtain ⟨s, ⟨b, f, sg⟩, N, v⟩ := c
    obtain ⟨s', T', N', v'⟩ := cl
    obtain ⟨k1, k2, k3, _⟩ := hl
    dsimp only at k1 k2 k3 h4 hv hv' hN
    subst k1; subst k2; subst k3; subst hv; subst hv'; subst h4
    unfold scalbn64
    dsimp only
    rw [if_neg (by omega), if_pos rfl, if_neg]
    have e1 : Cfg.dataSize ⟨s', ⟨4, f, sg⟩, N', .v128⟩ = N' / 4 + (if N' % 4 ≠ 0 then 1 else 0) := by show Util.alignData 4 N' 16 = _; rfl
    have e2 : Cfg.dataSize ⟨s', .i64, N', .v128⟩ = N' / 2 + (if N' % 2 ≠ 0 then 1 else 0) := by show Util.alignData 8 N' 16 = _; rfl
    rw [e1, e2]
    split <;> split <;> omega
  unfold vScalbln
  rw [hst.1.2 ⟨c.dataSize - 1, by omega, hnone⟩]; rfl
/-- the `long` whose low 32 bits scale float element `p`: the 32-byte version takes both halves of a vector from `exp[i]` -/
def longIdx (c : Cfg) (p : Nat) : Nat := if c.v = .v256 then 4 * (p / 8) + p % 4 else p
theorem scalbn64_lane (o : MathOpt) (h4 : c.T.bytes = 4) (hN : c.v = .v128 → cl.v = .v128 → ¬ (c.N % 4 = 1 ∨ c.N % 4 = 2))
    (x : Vec c.v) (exp : cl.Data) {j : Nat} (hj : j < c.dataSize) :
    ∃ y, scalbn64 c cl o x exp j = some y ∧ ∀ k, k < c.e →
      lane c.w y k = scalbnLane o (lowCmp c.s c.T c.v) (lane c.w x k) (BitVec.ofInt c.w ((elt cl exp (longIdx c (j * c.e + k))).setWidth 32).toInt) := by
  obtain ⟨s, ⟨b, f, sg⟩, N, v⟩ := c
  obtain ⟨s', T', N', v'⟩ := cl
  obtain ⟨k1, k2, k3, k4⟩ := hl
  dsimp only at k1 k2 k3 k4 h4 hN hf
  subst k1; subst k2; subst k3; subst h4; subst hf
  have hety := hc.ety
  have e64 : ∀ v, Cfg.e ⟨s', .i64, N', v⟩ = v.bits / 64 := by intro v; exact extent8 v false true
  have hI : ∀ z : BitVec 32, z = BitVec.ofInt 32 z.toInt := fun z => (BitVec.ofInt_toInt).symm
  cases v with
  | v128 =>
    have hE : Cfg.e ⟨s', ⟨4, true, sg⟩, N', .v128⟩ = 4 := by show 16 / 4 = 4; rfl
    cases v' with
    | v128 =>
      have e1 : Cfg.dataSize ⟨s', ⟨4, true, sg⟩, N', .v128⟩ = N' / 4 + (if N' % 4 ≠ 0 then 1 else 0) := by show Util.alignData 4 N' 16 = _; rfl
      have e2 : Cfg.dataSize ⟨s', .i64, N', .v128⟩ = N' / 2 + (if N' % 2 ≠ 0 then 1 else 0) := by show Util.alignData 8 N' 16 = _; rfl
      have hlt : 2 * j + 1 < Cfg.dataSize ⟨s', .i64, N', .v128⟩ := by
        have hN := hN rfl rfl
        rw [e1] at hj; rw [e2]
        split at hj <;> split <;> omega
      have e0 : scalbn64 ⟨s', ⟨4, true, sg⟩, N', .v128⟩ ⟨s', .i64, N', .v128⟩ o x exp j =
          some (scalbnV o s' ⟨4, true, sg⟩ .v128 x (shufPs2020 (BitVec.setWidth 128 (exp (2 * j))) (BitVec.setWidth 128 (exp (2 * j + 1))))) := by
        unfold scalbn64
        dsimp only
        rw [if_neg (by omega), if_pos rfl, if_pos hlt]
      refine ⟨_, e0, fun k hk0 => ?_⟩
      have hk := hk0; rw [hE] at hk
      refine (scalbnV_lane o s' hety rfl hk0 _ _).trans ?_
      congr 1
      refine (shufPs_lane _ _ (by show (k + 1) * 32 ≤ 128; omega)).trans ?_
      refine Eq.trans ?_ (hI _)
      unfold longIdx
      rw [if_neg (show ¬ VSz.v128 = VSz.v256 by decide), hE]
      unfold elt
      rw [e64]
      show _ = BitVec.setWidth 32 (lane 64 (exp ((j * 4 + k) / 2)) ((j * 4 + k) % 2))
      rw [← low32]
      simp only [BitVec.setWidth_eq]
      split
      · rw [show (j * 4 + k) / 2 = 2 * j by omega]; congr 1; omega
      · rw [show (j * 4 + k) / 2 = 2 * j + 1 by omega]; congr 1; omega
    | v256 =>
      have hN2 : N' = 3 ∨ N' = 4 := by
        rcases k4 with h | h
        · cases h
        · exact h.2.2.2
      have e1 : Cfg.dataSize ⟨s', ⟨4, true, sg⟩, N', .v128⟩ = N' / 4 + (if N' % 4 ≠ 0 then 1 else 0) := by show Util.alignData 4 N' 16 = _; rfl
      have hj0 : j = 0 := by
        rw [e1] at hj
        split at hj <;> omega
      subst hj0
      have e0 : scalbn64 ⟨s', ⟨4, true, sg⟩, N', .v128⟩ ⟨s', .i64, N', .v256⟩ o x exp 0 =
          some (scalbnV o s' ⟨4, true, sg⟩ .v128 x (cvtI64I32 .v256 (BitVec.setWidth 256 (exp 0)))) := by
        unfold scalbn64
        dsimp only
        rw [if_neg (by omega), if_neg (by intro h; cases h)]
      refine ⟨_, e0, fun k hk0 => ?_⟩
      have hk := hk0; rw [hE] at hk
      refine (scalbnV_lane o s' hety rfl hk0 _ _).trans ?_
      congr 1
      refine (cvtI64I32_lane .v256 _ (by show k < 4; omega)).trans ?_
      refine Eq.trans ?_ (hI _)
      unfold longIdx
      rw [if_neg (show ¬ VSz.v128 = VSz.v256 by decide), hE]
      unfold elt
      rw [e64]
      show _ = BitVec.setWidth 32 (lane 64 (exp ((0 * 4 + k) / 4)) ((0 * 4 + k) % 4))
      rw [← low32, BitVec.setWidth_eq, show (0 * 4 + k) / 4 = 0 by omega]
      congr 1; omega
  | v256 =>
    have hv : v' = .v256 := by
      rcases k4 with h | h
      · exact h
      · cases h.2.1
    subst hv
    have hE : Cfg.e ⟨s', ⟨4, true, sg⟩, N', .v256⟩ = 8 := by show 32 / 4 = 8; rfl
    have e0 : scalbn64 ⟨s', ⟨4, true, sg⟩, N', .v256⟩ ⟨s', .i64, N', .v256⟩ o x exp j =
        some (scalbnV o s' ⟨4, true, sg⟩ .v256 x (setHL (cvtI64I32 .v256 (BitVec.setWidth 256 (exp j))) (cvtI64I32 .v256 (BitVec.setWidth 256 (exp j))))) := by
      unfold scalbn64
      dsimp only
      rw [if_neg (by omega)]
    refine ⟨_, e0, fun k hk0 => ?_⟩
    have hk := hk0; rw [hE] at hk
    refine (scalbnV_lane o s' hety rfl hk0 _ _).trans ?_
    congr 1
    have hl : lane 32 (setHL (cvtI64I32 .v256 (BitVec.setWidth 256 (exp j))) (cvtI64I32 .v256 (BitVec.setWidth 256 (exp j)))) k =
        lane 32 (cvtI64I32 .v256 (BitVec.setWidth 256 (exp j))) (k % 4) := by
      by_cases hk4 : k < 4
      · rw [lane_setHL_lo _ _ (by omega), Nat.mod_eq_of_lt hk4]
      · exact lane_setHL_hi _ _ (by omega)
    refine hl.trans ?_
    refine (cvtI64I32_lane .v256 _ (by show k % 4 < 4; omega)).trans ?_
    refine Eq.trans ?_ (hI _)
    unfold longIdx
    rw [if_pos rfl, hE]
    unfold elt
    rw [e64]
    show _ = BitVec.setWidth 32 (lane 64 (exp ((4 * ((j * 8 + k) / 8) + (j * 8 + k) % 4) / 4)) ((4 * ((j * 8 + k) / 8) + (j * 8 + k) % 4) % 4))
    rw [← low32, BitVec.setWidth_eq, show (4 * ((j * 8 + k) / 8) + (j * 8 + k) % 4) / 4 = j by omega]
    congr 1; omega
/-- scalbln of floats with a vector of `long`, exactly: element `p` is scaled by the low 32 bits of exponent `longIdx p`, which is
its own in 16-byte native vectors (C35 for exponents that fit) and that of another element for elements 4 to 7 of 32-byte ones. -/
theorem C35_scalbln_vector_float {o : MathOpt} (ho : o.Wf) (hh : o.handleErr = true) (h4 : c.T.bytes = 4)
    (hN : c.v = .v128 → cl.v = .v128 → ¬ (c.N % 4 = 1 ∨ c.N % 4 = 2)) (x : c.Data) (exp : cl.Data)
    (hn : ∀ p, p < c.N → ((elt cl exp (longIdx c p)).setWidth 32).toInt + emax c.w ≤ 2147483648) :
    ∃ r, vScalbln c cl o x exp = .ok r ∧ ∀ p, p < c.N → IsScalbnResult (elt c x p) ((elt cl exp (longIdx c p)).setWidth 32).toInt (elt c r p) := by
  have hl' : ∀ j, j < c.dataSize → _ := fun j hj => scalbn64_lane hc hf hl o h4 hN (x j) exp hj
  have hst := forRangeM_store c.dataSize (fun j => scalbn64 c cl o (x j) exp j) (zeroData c)
  unfold vScalbln
  cases hr : forRangeM c.dataSize (fun j (r : c.Data) => (scalbn64 c cl o (x j) exp j).map (fun y => r.set j y)) (zeroData c) with
  | none =>
    obtain ⟨j, hj, h1⟩ := hst.1.1 hr
    obtain ⟨y, h2, _⟩ := hl' j hj
    rw [h2] at h1; cases h1
  | some r =>
    refine ⟨r, rfl, fun p hp => ?_⟩
    have hd := idx_lt hc hp
    have h1 := (hst.2 r hr).1 (p / c.e) hd
    obtain ⟨y, h2, h3⟩ := hl' (p / c.e) hd
    rw [h2] at h1
    have h4 := h3 (p % c.e) (idx_mod hc p)
    rw [div_mod_eq] at h4
    have h5 : elt c r p = lane c.w y (p % c.e) := by
      unfold elt; congr 1; exact (Option.some.inj h1).symm
    rw [h5, h4]
    exact scalbnLane_result (fltW hc.ety hf) hh (ho hh) rfl (toInt32_bounds _) (expOk_of (Or.inl (hn p hp)))
end vecLong
/-- the fifth of eight floats takes the exponent of the first -/
example : longIdx ⟨⟨true, true, true, true, true, false, false, false⟩, .f32, 8, .v256⟩ 4 = 0 := by decide
/-- 6 floats with SSE2: undefined -/
example (x : exF32.Data) (exp : Cfg.Data { exF32 with T := .i64 }) : vScalbln exF32 { exF32 with T := .i64 } ⟨true, true⟩ x exp = .ub :=
  C35_scalbln_vector_ub (cl := { exF32 with T := .i64 }) exF32_ok ⟨rfl, rfl, rfl, Or.inl rfl⟩ _ rfl rfl rfl (by decide) x exp
end Dpm.X86
