import Verif.Proofs.Scalbn
/-! scalbn on one lane is correct rounding. -/
namespace Dpm.Fp
open Dpm.X86

theorem pow_eq {V M a b p q : Nat} {n : Int} (h : V * 2 ^ a = M * 2 ^ b) (hq : (q : Int) - p = b - a + n) :
    V * 2 ^ n.toNat * 2 ^ p = M * 2 ^ q * 2 ^ (-n).toNat := by
  apply Nat.eq_of_mul_eq_mul_right (Nat.two_pow_pos a)
  rcases Int.le_total 0 n with h0 | h0
  · have e1 : (-n).toNat = 0 := by omega
    generalize ht : n.toNat = t at *
    rw [e1, Nat.pow_zero, Nat.mul_one]
    have e2 : q + a = b + t + p := by omega
    calc V * 2 ^ t * 2 ^ p * 2 ^ a = V * 2 ^ a * 2 ^ t * 2 ^ p := by
            rw [Nat.mul_right_comm _ (2 ^ p), Nat.mul_right_comm _ (2 ^ t)]
      _ = M * 2 ^ b * 2 ^ t * 2 ^ p := by rw [h]
      _ = M * 2 ^ q * 2 ^ a := by
            rw [Nat.mul_assoc, Nat.mul_assoc, ← Nat.pow_add, ← Nat.pow_add, Nat.mul_assoc, ← Nat.pow_add, e2, Nat.add_assoc]
  · have e1 : n.toNat = 0 := by omega
    generalize ht : (-n).toNat = t at *
    rw [e1, Nat.pow_zero, Nat.mul_one]
    have e2 : q + t + a = b + p := by omega
    calc V * 2 ^ p * 2 ^ a = V * 2 ^ a * 2 ^ p := Nat.mul_right_comm _ _ _
      _ = M * 2 ^ b * 2 ^ p := by rw [h]
      _ = M * 2 ^ q * 2 ^ t * 2 ^ a := by
            rw [Nat.mul_assoc, ← Nat.pow_add, Nat.mul_assoc, Nat.mul_assoc, ← Nat.pow_add, ← Nat.pow_add, ← Nat.add_assoc, e2]
theorem rne_congr {b n d n' d' : Nat} (hb : 0 < b) (hd : 0 < d) (hd' : 0 < d') (h : n * d' = n' * d) : rne b n d = rne b n' d' := by
  rw [← rne_scale hb hd hd', h, Nat.mul_comm d d', rne_scale hb hd' hd]
theorem round_congr {w : Nat} {s : Bool} {n d n' d' : Nat} (hd : 0 < d) (hd' : 0 < d') (h : n * d' = n' * d) :
    round w s n d = round w s n' d' := by unfold round; rw [rne_congr (mb_pos w) hd hd' h]
theorem magVal_one {w : Nat} (h : W w) : magVal (mb w) 1 = 1 := by rcases h with h | h <;> subst h <;> decide
/-- values below half of the smallest subnormal round to zero -/
theorem round_tiny {w : Nat} (h : W w) {s : Bool} {n d : Nat} (hd : 0 < d) (hn : 2 * n < d) : round w s n d = pack w s 0 := by
  unfold round
  rw [rne_char (p := 0) (mb_pos w) hd (by rw [magVal_zero]; omega) (by rw [Nat.zero_add, magVal_one h]; omega), if_pos]
  · simp
  · rw [Nat.zero_add, magVal_zero, magVal_one h]; omega
/-- values from one step above the largest finite number on round to infinity -/
theorem round_huge {w : Nat} {s : Bool} {n d : Nat} (hd : 0 < d) (hn : magVal (mb w) (infMag w) * d ≤ n) :
    round w s n d = pack w s (infMag w) := by
  unfold round
  have h1 := rne_mono (mb_pos w) hd hn
  rw [rne_exact (mb_pos w) hd] at h1
  rw [Nat.min_eq_right h1]
theorem magVal_infMag {w : Nat} (h : W w) : magVal (mb w) (infMag w) = 2 ^ mb w * 2 ^ (emax w - 1) := by
  have e3 : infMag w = emax w * 2 ^ mb w + 0 := rfl
  have : emax w ≠ 0 := by rcases h with h | h <;> subst h <;> decide
  rw [e3, magVal_fields (Nat.two_pow_pos _)]
  unfold fieldVal
  rw [if_neg this, Nat.add_zero]
theorem shl_ofNat {w : Nat} (e m : Nat) : BitVec.ofNat w e <<< m = BitVec.ofNat w (e * 2 ^ m) := by
  apply BitVec.eq_of_toNat_eq
  rw [BitVec.toNat_shiftLeft, BitVec.toNat_ofNat, BitVec.toNat_ofNat, Nat.shiftLeft_eq, Nat.mod_mul_mod]
end Dpm.Fp

namespace Dpm.X86
open Dpm.Reg Dpm.Fp

/-- integers the partial compare gets right -/
def InR (low : Bool) (w : Nat) (z : Int) : Prop :=
  (-2147483648 ≤ z ∧ z < 2147483648) ∨ (w = 64 ∧ low = false ∧ -1099511627776 ≤ z ∧ z < 1099511627776)
theorem toInt_inR {low : Bool} {w : Nat} (h : W w) {z : Int} (hz : InR low w z) : (BitVec.ofInt w z).toInt = z := by
  rw [BitVec.toInt_ofInt]
  unfold InR at hz
  rcases h with h | h <;> subst h
  · exact Int.bmod_eq_of_le (by omega) (by omega)
  · exact Int.bmod_eq_of_le (by omega) (by omega)
theorem gtLow_ofInt {low : Bool} {w : Nat} (h : W w) {a b : Int} (ha : InR low w a) (hb : InR low w b) :
    gtLow low (BitVec.ofInt w a) (BitVec.ofInt w b) = decide (b < a) := by
  unfold gtLow
  cases low
  · rw [if_neg (by decide), toInt_inR h ha, toInt_inR h hb]
  · rw [if_pos rfl]
    have key : ∀ z, InR true w z → (BitVec.setWidth 32 (BitVec.ofInt w z)).toInt = z := by
      intro z hz
      unfold InR at hz
      have hz2 : -2147483648 ≤ z ∧ z < 2147483648 := by
        rcases hz with hz | hz
        · exact hz
        · exact absurd hz.2.1 (by decide)
      have e2 : BitVec.setWidth 32 (BitVec.ofInt w z) = BitVec.ofInt 32 z := by
        apply BitVec.eq_of_toNat_eq
        rw [BitVec.toNat_setWidth, BitVec.toNat_ofInt, BitVec.toNat_ofInt]
        rcases h with h | h <;> subst h <;> omega
      rw [e2, BitVec.toInt_ofInt]
      exact Int.bmod_eq_of_le (by omega) (by omega)
    rw [key a ha, key b hb]

/-- exponent and significand of a nonzero finite number with unbounded exponent range:
`|x| = (2^mb + f) * 2^(k - 1)` units -/
structure Norm {w : Nat} (x : BitVec w) (k : Int) : Prop where
  k_lo : -(mb w : Int) < k
  k_hi : k < emax w
  eq : normK x = BitVec.ofInt w k
  msb : (normI x).msb = x.msb
  val : (val x).natAbs * 2 ^ (mb w + 2) = (2 ^ mb w + manF (normI x)) * 2 ^ (k + mb w + 1).toNat
theorem norm_spec {w : Nat} (h : W w) {x : BitVec w} (hfin : isFinite x = true) (h0 : mag x ≠ 0) : ∃ k, Norm x k := by
  have hb := emax_bias h
  have hbs : 100 < bias w ∧ mb w ≤ 52 ∧ mb w + 2 < bias w := by rcases h with h | h <;> subst h <;> decide
  have hne : expF x ≠ emax w := by unfold isFinite at hfin; simpa using hfin
  have hx1 : 1 ≤ (Fp.val x).natAbs := by rw [natAbs_val]; exact magVal_pos.2 (by omega)
  by_cases he : expF x = 0
  · obtain ⟨y, hy, hyf, hys, hyv⟩ := fmul_pow2_subn h he (expMult_eq h) (k := mb w + 2) (by omega) (by omega)
    have hy4 : 2 ^ (mb w + 2) ≤ (Fp.val y).natAbs := by
      rw [hyv]; exact Nat.le_trans (by omega) (Nat.mul_le_mul_right _ hx1)
    have hy0 : expF y ≠ 0 := by
      apply normal_of_ge
      exact Nat.le_trans (Nat.pow_le_pow_right (by omega) (by omega)) hy4
    have hv2 : (Fp.val y).natAbs = (2 ^ mb w + manF y) * 2 ^ (expF y - 1) := by
      rw [natAbs_val_fields]; unfold fieldVal; rw [if_neg hy0]
    have hm := manF_lt y
    have hxl : (Fp.val x).natAbs < 2 ^ mb w := by
      rw [natAbs_val_fields, he]; exact manF_lt x
    -- range of the exponent
    have hlo : 3 ≤ expF y := by
      apply Classical.byContradiction
      intro hc
      have h1 : 2 ^ (expF y - 1) ≤ 2 ^ 1 := Nat.pow_le_pow_right (by omega) (by omega)
      have h2 : (2 ^ mb w + manF y) * 2 ^ (expF y - 1) ≤ (2 ^ mb w + manF y) * 2 ^ 1 := Nat.mul_le_mul_left _ h1
      have h3 : 2 ^ (mb w + 2) = 4 * 2 ^ mb w := by rw [Nat.pow_add]; omega
      omega
    have hhi : expF y ≤ mb w + 2 := by
      apply Classical.byContradiction
      intro hc
      have h1 : 2 ^ (mb w + 2) ≤ 2 ^ (expF y - 1) := Nat.pow_le_pow_right (by omega) (by omega)
      have h2 : 2 ^ mb w * 2 ^ (mb w + 2) ≤ (2 ^ mb w + manF y) * 2 ^ (expF y - 1) := Nat.mul_le_mul (by omega) h1
      have h3 : (Fp.val x).natAbs * 2 ^ (mb w + 2) < 2 ^ mb w * 2 ^ (mb w + 2) := Nat.mul_lt_mul_of_pos_right hxl (Nat.two_pow_pos _)
      omega
    have e1 : normI x = y := by unfold normI; simp [he, hy]
    refine ⟨(expF y : Int) - (mb w + 2 : Nat), by omega, by omega, ?_, by rw [e1, hys], ?_⟩
    · unfold normK
      rw [hy]
      simp only [he, decide_true, if_true]
      have := ofNat_sub2 (w := w) (expF y) (mb w + 2) 0
      rw [show BitVec.ofNat w 0 = 0#w from rfl, BitVec.sub_zero] at this
      rw [this]; congr 1; omega
    · rw [e1, ← hyv, hv2]; congr 2; omega
  · have e1 : normI x = x := by unfold normI; simp [he]
    have := expF_le h x
    refine ⟨expF x, by omega, by omega, ?_, by rw [e1], ?_⟩
    · unfold normK; simp only [he, decide_false, Bool.false_eq_true, if_false, BitVec.ofInt_natCast]
    · rw [e1, natAbs_val_fields]; unfold fieldVal
      rw [if_neg he, Nat.mul_assoc, ← Nat.pow_add]; congr 2; omega
theorem rebuilt_eq {w : Nat} (h : W w) {low : Bool} {x n : BitVec w} {k N e : Int} (hk : Norm x k) (hn : n = BitVec.ofInt w N)
    (he : e = k + N + (if posB low x n then 0 else (mb w : Int) + 2)) (h1 : 0 ≤ e) (h2 : e ≤ emax w) :
    rebuilt low x n = ofFields w x.msb e.toNat (manF (normI x)) := by
  unfold rebuilt
  have e1 : normK x + n + (if posB low x n then 0#w else BitVec.ofNat w (mb w + 2)) = BitVec.ofNat w e.toNat := by
    rw [← BitVec.ofInt_natCast w e.toNat, Int.toNat_of_nonneg h1, he, BitVec.ofInt_add, BitVec.ofInt_add, hk.eq, hn]
    congr 1
    split
    · rfl
    · rw [← BitVec.ofInt_natCast]; rfl
  rw [e1, shl_ofNat, set_exp h _ (by omega), hk.msb]
theorem expMultm_fields {w : Nat} (h : W w) : isFinite (expMultm w) = true ∧ (expMultm w).msb = false ∧ (val (expMultm w)).natAbs = 2 ^ (unitExp w - (mb w + 2)) := by
  rcases h with h | h <;> subst h <;> decide +kernel
theorem huge_eq {w : Nat} (h : W w) (x : BitVec w) : fmul (hugeBits w) (hugeBits w ||| (x &&& BitVec.intMin w)) = pack w x.msb (infMag w) := by
  rw [and_intMin h.pos]
  cases x.msb <;> rcases h with h | h <;> subst h <;> decide +kernel
theorem tiny_eq {w : Nat} (h : W w) (x : BitVec w) : fmul (tinyBits w) (tinyBits w ||| (x &&& BitVec.intMin w)) = pack w x.msb 0 := by
  rw [and_intMin h.pos]
  cases x.msb <;> rcases h with h | h <;> subst h <;> decide +kernel
end Dpm.X86

namespace Dpm.X86
open Dpm.Reg Dpm.Fp
theorem inR_small {low : Bool} {w : Nat} {z : Int} (h1 : -100000 ≤ z) (h2 : z ≤ 100000) : InR low w z := Or.inl ⟨by omega, by omega⟩
theorem fwdB_finite {w : Nat} (h : W w) {x : BitVec w} {k : Int} (hk : Norm x k) (h0 : mag x ≠ 0) (pn : Bool) : fwdB pn x = false := by
  have hb : mb w ≤ 52 ∧ emax w ≤ 2047 := by rcases h with h | h <;> subst h <;> decide
  have h1 := hk.k_lo
  have h2 := hk.k_hi
  unfold fwdB
  have : normK x ≠ BitVec.ofNat w (emax w) := by
    intro he
    rw [hk.eq, ← BitVec.ofInt_natCast] at he
    have := congrArg BitVec.toInt he
    rw [small_toInt h (by omega) (by omega), small_toInt h (by omega) (by omega)] at this
    omega
  simp [h0, this]

/-- `impl_scalbn` on a finite nonzero lane -/
theorem scalbnLane_finite {w : Nat} (h : W w) {o : MathOpt} {low : Bool} {x n : BitVec w} {k N : Int} (hk : Norm x k) (h0 : mag x ≠ 0)
    (hn : n = BitVec.ofInt w N) (hN : -2147483648 ≤ N ∧ N < 2147483648)
    (hov : k + N < 2147483648 ∨ (w = 64 ∧ low = false))
    (hr : o.handleErr = true ∨ (-(mb w : Int) - 1 ≤ k + N ∧ k + N < emax w)) :
    scalbnLane o low x n = round w x.msb ((val x).natAbs * 2 ^ N.toNat) (2 ^ (-N).toNat) := by
  have hb : mb w ≤ 52 ∧ emax w ≤ 2047 ∧ 0 < emax w ∧ mb w + 2 < emax w ∧ unitExp w ≤ 1074 ∧ mb w + 60 < unitExp w := by
    rcases h with h | h <;> subst h <;> decide
  have k1 := hk.k_lo
  have k2 := hk.k_hi
  have hfw := fwdB_finite h hk h0
  have hQ : 0 < 2 ^ (-N).toNat := Nat.two_pow_pos _
  have hM := manF_lt (normI x)
  generalize hf : manF (normI x) = f at *
  have hval := hk.val
  rw [hf] at hval
  have hpow : ∀ p q : Nat, (q : Int) - p = k - 1 + N →
      (val x).natAbs * 2 ^ N.toNat * 2 ^ p = (2 ^ mb w + f) * 2 ^ q * 2 ^ (-N).toNat :=
    fun p q hpq => pow_eq hval (by omega)
  generalize hA : (val x).natAbs * 2 ^ N.toNat = A at *
  generalize hQ2 : 2 ^ (-N).toNat = Q at *
  have hkn : normK x + n = BitVec.ofInt w (k + N) := by rw [hk.eq, hn, BitVec.ofInt_add]
  have z0 : (0#w) = BitVec.ofInt w 0 := by simp
  have hmx : (BitVec.ofNat w maxScalbn) = BitVec.ofInt w 50000 := by rw [← BitVec.ofInt_natCast]; rfl
  have hem : BitVec.ofNat w (emax w - 1) = BitVec.ofInt w (emax w - 1 : Nat) := by rw [← BitVec.ofInt_natCast]
  have hInN : InR low w N := Or.inl hN
  -- the comparisons
  by_cases hlt : k + N < -2147483648 ∧ ¬ (w = 64 ∧ low = false)
  · -- wraps below: far underflow
    rcases hr with hr | hr
    · have hu : uflowB low o.propNan x n = true := by
        unfold uflowB
        rw [hfw, hn, show (-(maxScalbn : Int)) = -50000 from rfl, gtLow_ofInt h (inR_small (by omega) (by omega)) hInN]
        simp; left; omega
      unfold scalbnLane
      rw [hu, hr, if_pos (by rfl), tiny_eq h]
      symm
      apply round_tiny h hQ
      have := hpow (-(k - 1 + N)).toNat 0 (by omega)
      have h4 : 2 ^ (mb w + 3) ≤ 2 ^ (-(k - 1 + N)).toNat := Nat.pow_le_pow_right (by omega) (by omega)
      have h5 : A * 2 ^ (mb w + 3) ≤ A * 2 ^ (-(k - 1 + N)).toNat := Nat.mul_le_mul_left _ h4
      have h6 : (2 ^ mb w + f) * 2 ^ 0 * Q < 2 * 2 ^ mb w * Q := Nat.mul_lt_mul_of_pos_right (by omega) hQ
      have h7 : A * 2 ^ (mb w + 3) = (8 * A) * 2 ^ mb w := by rw [Nat.pow_add, Nat.mul_comm (2 ^ mb w), ← Nat.mul_assoc, Nat.mul_comm A]
      have h8 : 2 * 2 ^ mb w * Q = (2 * Q) * 2 ^ mb w := Nat.mul_right_comm _ _ _
      have h9 : (8 * A) * 2 ^ mb w < (2 * Q) * 2 ^ mb w := by omega
      have := Nat.lt_of_mul_lt_mul_right h9
      omega
    · exfalso; omega
  have hInE : InR low w (k + N) := by
    unfold InR
    by_cases hd : w = 64 ∧ low = false
    · right; exact ⟨hd.1, hd.2, by omega, by omega⟩
    · left
      have h1 : ¬ k + N < -2147483648 := fun hh => hlt ⟨hh, hd⟩
      have h2 : k + N < 2147483648 := by
        rcases hov with hov | hov
        · exact hov
        · exact absurd hov hd
      omega
  have hpos : posB low x n = decide (0 < k + N) := by
    unfold posB; rw [hkn, z0]; exact gtLow_ofInt h hInE (inR_small (by omega) (by omega))
  have hof : oflowB low o.propNan x n = (decide (50000 < N) || decide ((emax w - 1 : Nat) < k + N)) := by
    unfold oflowB
    rw [hfw, hkn, hn, hmx, hem, gtLow_ofInt h hInN (inR_small (by omega) (by omega)), gtLow_ofInt h hInE (inR_small (by omega) (by omega))]
    rfl
  have huf : uflowB low o.propNan x n = (decide (N < -50000) || decide (k + N < -(mb w : Int) - 1)) := by
    unfold uflowB
    rw [hfw, hkn, hn, show (-(maxScalbn : Int)) = -50000 from rfl, gtLow_ofInt h (inR_small (by omega) (by omega)) hInN,
      gtLow_ofInt h (inR_small (by omega) (by omega)) hInE]
    rfl
  by_cases c1 : k + N < -(mb w : Int) - 1
  · have hh : o.handleErr = true := by rcases hr with hr | hr; exact hr; omega
    unfold scalbnLane
    rw [huf, hh, if_pos (by simp; right; omega), tiny_eq h]
    symm
    apply round_tiny h hQ
    have := hpow (-(k - 1 + N)).toNat 0 (by omega)
    have h4 : 2 ^ (mb w + 3) ≤ 2 ^ (-(k - 1 + N)).toNat := Nat.pow_le_pow_right (by omega) (by omega)
    have h5 : A * 2 ^ (mb w + 3) ≤ A * 2 ^ (-(k - 1 + N)).toNat := Nat.mul_le_mul_left _ h4
    have h6 : (2 ^ mb w + f) * 2 ^ 0 * Q < 2 * 2 ^ mb w * Q := Nat.mul_lt_mul_of_pos_right (by omega) hQ
    have h7 : A * 2 ^ (mb w + 3) = (8 * A) * 2 ^ mb w := by rw [Nat.pow_add, Nat.mul_comm (2 ^ mb w), ← Nat.mul_assoc, Nat.mul_comm A]
    have h8 : 2 * 2 ^ mb w * Q = (2 * Q) * 2 ^ mb w := Nat.mul_right_comm _ _ _
    have h9 : (8 * A) * 2 ^ mb w < (2 * Q) * 2 ^ mb w := by omega
    have := Nat.lt_of_mul_lt_mul_right h9
    omega
  have huf' : uflowB low o.propNan x n = false := by
    rw [huf]; simp only [Bool.or_eq_false_iff, decide_eq_false_iff_not]; omega
  by_cases c2 : emax w ≤ k + N
  · have hh : o.handleErr = true := by rcases hr with hr | hr; exact hr; omega
    unfold scalbnLane
    rw [huf', hof, hh, if_neg (by simp), if_pos (by simp; right; omega), huge_eq h]
    symm
    apply round_huge hQ
    have := hpow 0 (k - 1 + N).toNat (by omega)
    rw [Nat.pow_zero, Nat.mul_one] at this
    rw [this, magVal_infMag h]
    apply Nat.mul_le_mul_right
    exact Nat.mul_le_mul (by omega) (Nat.pow_le_pow_right (by omega) (by omega))
  have hof' : oflowB low o.propNan x n = false := by
    rw [hof]; simp only [Bool.or_eq_false_iff, decide_eq_false_iff_not]; omega
  have hcore : scalbnLane o low x n = scalbnCore low o.propNan x n := by
    unfold scalbnLane; rw [huf', hof']; simp
  rw [hcore]
  unfold scalbnCore
  rw [hfw]
  by_cases c3 : 0 < k + N
  · have hp : posB low x n = true := by rw [hpos]; simpa using c3
    have hre := rebuilt_eq h (low := low) hk hn (e := k + N) (by rw [hp]; simp) (by omega) (by omega)
    rw [hp, hf] at *
    simp only [Bool.not_false, Bool.and_self, if_true]
    rw [hre]
    symm
    have hfl := fields_of h (s := x.msb) (e := (k + N).toNat) (f := f) (by omega) hM
    apply round_val h (by rw [hfl.2.1]; unfold infMag; have := fields_lt h (e := (k+N).toNat) (f := f) (by omega) hM; have h8 := Nat.mul_le_mul_right (2 ^ mb w) (show (k + N).toNat + 1 ≤ emax w by omega); rw [Nat.succ_mul] at h8; omega) hQ hfl.1.symm
    have := hpow 0 (k - 1 + N).toNat (by omega)
    rw [Nat.pow_zero, Nat.mul_one] at this
    rw [this, natAbs_val_fields, hfl.2.2.1, hfl.2.2.2]
    unfold fieldVal
    rw [if_neg (by omega)]
    congr 3; omega
  · have hp : posB low x n = false := by rw [hpos]; simpa using c3
    have hre := rebuilt_eq h (low := low) hk hn (e := k + N + (mb w + 2)) (by rw [hp]; simp) (by omega) (by omega)
    rw [hp, hf] at *
    simp only [Bool.not_false, Bool.and_false, Bool.false_eq_true, if_false]
    rw [hre]
    have hfl := fields_of h (s := x.msb) (e := (k + N + (mb w + 2)).toNat) (f := f) (by omega) hM
    have hfin : isFinite (ofFields w x.msb (k + N + (mb w + 2)).toNat f) = true := by
      unfold isFinite; rw [hfl.2.2.1]; simp; omega
    have hmm := expMultm_fields h
    rw [fmul_fin hfin hmm.1]
    have e1 : (neg (ofFields w x.msb (k + N + (mb w + 2)).toNat f) != neg (expMultm w)) = x.msb := by
      unfold neg; rw [hfl.1, hmm.2.1]; cases x.msb <;> rfl
    rw [e1]
    apply round_congr (Nat.two_pow_pos _) hQ
    rw [hmm.2.2, natAbs_val_fields, hfl.2.2.1, hfl.2.2.2]
    unfold fieldVal
    rw [if_neg (by omega), hpow (unitExp w) (k - 1 + N + unitExp w).toNat (by omega), Nat.mul_assoc (2 ^ mb w + f), ← Nat.pow_add]
    congr 3; omega
end Dpm.X86

/-! ### the other lanes -/
namespace Dpm.X86
open Dpm.Reg Dpm.Fp
theorem scalbnLane_fwd {w : Nat} {o : MathOpt} {low : Bool} {x n : BitVec w} (hfw : fwdB o.propNan x = true) :
    scalbnLane o low x n = fmul x (expMultm w) := by
  unfold scalbnLane uflowB oflowB scalbnCore
  rw [hfw]; simp
theorem scalbnLane_zero {w : Nat} (h : W w) {o : MathOpt} {low : Bool} {x n : BitVec w} (h0 : mag x = 0) : scalbnLane o low x n = x := by
  rw [scalbnLane_fwd (by unfold fwdB; simp [h0])]
  have hmm := expMultm_fields h
  have hx : isFinite x = true := by rw [finite_iff h, h0]; exact Nat.mul_pos (by rcases h with h | h <;> subst h <;> decide) (Nat.two_pow_pos _)
  have hv : val x = 0 := (val_zero_iff x).2 h0
  refine fmul_exact h hx hmm.1 (by rw [h0]; omega) ?_ ?_
  · rw [hmm.2.1]; cases x.msb <;> rfl
  · rw [hv]; simp
theorem normK_nonfinite {w : Nat} (h : W w) {x : BitVec w} (he : expF x = emax w) : normK x = BitVec.ofNat w (emax w) := by
  have : emax w ≠ 0 := by rcases h with h | h <;> subst h <;> decide
  unfold normK
  rw [he]; simp [this]
theorem scalbnLane_inf {w : Nat} (h : W w) {o : MathOpt} (hp : o.propNan = true) {low : Bool} {x n : BitVec w} (hx : isInf x = true) :
    scalbnLane o low x n = x := by
  have he : expF x = emax w := by unfold isInf at hx; simp at hx; exact hx.1
  rw [scalbnLane_fwd (by unfold fwdB; rw [hp, normK_nonfinite h he]; simp)]
  have hmm := expMultm_fields h
  have hc := finite_cls hmm.1
  have hn : isNaN x = false := by unfold isNaN; unfold isInf at hx; simp at hx; simp [hx]
  have hz : isZero (expMultm w) = false := by rcases h with h | h <;> subst h <;> decide
  have hz2 : isZero x = false := by
    unfold isZero; rw [he]; have : emax w ≠ 0 := by rcases h with h | h <;> subst h <;> decide
    simp [this]
  unfold fmul
  rw [hn, hc.1, hx, hz, hz2]
  simp only [Bool.false_eq_true, if_false, Bool.true_or, if_true, Bool.or_self]
  have e1 : (neg x != neg (expMultm w)) = x.msb := by unfold neg; rw [hmm.2.1]; cases x.msb <;> rfl
  rw [e1, ← (inf_iff h x).1 hx]; exact pack_eta h x
theorem quiet_nan {w : Nat} (h : W w) {x : BitVec w} (hx : isNaN x = true) : isNaN (quiet x) = true := by
  rw [nan_iff h] at hx ⊢
  have h1 : mag x ≤ mag (quiet x) := by
    unfold quiet mag
    have h3 : ∀ y : BitVec w, y.toNat % 2 ^ (w - 1) = (y &&& BitVec.intMax w).toNat := by
      intro y; rw [and_intMax_toNat h.pos]; rfl
    rw [h3, h3]
    have : (x ||| BitVec.ofNat w (2 ^ (mb w - 1))) &&& BitVec.intMax w = (x &&& BitVec.intMax w) ||| (BitVec.ofNat w (2 ^ (mb w - 1)) &&& BitVec.intMax w) := by
      apply BitVec.eq_of_getLsbD_eq
      intro i _
      simp only [BitVec.getLsbD_and, BitVec.getLsbD_or]
      cases x.getLsbD i <;> cases (BitVec.intMax w).getLsbD i <;> simp
    rw [this, BitVec.toNat_or]
    exact Nat.left_le_or
  omega
theorem scalbnLane_nan {w : Nat} (h : W w) {o : MathOpt} (hp : o.propNan = true) {low : Bool} {x n : BitVec w} (hx : isNaN x = true) :
    isNaN (scalbnLane o low x n) = true := by
  have he : expF x = emax w := by unfold isNaN at hx; simp at hx; exact hx.1
  rw [scalbnLane_fwd (by unfold fwdB; rw [hp, normK_nonfinite h he]; simp)]
  unfold fmul
  rw [hx, if_pos rfl]
  exact quiet_nan h hx
/-- exponents near `INT_MAX`: the sum wraps and underflow is handled last -/
theorem scalbnLane_wrap {w : Nat} (h : W w) {o : MathOpt} (hh : o.handleErr = true) {low : Bool} {x n : BitVec w} {k N : Int} (hk : Norm x k) (h0 : mag x ≠ 0)
    (hn : n = BitVec.ofInt w N) (hN : N < 2147483648) (hov : 2147483648 ≤ k + N) (hd : w = 32 ∨ low = true) :
    scalbnLane o low x n = pack w x.msb 0 := by
  have hb : mb w ≤ 52 ∧ emax w ≤ 2047 := by rcases h with h | h <;> subst h <;> decide
  have k2 := hk.k_hi
  have hkn : normK x + n = BitVec.ofInt w (k + N) := by rw [hk.eq, hn, BitVec.ofInt_add]
  have hu : uflowB low o.propNan x n = true := by
    unfold uflowB
    rw [fwdB_finite h hk h0, hkn]
    have : gtLow low (BitVec.ofInt w (-(mb w : Int) - 1)) (BitVec.ofInt w (k + N)) = true := by
      rcases h with h | h
      · subst h
        have e : BitVec.ofInt 32 (k + N) = BitVec.ofInt 32 (k + N - 4294967296) := by
          apply BitVec.eq_of_toNat_eq; rw [BitVec.toNat_ofInt, BitVec.toNat_ofInt]; omega
        rw [e, gtLow_ofInt (Or.inl rfl) (inR_small (by omega) (by omega)) (Or.inl ⟨by omega, by omega⟩)]
        simp; omega
      · subst h
        have hl : low = true := by rcases hd with hd | hd; cases hd; exact hd
        subst hl
        unfold gtLow
        rw [if_pos rfl]
        have e : BitVec.setWidth 32 (BitVec.ofInt 64 (k + N)) = BitVec.ofInt 32 (k + N - 4294967296) := by
          apply BitVec.eq_of_toNat_eq; rw [BitVec.toNat_setWidth, BitVec.toNat_ofInt, BitVec.toNat_ofInt]; omega
        have e2 : BitVec.setWidth 32 (BitVec.ofInt 64 (-(mb 64 : Int) - 1)) = BitVec.ofInt 32 (-(mb 64 : Int) - 1) := by
          apply BitVec.eq_of_toNat_eq; rw [BitVec.toNat_setWidth, BitVec.toNat_ofInt, BitVec.toNat_ofInt]; omega
        rw [e, e2, small_toInt (z := -(mb 64 : Int) - 1) (Or.inl rfl) (by omega) (by omega), BitVec.toInt_ofInt, Int.bmod_eq_of_le (by omega) (by omega)]
        simp; omega
    rw [this]; simp
  unfold scalbnLane
  rw [hu, hh, if_pos (by rfl), tiny_eq h]
theorem norm_ge_one {w : Nat} (h : W w) {x : BitVec w} {k : Int} (hk : Norm x k) (hx : 2 ^ unitExp w ≤ (val x).natAbs) : (bias w : Int) ≤ k := by
  have hb : mb w ≤ 52 ∧ 100 < bias w := by rcases h with h | h <;> subst h <;> decide
  have hM := manF_lt (normI x)
  have hv := hk.val
  have k1 := hk.k_lo
  apply Classical.byContradiction
  intro hc
  have h1 : 2 ^ unitExp w * 2 ^ (mb w + 2) ≤ (val x).natAbs * 2 ^ (mb w + 2) := Nat.mul_le_mul_right _ hx
  have h2 : (2 ^ mb w + manF (normI x)) * 2 ^ (k + mb w + 1).toNat < 2 ^ (mb w + 1) * 2 ^ (k + mb w + 1).toNat :=
    Nat.mul_lt_mul_of_pos_right (by rw [Nat.pow_succ]; omega) (Nat.two_pow_pos _)
  have h3 : 2 ^ (mb w + 1) * 2 ^ (k + mb w + 1).toNat ≤ 2 ^ unitExp w * 2 ^ (mb w + 2) := by
    rw [← Nat.pow_add, ← Nat.pow_add, unitExp_eq h]
    exact Nat.pow_le_pow_right (by omega) (by omega)
  omega
/-- exponent of an exact result that is neither below the smallest subnormal nor above the largest finite number -/
theorem norm_range {w : Nat} (h : W w) {x : BitVec w} {k N : Int} (hk : Norm x k) 
    (h1 : 2 ^ (-N).toNat ≤ (val x).natAbs * 2 ^ N.toNat) (h2 : (val x).natAbs * 2 ^ N.toNat < magVal (mb w) (infMag w) * 2 ^ (-N).toNat) :
    -(mb w : Int) - 1 ≤ k + N ∧ k + N < emax w := by
  have hM := manF_lt (normI x)
  have k1 := hk.k_lo
  have hem : 1 < emax w := by rcases h with h | h <;> subst h <;> decide
  have hQ : 0 < 2 ^ (-N).toNat := Nat.two_pow_pos _
  have hpow : ∀ p q : Nat, (q : Int) - p = k - 1 + N →
      (val x).natAbs * 2 ^ N.toNat * 2 ^ p = (2 ^ mb w + manF (normI x)) * 2 ^ q * 2 ^ (-N).toNat :=
    fun p q hpq => pow_eq hk.val (by omega)
  generalize (val x).natAbs * 2 ^ N.toNat = A at *
  generalize 2 ^ (-N).toNat = Q at *
  generalize manF (normI x) = f at *
  constructor
  · apply Classical.byContradiction
    intro hc
    have := hpow (-(k - 1 + N)).toNat 0 (by omega)
    have h4 : 2 ^ (mb w + 3) ≤ 2 ^ (-(k - 1 + N)).toNat := Nat.pow_le_pow_right (by omega) (by omega)
    have h5 : A * 2 ^ (mb w + 3) ≤ A * 2 ^ (-(k - 1 + N)).toNat := Nat.mul_le_mul_left _ h4
    have h6 : (2 ^ mb w + f) * 2 ^ 0 * Q < 2 * 2 ^ mb w * Q := Nat.mul_lt_mul_of_pos_right (by omega) hQ
    have h7 : A * 2 ^ (mb w + 3) = (8 * A) * 2 ^ mb w := by rw [Nat.pow_add, Nat.mul_comm (2 ^ mb w), ← Nat.mul_assoc, Nat.mul_comm A]
    have h8 : 2 * 2 ^ mb w * Q = (2 * Q) * 2 ^ mb w := Nat.mul_right_comm _ _ _
    have h9 : (8 * A) * 2 ^ mb w < (2 * Q) * 2 ^ mb w := by omega
    have := Nat.lt_of_mul_lt_mul_right h9
    omega
  · apply Classical.byContradiction
    intro hc
    have := hpow 0 (k - 1 + N).toNat (by omega)
    rw [Nat.pow_zero, Nat.mul_one] at this
    rw [this, magVal_infMag h] at h2
    have h4 : 2 ^ mb w * 2 ^ (emax w - 1) * Q ≤ (2 ^ mb w + f) * 2 ^ (k - 1 + N).toNat * Q :=
      Nat.mul_le_mul_right _ (Nat.mul_le_mul (by omega) (Nat.pow_le_pow_right (by omega) (by omega)))
    omega
end Dpm.X86

namespace Dpm.X86
open Dpm.Reg Dpm.Fp
theorem round_zero' {w : Nat} (s : Bool) {d : Nat} (hd : 0 < d) : round w s 0 d = pack w s 0 := by
  unfold round
  have h := rne_exact (b := mb w) (m := 0) (d := d) (Fp.mb_pos w) hd
  rw [magVal_zero, Nat.zero_mul] at h
  rw [h, Nat.zero_min]
/-- exponents that do not make the sum with an exponent field wrap -/
def ExpOk (w : Nat) (low : Bool) (N : Int) : Prop := N + emax w ≤ 2147483648 ∨ (w = 64 ∧ low = false)
/-- the whole of `impl_scalbn` on one lane -/
theorem scalbnLane_result {w : Nat} (h : W w) {o : MathOpt} (hh : o.handleErr = true) (hp : o.propNan = true) {low : Bool} {x n : BitVec w} {N : Int}
    (hn : n = BitVec.ofInt w N) (hN : -2147483648 ≤ N ∧ N < 2147483648) (hov : ExpOk w low N) :
    IsScalbnResult x N (scalbnLane o low x n) := by
  refine ⟨fun hf => ?_, fun hi => scalbnLane_inf h hp hi, fun hn => scalbnLane_nan h hp hn⟩
  unfold IsScalbn
  by_cases h0 : mag x = 0
  · rw [scalbnLane_zero h h0]
    have hv : val x = 0 := (val_zero_iff x).2 h0
    have := round_isRounded h x.msb (n := (val x).natAbs * 2 ^ N.toNat) (d := 2 ^ (-N).toNat) (Nat.two_pow_pos _)
    rw [show round w x.msb ((val x).natAbs * 2 ^ N.toNat) (2 ^ (-N).toNat) = x by
      rw [hv]; simp only [Int.natAbs_zero, Nat.zero_mul]; rw [round_zero' _ (Nat.two_pow_pos _), ← h0]; exact pack_eta h x] at this
    exact this
  · obtain ⟨k, hk⟩ := norm_spec h hf h0
    have k2 := hk.k_hi
    rw [scalbnLane_finite h hk h0 hn hN (by unfold ExpOk at hov; rcases hov with h1 | h1; left; omega; exact Or.inr h1) (Or.inl hh)]
    exact round_isRounded h _ (Nat.two_pow_pos _)
theorem scalbnLane_in_range {w : Nat} (h : W w) {o : MathOpt} {low : Bool} {x n : BitVec w} {N : Int}
    (hn : n = BitVec.ofInt w N) (hN : -2147483648 ≤ N ∧ N < 2147483648) (hf : isFinite x = true)
    (h1 : 2 ^ (-N).toNat ≤ (val x).natAbs * 2 ^ N.toNat) (h2 : (val x).natAbs * 2 ^ N.toNat < magVal (mb w) (infMag w) * 2 ^ (-N).toNat) :
    IsScalbn x N (scalbnLane o low x n) := by
  have h0 : mag x ≠ 0 := by
    intro h0
    have hv : val x = 0 := (val_zero_iff x).2 h0
    have := Nat.two_pow_pos (-N).toNat
    rw [hv] at h1; simp at h1
  obtain ⟨k, hk⟩ := norm_spec h hf h0
  have hb : emax w ≤ 2047 := by rcases h with h | h <;> subst h <;> decide
  have hr := norm_range h hk h1 h2
  unfold IsScalbn
  rw [scalbnLane_finite h hk h0 hn hN (by left; omega) (Or.inr hr)]
  exact round_isRounded h _ (Nat.two_pow_pos _)

theorem lane32_signExtend (a : BitVec 32) : lane 32 (a.signExtend 64) 0 = a ∧ lane 32 (a.signExtend 64) 1 = a.sshiftRight 31 := by
  constructor
  · apply BitVec.eq_of_getLsbD_eq
    intro k hk
    rw [lane32_0_getLsbD _ _ hk, signExtend_bit _ _ (by omega), if_pos hk]
  · apply BitVec.eq_of_getLsbD_eq
    intro k hk
    rw [lane32_1_getLsbD _ _ hk, signExtend_bit _ _ (by omega), if_neg (by omega), BitVec.getLsbD_sshiftRight]
    simp only [show ¬ (32 ≤ k) by omega, decide_false, Bool.not_false, Bool.true_and]
    split
    · rw [show 31 + k = 31 by omega]
    · rw [BitVec.msb_eq_getLsbD_last]
/-- the exponents of a vector of doubles: 32-bit lanes of `e` sign-extended, taken within 128-bit lanes -/
theorem widenExp_lane {n q : Nat} (hn : n = q * 128) (e : BitVec n) (i : Nat) {l : Nat} (hl : l < 2 * q) :
    lane 64 (widenExp e i) l = (lane 32 e (4 * (l / 2) + 2 * (i % 2) + l % 2)).signExtend 64 := by
  have hb32 : ∀ k, k < 4 * q → (k + 1) * 32 ≤ n := by
    intro k hk; rw [hn]; omega
  have key : ∀ hb : Bool, lane 64 (if hb then unpackhiEpi32 e (sraiL 32 e 31) else unpackloEpi32 e (sraiL 32 e 31)) l
      = (lane 32 e (4 * (l / 2) + (if hb then 2 else 0) + l % 2)).signExtend 64 := by
    intro hb
    apply ext_lanes (w := 32) (e := 2) (by decide)
    intro j hj2
    have hs := lane32_signExtend (lane 32 e (4 * (l / 2) + (if hb then 2 else 0) + l % 2))
    rw [lane_lane (w := 64) (v := 32) (i := l) (j := j) _ (by omega) (2 * l + j) (by omega)]
    rcases (by omega : j = 0 ∨ j = 1) with rfl | rfl
    · rw [hs.1]
      cases hb
      · refine (lane_unpacklo _ _ (hb32 _ (by omega))).trans ?_
        rw [if_pos (by omega)]; congr 1; simp; omega
      · refine (lane_ofLanes _ (hb32 _ (by omega))).trans ?_
        rw [if_pos (by omega)]; congr 1; simp; omega
    · rw [hs.2]
      cases hb
      · refine (lane_unpacklo _ _ (hb32 _ (by omega))).trans ?_
        rw [if_neg (by omega)]
        refine (lane_map1 (w := 32) _ _ (hb32 _ (by omega))).trans ?_
        congr 2; simp; omega
      · refine (lane_ofLanes _ (hb32 _ (by omega))).trans ?_
        rw [if_neg (by omega)]
        refine (lane_map1 (w := 32) _ _ (hb32 _ (by omega))).trans ?_
        congr 2; simp; omega
  unfold widenExp
  have h := key (decide (i % 2 = 1))
  by_cases h1 : i % 2 = 1
  · rw [if_pos h1, h1]; simpa [h1] using h
  · rw [if_neg h1, show i % 2 = 0 by omega]; simpa [h1] using h
end Dpm.X86
