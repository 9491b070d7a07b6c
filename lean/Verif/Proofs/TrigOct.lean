import Verif.Proofs.TrigRed
import Verif.Proofs.TrigCore
/-! The octant number computed by `eval_sincos`. -/
namespace Dpm.X86
open Dpm.Reg Dpm.Fp

theorem isRint_mul {D n : Int} (hD : 0 < D) : IsRint (n * D) D n := by
  refine ⟨by nlinarith, by nlinarith, ?_⟩
  rintro (h | h) <;> nlinarith
theorem rint_int {D n r v : Int} (hD : 0 < D) (hv : v = n * D) (h : IsRint v D r) : r = n := by
  subst hv; exact isRint_unique hD h (isRint_mul hD)
theorem mul_range {D n v : Int} {K : Nat} (hD : 0 < D) (hv : v = n * D) (h1 : -(K : Int) ≤ n) (h2 : n ≤ K) : -((K : Int) * D) ≤ v ∧ v ≤ K * D := by
  subst hv
  constructor <;> nlinarith
/-- `cvt_f64_i64` of an integer -/
theorem off64_int {y : BitVec 64} (hy : isFinite y = true) {n : Int} {U : Nat} (hU : U = 2 ^ unitExp 64) (hv : val y = n * (U : Int)) (hn : -((2251799813685248 : Nat) : Int) ≤ n) (hn2 : n ≤ (2251799813685248 : Nat)) :
    fadd y off64 - off64 = BitVec.ofInt 64 n := by
  have hD : (0 : Int) < U := by rw [hU]; exact_mod_cast Nat.two_pow_pos _
  have hr := mul_range hD hv hn hn2
  obtain ⟨r, hr, he⟩ := core_gen hy hU rfl hr.1 hr.2
  rw [he, rint_int hD hv hr]
/-- `cvt_f64_i64` of a number up to one half -/
theorem off64_half {y : BitVec 64} (hy : isFinite y = true) {U : Nat} (hU : U = 2 ^ unitExp 64) (hv : 0 ≤ val y) (h2 : 2 * val y ≤ (U : Int)) :
    fadd y off64 - off64 = BitVec.ofInt 64 0 := by
  have hD : (0 : Int) < U := by rw [hU]; exact_mod_cast Nat.two_pow_pos _
  obtain ⟨r, ⟨r1, r2, r3⟩, he⟩ := core_gen hy hU rfl (by norm_num; omega) (by norm_num; omega)
  have a : r < 2 := by by_contra hc; have : 3 * (U : Int) ≤ (2 * r - 1) * U := Int.mul_le_mul_of_nonneg_right (by omega) (by omega); omega
  have b : -1 < r := by by_contra hc; have : (2 * r + 1) * (U : Int) ≤ (-1) * U := Int.mul_le_mul_of_nonneg_right (by omega) (by omega); omega
  have c : r ≠ 1 := by
    rintro rfl
    have := r3 (Or.inl (by omega))
    omega
  have : r = 0 := by omega
  rw [he, this]
/-- without SSE3 a number below one keeps only part of its exponent: at most one half is left -/
theorem trunc1011_small {x : BitVec 64} (hs : x.msb = false) (h2 : expF x < 1023) {U : Nat} (hU : U = 2 ^ unitExp 64) :
    isFinite (truncLane 1011 x) = true ∧ 0 ≤ val (truncLane 1011 x) ∧ 2 * val (truncLane 1011 x) ≤ (U : Int) ∧ IsTrunc (val x) U 0 := by
  have hw : W 64 := Or.inr rfl
  have hx := toNat_sm (w := 64) (by decide) x
  rw [hs] at hx
  have hf := mag_fields x
  have hmf := manF_lt x
  have hm52 : mb 64 = 52 := rfl
  rw [hm52] at hf hmf
  have key : ∃ j, 53 ≤ j ∧ j ≤ 64 ∧ truncLane 1011 x = ~~~ BitVec.ofNat 64 (2 ^ j - 1) &&& x := by
    unfold truncLane
    rw [ones_shr]
    refine ⟨64 - (if expF x < 1011 then 1 else expF x - 1011), ?_, by omega, rfl⟩
    split <;> omega
  obtain ⟨j, hj, hj2, e⟩ := key
  have hand := andnot_low (j := j) x
  rw [← e] at hand
  generalize truncLane 1011 x = r at *
  simp only [Bool.false_eq_true, if_false, Nat.zero_add] at hx
  have hd : 2 ^ 53 ∣ r.toNat := by
    rw [hand]
    have h1 : 2 ^ j ∣ x.toNat - x.toNat % 2 ^ j := Nat.dvd_sub_mod _
    exact Nat.dvd_trans (Nat.pow_dvd_pow 2 hj) h1
  have hle : r.toNat ≤ x.toNat := by rw [hand]; omega
  have hlt : r.toNat ≤ 1022 * 2 ^ 52 := by
    obtain ⟨q, hq⟩ := hd
    rw [hx, hf] at hle
    omega
  have hsm := msb_of_toNat (x := r) (s := false) (m := r.toNat) (by decide) (by omega) (by simp)
  refine ⟨?_, ?_, ?_, ?_⟩
  · rw [finite_iff hw, hsm.2]
    have : infMag 64 = 2047 * 2 ^ 52 := by decide
    omega
  · unfold val neg; rw [hsm.1]; simp
  · unfold val neg; rw [hsm.1, hsm.2]
    simp only [Bool.false_eq_true, if_false]
    have h1 : magVal (mb 64) r.toNat ≤ magVal (mb 64) (1022 * 2 ^ 52) := magVal_le.2 hlt
    have h3 : 2 * magVal (mb 64) (1022 * 2 ^ 52) = 2 ^ unitExp 64 := by decide +kernel
    rw [← hU] at h3
    omega
  · have h1 : magVal (mb 64) (mag x) < magVal (mb 64) (1023 * 2 ^ 52) := magVal_lt.2 (by rw [hf]; omega)
    have h3 : magVal (mb 64) (1023 * 2 ^ 52) = 2 ^ unitExp 64 := by decide +kernel
    rw [h3, ← hU] at h1
    unfold val neg; rw [hs]
    simp only [Bool.false_eq_true, if_false]
    exact ⟨fun _ => ⟨by omega, by omega⟩, fun _ => by omega⟩
theorem trunc_le {D v n K : Int} (hD : 0 < D) (h0 : 0 ≤ v) (hv : v ≤ K * D) (h : IsTrunc v D n) : 0 ≤ n ∧ n ≤ K := by
  obtain ⟨a, b⟩ := h.1 h0
  constructor
  · by_contra hc; have : (n + 1) * D ≤ 0 := by nlinarith
    omega
  · by_contra hc; have : (K + 1) * D ≤ n * D := by nlinarith
    nlinarith
theorem cvtInt_of {w k : Nat} {m : RMode} {y : BitVec w} (hy : isFinite y = true) (h1 : -(2 ^ (k - 1) : Int) ≤ toInt m y) (h2 : toInt m y < 2 ^ (k - 1)) :
    cvtInt k m y = BitVec.ofInt k (toInt m y) := by
  unfold cvtInt; rw [hy, decide_eq_true h1, decide_eq_true h2]; rfl
/-- where the conversion to integers truncates -/
def Truncates (s : ISA) (w : Nat) (v : VSz) : Prop := ¬ (w = 64 ∧ v = .v128 ∧ s.dqvl = true)
theorem cvtt_trunc {w : Nat} (h : W w) (s : ISA) (v : VSz) (hT : Truncates s w v) {y : BitVec w} (hy : isFinite y = true) (hs : y.msb = false)
    {U : Nat} (hU : U = 2 ^ unitExp w) (hv : val y ≤ ((2 ^ 30 : Nat) : Int) * U) :
    ∃ n : Int, IsTrunc (val y) U n ∧ cvttLaneIF s v y = BitVec.ofInt w n := by
  have hD : (0 : Int) < U := by rw [hU]; exact_mod_cast Nat.two_pow_pos _
  have h0 : 0 ≤ val y := by unfold val neg; rw [hs]; simp
  have hn := toInt_trunc y
  rw [← hU] at hn
  have hb := trunc_le hD h0 hv hn
  have hK : ((2 ^ 30 : Nat) : Int) = 1073741824 := by norm_num
  rw [hK] at hb
  have hb1 : ∀ k, 32 ≤ k → -(2 ^ (k - 1) : Int) ≤ toInt .zero y ∧ toInt .zero y < 2 ^ (k - 1) := by
    intro k hk
    have : (2 : Int) ^ 31 ≤ 2 ^ (k - 1) := by exact_mod_cast Nat.pow_le_pow_right (n := 2) (by norm_num) (by omega)
    constructor <;> omega
  rcases h with h | h <;> subst h
  · exact ⟨_, hn, by rw [cvttLaneIF_32, cvtInt_of hy (hb1 32 (by omega)).1 (hb1 32 (by omega)).2]⟩
  · refine ⟨_, hn, ?_⟩
    have hi := hb1 64 (by omega)
    have hK2 : ((2251799813685248 : Nat) : Int) = 2251799813685248 := by norm_num
    have hfin : ∀ r : BitVec 64, isFinite r = true → val r = toInt .zero y * U → fadd r off64 - off64 = BitVec.ofInt 64 (toInt .zero y) :=
      fun r f e => off64_int f hU e (by rw [hK2]; omega) (by rw [hK2]; omega)
    cases v
    · rw [cvttLaneIF_128]
      have hdq : s.dqvl = false := by
        cases h : s.dqvl
        · rfl
        · exact absurd ⟨rfl, rfl, h⟩ hT
      rw [hdq]
      simp only [Bool.false_eq_true, if_false]
      have hfn : ∀ t, IsRoundFn IsTrunc y (truncLane t y) → fadd (truncLane t y) off64 - off64 = BitVec.ofInt 64 (toInt .zero y) := by
        intro t ht
        obtain ⟨f1, z, hz, hz2⟩ := ht.fin hy
        refine hfin _ f1 ?_
        rw [← hU] at hz hz2
        rw [hz2, isTrunc_unique hD hz hn]
      split
      · exact hfn _ (truncLane_fn y)
      · by_cases he : 1023 ≤ expF y
        · exact hfn _ (truncLane_big _ (by omega) he)
        · obtain ⟨g1, g2, g3, g4⟩ := trunc1011_small hs (by omega) hU
          rw [off64_half g1 hU g2 g3]
          rw [isTrunc_unique hD g4 hn]
    · rw [cvttLaneIF_256]
      split
      · exact cvtInt_of hy hi.1 hi.2
      · have := roundInt_spec (Or.inr rfl : W 64) .zero hy
        rw [← hU] at this
        exact hfin _ this.1 this.2.2
theorem rint_le {D v n K : Int} (hD : 0 < D) (h0 : 0 ≤ v) (hv : v ≤ K * D) (h : IsRint v D n) : 0 ≤ n ∧ n ≤ K := by
  obtain ⟨a, b, _⟩ := h
  constructor
  · by_contra hc; have : (2 * n + 1) * D ≤ (-1) * D := Int.mul_le_mul_of_nonneg_right (by omega) (by omega)
    omega
  · by_contra hc; have : (2 * K + 1) * D ≤ (2 * n - 1) * D := Int.mul_le_mul_of_nonneg_right (by omega) (by omega)
    nlinarith
theorem rv_div {w : Nat} {y : BitVec w} {U : Nat} (hU : U = 2 ^ unitExp w) : rv y * U = val y := by
  unfold rv; rw [hU]; push_cast; exact div_mul_cancel₀ _ (by positivity)
/-- how far from the argument the octant number may be -/
noncomputable def octDist (s : ISA) (w : Nat) (v : VSz) : ℝ := if w = 64 ∧ v = .v128 ∧ s.dqvl = true then 3 / 2 else 1
theorem cvtt_nat {w : Nat} (h : W w) (s : ISA) (v : VSz) {y : BitVec w} (hy : isFinite y = true) (hs : y.msb = false) (hv : rv y ≤ 2 ^ 30) :
    ∃ n : Nat, n ≤ 2 ^ 30 ∧ cvttLaneIF s v y = BitVec.ofNat w n ∧ -(octDist s w v - 1) ≤ rv y - n ∧ rv y - n ≤ 1 ∧ (rv y < 1 / 2 → n = 0) ∧
      (octDist s w v = 1 → rv y < 1 → n = 0) := by
  obtain ⟨U, hU⟩ : ∃ U, U = 2 ^ unitExp w := ⟨_, rfl⟩
  have hUp : 0 < U := by rw [hU]; exact Nat.two_pow_pos _
  have hUr : (0 : ℝ) < U := by exact_mod_cast hUp
  have hUi : (0 : Int) < U := by exact_mod_cast hUp
  have hrv := rv_div (y := y) hU
  have h0 : 0 ≤ val y := by unfold val neg; rw [hs]; simp
  have hvi : val y ≤ ((2 ^ 30 : Nat) : Int) * U := by
    have : (val y : ℝ) ≤ ((2 ^ 30 : Nat) : ℝ) * U := by
      rw [← hrv]; push_cast; exact mul_le_mul_of_nonneg_right (le_trans hv (by norm_num)) hUr.le
    exact_mod_cast this
  have cast : ∀ a b : Int, a * U ≤ b → (a : ℝ) * U ≤ b := fun a b hab => by exact_mod_cast hab
  have castl : ∀ a b : Int, a < b * U → (a : ℝ) < b * U := fun a b hab => by exact_mod_cast hab
  by_cases hT : w = 64 ∧ v = .v128 ∧ s.dqvl = true
  · have hD : octDist s w v = 3 / 2 := by unfold octDist; rw [if_pos hT]
    obtain ⟨h64, hv128, hdq⟩ := hT
    subst h64
    subst hv128
    have hr := toInt_rint y
    rw [← hU] at hr
    obtain ⟨n0, nK⟩ := rint_le hUi h0 hvi hr
    have hc : cvttLaneIF s .v128 y = BitVec.ofInt 64 (toInt .nearest y) := by
      rw [cvttLaneIF_128, hdq, if_pos rfl]
      have hK : ((2 ^ 30 : Nat) : Int) = 1073741824 := by norm_num
      rw [hK] at nK
      exact cvtInt_of hy (by norm_num; omega) (by norm_num; omega)
    obtain ⟨n, hn⟩ := Int.eq_ofNat_of_zero_le n0
    rw [hn] at hr nK hc
    obtain ⟨r1, r2, r3⟩ := hr
    have r1' := cast _ _ r1
    have r2' : ((2 * val y : Int) : ℝ) ≤ (2 * n + 1) * U := by exact_mod_cast r2
    push_cast at r1' r2'
    rw [← hrv] at r1' r2'
    have l1 : 2 * (n : ℝ) - 1 ≤ 2 * rv y := by
      by_contra hcc; push Not at hcc
      have := mul_lt_mul_of_pos_right hcc hUr; linarith
    have l2 : 2 * rv y ≤ 2 * (n : ℝ) + 1 := by
      by_contra hcc; push Not at hcc
      have := mul_lt_mul_of_pos_right hcc hUr; linarith
    refine ⟨n, by exact_mod_cast nK, by rw [hc]; rfl, by rw [hD]; linarith, by linarith, ?_, by rw [hD]; norm_num⟩
    intro hlt
    have : (n : ℝ) < 1 := by linarith
    have : n < 1 := by exact_mod_cast this
    omega
  · have hD : octDist s w v = 1 := by unfold octDist; rw [if_neg hT]
    obtain ⟨i, hi, hc⟩ := cvtt_trunc h s v hT hy hs hU hvi
    obtain ⟨n0, nK⟩ := trunc_le hUi h0 hvi hi
    obtain ⟨n, hn⟩ := Int.eq_ofNat_of_zero_le n0
    subst hn
    obtain ⟨r1, r2⟩ := hi.1 h0
    have r1' := cast _ _ r1
    have r2' := castl _ _ r2
    push_cast at r1' r2'
    rw [← hrv] at r1' r2'
    have l1 : (n : ℝ) ≤ rv y := le_of_mul_le_mul_right r1' hUr
    have l2 : rv y < n + 1 := lt_of_mul_lt_mul_right r2' hUr.le
    have hz : rv y < 1 → n = 0 := by
      intro hlt
      have : (n : ℝ) < 1 := by linarith
      have : n < 1 := by exact_mod_cast this
      omega
    refine ⟨n, by exact_mod_cast nK, by rw [hc]; rfl, by rw [hD]; linarith, by linarith, ?_, fun _ => hz⟩
    intro hlt
    exact hz (by linarith)
/-- `(i + 1) & ~1` -/
theorem even_up {w : Nat} (h : W w) {n : Nat} (hn : n ≤ 2 ^ 30) : (BitVec.ofNat w n + 1#w) &&& ~~~ 1#w = BitVec.ofNat w (2 * ((n + 1) / 2)) := by
  have e1 : BitVec.ofNat w n + 1#w = BitVec.ofNat w (n + 1) := by
    rw [BitVec.ofNat_add]
  have e2 : (1 : Nat) = 2 ^ 1 - 1 := rfl
  apply BitVec.eq_of_toNat_eq
  rw [e1, BitVec.and_comm]
  have := andnot_low (w := w) (j := 1) (BitVec.ofNat w (n + 1))
  rw [show (2 ^ 1 - 1 : Nat) = 1 from rfl] at this
  rw [this, BitVec.toNat_ofNat, BitVec.toNat_ofNat]
  have h32 : 2 ^ 32 ≤ 2 ^ w := Nat.pow_le_pow_right (by norm_num) (by rcases h with h | h <;> omega)
  rw [Nat.mod_eq_of_lt (show n + 1 < 2 ^ w by omega), Nat.mod_eq_of_lt (show 2 * ((n + 1) / 2) < 2 ^ w by omega)]
  omega
theorem bad_small {J : Nat} (hJ : J < 2 ^ 16) : i64f64Bad (BitVec.ofNat 64 J) = ofInt 64 J := by
  rw [i64f64Bad_eq]
  have e1 : lane 32 (BitVec.ofNat 64 J) 0 = BitVec.ofNat 32 J := by
    apply BitVec.eq_of_toNat_eq
    unfold lane
    simp
    try omega
  have e2 : ((BitVec.ofNat 32 J).sshiftRight 16).toNat = 0 := by
    have hm : (BitVec.ofNat 32 J).msb = false := by
      rw [BitVec.msb_eq_decide, BitVec.toNat_ofNat]; simp; omega
    rw [BitVec.sshiftRight_eq_of_msb_false hm, BitVec.toNat_ushiftRight, BitVec.toNat_ofNat, Nat.shiftRight_eq_div_pow]
    omega
  rw [e1, e2, BitVec.toNat_ofNat]
  congr 2
  omega
/-- the conversion back -/
theorem cvt_nat {T : Ety} (hT : T.Ok) (hf : T.flt = true) (s : ISA) (v : VSz) {J : Nat} (hJ : J ≤ jmax T.w) (hc : CvtOk s T v ∨ J < 2 ^ 16) :
    isFinite (cvtLaneIF s T v (BitVec.ofNat T.w J)) = true ∧ val (cvtLaneIF s T v (BitVec.ofNat T.w J)) = J * (2 ^ unitExp T.w : Nat) := by
  have hw := fltW hT hf
  have hm : J ≤ 2 ^ 30 := le_trans hJ (by rcases hw with h | h <;> rw [h] <;> decide)
  have h32 : 2 ^ 32 ≤ 2 ^ T.w := Nat.pow_le_pow_right (by norm_num) (by rcases hw with h | h <;> omega)
  have hi : (BitVec.ofNat T.w J).toInt = J := by
    rw [BitVec.toInt_eq_toNat_of_lt, BitVec.toNat_ofNat, Nat.mod_eq_of_lt (by omega)]
    rw [BitVec.toNat_ofNat, Nat.mod_eq_of_lt (by omega)]; omega
  have hex := ofInt_exact hw (z := (J : Int)) (by
    rw [Int.natAbs_natCast]; refine le_trans hJ ?_; rcases hw with h | h <;> rw [h] <;> decide)
  unfold cvtLaneIF
  split
  · rw [hi]; exact hex
  · rename_i hn
    have h16 := hc.resolve_left hn
    have h64 : T.w = 64 := by
      rcases (hT.2 hf).1 with h4 | h8
      · exact absurd (Or.inl h4) hn
      · unfold Ety.w; rw [h8]
    revert hex
    generalize T.w = w at *
    subst h64
    intro hex
    rw [BitVec.setWidth_eq, BitVec.setWidth_eq, bad_small h16]
    exact hex
/-! ### The quotient -/
theorem pio4_consts {w : Nat} (h : W w) : isFinite (pio4 w) = true ∧ isZero (pio4 w) = false ∧ (pio4 w).msb = false ∧ 785 / 1000 ≤ rv (pio4 w) ∧ rv (pio4 w) ≤ 786 / 1000 ∧
    |rv (pio4 w) - Real.pi / 4| ≤ 0.4 * ulpHalf w := by
  obtain ⟨p1, p2⟩ := quarter_pi
  rcases h with h | h <;> subst h
  · have e : isFinite (pio4 32) = true ∧ isZero (pio4 32) = false ∧ (pio4 32).msb = false ∧ val (pio4 32) = 13176795 * 2 ^ 125 := by decide +kernel
    have r : rv (pio4 32) = 13176795 / 2 ^ 24 := by rw [rv_of_val e.2.2.2 (b := 24) rfl]; push_cast; ring
    refine ⟨e.1, e.2.1, e.2.2.1, ?_⟩
    rw [r, show ulpHalf 32 = 1 / 2 ^ 24 from rfl]
    refine ⟨by norm_num, by norm_num, abs_le.2 ⟨?_, ?_⟩⟩ <;> norm_num at * <;> linarith
  · have e : isFinite (pio4 64) = true ∧ isZero (pio4 64) = false ∧ (pio4 64).msb = false ∧ val (pio4 64) = 7074237752028440 * 2 ^ 1021 := by decide +kernel
    have r : rv (pio4 64) = 7074237752028440 / 2 ^ 53 := by rw [rv_of_val e.2.2.2 (b := 53) rfl]; push_cast; ring
    refine ⟨e.1, e.2.1, e.2.2.1, ?_⟩
    rw [r, show ulpHalf 64 = 1 / 2 ^ 53 from rfl]
    refine ⟨by norm_num, by norm_num, abs_le.2 ⟨?_, ?_⟩⟩ <;> norm_num at * <;> linarith
theorem msb_div {w : Nat} (h : W w) {x y : BitVec w} (hx : isFinite x = true) (hy : isFinite y = true) (h0 : isZero y = false) (hs : x.msb = y.msb) : (fdiv x y).msb = false := by
  rw [fdiv_fin hx hy h0]
  unfold neg Fp.round
  have := infMag_lt h
  rw [msb_pack h (by omega), hs]
  cases y.msb <;> rfl
theorem div_real {u τ A p P y : ℝ} (hu : 0 < u) (hu1 : u ≤ 1 / 2 ^ 24) (ht : 0 < τ) (hA : 0 ≤ A) (p1 : 785 / 1000 ≤ p) (p2 : p ≤ 786 / 1000) (hp : |p - P| ≤ 0.4 * u)
    (hy : |y - A / p| ≤ u * |A / p| + τ) : |A - y * P| ≤ 1.6 * u * A + τ ∧ y ≤ 1.28 * A + τ := by
  have hq0 : 0 ≤ A / p := div_nonneg hA (by linarith)
  rw [abs_of_nonneg hq0] at hy
  obtain ⟨q, hq⟩ : ∃ q, q = A / p := ⟨_, rfl⟩
  rw [← hq] at hy hq0
  have hA' : A = q * p := by rw [hq]; field_simp
  obtain ⟨a1, a2⟩ := abs_le.1 hy
  obtain ⟨b1, b2⟩ := abs_le.1 hp
  have hP0 : 0 < P := by norm_num at *; linarith
  have hP1 : P ≤ 0.787 := by norm_num at *; linarith
  have hqA : q * 0.785 ≤ A := by rw [hA']; exact mul_le_mul_of_nonneg_left (by linarith) hq0
  have e1 : |A - q * P| ≤ 0.4 * u * q := by
    rw [hA', ← mul_sub, abs_mul, abs_of_nonneg hq0, mul_comm]
    exact mul_le_mul_of_nonneg_right hp hq0
  have e2 : |q * P - y * P| ≤ (u * q + τ) * 0.787 := by
    rw [← sub_mul, abs_mul, abs_of_pos hP0, abs_sub_comm]
    exact mul_le_mul hy hP1 hP0.le (by positivity)
  have uq : u * q * 0.785 ≤ u * A := by
    have := mul_le_mul_of_nonneg_left hqA hu.le; linarith
  have uq0 : 0 ≤ u * q := mul_nonneg hu.le hq0
  constructor
  · refine le_trans (abs_sub_tri e1 e2) ?_
    have : 0.4 * u * q = 0.4 * (u * q) := by ring
    rw [this]
    have : 1.6 * u * A = 1.6 * (u * A) := by ring
    rw [this]
    norm_num at *; linarith
  · have : u * q ≤ 1 / 2 ^ 24 * q := mul_le_mul_of_nonneg_right hu1 hq0
    norm_num at *; linarith
end Dpm.X86
