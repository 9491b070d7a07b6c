import Verif.Proofs.RoundInt
import Verif.Model.Round
/-
`round` by adding the number below one half and truncating.
-/
namespace Dpm.Fp
open Dpm.X86

/-- the distance to the next pattern, which divides the value -/
theorem magVal_gap (b m : Nat) : magVal b (m + 1) = magVal b m + 2 ^ (m / 2 ^ b - 1) ∧ 2 ^ (m / 2 ^ b - 1) ∣ magVal b m := by
  have hp := Nat.two_pow_pos b
  have hdm := Nat.div_add_mod m (2 ^ b)
  have hml := Nat.mod_lt m hp
  have h2 : 2 ^ (b + 1) = 2 * 2 ^ b := by rw [Nat.pow_succ, Nat.mul_comm]
  obtain ⟨k, f, hm, hk, hf, he⟩ : ∃ k f, m = k * 2 ^ b + f ∧ (k = 0 ∨ 2 ^ b ≤ f) ∧ f < 2 ^ (b + 1) ∧ m / 2 ^ b - 1 = k := by
    generalize m / 2 ^ b = e at *
    generalize m % 2 ^ b = r at *
    cases e with
    | zero => exact ⟨0, r, by omega, Or.inl rfl, by omega, rfl⟩
    | succ e =>
      refine ⟨e, 2 ^ b + r, ?_, Or.inr (by omega), by omega, by omega⟩
      rw [← hdm, Nat.mul_comm, Nat.succ_mul, Nat.add_assoc]
  rw [he, hm, Nat.add_assoc, magVal_kf (by omega) (by omega), magVal_kf hk (by omega), Nat.succ_mul]
  exact ⟨rfl, Nat.dvd_mul_left _ _⟩

theorem rne_ge {b n p : Nat} (hb : 0 < b) (h : magVal b p ≤ n) : p ≤ rne b n 1 := by
  have h1 := rne_mono (b := b) (d := 1) hb Nat.one_pos h
  have h2 := rne_exact (b := b) (m := p) (d := 1) hb Nat.one_pos
  rw [Nat.mul_one] at h2
  omega
theorem rne_le {b n p : Nat} (hb : 0 < b) (h : n ≤ magVal b p) : rne b n 1 ≤ p := by
  have h1 := rne_mono (b := b) (d := 1) hb Nat.one_pos h
  have h2 := rne_exact (b := b) (m := p) (d := 1) hb Nat.one_pos
  rw [Nat.mul_one] at h2
  omega

set_option maxHeartbeats 1000000 in
/-- adding the number below one half and dropping the fraction rounds halves away from zero -/
theorem half_core {b β m : Nat} (hb : 0 < b) (hβ : 4 ≤ β) {n D H y : Nat} (hn : n = magVal b m) (hD : D = 2 ^ (β - 1 + b))
    (hH : H = magVal b ((β - 1) * 2 ^ b - 1)) (hy : y = rne b (n + H) 1) :
    magVal b y / D = (2 * n + D) / (2 * D) ∧ (y ≤ m ∨ magVal b y < 2 ^ (b + 1) * D) := by
  have hp := Nat.two_pow_pos b
  have hb2 : 2 ^ 1 ≤ 2 ^ b := Nat.pow_le_pow_right (by omega) hb
  -- the constants
  obtain ⟨g, hg⟩ : ∃ g, g = 2 ^ (β - 3) := ⟨_, rfl⟩
  have hg0 : 0 < g := by rw [hg]; exact Nat.two_pow_pos _
  have hDg : D = 4 * g * 2 ^ b := by
    rw [hD, hg, show β - 1 + b = 2 + (β - 3) + b by omega, Nat.pow_add, Nat.pow_add]
  have hD0 : 0 < D := by rw [hD]; exact Nat.two_pow_pos _
  have hD8 : 8 * g ≤ D := by rw [hDg]; have := Nat.mul_le_mul_left (4 * g) hb2; omega
  have hhalf : magVal b ((β - 1) * 2 ^ b) = 2 * g * 2 ^ b := by
    have := magVal_kf (b := b) (k := β - 2) (f := 2 ^ b) (Or.inr (Nat.le_refl _)) (by rw [Nat.pow_succ]; omega)
    rw [show (β - 1) * 2 ^ b = (β - 2) * 2 ^ b + 2 ^ b by rw [← Nat.succ_mul]; congr 1; omega, this, hg,
      show β - 2 = β - 3 + 1 by omega, Nat.pow_succ, Nat.mul_comm, Nat.mul_comm (2 ^ (β - 3))]
  have hone : magVal b (β * 2 ^ b) = D := by
    have := magVal_kf (b := b) (k := β - 1) (f := 2 ^ b) (Or.inr (Nat.le_refl _)) (by rw [Nat.pow_succ]; omega)
    rw [show β * 2 ^ b = (β - 1) * 2 ^ b + 2 ^ b by rw [← Nat.succ_mul]; congr 1; omega, this, hD, ← Nat.pow_add, Nat.add_comm]
  have hpos : 0 < (β - 1) * 2 ^ b := Nat.mul_pos (by omega) hp
  have hHg : H + g = 2 * g * 2 ^ b := by
    have h1 := (magVal_gap b ((β - 1) * 2 ^ b - 1)).1
    have h2 : ((β - 1) * 2 ^ b - 1) / 2 ^ b = β - 2 := by
      rw [Nat.div_eq_iff hp]
      have h3 : (β - 1) * 2 ^ b = (β - 2) * 2 ^ b + 2 ^ b := by rw [← Nat.succ_mul]; congr 1; omega
      omega
    rw [h2, show (β - 1) * 2 ^ b - 1 + 1 = (β - 1) * 2 ^ b by omega, hhalf, ← hH, show β - 2 - 1 = β - 3 by omega, ← hg] at h1
    exact h1.symm
  have hHD : 2 * H + 2 * g = D := by rw [hDg]; have : 4 * g * 2 ^ b = 2 * (2 * g * 2 ^ b) := by rw [← Nat.mul_assoc, ← Nat.mul_assoc]
                                     omega
  -- bounds
  have hge : m ≤ y := by rw [hy]; exact rne_ge hb (by omega)
  have hyn : n ≤ magVal b y := by rw [hn]; exact magVal_le.2 hge
  have hnear := rne_nearest (b := b) (n := n + H) (d := 1) hb Nat.one_pos
  rw [← hy] at hnear
  have hup : magVal b y ≤ n + 2 * H := by
    have := (hnear m).1
    rw [Nat.mul_one, Nat.mul_one, ← hn] at this
    unfold dist at this
    omega
  obtain ⟨hgap, hdvd⟩ := magVal_gap b m
  rw [← hn] at hgap hdvd
  have hqr := Nat.div_add_mod n D
  have hrl := Nat.mod_lt n hD0
  have fin : ∀ z Z, Z = D * z → Z ≤ magVal b y → magVal b y < Z + D → 2 * Z ≤ 2 * n + D → 2 * n + D < 2 * Z + 2 * D →
      magVal b y / D = (2 * n + D) / (2 * D) := by
    intro z Z hZ a1 a2 a3 a4
    have e1 : magVal b y / D = z := by
      rw [Nat.div_eq_iff hD0, Nat.mul_comm, ← hZ]; omega
    have e2 : (2 * n + D) / (2 * D) = z := by
      rw [Nat.div_eq_iff (by omega), Nat.mul_left_comm, Nat.mul_comm z, ← hZ]; omega
    rw [e1, e2]
  by_cases hbig : β - 1 + b < m / 2 ^ b
  · -- an integer already
    have hgD : D ≤ 2 ^ (m / 2 ^ b - 1) := by rw [hD]; exact Nat.pow_le_pow_right (by omega) (by omega)
    have hdD : D ∣ n := Nat.dvd_trans (by rw [hD]; exact Nat.pow_dvd_pow 2 (by omega)) hdvd
    have hr0 : n % D = 0 := Nat.mod_eq_zero_of_dvd hdD
    refine ⟨fin (n / D) n (by omega) hyn (by omega) (by omega) (by omega), Or.inl ?_⟩
    have : magVal b y < magVal b (m + 1) := by omega
    have := magVal_lt.1 this
    omega
  · have hE : m / 2 ^ b ≤ β - 1 + b := by omega
    -- below 2^b
    have hnb : n < 2 ^ b * D := by
      have h1 : m < (β + b) * 2 ^ b := by
        have := (Nat.div_lt_iff_lt_mul (x := m) (y := β + b) hp).1 (by omega)
        exact this
      have h2 : magVal b ((β + b) * 2 ^ b) = 2 ^ b * D := by
        have := magVal_kf (b := b) (k := β + b - 1) (f := 2 ^ b) (Or.inr (Nat.le_refl _)) (by rw [Nat.pow_succ]; omega)
        rw [show (β + b) * 2 ^ b = (β + b - 1) * 2 ^ b + 2 ^ b by rw [← Nat.succ_mul]; congr 1; omega, this, hD]
        congr 2; omega
      rw [hn, ← h2]
      exact magVal_lt.2 h1
    refine ⟨?_, Or.inr ?_⟩
    rotate_left
    · have : 2 ^ (b + 1) * D = 2 ^ b * D + 2 ^ b * D := by rw [Nat.pow_succ, Nat.mul_comm (2 ^ b) 2, Nat.mul_assoc]; omega
      have : D ≤ 2 ^ b * D := Nat.le_mul_of_pos_left _ hp
      omega
    have hq : n / D < 2 ^ b := Nat.div_lt_of_lt_mul (by rw [Nat.mul_comm]; exact hnb)
    -- the pattern of the next integer
    obtain ⟨P, hP⟩ := magVal_surj (b := b) (k := β - 1 + b) (f := n / D + 1) (by rw [Nat.pow_succ]; omega)
    rw [← hD] at hP
    generalize hqe : n / D = q at *
    generalize hre : n % D = r at *
    have hPq : magVal b P = D * q + D := by rw [hP, Nat.succ_mul, Nat.mul_comm]
    have hPone : β * 2 ^ b ≤ P := magVal_le.1 (by rw [hone, hPq]; omega)
    have hP0 : 0 < P := by have := Nat.mul_pos (show 0 < β by omega) hp; omega
    obtain ⟨hPg, -⟩ := magVal_gap b (P - 1)
    rw [Nat.sub_add_cancel hP0] at hPg
    have hmP : m ≤ P - 1 := by
      have : magVal b m < magVal b P := by rw [← hn, hPq]; omega
      have := magVal_lt.1 this
      omega
    by_cases hlow : 2 * r < D
    · -- rounds down
      have hlt : y ≤ P - 1 := by
        rw [hy]
        apply rne_le hb
        by_cases hq0 : q = 0
        · -- below one half: at most the number below one half
          subst hq0
          have h1 : m ≤ (β - 1) * 2 ^ b - 1 := by
            have : magVal b m < magVal b ((β - 1) * 2 ^ b) := by rw [← hn, hhalf]; omega
            have := magVal_lt.1 this
            omega
          have h2 : n ≤ H := by rw [hn, hH]; exact magVal_le.2 h1
          have h3 : P = β * 2 ^ b := magVal_inj.1 (by rw [hone, hPq]; omega)
          have h4 : (P - 1) / 2 ^ b = β - 1 := by
            rw [h3, Nat.div_eq_iff hp]
            have h3 : β * 2 ^ b = (β - 1) * 2 ^ b + 2 ^ b := by rw [← Nat.succ_mul]; congr 1; omega
            omega
          rw [h4, show β - 1 - 1 = β - 3 + 1 by omega, Nat.pow_succ, ← hg] at hPg
          omega
        · -- `m` and `P - 1` have the same exponent
          have hband : (P - 1) / 2 ^ b = m / 2 ^ b := by
            have h1 := Nat.div_le_div_right (c := 2 ^ b) hmP
            false_or_by_contra
            rename_i hne
            -- otherwise a power of two lies between
            have h2 : m / 2 ^ b + 1 ≤ (P - 1) / 2 ^ b := by omega
            have h3 : (m / 2 ^ b + 1) * 2 ^ b ≤ P - 1 := Nat.le_trans (Nat.mul_le_mul_right _ h2) (Nat.div_mul_le_self _ _)
            have h4 : m < (m / 2 ^ b + 1) * 2 ^ b := (Nat.div_lt_iff_lt_mul hp).1 (by omega)
            have hmone : β * 2 ^ b ≤ m := magVal_le.1 (by
              rw [hone, ← hn]
              have : D * 1 ≤ D * q := Nat.mul_le_mul_left _ (by omega)
              omega)
            have hβm : β ≤ m / 2 ^ b := (Nat.le_div_iff_mul_le hp).2 hmone
            have h5 : magVal b ((m / 2 ^ b + 1) * 2 ^ b) = 2 ^ (m / 2 ^ b + 1 - β) * D := by
              have := magVal_kf (b := b) (k := m / 2 ^ b) (f := 2 ^ b) (Or.inr (Nat.le_refl _)) (by rw [Nat.pow_succ]; omega)
              rw [Nat.succ_mul, this, hD, ← Nat.pow_add, ← Nat.pow_add]
              congr 1
              omega
            have h6 : magVal b m < magVal b ((m / 2 ^ b + 1) * 2 ^ b) := magVal_lt.2 h4
            have h7 : magVal b ((m / 2 ^ b + 1) * 2 ^ b) < magVal b P := magVal_lt.2 (by omega)
            rw [h5] at h6 h7
            rw [← hn] at h6
            rw [hP] at h7
            have h8 := Nat.lt_of_mul_lt_mul_right h7
            have h9 : q < 2 ^ (m / 2 ^ b + 1 - β) := by
              have : D * q < 2 ^ (m / 2 ^ b + 1 - β) * D := by omega
              rw [Nat.mul_comm] at this
              exact Nat.lt_of_mul_lt_mul_right this
            omega
          rw [hband] at hPg
          generalize m / 2 ^ b = E at *
          -- the remainder is a multiple of the spacing
          obtain ⟨A, hA⟩ : ∃ A, D = 2 ^ (E - 1) * (2 * A) := by
            refine ⟨2 ^ (β - 1 + b - 1 - (E - 1)), ?_⟩
            rw [hD, Nat.mul_left_comm, ← Nat.pow_add, ← Nat.pow_succ']
            congr 1; omega
          obtain ⟨F, hF⟩ := hdvd
          have hu := Nat.two_pow_pos (E - 1)
          generalize 2 ^ (E - 1) = u at *
          have hrF : r = u * (F % (2 * A)) := by rw [← hre, hF, hA, Nat.mul_mod_mul_left]
          have hFA : F % (2 * A) < A := by
            have : u * (2 * (F % (2 * A))) < u * (2 * A) := by rw [Nat.mul_left_comm, ← hrF]; omega
            have := Nat.lt_of_mul_lt_mul_left this
            omega
          have h10 : r + u ≤ u * A := by
            rw [hrF, ← Nat.mul_succ]
            exact Nat.mul_le_mul_left _ hFA
          have h11 : D = 2 * (u * A) := by rw [hA, Nat.mul_left_comm]
          omega
      have : magVal b y < magVal b P := magVal_lt.2 (by omega)
      exact fin q (D * q) rfl (by omega) (by omega) (by omega) (by omega)
    · -- rounds up
      have hPy : P ≤ y := by
        false_or_by_contra
        rename_i hlt
        have h1 : magVal b y ≤ magVal b (P - 1) := magVal_le.2 (by omega)
        have h2 : β - 1 ≤ (P - 1) / 2 ^ b := by
          rw [Nat.le_div_iff_mul_le hp]
          have h3 : β * 2 ^ b = (β - 1) * 2 ^ b + 2 ^ b := by rw [← Nat.succ_mul]; congr 1; omega
          omega
        have h3 : 2 * g ≤ 2 ^ ((P - 1) / 2 ^ b - 1) := by
          rw [hg, Nat.mul_comm, ← Nat.pow_succ]
          exact Nat.pow_le_pow_right (by omega) (by omega)
        have h4 := hnear P
        rw [Nat.mul_one, Nat.mul_one, hPq] at h4
        unfold dist at h4
        have hye := h4.2 (by omega)
        have hyv : magVal b y + 2 * g = D * q + D := by omega
        have hy0 := hye (by omega)
        have h5 : magVal b y = magVal b (P - 1) := by omega
        have h6 : 2 ^ ((P - 1) / 2 ^ b - 1) = 2 * g := by omega
        have h7 : (P - 1) / 2 ^ b - 1 = β - 3 + 1 := by
          rw [hg, Nat.mul_comm, ← Nat.pow_succ] at h6
          exact (Nat.pow_right_inj (by omega : 1 < 2)).1 h6
        have h8 : P - 1 < β * 2 ^ b := (Nat.div_lt_iff_lt_mul hp).1 (by omega)
        have h9 : P = β * 2 ^ b := by omega
        have h10 := magVal_inj.1 h5
        obtain ⟨b', rfl⟩ : ∃ b', b = b' + 1 := ⟨b - 1, by omega⟩
        rw [Nat.pow_succ, ← Nat.mul_assoc] at h9
        omega
      have h1 : magVal b P ≤ magVal b y := magVal_le.2 hPy
      clear hnear hP hPg hy hge hgap hdvd hn hD hDg hH hhalf hone hHg hPone
      have e : D * q + D = D * (q + 1) := (Nat.mul_succ D q).symm
      generalize D * q = Z at *
      exact fin (q + 1) (Z + D) e (by omega) (by omega) (by omega) (by omega)

/-! ### on patterns -/
theorem nearHalf_toNat {w : Nat} (h : W w) : (nearHalf w).toNat = (bias w - 1) * 2 ^ mb w - 1 := by rcases h with h | h <;> subst h <;> decide
/-- a positive pattern with the sign of `x` -/
theorem or_sign {w : Nat} (h : W w) (x c : BitVec w) {m : Nat} (hm : m < 2 ^ (w - 1)) (hc : c.toNat = m) :
    (x &&& BitVec.intMin w) ||| c = pack w x.msb m := by
  have hw := h.pos
  rw [and_intMin hw]
  unfold pack
  apply BitVec.eq_of_toNat_eq
  have h2 : 2 ^ (w - 1) + 2 ^ (w - 1) = 2 ^ w := by rw [← Nat.two_mul, ← Nat.pow_succ']; congr 1; omega
  cases x.msb
  · simp only [Bool.false_eq_true, if_false, Nat.zero_add, BitVec.toNat_or, BitVec.toNat_ofNat, hc]
    rw [Nat.mod_eq_of_lt (show m < 2 ^ w by omega)]
    simp
  · simp only [if_true, BitVec.toNat_or, BitVec.toNat_ofNat, hc, BitVec.toNat_intMin]
    rw [Nat.mod_eq_of_lt (show 2 ^ (w - 1) + m < 2 ^ w by omega), Nat.mod_eq_of_lt (show 2 ^ (w - 1) < 2 ^ w by omega)]
    have := Nat.two_pow_add_eq_or_of_lt hm 1
    rw [Nat.mul_one] at this
    exact this.symm

theorem isRoundAway_of {v D : Int} {n D' z : Nat} {s : Bool} (hD : 0 < D') (hDD : D = D') (hv : v = if s then -(n : Int) else n)
    (hz : z = (2 * n + D') / (2 * D')) : IsRoundAway v D (if s then -(z : Int) else z) := by
  have h1 := Nat.div_add_mod (2 * n + D') (2 * D')
  have h2 := Nat.mod_lt (2 * n + D') (show 0 < 2 * D' by omega)
  rw [← hz] at h1
  generalize (2 * n + D') % (2 * D') = r at *
  have h3 : 2 * D' * z = 2 * (z * D') := by rw [Nat.mul_assoc, Nat.mul_comm z]
  rw [h3] at h1
  subst hDD
  have h4 : ((z * D' : Nat) : Int) = (z : Int) * D' := by push_cast; rfl
  unfold IsRoundAway
  have p1 : (2 * (z : Int) - 1) * D' = 2 * (z * D' : Nat) - D' := by rw [h4]; grind
  have p2 : (2 * (z : Int) + 1) * D' = 2 * (z * D' : Nat) + D' := by rw [h4]; grind
  have q1 : (2 * -(z : Int) - 1) * D' = -(2 * (z * D' : Nat)) - D' := by rw [h4]; grind
  have q2 : (2 * -(z : Int) + 1) * D' = -(2 * (z * D' : Nat)) + D' := by rw [h4]; grind
  have hn0 : n = 0 → z * D' = 0 := by
    intro hn
    subst hn
    have : z = 0 := by rw [hz]; exact Nat.div_eq_of_lt (by omega)
    subst this
    exact Nat.zero_mul _
  generalize z * D' = Z at *
  cases s
  · simp only [Bool.false_eq_true, if_false] at hv ⊢
    rw [p1, p2]
    omega
  · simp only [if_true] at hv ⊢
    rw [q1, q2]
    by_cases hn : n = 0
    · have := hn0 hn; omega
    · omega

theorem roundAdd_fn {w : Nat} (h : W w) (x : BitVec w) :
    IsRoundFn IsRoundAway x (roundInt .zero (fadd x ((x &&& BitVec.intMin w) ||| nearHalf w))) := by
  have hb := mb_pos w
  have hU := unitExp_eq h
  have hβ : 4 ≤ bias w := by rcases h with h | h <;> subst h <;> decide
  have hinf : (bias w - 1) * 2 ^ mb w - 1 < infMag w := by rcases h with h | h <;> subst h <;> decide
  have hinl := infMag_lt h
  rw [or_sign h x (nearHalf w) (m := (bias w - 1) * 2 ^ mb w - 1) (by omega) (nearHalf_toNat h)]
  generalize ho : pack w x.msb ((bias w - 1) * 2 ^ mb w - 1) = o
  have hom : mag o = (bias w - 1) * 2 ^ mb w - 1 := by rw [← ho]; exact mag_pack h (by omega)
  have hos : o.msb = x.msb := by rw [← ho]; exact msb_pack h (by omega)
  have hof : isFinite o = true := (finite_iff h o).2 (by omega)
  have hon := finite_cls hof
  have hov : val o = if x.msb then -(magVal (mb w) ((bias w - 1) * 2 ^ mb w - 1) : Int) else magVal (mb w) ((bias w - 1) * 2 ^ mb w - 1) := by
    unfold val neg; rw [hos, hom]
  have hH0 : 0 < magVal (mb w) ((bias w - 1) * 2 ^ mb w - 1) := by
    rw [magVal_pos]; rcases h with h | h <;> subst h <;> decide
  generalize hHe : magVal (mb w) ((bias w - 1) * 2 ^ mb w - 1) = H at *
  have hxv : val x = if x.msb then -((val x).natAbs : Int) else (val x).natAbs := by rw [natAbs_val]; rfl
  have main : isFinite x = true → isFinite (fadd x o) = true ∧ (fadd x o).msb = x.msb ∧
      toInt .zero (fadd x o) = if x.msb then -(((2 * (val x).natAbs + 2 ^ unitExp w) / (2 * 2 ^ unitExp w) : Nat) : Int)
        else ((2 * (val x).natAbs + 2 ^ unitExp w) / (2 * 2 ^ unitExp w) : Nat) := by
    intro hfin
    have hcore := half_core (b := mb w) (β := bias w) (m := mag x) hb hβ (natAbs_val x) (D := 2 ^ unitExp w) (by rw [hU]) hHe.symm rfl
    generalize hn : (val x).natAbs = n at *
    have hsum : val x + val o = if x.msb then -((n + H : Nat) : Int) else (n + H : Nat) := by
      rw [hxv, hov]; cases x.msb <;> simp <;> omega
    have hfa : fadd x o = round w x.msb (n + H) 1 := by
      rw [fadd_fin hfin hof, if_neg (by rw [hsum]; split <;> omega), hsum]
      congr 1
      · cases x.msb <;> simp <;> omega
      · split <;> omega
    have hyinf : rne (mb w) (n + H) 1 < infMag w := by
      rcases hcore.2 with h1 | h1
      · exact Nat.lt_of_le_of_lt h1 ((finite_iff h x).1 hfin)
      · exact magVal_lt.1 (Nat.lt_trans h1 (bigInt h))
    have hpk : fadd x o = pack w x.msb (rne (mb w) (n + H) 1) := by
      rw [hfa]; unfold round; rw [Nat.min_eq_left (by omega)]
    have hm1 : mag (fadd x o) = rne (mb w) (n + H) 1 := by rw [hpk]; exact mag_pack h (by omega)
    have hm2 : (fadd x o).msb = x.msb := by rw [hpk]; exact msb_pack h (by omega)
    refine ⟨(finite_iff h _).2 (by omega), hm2, ?_⟩
    unfold toInt roundNat
    dsimp only
    rw [natAbs_val, hm1, Nat.add_zero, hcore.1]
    unfold neg
    rw [hm2]
  refine ⟨fun hf => ?_, fun hf => ?_, fun hi => ?_, fun hn => ?_⟩
  · obtain ⟨m1, m2, m3⟩ := main hf
    obtain ⟨s1, s2, s3⟩ := roundInt_spec h .zero m1
    refine ⟨s1, _, ?_, s3⟩
    rw [m3]
    exact isRoundAway_of (Nat.two_pow_pos _) rfl hxv rfl
  · obtain ⟨m1, m2, m3⟩ := main hf
    rw [(roundInt_spec h .zero m1).2.1, m2]
  · have hnn := inf_not_nan' h hi
    have e : fadd x o = x := by unfold fadd; simp [hi, hnn, hon.1, hon.2]
    rw [e]; unfold roundInt; simp [hi, hnn]
  · have e : fadd x o = quiet x := by unfold fadd; simp [hn]
    rw [e]
    have := quiet_nan h hn
    unfold roundInt; rw [if_pos this]; exact quiet_nan h this

/-- `round` with the addition replaced by a bit-wise and -/
theorem roundAnd_zero {w : Nat} (h : W w) (x : BitVec w) : isZero (roundInt .zero (x &&& ((x &&& BitVec.intMin w) ||| nearHalf w))) = true := by
  have hinf : (bias w - 1) * 2 ^ mb w - 1 < infMag w := by rcases h with h | h <;> subst h <;> decide
  have hinl := infMag_lt h
  rw [or_sign h x (nearHalf w) (m := (bias w - 1) * 2 ^ mb w - 1) (by omega) (nearHalf_toNat h)]
  generalize ho : pack w x.msb ((bias w - 1) * 2 ^ mb w - 1) = o
  have hom : mag o = (bias w - 1) * 2 ^ mb w - 1 := by rw [← ho]; exact mag_pack h (by omega)
  have hle : mag (x &&& o) ≤ mag o := by
    unfold mag
    rw [BitVec.toNat_and, Nat.and_mod_two_pow]
    exact Nat.and_le_right
  have hfin : isFinite (x &&& o) = true := (finite_iff h _).2 (by omega)
  have hc := finite_cls hfin
  have hlt : (val (x &&& o)).natAbs < 2 ^ unitExp w := by
    rw [natAbs_val]
    refine Nat.lt_of_le_of_lt (magVal_le.2 hle) ?_
    rw [hom]
    have : 2 ^ unitExp w = magVal (mb w) (bias w * 2 ^ mb w) := by
      have := magVal_kf (b := mb w) (k := bias w - 1) (f := 2 ^ mb w) (Or.inr (Nat.le_refl _)) (by rw [Nat.pow_succ]; omega)
      have hβ : 4 ≤ bias w := by rcases h with h | h <;> subst h <;> decide
      rw [show bias w * 2 ^ mb w = (bias w - 1) * 2 ^ mb w + 2 ^ mb w by rw [← Nat.succ_mul]; congr 1; omega, this, ← Nat.pow_add, unitExp_eq h, Nat.add_comm]
    rw [this]
    apply magVal_lt.2
    rcases h with h | h <;> subst h <;> decide
  unfold roundInt
  rw [hc.1, hc.2]
  simp only [Bool.false_eq_true, if_false]
  unfold roundNat
  dsimp only
  rw [Nat.div_eq_of_lt hlt, Nat.zero_add, Nat.zero_mul, round_zero, zero_iff, mag_pack h (Nat.two_pow_pos _)]
end Dpm.Fp
