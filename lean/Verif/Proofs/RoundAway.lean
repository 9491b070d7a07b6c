import Verif.Proofs.RintDir
/-
`round` in the rounding directions other than to nearest: from SSE4.1 on pointing away from zero, and before SSE4.1 in every direction.
-/
namespace Dpm.Fp
open Dpm.X86

theorem magVal_exp {b e : Nat} (he : 1 ≤ e) : magVal b (e * 2 ^ b) = 2 ^ b * 2 ^ (e - 1) := by
  have := magVal_kf (b := b) (k := e - 1) (f := 2 ^ b) (Or.inr (Nat.le_refl _)) (by rw [Nat.pow_succ]; omega)
  rw [show e * 2 ^ b = (e - 1) * 2 ^ b + 2 ^ b by rw [← Nat.succ_mul]; congr 1; omega, this]
theorem magVal_lt_binade (b p : Nat) : magVal b p < 2 ^ (b + 1) * 2 ^ (p / 2 ^ b - 1) := by
  have hp := Nat.two_pow_pos b
  have hdm := Nat.div_add_mod p (2 ^ b)
  have hml := Nat.mod_lt p hp
  have h3 : magVal b ((p / 2 ^ b - 1) * 2 ^ b + 2 ^ (b + 1)) = 2 ^ (b + 1) * 2 ^ (p / 2 ^ b - 1) :=
    magVal_kf (Or.inr (Nat.pow_le_pow_right (by omega) (by omega))) (Nat.le_refl _)
  rw [← h3]
  apply magVal_lt.2
  generalize p / 2 ^ b = q at *
  rw [Nat.pow_succ]
  have : 2 ^ b * q ≤ (q - 1) * 2 ^ b + 2 ^ b := by
    rw [Nat.mul_comm, ← Nat.succ_mul]
    exact Nat.mul_le_mul_right _ (by omega)
  omega
/-- the integer part of the smallest number not below `n + H` -/
theorem away_core {w : Nat} (h : W w) {H g : Nat} (hHD : 2 * H + 2 * g = 2 ^ unitExp w) (hg : 0 < g) (hgp : g = 2 ^ (bias w - 3))
    (hH : magVal (mb w) ((bias w - 1) * 2 ^ mb w - 1) = H)
    {n P p : Nat} (hn : magVal (mb w) P = n) (hx : n < 2 ^ mb w * 2 ^ unitExp w) (h1 : n + H ≤ magVal (mb w) p)
    (h2 : ∀ q, n + H ≤ magVal (mb w) q → p ≤ q) : magVal (mb w) p / 2 ^ unitExp w = (2 * n + 2 ^ unitExp w) / (2 * 2 ^ unitExp w) := by
  have hD : 0 < 2 ^ unitExp w := Nat.two_pow_pos _
  have hU := unitExp_eq h
  have hβ : 4 ≤ bias w := by rcases h with h | h <;> subst h <;> decide
  have hmb : 2 ≤ mb w := by rcases h with h | h <;> subst h <;> decide
  have hdm := Nat.div_add_mod n (2 ^ unitExp w)
  have hml := Nat.mod_lt n hD
  have hq : n / 2 ^ unitExp w < 2 ^ mb w := Nat.div_lt_of_lt_mul (by rw [Nat.mul_comm]; exact hx)
  have hhalf : 2 * magVal (mb w) ((bias w - 1) * 2 ^ mb w) = 2 ^ unitExp w := by
    rw [magVal_exp (by omega), hU, show bias w - 1 + mb w = 1 + mb w + (bias w - 1 - 1) by omega, Nat.pow_add, Nat.pow_add]; grind
  -- patterns from one half on are multiples of 2g
  have grid : ∀ r, 2 ^ unitExp w ≤ 2 * magVal (mb w) r → 2 * g ∣ magVal (mb w) r ∧ bias w - 2 ≤ r / 2 ^ mb w - 1 := by
    intro r hr
    have h3 : (bias w - 1) * 2 ^ mb w ≤ r := (magVal_le (b := mb w)).1 (by omega)
    have h4 := (Nat.le_div_iff_mul_le (Nat.two_pow_pos (mb w))).2 h3
    have h5 : bias w - 2 ≤ r / 2 ^ mb w - 1 := by
      clear h3 hr h2 h1 hq hml hdm
      generalize r / 2 ^ mb w = t at *
      omega
    refine ⟨Nat.dvd_trans ?_ (magVal_gap (mb w) r).2, h5⟩
    rw [hgp, Nat.mul_comm, ← Nat.pow_succ]
    exact Nat.pow_dvd_pow 2 (Nat.le_trans (by omega) h5)
  have hgD : 2 * g ∣ 2 ^ unitExp w := by
    rw [hgp, Nat.mul_comm, ← Nat.pow_succ]; exact Nat.pow_dvd_pow 2 (by omega)
  have hrhs : (2 * n + 2 ^ unitExp w) / (2 * 2 ^ unitExp w) = n / 2 ^ unitExp w + (if 2 ^ unitExp w ≤ 2 * (n % 2 ^ unitExp w) then 1 else 0) := by
    rw [Nat.div_eq_iff (by omega)]
    generalize n / 2 ^ unitExp w = q at *
    generalize n % 2 ^ unitExp w = f at *
    generalize 2 ^ unitExp w = D at *
    split
    · have : (q + 1) * (2 * D) = 2 * (D * q) + 2 * D := by grind
      rw [this]; omega
    · have : (q + 0) * (2 * D) = 2 * (D * q) := by grind
      rw [this]; omega
  rw [hrhs]
  by_cases hc : 2 ^ unitExp w ≤ 2 * (n % 2 ^ unitExp w)
  · rw [if_pos hc]
    have hlow : (n / 2 ^ unitExp w + 1) * 2 ^ unitExp w ≤ magVal (mb w) p := by
      false_or_by_contra
      rename_i hlt
      have e1 : (n / 2 ^ unitExp w + 1) * 2 ^ unitExp w = 2 ^ unitExp w * (n / 2 ^ unitExp w) + 2 ^ unitExp w := by rw [Nat.succ_mul, Nat.mul_comm]
      obtain ⟨i, hi⟩ := (grid p (by omega)).1
      obtain ⟨j, hj⟩ := Nat.dvd_trans hgD (Nat.dvd_mul_left (2 ^ unitExp w) (n / 2 ^ unitExp w + 1))
      have hij : i < j := by
        apply Nat.lt_of_mul_lt_mul_left (a := 2 * g)
        rw [← hi, ← hj]; omega
      have h7 : 2 * g * (i + 1) ≤ 2 * g * j := Nat.mul_le_mul_left _ hij
      rw [Nat.mul_succ] at h7
      omega
    have hup : magVal (mb w) p < (n / 2 ^ unitExp w + 2) * 2 ^ unitExp w := by
      have e1 : (n / 2 ^ unitExp w + 2) * 2 ^ unitExp w = 2 ^ unitExp w * (n / 2 ^ unitExp w) + 2 * 2 ^ unitExp w := by grind
      by_cases hq2 : n / 2 ^ unitExp w + 1 < 2 ^ mb w
      · obtain ⟨Q, hQ⟩ := magVal_surj (b := mb w) (k := unitExp w - 1) (f := 2 * (n / 2 ^ unitExp w) + 3) (by rw [Nat.pow_succ]; omega)
        have e2 : 2 * 2 ^ (unitExp w - 1) = 2 ^ unitExp w := by rw [Nat.mul_comm, ← Nat.pow_succ]; congr 1; omega
        have e3 : 2 * magVal (mb w) Q = 2 * (2 ^ unitExp w * (n / 2 ^ unitExp w)) + 3 * 2 ^ unitExp w := by
          rw [hQ, ← e2]; grind
        have h5 := magVal_le (b := mb w).2 (h2 Q (by omega))
        omega
      · obtain ⟨Q, hQ⟩ := magVal_surj (b := mb w) (k := unitExp w) (f := n / 2 ^ unitExp w + 1) (by rw [Nat.pow_succ]; omega)
        -- here the fraction is one half
        have hk : unitExp w ≤ P / 2 ^ mb w := by
          rw [Nat.le_div_iff_mul_le (Nat.two_pow_pos (mb w))]
          apply magVal_le.1
          rw [hn, magVal_exp (by omega)]
          have e4 : 2 ^ mb w * 2 ^ (unitExp w - 1) = 2 ^ (mb w - 1) * 2 ^ unitExp w := by
            rw [← Nat.pow_add, ← Nat.pow_add]; congr 1; omega
          rw [e4]
          have e5 : 2 ^ (mb w - 1) ≤ n / 2 ^ unitExp w := by
            have : 2 ^ mb w = 2 * 2 ^ (mb w - 1) := by rw [Nat.mul_comm, ← Nat.pow_succ]; congr 1; omega
            have := Nat.two_pow_pos (mb w - 1)
            omega
          exact Nat.le_trans (Nat.mul_le_mul_right _ e5) (by rw [Nat.mul_comm]; omega)
        have hdv : 2 ^ (unitExp w - 1) ∣ n := by
          rw [← hn]
          exact Nat.dvd_trans (Nat.pow_dvd_pow 2 (by omega)) (magVal_gap (mb w) P).2
        have e2 : 2 ^ unitExp w = 2 ^ (unitExp w - 1) * 2 := by rw [← Nat.pow_succ]; congr 1; omega
        have hfr : 2 ^ (unitExp w - 1) ∣ n % 2 ^ unitExp w := (Nat.dvd_mod_iff ⟨2, e2⟩).2 hdv
        have e6 : n % 2 ^ unitExp w = 2 ^ (unitExp w - 1) := by
          obtain ⟨i, hi⟩ := hfr
          have : i < 2 := by
            apply Nat.lt_of_mul_lt_mul_left (a := 2 ^ (unitExp w - 1))
            rw [← hi, ← e2]; exact hml
          have h0 : i ≠ 0 := by rintro rfl; rw [Nat.mul_zero] at hi; omega
          rw [hi, show i = 1 by omega, Nat.mul_one]
        have e7 : magVal (mb w) Q = 2 ^ unitExp w * (n / 2 ^ unitExp w) + 2 ^ unitExp w := by rw [hQ, Nat.succ_mul, Nat.mul_comm]
        have h5 := magVal_le (b := mb w).2 (h2 Q (by omega))
        omega
    rw [Nat.div_eq_iff hD]
    have : (n / 2 ^ unitExp w + 2) * 2 ^ unitExp w = (n / 2 ^ unitExp w + 1) * 2 ^ unitExp w + 2 ^ unitExp w := by grind
    omega
  · rw [if_neg hc, Nat.add_zero]
    have hup : magVal (mb w) p < (n / 2 ^ unitExp w + 1) * 2 ^ unitExp w := by
      have e1 : (n / 2 ^ unitExp w + 1) * 2 ^ unitExp w = 2 ^ unitExp w * (n / 2 ^ unitExp w) + 2 ^ unitExp w := by rw [Nat.succ_mul, Nat.mul_comm]
      by_cases hs : 2 * n < 2 ^ unitExp w
      · have h3 : P < (bias w - 1) * 2 ^ mb w := (magVal_lt (b := mb w)).1 (by omega)
        have h4 : n ≤ H := by rw [← hn, ← hH]; exact magVal_le.2 (by omega)
        obtain ⟨Q, hQ⟩ := magVal_surj (b := mb w) (k := bias w - 2) (f := 2 ^ (mb w + 1) - 1) (Nat.sub_le _ _)
        have e2 : magVal (mb w) Q + 2 * g = 2 ^ unitExp w := by
          have z1 : bias w - 2 = bias w - 3 + 1 := by omega
          have z2 : bias w - 1 + mb w = (mb w + 1) + (bias w - 3 + 1) := by omega
          have z3 : 2 * 2 ^ (bias w - 3) = 2 ^ (bias w - 3 + 1) := by rw [Nat.mul_comm, ← Nat.pow_succ]
          rw [hQ, hgp, z1, hU, z2, Nat.pow_add 2 (mb w + 1) (bias w - 3 + 1), Nat.sub_mul, Nat.one_mul, z3]
          have : 2 ^ (bias w - 3 + 1) ≤ 2 ^ (mb w + 1) * 2 ^ (bias w - 3 + 1) := Nat.le_mul_of_pos_left _ (Nat.two_pow_pos _)
          exact Nat.sub_add_cancel this
        have h5 := magVal_le (b := mb w).2 (h2 Q (by omega))
        omega
      · -- spacing 2^k
        have hk1 := (grid P (by omega)).2
        obtain ⟨hgap, hdv⟩ := magVal_gap (mb w) P
        have hbin := magVal_lt_binade (mb w) P
        have hk2 : P / 2 ^ mb w - 1 < unitExp w := by
          false_or_by_contra
          rename_i hge
          have h3 : (unitExp w + 1) * 2 ^ mb w ≤ P := by
            rw [← Nat.le_div_iff_mul_le (Nat.two_pow_pos (mb w))]; omega
          have h4 := magVal_le (b := mb w).2 h3
          rw [magVal_exp (by omega), hn, Nat.add_sub_cancel] at h4
          omega
        rw [hn] at hdv hbin
        generalize hkk : P / 2 ^ mb w - 1 = k at *
        have hDk : 2 ^ unitExp w = 2 ^ k * 2 ^ (unitExp w - k) := by rw [← Nat.pow_add]; congr 1; omega
        have hDk1 : 2 ^ (unitExp w - 1) = 2 ^ k * 2 ^ (unitExp w - 1 - k) := by rw [← Nat.pow_add]; congr 1; omega
        have e2 : 2 * 2 ^ (unitExp w - 1) = 2 ^ unitExp w := by rw [Nat.mul_comm, ← Nat.pow_succ]; congr 1; omega
        have hfr : 2 ^ k ∣ n % 2 ^ unitExp w := (Nat.dvd_mod_iff ⟨_, hDk⟩).2 hdv
        have hf : n % 2 ^ unitExp w + 2 ^ k ≤ 2 ^ (unitExp w - 1) := by
          obtain ⟨i, hi⟩ := hfr
          have : i < 2 ^ (unitExp w - 1 - k) := by
            apply Nat.lt_of_mul_lt_mul_left (a := 2 ^ k)
            rw [← hi, ← hDk1]; omega
          have h7 : 2 ^ k * (i + 1) ≤ 2 ^ k * 2 ^ (unitExp w - 1 - k) := Nat.mul_le_mul_left _ this
          rw [Nat.mul_succ, ← hi, ← hDk1] at h7
          exact h7
        have hq3 : n / 2 ^ unitExp w + 1 ≤ 2 ^ (mb w + 1 + k - unitExp w) := by
          have : n / 2 ^ unitExp w < 2 ^ (mb w + 1 + k - unitExp w) := by
            apply Nat.div_lt_of_lt_mul
            rw [← Nat.pow_add, show unitExp w + (mb w + 1 + k - unitExp w) = mb w + 1 + k by omega, Nat.pow_add]
            exact hbin
          exact this
        have hq4 : (n / 2 ^ unitExp w + 1) * 2 ^ (unitExp w - k) ≤ 2 ^ (mb w + 1) := by
          refine Nat.le_trans (Nat.mul_le_mul_right _ hq3) ?_
          rw [← Nat.pow_add]
          exact Nat.pow_le_pow_right (by omega) (by omega)
        obtain ⟨Q, hQ⟩ := magVal_surj (b := mb w) (k := k) (f := (n / 2 ^ unitExp w + 1) * 2 ^ (unitExp w - k) - 1) (Nat.le_trans (Nat.sub_le _ _) hq4)
        have e8 : magVal (mb w) Q + 2 ^ k = (n / 2 ^ unitExp w + 1) * 2 ^ unitExp w := by
          have h8 : 0 < (n / 2 ^ unitExp w + 1) * 2 ^ (unitExp w - k) := Nat.mul_pos (Nat.succ_pos _) (Nat.two_pow_pos _)
          rw [hQ, Nat.sub_mul, Nat.one_mul, Nat.mul_assoc, Nat.mul_comm (2 ^ (unitExp w - k)), ← hDk]
          have : 2 ^ k ≤ (n / 2 ^ unitExp w + 1) * 2 ^ unitExp w := by
            refine Nat.le_trans (Nat.le_mul_of_pos_right (2 ^ k) h8) (Nat.le_of_eq ?_)
            rw [Nat.mul_left_comm, ← hDk]
          exact Nat.sub_add_cancel this
        have hk0 := Nat.two_pow_pos k
        have h5 := magVal_le (b := mb w).2 (h2 Q (by omega))
        omega
    rw [Nat.div_eq_iff hD, Nat.mul_comm]
    have : (n / 2 ^ unitExp w + 1) * 2 ^ unitExp w = 2 ^ unitExp w * (n / 2 ^ unitExp w) + 2 ^ unitExp w := by rw [Nat.succ_mul, Nat.mul_comm]
    omega
/-- directions that point away from zero, below `2^mb`: right -/
theorem roundAddM_away {w : Nat} (h : W w) {m : RMode} {x : BitVec w} (hfin : isFinite x = true) (ha : away m x.msb = true)
    (hx : (val x).natAbs < 2 ^ mb w * 2 ^ unitExp w) : RoundsVal IsRoundAway x (roundAddM m x) ∧ (roundAddM m x).msb = x.msb := by
  have hm : m ≠ .nearest := by rintro rfl; revert ha; unfold away; simp
  obtain ⟨H, g, hH, hH0, hg, hHD, hDg, hgp⟩ := half_consts h
  have hinl := infMag_lt h
  unfold roundAddM
  rw [sum_half h m hfin hH hH0]
  have hdir := rdir_isDirected (m := m) (s := x.msb) (b := mb w) (n := (val x).natAbs + H) (d := 1) (mb_pos w) Nat.one_pos
  unfold IsDirected at hdir
  rw [if_neg hm, if_pos ha] at hdir
  simp only [Nat.mul_one] at hdir
  have hrd : roundDir w m x.msb ((val x).natAbs + H) 1 = pack w x.msb (min (rdir m x.msb (mb w) ((val x).natAbs + H) 1) (infMag w)) := by
    unfold roundDir; rw [if_pos (.inr ha)]
  rw [hrd]
  generalize rdir m x.msb (mb w) ((val x).natAbs + H) 1 = p at *
  have hp : p < infMag w := by
    obtain ⟨Q, hQ⟩ := magVal_surj (b := mb w) (k := unitExp w) (f := 2 ^ (mb w + 1)) (Nat.le_refl _)
    have h1 : Q < infMag w := by
      apply (magVal_lt (b := mb w)).1
      rw [hQ]; exact bigInt h
    have h2 := hdir.2 Q (by
      rw [hQ, Nat.pow_succ, Nat.mul_comm (2 ^ mb w), Nat.mul_assoc]
      have : 2 ^ unitExp w ≤ 2 ^ mb w * 2 ^ unitExp w := Nat.le_mul_of_pos_left _ (Nat.two_pow_pos _)
      omega)
    omega
  rw [Nat.min_eq_left (by omega)]
  generalize hye : pack w x.msb p = y
  have y1 : y.msb = x.msb := by rw [← hye]; exact msb_pack h (by omega)
  have y2 : mag y = p := by rw [← hye]; exact mag_pack h (by omega)
  have yf : isFinite y = true := (finite_iff h y).2 (by omega)
  obtain ⟨s1, s2, s3⟩ := roundInt_spec h .zero yf
  refine ⟨⟨s1, _, ?_, s3⟩, by rw [s2, y1]⟩
  have hxv : val x = if x.msb then -((val x).natAbs : Int) else (val x).natAbs := by rw [natAbs_val]; rfl
  have htoI : toInt .zero y = if x.msb then -((magVal (mb w) (mag y) / 2 ^ unitExp w : Nat) : Int) else (magVal (mb w) (mag y) / 2 ^ unitExp w : Nat) := by
    unfold toInt roundNat neg; dsimp only; rw [natAbs_val, y1, Nat.add_zero]
  rw [htoI]
  refine isRoundAway_of (Nat.two_pow_pos _) rfl hxv ?_
  rw [y2]
  exact away_core h hHD hg hgp hH (natAbs_val x).symm hx hdir.1 hdir.2

/-! ### before SSE4.1 -/
/-- one lane -/
def roundLaneM (m : RMode) {w : Nat} (x : BitVec w) : BitVec w :=
  faddM m (cvttLaneM m x) (cvttLaneM m (fmulM m (fsubM m x (cvttLaneM m x)) (nearTwo w)))
theorem fmulM_fin {m : RMode} {w : Nat} {x y : BitVec w} (hx : isFinite x = true) (hy : isFinite y = true) :
    fmulM m x y = roundDir w m (neg x != neg y) ((val x).natAbs * (val y).natAbs) (2 ^ unitExp w) := by
  have a := finite_cls hx; have b := finite_cls hy
  unfold fmulM; simp [a.1, a.2, b.1, b.2]
/-- the fraction times the number below two, truncated: one above one half, in every direction -/
theorem rem_int_gen {w : Nat} (h : W w) (m : RMode) {x t : BitVec w} (hfin : isFinite x = true) (c1 : isFinite t = true)
    (c2 : val t = toInt .zero x * (2 ^ unitExp w : Nat)) :
    isFinite (fmulM m (fsubM m x t) (nearTwo w)) = true ∧
    toInt .zero (fmulM m (fsubM m x t) (nearTwo w)) =
      if x.msb then -((if 2 ^ unitExp w < 2 * ((val x).natAbs % 2 ^ unitExp w) then 1 else 0 : Nat) : Int)
      else ((if 2 ^ unitExp w < 2 * ((val x).natAbs % 2 ^ unitExp w) then 1 else 0 : Nat) : Int) := by
  have hb := mb_pos w
  have hU := unitExp_eq h
  have hβ : 4 ≤ bias w := by rcases h with h | h <;> subst h <;> decide
  have hD : 0 < 2 ^ unitExp w := Nat.two_pow_pos _
  have hxv : val x = if x.msb then -((val x).natAbs : Int) else (val x).natAbs := by rw [natAbs_val]; rfl
  have hfr := repr_frac h hfin
  have hz : toInt .zero x = if x.msb then -(((val x).natAbs / 2 ^ unitExp w : Nat) : Int) else ((val x).natAbs / 2 ^ unitExp w : Nat) := by
    unfold toInt roundNat neg; dsimp only; rw [Nat.add_zero]
  have hdm := Nat.div_add_mod (val x).natAbs (2 ^ unitExp w)
  have hml := Nat.mod_lt (val x).natAbs hD
  generalize hn : (val x).natAbs = n at *
  generalize hf : n % 2 ^ unitExp w = f at *
  generalize hq : n / 2 ^ unitExp w = q at *
  have hdiff : val x - val t = if x.msb then -(f : Int) else f := by
    rw [c2, hz, hxv]
    have : ((2 ^ unitExp w * q + f : Nat) : Int) = n := by exact_mod_cast hdm
    push_cast at this
    cases x.msb
    · simp only [Bool.false_eq_true, if_false]; push_cast; rw [← this, Int.mul_comm]; omega
    · simp only [if_true]; push_cast; rw [← this, Int.neg_mul, Int.mul_comm]; omega
  have hfa : (if x.msb = true then -(f : Int) else (f : Int)).natAbs = f := by split <;> omega
  have hs := fsubM_val (m := m) h hfin c1 (by rw [hdiff, hfa]; exact hfr)
  rw [hdiff] at hs
  generalize hy : fsubM m x t = y at *
  have hysign : f ≠ 0 → y.msb = x.msb := by
    intro h0
    have h1 := val_neg_iff (x := y) (by rw [hs.2]; split <;> omega)
    rw [hs.2] at h1
    cases hm : x.msb
    · rw [hm] at h1; simp at h1; cases hm2 : y.msb
      · rfl
      · exact absurd (h1.2 hm2) (by omega)
    · rw [hm] at h1; simp at h1; exact h1.1 (by omega)
  obtain ⟨n1, n2, n3⟩ := nearTwo_sm h
  have hya : (val y).natAbs = f := by rw [hs.2, hfa]
  have hfm : fmulM m y (nearTwo w) = roundDir w m y.msb (f * magVal (mb w) ((bias w + 1) * 2 ^ mb w - 1)) (2 ^ unitExp w) := by
    rw [fmulM_fin hs.1 n3, hya, natAbs_val, n2]
    unfold neg
    rw [n1]
    simp
  have hcore := near2_gen (b := mb w) (β := bias w) (fm := mag y) hb hβ (f := f) (D := 2 ^ unitExp w) (by rw [← natAbs_val, hya]) (by rw [hU]) rfl hml
    (R := rdir m y.msb (mb w) (f * magVal (mb w) ((bias w + 1) * 2 ^ mb w - 1)) (2 ^ unitExp w)) (fun p hp => rdir_ge hb hD hp) (fun p hp => rdir_le hb hD hp)
  have hinl := infMag_lt h
  have hN2inf : (bias w + 1) * 2 ^ mb w - 1 < infMag w := by rcases h with h | h <;> subst h <;> decide
  have hp : fmulM m y (nearTwo w) = pack w y.msb (rdir m y.msb (mb w) (f * magVal (mb w) ((bias w + 1) * 2 ^ mb w - 1)) (2 ^ unitExp w)) := by
    rw [hfm]
    unfold roundDir
    rw [Nat.min_eq_left (by split <;> omega)]
  generalize rdir m y.msb (mb w) (f * magVal (mb w) ((bias w + 1) * 2 ^ mb w - 1)) (2 ^ unitExp w) = P at *
  have hpm : mag (fmulM m y (nearTwo w)) = P := by rw [hp]; exact mag_pack h (by omega)
  have hps : (fmulM m y (nearTwo w)).msb = y.msb := by rw [hp]; exact msb_pack h (by omega)
  have hpf : isFinite (fmulM m y (nearTwo w)) = true := (finite_iff h _).2 (by omega)
  have hpt : toInt .zero (fmulM m y (nearTwo w)) = if y.msb then -((if 2 ^ unitExp w < 2 * f then 1 else 0 : Nat) : Int) else ((if 2 ^ unitExp w < 2 * f then 1 else 0 : Nat) : Int) := by
    unfold toInt roundNat neg; dsimp only
    rw [Nat.add_zero, natAbs_val, hpm, hcore.2, hps]
  refine ⟨hpf, ?_⟩
  rw [hpt]
  by_cases h0 : 2 ^ unitExp w < 2 * f
  · rw [hysign (by omega)]
  · simp [h0]
theorem rem_int {w : Nat} (h : W w) (m : RMode) {x : BitVec w} (hx : Fits32 x) :
    isFinite (fmulM m (fsubM m x (cvttLane x)) (nearTwo w)) = true ∧
    toInt .zero (fmulM m (fsubM m x (cvttLane x)) (nearTwo w)) =
      if x.msb then -((if 2 ^ unitExp w < 2 * ((val x).natAbs % 2 ^ unitExp w) then 1 else 0 : Nat) : Int)
      else ((if 2 ^ unitExp w < 2 * ((val x).natAbs % 2 ^ unitExp w) then 1 else 0 : Nat) : Int) := by
  obtain ⟨c1, c2, -⟩ := cvttLane_fits h hx
  exact rem_int_gen h m hx.1 c1 c2
/-- the old `round` gives the same bits in every direction, for numbers whose integer part fits -/
theorem roundLaneM_eq {w : Nat} (h : W w) (m : RMode) {x : BitVec w} (hx : Fits32 x) : roundLaneM m x = roundLane x := by
  have hD : 0 < 2 ^ unitExp w := Nat.two_pow_pos _
  obtain ⟨a1, a2⟩ := rem_int h m hx
  obtain ⟨b1, b2⟩ := rem_int h .nearest hx
  rw [fsubM_nearest, fmulM_nearest] at b1 b2
  obtain ⟨c1, c2, c3⟩ := cvttLane_fits h hx
  unfold roundLaneM roundLane
  rw [cvttLaneM_eq h, cvttLaneM_eq h]
  have hu : ∀ u : Int, (u = if x.msb then -((if 2 ^ unitExp w < 2 * ((val x).natAbs % 2 ^ unitExp w) then 1 else 0 : Nat) : Int)
      else ((if 2 ^ unitExp w < 2 * ((val x).natAbs % 2 ^ unitExp w) then 1 else 0 : Nat) : Int)) → -1 ≤ u ∧ u ≤ 1 := by
    intro u hu; rw [hu]; split <;> split <;> omega
  have fa : Fits32 (fmulM m (fsubM m x (cvttLane x)) (nearTwo w)) := ⟨a1, by have := hu _ a2; omega, by have := hu _ a2; omega⟩
  have fb : Fits32 (fmul (fsub x (cvttLane x)) (nearTwo w)) := ⟨b1, by have := hu _ b2; omega, by have := hu _ b2; omega⟩
  have same : cvttLane (fmulM m (fsubM m x (cvttLane x)) (nearTwo w)) = cvttLane (fmul (fsub x (cvttLane x)) (nearTwo w)) := by
    have e : ∀ {y : BitVec w}, Fits32 y → cvttLane y = ofInt w (toInt .zero y) := by
      intro y hy
      obtain ⟨hf, h1, h2⟩ := hy
      have e : (cvtInt 32 .zero y).toInt = toInt .zero y := by
        unfold cvtInt
        rw [if_pos (by simp [hf]; omega), BitVec.toInt_ofInt]
        exact Int.bmod_eq_of_le (by omega) (by omega)
      unfold cvttLane; rw [e]
    rw [e fa, e fb, a2, b2]
  rw [same]
  obtain ⟨d1, d2, d3⟩ := cvttLane_fits h fb
  generalize fmul (fsub x (cvttLane x)) (nearTwo w) = r at *
  have hz : toInt .zero x = if x.msb then -(((val x).natAbs / 2 ^ unitExp w : Nat) : Int) else ((val x).natAbs / 2 ^ unitExp w : Nat) := by
    unfold toInt roundNat neg; dsimp only; rw [Nat.add_zero]
  have hint : (val x).natAbs % 2 ^ unitExp w ≠ 0 → (val x).natAbs < 2 ^ mb w * 2 ^ unitExp w := by
    intro h0
    apply small_of_exp h
    false_or_by_contra
    exact h0 (int_of_big (by omega))
  have hzr := repr_roundNat h .zero (neg x) hx.1
  unfold roundNat at hzr
  dsimp only at hzr
  rw [Nat.add_zero] at hzr
  clear same fa a2 a1 hu
  generalize hn : (val x).natAbs = n at *
  generalize hf : n % 2 ^ unitExp w = f at *
  generalize hq : n / 2 ^ unitExp w = q at *
  have hrep : Repr w ((q + (if 2 ^ unitExp w < 2 * f then 1 else 0)) * 2 ^ unitExp w) := by
    split
    · have h1 := hint (by omega)
      have h2 : q < 2 ^ mb w := by rw [← hq]; exact Nat.div_lt_of_lt_mul (by rw [Nat.mul_comm]; exact h1)
      have h3 : 2 ^ (mb w + 1) = 2 ^ mb w + 2 ^ mb w := by rw [Nat.pow_succ]; omega
      exact repr_mk (by omega) (Nat.lt_of_le_of_lt (Nat.mul_le_mul_right _ (by omega)) (bigInt h))
    · exact hzr
  generalize (if 2 ^ unitExp w < 2 * f then 1 else 0 : Nat) = u at *
  have hsum : val (cvttLane x) + val (cvttLane r) = (if x.msb then -((q + u : Nat) : Int) else ((q + u : Nat) : Int)) * (2 ^ unitExp w : Nat) := by
    rw [c2, d2, ← Int.add_mul, hz, b2]
    congr 1
    cases x.msb <;> simp <;> omega
  refine faddM_eq c1 d1 ?_ fun h0 => Or.inr ?_
  · rw [hsum, Int.natAbs_mul]
    have : (if x.msb = true then -((q + u : Nat) : Int) else ((q + u : Nat) : Int)).natAbs = q + u := by split <;> omega
    rw [this, Int.natAbs_natCast]; exact hrep
  · rw [hsum] at h0
    have h1 : (if x.msb = true then -((q + u : Nat) : Int) else ((q + u : Nat) : Int)) = 0 :=
      (Int.mul_eq_zero.1 h0).resolve_right (by omega)
    have h2 : q = 0 ∧ u = 0 := by revert h1; split <;> omega
    rw [c3 (by rw [hz, h2.1]; simp), d3 (by rw [b2, h2.2]; simp)]
end Dpm.Fp
