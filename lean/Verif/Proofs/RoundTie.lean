import Verif.Proofs.TruncSse2
/-
`round` before SSE4.1: the fraction times the number below two, truncated.
-/
namespace Dpm.Fp
open Dpm.X86

theorem rne_ge_d {b n d p : Nat} (hb : 0 < b) (hd : 0 < d) (h : magVal b p * d ≤ n) : p ≤ rne b n d := by
  have h1 := rne_mono (b := b) (d := d) hb hd h
  have h2 := rne_exact (b := b) (m := p) (d := d) hb hd
  omega
theorem rne_le_d {b n d p : Nat} (hb : 0 < b) (hd : 0 < d) (h : n ≤ magVal b p * d) : rne b n d ≤ p := by
  have h1 := rne_mono (b := b) (d := d) hb hd h
  have h2 := rne_exact (b := b) (m := p) (d := d) hb hd
  omega
/-- the fraction of a number is a number -/
theorem repr_frac {w : Nat} (h : W w) {x : BitVec w} (hfin : isFinite x = true) : Repr w ((val x).natAbs % 2 ^ unitExp w) := by
  obtain ⟨-, F, hF⟩ := magVal_gap (mb w) (mag x)
  rw [← natAbs_val] at hF
  generalize hk : mag x / 2 ^ mb w - 1 = k at *
  have hD := Nat.two_pow_pos (unitExp w)
  have hml := Nat.mod_lt (val x).natAbs hD
  have hle := Nat.mod_le (val x).natAbs (2 ^ unitExp w)
  by_cases hku : k ≤ unitExp w
  · have hpow : 2 ^ unitExp w = 2 ^ k * 2 ^ (unitExp w - k) := by rw [← Nat.pow_add]; congr 1; omega
    have h1 : (val x).natAbs % 2 ^ unitExp w = (F % 2 ^ (unitExp w - k)) * 2 ^ k := by
      rw [hF, hpow, Nat.mul_mod_mul_left, Nat.mul_comm]
    have hFb : F ≤ 2 ^ (mb w + 1) := by
      have h2 : (val x).natAbs ≤ 2 ^ (mb w + 1) * 2 ^ k := by
        rw [natAbs_val]
        have h3 : magVal (mb w) (k * 2 ^ mb w + 2 ^ (mb w + 1)) = 2 ^ (mb w + 1) * 2 ^ k :=
          magVal_kf (Or.inr (Nat.pow_le_pow_right (by omega) (by omega))) (Nat.le_refl _)
        rw [← h3]
        apply magVal_le.2
        have hdm := Nat.div_add_mod (mag x) (2 ^ mb w)
        have hmm := Nat.mod_lt (mag x) (Nat.two_pow_pos (mb w))
        have hq : mag x / 2 ^ mb w ≤ k + 1 := by omega
        have := Nat.mul_le_mul_left (2 ^ mb w) hq
        rw [Nat.mul_add, Nat.mul_one, Nat.mul_comm _ k] at this
        rw [Nat.pow_succ]
        omega
      rw [hF, Nat.mul_comm] at h2
      exact Nat.le_of_mul_le_mul_right h2 (Nat.two_pow_pos k)
    rw [h1]
    have hb2 : F % 2 ^ (unitExp w - k) ≤ F := Nat.mod_le _ _
    refine repr_mk (Nat.le_trans hb2 hFb) ?_
    rw [← h1]
    exact Nat.lt_of_le_of_lt hle (by rw [natAbs_val]; exact magVal_lt.2 ((finite_iff h x).1 hfin))
  · have : (val x).natAbs % 2 ^ unitExp w = 0 := by
      rw [hF, show k = unitExp w + (k - unitExp w) by omega, Nat.pow_add, Nat.mul_assoc, Nat.mul_mod_right]
    rw [this]
    exact ⟨0, by rcases h with h | h <;> subst h <;> decide, by rw [magVal_zero]⟩

/-- fraction times the number below two, rounded to a number that no other number separates from it: at least one exactly above one half -/
theorem near2_gen {b β fm : Nat} (hb : 0 < b) (hβ : 4 ≤ β) {f D N2 R : Nat} (hf : f = magVal b fm) (hD : D = 2 ^ (β - 1 + b))
    (hN : N2 = magVal b ((β + 1) * 2 ^ b - 1)) (hfD : f < D) (hge : ∀ p, magVal b p * D ≤ f * N2 → p ≤ R) (hle : ∀ p, f * N2 ≤ magVal b p * D → R ≤ p) :
    R ≤ (β + 1) * 2 ^ b - 1 ∧ magVal b (R) / D = if D < 2 * f then 1 else 0 := by
  have hp := Nat.two_pow_pos b
  have hb2 : 2 ^ 1 ≤ 2 ^ b := Nat.pow_le_pow_right (by omega) hb
  obtain ⟨g, hg⟩ : ∃ g, g = 2 ^ (β - 3) := ⟨_, rfl⟩
  have hg0 : 0 < g := by rw [hg]; exact Nat.two_pow_pos _
  have hDg : D = 4 * g * 2 ^ b := by
    rw [hD, hg, show β - 1 + b = 2 + (β - 3) + b by omega, Nat.pow_add, Nat.pow_add]
  have hD0 : 0 < D := by rw [hD]; exact Nat.two_pow_pos _
  have hD8 : 8 * g ≤ D := by rw [hDg]; have := Nat.mul_le_mul_left (4 * g) hb2; omega
  have pw : ∀ e, 1 ≤ e → magVal b (e * 2 ^ b) = 2 ^ b * 2 ^ (e - 1) := by
    intro e he
    have := magVal_kf (b := b) (k := e - 1) (f := 2 ^ b) (Or.inr (Nat.le_refl _)) (by rw [Nat.pow_succ]; omega)
    rw [show e * 2 ^ b = (e - 1) * 2 ^ b + 2 ^ b by rw [← Nat.succ_mul]; congr 1; omega, this]
  have below : ∀ e, 2 ≤ e → magVal b (e * 2 ^ b - 1) + 2 ^ (e - 2) = magVal b (e * 2 ^ b) := by
    intro e he
    have h1 := (magVal_gap b (e * 2 ^ b - 1)).1
    have h3 : e * 2 ^ b = (e - 1) * 2 ^ b + 2 ^ b := by rw [← Nat.succ_mul]; congr 1; omega
    have h2 : (e * 2 ^ b - 1) / 2 ^ b = e - 1 := by
      rw [Nat.div_eq_iff hp]; omega
    rw [h2, show e * 2 ^ b - 1 + 1 = e * 2 ^ b by omega, show e - 1 - 1 = e - 2 by omega] at h1
    exact h1.symm
  have hone : magVal b (β * 2 ^ b) = D := by rw [pw β (by omega), hD, ← Nat.pow_add, Nat.add_comm]
  have hhalf : 2 * magVal b ((β - 1) * 2 ^ b) = D := by
    rw [pw (β - 1) (by omega), hDg, hg, show β - 1 - 1 = β - 3 + 1 by omega, Nat.pow_succ]; grind
  have hN2 : N2 + 4 * g = 2 * D := by
    have h1 := below (β + 1) (by omega)
    have h2 := pw (β + 1) (by omega)
    rw [← hN, h2, show β + 1 - 2 = 2 + (β - 3) by omega, show β + 1 - 1 = 3 + (β - 3) by omega, Nat.pow_add, Nat.pow_add, ← hg] at h1
    rw [hDg]; grind
  have hpred : magVal b (β * 2 ^ b - 1) + 2 * g = D := by
    have h1 := below β (by omega)
    rw [hone, show β - 2 = 1 + (β - 3) by omega, Nat.pow_add, ← hg] at h1
    omega
  have hup : R ≤ (β + 1) * 2 ^ b - 1 := by
    apply hle
    rw [← hN, Nat.mul_comm]
    exact Nat.mul_le_mul_left _ (by omega)
  refine ⟨hup, ?_⟩
  have hv : magVal b (R) ≤ N2 := Nat.le_trans (magVal_le.2 hup) (Nat.le_of_eq hN.symm)
  split
  · rename_i hlt
    -- above one half by at least the spacing
    have h1 : (β - 1) * 2 ^ b < fm := magVal_lt.1 (by rw [← hf]; omega)
    have h2 : magVal b ((β - 1) * 2 ^ b + 1) ≤ f := by rw [hf]; exact magVal_le.2 h1
    have h3 := (magVal_gap b ((β - 1) * 2 ^ b)).1
    rw [Nat.mul_div_cancel _ hp, show β - 1 - 1 = β - 3 + 1 by omega, Nat.pow_succ, ← hg] at h3
    have h4 : D + 4 * g ≤ 2 * f := by omega
    have h5 : D * D ≤ f * N2 := by
      have a1 : (D + 4 * g) * N2 ≤ 2 * f * N2 := Nat.mul_le_mul_right _ h4
      have a2 : N2 = 2 * D - 4 * g := by omega
      have a3 : 2 * (D * D) ≤ (D + 4 * g) * N2 := by
        rw [a2, Nat.mul_sub, Nat.add_mul]
        have : (D + 4 * g) * (4 * g) ≤ (4 * g) * (2 * D) := by
          rw [Nat.mul_comm (4 * g)]
          exact Nat.mul_le_mul_right _ (by omega)
        have e : D * (2 * D) = 2 * (D * D) := by rw [Nat.mul_left_comm]
        omega
      rw [Nat.mul_assoc] at a1
      omega
    have h6 : β * 2 ^ b ≤ R := hge _ (by rw [hone]; exact h5)
    have h7 : D ≤ magVal b (R) := Nat.le_trans (Nat.le_of_eq hone.symm) (magVal_le.2 h6)
    rw [Nat.div_eq_iff hD0]; omega
  · rename_i hnlt
    have h1 : R ≤ β * 2 ^ b - 1 := by
      apply hle
      have a1 : 2 * f * N2 ≤ D * N2 := Nat.mul_le_mul_right _ (by omega)
      have a2 : N2 = 2 * magVal b (β * 2 ^ b - 1) := by omega
      rw [a2] at a1 ⊢
      have a3 : 2 * f * (2 * magVal b (β * 2 ^ b - 1)) = 2 * (f * (2 * magVal b (β * 2 ^ b - 1))) := Nat.mul_assoc _ _ _
      have a4 : D * (2 * magVal b (β * 2 ^ b - 1)) = 2 * (magVal b (β * 2 ^ b - 1) * D) := by rw [Nat.mul_left_comm, Nat.mul_comm D]
      omega
    have h2 : magVal b (R) ≤ magVal b (β * 2 ^ b - 1) := magVal_le.2 h1
    exact Nat.div_eq_of_lt (by omega)

theorem near2_core {b β fm : Nat} (hb : 0 < b) (hβ : 4 ≤ β) {f D N2 : Nat} (hf : f = magVal b fm) (hD : D = 2 ^ (β - 1 + b))
    (hN : N2 = magVal b ((β + 1) * 2 ^ b - 1)) (hfD : f < D) :
    rne b (f * N2) D ≤ (β + 1) * 2 ^ b - 1 ∧ magVal b (rne b (f * N2) D) / D = if D < 2 * f then 1 else 0 :=
  have hD0 : 0 < D := by rw [hD]; exact Nat.two_pow_pos _
  near2_gen hb hβ hf hD hN hfD (fun _ h => rne_ge_d hb hD0 h) (fun _ h => rne_le_d hb hD0 h)

/-- one lane of the old `round` -/
def roundLane {w : Nat} (x : BitVec w) : BitVec w := fadd (cvttLane x) (cvttLane (fmul (fsub x (cvttLane x)) (nearTwo w)))

theorem nearTwo_sm {w : Nat} (h : W w) : (nearTwo w).msb = false ∧ mag (nearTwo w) = (bias w + 1) * 2 ^ mb w - 1 ∧ isFinite (nearTwo w) = true := by
  rcases h with h | h <;> subst h <;> decide
/-- nearest, ties toward zero: what the pre-SSE4.1 `round` computes -/
def IsRoundToward (v D : Int) (r : Int) : Prop :=
  (0 ≤ v → (2 * r - 1) * D < 2 * v ∧ 2 * v ≤ (2 * r + 1) * D) ∧ (v < 0 → (2 * r - 1) * D ≤ 2 * v ∧ 2 * v < (2 * r + 1) * D)
theorem isRoundToward_of {v D : Int} {n D' q : Nat} {s : Bool} (hD : 0 < D') (hDD : D = D') (hv : v = if s then -(n : Int) else n)
    (hq : q = n / D' + if D' < 2 * (n % D') then 1 else 0) : IsRoundToward v D (if s then -(q : Int) else q) := by
  have hdm := Nat.div_add_mod n D'
  have hml := Nat.mod_lt n hD
  subst hDD
  have h4 : ((D' * q : Nat) : Int) = (q : Int) * D' := by push_cast; rw [Int.mul_comm]
  have hq2 : D' * q = D' * (n / D') + if D' < 2 * (n % D') then D' else 0 := by
    rw [hq, Nat.mul_add]; split <;> simp
  have p1 : (2 * (q : Int) - 1) * D' = 2 * (D' * q : Nat) - D' := by rw [h4]; grind
  have p2 : (2 * (q : Int) + 1) * D' = 2 * (D' * q : Nat) + D' := by rw [h4]; grind
  have q1 : (2 * -(q : Int) - 1) * D' = -(2 * (D' * q : Nat)) - D' := by rw [h4]; grind
  have q2 : (2 * -(q : Int) + 1) * D' = -(2 * (D' * q : Nat)) + D' := by rw [h4]; grind
  unfold IsRoundToward
  generalize D' * q = Q at *
  generalize D' * (n / D') = P at *
  generalize n % D' = r at *
  cases s
  · simp only [Bool.false_eq_true, if_false] at hv ⊢
    rw [p1, p2]
    split at hq2 <;> omega
  · simp only [if_true] at hv ⊢
    rw [q1, q2]
    split at hq2 <;> omega
theorem roundLane_fits {w : Nat} (h : W w) {x : BitVec w} (hx : Fits32 x) : RoundsVal IsRoundToward x (roundLane x) := by
  obtain ⟨c1, c2, c3⟩ := cvttLane_fits h hx
  have hb := mb_pos w
  have hU := unitExp_eq h
  have hβ : 4 ≤ bias w := by rcases h with h | h <;> subst h <;> decide
  have hD : 0 < 2 ^ unitExp w := Nat.two_pow_pos _
  have hxv : val x = if x.msb then -((val x).natAbs : Int) else (val x).natAbs := by rw [natAbs_val]; rfl
  have hfr := repr_frac h hx.1
  have hz : toInt .zero x = if x.msb then -(((val x).natAbs / 2 ^ unitExp w : Nat) : Int) else ((val x).natAbs / 2 ^ unitExp w : Nat) := by
    unfold toInt roundNat neg; dsimp only; rw [Nat.add_zero]
  have hdm := Nat.div_add_mod (val x).natAbs (2 ^ unitExp w)
  have hml := Nat.mod_lt (val x).natAbs hD
  have hint : (val x).natAbs % 2 ^ unitExp w ≠ 0 → (val x).natAbs < 2 ^ mb w * 2 ^ unitExp w := by
    intro h0
    apply small_of_exp h
    false_or_by_contra
    exact h0 (int_of_big (by omega))
  have hzr := repr_roundNat h .zero (neg x) hx.1
  unfold roundNat at hzr
  dsimp only at hzr
  rw [Nat.add_zero] at hzr
  generalize hn : (val x).natAbs = n at *
  generalize hf : n % 2 ^ unitExp w = f at *
  generalize hq : n / 2 ^ unitExp w = q at *
  -- the fraction
  have hdiff : val x - val (cvttLane x) = if x.msb then -(f : Int) else f := by
    rw [c2, hz, hxv]
    have : ((2 ^ unitExp w * q + f : Nat) : Int) = n := by exact_mod_cast hdm
    push_cast at this
    cases x.msb
    · simp only [Bool.false_eq_true, if_false]; push_cast; rw [← this, Int.mul_comm]; omega
    · simp only [if_true]; push_cast; rw [← this, Int.neg_mul, Int.mul_comm]; omega
  have hfa : (if x.msb = true then -(f : Int) else (f : Int)).natAbs = f := by split <;> omega
  have hs := fsub_val h hx.1 c1 (by rw [hdiff, hfa]; exact hfr)
  rw [hdiff] at hs
  generalize hy : fsub x (cvttLane x) = y at *
  have hysign : f ≠ 0 → y.msb = x.msb := by
    intro h0
    have h1 := val_neg_iff (x := y) (by rw [hs.2]; split <;> omega)
    rw [hs.2] at h1
    cases hm : x.msb
    · rw [hm] at h1; simp at h1; cases hm2 : y.msb
      · rfl
      · exact absurd (h1.2 hm2) (by omega)
    · rw [hm] at h1; simp at h1; exact h1.1 (by omega)
  -- times the number below two
  obtain ⟨n1, n2, n3⟩ := nearTwo_sm h
  have hya : (val y).natAbs = f := by rw [hs.2, hfa]
  have hcore := near2_core (b := mb w) (β := bias w) (fm := mag y) hb hβ (f := f) (D := 2 ^ unitExp w) (by rw [← natAbs_val, hya]) (by rw [hU]) rfl hml
  have hinl := infMag_lt h
  have hN2inf : (bias w + 1) * 2 ^ mb w - 1 < infMag w := by rcases h with h | h <;> subst h <;> decide
  have hp : fmul y (nearTwo w) = pack w y.msb (rne (mb w) (f * magVal (mb w) ((bias w + 1) * 2 ^ mb w - 1)) (2 ^ unitExp w)) := by
    rw [fmul_fin hs.1 n3, hya, natAbs_val, n2]
    unfold round neg
    rw [n1, Nat.min_eq_left (by omega)]
    simp
  generalize hP : rne (mb w) (f * magVal (mb w) ((bias w + 1) * 2 ^ mb w - 1)) (2 ^ unitExp w) = P at *
  have hpm : mag (fmul y (nearTwo w)) = P := by rw [hp]; exact mag_pack h (by omega)
  have hps : (fmul y (nearTwo w)).msb = y.msb := by rw [hp]; exact msb_pack h (by omega)
  have hpf : isFinite (fmul y (nearTwo w)) = true := (finite_iff h _).2 (by omega)
  have hpt : toInt .zero (fmul y (nearTwo w)) = if y.msb then -((if 2 ^ unitExp w < 2 * f then 1 else 0 : Nat) : Int) else ((if 2 ^ unitExp w < 2 * f then 1 else 0 : Nat) : Int) := by
    unfold toInt roundNat neg; dsimp only
    rw [Nat.add_zero, natAbs_val, hpm, hcore.2, hps]
  have hpfit : Fits32 (fmul y (nearTwo w)) := ⟨hpf, by rw [hpt]; split <;> split <;> omega, by rw [hpt]; split <;> split <;> omega⟩
  obtain ⟨d1, d2, -⟩ := cvttLane_fits h hpfit
  have hsgn : toInt .zero (fmul y (nearTwo w)) = if x.msb then -((if 2 ^ unitExp w < 2 * f then 1 else 0 : Nat) : Int) else ((if 2 ^ unitExp w < 2 * f then 1 else 0 : Nat) : Int) := by
    rw [hpt]
    by_cases h0 : 2 ^ unitExp w < 2 * f
    · rw [hysign (by omega)]
    · simp [h0]
  rw [hsgn] at d2
  have hsum : toInt .zero x + (if x.msb then -((if 2 ^ unitExp w < 2 * f then 1 else 0 : Nat) : Int) else ((if 2 ^ unitExp w < 2 * f then 1 else 0 : Nat) : Int))
      = if x.msb then -((q + (if 2 ^ unitExp w < 2 * f then 1 else 0) : Nat) : Int) else ((q + (if 2 ^ unitExp w < 2 * f then 1 else 0) : Nat) : Int) := by
    rw [hz]
    generalize (if 2 ^ unitExp w < 2 * f then 1 else 0 : Nat) = u
    cases x.msb <;> simp <;> omega
  have hrep : Repr w ((q + (if 2 ^ unitExp w < 2 * f then 1 else 0)) * 2 ^ unitExp w) := by
    split
    · have h1 := hint (by omega)
      have h2 : q < 2 ^ mb w := by rw [← hq]; exact Nat.div_lt_of_lt_mul (by rw [Nat.mul_comm]; exact h1)
      have h3 : 2 ^ (mb w + 1) = 2 ^ mb w + 2 ^ mb w := by rw [Nat.pow_succ]; omega
      exact repr_mk (by omega) (Nat.lt_of_le_of_lt (Nat.mul_le_mul_right _ (by omega)) (bigInt h))
    · exact hzr
  unfold roundLane
  rw [hy]
  have hres := fadd_ints h c1 c2 d1 d2 (by
    rw [hsum]
    have : (if x.msb = true then -((q + (if 2 ^ unitExp w < 2 * f then 1 else 0) : Nat) : Int) else ((q + (if 2 ^ unitExp w < 2 * f then 1 else 0) : Nat) : Int)).natAbs
      = q + (if 2 ^ unitExp w < 2 * f then 1 else 0) := by split <;> omega
    rw [this]; exact hrep)
  rw [hsum] at hres
  refine ⟨hres.1, _, ?_, hres.2⟩
  exact isRoundToward_of (n := n) (q := q + (if 2 ^ unitExp w < 2 * f then 1 else 0)) hD rfl hxv (by rw [hf, hq])

/-- away from ties the two rules agree -/
theorem away_of_toward {v D z : Int} (hD : 0 < D) (h : IsRoundToward v D z) (hn : ∀ k : Int, 2 * v ≠ (2 * k + 1) * D) : IsRoundAway v D z := by
  have h1 := hn z
  have h2 := hn (z - 1)
  rw [show 2 * (z - 1) + 1 = 2 * z - 1 by omega] at h2
  obtain ⟨a, b⟩ := h
  unfold IsRoundAway
  generalize (2 * z + 1) * D = A at *
  generalize (2 * z - 1) * D = B at *
  omega
theorem tie_of_odd {v : Int} {D : Nat} (hD : 0 < D) {k : Int} (h : 2 * v = (2 * k + 1) * D) : 2 * (v.natAbs % D) = D := by
  have h1 : 2 * v.natAbs = (2 * k + 1).natAbs * D := by
    have := congrArg Int.natAbs h
    rw [Int.natAbs_mul, Int.natAbs_mul] at this
    simpa using this
  obtain ⟨j, hj⟩ : ∃ j, (2 * k + 1).natAbs = 2 * j + 1 := ⟨((2 * k + 1).natAbs - 1) / 2, by omega⟩
  rw [hj, Nat.add_mul, Nat.one_mul, Nat.mul_assoc] at h1
  generalize v.natAbs = n at *
  have h2 : D = 2 * (n - j * D) := by omega
  have h3 : n % D = n - j * D := by
    have : n = (n - j * D) + D * j := by rw [Nat.mul_comm D j]; omega
    conv => lhs; rw [this]
    rw [Nat.add_mul_mod_self_left, Nat.mod_eq_of_lt (by omega)]
  omega
/-- on a tie the value is truncated and not the one further from zero -/
theorem tie_trunc {v : Int} {D : Nat} (hD : 0 < D) (ht : 2 * (v.natAbs % D) = D) {z : Int} (hz : IsRoundToward v D z) :
    IsTrunc v D z ∧ ¬ IsRoundAway v D z := by
  have hdm := Nat.div_add_mod v.natAbs D
  have hv0 : v ≠ 0 := by rintro rfl; simp at ht; omega
  generalize hq : v.natAbs / D = q at *
  generalize v.natAbs % D = r at *
  have hnat : 2 * v.natAbs = (2 * q + 1) * D := by
    rw [Nat.add_mul, Nat.one_mul, Nat.mul_assoc, Nat.mul_comm q D]; omega
  obtain ⟨a, b⟩ := hz
  rcases (by omega : 0 < v ∨ v < 0) with hp | hp
  · have e : 2 * v = (2 * (q : Int) + 1) * D := by
      have : ((2 * v.natAbs : Nat) : Int) = ((2 * q + 1) * D : Nat) := by exact_mod_cast hnat
      push_cast at this
      omega
    obtain ⟨a1, a2⟩ := a (by omega)
    rw [e] at a1 a2
    have c1 := Int.lt_of_mul_lt_mul_right a1 (by omega)
    have c2 := Int.le_of_mul_le_mul_right a2 (by omega)
    have hzq : z = q := by omega
    subst hzq
    have e1 : (2 * (q : Int) + 1) * D = 2 * ((q : Int) * D) + D := by grind
    have e2 : ((q : Int) + 1) * D = (q : Int) * D + D := by grind
    refine ⟨⟨fun _ => ?_, fun hn => by omega⟩, fun hc => ?_⟩
    · rw [e2]; omega
    · have := (hc.1 (by omega)).2; omega
  · have e : 2 * v = (-2 * (q : Int) - 1) * D := by
      have : ((2 * v.natAbs : Nat) : Int) = ((2 * q + 1) * D : Nat) := by exact_mod_cast hnat
      have e3 : (-2 * (q : Int) - 1) * D = -((2 * (q : Int) + 1) * D) := by grind
      push_cast at this
      omega
    obtain ⟨a1, a2⟩ := b hp
    rw [e] at a1 a2
    have c1 := Int.le_of_mul_le_mul_right a1 (by omega)
    have c2 := Int.lt_of_mul_lt_mul_right a2 (by omega)
    have hzq : z = -q := by omega
    subst hzq
    have e1 : (-2 * (q : Int) - 1) * D = 2 * (-(q : Int) * D) - D := by grind
    have e2 : (-(q : Int) - 1) * D = -(q : Int) * D - D := by grind
    have e4 : (2 * -(q : Int) - 1) * D = (-2 * (q : Int) - 1) * D := by grind
    refine ⟨⟨fun hn => by omega, fun _ => ?_⟩, fun hc => ?_⟩
    · rw [e2]; omega
    · have := (hc.2 hp).1; omega
theorem special_unfit {w : Nat} {x : BitVec w} (hx : isNaN x = true ∨ isInf x = true) : ¬ Fits32 x := by
  rintro ⟨hf, -⟩
  have hc := finite_cls hf
  rcases hx with h | h
  · rw [hc.1] at h; cases h
  · rw [hc.2] at h; cases h
theorem roundLane_special {w : Nat} (h : W w) {x : BitVec w} (hx : isNaN x = true ∨ isInf x = true) :
    isFinite (roundLane x) = true ∧ val (roundLane x) = -(2 ^ 32 * 2 ^ unitExp w : Nat) := by
  have hm := minInt_fin h
  have hmc := finite_cls hm.1
  have hn2 := (nearTwo_sm h).2.2
  have hnc := finite_cls hn2
  have hu : isNaN (fmul (fsub x (cvttLane x)) (nearTwo w)) = true ∨ isInf (fmul (fsub x (cvttLane x)) (nearTwo w)) = true := by
    rw [cvttLane_unfit (special_unfit hx)]
    rcases hx with hx | hx
    · have e : fsub x (ofInt w (-2 ^ 31)) = quiet x := by unfold fsub; rw [if_pos hx]
      have hq := quiet_nan h hx
      refine Or.inl ?_
      rw [e]; unfold fmul; rw [if_pos hq]; exact quiet_nan h hq
    · have hnn := inf_not_nan' h hx
      have hff := finite_cls (flip_fin h hm.1)
      clear hm
      generalize ofInt w (-2 ^ 31) = M at *
      have e : fsub x M = x := by
        unfold fsub; rw [hnn, hmc.1]
        simp only [Bool.false_eq_true, if_false]
        unfold fadd; simp [hnn, hx, hff.1, hff.2]
      refine Or.inr ?_
      rw [e]
      have hz : isZero (nearTwo w) = false ∧ isZero x = false := by
        constructor
        · rcases h with h | h <;> subst h <;> decide
        · cases hq : isZero x
          · rfl
          · have a := (zero_iff x).1 hq
            have b := (inf_iff h x).1 hx
            rw [a] at b
            rcases h with h | h <;> subst h <;> exact absurd b (by decide)
      have e2 : fmul x (nearTwo w) = pack w (neg x != neg (nearTwo w)) (infMag w) := by
        unfold fmul; simp [hnn, hnc.1, hx, hz.1, hz.2]
      rw [e2, inf_iff h, mag_pack h (infMag_lt h)]
  unfold roundLane
  rw [cvttLane_unfit (special_unfit hu), cvttLane_unfit (special_unfit hx)]
  have hr : Repr w (((-2 ^ 31 : Int) + -2 ^ 31).natAbs * 2 ^ unitExp w) := pow31 h 32 (by have := mb_le_unit h; omega) (Nat.le_refl _)
  have := fadd_ints h hm.1 hm.2 hm.1 hm.2 hr
  refine ⟨this.1, this.2.trans ?_⟩
  generalize 2 ^ unitExp w = D
  show ((-2 ^ 31 : Int) + -2 ^ 31) * (D : Int) = -((2 ^ 32 * D : Nat) : Int)
  rw [Int.natCast_mul]
  omega
end Dpm.Fp
