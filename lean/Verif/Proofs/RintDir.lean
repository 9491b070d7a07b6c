import Verif.Proofs.RoundDir
import Verif.Proofs.RintSse2
/-
`rint` by adding and subtracting 2^mb, and `round` by adding the number below one half, in the other rounding directions.
-/
namespace Dpm.Fp
open Dpm.X86

/-- the direction in which the magnitude method rounds a number of sign `s` -/
def absDir (m : RMode) (s : Bool) : RMode :=
  match m, s with
  | .up, true => .down
  | .down, true => .zero
  | m, _ => m
theorem roundNat_abs {m : RMode} (hm : m ≠ .nearest) (s : Bool) (n D : Nat) : roundNat m false n D = roundNat (absDir m s) s n D := by
  cases m <;> cases s <;> first | rfl | exact absurd rfl hm | (unfold roundNat absDir; simp)
theorem toInt_inDir {w : Nat} (m : RMode) (x : BitVec w) : IsInDir m (val x) (2 ^ unitExp w : Nat) (toInt m x) := by
  cases m
  · exact toInt_rint x
  · exact toInt_floor x
  · exact toInt_ceil x
  · exact toInt_trunc x
theorem offset_sm {w : Nat} (h : W w) : (offsetBits w).msb = false ∧ isFinite (offsetBits w) = true ∧ val (offsetBits w) = (2 ^ mb w * 2 ^ unitExp w : Nat) := by
  rcases h with h | h <;> subst h <;> decide +kernel
/-- adding and subtracting `2^mb` below it, in direction `m` -/
theorem add_sub_dir {w : Nat} (h : W w) {m : RMode} (hm : m ≠ .nearest) {a : BitVec w} (hs : a.msb = false) (hfin : isFinite a = true)
    (hlt : (val a).natAbs < 2 ^ mb w * 2 ^ unitExp w) :
    ∃ y : BitVec w, fsubM m (faddM m a (offsetBits w)) (offsetBits w) = y ∧ isFinite y = true ∧
      val y = ((roundNat m false (val a).natAbs (2 ^ unitExp w) * 2 ^ unitExp w : Nat) : Int) ∧
      (roundNat m false (val a).natAbs (2 ^ unitExp w) ≠ 0 ∨ m ≠ .down → y.msb = false) ∧
      (roundNat m false (val a).natAbs (2 ^ unitExp w) = 0 → m = .down → y = BitVec.intMin w) := by
  obtain ⟨o1, o2, o3⟩ := offset_sm h
  generalize offsetBits w = o at *
  have hv : val a = ((val a).natAbs : Int) := by rw [natAbs_val]; unfold val neg; rw [hs]; rfl
  generalize hn : (val a).natAbs = n at *
  have hb := mb_pos w
  have hp : 0 < 2 ^ mb w := Nat.two_pow_pos _
  have hps : 2 ^ (mb w + 1) = 2 * 2 ^ mb w := by rw [Nat.pow_succ, Nat.mul_comm]
  have hD : 0 < 2 ^ unitExp w := Nat.two_pow_pos _
  have hPD : 0 < 2 ^ mb w * 2 ^ unitExp w := Nat.mul_pos hp hD
  have hK : unitExp w + 3 ≤ emax w := by rcases h with h | h <;> subst h <;> decide
  have hinl := infMag_lt h
  have hinf : (unitExp w + 3) * 2 ^ mb w ≤ infMag w := Nat.mul_le_mul_right _ hK
  have hs3 : (unitExp w + 3) * 2 ^ mb w = unitExp w * 2 ^ mb w + 3 * 2 ^ mb w := Nat.add_mul _ _ _
  have hq : n / 2 ^ unitExp w < 2 ^ mb w := Nat.div_lt_of_lt_mul (by rw [Nat.mul_comm]; exact hlt)
  have hdm := Nat.div_add_mod n (2 ^ unitExp w)
  have hml := Nat.mod_lt n hD
  -- the sum
  have hR : roundNat m false n (2 ^ unitExp w) = n / 2 ^ unitExp w + if away m false = true ∧ n % 2 ^ unitExp w ≠ 0 then 1 else 0 := by
    cases m <;> first | exact absurd rfl hm | (unfold roundNat away; simp)
  generalize n / 2 ^ unitExp w = q at *
  generalize n % 2 ^ unitExp w = t at *
  have hf1 : 2 ^ mb w ≤ 2 ^ mb w + q := Nat.le_add_right _ _
  have hf2 : 2 ^ mb w ≤ 2 ^ mb w + q + 1 := Nat.le_trans hf1 (Nat.le_succ _)
  have hf3 : 2 ^ mb w + q + 1 ≤ 2 ^ (mb w + 1) := by rw [hps]; omega
  have m1 : magVal (mb w) (unitExp w * 2 ^ mb w + (2 ^ mb w + q)) = (2 ^ mb w + q) * 2 ^ unitExp w :=
    magVal_kf (Or.inr hf1) (Nat.le_trans (Nat.le_succ _) hf3)
  have m2 : magVal (mb w) (unitExp w * 2 ^ mb w + (2 ^ mb w + q) + 1) = (2 ^ mb w + q + 1) * 2 ^ unitExp w := by
    have := magVal_kf (b := mb w) (k := unitExp w) (f := 2 ^ mb w + q + 1) (Or.inr hf2) hf3
    rw [← this, Nat.add_assoc]
  have e1 : (2 ^ mb w + q) * 2 ^ unitExp w = 2 ^ mb w * 2 ^ unitExp w + 2 ^ unitExp w * q := by
    rw [Nat.add_mul, Nat.mul_comm q]
  have e2 : (2 ^ mb w + q + 1) * 2 ^ unitExp w = 2 ^ mb w * 2 ^ unitExp w + 2 ^ unitExp w * q + 2 ^ unitExp w := by
    rw [Nat.succ_mul, e1]
  have hch : rdir m false (mb w) (n + 2 ^ mb w * 2 ^ unitExp w) 1 = unitExp w * 2 ^ mb w + (2 ^ mb w + roundNat m false n (2 ^ unitExp w)) := by
    have hc := rdir_char (m := m) hm (s := false) (b := mb w) (n := n + 2 ^ mb w * 2 ^ unitExp w) (d := 1) (p := unitExp w * 2 ^ mb w + (2 ^ mb w + q))
      Nat.one_pos (by rw [m1, e1, Nat.mul_one]; omega) (by rw [m2, e2, Nat.mul_one]; omega)
    rw [hc, m1, e1, hR]
    have : (n + 2 ^ mb w * 2 ^ unitExp w ≠ (2 ^ mb w * 2 ^ unitExp w + 2 ^ unitExp w * q) * 1) ↔ t ≠ 0 := by omega
    simp only [this]
    omega
  have hRb : roundNat m false n (2 ^ unitExp w) ≤ 2 ^ mb w := by rw [hR]; split <;> omega
  clear hR m1 m2 e1 e2 hf1 hf2 hf3
  generalize roundNat m false n (2 ^ unitExp w) = R at *
  have hsum : faddM m a o = pack w false (unitExp w * 2 ^ mb w + (2 ^ mb w + R)) := by
    have e : val a + val o = ((n + 2 ^ mb w * 2 ^ unitExp w : Nat) : Int) := by rw [o3]; omega
    rw [faddM_fin hfin o2, if_neg (by rw [e]; omega), e]
    have : decide (((n + 2 ^ mb w * 2 ^ unitExp w : Nat) : Int) < 0) = false := decide_eq_false (by omega)
    rw [this, Int.natAbs_natCast]
    unfold roundDir
    rw [hch, Nat.min_eq_left (by split <;> omega)]
  rw [hsum]
  generalize hse : pack w false (unitExp w * 2 ^ mb w + (2 ^ mb w + R)) = s
  have s1 : s.msb = false := by rw [← hse]; exact msb_pack h (by omega)
  have s2 : mag s = unitExp w * 2 ^ mb w + (2 ^ mb w + R) := by rw [← hse]; exact mag_pack h (by omega)
  have s3 : isFinite s = true := (finite_iff h s).2 (by omega)
  have s4 : val s = ((2 ^ mb w + R) * 2 ^ unitExp w : Nat) := by
    unfold val neg; rw [s1, s2, magVal_kf (Or.inr (by omega)) (by omega)]; simp
  have hdiff : val s - val o = (R * 2 ^ unitExp w : Nat) := by rw [s4, o3, Nat.add_mul]; omega
  have hrep : Repr w (val s - val o).natAbs := by
    rw [hdiff, Int.natAbs_natCast]
    have hR2 : R ≤ 2 ^ (mb w + 1) := Nat.le_trans hRb (Nat.pow_le_pow_right (by omega) (by omega))
    exact repr_mk hR2 (Nat.lt_of_le_of_lt (Nat.mul_le_mul_right _ hR2) (bigInt h))
  have hf := fsubM_val (m := m) h s3 o2 hrep
  refine ⟨_, rfl, hf.1, by rw [hf.2, hdiff], ?_, ?_⟩
  · intro hc
    by_cases h0 : R = 0
    · have hmd : m ≠ .down := hc.resolve_left (fun hn => hn h0)
      rw [fsubM_fin h s3 o2, if_pos (by rw [hdiff, h0]; simp)]
      have : decide (m = .down) = false := decide_eq_false hmd
      unfold neg
      rw [this, s1, o1]
      exact msb_pack h (Nat.two_pow_pos _)
    · have hpos : 0 < R * 2 ^ unitExp w := Nat.mul_pos (by omega) hD
      have hvn : val (fsubM m s o) ≠ 0 := by rw [hf.2, hdiff]; omega
      have := val_neg_iff hvn
      cases hmsb : (fsubM m s o).msb
      · rfl
      · have := this.2 hmsb; rw [hf.2, hdiff] at this; omega
  · intro h0 hmd
    rw [fsubM_fin h s3 o2, if_pos (by rw [hdiff, h0]; simp)]
    unfold neg
    rw [s1, o1, hmd]
    rcases h with h | h <;> subst h <;> decide

/-- one lane of the old `rint` below `2^mb` -/
def rintTmpM (m : RMode) {w : Nat} (x : BitVec w) : BitVec w :=
  (fsubM m (faddM m (x ^^^ (x &&& BitVec.intMin w)) (offsetBits w)) (offsetBits w)) ||| (x &&& BitVec.intMin w)
theorem rintTmpM_small {w : Nat} (h : W w) {m : RMode} (hm : m ≠ .nearest) {x : BitVec w} (hfin : isFinite x = true)
    (hx : (val x).natAbs < 2 ^ mb w * 2 ^ unitExp w) :
    RoundsVal (IsInDir (absDir m x.msb)) x (rintTmpM m x) ∧ (m ≠ .down → (rintTmpM m x).msb = x.msb) ∧
      (m = .down → (val x).natAbs < 2 ^ unitExp w → rintTmpM m x = BitVec.intMin w) := by
  unfold rintTmpM
  rw [xor_sign]
  obtain ⟨a1, a2, a3⟩ := abs_val h x
  have hfa : isFinite (x &&& BitVec.intMax w) = true := by rw [finite_iff h] at hfin ⊢; rw [a2]; exact hfin
  have hna : (val (x &&& BitVec.intMax w)).natAbs = (val x).natAbs := by rw [a3]; rfl
  obtain ⟨y, hy, f1, f2, f3, f4⟩ := add_sub_dir h hm a1 hfa (by rw [hna]; exact hx)
  rw [hna] at f2 f3 f4
  rw [hy]
  have ht : ((if x.msb then -(1 : Int) else 1) * (roundNat m false (val x).natAbs (2 ^ unitExp w) * 2 ^ unitExp w : Nat)) =
      toInt (absDir m x.msb) x * (2 ^ unitExp w : Nat) := by
    rw [roundNat_abs hm x.msb]
    unfold toInt neg
    generalize roundNat (absDir m x.msb) x.msb (val x).natAbs (2 ^ unitExp w) = R
    generalize 2 ^ unitExp w = D
    cases x.msb <;> simp <;> grind
  have hmin : (BitVec.intMin w) ||| (x &&& BitVec.intMin w) = BitVec.intMin w := by
    apply BitVec.eq_of_getLsbD_eq
    intro i hi
    simp only [BitVec.getLsbD_or, BitVec.getLsbD_and]
    cases (BitVec.intMin w).getLsbD i <;> simp
  have hminv : isFinite (BitVec.intMin w) = true ∧ val (BitVec.intMin w) = 0 := by rcases h with h | h <;> subst h <;> decide +kernel
  by_cases hc : roundNat m false (val x).natAbs (2 ^ unitExp w) = 0 ∧ m = .down
  · have hyv := f4 hc.1 hc.2
    rw [hyv, hmin]
    refine ⟨⟨hminv.1, _, toInt_inDir (absDir m x.msb) x, ?_⟩, fun hd => absurd hc.2 hd, fun _ _ => rfl⟩
    rw [← ht, hc.1, hminv.2]; simp
  · have hmsb := f3 (by rw [Classical.not_and_iff_not_or_not] at hc; exact hc)
    rw [orSign h x y hmsb]
    have hil := infMag_lt h
    have hmy := (finite_iff h y).1 f1
    have hmp := mag_pack h (s := x.msb) (mag_lt y)
    refine ⟨⟨(finite_iff h _).2 (by omega), _, toInt_inDir (absDir m x.msb) x, ?_⟩, fun _ => msb_pack h (mag_lt y), fun hd hl => ?_⟩
    · rw [← ht, val_pack h (mag_lt y), ← natAbs_val, f2, Int.natAbs_natCast]
      cases x.msb <;> simp
    · exfalso
      refine hc ⟨?_, hd⟩
      rw [hd]; unfold roundNat; rw [Nat.div_eq_of_lt hl]; simp
theorem rintTmpM_nan {w : Nat} (h : W w) (m : RMode) {x : BitVec w} (hn : isNaN x = true) : isNaN (rintTmpM m x) = true := by
  unfold rintTmpM
  rw [xor_sign]
  obtain ⟨a1, a2, a3⟩ := abs_val h x
  apply orSign_nan h
  have hna : isNaN (x &&& BitVec.intMax w) = true := by rw [nan_iff h] at hn ⊢; rw [a2]; exact hn
  have e : faddM m (x &&& BitVec.intMax w) (offsetBits w) = quiet (x &&& BitVec.intMax w) := by unfold faddM; rw [if_pos hna]
  have q1 := quiet_nan h hna
  rw [e]
  unfold fsubM
  rw [if_pos q1]
  exact quiet_nan h q1
theorem inDir_int (m : RMode) {v D z : Int} (hD : 0 < D) (hv : v = z * D) : IsInDir m v D z := by
  have e1 : (z + 1) * D = z * D + D := by grind
  have e2 : (z - 1) * D = z * D - D := by grind
  have e3 : (2 * z - 1) * D = 2 * (z * D) - D := by grind
  have e4 : (2 * z + 1) * D = 2 * (z * D) + D := by grind
  subst hv
  cases m
  · show IsRint _ _ _; unfold IsRint; rw [e3, e4]; omega
  · show IsFloor _ _ _; unfold IsFloor; rw [e1]; omega
  · show IsCeil _ _ _; unfold IsCeil; rw [e2]; omega
  · show IsTrunc _ _ _; unfold IsTrunc; rw [e1, e2]; omega
/-- numbers from `2^mb` on are integers -/
theorem big_int {w : Nat} (h : W w) {x : BitVec w} (hb : 2 ^ mb w * 2 ^ unitExp w ≤ (val x).natAbs) : ∃ z : Int, val x = z * (2 ^ unitExp w : Nat) := by
  have hE : unitExp w < expF x := by
    false_or_by_contra
    rename_i hc
    have := small_of_exp h (x := x) (by omega)
    omega
  have h0 := int_of_big hE
  have hd : ((2 ^ unitExp w : Nat) : Int) ∣ val x := by
    rw [← Int.dvd_natAbs]
    exact Int.natCast_dvd_natCast.2 (Nat.dvd_of_mod_eq_zero h0)
  obtain ⟨z, hz⟩ := hd
  exact ⟨z, by rw [hz, Int.mul_comm]⟩

/-! ### round from SSE4.1 on -/
/-- one lane -/
def roundAddM (m : RMode) {w : Nat} (x : BitVec w) : BitVec w := roundInt .zero (faddM m x ((x &&& BitVec.intMin w) ||| nearHalf w))
/-- `H`, the number below one half, and `g`, half the distance to the next pattern -/
theorem half_consts {w : Nat} (h : W w) : ∃ H g : Nat, magVal (mb w) ((bias w - 1) * 2 ^ mb w - 1) = H ∧ 0 < H ∧ 0 < g ∧ 2 * H + 2 * g = 2 ^ unitExp w ∧
    2 ^ unitExp w = 4 * g * 2 ^ mb w ∧ g = 2 ^ (bias w - 3) := by
  refine ⟨_, 2 ^ (bias w - 3), rfl, ?_, Nat.two_pow_pos _, ?_, ?_, rfl⟩
  · rw [magVal_pos]; rcases h with h | h <;> subst h <;> decide
  · rcases h with h | h <;> subst h <;> decide +kernel
  · rcases h with h | h <;> subst h <;> decide +kernel
theorem sum_half {w : Nat} (h : W w) (m : RMode) {x : BitVec w} (hfin : isFinite x = true) {H : Nat}
    (hH : magVal (mb w) ((bias w - 1) * 2 ^ mb w - 1) = H) (hH0 : 0 < H) :
    faddM m x ((x &&& BitVec.intMin w) ||| nearHalf w) = roundDir w m x.msb ((val x).natAbs + H) 1 := by
  have hinf : (bias w - 1) * 2 ^ mb w - 1 < infMag w := by rcases h with h | h <;> subst h <;> decide
  have hinl := infMag_lt h
  rw [or_sign h x (nearHalf w) (m := (bias w - 1) * 2 ^ mb w - 1) (by omega) (nearHalf_toNat h)]
  generalize ho : pack w x.msb ((bias w - 1) * 2 ^ mb w - 1) = o
  have hom : mag o = (bias w - 1) * 2 ^ mb w - 1 := by rw [← ho]; exact mag_pack h (by omega)
  have hos : o.msb = x.msb := by rw [← ho]; exact msb_pack h (by omega)
  have hof : isFinite o = true := (finite_iff h o).2 (by omega)
  have hov : val o = if x.msb then -(H : Int) else H := by
    unfold val neg; rw [hos, hom, hH]
  have hxv : val x = if x.msb then -((val x).natAbs : Int) else (val x).natAbs := by rw [natAbs_val]; rfl
  generalize (val x).natAbs = n at *
  have hsum : val x + val o = if x.msb then -((n + H : Nat) : Int) else (n + H : Nat) := by
    rw [hxv, hov]; cases x.msb <;> simp <;> omega
  rw [faddM_fin hfin hof, if_neg (by rw [hsum]; split <;> omega), hsum]
  congr 1
  · cases x.msb <;> simp <;> omega
  · split <;> omega
/-- directions that do not point away from zero: halves towards zero, otherwise right -/
theorem roundAddM_toward {w : Nat} (h : W w) {m : RMode} (hm : m ≠ .nearest) {x : BitVec w} (hfin : isFinite x = true) (ha : away m x.msb = false) :
    RoundsVal IsRoundToward x (roundAddM m x) ∧ (roundAddM m x).msb = x.msb := by
  obtain ⟨H, g, hH, hH0, hg, hHD, hDg, hgp⟩ := half_consts h
  have hb := mb_pos w
  have hinl := infMag_lt h
  have hxf := (finite_iff h x).1 hfin
  have hU := unitExp_eq h
  have hβ : 4 ≤ bias w := by rcases h with h | h <;> subst h <;> decide
  unfold roundAddM
  rw [sum_half h m hfin hH hH0]
  obtain ⟨p, h1, h2⟩ := exists_below (b := mb w) (n := (val x).natAbs + H) (d := 1) Nat.one_pos
  have hr : rdir m x.msb (mb w) ((val x).natAbs + H) 1 = p := by rw [rdir_char hm Nat.one_pos h1 h2, ha]; simp
  have hrd : roundDir w m x.msb ((val x).natAbs + H) 1 = pack w x.msb (min p (infMag w - 1)) := by
    unfold roundDir; rw [hr, if_neg (by rw [ha]; simp [hm])]
  rw [hrd]
  generalize hye : pack w x.msb (min p (infMag w - 1)) = y
  have y1 : y.msb = x.msb := by rw [← hye]; exact msb_pack h (by omega)
  have y2 : mag y = min p (infMag w - 1) := by rw [← hye]; exact mag_pack h (by omega)
  have yf : isFinite y = true := (finite_iff h y).2 (by omega)
  obtain ⟨s1, s2, s3⟩ := roundInt_spec h .zero yf
  refine ⟨⟨s1, _, ?_, s3⟩, by rw [s2, y1]⟩
  have hxv : val x = if x.msb then -((val x).natAbs : Int) else (val x).natAbs := by rw [natAbs_val]; rfl
  have htoI : toInt .zero y = if x.msb then -((magVal (mb w) (mag y) / 2 ^ unitExp w : Nat) : Int) else (magVal (mb w) (mag y) / 2 ^ unitExp w : Nat) := by
    unfold toInt roundNat neg; dsimp only; rw [natAbs_val, y1, Nat.add_zero]
  rw [htoI]
  refine isRoundToward_of (Nat.two_pow_pos _) rfl hxv ?_
  rw [Nat.mul_one] at h1 h2
  have hnm := natAbs_val x
  obtain ⟨hgap, hdvd⟩ := magVal_gap (mb w) (mag x)
  rw [← hnm] at hgap hdvd
  have hD : 0 < 2 ^ unitExp w := Nat.two_pow_pos _
  have hdm := Nat.div_add_mod (val x).natAbs (2 ^ unitExp w)
  have hml := Nat.mod_lt (val x).natAbs hD
  -- bounds of the sum
  have hlo : (val x).natAbs ≤ magVal (mb w) (mag y) := by
    rw [hnm, y2]
    apply magVal_le.2
    have : magVal (mb w) (mag x) < magVal (mb w) (p + 1) := by rw [← hnm]; omega
    have := magVal_lt.1 this
    omega
  have hhi : magVal (mb w) (mag y) ≤ (val x).natAbs + H := by
    have : magVal (mb w) (mag y) ≤ magVal (mb w) p := magVal_le.2 (by omega)
    omega
  generalize hn : (val x).natAbs = n at *
  by_cases hc : 2 ^ unitExp w < 2 * (n % 2 ^ unitExp w)
  · rw [if_pos hc]
    -- not an integer, so below 2^mb
    have hE : ¬ unitExp w < expF x := by
      intro hE
      have := int_of_big hE
      rw [hn] at this
      omega
    have hsm := small_of_exp h (x := x) (by omega)
    rw [hn] at hsm
    have hq : n / 2 ^ unitExp w < 2 ^ mb w := Nat.div_lt_of_lt_mul (by rw [Nat.mul_comm]; exact hsm)
    obtain ⟨P, hP⟩ := magVal_surj (b := mb w) (k := unitExp w) (f := n / 2 ^ unitExp w + 1) (by rw [Nat.pow_succ]; omega)
    have hPq : magVal (mb w) P = 2 ^ unitExp w * (n / 2 ^ unitExp w) + 2 ^ unitExp w := by rw [hP, Nat.succ_mul, Nat.mul_comm]
    -- the fraction is a multiple of 2g
    have hgm : 2 * g ∣ n := by
      refine Nat.dvd_trans ?_ hdvd
      rw [hgp, Nat.mul_comm, ← Nat.pow_succ]
      refine Nat.pow_dvd_pow 2 ?_
      have hge : (bias w - 1) * 2 ^ mb w ≤ mag x := by
        apply magVal_le.1
        rw [← hnm]
        have h5 : magVal (mb w) ((bias w - 1) * 2 ^ mb w) ≤ 2 ^ unitExp w / 2 := by rcases h with h | h <;> subst h <;> decide +kernel
        have h6 : n % 2 ^ unitExp w ≤ n := Nat.mod_le _ _
        omega
      have := (Nat.le_div_iff_mul_le (Nat.two_pow_pos (mb w))).2 hge
      omega
    have hgD : 2 * g ∣ 2 ^ unitExp w := ⟨2 * 2 ^ mb w, by rw [hDg]; grind⟩
    have hgr : 2 * g ∣ n % 2 ^ unitExp w := (Nat.dvd_mod_iff hgD).2 hgm
    have hgH : 2 * g ∣ 2 ^ unitExp w / 2 := ⟨2 ^ mb w, by rw [hDg]; rw [show 4 * g * 2 ^ mb w = 2 * g * 2 ^ mb w * 2 by grind, Nat.mul_div_cancel _ (by omega)]⟩
    have hr2 : 2 ^ unitExp w / 2 + 2 * g ≤ n % 2 ^ unitExp w := by
      obtain ⟨i, hi⟩ := hgr
      obtain ⟨j, hj⟩ := hgH
      have : j < i := by
        apply Nat.lt_of_mul_lt_mul_left (a := 2 * g)
        rw [← hi, ← hj]; omega
      have h7 : 2 * g * (j + 1) ≤ 2 * g * i := Nat.mul_le_mul_left _ this
      rw [Nat.mul_succ] at h7
      omega
    have hPle : P ≤ mag y := by
      rw [y2]
      have : magVal (mb w) P < magVal (mb w) (p + 1) := by rw [hPq]; omega
      have h8 := magVal_lt.1 this
      have h9 : magVal (mb w) P < magVal (mb w) (infMag w) := by
        refine Nat.lt_of_le_of_lt ?_ (bigInt h)
        rw [hP]
        exact Nat.mul_le_mul_right _ (by rw [Nat.pow_succ]; omega)
      have := magVal_lt.1 h9
      omega
    have h10 := magVal_le (b := mb w).2 hPle
    rw [hPq] at h10
    rw [Nat.div_eq_iff hD]
    have : (n / 2 ^ unitExp w + 1) * 2 ^ unitExp w = 2 ^ unitExp w * (n / 2 ^ unitExp w) + 2 ^ unitExp w := by rw [Nat.succ_mul, Nat.mul_comm]
    rw [this]
    omega
  · rw [if_neg hc, Nat.add_zero, Nat.div_eq_iff hD, Nat.mul_comm]
    omega
/-- directions that point away from zero: from `2^mb` on the next larger number -/
theorem roundAddM_big {w : Nat} (h : W w) {m : RMode} {x : BitVec w} (hfin : isFinite x = true) (ha : away m x.msb = true)
    (hx : 2 ^ mb w * 2 ^ unitExp w ≤ (val x).natAbs) : (roundAddM m x).msb = x.msb ∧ mag (roundAddM m x) = mag x + 1 := by
  have hm : m ≠ .nearest := by rintro rfl; revert ha; unfold away; simp
  obtain ⟨H, g, hH, hH0, hg, hHD, hDg, hgp⟩ := half_consts h
  have hb := mb_pos w
  have hinl := infMag_lt h
  have hxf := (finite_iff h x).1 hfin
  unfold roundAddM
  rw [sum_half h m hfin hH hH0]
  have hE : unitExp w < expF x := by
    false_or_by_contra
    rename_i hc
    have := small_of_exp h (x := x) (by omega)
    omega
  obtain ⟨hgap, hdvd⟩ := magVal_gap (mb w) (mag x)
  have hge : 2 ^ unitExp w ≤ 2 ^ (mag x / 2 ^ mb w - 1) := by
    apply Nat.pow_le_pow_right (by omega)
    have : expF x = mag x / 2 ^ mb w := rfl
    omega
  have hnm := natAbs_val x
  rw [← hnm] at hgap
  have hr : rdir m x.msb (mb w) ((val x).natAbs + H) 1 = mag x + 1 := by
    rw [rdir_char hm Nat.one_pos (p := mag x) (by rw [← hnm]; omega) (by rw [hgap]; omega), if_pos ⟨ha, by rw [← hnm]; omega⟩]
  have hrd : roundDir w m x.msb ((val x).natAbs + H) 1 = pack w x.msb (mag x + 1) := by
    unfold roundDir; rw [hr, if_pos (.inr ha), Nat.min_eq_left (by omega)]
  rw [hrd]
  generalize hye : pack w x.msb (mag x + 1) = y
  have y1 : y.msb = x.msb := by rw [← hye]; exact msb_pack h (by omega)
  have y2 : mag y = mag x + 1 := by rw [← hye]; exact mag_pack h (by omega)
  have : roundInt .zero y = y := by
    by_cases hi : mag y = infMag w
    · have hinf := (inf_iff h y).2 hi
      unfold roundInt; simp [hinf, inf_not_nan' h hinf]
    · have yf : isFinite y = true := (finite_iff h y).2 (by omega)
      obtain ⟨s1, s2, s3⟩ := roundInt_spec h .zero yf
      have hyv : (val y).natAbs = (val x).natAbs + 2 ^ (mag x / 2 ^ mb w - 1) := by rw [natAbs_val, y2, ← hgap]
      obtain ⟨z, hz⟩ := big_int h (x := y) (by omega)
      have hD : (0 : Int) < (2 ^ unitExp w : Nat) := by exact_mod_cast Nat.two_pow_pos _
      have hzt : toInt .zero y = z := isTrunc_unique hD (toInt_trunc y) (inDir_int .zero hD hz)
      have hpp : 0 < 2 ^ mb w * 2 ^ unitExp w := Nat.mul_pos (Nat.two_pow_pos _) (Nat.two_pow_pos _)
      refine val_inj h ?_ ?_
      · rw [s3, hzt, ← hz]; omega
      · rw [s3, hzt, ← hz]
  rw [this]
  exact ⟨y1, y2⟩
end Dpm.Fp
