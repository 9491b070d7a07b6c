import Verif.Spec.Ieee
import Verif.Proofs.FloatBits
/-! Correctness of the rounding function and exactness lemmas. -/
namespace Dpm.Fp

theorem magVal_kf {b k f : Nat} (h : k = 0 ∨ 2 ^ b ≤ f) (hf : f ≤ 2 ^ (b + 1)) : magVal b (k * 2 ^ b + f) = f * 2 ^ k := by
  have hp : 0 < 2 ^ b := Nat.two_pow_pos b
  have h2 : 2 ^ (b + 1) = 2 * 2 ^ b := by rw [Nat.pow_succ, Nat.mul_comm]
  have key : ∀ e r, r < 2 ^ b → magVal b ((e + 1) * 2 ^ b + r) = (2 ^ b + r) * 2 ^ e := by
    intro e r hr
    unfold magVal
    rw [Nat.mul_comm (e + 1), Nat.mul_add_div hp, Nat.mul_add_mod, Nat.div_eq_of_lt hr, Nat.mod_eq_of_lt hr, Nat.add_zero, if_neg (Nat.succ_ne_zero e), Nat.add_sub_cancel]
  have key0 : ∀ r, r < 2 ^ b → magVal b r = r := by
    intro r hr; unfold magVal; rw [if_pos (Nat.div_eq_of_lt hr), Nat.mod_eq_of_lt hr]
  by_cases h1 : f < 2 ^ b
  · have hk : k = 0 := by omega
    subst hk
    rw [Nat.zero_mul, Nat.zero_add, key0 f h1]; simp
  · by_cases h3 : f < 2 ^ (b + 1)
    · have e : k * 2 ^ b + f = (k + 1) * 2 ^ b + (f - 2 ^ b) := by rw [Nat.succ_mul]; omega
      rw [e, key k _ (by omega), show 2 ^ b + (f - 2 ^ b) = f by omega]
    · have hf' : f = 2 ^ (b + 1) := by omega
      have e : k * 2 ^ b + f = (k + 1 + 1) * 2 ^ b + 0 := by
        have t1 : (k + 1 + 1) * 2 ^ b = (k + 1) * 2 ^ b + 2 ^ b := Nat.succ_mul _ _
        have t2 : (k + 1) * 2 ^ b = k * 2 ^ b + 2 ^ b := Nat.succ_mul _ _
        omega
      rw [e, key (k + 1) 0 hp, hf', Nat.add_zero, h2, Nat.pow_succ, Nat.mul_comm 2 (2 ^ b), Nat.mul_assoc, Nat.mul_comm 2 (2 ^ k)]

theorem rne_range {b n d : Nat} : ((n / d).log2 - b = 0 ∨ 2 ^ b ≤ n / (d * 2 ^ ((n / d).log2 - b))) ∧
    n / (d * 2 ^ ((n / d).log2 - b)) < 2 ^ (b + 1) := by
  rw [← Nat.div_div_eq_div_mul]
  generalize n / d = q
  by_cases hq : q = 0
  · subst hq; simp; exact Nat.two_pow_pos _
  have h1 : 2 ^ q.log2 ≤ q := Nat.log2_self_le hq
  have h2 : q < 2 ^ (q.log2 + 1) := Nat.lt_log2_self
  by_cases hb : q.log2 ≤ b
  · rw [show q.log2 - b = 0 by omega]
    refine ⟨Or.inl rfl, ?_⟩
    simp
    exact Nat.lt_of_lt_of_le h2 (Nat.pow_le_pow_right (by omega) (by omega))
  · have e : q.log2 = (q.log2 - b) + b := by omega
    generalize q.log2 - b = k at *
    rw [e] at h1 h2
    refine ⟨Or.inr ?_, ?_⟩
    · rw [Nat.le_div_iff_mul_le (Nat.two_pow_pos _), ← Nat.pow_add, Nat.add_comm b k]; exact h1
    · rw [Nat.div_lt_iff_lt_mul (Nat.two_pow_pos _), ← Nat.pow_add]
      rw [show b + 1 + k = k + b + 1 by omega]; exact h2

/-- The rounding function in terms of the two neighbouring patterns `p`, `p + 1`. -/
theorem rne_char {b n d p : Nat} (hb : 0 < b) (hd : 0 < d) (h1 : magVal b p * d ≤ n) (h2 : n < magVal b (p + 1) * d) :
    rne b n d = if 2 * n < (magVal b p + magVal b (p + 1)) * d then p
      else if (magVal b p + magVal b (p + 1)) * d < 2 * n then p + 1 else if p % 2 = 0 then p else p + 1 := by
  obtain ⟨hr, hf⟩ := rne_range (b := b) (n := n) (d := d)
  unfold rne
  dsimp only
  generalize (n / d).log2 - b = k at *
  have hD : 0 < d * 2 ^ k := Nat.mul_pos hd (Nat.two_pow_pos k)
  have hdm := Nat.div_add_mod n (d * 2 ^ k)
  have hml := Nat.mod_lt n hD
  generalize n / (d * 2 ^ k) = f at *
  generalize n % (d * 2 ^ k) = r at *
  have m1 : magVal b (k * 2 ^ b + f) = f * 2 ^ k := magVal_kf hr (by omega)
  have m2 : magVal b (k * 2 ^ b + f + 1) = (f + 1) * 2 ^ k := by
    have := magVal_kf (b := b) (k := k) (f := f + 1) (by omega) (by omega)
    rw [← this, Nat.add_assoc]
  have e1 : f * 2 ^ k * d = d * 2 ^ k * f := by rw [Nat.mul_comm (f * 2 ^ k), Nat.mul_comm f, ← Nat.mul_assoc]
  have e2 : (f + 1) * 2 ^ k * d = d * 2 ^ k * f + d * 2 ^ k := by
    rw [Nat.mul_comm ((f + 1) * 2 ^ k), Nat.mul_comm (f + 1), ← Nat.mul_assoc, Nat.mul_add, Nat.mul_one]
  have hp : p = k * 2 ^ b + f := by
    have a1 : magVal b p < magVal b (k * 2 ^ b + f + 1) := by
      apply Nat.lt_of_mul_lt_mul_right (a := d)
      rw [m2, e2]; omega
    have a2 : magVal b (k * 2 ^ b + f) < magVal b (p + 1) := by
      apply Nat.lt_of_mul_lt_mul_right (a := d)
      rw [m1, e1]; omega
    have := magVal_lt.1 a1
    have := magVal_lt.1 a2
    omega
  have hpar : (k * 2 ^ b + f) % 2 = f % 2 := by
    obtain ⟨c, rfl⟩ : ∃ c, b = c + 1 := ⟨b - 1, by omega⟩
    rw [Nat.pow_succ, ← Nat.mul_assoc]; omega
  subst hp
  rw [m1, m2, Nat.add_mul, e1, e2]
  generalize hX : d * 2 ^ k * f = X at *
  generalize d * 2 ^ k = D at *
  subst hdm
  by_cases c1 : 2 * r < D
  · rw [if_neg (by omega), if_pos (by omega), Nat.add_zero]
  · by_cases c2 : D < 2 * r
    · rw [if_pos (Or.inl c2), if_neg (by omega), if_pos (by omega)]
    · have c3 : D = 2 * r := by omega
      rw [if_neg (by omega : ¬ 2 * (X + r) < _), if_neg (by omega : ¬ _ < 2 * (X + r))]
      rw [hpar]
      by_cases hfo : f % 2 = 1
      · rw [if_pos (Or.inr ⟨c3, hfo⟩), if_neg (by omega)]
      · rw [if_neg (by omega), if_pos (by omega), Nat.add_zero]

/-- every non-negative rational lies between two neighbouring patterns -/
theorem exists_below {b n d : Nat} (hd : 0 < d) : ∃ p, magVal b p * d ≤ n ∧ n < magVal b (p + 1) * d := by
  obtain ⟨hr, hf⟩ := rne_range (b := b) (n := n) (d := d)
  generalize (n / d).log2 - b = k at *
  have hD : 0 < d * 2 ^ k := Nat.mul_pos hd (Nat.two_pow_pos k)
  have hdm := Nat.div_add_mod n (d * 2 ^ k)
  have hml := Nat.mod_lt n hD
  generalize n / (d * 2 ^ k) = f at *
  generalize n % (d * 2 ^ k) = r at *
  refine ⟨k * 2 ^ b + f, ?_, ?_⟩
  · rw [magVal_kf hr (by omega)]
    have e1 : f * 2 ^ k * d = d * 2 ^ k * f := by rw [Nat.mul_comm (f * 2 ^ k), Nat.mul_comm f, ← Nat.mul_assoc]
    omega
  · rw [Nat.add_assoc, magVal_kf (f := f + 1) (by omega) (by omega)]
    have e2 : (f + 1) * 2 ^ k * d = d * 2 ^ k * f + d * 2 ^ k := by
      rw [Nat.mul_comm ((f + 1) * 2 ^ k), Nat.mul_comm (f + 1), ← Nat.mul_assoc, Nat.mul_add, Nat.mul_one]
    omega

theorem rne_exact {b m d : Nat} (hb : 0 < b) (hd : 0 < d) : rne b (magVal b m * d) d = m := by
  have h : magVal b m * d < magVal b (m + 1) * d := Nat.mul_lt_mul_of_pos_right (magVal_succ b m) hd
  rw [rne_char (p := m) hb hd (Nat.le_refl _) h, Nat.add_mul, if_pos (by omega)]

theorem magVal_le {b m n : Nat} : magVal b m ≤ magVal b n ↔ m ≤ n := by
  rw [← Nat.not_lt, ← Nat.not_lt, magVal_lt]

theorem rne_nearest {b n d : Nat} (hb : 0 < b) (hd : 0 < d) : IsNearestEven b n d (rne b n d) := by
  obtain ⟨p, h1, h2⟩ := exists_below (b := b) (n := n) hd
  rw [rne_char hb hd h1 h2]
  intro m'
  have hcmp : (m' ≤ p → magVal b m' * d ≤ magVal b p * d) ∧ (p + 1 ≤ m' → magVal b (p + 1) * d ≤ magVal b m' * d) :=
    ⟨fun h => Nat.mul_le_mul_right d (magVal_le.2 h), fun h => Nat.mul_le_mul_right d (magVal_le.2 h)⟩
  have hlt1 : m' < p → magVal b m' * d < magVal b p * d := fun h => Nat.mul_lt_mul_of_pos_right (magVal_lt.2 h) hd
  have hlt2 : p + 1 < m' → magVal b (p + 1) * d < magVal b m' * d := fun h => Nat.mul_lt_mul_of_pos_right (magVal_lt.2 h) hd
  have heq : m' = p → magVal b m' * d = magVal b p * d := fun h => by rw [h]
  have heq1 : m' = p + 1 → magVal b m' * d = magVal b (p + 1) * d := fun h => by rw [h]
  rw [Nat.add_mul]
  generalize hA : magVal b p * d = A at *
  generalize hB : magVal b (p + 1) * d = B at *
  generalize hC : magVal b m' * d = C at *
  unfold dist
  split
  · rw [hA]; omega
  · split
    · rw [hB]; omega
    · split
      · rw [hA]; omega
      · rw [hB]; omega

theorem rne_unique {b n d m : Nat} (hb : 0 < b) (hd : 0 < d) (h : IsNearestEven b n d m) : m = rne b n d := by
  have h' := rne_nearest (n := n) hb hd
  generalize rne b n d = r at *
  by_cases hne : m = r
  · exact hne
  exfalso
  have a1 := h r
  have a2 := h' m
  have e : dist (magVal b m * d) n = dist (magVal b r * d) n := by omega
  have p1 := a1.2 (fun h => hne h.symm) e
  have p2 := a2.2 hne e.symm
  -- both even, hence a pattern strictly between them, which is nearer
  have key : ∀ x y, x < y → x % 2 = 0 → y % 2 = 0 → dist (magVal b x * d) n = dist (magVal b y * d) n →
      dist (magVal b (x + 1) * d) n < dist (magVal b x * d) n := by
    intro x y hxy hx hy he
    have l1 : magVal b x * d < magVal b (x + 1) * d := Nat.mul_lt_mul_of_pos_right (magVal_lt.2 (by omega)) hd
    have l2 : magVal b (x + 1) * d < magVal b y * d := Nat.mul_lt_mul_of_pos_right (magVal_lt.2 (by omega)) hd
    unfold dist at *
    omega
  rcases Nat.lt_or_gt_of_ne hne with hlt | hlt
  · have := key m r hlt p1 p2 e
    have := (h (m + 1)).1
    omega
  · have := key r m hlt p2 p1 e.symm
    have := (h' (r + 1)).1
    omega

theorem rne_scale {b n d c : Nat} (hb : 0 < b) (hd : 0 < d) (hc : 0 < c) : rne b (n * c) (d * c) = rne b n d := by
  symm
  apply rne_unique hb (Nat.mul_pos hd hc)
  have h := rne_nearest (n := n) hb hd
  generalize rne b n d = r at *
  have sc : ∀ m, dist (magVal b m * (d * c)) (n * c) = dist (magVal b m * d) n * c := by
    intro m; unfold dist; rw [← Nat.mul_assoc, Nat.add_mul, Nat.sub_mul, Nat.sub_mul]
  intro m'
  rw [sc, sc]
  refine ⟨Nat.mul_le_mul_right c (h m').1, fun hne he => (h m').2 hne (Nat.eq_of_mul_eq_mul_right hc he)⟩

theorem rne_mono {b n n' d : Nat} (hb : 0 < b) (hd : 0 < d) (h : n ≤ n') : rne b n d ≤ rne b n' d := by
  obtain ⟨p, h1, h2⟩ := exists_below (b := b) (n := n) hd
  obtain ⟨p', h1', h2'⟩ := exists_below (b := b) (n := n') hd
  have hpp : p ≤ p' := by
    have : magVal b p < magVal b (p' + 1) := Nat.lt_of_mul_lt_mul_right (a := d) (by omega)
    have := magVal_lt.1 this
    omega
  rw [rne_char hb hd h1 h2, rne_char hb hd h1' h2']
  by_cases he : p = p'
  · subst he
    generalize (magVal b p + magVal b (p + 1)) * d = M
    repeat' split
    all_goals omega
  · generalize (magVal b p + magVal b (p + 1)) * d = M
    generalize (magVal b p' + magVal b (p' + 1)) * d = M'
    repeat' split
    all_goals omega

theorem mb_pos (w : Nat) : 0 < mb w := by unfold mb; split <;> omega
theorem infMag_lt {w : Nat} (h : W w) : infMag w < 2 ^ (w - 1) := by rcases h with h | h <;> subst h <;> decide

theorem msb_pack {w : Nat} (h : W w) {s : Bool} {m : Nat} (hm : m < 2 ^ (w - 1)) : (pack w s m).msb = s := by
  have h0 : 0 < w := by rcases h with h | h <;> omega
  have h3 : 2 ^ w = 2 * 2 ^ (w - 1) := by rw [← Nat.pow_succ']; congr 1; omega
  unfold pack
  rw [BitVec.msb_eq_decide, BitVec.toNat_ofNat]
  cases s
  · rw [Nat.mod_eq_of_lt (by simp; omega)]; simp; omega
  · rw [Nat.mod_eq_of_lt (by simp; omega)]; simp
theorem mag_pack {w : Nat} (h : W w) {s : Bool} {m : Nat} (hm : m < 2 ^ (w - 1)) : mag (pack w s m) = m := by
  have h0 : 0 < w := by rcases h with h | h <;> omega
  have h3 : 2 ^ w = 2 * 2 ^ (w - 1) := by rw [← Nat.pow_succ']; congr 1; omega
  unfold pack mag
  rw [BitVec.toNat_ofNat]
  cases s
  · rw [Nat.mod_eq_of_lt (a := _ + m) (by simp; omega)]; simp; exact Nat.mod_eq_of_lt hm
  · rw [Nat.mod_eq_of_lt (a := _ + m) (by simp; omega)]; simp; exact Nat.mod_eq_of_lt hm
theorem pack_eta {w : Nat} (h : W w) (x : BitVec w) : pack w x.msb (mag x) = x :=
  ext_mag (by rcases h with h | h <;> omega) (msb_pack h (mag_lt x)) (mag_pack h (mag_lt x))

/-- The rounding function is correct rounding. -/
theorem round_isRounded {w : Nat} (h : W w) (s : Bool) {n d : Nat} (hd : 0 < d) : IsRounded s n d (round w s n d) := by
  have hi := infMag_lt h
  have hlt : min (rne (mb w) n d) (infMag w) < 2 ^ (w - 1) := by omega
  refine ⟨msb_pack h hlt, rne (mb w) n d, rne_nearest (mb_pos w) hd, ?_⟩
  unfold round
  rw [mag_pack h hlt]
  omega
/-- Correct rounding determines the result. -/
theorem isRounded_unique {w : Nat} (h : W w) {s : Bool} {n d : Nat} (hd : 0 < d) {r : BitVec w} (hr : IsRounded s n d r) :
    r = round w s n d := by
  obtain ⟨h1, m, h2, h3⟩ := hr
  have hi := infMag_lt h
  have hlt : min (rne (mb w) n d) (infMag w) < 2 ^ (w - 1) := by omega
  have := rne_unique (mb_pos w) hd h2
  subst this
  apply ext_mag (by rcases h with h | h <;> omega)
  · rw [h1]; exact (msb_pack h hlt).symm
  · unfold round; rw [mag_pack h hlt]; omega
/-- Representable values are not changed by rounding. -/
theorem round_exact {w : Nat} (h : W w) (x : BitVec w) {d : Nat} (hd : 0 < d) (hx : mag x ≤ infMag w) :
    round w x.msb (magVal (mb w) (mag x) * d) d = x := by
  unfold round
  rw [rne_exact (mb_pos w) hd, Nat.min_eq_left hx, pack_eta h]

theorem natAbs_val {w : Nat} (x : BitVec w) : (val x).natAbs = magVal (mb w) (mag x) := by
  unfold val; split <;> omega

/-! ### classes by magnitude -/
theorem infMag_eq {w : Nat} : infMag w = emax w * 2 ^ mb w := rfl
theorem finite_iff {w : Nat} (h : W w) (x : BitVec w) : isFinite x = true ↔ mag x < infMag w := by
  have h1 := expF_le h x
  have h2 := X86.mag_ge_iff x (emax w)
  unfold isFinite infMag
  simp only [decide_eq_true_eq]
  omega
theorem nan_iff {w : Nat} (h : W w) (x : BitVec w) : isNaN x = true ↔ infMag w < mag x := by
  rw [← X86.fNaN_eq h]; unfold X86.fNaN; rw [X86.fMag_eq, X86.fInf_eq h]; simp [infMag]
theorem inf_iff {w : Nat} (h : W w) (x : BitVec w) : isInf x = true ↔ mag x = infMag w := by
  have h1 := finite_iff h x
  have h2 := nan_iff h x
  have h3 : isInf x = (!isFinite x && !isNaN x) := by
    unfold isFinite isNaN isInf
    by_cases h3 : expF x = emax w <;> by_cases h4 : manF x = 0 <;> simp [h3, h4]
  rw [h3, Bool.and_eq_true, Bool.not_eq_true', Bool.not_eq_true', ← Bool.not_eq_true, ← Bool.not_eq_true, h1, h2]
  omega
theorem zero_iff {w : Nat} (x : BitVec w) : isZero x = true ↔ mag x = 0 := by
  have h1 := mag_fields x
  have h2 : 0 < 2 ^ mb w := Nat.two_pow_pos _
  unfold isZero
  simp only [Bool.and_eq_true, decide_eq_true_eq]
  constructor
  · intro ⟨a, b⟩; rw [h1, a, b]; simp
  · intro hz
    unfold expF manF; rw [hz]; simp
theorem finite_cls {w : Nat} {x : BitVec w} (hx : isFinite x = true) : isNaN x = false ∧ isInf x = false := by
  rw [X86.finite_eq] at hx; revert hx; cases isNaN x <;> cases isInf x <;> simp
theorem val_zero_iff {w : Nat} (x : BitVec w) : val x = 0 ↔ mag x = 0 := by
  have := magVal_pos (b := mb w) (m := mag x)
  unfold val; split <;> omega
theorem val_neg_iff {w : Nat} {x : BitVec w} (h : val x ≠ 0) : val x < 0 ↔ x.msb = true := by
  unfold val neg at *
  cases x.msb <;> simp at h ⊢ <;> omega
theorem val_pack {w : Nat} (h : W w) {s : Bool} {m : Nat} (hm : m < 2 ^ (w - 1)) :
    val (pack w s m) = if s then -(magVal (mb w) m : Int) else (magVal (mb w) m : Int) := by
  unfold val neg; rw [msb_pack h hm, mag_pack h hm]
theorem val_inj {w : Nat} (h : W w) {x y : BitVec w} (h0 : val x ≠ 0) (he : val x = val y) : x = y := by
  have h1 := val_neg_iff h0
  have h2 := val_neg_iff (x := y) (by omega)
  apply ext_mag h.pos
  · cases hx : x.msb <;> cases hy : y.msb <;> simp_all
  · have : (val x).natAbs = (val y).natAbs := by rw [he]
    rw [natAbs_val, natAbs_val] at this
    exact magVal_inj.1 this

/-! ### arithmetic on finite operands -/
theorem fadd_fin {w : Nat} {x y : BitVec w} (hx : isFinite x = true) (hy : isFinite y = true) :
    fadd x y = if val x + val y = 0 then pack w (neg x && neg y) 0 else round w (decide (val x + val y < 0)) (val x + val y).natAbs 1 := by
  have a := finite_cls hx; have b := finite_cls hy
  unfold fadd; simp [a.1, a.2, b.1, b.2]
theorem flip_sm {w : Nat} (h : W w) (y : BitVec w) : (y ^^^ BitVec.intMin w).msb = !y.msb ∧ mag (y ^^^ BitVec.intMin w) = mag y := by
  have h0 := h.pos
  refine ⟨by rw [BitVec.msb_xor, (X86.intMin_sm h0).1]; simp, ?_⟩
  have : (y ^^^ BitVec.intMin w) &&& BitVec.intMax w = y &&& BitVec.intMax w := by
    apply BitVec.eq_of_getLsbD_eq
    intro i hi
    simp only [BitVec.getLsbD_xor, BitVec.getLsbD_and, BitVec.getLsbD_intMin, BitVec.getLsbD_intMax]
    by_cases hi2 : i + 1 = w
    · simp [show ¬ i + 1 < w by omega]
    · simp [hi2]
  rw [← X86.and_intMax_toNat h0, this, X86.and_intMax_toNat h0]
theorem val_flip {w : Nat} (h : W w) (y : BitVec w) : val (y ^^^ BitVec.intMin w) = - val y := by
  unfold val neg; rw [(flip_sm h y).1, (flip_sm h y).2]; cases y.msb <;> simp
theorem fsub_fin {w : Nat} (h : W w) {x y : BitVec w} (hx : isFinite x = true) (hy : isFinite y = true) :
    fsub x y = if val x - val y = 0 then pack w (neg x && !neg y) 0 else round w (decide (val x - val y < 0)) (val x - val y).natAbs 1 := by
  have a := finite_cls hx; have b := finite_cls hy
  have hf : isFinite (y ^^^ BitVec.intMin w) = true := by rw [finite_iff h, (flip_sm h y).2, ← finite_iff h]; exact hy
  unfold fsub
  rw [a.1, b.1, if_neg (by simp), if_neg (by simp), fadd_fin hx hf, val_flip h]
  unfold neg
  rw [(flip_sm h y).1]
  rfl
theorem fmul_fin {w : Nat} {x y : BitVec w} (hx : isFinite x = true) (hy : isFinite y = true) :
    fmul x y = round w (neg x != neg y) ((val x).natAbs * (val y).natAbs) (2 ^ unitExp w) := by
  have a := finite_cls hx; have b := finite_cls hy
  unfold fmul; simp [a.1, a.2, b.1, b.2]
/-- an exactly representable result is not changed by rounding -/
theorem round_val {w : Nat} (h : W w) {z : BitVec w} (hz : mag z ≤ infMag w) {s : Bool} {n d : Nat} (hd : 0 < d)
    (hs : s = z.msb) (hn : n = (val z).natAbs * d) : round w s n d = z := by
  subst hs; subst hn
  rw [natAbs_val]; exact round_exact h z hd hz
theorem fadd_exact {w : Nat} (h : W w) {x y z : BitVec w} (hx : isFinite x = true) (hy : isFinite y = true)
    (hz : mag z ≤ infMag w) (h0 : val z ≠ 0) (he : val x + val y = val z) : fadd x y = z := by
  rw [fadd_fin hx hy, he, if_neg h0]
  apply round_val h hz Nat.one_pos
  · have := val_neg_iff h0
    cases hm : z.msb <;> simp [hm] at this ⊢ <;> omega
  · omega
theorem fsub_exact {w : Nat} (h : W w) {x y z : BitVec w} (hx : isFinite x = true) (hy : isFinite y = true)
    (hz : mag z ≤ infMag w) (h0 : val z ≠ 0) (he : val x - val y = val z) : fsub x y = z := by
  rw [fsub_fin h hx hy, he, if_neg h0]
  apply round_val h hz Nat.one_pos
  · have := val_neg_iff h0
    cases hm : z.msb <;> simp [hm] at this ⊢ <;> omega
  · omega
theorem fmul_exact {w : Nat} (h : W w) {x y z : BitVec w} (hx : isFinite x = true) (hy : isFinite y = true)
    (hz : mag z ≤ infMag w) (hs : z.msb = (x.msb != y.msb)) (he : (val x).natAbs * (val y).natAbs = (val z).natAbs * 2 ^ unitExp w) :
    fmul x y = z := by
  rw [fmul_fin hx hy]
  exact round_val h hz (Nat.two_pow_pos _) hs.symm he

/-! ### representable integers -/
/-- `k` is a magnitude pattern for every `n = f * 2^k` with `f` of at most `mb + 1` bits -/
theorem magVal_surj {b k f : Nat} (hf : f ≤ 2 ^ (b + 1)) : ∃ m, magVal b m = f * 2 ^ k := by
  induction k generalizing f with
  | zero => exact ⟨f, by have := magVal_kf (b := b) (k := 0) (Or.inl rfl) hf; simpa using this⟩
  | succ k ih =>
    by_cases h : 2 ^ b ≤ f
    · exact ⟨_, magVal_kf (Or.inr h) hf⟩
    · obtain ⟨m, hm⟩ := ih (f := f * 2) (by rw [Nat.pow_succ]; omega)
      exact ⟨m, by rw [hm, Nat.pow_succ, Nat.mul_assoc, Nat.mul_comm 2]⟩
end Dpm.Fp
