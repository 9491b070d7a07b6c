import Verif.Model.RoundInt
import Verif.Proofs.RoundTie
import Verif.Proofs.Cvt
import Verif.Proofs.ScalbnSpec
/-
Loops, lanes and one-lane functions of the conversions to integer vectors (Model/RoundInt.lean).
-/
namespace Dpm.X86
open Dpm Dpm.Reg Dpm.Fp Dpm.Generic Dpm.GenericMath Dpm.Callable

/-! ### Loops -/
theorem put1_loop {α : Type} (m : Nat) (f : Nat → α) (z : Mem α) : ∀ n, n ≤ m →
    forRangeM n (fun i d => putVec m d i (f i)) z = some (fun j => if j < n then f j else z j) := by
  intro n
  induction n with
  | zero => intro _; rfl
  | succ n ih =>
    intro h
    show (forRangeM n _ z).bind _ = _
    rw [ih (by omega)]
    show putVec m _ n (f n) = _
    unfold putVec
    rw [if_pos (by omega)]
    congr 1
    funext j
    unfold Mem.set
    by_cases hj : j = n
    · subst hj; simp
    · rw [if_neg hj]
      dsimp only
      by_cases h2 : j < n
      · rw [if_pos h2, if_pos (by omega)]
      · rw [if_neg h2, if_neg (by omega)]
theorem forRangeM_none {σ : Type} (body : Nat → σ → Option σ) (z : σ) : ∀ n i, i < n → (∀ d, body i d = none) → forRangeM n body z = none := by
  intro n
  induction n with
  | zero => intro i h; omega
  | succ n ih =>
    intro i hi h
    show (forRangeM n body z).bind (body n) = none
    by_cases e : i = n
    · subst e
      cases forRangeM i body z with
      | none => rfl
      | some d => exact h d
    · rw [ih i (by omega) h]; rfl
theorem put2_loop {α : Type} (m : Nat) (f0 f1 : Nat → α) (z : Mem α) : ∀ n, 2 * n ≤ m →
    forRangeM n (fun i d => (putVec m d (2 * i) (f0 i)).bind fun d => putVec m d (2 * i + 1) (f1 i)) z
      = some (fun j => if j < 2 * n then (if j % 2 = 0 then f0 (j / 2) else f1 (j / 2)) else z j) := by
  intro n
  induction n with
  | zero => intro _; rfl
  | succ n ih =>
    intro h
    show (forRangeM n _ z).bind _ = _
    rw [ih (by omega)]
    show (putVec m _ (2 * n) (f0 n)).bind _ = _
    unfold putVec
    rw [if_pos (by omega)]
    show (if 2 * n + 1 < m then _ else _) = _
    rw [if_pos (by omega)]
    congr 1
    funext j
    unfold Mem.set
    by_cases hj : j = 2 * n + 1
    · subst hj
      rw [if_pos rfl, if_pos (by omega), if_neg (by omega), show (2 * n + 1) / 2 = n by omega]
    · rw [if_neg hj]
      by_cases h2 : j = 2 * n
      · subst h2
        rw [if_pos rfl, if_pos (by omega), if_pos (by omega), show 2 * n / 2 = n by omega]
      · rw [if_neg h2]
        dsimp only
        by_cases h3 : j < 2 * n
        · rw [if_pos h3, if_pos (show j < 2 * (n + 1) by omega)]
        · rw [if_neg h3, if_neg (show ¬ j < 2 * (n + 1) by omega)]
theorem put2_none {α : Type} (m j : Nat) (d : Mem α) (a b : α) (h : m ≤ j + 1) :
    ((putVec m d j a).bind fun d => putVec m d (j + 1) b) = none := by
  unfold putVec
  split
  · show (if j + 1 < m then _ else none) = none
    rw [if_neg (by omega)]
  · rfl

theorem strided_put1 {c ci : Cfg} (hc : c.Ok) (he : ci.e = c.e) (hN : ci.N = c.N) (g : Vec c.v → Vec ci.v) (x : c.Data) :
    strided c ci (some fun x d j => putVec ci.dataSize d j (g x)) x = .ok (fun j => if j < c.dataSize then g (x j) else zeroData ci j) := by
  have hp : 0 < c.e := extent_pos hc.ety c.v
  have hd : ci.dataSize = c.dataSize := by rw [dataSize_eq, dataSize_eq, he, hN]
  have h : (fun i (d : ci.Data) => putVec ci.dataSize d (i * c.e / ci.e) (g (x (i * c.e / c.e)))) = fun i d => putVec ci.dataSize d i (g (x i)) := by
    funext i d; rw [he, Nat.mul_div_cancel _ hp]
  show Out.ofUb (forRangeM c.dataSize (fun i (d : ci.Data) => putVec ci.dataSize d (i * c.e / ci.e) (g (x (i * c.e / c.e)))) (zeroData ci)) = _
  rw [h, put1_loop ci.dataSize (fun i => g (x i)) (zeroData ci) c.dataSize (by omega)]
  rfl
theorem vectorizeI_put1 {c ci : Cfg} (hd : ci.dataSize = c.dataSize) (g : Vec c.v → Vec ci.v) (x : c.Data) :
    vectorizeI c ci (some fun x d j => putVec ci.dataSize d j (g x)) x = .ok (fun j => if j < ci.dataSize then g (x j) else zeroData ci j) := by
  show Out.ofUb (forRangeM ci.dataSize (fun i (d : ci.Data) => if i < c.dataSize then putVec ci.dataSize d i (g (x i)) else none) (zeroData ci)) = _
  have key : ∀ n, n ≤ ci.dataSize → forRangeM n (fun i (d : ci.Data) => if i < c.dataSize then putVec ci.dataSize d i (g (x i)) else none) (zeroData ci)
      = forRangeM n (fun i (d : ci.Data) => putVec ci.dataSize d i (g (x i))) (zeroData ci) := by
    intro n
    induction n with
    | zero => intro _; rfl
    | succ n ih =>
      intro h
      show (forRangeM n _ _).bind _ = (forRangeM n _ _).bind _
      rw [ih (by omega)]
      congr 1
      funext d
      exact if_pos (by omega)
  rw [key _ (Nat.le_refl _), put1_loop ci.dataSize (fun i => g (x i)) (zeroData ci) _ (Nat.le_refl _)]
  rfl
/-- the result has two native vectors per native vector of the argument -/
theorem strided_put2 {c ci : Cfg} (hc : c.Ok) (he : c.e = 2 * ci.e) (hp : 0 < ci.e) (g0 g1 : Vec c.v → Vec c.v) (x : c.Data)
    (hd : 2 * c.dataSize ≤ ci.dataSize) :
    strided c ci (some fun x => put2 c ci (g0 x) (g1 x)) x = .ok (fun j => if j < 2 * c.dataSize then
      (if j % 2 = 0 then BitVec.setWidth ci.v.bits (g0 (x (j / 2))) else BitVec.setWidth ci.v.bits (g1 (x (j / 2)))) else zeroData ci j) := by
  have hp2 : 0 < c.e := extent_pos hc.ety c.v
  have h : (fun i (d : ci.Data) => put2 c ci (g0 (x (i * c.e / c.e))) (g1 (x (i * c.e / c.e))) d (i * c.e / ci.e))
      = fun i d => (putVec ci.dataSize d (2 * i) (BitVec.setWidth ci.v.bits (g0 (x i)))).bind fun d => putVec ci.dataSize d (2 * i + 1) (BitVec.setWidth ci.v.bits (g1 (x i))) := by
    funext i d
    have e : i * c.e / ci.e = 2 * i := by
      rw [he, ← Nat.mul_assoc, Nat.mul_div_cancel _ hp]; omega
    rw [Nat.mul_div_cancel _ hp2, e]; rfl
  show Out.ofUb (forRangeM c.dataSize (fun i (d : ci.Data) => put2 c ci (g0 (x (i * c.e / c.e))) (g1 (x (i * c.e / c.e))) d (i * c.e / ci.e)) (zeroData ci)) = _
  rw [h, put2_loop ci.dataSize (fun i => BitVec.setWidth ci.v.bits (g0 (x i))) (fun i => BitVec.setWidth ci.v.bits (g1 (x i))) (zeroData ci) c.dataSize hd]
  rfl
theorem strided_put2_ub {c ci : Cfg} (hc : c.Ok) (he : c.e = 2 * ci.e) (hp : 0 < ci.e) (g0 g1 : Vec c.v → Vec c.v) (x : c.Data)
    (hd : ci.dataSize < 2 * c.dataSize) : strided c ci (some fun x => put2 c ci (g0 x) (g1 x)) x = .ub := by
  have hp2 : 0 < c.e := extent_pos hc.ety c.v
  show Out.ofUb (forRangeM c.dataSize (fun i (d : ci.Data) => put2 c ci (g0 (x (i * c.e / c.e))) (g1 (x (i * c.e / c.e))) d (i * c.e / ci.e)) (zeroData ci)) = _
  rw [forRangeM_none _ _ c.dataSize (c.dataSize - 1) (by omega)]
  · rfl
  · intro d
    have e : (c.dataSize - 1) * c.e / ci.e = 2 * (c.dataSize - 1) := by
      rw [he, ← Nat.mul_assoc, Nat.mul_div_cancel _ hp]; omega
    rw [e]
    exact put2_none _ _ _ _ _ (by omega)
/-- `vectorize` with two stores per call always leaves the storage of the result: the last call writes behind it -/
theorem vectorizeI_put2_ub {c ci : Cfg} (hn : 0 < ci.dataSize) (g0 g1 : Vec c.v → Vec c.v) (x : c.Data) :
    vectorizeI c ci (some fun x => put2 c ci (g0 x) (g1 x)) x = .ub := by
  show Out.ofUb (forRangeM ci.dataSize (fun i (d : ci.Data) => if i < c.dataSize then put2 c ci (g0 (x i)) (g1 (x i)) d i else none) (zeroData ci)) = _
  rw [forRangeM_none _ _ ci.dataSize (ci.dataSize - 1) (by omega)]
  · rfl
  · intro d
    split
    · exact put2_none _ _ _ _ _ (by omega)
    · rfl
/-- 16-byte stores into vectors of the result, which starts as zero -/
theorem vectorizeI_put32 {c ci : Cfg} (hd : ci.dataSize ≤ c.dataSize) (g : Vec c.v → BitVec 128) (x : c.Data) :
    vectorizeI c ci (some fun x => putI32 ci (g x)) x = .ok (fun j => if j < ci.dataSize then BitVec.setWidth ci.v.bits (g (x j)) else zeroData ci j) := by
  show Out.ofUb (forRangeM ci.dataSize (fun i (d : ci.Data) => if i < c.dataSize then putI32 ci (g (x i)) d i else none) (zeroData ci)) = _
  have hz : ∀ y : BitVec 128, (if ci.v = .v256 then BitVec.setWidth ci.v.bits (setHL (hi (BitVec.setWidth 256 (0#ci.v.bits))) y)
    else BitVec.setWidth ci.v.bits y) = BitVec.setWidth ci.v.bits y := by
    intro y
    split
    · apply BitVec.eq_of_getLsbD_eq
      intro k hk
      simp only [BitVec.getLsbD_setWidth, hk, decide_true, Bool.true_and, setHL, BitVec.getLsbD_append, hi]
      split
      · rfl
      · next h => rw [BitVec.getLsbD_of_ge y k (by omega)]; simp
    · rfl
  have key : ∀ n, n ≤ ci.dataSize → forRangeM n (fun i (d : ci.Data) => if i < c.dataSize then putI32 ci (g (x i)) d i else none) (zeroData ci)
      = some (fun j => if j < n then BitVec.setWidth ci.v.bits (g (x j)) else zeroData ci j) := by
    intro n
    induction n with
    | zero => intro _; rfl
    | succ n ih =>
      intro h
      show (forRangeM n _ _).bind _ = _
      rw [ih (by omega)]
      show (if n < c.dataSize then putI32 ci (g (x n)) _ n else none) = _
      rw [if_pos (by omega)]
      unfold putI32 putVec
      rw [if_pos (by omega)]
      dsimp only
      rw [if_neg (Nat.lt_irrefl n)]
      have := hz (g (x n))
      unfold zeroData
      rw [this]
      congr 1
      funext j
      unfold Mem.set
      by_cases hj : j = n
      · subst hj; simp
      · rw [if_neg hj]
        dsimp only
        by_cases h2 : j < n
        · rw [if_pos h2, if_pos (by omega)]
        · rw [if_neg h2, if_neg (by omega)]
  rw [key _ (Nat.le_refl _)]
  rfl

/-! ### Lanes -/
theorem unpacklo_sext (w : BitVec 128) {l : Nat} (hl : l < 2) :
    lane 64 (unpackloEpi32 w (sraiL 32 w 31)) l = (lane 32 w l).signExtend 64 := by
  have h := widenExp_lane (q := 1) rfl w 0 (l := l) (by omega)
  rw [show 4 * (l / 2) + 2 * (0 % 2) + l % 2 = l by omega] at h
  rw [← h]; rfl
theorem unpackhi_sext' (w : BitVec 128) {l : Nat} (hl : l < 2) :
    lane 64 (unpackhiEpi32 w (sraiL 32 w 31)) l = (lane 32 w (2 + l)).signExtend 64 := by
  have h := widenExp_lane (q := 1) rfl w 1 (l := l) (by omega)
  rw [show 4 * (l / 2) + 2 * (1 % 2) + l % 2 = 2 + l by omega] at h
  rw [← h]; rfl
theorem unpack256 (t : BitVec 256) {l : Nat} (hl : l < 4) :
    lane 64 (unpackloEpi32 t (sraiL 32 t 31)) l = (lane 32 t (4 * (l / 2) + l % 2)).signExtend 64 ∧
    lane 64 (unpackhiEpi32 t (sraiL 32 t 31)) l = (lane 32 t (4 * (l / 2) + 2 + l % 2)).signExtend 64 := by
  have h0 := widenExp_lane (q := 2) rfl t 0 (l := l) (by omega)
  have h1 := widenExp_lane (q := 2) rfl t 1 (l := l) (by omega)
  exact ⟨h0, h1⟩
theorem widenLo_lane (v : VSz) (t : Vec v) {k : Nat} (hk : k < v.bits / 64) :
    lane 64 (widenLo v t (sraiL 32 t 31)) k = (lane 32 t k).signExtend 64 := by
  cases v with
  | v128 => exact unpacklo_sext t hk
  | v256 =>
    have hk4 : k < 4 := hk
    show lane 64 (setHL (lo (unpackhiEpi32 (n := 256) t (sraiL 32 t 31))) (lo (unpackloEpi32 (n := 256) t (sraiL 32 t 31)))) k = _
    by_cases h : k < 2
    · rw [lane_setHL_lo _ _ (by omega), lane_lo _ (by omega), (unpack256 t hk4).1]
      congr 2; omega
    · rw [lane_setHL_hi (j := k - 2) _ _ (by omega), lane_lo _ (by omega), (unpack256 t (l := k - 2) (by omega)).2]
      congr 2; omega
theorem widenHi_lane (v : VSz) (t : Vec v) {k : Nat} (hk : k < v.bits / 64) :
    lane 64 (widenHi v t (sraiL 32 t 31)) k = (lane 32 t (v.bits / 64 + k)).signExtend 64 := by
  cases v with
  | v128 => exact unpackhi_sext' t hk
  | v256 =>
    have hk4 : k < 4 := hk
    show lane 64 (setHL (hi (unpackhiEpi32 (n := 256) t (sraiL 32 t 31))) (hi (unpackloEpi32 (n := 256) t (sraiL 32 t 31)))) k = (lane 32 t (4 + k)).signExtend 64
    by_cases h : k < 2
    · rw [lane_setHL_lo _ _ (by omega), lane_hi (i := k + 2) _ (by omega) (by omega), (unpack256 t (l := k + 2) (by omega)).1]
      congr 2; omega
    · rw [lane_setHL_hi (j := k - 2) _ _ (by omega), lane_hi (i := k) _ (by omega) (by omega), (unpack256 t hk4).2]
      congr 2; omega
theorem cvtpd_lane (m : RMode) (v : VSz) (x : Vec v) {k : Nat} (hk : k < 4) :
    lane 32 (cvtpdEpi32 m v x) k = if k < v.bits / 64 then cvtInt 32 m (lane 64 x k) else 0#32 := lane_ofLanes _ (by omega)
theorem lane_setWidth_lt {w n m : Nat} (x : BitVec n) {k : Nat} (hk : (k + 1) * w ≤ m) : lane w (BitVec.setWidth m x) k = lane w x k := by
  apply BitVec.eq_of_getLsbD_eq
  intro j hj
  have : (k + 1) * w = k * w + w := Nat.succ_mul k w
  simp only [getLsbD_lane, hj, decide_true, Bool.true_and, BitVec.getLsbD_setWidth]
  rw [decide_eq_true (by omega : k * w + j < m)]; simp
theorem lane_setWidth_ge {w n m : Nat} (x : BitVec n) {k : Nat} (hk : n ≤ k * w) : lane w (BitVec.setWidth m x) k = 0#w := by
  apply BitVec.eq_of_getLsbD_eq
  intro j hj
  simp only [getLsbD_lane, hj, decide_true, Bool.true_and, BitVec.getLsbD_setWidth]
  rw [BitVec.getLsbD_of_ge x _ (by omega)]; simp

/-! ### One lane of `round<I>` -/
/-- one lane of `round<I>` for `I` of `k` bits -/
def iroundLane (k : Nat) {w : Nat} (x : BitVec w) : BitVec k :=
  cvtInt k .zero x + cvtInt k .zero (fmul (fsub x (ofInt w (cvtInt k .zero x).toInt)) (nearTwo w))
theorem near2_lane_core {w : Nat} (h : W w) {x t : BitVec w} (hfin : isFinite x = true) (c1 : isFinite t = true)
    (c2 : val t = toInt .zero x * (2 ^ unitExp w : Nat)) :
    isFinite (fmul (fsub x t) (nearTwo w)) = true ∧ (toInt .zero (fmul (fsub x t) (nearTwo w))).natAbs ≤ 1 ∧
    IsRoundToward (val x) (2 ^ unitExp w : Nat) (toInt .zero x + toInt .zero (fmul (fsub x t) (nearTwo w))) := by
  have hb := Fp.mb_pos w
  have hU := unitExp_eq h
  have hβ : 4 ≤ bias w := by rcases h with h | h <;> subst h <;> decide
  have hD : 0 < 2 ^ unitExp w := Nat.two_pow_pos _
  have hxv : val x = if x.msb then -((val x).natAbs : Int) else (val x).natAbs := by rw [natAbs_val]; rfl
  have hfr := repr_frac h hfin
  have hz : toInt .zero x = if x.msb then -(((val x).natAbs / 2 ^ unitExp w : Nat) : Int) else ((val x).natAbs / 2 ^ unitExp w : Nat) := by
    unfold toInt roundNat neg; dsimp only; rw [Nat.add_zero]
  have hdm := Nat.div_add_mod (val x).natAbs (2 ^ unitExp w)
  have hml := Nat.mod_lt (val x).natAbs hD
  generalize hn : (val x).natAbs = n at *
  generalize hf : n % 2 ^ unitExp w = f at *
  generalize hq : n / 2 ^ unitExp w = q at *
  have hdiff : val x - val t = if x.msb then -(f : Int) else f := by
    rw [c2, hz, hxv]
    have : ((2 ^ unitExp w * q + f : Nat) : Int) = n := by exact_mod_cast hdm
    push_cast at this
    cases x.msb
    · simp only [Bool.false_eq_true, if_false]; push_cast; rw [← this, Int.mul_comm]; omega
    · simp only [if_true]; push_cast; rw [← this, Int.neg_mul, Int.mul_comm]; omega
  have hfa : (if x.msb = true then -(f : Int) else (f : Int)).natAbs = f := by split <;> omega
  have hs := fsub_val h hfin c1 (by rw [hdiff, hfa]; exact hfr)
  rw [hdiff] at hs
  generalize hy : fsub x t = y at *
  have hysign : f ≠ 0 → y.msb = x.msb := by
    intro h0
    have h1 := val_neg_iff (x := y) (by rw [hs.2]; split <;> omega)
    rw [hs.2] at h1
    cases hm : x.msb
    · rw [hm] at h1; simp at h1; cases hm2 : y.msb
      · rfl
      · exact absurd (h1.2 hm2) (by omega)
    · rw [hm] at h1; simp at h1; exact h1.1 (by omega)
  obtain ⟨n1, n2, n3⟩ := nearTwo_sm h
  have hya : (val y).natAbs = f := by rw [hs.2, hfa]
  have hcore := near2_core (b := mb w) (β := bias w) (fm := mag y) hb hβ (f := f) (D := 2 ^ unitExp w) (by rw [← natAbs_val, hya]) (by rw [hU]) rfl hml
  have hinl := infMag_lt h
  have hN2inf : (bias w + 1) * 2 ^ mb w - 1 < infMag w := by rcases h with h | h <;> subst h <;> decide
  have hp : fmul y (nearTwo w) = pack w y.msb (rne (mb w) (f * magVal (mb w) ((bias w + 1) * 2 ^ mb w - 1)) (2 ^ unitExp w)) := by
    rw [fmul_fin hs.1 n3, hya, natAbs_val, n2]
    unfold Fp.round neg
    rw [n1, Nat.min_eq_left (by omega)]
    simp
  generalize hP : rne (mb w) (f * magVal (mb w) ((bias w + 1) * 2 ^ mb w - 1)) (2 ^ unitExp w) = P at *
  have hpm : mag (fmul y (nearTwo w)) = P := by rw [hp]; exact mag_pack h (by omega)
  have hps : (fmul y (nearTwo w)).msb = y.msb := by rw [hp]; exact msb_pack h (by omega)
  have hpf : isFinite (fmul y (nearTwo w)) = true := (finite_iff h _).2 (by omega)
  have hpt : toInt .zero (fmul y (nearTwo w)) = if y.msb then -((if 2 ^ unitExp w < 2 * f then 1 else 0 : Nat) : Int) else ((if 2 ^ unitExp w < 2 * f then 1 else 0 : Nat) : Int) := by
    unfold toInt roundNat neg; dsimp only
    rw [Nat.add_zero, natAbs_val, hpm, hcore.2, hps]
  have hsgn : toInt .zero (fmul y (nearTwo w)) = if x.msb then -((if 2 ^ unitExp w < 2 * f then 1 else 0 : Nat) : Int) else ((if 2 ^ unitExp w < 2 * f then 1 else 0 : Nat) : Int) := by
    rw [hpt]
    by_cases h0 : 2 ^ unitExp w < 2 * f
    · rw [hysign (by omega)]
    · simp [h0]
  have hsum : toInt .zero x + (if x.msb then -((if 2 ^ unitExp w < 2 * f then 1 else 0 : Nat) : Int) else ((if 2 ^ unitExp w < 2 * f then 1 else 0 : Nat) : Int))
      = if x.msb then -((q + (if 2 ^ unitExp w < 2 * f then 1 else 0) : Nat) : Int) else ((q + (if 2 ^ unitExp w < 2 * f then 1 else 0) : Nat) : Int) := by
    rw [hz]
    generalize (if 2 ^ unitExp w < 2 * f then 1 else 0 : Nat) = u
    cases x.msb <;> simp <;> omega
  refine ⟨hpf, by rw [hpt]; split <;> split <;> simp, ?_⟩
  rw [hsgn, hsum]
  exact isRoundToward_of (n := n) (q := q + (if 2 ^ unitExp w < 2 * f then 1 else 0)) hD rfl hxv (by rw [hf, hq])

theorem toward_bounds {v D lo hi r : Int} (hD : 0 < D) (h1 : lo * D ≤ v) (h2 : v ≤ hi * D) (hr : IsRoundToward v D r) : lo ≤ r ∧ r ≤ hi := by
  have hr' : (2 * r - 1) * D ≤ 2 * v ∧ 2 * v ≤ (2 * r + 1) * D := by
    by_cases h : 0 ≤ v
    · have := hr.1 h; omega
    · have := hr.2 (by omega); omega
  obtain ⟨a, b⟩ := hr'
  constructor
  · have h : (2 * lo) * D ≤ (2 * r + 1) * D := by
      rw [Int.mul_assoc]; omega
    have := Int.le_of_mul_le_mul_right h hD
    omega
  · have h : (2 * r - 1) * D ≤ (2 * hi) * D := by
      rw [Int.mul_assoc 2 hi]; omega
    have := Int.le_of_mul_le_mul_right h hD
    omega
theorem trunc_bounds {v D lo hi r : Int} (hD : 0 < D) (h1 : lo * D ≤ v) (h2 : v ≤ hi * D) (hr : IsTrunc v D r) : lo ≤ r ∧ r ≤ hi := by
  by_cases h : 0 ≤ v
  · obtain ⟨a, b⟩ := hr.1 h
    constructor
    · have h' : lo * D < (r + 1) * D := by omega
      have := Int.lt_of_mul_lt_mul_right h' (by omega); omega
    · have h' : r * D ≤ hi * D := by omega
      exact Int.le_of_mul_le_mul_right h' hD
  · obtain ⟨a, b⟩ := hr.2 (by omega)
    constructor
    · have h' : lo * D ≤ r * D := by omega
      exact Int.le_of_mul_le_mul_right h' hD
    · have h' : (r - 1) * D < hi * D := by omega
      have := Int.lt_of_mul_lt_mul_right h' (by omega); omega
/-- `round<I>`: to nearest, ties toward zero, for every number whose neighbours are representable in `I` -/
theorem iroundLane_toward {w k : Nat} (h : W w) (hk : 2 ≤ k) {x : BitVec w} (hfin : isFinite x = true)
    (h1 : -(2 ^ (k - 1) : Int) * (2 ^ unitExp w : Nat) ≤ val x) (h2 : val x ≤ (2 ^ (k - 1) - 1 : Int) * (2 ^ unitExp w : Nat)) :
    IsRoundToward (val x) (2 ^ unitExp w : Nat) (iroundLane k x).toInt := by
  have hD : (0 : Int) < (2 ^ unitExp w : Nat) := by exact_mod_cast Nat.two_pow_pos (unitExp w)
  obtain ⟨b1, b2⟩ := trunc_bounds hD h1 h2 (toInt_trunc x)
  have hpk : (2 : Int) ^ k = 2 * 2 ^ (k - 1) := by
    obtain ⟨j, rfl⟩ : ∃ j, k = j + 1 := ⟨k - 1, by omega⟩
    rw [Nat.add_sub_cancel, Int.pow_succ, Int.mul_comm]
  have hpk2 : (2 : Int) ≤ 2 ^ (k - 1) := by
    obtain ⟨j, hj⟩ : ∃ j, k - 1 = j + 1 := ⟨k - 2, by omega⟩
    rw [hj, Int.pow_succ]
    have : (0 : Int) < 2 ^ j := Int.pow_pos (by omega)
    omega
  have fit : ∀ z : Int, -(2 ^ (k - 1) : Int) ≤ z → z < 2 ^ (k - 1) → (BitVec.ofInt k z).toInt = z := by
    intro z z1 z2
    rw [BitVec.toInt_ofInt]
    have e : ((2 ^ k : Nat) : Int) = 2 * 2 ^ (k - 1) := by push_cast; exact hpk
    exact Int.bmod_eq_of_le (by omega) (by omega)
  have e1 : cvtInt k .zero x = BitVec.ofInt k (toInt .zero x) := by
    unfold cvtInt
    rw [if_pos]
    simp only [hfin, Bool.true_and, Bool.and_eq_true, decide_eq_true_eq]
    omega
  have e2 : (cvtInt k .zero x).toInt = toInt .zero x := by rw [e1]; exact fit _ b1 (by omega)
  obtain ⟨t1, t2, -⟩ := Fp.ofInt_val h (z := toInt .zero x) (by rw [natAbs_toInt]; exact repr_roundNat h .zero (neg x) hfin)
  obtain ⟨n1, n2, n3⟩ := near2_lane_core h hfin t1 t2
  unfold iroundLane
  rw [e2]
  generalize fmul (fsub x (ofInt w (toInt .zero x))) (nearTwo w) = p at *
  have e3 : cvtInt k .zero p = BitVec.ofInt k (toInt .zero p) := by
    unfold cvtInt
    rw [if_pos]
    simp only [n1, Bool.true_and, Bool.and_eq_true, decide_eq_true_eq]
    omega
  obtain ⟨c1, c2⟩ := toward_bounds hD h1 h2 n3
  rw [e1, e3, ← BitVec.ofInt_add, fit _ c1 (by omega)]
  exact n3
end Dpm.X86
