import Verif.Model.Log
import Verif.Proofs.TrigLane
import Verif.Proofs.StoreExp
import Verif.Proofs.Hypot
/-! Lane-wise form of the logarithms. -/
namespace Dpm.X86
open Dpm.Reg Dpm.Fp

/-! ### One-lane versions -/
/-- the pattern relative to the lower end of the table's domain -/
def redTmp {w : Nat} (ix : BitVec w) : BitVec w := ix - logOff w
/-- the table row -/
def redIdx (bits : Nat) {w : Nat} (ix : BitVec w) : Nat := (redTmp ix).toNat / 2 ^ (mantBits w - bits) % 2 ^ bits
/-- the power of two -/
def redK {w : Nat} (ix : BitVec w) : Int := (((redTmp ix).sshiftRight (mantBits w)).setWidth 32).toInt
/-- the reduced argument -/
def redZ {w : Nat} (ix : BitVec w) : BitVec w := ix - (redTmp ix &&& (signBit w ||| expOnes w))
def evLogS (fm : Bool) (ix : BitVec 32) : BitVec 32 :=
  let c := fun i => logcoffS.getD i 0
  let i := redIdx logtabBitsS ix
  let r := fmsL fm (redZ ix) (logtabS.getD (2 * i) 0) (oneBits 32)
  let y0 := fmaL fm (ofInt 32 (redK ix)) (ln2Bits 32) (logtabS.getD (2 * i + 1) 0)
  let r2 := fmul r r
  fmaL fm (fmaL fm (c 0) r2 (fmaL fm (c 1) r (c 2))) r2 (fadd y0 r)
def evLogD (fm : Bool) (ix : BitVec 64) : BitVec 64 :=
  let c := fun i => logcoffD.getD i 0
  let i := redIdx logtabBitsD ix
  let r := fmaL fm (redZ ix) (logtabD.getD (2 * i) 0) (0xbff0000000000000#64)
  let y0 := fmaL fm (ofInt 64 (redK ix)) (ln2Bits 64) (logtabD.getD (2 * i + 1) 0)
  let r2 := fmul r r
  let p := fmaL fm (c 1) r (c 0)
  fmaL fm (fmaL fm (fmaL fm (c 4) r2 (fmaL fm (c 3) r (c 2))) r2 p) r2 (fadd y0 r)
/-- `eval_log` on one lane -/
def evLog (fm : Bool) {w : Nat} (ix : BitVec w) : BitVec w :=
  if w = 64 then (evLogD fm (ix.setWidth 64)).setWidth w else (evLogS fm (ix.setWidth 32)).setWidth w
def evLog2S (fm : Bool) (ix : BitVec 32) : BitVec 32 :=
  let c := fun i => log2coffS.getD i 0
  let i := redIdx log2tabBitsS ix
  let r := fmaL fm (redZ ix) (log2tabS.getD (2 * i) 0) (0xbf800000#32)
  let y0 := fadd (log2tabS.getD (2 * i + 1) 0) (ofInt 32 (redK ix))
  let r2 := fmul r r
  fmaL fm (fmaL fm (c 0) r2 (fmaL fm (c 1) r (c 2))) r2 (fmaL fm (c 3) r y0)
def evLog2D (fm : Bool) (ix : BitVec 64) : BitVec 64 :=
  let c := fun i => log2coffD.getD i 0
  let i := redIdx log2tabBitsD ix
  let r := fmaL fm (redZ ix) (log2tabD.getD (2 * i) 0) (0xbff0000000000000#64)
  let t1 := fmul r invln2h
  let t2 := fmaL fm r invln2l (fmsL fm r invln2h t1)
  let t3 := fadd (log2tabD.getD (2 * i + 1) 0) (ofInt 64 (redK ix))
  let hh := fadd t3 t1
  let ll := fadd (fsub t3 hh) (fadd t1 t2)
  let r2 := fmul r r
  let r4 := fmul r2 r2
  let p := fmaL fm r (c 3) (c 2)
  let y := fmaL fm r (c 1) (fmaL fm r4 (fmaL fm (c 5) r (c 4)) (c 0))
  fadd ll (fmaL fm r2 (fmaL fm r2 p y) hh)
def evLog2 (fm : Bool) {w : Nat} (ix : BitVec w) : BitVec w :=
  if w = 64 then (evLog2D fm (ix.setWidth 64)).setWidth w else (evLog2S fm (ix.setWidth 32)).setWidth w
/-- `log_normalize` on one lane -/
def normS (x : BitVec 32) : BitVec 32 :=
  if (0x7f000000#32 - 1#32).toInt < (x - 0x800000#32).toInt then fmul x 0x4b000000#32 - BitVec.ofNat 32 (23 * 2 ^ 23) else x
def normD (low : Bool) (x : BitVec 64) : BitVec 64 :=
  if gtLow low (x >>> 48 - 0x0000001000000010#64) 0x00007fdf00007fdf#64 then fmul x 0x4330000000000000#64 - BitVec.ofNat 64 (52 * 2 ^ 52) else x
def normL (low : Bool) {w : Nat} (x : BitVec w) : BitVec w :=
  if w = 64 then (normD low (x.setWidth 64)).setWidth w else (normS (x.setWidth 32)).setWidth w
/-- `isfinite_abs` of a signed argument -/
def finAbs (avx : Bool) {w : Nat} (x : BitVec w) : Bool :=
  if avx then !fNaN x && !fNaN (infBits w) && !fEq x (infBits w) else fLt x (infBits w)
/-- `log_excepts` on one lane -/
def excL (o : MathOpt) (avx : Bool) {w : Nat} (y x : BitVec w) : BitVec w :=
  let y := if o.propNan then (if finAbs avx x then y else x) else y
  if o.handleErr then
    if fLt x 0#w then fdiv (fsub x x) 0#w
    else if fEq x 0#w then fdiv (oneBits w) (fsub x x) else y
  else y
/-- the correction `log(1) = 0` -/
def oneL {w : Nat} (y x : BitVec w) : BitVec w := if fEq x (oneBits w) then 0#w else y
def logF (o : MathOpt) (avx low fm : Bool) {w : Nat} (x : BitVec w) : BitVec w := excL o avx (oneL (evLog fm (normL low x)) x) x
def log2F (o : MathOpt) (avx low fm : Bool) {w : Nat} (x : BitVec w) : BitVec w := excL o avx (oneL (evLog2 fm (normL low x)) x) x
/-- is `x` scaled by `impl_log10`? -/
def sub10 {w : Nat} (x : BitVec w) : Bool :=
  if w = 64 then decide ((x >>> 48).toInt < (BitVec.ofNat w (0x10 * 2 ^ 48)).toInt) else decide (x.toInt < (0x800000#w).toInt)
/-- the scaled argument and the exponent; `odd` says whether the lane has an odd index in its native vector -/
def ix10 {w : Nat} (x : BitVec w) : BitVec w := if sub10 x then fmul x (expMult w) else x
def k10 (odd : Bool) {w : Nat} (x : BitVec w) : BitVec w :=
  (if sub10 x then 0#w - (if w = 64 then BitVec.ofNat w 54 else if odd then 0#w else BitVec.ofNat w 25) else 0#w) +
    (ix10 x >>> mantBits w - BitVec.ofNat w (expOff w))
def ks10 (odd : Bool) {w : Nat} (x : BitVec w) : BitVec w := k10 odd x + k10 odd x >>> (w - 1)
def arg10 (odd : Bool) {w : Nat} (x : BitVec w) : BitVec w :=
  (ix10 x &&& ~~~ (signBit w ||| expOnes w)) ||| ((BitVec.ofNat w (expOff w) - k10 odd x >>> (w - 1)) <<< mantBits w)
def ev10 (fm odd : Bool) {w : Nat} (x : BitVec w) : BitVec w :=
  let y := ofInt w ((ks10 odd x).setWidth 32).toInt
  fmaL fm y (log10_2h w) (fmaL fm y (log10_2l w) (fmul (ivln10 w) (evLog fm (arg10 odd x))))
def log10F (o : MathOpt) (avx odd fm : Bool) {w : Nat} (x : BitVec w) : BitVec w := excL o avx (oneL (ev10 fm odd x) x) x
/-- `log1p_excepts` on one lane -/
def exc1p (o : MathOpt) (avx : Bool) {w : Nat} (y x : BitVec w) : BitVec w :=
  let mone := oneBits w ^^^ BitVec.intMin w
  let y := if o.propNan then (if finAbs avx x then y else x) else y
  if o.handleErr then
    if fLt x mone then fdiv (fsub x x) 0#w
    else if fEq x mone then fdiv (oneBits w) (fsub x x)
    else if x >>> mantBits w = 0#w then x else y
  else y
def k1p {w : Nat} (x : BitVec w) : BitVec w := (fadd x (oneBits w) + log1pRound w) >>> mantBits w - log1pExp w
/-- the correction term `c` -/
def c1p {w : Nat} (x : BitVec w) : BitVec w :=
  if decide ((BitVec.ofNat w (mantBits w - 1)).toInt < (k1p x).toInt) || decide (x.toInt < (log1pRange w).toInt) then 0#w
  else if (k1p x).toInt < (0#w).toInt then fsub x (fsub (fadd x (oneBits w)) (oneBits w)) else fsub (oneBits w) (fsub (fadd x (oneBits w)) x)
def log1pF (o : MathOpt) (avx fm : Bool) {w : Nat} (x : BitVec w) : BitVec w :=
  exc1p o avx (if fEq x 0#w then 0#w else fadd (evLog fm (fadd x (oneBits w))) (fdiv (c1p x) (fadd x (oneBits w)))) x

/-! ### Fills of another lane size -/
theorem ofLanes32_lane64 {n i : Nat} (hb : i * 64 + 64 ≤ n) (x : BitVec 32) : lane 64 (ofLanes n 32 (fun _ => x)) i = x ++ x := by
  apply BitVec.eq_of_getLsbD_eq; intro b hb
  rw [getLsbD_lane, ofLanes, getLsbD_ofBits, BitVec.getLsbD_append]
  have h1 : (i * 64 + b) % 32 = b % 32 := by omega
  rw [h1]
  by_cases h2 : b < 32
  · simp [h2, hb, show i * 64 + b < n by omega, Nat.mod_eq_of_lt h2]
  · simp [h2, hb, show i * 64 + b < n by omega, show b % 32 = b - 32 by omega]
theorem fill32_lane64 {v : VSz} {i : Nat} (hi : i < extent Ety.f64 v) (x : BitVec 32) : lane 64 (fillV v x) i = x ++ x :=
  ofLanes32_lane64 (by have := lane_bound (by decide : Ety.f64.Ok) hi; rw [Nat.succ_mul] at this; exact this) x
theorem ofLanes64_lane32 {n i : Nat} (hb : i * 32 + 32 ≤ n) (x : BitVec 64) : lane 32 (ofLanes n 64 (fun _ => x)) i = lane 32 x (i % 2) := by
  apply BitVec.eq_of_getLsbD_eq; intro b hb
  rw [getLsbD_lane, ofLanes, getLsbD_ofBits, getLsbD_lane]
  have h1 : (i * 32 + b) % 64 = i % 2 * 32 + b := by omega
  rw [h1]
  simp [hb, show i * 32 + b < n by omega]
theorem fill64_lane32 {v : VSz} {i : Nat} (hi : i < extent Ety.f32 v) (x : BitVec 64) : lane 32 (fillV v x) i = lane 32 x (i % 2) :=
  ofLanes64_lane32 (by have := lane_bound (by decide : Ety.f32.Ok) hi; rw [Nat.succ_mul] at this; exact this) x

/-! ### The reduction -/
theorem flt_cases {T : Ety} (h : T.Ok) (hf : T.flt = true) : T = Ety.f32 ∨ T = Ety.f64 := by
  obtain ⟨hb, hs⟩ := h.2 hf
  obtain ⟨B, F, S⟩ := T
  dsimp only at hb hs hf
  subst hs hf
  rcases hb with rfl | rfl
  · exact Or.inl rfl
  · exact Or.inr rfl
theorem idxMask32 (bits : Nat) (hb : bits ≤ 7) (t : BitVec 32) :
    (t >>> (23 - bits) &&& BitVec.ofNat 32 (2 ^ bits - 1)).toNat = t.toNat / 2 ^ (23 - bits) % 2 ^ bits := by
  have hp : 2 ^ bits ≤ 2 ^ 7 := Nat.pow_le_pow_right (by omega) hb
  rw [BitVec.toNat_and, BitVec.toNat_ushiftRight, Nat.shiftRight_eq_div_pow, BitVec.toNat_ofNat, Nat.mod_eq_of_lt (a := 2 ^ bits - 1) (by omega),
    Nat.and_two_pow_sub_one_eq_mod]
theorem idxMask64 (bits : Nat) (hb : bits ≤ 7) (t : BitVec 64) :
    (t >>> (52 - bits) &&& (BitVec.ofNat 32 (2 ^ bits - 1) ++ BitVec.ofNat 32 (2 ^ bits - 1) : BitVec 64)).toNat = t.toNat / 2 ^ (52 - bits) % 2 ^ bits := by
  have hp : 2 ^ bits ≤ 2 ^ 7 := Nat.pow_le_pow_right (by omega) hb
  have hs : t.toNat / 2 ^ (52 - bits) < 2 ^ 32 := by
    have e : (2 : Nat) ^ 64 ≤ 2 ^ (52 - bits) * 2 ^ 32 := by rw [← Nat.pow_add]; exact Nat.pow_le_pow_right (by omega) (by omega)
    exact Nat.div_lt_of_lt_mul (by have := t.isLt; omega)
  have e1 : (t >>> (52 - bits) &&& (BitVec.ofNat 32 (2 ^ bits - 1) ++ BitVec.ofNat 32 (2 ^ bits - 1) : BitVec 64)) = t >>> (52 - bits) &&& BitVec.ofNat 64 (2 ^ bits - 1) := by
    apply BitVec.eq_of_getLsbD_eq; intro j hj
    rw [BitVec.getLsbD_and, BitVec.getLsbD_and, BitVec.getLsbD_append]
    by_cases h : j < 32
    · rw [if_pos h, ← BitVec.testBit_toNat, ← BitVec.testBit_toNat (x := BitVec.ofNat 32 _), ← BitVec.testBit_toNat (x := BitVec.ofNat 64 _),
        BitVec.toNat_ofNat, BitVec.toNat_ofNat, Nat.mod_eq_of_lt (by omega), Nat.mod_eq_of_lt (by omega)]
    · have : (t >>> (52 - bits)).getLsbD j = false := by
        rw [← BitVec.testBit_toNat]
        apply Nat.testBit_lt_two_pow
        rw [BitVec.toNat_ushiftRight, Nat.shiftRight_eq_div_pow]
        exact Nat.lt_of_lt_of_le hs (Nat.pow_le_pow_right (by omega) (by omega))
      rw [this]; simp
  rw [e1, BitVec.toNat_and, BitVec.toNat_ushiftRight, Nat.shiftRight_eq_div_pow, BitVec.toNat_ofNat, Nat.mod_eq_of_lt (a := 2 ^ bits - 1) (by omega),
    Nat.and_two_pow_sub_one_eq_mod]
theorem idx_lane {T : Ety} (h : T.Ok) (hf : T.flt = true) (s : ISA) {v : VSz} {i : Nat} (hi : i < extent T v) {bits : Nat} (hb : bits ≤ 7) (ix : Vec v) :
    (lane T.w (bitAnd (shrC s T.toI (mantBits T.w - bits) v (subI s T.toI v ix (fillV v (logOff T.w)))) (fillV v (BitVec.ofNat 32 (2 ^ bits - 1)))) i).toNat =
      redIdx bits (lane T.w ix i) := by
  rw [bitAnd_lane, shrT_lane h hi, subT_lane h hi, fillV_lane h _ hi]
  unfold redIdx redTmp
  rcases flt_cases h hf with rfl | rfl
  · rw [show lane Ety.f32.w (fillV v (BitVec.ofNat 32 (2 ^ bits - 1))) i = BitVec.ofNat 32 (2 ^ bits - 1) from fillV_lane h _ hi]
    exact idxMask32 bits hb _
  · rw [show lane Ety.f64.w (fillV v (BitVec.ofNat 32 (2 ^ bits - 1))) i = _ from fill32_lane64 hi _]
    exact idxMask64 bits hb _
theorem ashrT_lane {T : Ety} (h : T.Ok) (hf : T.flt = true) (s : ISA) {v : VSz} {i : Nat} (hi : i < extent T v) (a : Vec v) :
    lane T.w (ashrC s T.toI (mantBits T.w) v a) i = (lane T.w a i).sshiftRight (mantBits T.w) := by
  cases he : ashrEmulated s T.toI
  · exact ashrC_lane s (toI_ok h hi) v a hi _ he
  · rcases flt_cases h hf with rfl | rfl
    · simp [ashrEmulated] at he; cases he.1
    · have hv : s.avx512vl = false := by simp [ashrEmulated] at he; exact he.2
      exact (ashrC_lane64 s (T := Ety.f64.toI) rfl hv v a hi _).trans (ashr64Lane_ge _ (by decide) (by decide))
theorem kf_lane {T : Ety} (h : T.Ok) (hf : T.flt = true) {v : VSz} {i : Nat} (hi : i < extent T v) (k : Vec v) :
    lane T.w (if T.bytes = 8 then cvtI32F64 v (cvtI64I32 v k) else cvtepiL 32 k) i = ofInt T.w ((lane T.w k i).setWidth 32).toInt := by
  rcases flt_cases h hf with rfl | rfl
  · rw [if_neg (by decide)]
    refine (lane_map1 (n := v.bits) _ _ (lane_bound h hi)).trans ?_
    rw [show (BitVec.setWidth 32 (lane Ety.f32.w k i)) = lane Ety.f32.w k i from BitVec.setWidth_eq _]
    rfl
  · rw [if_pos (by decide)]
    have hb : (i + 1) * 64 ≤ v.bits := lane_bound h hi
    refine (lane_ofLanes (w := 64) _ hb).trans ?_
    rw [cvtI64I32_lane v k (q := i) (by rw [Nat.lt_div_iff_mul_lt (by decide)]; omega), low32]
    rfl
theorem lutLoad_some {T : Ety} (h : T.Ok) {v : VSz} (tab : List (BitVec T.w)) (idx : Vec v) (hb : ∀ i, i < extent T v → (lane T.w idx i).toNat < tab.length) :
    ∃ r, lutLoad T v tab idx = some r ∧ ∀ i, i < extent T v → lane T.w r i = tab.getD (lane T.w idx i).toNat 0 := by
  unfold lutLoad
  rw [if_pos hb]
  exact ⟨_, rfl, fun i hi => lane_ofLanes _ (lane_bound h hi)⟩
theorem shl1_toNat {w : Nat} (h : W w) {x : BitVec w} {n : Nat} (e : x.toNat = n) (hn : n < 2 ^ 7) :
    (x <<< 1).toNat = 2 * n ∧ (x <<< 1 + 1#w).toNat = 2 * n + 1 := by
  subst e
  rcases h with h | h <;> subst h
  all_goals
    constructor
    · rw [BitVec.toNat_shiftLeft, Nat.shiftLeft_eq]; omega
    · rw [BitVec.toNat_add, BitVec.toNat_shiftLeft, Nat.shiftLeft_eq]
      show (_ + 1) % _ = _
      omega
theorem redIdx_lt (bits : Nat) {w : Nat} (ix : BitVec w) : redIdx bits ix < 2 ^ bits := Nat.mod_lt _ (Nat.two_pow_pos _)
theorem logReduce_lane {T : Ety} (h : T.Ok) (hf : T.flt = true) (s : ISA) {v : VSz} {bits : Nat} (hb : bits ≤ 7) (tab : List (BitVec T.w))
    (ht : tab.length = 2 ^ (bits + 1)) (ix : Vec v) :
    ∃ z kf invc logc, logReduce s T v bits tab ix = some (z, kf, invc, logc) ∧ ∀ i, i < extent T v →
      lane T.w z i = redZ (lane T.w ix i) ∧ lane T.w kf i = ofInt T.w (redK (lane T.w ix i)) ∧
      lane T.w invc i = tab.getD (2 * redIdx bits (lane T.w ix i)) 0 ∧ lane T.w logc i = tab.getD (2 * redIdx bits (lane T.w ix i) + 1) 0 := by
  unfold logReduce logGetTable
  extract_lets tmp i0 idx k z kf inv lg
  have hW := fltW h hf
  have hidx : ∀ i, i < extent T v → (lane T.w inv i).toNat = 2 * redIdx bits (lane T.w ix i) ∧ (lane T.w lg i).toNat = 2 * redIdx bits (lane T.w ix i) + 1 := by
    intro i hi
    have h1 : (lane T.w idx i).toNat = redIdx bits (lane T.w ix i) := idx_lane h hf s hi hb ix
    have h2 := shl1_toNat hW h1 (Nat.lt_of_lt_of_le (redIdx_lt _ _) (Nat.pow_le_pow_right (by omega) hb))
    have h3 : lane T.w inv i = lane T.w idx i <<< 1 := shlT_lane h hi s 1 idx
    refine ⟨by rw [h3]; exact h2.1, ?_⟩
    rw [show lane T.w lg i = lane T.w inv i + lane T.w (fillV v (1#T.w)) i from addT_lane h hi s _ _, h3, fillV_lane h _ hi]
    exact h2.2
  obtain ⟨r1, e1, l1⟩ := lutLoad_some h tab inv (fun i hi => by
    rw [(hidx i hi).1, ht, Nat.pow_succ]; have := redIdx_lt bits (lane T.w ix i); omega)
  obtain ⟨r2, e2, l2⟩ := lutLoad_some h tab lg (fun i hi => by
    rw [(hidx i hi).2, ht, Nat.pow_succ]; have := redIdx_lt bits (lane T.w ix i); omega)
  rw [e1]
  dsimp only [Option.bind]
  rw [e2]
  refine ⟨_, _, _, _, rfl, fun i hi => ⟨?_, ?_, ?_, ?_⟩⟩
  · have htmp : lane T.w tmp i = redTmp (lane T.w ix i) := by
      refine (subT_lane h hi s _ _).trans ?_
      rw [fillV_lane h _ hi]; rfl
    refine (subT_lane h hi s _ _).trans ?_
    rw [bitAnd_lane, fillV_lane h _ hi, htmp]; rfl
  · have htmp : lane T.w tmp i = redTmp (lane T.w ix i) := by
      refine (subT_lane h hi s _ _).trans ?_
      rw [fillV_lane h _ hi]; rfl
    refine (kf_lane h hf hi _).trans ?_
    rw [ashrT_lane h hf s hi, htmp]; rfl
  · exact (l1 i hi).trans (by rw [(hidx i hi).1])
  · exact (l2 i hi).trans (by rw [(hidx i hi).2])
theorem evalLogS_lane (s : ISA) (fm : Bool) {v : VSz} (ix : Vec v) :
    ∃ r, evalLogS s fm v ix = some r ∧ ∀ i, i < extent Ety.f32 v → lane 32 r i = evLogS fm (lane 32 ix i) := by
  have h : Ety.f32.Ok := by decide
  obtain ⟨z, kf, invc, logc, e, hl⟩ := logReduce_lane h rfl s (bits := logtabBitsS) (by decide) logtabS (by rfl) ix
  unfold evalLogS
  rw [e]
  refine ⟨_, rfl, fun i hi => ?_⟩
  obtain ⟨l1, l2, l3, l4⟩ := hl i hi
  change lane 32 z i = redZ (lane 32 ix i) at l1
  change lane 32 kf i = ofInt 32 (redK (lane 32 ix i)) at l2
  change lane 32 invc i = _ at l3
  change lane 32 logc i = _ at l4
  have hfill : ∀ y : BitVec 32, lane 32 (fillV v y) i = y := fun y => fillV_lane h y hi
  have hfma : ∀ a b c : Vec v, lane 32 (fmaddV fm 32 a b c) i = fmaL fm (lane 32 a i) (lane 32 b i) (lane 32 c i) := fun a b c => fmaddV_lane h hi fm a b c
  have hfms : ∀ a b c : Vec v, lane 32 (fmsubV fm 32 a b c) i = fmsL fm (lane 32 a i) (lane 32 b i) (lane 32 c i) := fun a b c => fmsubV_lane h hi fm a b c
  have hadd : ∀ a b : Vec v, lane 32 (faddL 32 a b) i = fadd (lane 32 a i) (lane 32 b i) := fun a b => faddL_lane h hi a b
  have hsub : ∀ a b : Vec v, lane 32 (fsubL 32 a b) i = fsub (lane 32 a i) (lane 32 b i) := fun a b => fsubL_lane h hi a b
  have hmul : ∀ a b : Vec v, lane 32 (fmulL 32 a b) i = fmul (lane 32 a i) (lane 32 b i) := fun a b => fmulL_lane h hi a b
  dsimp only
  simp only [hfma, hfms, hadd, hsub, hmul, hfill, l1, l2, l3, l4]
  rfl
theorem evalLogD_lane (s : ISA) (fm : Bool) {v : VSz} (ix : Vec v) :
    ∃ r, evalLogD s fm v ix = some r ∧ ∀ i, i < extent Ety.f64 v → lane 64 r i = evLogD fm (lane 64 ix i) := by
  have h : Ety.f64.Ok := by decide
  obtain ⟨z, kf, invc, logc, e, hl⟩ := logReduce_lane h rfl s (bits := logtabBitsD) (by decide) logtabD (by decide +kernel) ix
  unfold evalLogD
  rw [e]
  refine ⟨_, rfl, fun i hi => ?_⟩
  obtain ⟨l1, l2, l3, l4⟩ := hl i hi
  change lane 64 z i = redZ (lane 64 ix i) at l1
  change lane 64 kf i = ofInt 64 (redK (lane 64 ix i)) at l2
  change lane 64 invc i = _ at l3
  change lane 64 logc i = _ at l4
  have hfill : ∀ y : BitVec 64, lane 64 (fillV v y) i = y := fun y => fillV_lane h y hi
  have hfma : ∀ a b c : Vec v, lane 64 (fmaddV fm 64 a b c) i = fmaL fm (lane 64 a i) (lane 64 b i) (lane 64 c i) := fun a b c => fmaddV_lane h hi fm a b c
  have hfms : ∀ a b c : Vec v, lane 64 (fmsubV fm 64 a b c) i = fmsL fm (lane 64 a i) (lane 64 b i) (lane 64 c i) := fun a b c => fmsubV_lane h hi fm a b c
  have hadd : ∀ a b : Vec v, lane 64 (faddL 64 a b) i = fadd (lane 64 a i) (lane 64 b i) := fun a b => faddL_lane h hi a b
  have hsub : ∀ a b : Vec v, lane 64 (fsubL 64 a b) i = fsub (lane 64 a i) (lane 64 b i) := fun a b => fsubL_lane h hi a b
  have hmul : ∀ a b : Vec v, lane 64 (fmulL 64 a b) i = fmul (lane 64 a i) (lane 64 b i) := fun a b => fmulL_lane h hi a b
  dsimp only
  simp only [hfma, hfms, hadd, hsub, hmul, hfill, l1, l2, l3, l4]
  rfl
theorem evalLog2S_lane (s : ISA) (fm : Bool) {v : VSz} (ix : Vec v) :
    ∃ r, evalLog2S s fm v ix = some r ∧ ∀ i, i < extent Ety.f32 v → lane 32 r i = evLog2S fm (lane 32 ix i) := by
  have h : Ety.f32.Ok := by decide
  obtain ⟨z, kf, invc, logc, e, hl⟩ := logReduce_lane h rfl s (bits := log2tabBitsS) (by decide) log2tabS (by rfl) ix
  unfold evalLog2S
  rw [e]
  refine ⟨_, rfl, fun i hi => ?_⟩
  obtain ⟨l1, l2, l3, l4⟩ := hl i hi
  change lane 32 z i = redZ (lane 32 ix i) at l1
  change lane 32 kf i = ofInt 32 (redK (lane 32 ix i)) at l2
  change lane 32 invc i = _ at l3
  change lane 32 logc i = _ at l4
  have hfill : ∀ y : BitVec 32, lane 32 (fillV v y) i = y := fun y => fillV_lane h y hi
  have hfma : ∀ a b c : Vec v, lane 32 (fmaddV fm 32 a b c) i = fmaL fm (lane 32 a i) (lane 32 b i) (lane 32 c i) := fun a b c => fmaddV_lane h hi fm a b c
  have hfms : ∀ a b c : Vec v, lane 32 (fmsubV fm 32 a b c) i = fmsL fm (lane 32 a i) (lane 32 b i) (lane 32 c i) := fun a b c => fmsubV_lane h hi fm a b c
  have hadd : ∀ a b : Vec v, lane 32 (faddL 32 a b) i = fadd (lane 32 a i) (lane 32 b i) := fun a b => faddL_lane h hi a b
  have hsub : ∀ a b : Vec v, lane 32 (fsubL 32 a b) i = fsub (lane 32 a i) (lane 32 b i) := fun a b => fsubL_lane h hi a b
  have hmul : ∀ a b : Vec v, lane 32 (fmulL 32 a b) i = fmul (lane 32 a i) (lane 32 b i) := fun a b => fmulL_lane h hi a b
  dsimp only
  simp only [hfma, hfms, hadd, hsub, hmul, hfill, l1, l2, l3, l4]
  rfl
theorem evalLog2D_lane (s : ISA) (fm : Bool) {v : VSz} (ix : Vec v) :
    ∃ r, evalLog2D s fm v ix = some r ∧ ∀ i, i < extent Ety.f64 v → lane 64 r i = evLog2D fm (lane 64 ix i) := by
  have h : Ety.f64.Ok := by decide
  obtain ⟨z, kf, invc, logc, e, hl⟩ := logReduce_lane h rfl s (bits := log2tabBitsD) (by decide) log2tabD (by decide +kernel) ix
  unfold evalLog2D
  rw [e]
  refine ⟨_, rfl, fun i hi => ?_⟩
  obtain ⟨l1, l2, l3, l4⟩ := hl i hi
  change lane 64 z i = redZ (lane 64 ix i) at l1
  change lane 64 kf i = ofInt 64 (redK (lane 64 ix i)) at l2
  change lane 64 invc i = _ at l3
  change lane 64 logc i = _ at l4
  have hfill : ∀ y : BitVec 64, lane 64 (fillV v y) i = y := fun y => fillV_lane h y hi
  have hfma : ∀ a b c : Vec v, lane 64 (fmaddV fm 64 a b c) i = fmaL fm (lane 64 a i) (lane 64 b i) (lane 64 c i) := fun a b c => fmaddV_lane h hi fm a b c
  have hfms : ∀ a b c : Vec v, lane 64 (fmsubV fm 64 a b c) i = fmsL fm (lane 64 a i) (lane 64 b i) (lane 64 c i) := fun a b c => fmsubV_lane h hi fm a b c
  have hadd : ∀ a b : Vec v, lane 64 (faddL 64 a b) i = fadd (lane 64 a i) (lane 64 b i) := fun a b => faddL_lane h hi a b
  have hsub : ∀ a b : Vec v, lane 64 (fsubL 64 a b) i = fsub (lane 64 a i) (lane 64 b i) := fun a b => fsubL_lane h hi a b
  have hmul : ∀ a b : Vec v, lane 64 (fmulL 64 a b) i = fmul (lane 64 a i) (lane 64 b i) := fun a b => fmulL_lane h hi a b
  dsimp only
  simp only [hfma, hfms, hadd, hsub, hmul, hfill, l1, l2, l3, l4]
  rfl
theorem evLog_32 (fm : Bool) (x : BitVec 32) : evLog fm x = evLogS fm x := by simp [evLog]
theorem evLog_64 (fm : Bool) (x : BitVec 64) : evLog fm x = evLogD fm x := by simp [evLog]
theorem evLog2_32 (fm : Bool) (x : BitVec 32) : evLog2 fm x = evLog2S fm x := by simp [evLog2]
theorem evLog2_64 (fm : Bool) (x : BitVec 64) : evLog2 fm x = evLog2D fm x := by simp [evLog2]
theorem normL_32 (low : Bool) (x : BitVec 32) : normL low x = normS x := by simp [normL]
theorem normL_64 (low : Bool) (x : BitVec 64) : normL low x = normD low x := by simp [normL]
theorem evalLog_lane {T : Ety} (h : T.Ok) (hf : T.flt = true) (s : ISA) (fm : Bool) {v : VSz} (ix : Vec v) :
    ∃ r, (if T.bytes = 8 then evalLogD s fm v ix else evalLogS s fm v ix) = some r ∧ ∀ i, i < extent T v → lane T.w r i = evLog fm (lane T.w ix i) := by
  rcases flt_cases h hf with rfl | rfl
  · obtain ⟨r, e, hl⟩ := evalLogS_lane s fm ix
    exact ⟨r, e, fun i hi => (hl i hi).trans (evLog_32 fm _).symm⟩
  · obtain ⟨r, e, hl⟩ := evalLogD_lane s fm ix
    exact ⟨r, e, fun i hi => (hl i hi).trans (evLog_64 fm _).symm⟩
theorem evalLog2_lane {T : Ety} (h : T.Ok) (hf : T.flt = true) (s : ISA) (fm : Bool) {v : VSz} (ix : Vec v) :
    ∃ r, (if T.bytes = 8 then evalLog2D s fm v ix else evalLog2S s fm v ix) = some r ∧ ∀ i, i < extent T v → lane T.w r i = evLog2 fm (lane T.w ix i) := by
  rcases flt_cases h hf with rfl | rfl
  · obtain ⟨r, e, hl⟩ := evalLog2S_lane s fm ix
    exact ⟨r, e, fun i hi => (hl i hi).trans (evLog2_32 fm _).symm⟩
  · obtain ⟨r, e, hl⟩ := evalLog2D_lane s fm ix
    exact ⟨r, e, fun i hi => (hl i hi).trans (evLog2_64 fm _).symm⟩
theorem logNormalizeS_lane (s : ISA) {v : VSz} {i : Nat} (hi : i < extent Ety.f32 v) (x : Vec v) : lane 32 (logNormalizeS s v x) i = normS (lane 32 x i) := by
  have h : Ety.f32.Ok := by decide
  have hfill : ∀ y : BitVec 32, lane 32 (fillV v y) i = y := fun y => fillV_lane h y hi
  have hsub : ∀ a b : Vec v, lane 32 (subI s Ety.f32.toI v a b) i = lane 32 a i - lane 32 b i := fun a b => subT_lane h hi s a b
  have hmul : ∀ a b : Vec v, lane 32 (fmulL 32 a b) i = fmul (lane 32 a i) (lane 32 b i) := fun a b => fmulL_lane h hi a b
  unfold logNormalizeS normS
  extract_lets T m xn ixn
  have hm : lane 32 m i = laneMask 32 (decide ((0x7f000000#32 - 1#32).toInt < (lane 32 x i - 0x800000#32).toInt)) := by
    refine (cmpGtI_lane s (toI_ok h hi) v _ _ hi).trans ?_
    change laneMask 32 (decide ((lane 32 (fillV v (0x7f000000#32 - 1#32)) i).toInt < (lane 32 (subI s Ety.f32.toI v x (fillV v 0x800000#32)) i).toInt)) = _
    rw [hfill, hsub, hfill]
  have hz : lane 32 ixn i = fmul (lane 32 x i) 0x4b000000#32 - BitVec.ofNat 32 (23 * 2 ^ 23) := by
    refine (hsub _ _).trans ?_
    rw [hfill]; exact congrArg (· - _) ((hmul _ _).trans (by rw [hfill]))
  refine (guard_lane s (toI_ok h hi) hi x ixn m _ hm).trans ?_
  simp only [decide_eq_true_eq]
  rw [← hz]
  rfl
theorem logNormalizeD_lane (s : ISA) {v : VSz} {i : Nat} (hi : i < extent Ety.f64 v) (x : Vec v) :
    lane 64 (logNormalizeD s v x) i = normD (lowCmp s Ety.f64 v) (lane 64 x i) := by
  have h : Ety.f64.Ok := by decide
  have hfill : ∀ y : BitVec 64, lane 64 (fillV v y) i = y := fun y => fillV_lane h y hi
  have hfill2 : ∀ y : BitVec 32, lane 64 (fillV v y) i = y ++ y := fun y => fill32_lane64 hi y
  have hsub : ∀ a b : Vec v, lane 64 (subI s Ety.f64.toI v a b) i = lane 64 a i - lane 64 b i := fun a b => subT_lane h hi s a b
  have hshr : ∀ a : Vec v, lane 64 (shrC s Ety.f64.toI 48 v a) i = lane 64 a i >>> 48 := fun a => shrT_lane h hi s 48 a
  have hmul : ∀ a b : Vec v, lane 64 (fmulL 64 a b) i = fmul (lane 64 a i) (lane 64 b i) := fun a b => fmulL_lane h hi a b
  unfold logNormalizeD normD
  extract_lets T t16 m xn ixn
  have hm : lane 64 m i = laneMask 64 (gtLow (lowCmp s Ety.f64 v) (lane 64 x i >>> 48 - 0x0000001000000010#64) 0x00007fdf00007fdf#64) := by
    have e := cmpGtLow_lane s h (subI s T.toI v t16 (fillV v (0x10#32))) (fillV v (0x7fe0#32 - 1#32)) hi
    unfold cmpGtLow at e
    rw [if_pos (by decide)] at e
    refine e.trans ?_
    change laneMask 64 (gtLow _ (lane 64 (subI s Ety.f64.toI v t16 (fillV v (0x10#32))) i) (lane 64 (fillV v (0x7fe0#32 - 1#32)) i)) = _
    rw [hfill2, hsub, hfill2, show lane 64 t16 i = lane 64 x i >>> 48 from hshr x]
    rfl
  have hz : lane 64 ixn i = fmul (lane 64 x i) 0x4330000000000000#64 - BitVec.ofNat 64 (52 * 2 ^ 52) := by
    refine (hsub _ _).trans ?_
    rw [hfill]; exact congrArg (· - _) ((hmul _ _).trans (by rw [hfill]))
  refine (guard_lane s (toI_ok h hi) hi x ixn m _ hm).trans ?_
  rw [← hz]
  rfl
theorem logNormalize_lane {T : Ety} (h : T.Ok) (hf : T.flt = true) (s : ISA) {v : VSz} {i : Nat} (hi : i < extent T v) (x : Vec v) :
    lane T.w (if T.bytes = 8 then logNormalizeD s v x else logNormalizeS s v x) i = normL (lowCmp s T v) (lane T.w x i) := by
  rcases flt_cases h hf with rfl | rfl
  · rw [if_neg (by decide)]
    exact (logNormalizeS_lane s hi x).trans (normL_32 _ _).symm
  · rw [if_pos (by decide)]
    exact (logNormalizeD_lane s hi x).trans (normL_64 _ _).symm

/-! ### Special cases -/
section
variable {T : Ety} (h : T.Ok) (hf : T.flt = true) {v : VSz} {i : Nat} (hi : i < extent T v)
include h hi
include hf in
theorem cmpEqF_lane (s : ISA) (a b : Vec v) : lane T.w (cmpEq s T v a b) i = laneMask T.w (fEq (lane T.w a i) (lane T.w b i)) := by
  refine (cmpEq_lane s h v _ _ hi).trans ?_
  unfold laneEq; rw [hf]; rfl
theorem finAbs_lane (s : ISA) (x : Vec v) : lane T.w (isfiniteAbs s T v x) i = laneMask T.w (finAbs s.avx (lane T.w x i)) := isfiniteAbs_lane h hi s x
theorem prop_lane (o : MathOpt) (s : ISA) (y x : Vec v) :
    lane T.w (if o.propNan then blendv s T v x y (isfiniteAbs s T v x) else y) i =
      if o.propNan then (if finAbs s.avx (lane T.w x i) then lane T.w y i else lane T.w x i) else lane T.w y i := by
  cases o.propNan
  · rfl
  · simp only [if_true]
    exact blendv_lane s h v _ _ _ hi _ (finAbs_lane h hi s x)
include hf in
theorem logExcepts_lane (o : MathOpt) (s : ISA) (y x : Vec v) :
    lane T.w (logExcepts o s T v y x) i = excL o s.avx (lane T.w y i) (lane T.w x i) := by
  unfold logExcepts excL exceptDivzero exceptInvalid
  extract_lets y1 zm y2 mm z1
  have h1 : lane T.w y1 i = z1 := prop_lane h hi o s y x
  cases o.handleErr
  · exact h1
  · simp only [if_true]
    have hz : lane T.w zm i = laneMask T.w (fEq (lane T.w x i) 0#T.w) := by
      refine (cmpEqF_lane h hf hi s _ _).trans ?_
      rw [setzero_lane]
    have hm : lane T.w mm i = laneMask T.w (fLt (lane T.w x i) 0#T.w) := by
      refine (cmpF_lane h hi _ _ _).trans ?_
      rw [setzero_lane]
    have h2 : lane T.w y2 i = if fEq (lane T.w x i) 0#T.w then fdiv (oneBits T.w) (fsub (lane T.w x i) (lane T.w x i)) else z1 := by
      refine (guard_lane s h hi y1 _ zm _ hz).trans ?_
      rw [h1, fdivL_lane h hi, fillV_lane h _ hi, fsubL_lane h hi]; rfl
    refine (guard_lane s h hi y2 _ mm _ hm).trans ?_
    rw [h2, fdivL_lane h hi, setzero_lane, fsubL_lane h hi]
include hf in
theorem logOne_lane (s : ISA) (y x : Vec v) : lane T.w (logOne s T v y x) i = oneL (lane T.w y i) (lane T.w x i) := by
  unfold logOne oneL
  rw [andnot_lane h hi, cmpEqF_lane h hf hi, fillV_lane h _ hi, andnot_mask]
end
theorem implLog_lane {T : Ety} (h : T.Ok) (hf : T.flt = true) (o : MathOpt) (s : ISA) (fm : Bool) {v : VSz} (x : Vec v) :
    ∃ r, implLog o s fm T v x = some r ∧ ∀ i, i < extent T v → lane T.w r i = logF o s.avx (lowCmp s T v) fm (lane T.w x i) := by
  obtain ⟨r, e, hl⟩ := evalLog_lane h hf s fm (if T.bytes = 8 then logNormalizeD s v x else logNormalizeS s v x)
  have e' : (if T.bytes = 8 then evalLogD s fm v (logNormalizeD s v x) else evalLogS s fm v (logNormalizeS s v x)) = some r := by
    rw [← e]; split <;> rfl
  unfold implLog
  dsimp only
  rw [e']
  refine ⟨_, rfl, fun i hi => ?_⟩
  rw [logExcepts_lane h hf hi, logOne_lane h hf hi, hl i hi, logNormalize_lane h hf s hi]
  rfl
theorem implLog2_lane {T : Ety} (h : T.Ok) (hf : T.flt = true) (o : MathOpt) (s : ISA) (fm : Bool) {v : VSz} (x : Vec v) :
    ∃ r, implLog2 o s fm T v x = some r ∧ ∀ i, i < extent T v → lane T.w r i = log2F o s.avx (lowCmp s T v) fm (lane T.w x i) := by
  obtain ⟨r, e, hl⟩ := evalLog2_lane h hf s fm (if T.bytes = 8 then logNormalizeD s v x else logNormalizeS s v x)
  have e' : (if T.bytes = 8 then evalLog2D s fm v (logNormalizeD s v x) else evalLog2S s fm v (logNormalizeS s v x)) = some r := by
    rw [← e]; split <;> rfl
  unfold implLog2
  dsimp only
  rw [e']
  refine ⟨_, rfl, fun i hi => ?_⟩
  rw [logExcepts_lane h hf hi, logOne_lane h hf hi, hl i hi, logNormalize_lane h hf s hi]
  rfl

theorem log10Sub_lane {T : Ety} (h : T.Ok) (hf : T.flt = true) (s : ISA) {v : VSz} {i : Nat} (hi : i < extent T v) (x : Vec v) :
    lane T.w (log10Sub s T v x) i = laneMask T.w (sub10 (lane T.w x i)) := by
  rcases flt_cases h hf with rfl | rfl
  · refine (cmpGtI_lane s (toI_ok h hi) v _ _ hi).trans ?_
    change laneMask 32 (decide ((lane 32 x i).toInt < (lane 32 (fillV v 0x800000#32) i).toInt)) = laneMask 32 _
    rw [show lane 32 (fillV v 0x800000#32) i = _ from fillV_lane h _ hi]
    rfl
  · refine (cmpGtI_lane s (toI_ok h hi) v _ _ hi).trans ?_
    change laneMask 64 (decide ((lane 64 (shrC s Ety.f64.toI 48 v x) i).toInt < (lane 64 (fillV v (BitVec.ofNat 64 (0x10 * 2 ^ 48))) i).toInt)) = laneMask 64 _
    rw [show lane 64 (fillV v (BitVec.ofNat 64 (0x10 * 2 ^ 48))) i = _ from fillV_lane h _ hi, show lane 64 (shrC s Ety.f64.toI 48 v x) i = _ from shrT_lane h hi s 48 x]
    rfl
/-- the exponent correction as loaded by `fill<Vi>(25ull)`, `fill<Vi>(54ull)` -/
theorem fill10_lane {T : Ety} (h : T.Ok) (hf : T.flt = true) {v : VSz} {i : Nat} (hi : i < extent T v) :
    lane T.w (fillV v (if T.bytes = 8 then 54#64 else 25#64)) i =
      (if T.w = 64 then BitVec.ofNat T.w 54 else if decide (i % 2 = 1) then 0#T.w else BitVec.ofNat T.w 25) := by
  rcases flt_cases h hf with rfl | rfl
  · refine (fill64_lane32 hi _).trans ?_
    rcases Nat.mod_two_eq_zero_or_one i with e | e
    · rw [e]; show (lane 32 (25#64) 0 : BitVec 32) = 25#32; decide +kernel
    · rw [e]; show (lane 32 (25#64) 1 : BitVec 32) = 0#32; decide +kernel
  · exact fillV_lane h _ hi
theorem log10Norm_lane {T : Ety} (h : T.Ok) (hf : T.flt = true) (s : ISA) {v : VSz} {i : Nat} (hi : i < extent T v) (x : Vec v) :
    lane T.w (log10Norm s T v x).1 i = ix10 (lane T.w x i) ∧ lane T.w (log10Norm s T v x).2 i = k10 (decide (i % 2 = 1)) (lane T.w x i) := by
  unfold log10Norm
  extract_lets k m ixn k1 p k2
  have hm : lane T.w m i = laneMask T.w (sub10 (lane T.w x i)) := log10Sub_lane h hf s hi x
  have hk : lane T.w k i = 0#T.w := setzero_lane v i
  have hix : lane T.w ixn i = fmul (lane T.w x i) (expMult T.w) := by
    refine (fmulL_lane h hi _ _).trans ?_
    rw [fillV_lane h _ hi]
  have hk1 : lane T.w k1 i = if sub10 (lane T.w x i) then 0#T.w - (if T.w = 64 then BitVec.ofNat T.w 54 else if decide (i % 2 = 1) then 0#T.w else BitVec.ofNat T.w 25) else 0#T.w := by
    refine (subT_lane h hi s _ _).trans ?_
    rw [bitAnd_lane, hm, mask_and, fill10_lane h hf hi, hk]
    split <;> simp
  have hp : lane T.w p.1 i = ix10 (lane T.w x i) ∧
      lane T.w p.2 i = if sub10 (lane T.w x i) then 0#T.w - (if T.w = 64 then BitVec.ofNat T.w 54 else if decide (i % 2 = 1) then 0#T.w else BitVec.ofNat T.w 25) else 0#T.w := by
    cases ht : testMask s v m
    · have hs : sub10 (lane T.w x i) = false := by
        cases hs : sub10 (lane T.w x i) with
        | false => rfl
        | true =>
          rw [hs] at hm
          rw [testMask_of_lane s h hi hm] at ht
          cases ht
      simp [p, ht, ix10, hs, hk]
    · simp only [p, ht, if_true, hk1]
      refine ⟨?_, trivial⟩
      refine (blendT_lane h hi s x ixn m _ hm).trans ?_
      rw [hix]; rfl
  refine ⟨hp.1, ?_⟩
  refine (addT_lane h hi s _ _).trans ?_
  rw [subT_lane h hi, shrT_lane h hi, fillV_lane h _ hi, hp.1, hp.2]
  rfl
theorem implLog10_lane {T : Ety} (h : T.Ok) (hf : T.flt = true) (o : MathOpt) (s : ISA) (fm : Bool) {v : VSz} (x : Vec v) :
    ∃ r, implLog10 o s fm T v x = some r ∧ ∀ i, i < extent T v → lane T.w r i = log10F o s.avx (decide (i % 2 = 1)) fm (lane T.w x i) := by
  unfold implLog10
  extract_lets p k sg ix0 ix ks y
  obtain ⟨r, e, hl⟩ := evalLog_lane h hf s fm ix
  rw [e]
  refine ⟨_, rfl, fun i hi => ?_⟩
  obtain ⟨h1, h2⟩ := log10Norm_lane h hf s hi x
  have hsg : lane T.w sg i = k10 (decide (i % 2 = 1)) (lane T.w x i) >>> (T.w - 1) := (shrT_lane h hi s _ _).trans (congrArg (fun z : BitVec T.w => z >>> (T.w - 1)) h2)
  have hix : lane T.w ix i = arg10 (decide (i % 2 = 1)) (lane T.w x i) := by
    refine (bitOr_lane _ _ _ _).trans ?_
    rw [shlT_lane h hi, subT_lane h hi, fillV_lane h _ hi, hsg]
    refine congrArg (· ||| _) ?_
    refine (bitAnd_lane _ _ _ _).trans ?_
    rw [fillV_lane h _ hi]
    exact congrArg (· &&& _) h1
  have hks : lane T.w ks i = ks10 (decide (i % 2 = 1)) (lane T.w x i) := by
    refine (addT_lane h hi s _ _).trans ?_
    rw [hsg]; exact congrArg (· + _) h2
  have hy : lane T.w y i = ofInt T.w ((ks10 (decide (i % 2 = 1)) (lane T.w x i)).setWidth 32).toInt := by
    refine (kf_lane h hf hi _).trans ?_
    rw [hks]
  rw [logExcepts_lane h hf hi, logOne_lane h hf hi, fmaddV_lane h hi, fmaddV_lane h hi, fmulL_lane h hi, hy, hl i hi, hix,
    fillV_lane h _ hi, fillV_lane h _ hi, fillV_lane h _ hi]
  rfl
theorem log1pExcepts_lane {T : Ety} (h : T.Ok) (hf : T.flt = true) {v : VSz} {i : Nat} (hi : i < extent T v) (o : MathOpt) (s : ISA) (y x : Vec v) :
    lane T.w (log1pExcepts o s T v y x) i = exc1p o s.avx (lane T.w y i) (lane T.w x i) := by
  unfold log1pExcepts exc1p exceptDivzero exceptInvalid
  extract_lets mo y1 ex y2 zm y3 mm mo' z1
  have hmo : lane T.w mo i = mo' := fillV_lane h _ hi
  have h1 : lane T.w y1 i = z1 := prop_lane h hi o s y x
  cases o.handleErr
  · exact h1
  · simp only [if_true]
    have he : lane T.w y2 i = if lane T.w x i >>> mantBits T.w = 0#T.w then lane T.w x i else z1 := by
      refine (blendv_lane s h v _ _ _ hi (decide (lane T.w x i >>> mantBits T.w = 0#T.w)) ((cmpEqI_lane s h v _ _ hi).trans ?_)).trans ?_
      · rw [setzero_lane]; exact congrArg (fun z => laneMask T.w (decide (z = 0#T.w))) (shrT_lane h hi s _ x)
      · rw [h1]; simp only [decide_eq_true_eq]
    have hz : lane T.w zm i = laneMask T.w (fEq (lane T.w x i) mo') := by
      refine (cmpEqF_lane h hf hi s _ _).trans ?_
      rw [hmo]
    have hm : lane T.w mm i = laneMask T.w (fLt (lane T.w x i) mo') := by
      refine (cmpF_lane h hi _ _ _).trans ?_
      rw [hmo]
    have h2 : lane T.w y3 i = if fEq (lane T.w x i) mo' then fdiv (oneBits T.w) (fsub (lane T.w x i) (lane T.w x i)) else
        if lane T.w x i >>> mantBits T.w = 0#T.w then lane T.w x i else z1 := by
      refine (guard_lane s h hi y2 _ zm _ hz).trans ?_
      rw [he, fdivL_lane h hi, fillV_lane h _ hi, fsubL_lane h hi]; rfl
    refine (guard_lane s h hi y3 _ mm _ hm).trans ?_
    rw [h2, fdivL_lane h hi, setzero_lane, fsubL_lane h hi]
theorem implLog1p_lane {T : Ety} (h : T.Ok) (hf : T.flt = true) (o : MathOpt) (s : ISA) (fm : Bool) {v : VSz} (x : Vec v) :
    ∃ r, implLog1p o s fm T v x = some r ∧ ∀ i, i < extent T v → lane T.w r i = log1pF o s.avx fm (lane T.w x i) := by
  unfold implLog1p
  extract_lets one u rm k0 k cm c0 c1 c em c'
  obtain ⟨r, e, hl⟩ := evalLog_lane h hf s fm u
  rw [e]
  refine ⟨_, rfl, fun i hi => ?_⟩
  have hone : lane T.w one i = oneBits T.w := fillV_lane h _ hi
  have hu : lane T.w u i = fadd (lane T.w x i) (oneBits T.w) := (faddL_lane h hi _ _).trans (by rw [hone])
  have hk : lane T.w k i = k1p (lane T.w x i) := by
    refine (subT_lane h hi s _ _).trans ?_
    rw [shrT_lane h hi, fillV_lane h _ hi]
    refine congrArg (fun z : BitVec T.w => z >>> mantBits T.w - log1pExp T.w) ?_
    refine (addT_lane h hi s _ _).trans ?_
    rw [hu, fillV_lane h _ hi]
  have hrm : lane T.w rm i = laneMask T.w (decide ((lane T.w x i).toInt < (log1pRange T.w).toInt)) := by
    refine (cmpGtI_lane s h v _ _ hi).trans ?_
    rw [fillV_lane h _ hi]
  have hcm : lane T.w cm i = laneMask T.w (decide ((k1p (lane T.w x i)).toInt < (0#T.w).toInt)) := by
    refine (cmpGtI_lane s h v _ _ hi).trans ?_
    rw [hk, setzero_lane]
  have hc : lane T.w c i = if (k1p (lane T.w x i)).toInt < (0#T.w).toInt then fsub (lane T.w x i) (fsub (fadd (lane T.w x i) (oneBits T.w)) (oneBits T.w))
      else fsub (oneBits T.w) (fsub (fadd (lane T.w x i) (oneBits T.w)) (lane T.w x i)) := by
    refine (blendv_lane s h v _ _ _ hi _ hcm).trans ?_
    simp only [decide_eq_true_eq]
    rw [show lane T.w c0 i = fsub (lane T.w one i) (lane T.w (fsubL T.w u x) i) from fsubL_lane h hi _ _,
      show lane T.w c1 i = fsub (lane T.w x i) (lane T.w (fsubL T.w u one) i) from fsubL_lane h hi _ _, fsubL_lane h hi, fsubL_lane h hi, hu, hone]
  have hem : lane T.w em i = laneMask T.w (decide ((BitVec.ofNat T.w (mantBits T.w - 1)).toInt < (k1p (lane T.w x i)).toInt) ||
      decide ((lane T.w x i).toInt < (log1pRange T.w).toInt)) := by
    refine (bitOr_lane _ _ _ _).trans ?_
    rw [hrm, cmpGtI_lane s h v _ _ hi, hk, fillV_lane h _ hi]
    generalize decide ((BitVec.ofNat T.w (mantBits T.w - 1)).toInt < (k1p (lane T.w x i)).toInt) = p
    generalize decide ((lane T.w x i).toInt < (log1pRange T.w).toInt) = q
    cases p <;> cases q <;> simp [laneMask]
  have hc' : lane T.w c' i = c1p (lane T.w x i) := by
    refine (andnot_lane h hi _ _).trans ?_
    rw [hem, andnot_mask, hc]; rfl
  rw [log1pExcepts_lane h hf hi, andnot_lane h hi, cmpEqF_lane h hf hi, setzero_lane, andnot_mask, faddL_lane h hi, fdivL_lane h hi, hl i hi, hc', hu]
  rfl
end Dpm.X86
