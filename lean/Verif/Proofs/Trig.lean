import Verif.Model.Trig
import Verif.Proofs.Guard
import Verif.Proofs.Ilogb
import Verif.Proofs.TruncSse2
import Verif.Props.X86Round
/-! Lane-wise form of the trigonometric kernels. -/
namespace Dpm.X86
open Dpm.Reg Dpm.Fp

/-! ### One-lane versions -/
def fmaL (fm : Bool) {w : Nat} (a b c : BitVec w) : BitVec w := if fm then ffmaG false false a b c else fadd (fmul a b) c
def fmsL (fm : Bool) {w : Nat} (a b c : BitVec w) : BitVec w := if fm then ffmaG false true a b c else fsub (fmul a b) c
/-- Horner's rule with any multiply-add -/
def horner {α : Type} (f : α → α → α → α) (x y : α) : List α → α
  | [] => y
  | c :: cs => horner f x (f y x c) cs
def polevlWith {α : Type} (f : α → α → α → α) (z x : α) : List α → α
  | [] => z
  | c :: cs => horner f x c cs
/-- `polevl` on one lane -/
def polL (fm : Bool) {w : Nat} (x : BitVec w) (cs : List (BitVec w)) : BitVec w := polevlWith (fmaL fm) 0 x cs

instance (s : ISA) (T : Ety) (v : VSz) : Decidable (CvtOk s T v) := by unfold CvtOk; infer_instance
/-- the constant added and subtracted by `cvt_f64_i64` -/
def off64 : BitVec 64 := ofInt 64 0x0018000000000000
/-- `cvtt<I, T>` on one lane -/
def cvttLaneIF (s : ISA) (v : VSz) {w : Nat} (a : BitVec w) : BitVec w :=
  if w = 64 then
    if s.dqvl then cvtInt w (if v = .v128 then .nearest else .zero) a
    else if v = .v128 then (fadd (truncLane (if s.sse3 then 1023 else 1011) (a.setWidth 64)) off64 - off64).setWidth w
    else (fadd (roundInt .zero (a.setWidth 64)) off64 - off64).setWidth w
  else cvtInt w .zero a
/-- `cvt<T, I>` on one lane -/
def cvtLaneIF (s : ISA) (T : Ety) (v : VSz) {w : Nat} (a : BitVec w) : BitVec w :=
  if CvtOk s T v then ofInt w a.toInt else (i64f64Bad (a.setWidth 64)).setWidth w

/-- `i = isodd(y) ? y + 1 : y` -/
def octant (ct : BitVec w → BitVec w) (ab : BitVec w) : BitVec w := (ct (fdiv ab (pio4 w)) + 1#w) &&& ~~~ 1#w
/-- the reduced argument -/
def redArg (fm : Bool) {w : Nat} (y ab : BitVec w) : BitVec w :=
  fmaL fm y ((dpSincos w).getD 2 0) (fmaL fm y ((dpSincos w).getD 1 0) (fmaL fm y ((dpSincos w).getD 0 0) ab))
/-- the sine and cosine polynomials -/
def sinPol (fm : Bool) {w : Nat} (z : BitVec w) : BitVec w :=
  fmaL fm (fmul (polL fm (fmul z z) (sincof w)) (fmul z z)) z z
def cosPol (fm : Bool) {w : Nat} (z : BitVec w) : BitVec w :=
  fadd (fmaL fm (mhalfBits w) (fmul z z) (fmul (polL fm (fmul z z) (coscof w)) (fmul (fmul z z) (fmul z z)))) (oneBits w)
/-- `eval_sincos` on one lane -/
def sinLane (ct cv : BitVec w → BitVec w) (fm : Bool) (sg ab : BitVec w) : BitVec w :=
  let i := octant ct ab
  let z := redArg fm (cv i) ab
  (if (i &&& 2#w) <<< (w - 2) = 0#w then sinPol fm z else cosPol fm z) ^^^ (((i &&& 4#w) <<< (w - 3)) ^^^ sg)
def cosLane (ct cv : BitVec w → BitVec w) (fm : Bool) (ab : BitVec w) : BitVec w :=
  let i := octant ct ab
  let z := redArg fm (cv i) ab
  (if (i &&& 2#w) <<< (w - 2) = 0#w then cosPol fm z else sinPol fm z) ^^^ (((i &&& 4#w) <<< (w - 3)) ^^^ ((i &&& 2#w) <<< (w - 2)))

section lanes
variable {T : Ety} (h : T.Ok) {v : VSz} {i : Nat} (hi : i < extent T v)
include h hi
theorem fmaddV_lane (fm : Bool) (a b c : Vec v) : lane T.w (fmaddV fm T.w a b c) i = fmaL fm (lane T.w a i) (lane T.w b i) (lane T.w c i) := by
  unfold fmaddV fmaL
  cases fm
  · exact (faddL_lane h hi _ _).trans (congrArg (fadd · _) (fmulL_lane h hi _ _))
  · exact lane_map3 _ _ _ _ (lane_bound h hi)
theorem fmsubV_lane (fm : Bool) (a b c : Vec v) : lane T.w (fmsubV fm T.w a b c) i = fmsL fm (lane T.w a i) (lane T.w b i) (lane T.w c i) := by
  unfold fmsubV fmsL
  cases fm
  · exact (fsubL_lane h hi _ _).trans (congrArg (fsub · _) (fmulL_lane h hi _ _))
  · exact lane_map3 _ _ _ _ (lane_bound h hi)
theorem sqrtL_lane (a : Vec v) : lane T.w (sqrtL T.w a) i = fsqrt (lane T.w a i) := lane_map1 _ _ (lane_bound h hi)
theorem unwrapPolevl_lane (fm : Bool) (cs : List (BitVec T.w)) : ∀ x y : Vec v,
    lane T.w (unwrapPolevl fm T.w v x y cs) i = horner (fmaL fm) (lane T.w x i) (lane T.w y i) cs := by
  induction cs with
  | nil => intro x y; rfl
  | cons c cs ih =>
    intro x y
    rw [unwrapPolevl, ih, fmaddV_lane h hi, fillV_lane h _ hi]; rfl
theorem polevlV_lane (fm : Bool) (x : Vec v) (cs : List (BitVec T.w)) :
    lane T.w (polevlV fm T.w v x cs) i = polL fm (lane T.w x i) cs := by
  cases cs with
  | nil => exact lane_zero _ _ _
  | cons c cs => rw [polevlV, unwrapPolevl_lane h hi, fillV_lane h _ hi]; rfl
end lanes

theorem f64i64L_off {n : Nat} (x : BitVec n) {i : Nat} (hb : (i + 1) * 64 ≤ n) :
    lane 64 (f64i64L x) i = fadd (lane 64 x i) off64 - off64 := by
  show lane 64 (subL 64 (faddL 64 x (set1 n off64)) (set1 n off64)) i = _
  generalize off64 = o
  refine (lane_map2 (w := 64) _ _ _ hb).trans ?_
  rw [set1_lane _ hb]
  refine congrArg (· - _) ((lane_map2 (w := 64) _ _ _ hb).trans ?_)
  rw [set1_lane _ hb]
attribute [irreducible] off64
theorem cvtt128_lane (s : ISA) (x : BitVec 128) {i : Nat} (hi : i < 2) :
    lane 64 (if s.dqvl then cvtfpL (n := 128) 64 .nearest x else f64i64L (n := 128) (truncSse2 s (n := 128) x)) i =
    if s.dqvl then cvtInt 64 .nearest (lane 64 x i) else fadd (truncLane (if s.sse3 then 1023 else 1011) (lane 64 x i)) off64 - off64 := by
  cases s.dqvl
  · simp only [Bool.false_eq_true, if_false]
    rw [f64i64L_off _ (by omega), truncSse2_lane s x hi]
  · simp only [if_true]
    exact lane_map1 (w := 64) _ _ (by omega)
theorem mux1_f64i64_lane (x : BitVec 256) {i : Nat} (hi : i < 4) : lane 64 (mux1 f64i64L x) i = fadd (lane 64 x i) off64 - off64 := by
  have hf : ∀ (a : BitVec 128) (j : Nat), j < 2 → lane 64 (f64i64L a) j = fadd (lane 64 a j) off64 - off64 :=
    fun a j hj => f64i64L_off a (by omega)
  generalize (f64i64L : BitVec 128 → BitVec 128) = f at *
  generalize off64 = o at *
  rw [mux1]
  by_cases h2 : i < 2
  · rw [lane_setHL_lo _ _ (by omega), hf _ _ h2, lane_lo _ (by omega)]
  · obtain ⟨j, rfl⟩ : ∃ j, i = j + 2 := ⟨i - 2, by omega⟩
    rw [lane_setHL_hi (j := j) _ _ (by omega), hf _ _ (by omega), lane_hi (i := j + 2) (j := j) _ (by omega) (by omega)]
theorem cvtt256_lane (s : ISA) (x : BitVec 256) {i : Nat} (hi : i < 4) :
    lane 64 (if s.dqvl then cvtfpL (n := 256) 64 .zero x
      else if s.avx2 then f64i64L (n := 256) (roundL 64 .zero (n := 256) x)
      else mux1 f64i64L (roundL 64 .zero (n := 256) x)) i =
    if s.dqvl then cvtInt 64 .zero (lane 64 x i) else fadd (roundInt .zero (lane 64 x i)) off64 - off64 := by
  have hr : lane 64 (roundL 64 .zero (n := 256) x) i = roundInt .zero (lane 64 x i) := lane_map1 (w := 64) _ _ (by omega)
  cases s.dqvl
  · simp only [Bool.false_eq_true, if_false]
    cases s.avx2
    · simp only [Bool.false_eq_true, if_false]
      rw [mux1_f64i64_lane _ hi, hr]
    · simp only [if_true]
      rw [f64i64L_off _ (by omega), hr]
  · simp only [if_true]
    exact lane_map1 (w := 64) _ _ (by omega)
theorem cvttLaneIF_32 (s : ISA) (v : VSz) (a : BitVec 32) : cvttLaneIF s v a = cvtInt 32 .zero a := by
  unfold cvttLaneIF
  rw [if_neg (by decide)]
theorem cvttLaneIF_128 (s : ISA) (a : BitVec 64) : cvttLaneIF s .v128 a =
    if s.dqvl then cvtInt 64 .nearest a else fadd (truncLane (if s.sse3 then 1023 else 1011) a) off64 - off64 := by
  unfold cvttLaneIF
  generalize off64 = o
  simp only [if_true, BitVec.setWidth_eq]
theorem cvttLaneIF_256 (s : ISA) (a : BitVec 64) : cvttLaneIF s .v256 a =
    if s.dqvl then cvtInt 64 .zero a else fadd (roundInt .zero a) off64 - off64 := by
  unfold cvttLaneIF
  generalize off64 = o
  simp only [if_true, BitVec.setWidth_eq, if_neg (show ¬ (VSz.v256 = VSz.v128) by decide)]
theorem cvttIF_lane (s : ISA) {T : Ety} (h : T.Ok) (hf : T.flt = true) {v : VSz} (x : Vec v) {i : Nat} (hi : i < extent T v) :
    lane T.w (cvttIF s T v x) i = cvttLaneIF s v (lane T.w x i) := by
  have hb := lane_bound h hi
  obtain ⟨b, f, sg⟩ := T
  rcases (h.2 hf).1 with h4 | h8
  · dsimp only at h4; subst h4
    refine Eq.trans ?_ (cvttLaneIF_32 s v (lane 32 x i)).symm
    cases v <;> exact lane_map1 (w := 32) _ _ hb
  · dsimp only at h8; subst h8
    have hi2 : i < v.bits / 64 := by rw [extent8] at hi; exact hi
    cases v with
    | v128 =>
      refine Eq.trans ?_ (cvttLaneIF_128 s (lane 64 x i)).symm
      refine Eq.trans ?_ (cvtt128_lane s x hi2)
      unfold cvttIF
      dsimp only
      rw [if_pos rfl]
      rfl
    | v256 =>
      refine Eq.trans ?_ (cvttLaneIF_256 s (lane 64 x i)).symm
      refine Eq.trans ?_ (cvtt256_lane s x hi2)
      unfold cvttIF
      dsimp only
      rw [if_pos rfl]
      rfl
theorem cvtIF_lane' (s : ISA) {T : Ety} (h : T.Ok) (hf : T.flt = true) {v : VSz} (hw : s.Wf) (ha : v = .v256 → s.avx = true) (x : Vec v) {i : Nat} (hi : i < extent T v) :
    lane T.w (cvtIF s T v x) i = cvtLaneIF s T v (lane T.w x i) := by
  unfold cvtLaneIF
  split
  · rename_i hs; exact cvtIF_lane s h hf hs x hi
  · rename_i hs
    obtain ⟨b, f, sg⟩ := T
    dsimp only at hf; subst hf
    rcases (h.2 rfl).1 with h4 | h8
    · exact absurd (Or.inl h4) hs
    · dsimp only at h8; subst h8
      refine (cvtIF_bad s hw ha hs x hi).trans ?_
      show i64f64Bad _ = BitVec.setWidth 64 (i64f64Bad (BitVec.setWidth 64 (lane 64 x i)))
      rw [BitVec.setWidth_eq, BitVec.setWidth_eq]

set_option maxHeartbeats 1000000 in
theorem evalSincos_lane (s : ISA) (fm : Bool) {T : Ety} (h : T.Ok) (hf : T.flt = true) {v : VSz} (hw : s.Wf) (ha : v = .v256 → s.avx = true)
    (sg ab : Vec v) {i : Nat} (hi : i < extent T v) :
    lane T.w (evalSincos s fm T v sg ab).1 i = sinLane (cvttLaneIF s v) (cvtLaneIF s T v) fm (lane T.w sg i) (lane T.w ab i) ∧
    lane T.w (evalSincos s fm T v sg ab).2 i = cosLane (cvttLaneIF s v) (cvtLaneIF s T v) fm (lane T.w ab i) := by
  have hI : T.toI.Ok := toI_ok h hi
  unfold evalSincos
  extract_lets -merge I w y0 i0 i1 i2 y bit2 bit4 sc ss pm z0 z1 z zz p1 p20 p2
  have e_y0 : lane T.w y0 i = fdiv (lane T.w ab i) (pio4 T.w) := by
    refine (fdivL_lane h hi _ _).trans ?_; rw [fillV_lane h _ hi]
  have e_i2 : lane T.w i2 i = octant (cvttLaneIF s v) (lane T.w ab i) := by
    refine (bitAnd_lane _ _ _ _).trans ?_
    rw [fillV_lane h _ hi]
    refine congrArg (· &&& _) ((addT_lane h hi s _ _).trans ?_)
    rw [fillV_lane h _ hi]
    refine congrArg (· + _) ((cvttIF_lane s h hf _ hi).trans ?_)
    rw [e_y0]
  have e_y : lane T.w y i = cvtLaneIF s T v (octant (cvttLaneIF s v) (lane T.w ab i)) := by
    refine (cvtIF_lane' s h hf hw ha _ hi).trans ?_; rw [e_i2]
  have e_b2 : lane T.w bit2 i = (octant (cvttLaneIF s v) (lane T.w ab i) &&& 2#T.w) <<< (T.w - 2) := by
    refine (shlT_lane h hi s _ _).trans (congrArg (fun b : BitVec T.w => b <<< (T.w - 2)) ((bitAnd_lane _ _ _ _).trans ?_))
    rw [fillV_lane h _ hi, e_i2]
  have e_b4 : lane T.w bit4 i = (octant (cvttLaneIF s v) (lane T.w ab i) &&& 4#T.w) <<< (T.w - 3) := by
    refine (shlT_lane h hi s _ _).trans (congrArg (fun b : BitVec T.w => b <<< (T.w - 3)) ((bitAnd_lane _ _ _ _).trans ?_))
    rw [fillV_lane h _ hi, e_i2]
  have e_pm : lane T.w pm i = laneMask T.w (!decide ((octant (cvttLaneIF s v) (lane T.w ab i) &&& 2#T.w) <<< (T.w - 2) = 0#T.w)) := by
    refine (cmpNe_lane s hI v _ _ hi).trans ?_
    refine congrArg (fun b => laneMask T.w (!b)) ?_
    unfold laneEq
    have hfl : T.toI.flt = false := rfl
    rw [if_neg (by rw [hfl]; decide)]
    refine Eq.trans (congrArg (fun b => decide (lane T.toI.w bit2 i = b)) (setzero_lane (T := T.toI) _ _)) ?_
    exact congrArg (fun b => decide (b = 0#T.w)) e_b2
  have e_z : lane T.w z i = redArg fm (lane T.w y i) (lane T.w ab i) := by
    refine (fmaddV_lane h hi fm _ _ _).trans ?_
    rw [fillV_lane h _ hi]
    refine congrArg (fmaL fm _ _) ((fmaddV_lane h hi fm _ _ _).trans ?_)
    rw [fillV_lane h _ hi]
    refine congrArg (fmaL fm _ _) ((fmaddV_lane h hi fm _ _ _).trans ?_)
    rw [fillV_lane h _ hi]
  have e_zz : lane T.w zz i = fmul (lane T.w z i) (lane T.w z i) := fmulL_lane h hi _ _
  have e_p1 : lane T.w p1 i = sinPol fm (lane T.w z i) := by
    refine (fmaddV_lane h hi fm _ _ _).trans ?_
    refine congrArg (fmaL fm · _ _) ((fmulL_lane h hi _ _).trans ?_)
    rw [polevlV_lane h hi, e_zz]
  have e_p2 : lane T.w p2 i = cosPol fm (lane T.w z i) := by
    refine (faddL_lane h hi _ _).trans ?_
    rw [fillV_lane h _ hi]
    refine congrArg (fadd · _) ((fmaddV_lane h hi fm _ _ _).trans ?_)
    rw [fillV_lane h _ hi, e_zz]
    refine congrArg (fmaL fm _ _) ((fmulL_lane h hi _ _).trans ?_)
    rw [polevlV_lane h hi, e_zz]
    refine congrArg (fmul _) ((fmulL_lane h hi _ _).trans ?_)
    rw [e_zz]
  rw [e_y] at e_z
  rw [e_z] at e_p1 e_p2
  constructor
  · refine (lane_xor _ _ _ _).trans ?_
    have e1 : lane T.w (bitXor bit4 sg) i = lane T.w bit4 i ^^^ lane T.w sg i := lane_xor _ _ _ _
    rw [blendv_lane s h v _ _ _ hi _ e_pm, e1, e_b4, e_p1, e_p2]
    unfold sinLane
    dsimp only
    by_cases hc : (octant (cvttLaneIF s v) (lane T.w ab i) &&& 2#T.w) <<< (T.w - 2) = 0#T.w
    · simp [hc]
    · simp [hc]
  · refine (lane_xor _ _ _ _).trans ?_
    have e1 : lane T.w (bitXor bit4 bit2) i = lane T.w bit4 i ^^^ lane T.w bit2 i := lane_xor _ _ _ _
    rw [blendv_lane s h v _ _ _ hi _ e_pm, e1, e_b4, e_b2, e_p1, e_p2]
    unfold cosLane
    dsimp only
    by_cases hc : (octant (cvttLaneIF s v) (lane T.w ab i) &&& 2#T.w) <<< (T.w - 2) = 0#T.w
    · simp [hc]
    · simp [hc]
end Dpm.X86
