import Verif.Props.X86Trig
import Verif.Props.X86Log
import Verif.Props.X86Logb
import Verif.Props.X86Round
import Verif.Props.X86Mbase
import Verif.Props.X86Hypot
import Verif.Props.X86Rcp
/-!
C68: what README.md ("Error handling & NaN") promises about DPM_HANDLE_ERRORS and DPM_PROPAGATE_NAN, for the whole catalogue of
x86 floating-point functions with one vector argument and one vector result.
-/
namespace Dpm.X86
open Dpm.Reg Dpm.Fp

/-- The functions of one floating-point vector that have an x86 kernel and return a floating-point vector. -/
inductive MathFn where
  | sin | cos | tan | asin | acos | atan
  | log | log2 | log10 | log1p | logb
  | sqrt
  | ceil | floor | trunc | round | rint | nearbyint
  deriving DecidableEq

/-- The call `f(x)`.  `L` is the C library, `fm` says whether DPM_HAS_FMA is defined, `u1` and `u2` are registers `tan` does not
initialise. -/
def MathFn.call (f : MathFn) (c : Cfg) (L : Libm) (o : MathOpt) (fm : Bool) (u1 u2 : Vec c.v) (x : c.Data) : Out c.Data :=
  match f with
  | .sin => vSin c L o fm x | .cos => vCos c L o fm x | .tan => vTan c L o fm u1 u2 x
  | .asin => vAsin c o fm x | .acos => vAcos c o fm x | .atan => vAtan c fm x
  | .log => vLog c o fm x | .log2 => vLog2 c o fm x | .log10 => vLog10 c o fm x | .log1p => vLog1p c o fm x
  | .logb => vLogb c o x
  | .sqrt => vSqrt c x
  | .ceil => vCeil c x | .floor => vFloor c x | .trunc => vTrunc c x | .round => vRound c x
  | .rint => vRint c x | .nearbyint => vNearbyint c x

/-- The calls that lose NaN: `ceil`, `floor`, `round` and `float` `trunc` before SSE4.1, and `round` of `float`s in 32-byte
vectors. -/
def MathFn.LosesNan (f : MathFn) (c : Cfg) : Prop :=
  (c.s.sse41 = false ∧ (f = .ceil ∨ f = .floor ∨ f = .round ∨ (f = .trunc ∧ c.T.bytes = 4))) ∨
  (f = .round ∧ c.T.bytes = 4 ∧ c.v = .v256)

section C68
variable {c : Cfg} (hc : c.Ok) (hf : c.T.flt = true) (L : Libm) (o : MathOpt) (fm : Bool) (u1 u2 : Vec c.v)
include hc hf

/-- C68: with DPM_PROPAGATE_NAN every function of the catalogue maps NaN elements to NaN, except the calls of `LosesNan`. -/
theorem C68_nan_partial (hp : o.propNan = true) (f : MathFn) (hl : ¬ f.LosesNan c) (x : c.Data) :
    EachElt c (fun a r => isNaN a = true → isNaN r = true) x (f.call c L o fm u1 u2 x) := by
  have hw := fltW hc.ety hf
  obtain ⟨t1, t2, t3, t4, t5, t6⟩ := C42_nan hc hf L o fm u1 u2 x
  obtain ⟨⟨l1, l2, l3⟩, l4⟩ := C41_nan_inf hc hf o hp fm x
  have fn : ∀ {R : Int → Int → Int → Prop} {out : Out c.Data}, RoundsAll c R x out →
      EachElt c (fun a r => isNaN a = true → isNaN r = true) x out := by
    rintro R out ⟨r, hr, h⟩
    exact ⟨r, hr, fun i hi => (h i hi).nan⟩
  have nf : ∀ a : BitVec c.w, isNaN a = true → isFinite a = true → False := by
    intro a h1 h2
    rw [(finite_cls h2).1] at h1; exact Bool.noConfusion h1
  have hb : c.T.bytes = 4 ∨ c.T.bytes = 8 := (hc.ety.2 hf).1
  unfold MathFn.LosesNan at hl
  have both : ∀ g, g = MathFn.rint ∨ g = MathFn.nearbyint → EachElt c (fun a r => isNaN a = true → isNaN r = true) x (g.call c L o fm u1 u2 x) := by
    intro g hg
    cases hs : c.s.sse41 with
    | true =>
      have k := C39_sse41 hc hf hs x
      rcases hg with rfl | rfl
      · exact fn k.2.2.2.2
      · exact fn k.2.2.2.1
    | false =>
      rcases hb with h4 | h8
      · have k := C39_rint_float hc hf hs h4 x
        rcases hg with rfl | rfl
        · exact fn k.1
        · exact fn k.2
      · have k := C39_rint_double_partial hc hf hs h8 x
        rcases hg with rfl | rfl
        · exact each_imp k.1 fun a r h hn => (h fun h2 => (nf a hn h2).elim).nan hn
        · exact each_imp k.2 fun a r h hn => (h fun h2 => (nf a hn h2).elim).nan hn
  cases f
  · exact t1
  · exact t2
  · exact t3
  · exact t4
  · exact t5
  · exact t6
  · exact each_imp l1 fun _ _ h => h.1
  · exact each_imp l2 fun _ _ h => h.1
  · exact each_imp l3 fun _ _ h => h.1
  · exact each_imp l4 fun _ _ h => h.1
  · obtain ⟨r, hr, h⟩ := C37_logb_partial hc hf o x
    exact ⟨r, hr, fun i hi => (h i hi).2.2.2.2 (Or.inr hp)⟩
  · exact each_imp (C53_sqrt hc hf x) fun _ _ h hn => h.2.2.2 (Or.inl hn)
  · cases hs : c.s.sse41 with
    | true => exact fn (C39_sse41 hc hf hs x).1
    | false => exact (hl (Or.inl ⟨hs, by simp⟩)).elim
  · cases hs : c.s.sse41 with
    | true => exact fn (C39_sse41 hc hf hs x).2.1
    | false => exact (hl (Or.inl ⟨hs, by simp⟩)).elim
  · cases hs : c.s.sse41 with
    | true => exact fn (C39_sse41 hc hf hs x).2.2.1
    | false =>
      rcases hb with h4 | h8
      · exact (hl (Or.inl ⟨hs, by simp [h4]⟩)).elim
      · refine each_imp (C39_trunc_sse2_partial hc hf hs h8 x) fun a r h hn => (h (Or.inl ?_)).nan hn
        have hm := (nan_iff hw a).1 hn
        have hw8 : c.w = 64 := by show 8 * c.T.bytes = 64; omega
        have key : ∀ {w : Nat}, w = 64 → ∀ a : BitVec w, infMag w < mag a → 1023 ≤ expF a := by
          intro w hw a ha
          subst hw
          have h1 : infMag 64 = 2047 * 2 ^ 52 := by decide
          have h2 : expF a = mag a / 2 ^ 52 := rfl
          omega
        exact key hw8 a hm
  · cases hs : c.s.sse41 with
    | true => exact fn (C39_round_sse41_partial hc hf hs (fun h => hl (Or.inr ⟨rfl, h⟩)) x)
    | false => exact (hl (Or.inl ⟨hs, by simp⟩)).elim
  · exact both _ (Or.inl rfl)
  · exact both _ (Or.inr rfl)

/-- C68 is violated by the calls of `LosesNan`, whatever the options: a NaN element gives a number. -/
theorem C68_rounding_violated (f : MathFn) (hl : f.LosesNan c) (x : c.Data) :
    EachElt c (fun a r => isNaN a = true → isFinite r = true) x (f.call c L o fm u1 u2 x) := by
  have hw := fltW hc.ety hf
  have hz : ∀ r : BitVec c.w, isZero r = true → isFinite r = true := fun r h => by
    rw [finite_iff hw, (zero_iff r).1 h]; exact infMag_pos hw
  rcases hl with ⟨hs, h⟩ | ⟨rfl, h⟩
  · have k := C39_range_violated hc hf hs x
    rcases h with rfl | rfl | rfl | ⟨rfl, h4⟩
    · exact each_imp k.1 fun a r h hn => (h (Or.inl hn)).1
    · exact each_imp k.2.1 fun a r h hn => (h (Or.inl hn)).1
    · exact each_imp (C39_round_nan_violated hc hf hs x) fun a r h hn => (h (Or.inl hn)).1
    · refine each_imp (k.2.2 h4) fun a r h hn => ?_
      rw [h (Or.inl hn)]
      have key : ∀ {w : Nat}, W w → isFinite (ofInt w (-2 ^ 31)) = true := by
        intro w hw; rcases hw with h | h <;> subst h <;> decide +kernel
      exact key hw
  · obtain ⟨r, hr, k⟩ := C39_round_avx_violated hc hf h x
    exact ⟨r, hr, fun i hi _ => hz _ (k i hi)⟩

/-- C68, functions of several vectors: with DPM_PROPAGATE_NAN `nextafter` and the `fma` family give NaN as soon as one operand is NaN,
`hypot` does if no operand is infinite (IEEE 754 requires `hypot(inf, NaN) = inf`). -/
theorem C68_nan_operands (hp : o.propNan = true) (a b d : c.Data) :
    EachElt2 c (fun x y r => isNaN x = true ∨ isNaN y = true → isNaN r = true) a b (vNextafter c o a b) ∧
    EachElt3 c (fun x y z r => isNaN x = true ∨ isNaN y = true ∨ isNaN z = true → isNaN r = true) a b d (vFma c fm a b d) ∧
    EachElt2 c (fun x y r => isNaN x = true ∨ isNaN y = true → isInf x = false → isInf y = false → isNaN r = true) a b (vHypot c o fm a b) := by
  refine ⟨?_, C52_nan hc hf a b d fm, C43_nan hc hf o fm a b⟩
  obtain ⟨r, hr, h⟩ := C38_nextafter hc hf o hp a b
  exact ⟨r, hr, fun i hi => (h i hi).2⟩

omit hc hf in
theorem ct_two {w : Nat} (h : W w) (s : ISA) (v : VSz) : cvttLaneIF s v (fdiv (halfPiPat w) (pio4 w)) = 2#w := by
  rcases h with h | h <;> subst h
  · rw [cvttLaneIF_32]; decide +kernel
  · cases v
    · rw [cvttLaneIF_128]
      unfold off64
      cases s.dqvl <;> cases s.sse3 <;> decide +kernel
    · rw [cvttLaneIF_256]
      unfold off64
      cases s.dqvl <;> decide +kernel
omit hc hf in
theorem cv_two {w : Nat} (h : W w) (s : ISA) (T : Ety) (hT : T.w = w) (v : VSz) : cvtLaneIF s T v 2#w = ofInt w 2 := by
  unfold cvtLaneIF
  split
  · rcases h with h | h <;> subst h <;> decide +kernel
  · rename_i hs
    rw [i64f64Bad_eq]
    rcases h with h | h
    · exact absurd (Or.inl (by unfold Ety.w at hT; omega)) hs
    · subst h; decide +kernel
omit hc hf in
theorem half_pi_kernel {w : Nat} (h : W w) (fm : Bool) : abB (halfPiPat w) = halfPiPat w ∧ sgB (halfPiPat w) = 0#w ∧ fEq (halfPiPat w) (infBits w) = false ∧
    fLt (cvtMax w) (halfPiPat w) = false ∧ (2#w + 1#w) &&& ~~~ 1#w = 2#w ∧ cosPol fm (redArg fm (ofInt w 2) (halfPiPat w)) = oneBits w ∧
    (2#w &&& 2#w) <<< (w - 2) ≠ 0#w ∧ (2#w &&& 4#w) <<< (w - 3) = 0#w := by
  rcases h with h | h <;> subst h <;> cases fm <;> decide +kernel
omit hc hf in
theorem sin_half_pi_lane {w : Nat} (hw : W w) (s : ISA) (T : Ety) (hT : T.w = w) (v : VSz) (f : BitVec w → BitVec w) (o : MathOpt) (fm : Bool) :
    sinF f (cvttLaneIF s v) (cvtLaneIF s T v) o fm (halfPiPat w) = oneBits w := by
  obtain ⟨k1, k2, k3, k4, k5, k6, k7, k8⟩ := half_pi_kernel hw fm
  unfold sinF finLane
  dsimp only
  rw [k1, k3, Bool.and_false]
  simp only [Bool.false_eq_true, if_false, k4]
  unfold sinLane octant
  dsimp only
  rw [ct_two hw, k5, cv_two hw s T hT, k6, k8, if_neg k7, k2, BitVec.xor_zero, BitVec.xor_zero]

omit hc hf in
theorem half_pi_small {w : Nat} (h : W w) : ¬ Large (halfPiPat w) := by
  unfold Large; rcases h with h | h <;> subst h <;> decide +kernel
/-- C68, the table of README.md, for every vector: with any options `sin(+-0) = +-0`, `sin(+-pi/2) = +-1`, `asin(+-0) = +-0` and
`asin(+-1) = +-pi/2` (the numbers nearest to them); with DPM_HANDLE_ERRORS `sin(+-inf)`, `asin(x)` for `|x| > 1` (2 and infinities
included) and both functions of NaN are NaN; with DPM_PROPAGATE_NAN alone NaN arguments still give NaN. -/
theorem C68_table (x : c.Data) :
    EachElt c (fun a r => (isZero a = true → r = a) ∧ (a = halfPiPat c.w → r = oneBits c.w) ∧
      (a = halfPiPat c.w ^^^ BitVec.intMin c.w → r = oneBits c.w ^^^ BitVec.intMin c.w) ∧
      (o.handleErr = true → isInf a = true → isNaN r = true) ∧
      (o.handleErr = true ∨ o.propNan = true → isNaN a = true → isNaN r = true)) x (vSin c L o fm x) ∧
    EachElt c (fun a r => (isZero a = true → r = a) ∧ (IsOne a → r = withSign a (halfPiPat c.w)) ∧
      (o.handleErr = true → isNaN a = false → 2 ^ unitExp c.w < (val a).natAbs → isNaN r = true) ∧
      (o.handleErr = true ∨ o.propNan = true → isNaN a = true → isNaN r = true)) x (vAsin c o fm x) := by
  have hw := fltW hc.ety hf
  have hz := C42_zero hc hf L o fm 0 0 x
  have hn := C42_nan hc hf L o fm 0 0 x
  have hi := C42_inf hc hf L o fm 0 0 x
  have hd := C42_domain hc hf o fm x
  have he := C42_endpoints hc hf o fm x
  have hs := vSin_elt hc hf L o fm x
  constructor
  · obtain ⟨r, hr, e⟩ := hs
    obtain ⟨r1, hr1, e1⟩ := hz.1
    obtain ⟨r2, hr2, e2⟩ := hn.1
    obtain ⟨r3, hr3, e3⟩ := hi.1
    obtain rfl : r = r1 := Out.ok.inj (hr.symm.trans hr1)
    obtain rfl : r = r2 := Out.ok.inj (hr.symm.trans hr2)
    obtain rfl : r = r3 := Out.ok.inj (hr.symm.trans hr3)
    refine ⟨r, hr, fun i hi => ⟨e1 i hi, fun ha => ?_, fun ha => ?_, fun ho ha => ?_, fun _ => e2 i hi⟩⟩
    · rw [e i hi, ha]; exact sin_half_pi_lane hw _ _ rfl _ _ _ _
    · rw [e i hi, ha, sinF_flip hw _ _ _ _ _ _ (fun hl => ?_), sin_half_pi_lane hw _ _ rfl]
      exact absurd hl (half_pi_small hw)
    · have := e3 i hi ha
      rwa [if_pos ho] at this
  · obtain ⟨r, hr, e⟩ := hz.2.2.1
    obtain ⟨r1, hr1, e1⟩ := he.1
    obtain ⟨r2, hr2, e2⟩ := hd.1
    obtain ⟨r3, hr3, e3⟩ := hn.2.2.2.1
    obtain rfl : r = r1 := Out.ok.inj (hr.symm.trans hr1)
    obtain rfl : r = r2 := Out.ok.inj (hr.symm.trans hr2)
    obtain rfl : r = r3 := Out.ok.inj (hr.symm.trans hr3)
    exact ⟨r, hr, fun i hi => ⟨e i hi, e1 i hi, fun _ => e2 i hi, fun _ => e3 i hi⟩⟩
end C68

/-! ### examples -/
/-- NaN in all six elements: `log` with DPM_PROPAGATE_NAN gives NaN -/
example : ∃ r, MathFn.log.call exF32 exLibm ⟨true, false⟩ false 0 0 (vbroadcast exF32 0x7fc00000 (zeroData exF32)) = .ok r ∧ isNaN (elt exF32 r 5) = true := by
  obtain ⟨r, hr, h⟩ := C68_nan_partial exF32_ok rfl exLibm ⟨true, false⟩ false 0 0 rfl .log (by unfold MathFn.LosesNan; simp) (vbroadcast exF32 0x7fc00000 (zeroData exF32))
  refine ⟨r, hr, h 5 (by decide) ?_⟩
  rw [elt_vbroadcast exF32_ok _ _ (by decide)]; decide
/-- ... and `floor` on SSE2 gives a number -/
example : ∃ r, MathFn.floor.call exF32 exLibm ⟨true, true⟩ false 0 0 (vbroadcast exF32 0x7fc00000 (zeroData exF32)) = .ok r ∧ isFinite (elt exF32 r 5) = true := by
  obtain ⟨r, hr, h⟩ := C68_rounding_violated exF32_ok rfl exLibm ⟨true, true⟩ false 0 0 .floor (Or.inl ⟨rfl, by simp⟩) (vbroadcast exF32 0x7fc00000 (zeroData exF32))
  refine ⟨r, hr, h 5 (by decide) ?_⟩
  rw [elt_vbroadcast exF32_ok _ _ (by decide)]; decide
/-- `sin(pi/2) = 1` in every element, no options -/
example : ∃ r, vSin exF32 exLibm ⟨false, false⟩ false (vbroadcast exF32 0x3fc90fdb (zeroData exF32)) = .ok r ∧ elt exF32 r 4 = 0x3f800000#32 := by
  obtain ⟨r, hr, h⟩ := (C68_table exF32_ok rfl exLibm ⟨false, false⟩ false (vbroadcast exF32 0x3fc90fdb (zeroData exF32))).1
  refine ⟨r, hr, ((h 4 (by decide)).2.1 ?_).trans (show oneBits 32 = 0x3f800000#32 by decide)⟩
  rw [elt_vbroadcast exF32_ok _ _ (by decide)]; decide
end Dpm.X86
