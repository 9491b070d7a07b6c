/-
Registers as bit vectors and their lanes.  No code of dpm: this is the memory layout the code sees
through `reinterpret_cast` (little endian, lane `i` of width `w` occupies bits `[i*w, (i+1)*w)`).
-/
namespace Dpm.Reg

/-- Build a bit vector from its bits. -/
def ofBits : (n : Nat) → (Nat → Bool) → BitVec n
  | 0, _ => 0#0
  | n + 1, p => BitVec.cons (p n) (ofBits n p)

theorem getLsbD_ofBits (n : Nat) (p : Nat → Bool) (i : Nat) :
    (ofBits n p).getLsbD i = (decide (i < n) && p i) := by
  induction n with
  | zero => simp [ofBits]
  | succ n ih =>
    simp only [ofBits, BitVec.getLsbD_cons, ih]
    split
    · next h => subst h; simp
    · next h =>
      by_cases h2 : i < n
      · simp [h2, Nat.lt_succ_of_lt h2]
      · have : ¬ i < n + 1 := by omega
        simp [h2, this]

/-- Lane `i` of width `w`. -/
def lane (w : Nat) {n : Nat} (x : BitVec n) (i : Nat) : BitVec w := x.extractLsb' (i * w) w

/-- The register whose lane `i` is `f i`. -/
def ofLanes (n w : Nat) (f : Nat → BitVec w) : BitVec n :=
  ofBits n (fun k => (f (k / w)).getLsbD (k % w))

theorem getLsbD_lane (w : Nat) {n : Nat} (x : BitVec n) (i k : Nat) :
    (lane w x i).getLsbD k = (decide (k < w) && x.getLsbD (i * w + k)) := by
  simp [lane]

theorem lane_ofLanes {n w : Nat} (f : Nat → BitVec w) {i : Nat} (h : (i + 1) * w ≤ n) :
    lane w (ofLanes n w f) i = f i := by
  apply BitVec.eq_of_getLsbD_eq
  intro k hk
  rw [getLsbD_lane, ofLanes, getLsbD_ofBits]
  have h1 : i * w + k < n := by
    have : (i + 1) * w = i * w + w := Nat.succ_mul i w
    omega
  have hw : 0 < w := by omega
  have h2 : (i * w + k) / w = i := by
    rw [Nat.mul_comm, Nat.mul_add_div hw, Nat.div_eq_of_lt hk, Nat.add_zero]
  have h3 : (i * w + k) % w = k := by
    rw [Nat.mul_comm, Nat.mul_add_mod, Nat.mod_eq_of_lt hk]
  simp [hk, h1, h2, h3]

/-- Two registers with equal lanes are equal. -/
theorem ext_lanes {n w e : Nat} (hn : n = e * w) (x y : BitVec n)
    (h : ∀ i, i < e → lane w x i = lane w y i) : x = y := by
  apply BitVec.eq_of_getLsbD_eq
  intro k hk
  have hw : 0 < w := by
    rcases Nat.eq_zero_or_pos w with h0 | h0
    · subst h0; simp at hn; omega
    · exact h0
  have hi : k / w < e := (Nat.div_lt_iff_lt_mul hw).2 (by omega)
  have := congrArg (fun v => v.getLsbD (k % w)) (h _ hi)
  simp only [getLsbD_lane, Nat.mod_lt k hw, decide_true, Bool.true_and] at this
  have hk2 : k / w * w + k % w = k := by rw [Nat.mul_comm]; exact Nat.div_add_mod k w
  rwa [hk2] at this

theorem lane_and (w : Nat) {n : Nat} (x y : BitVec n) (i : Nat) :
    lane w (x &&& y) i = lane w x i &&& lane w y i := by
  apply BitVec.eq_of_getLsbD_eq; intro k hk
  simp only [getLsbD_lane, hk, decide_true, Bool.true_and, BitVec.getLsbD_and]
theorem lane_or (w : Nat) {n : Nat} (x y : BitVec n) (i : Nat) :
    lane w (x ||| y) i = lane w x i ||| lane w y i := by
  apply BitVec.eq_of_getLsbD_eq; intro k hk
  simp only [getLsbD_lane, hk, decide_true, Bool.true_and, BitVec.getLsbD_or]
theorem lane_xor (w : Nat) {n : Nat} (x y : BitVec n) (i : Nat) :
    lane w (x ^^^ y) i = lane w x i ^^^ lane w y i := by
  apply BitVec.eq_of_getLsbD_eq; intro k hk
  simp only [getLsbD_lane, hk, decide_true, Bool.true_and, BitVec.getLsbD_xor]
theorem lane_zero (w n i : Nat) : lane w (0#n) i = 0#w := by
  apply BitVec.eq_of_getLsbD_eq; intro k hk
  simp only [getLsbD_lane, BitVec.getLsbD_zero, Bool.and_false]
theorem lane_not {w n i : Nat} (x : BitVec n) (h : (i + 1) * w ≤ n) :
    lane w (~~~ x) i = ~~~ (lane w x i) := by
  apply BitVec.eq_of_getLsbD_eq; intro k hk
  have : (i + 1) * w = i * w + w := Nat.succ_mul i w
  have h1 : i * w + k < n := by omega
  simp only [getLsbD_lane, hk, decide_true, Bool.true_and, BitVec.getLsbD_not, h1]
theorem lane_ones {w n i : Nat} (h : (i + 1) * w ≤ n) :
    lane w (BitVec.allOnes n) i = BitVec.allOnes w := by
  apply BitVec.eq_of_getLsbD_eq; intro k hk
  have : (i + 1) * w = i * w + w := Nat.succ_mul i w
  have h1 : i * w + k < n := by omega
  simp only [getLsbD_lane, hk, decide_true, Bool.true_and, BitVec.getLsbD_allOnes, h1]

/-- Lane of a lane. -/
theorem lane_lane {w v n i j : Nat} (x : BitVec n) (hc : (j + 1) * v ≤ w) (k : Nat) (hk : k * v = i * w + j * v) :
    lane v (lane w x i) j = lane v x k := by
  apply BitVec.eq_of_getLsbD_eq; intro b hb
  have : (j + 1) * v = j * v + v := Nat.succ_mul j v
  have h1 : j * v + b < w := by omega
  simp only [getLsbD_lane, hb, h1, decide_true, Bool.true_and]
  congr 1; omega

/-- Low / high 128-bit half of a 256-bit register. -/
def lo (x : BitVec 256) : BitVec 128 := x.extractLsb' 0 128
def hi (x : BitVec 256) : BitVec 128 := x.extractLsb' 128 128
/-- `_mm256_set_m128*(h, l)`. -/
def setHL (h l : BitVec 128) : BitVec 256 := h ++ l

theorem lane_setHL_lo {w i : Nat} (h l : BitVec 128) (hi : (i + 1) * w ≤ 128) :
    lane w (setHL h l) i = lane w l i := by
  apply BitVec.eq_of_getLsbD_eq; intro k hk
  have : (i + 1) * w = i * w + w := Nat.succ_mul i w
  have h1 : i * w + k < 128 := by omega
  simp only [getLsbD_lane, hk, decide_true, Bool.true_and, setHL, BitVec.getLsbD_append, if_pos h1]
theorem lane_setHL_hi {w i j : Nat} (h l : BitVec 128) (hij : i * w = j * w + 128) :
    lane w (setHL h l) i = lane w h j := by
  apply BitVec.eq_of_getLsbD_eq; intro k hk
  have h1 : ¬ i * w + k < 128 := by omega
  have h2 : i * w + k - 128 = j * w + k := by omega
  simp only [getLsbD_lane, hk, decide_true, Bool.true_and, setHL, BitVec.getLsbD_append, if_neg h1, h2]
theorem lane_lo {w i : Nat} (x : BitVec 256) (h : (i + 1) * w ≤ 128) : lane w (lo x) i = lane w x i := by
  apply BitVec.eq_of_getLsbD_eq; intro k hk
  have : (i + 1) * w = i * w + w := Nat.succ_mul i w
  have h1 : i * w + k < 128 := by omega
  simp only [getLsbD_lane, hk, decide_true, Bool.true_and, lo, BitVec.getLsbD_extractLsb', h1, Nat.zero_add]
theorem lane_hi {w i j : Nat} (x : BitVec 256) (h : (j + 1) * w ≤ 128) (hij : i * w = j * w + 128) :
    lane w (hi x) j = lane w x i := by
  apply BitVec.eq_of_getLsbD_eq; intro k hk
  have : (j + 1) * w = j * w + w := Nat.succ_mul j w
  have h1 : j * w + k < 128 := by omega
  have h2 : 128 + (j * w + k) = i * w + k := by omega
  simp only [getLsbD_lane, hk, decide_true, Bool.true_and, hi, BitVec.getLsbD_extractLsb', h1, h2]

/-- Apply a function to every lane of width `w` (the shape of most SIMD instructions). -/
def map1 (w : Nat) {n : Nat} (f : BitVec w → BitVec w) (a : BitVec n) : BitVec n :=
  ofLanes n w (fun i => f (lane w a i))
def map2 (w : Nat) {n : Nat} (f : BitVec w → BitVec w → BitVec w) (a b : BitVec n) : BitVec n :=
  ofLanes n w (fun i => f (lane w a i) (lane w b i))
def map3 (w : Nat) {n : Nat} (f : BitVec w → BitVec w → BitVec w → BitVec w) (a b c : BitVec n) : BitVec n :=
  ofLanes n w (fun i => f (lane w a i) (lane w b i) (lane w c i))

theorem lane_map1 {w n i : Nat} (f : BitVec w → BitVec w) (a : BitVec n) (h : (i + 1) * w ≤ n) :
    lane w (map1 w f a) i = f (lane w a i) := lane_ofLanes _ h
theorem lane_map2 {w n i : Nat} (f : BitVec w → BitVec w → BitVec w) (a b : BitVec n) (h : (i + 1) * w ≤ n) :
    lane w (map2 w f a b) i = f (lane w a i) (lane w b i) := lane_ofLanes _ h
theorem lane_map3 {w n i : Nat} (f : BitVec w → BitVec w → BitVec w → BitVec w) (a b c : BitVec n) (h : (i + 1) * w ≤ n) :
    lane w (map3 w f a b c) i = f (lane w a i) (lane w b i) (lane w c i) := lane_ofLanes _ h

/-- Two 64-bit quantities are equal when their 32-bit halves are. -/
theorem eq_of_halves (x y : BitVec 64) (h0 : lane 32 x 0 = lane 32 y 0) (h1 : lane 32 x 1 = lane 32 y 1) : x = y := by
  apply ext_lanes (w := 32) (e := 2) rfl
  intro i hi
  rcases (by omega : i = 0 ∨ i = 1) with h | h <;> subst h <;> assumption
theorem eq_iff_halves (x y : BitVec 64) : x = y ↔ lane 32 x 0 = lane 32 y 0 ∧ lane 32 x 1 = lane 32 y 1 :=
  ⟨fun h => by simp [h], fun h => eq_of_halves x y h.1 h.2⟩

/-- low/high halves of a 64-bit lane as numbers -/
theorem halves_toNat (x : BitVec 64) : x.toNat = (lane 32 x 1).toNat * 2 ^ 32 + (lane 32 x 0).toNat := by
  simp only [lane, BitVec.extractLsb'_toNat, Nat.shiftRight_eq_div_pow]
  have := x.isLt
  omega

attribute [irreducible] ofLanes lane ofBits

end Dpm.Reg

namespace Dpm.Reg
/-- A 64-bit lane is its two 32-bit lanes. -/
theorem lane64_eq {n : Nat} (x : BitVec n) (i : Nat) :
    lane 64 x i = (lane 32 x (2 * i + 1) ++ lane 32 x (2 * i) : BitVec 64) := by
  apply BitVec.eq_of_getLsbD_eq
  intro k hk
  rw [getLsbD_lane, BitVec.getLsbD_append, getLsbD_lane, getLsbD_lane]
  have h1 : (2 * i + 1) * 32 + (k - 32) = i * 64 + (k - 32) + 32 := by omega
  split
  · next h =>
    have : 2 * i * 32 + k = i * 64 + k := by omega
    simp only [hk, h, this]
  · next h =>
    have h3 : k - 32 < 32 := by omega
    have : (2 * i + 1) * 32 + (k - 32) = i * 64 + k := by omega
    simp only [hk, h3, this]

theorem append32_inj {a b c d : BitVec 32} : ((a ++ b : BitVec 64) = (c ++ d : BitVec 64)) ↔ a = c ∧ b = d := by
  constructor
  · intro h
    constructor
    · apply BitVec.eq_of_getLsbD_eq; intro k hk
      have := congrArg (fun v => v.getLsbD (k + 32)) h
      simp only [BitVec.getLsbD_append, Nat.add_sub_cancel, if_neg (by omega : ¬ k + 32 < 32)] at this
      exact this
    · apply BitVec.eq_of_getLsbD_eq; intro k hk
      have := congrArg (fun v => v.getLsbD k) h
      simp only [BitVec.getLsbD_append, if_pos hk] at this
      exact this
  · rintro ⟨rfl, rfl⟩; rfl

theorem append32_toNat (a b : BitVec 32) : (a ++ b : BitVec 64).toNat = a.toNat * 2 ^ 32 + b.toNat := by
  rw [BitVec.toNat_append, Nat.shiftLeft_eq, Nat.mul_comm, ← Nat.two_pow_add_eq_or_of_lt b.isLt]
end Dpm.Reg
