import Verif.Proofs.PolyPos
import Verif.Proofs.TrigRed
import Verif.Proofs.TrigLane
/-! The coefficients of the inverse trigonometric functions as real numbers, and the certificates of the rational approximations. -/
namespace Dpm.X86
open Dpm.Reg Dpm.Fp Dpm.Poly

/-- the coefficients of `atanP` times `2^k`, constant term first -/
def atanPI (w : Nat) : List Int :=
  if w = 64 then [-146029711172932032, -276716177117889696, -168904256756141664, -36383539228050384, -1970461881518437]
  else [-1088006144, -2061696128, -1258434816, -271078496, -14681085]

theorem atanP_co {w : Nat} (h : W w) : ∃ c0 c1 c2 c3 c4 : BitVec w, atanP w = [c0, c1, c2, c3, c4] ∧
    (isFinite c0 = true ∧ -(8751 / 10000) ≤ rv c0 ∧ rv c0 ≤ -(7 / 8)) ∧
    (isFinite c1 = true ∧ -(404 / 25) ≤ rv c1 ∧ rv c1 ≤ -(323 / 20)) ∧
    (isFinite c2 = true ∧ -(7501 / 100) ≤ rv c2 ∧ rv c2 ≤ -75) ∧
    (isFinite c3 = true ∧ -(1229 / 10) ≤ rv c3 ∧ rv c3 ≤ -(614 / 5)) ∧
    (isFinite c4 = true ∧ -(3243 / 50) ≤ rv c4 ∧ rv c4 ≤ -(1297 / 20)) ∧
    ∀ t, evalP (atanPI w) t = (2 ^ (if w = 64 then 51 else 24) * ((((rv c0 * t + rv c1) * t + rv c2) * t + rv c3) * t + rv c4)) := by
  rcases h with h | h <;> subst h
  · refine ⟨0xbf6003fd#32, 0xc18142a3#32, 0xc2960462#32, 0xc2f5c5f9#32, 0xc281b350#32, by decide, ?_⟩
    have e : (isFinite (0xbf6003fd#32) = true ∧ val (0xbf6003fd#32) = -14681085 * 2 ^ 125) ∧
      (isFinite (0xc18142a3#32) = true ∧ val (0xc18142a3#32) = -8471203 * 2 ^ 130) ∧
      (isFinite (0xc2960462#32) = true ∧ val (0xc2960462#32) = -4915761 * 2 ^ 133) ∧
      (isFinite (0xc2f5c5f9#32) = true ∧ val (0xc2f5c5f9#32) = -16107001 * 2 ^ 132) ∧
      (isFinite (0xc281b350#32) = true ∧ val (0xc281b350#32) = -531253 * 2 ^ 136) := by decide +kernel
    obtain ⟨⟨a0, b0⟩, ⟨a1, b1⟩, ⟨a2, b2⟩, ⟨a3, b3⟩, a4, b4⟩ := e
    have r0 : rv (0xbf6003fd#32) = -14681085 / 2 ^ 24 := by rw [rv_of_val b0 (b := 24) rfl]; norm_num
    have r1 : rv (0xc18142a3#32) = -8471203 / 2 ^ 19 := by rw [rv_of_val b1 (b := 19) rfl]; norm_num
    have r2 : rv (0xc2960462#32) = -4915761 / 2 ^ 16 := by rw [rv_of_val b2 (b := 16) rfl]; norm_num
    have r3 : rv (0xc2f5c5f9#32) = -16107001 / 2 ^ 17 := by rw [rv_of_val b3 (b := 17) rfl]; norm_num
    have r4 : rv (0xc281b350#32) = -531253 / 2 ^ 13 := by rw [rv_of_val b4 (b := 13) rfl]; norm_num
    rw [r0, r1, r2, r3, r4]
    refine ⟨⟨a0, by norm_num, by norm_num⟩, ⟨a1, by norm_num, by norm_num⟩, ⟨a2, by norm_num, by norm_num⟩, ⟨a3, by norm_num, by norm_num⟩, ⟨a4, by norm_num, by norm_num⟩, ?_⟩
    intro t
    unfold atanPI
    simp only [evalP, show ¬ ((32 : Nat) = 64) by decide, if_false, Int.cast_neg, Int.cast_ofNat, Int.cast_one]
    ring
  · refine ⟨0xbfec007fa1f72594#64, 0xc03028545b6b807a#64, 0xc052c08c36880273#64, 0xc05eb8bf2d05ba25#64, 0xc0503669fd28ec8e#64, by decide, ?_⟩
    have e : (isFinite (0xbfec007fa1f72594#64) = true ∧ val (0xbfec007fa1f72594#64) = -1970461881518437 * 2 ^ 1023) ∧
      (isFinite (0xc03028545b6b807a#64) = true ∧ val (0xc03028545b6b807a#64) = -2273971201753149 * 2 ^ 1027) ∧
      (isFinite (0xc052c08c36880273#64) = true ∧ val (0xc052c08c36880273#64) = -5278258023629427 * 2 ^ 1028) ∧
      (isFinite (0xc05eb8bf2d05ba25#64) = true ∧ val (0xc05eb8bf2d05ba25#64) = -8647380534934053 * 2 ^ 1028) ∧
      (isFinite (0xc0503669fd28ec8e#64) = true ∧ val (0xc0503669fd28ec8e#64) = -2281714237077063 * 2 ^ 1029) := by decide +kernel
    obtain ⟨⟨a0, b0⟩, ⟨a1, b1⟩, ⟨a2, b2⟩, ⟨a3, b3⟩, a4, b4⟩ := e
    have r0 : rv (0xbfec007fa1f72594#64) = -1970461881518437 / 2 ^ 51 := by rw [rv_of_val b0 (b := 51) rfl]; norm_num
    have r1 : rv (0xc03028545b6b807a#64) = -2273971201753149 / 2 ^ 47 := by rw [rv_of_val b1 (b := 47) rfl]; norm_num
    have r2 : rv (0xc052c08c36880273#64) = -5278258023629427 / 2 ^ 46 := by rw [rv_of_val b2 (b := 46) rfl]; norm_num
    have r3 : rv (0xc05eb8bf2d05ba25#64) = -8647380534934053 / 2 ^ 46 := by rw [rv_of_val b3 (b := 46) rfl]; norm_num
    have r4 : rv (0xc0503669fd28ec8e#64) = -2281714237077063 / 2 ^ 45 := by rw [rv_of_val b4 (b := 45) rfl]; norm_num
    rw [r0, r1, r2, r3, r4]
    refine ⟨⟨a0, by norm_num, by norm_num⟩, ⟨a1, by norm_num, by norm_num⟩, ⟨a2, by norm_num, by norm_num⟩, ⟨a3, by norm_num, by norm_num⟩, ⟨a4, by norm_num, by norm_num⟩, ?_⟩
    intro t
    unfold atanPI
    simp only [evalP, if_true, Int.cast_neg, Int.cast_ofNat, Int.cast_one]
    ring

/-- the coefficients of `atanQ` times `2^k`, constant term first -/
def atanQI (w : Nat) : List Int :=
  if w = 64 then [438089133518797568, 1093002011464758528, 974761491362160000, 371607789992053056, 55976286633525728, 2251799813685248]
  else [3264018432, 8143499776, 7262539264, 2768693760, 417055840, 16777216]

theorem atanQ_co {w : Nat} (h : W w) : ∃ c0 c1 c2 c3 c4 c5 : BitVec w, atanQ w = [c0, c1, c2, c3, c4, c5] ∧
    (isFinite c0 = true ∧ 1 ≤ rv c0 ∧ rv c0 ≤ 1) ∧
    (isFinite c1 = true ∧ 497 / 20 ≤ rv c1 ∧ rv c1 ≤ 1243 / 50) ∧
    (isFinite c2 = true ∧ 165 ≤ rv c2 ∧ rv c2 ≤ 1651 / 10) ∧
    (isFinite c3 = true ∧ 2164 / 5 ≤ rv c3 ∧ rv c3 ≤ 4329 / 10) ∧
    (isFinite c4 = true ∧ 4853 / 10 ≤ rv c4 ∧ rv c4 ≤ 2427 / 5) ∧
    (isFinite c5 = true ∧ 389 / 2 ≤ rv c5 ∧ rv c5 ≤ 973 / 5) ∧
    ∀ t, evalP (atanQI w) t = (2 ^ (if w = 64 then 51 else 24) * (((((rv c0 * t + rv c1) * t + rv c2) * t + rv c3) * t + rv c4) * t + rv c5)) := by
  rcases h with h | h <;> subst h
  · refine ⟨0x3f800000#32, 0x41c6de23#32, 0x432506ea#32, 0x43d870c7#32, 0x43f2b1f9#32, 0x43428cf8#32, by decide, ?_⟩
    have e : (isFinite (0x3f800000#32) = true ∧ val (0x3f800000#32) = 1 * 2 ^ 149) ∧
      (isFinite (0x41c6de23#32) = true ∧ val (0x41c6de23#32) = 13032995 * 2 ^ 130) ∧
      (isFinite (0x432506ea#32) = true ∧ val (0x432506ea#32) = 5407605 * 2 ^ 134) ∧
      (isFinite (0x43d870c7#32) = true ∧ val (0x43d870c7#32) = 14184647 * 2 ^ 134) ∧
      (isFinite (0x43f2b1f9#32) = true ∧ val (0x43f2b1f9#32) = 15905273 * 2 ^ 134) ∧
      (isFinite (0x43428cf8#32) = true ∧ val (0x43428cf8#32) = 1593759 * 2 ^ 136) := by decide +kernel
    obtain ⟨⟨a0, b0⟩, ⟨a1, b1⟩, ⟨a2, b2⟩, ⟨a3, b3⟩, ⟨a4, b4⟩, a5, b5⟩ := e
    have r0 : rv (0x3f800000#32) = 1 / 2 ^ 0 := by rw [rv_of_val b0 (b := 0) rfl]; norm_num
    have r1 : rv (0x41c6de23#32) = 13032995 / 2 ^ 19 := by rw [rv_of_val b1 (b := 19) rfl]; norm_num
    have r2 : rv (0x432506ea#32) = 5407605 / 2 ^ 15 := by rw [rv_of_val b2 (b := 15) rfl]; norm_num
    have r3 : rv (0x43d870c7#32) = 14184647 / 2 ^ 15 := by rw [rv_of_val b3 (b := 15) rfl]; norm_num
    have r4 : rv (0x43f2b1f9#32) = 15905273 / 2 ^ 15 := by rw [rv_of_val b4 (b := 15) rfl]; norm_num
    have r5 : rv (0x43428cf8#32) = 1593759 / 2 ^ 13 := by rw [rv_of_val b5 (b := 13) rfl]; norm_num
    rw [r0, r1, r2, r3, r4, r5]
    refine ⟨⟨a0, by norm_num, by norm_num⟩, ⟨a1, by norm_num, by norm_num⟩, ⟨a2, by norm_num, by norm_num⟩, ⟨a3, by norm_num, by norm_num⟩, ⟨a4, by norm_num, by norm_num⟩, ⟨a5, by norm_num, by norm_num⟩, ?_⟩
    intro t
    unfold atanQI
    simp only [evalP, show ¬ ((32 : Nat) = 64) by decide, if_false, Int.cast_neg, Int.cast_ofNat, Int.cast_one]
    ring
  · refine ⟨0x3ff0000000000000#64, 0x4038dbc45b14603c#64, 0x4064a0dd43b8fa25#64, 0x407b0e18d2e2be3b#64, 0x407e563f13b049ea#64, 0x4068519efbbd62ec#64, by decide, ?_⟩
    have e : (isFinite (0x3ff0000000000000#64) = true ∧ val (0x3ff0000000000000#64) = 1 * 2 ^ 1074) ∧
      (isFinite (0x4038dbc45b14603c#64) = true ∧ val (0x4038dbc45b14603c#64) = 1749258957297679 * 2 ^ 1028) ∧
      (isFinite (0x4064a0dd43b8fa25#64) = true ∧ val (0x4064a0dd43b8fa25#64) = 5806371718625829 * 2 ^ 1029) ∧
      (isFinite (0x407b0e18d2e2be3b#64) = true ∧ val (0x407b0e18d2e2be3b#64) = 7615324151266875 * 2 ^ 1030) ∧
      (isFinite (0x407e563f13b049ea#64) = true ∧ val (0x407e563f13b049ea#64) = 4269539107284213 * 2 ^ 1031) ∧
      (isFinite (0x4068519efbbd62ec#64) = true ∧ val (0x4068519efbbd62ec#64) = 1711285677807803 * 2 ^ 1031) := by decide +kernel
    obtain ⟨⟨a0, b0⟩, ⟨a1, b1⟩, ⟨a2, b2⟩, ⟨a3, b3⟩, ⟨a4, b4⟩, a5, b5⟩ := e
    have r0 : rv (0x3ff0000000000000#64) = 1 / 2 ^ 0 := by rw [rv_of_val b0 (b := 0) rfl]; norm_num
    have r1 : rv (0x4038dbc45b14603c#64) = 1749258957297679 / 2 ^ 46 := by rw [rv_of_val b1 (b := 46) rfl]; norm_num
    have r2 : rv (0x4064a0dd43b8fa25#64) = 5806371718625829 / 2 ^ 45 := by rw [rv_of_val b2 (b := 45) rfl]; norm_num
    have r3 : rv (0x407b0e18d2e2be3b#64) = 7615324151266875 / 2 ^ 44 := by rw [rv_of_val b3 (b := 44) rfl]; norm_num
    have r4 : rv (0x407e563f13b049ea#64) = 4269539107284213 / 2 ^ 43 := by rw [rv_of_val b4 (b := 43) rfl]; norm_num
    have r5 : rv (0x4068519efbbd62ec#64) = 1711285677807803 / 2 ^ 43 := by rw [rv_of_val b5 (b := 43) rfl]; norm_num
    rw [r0, r1, r2, r3, r4, r5]
    refine ⟨⟨a0, by norm_num, by norm_num⟩, ⟨a1, by norm_num, by norm_num⟩, ⟨a2, by norm_num, by norm_num⟩, ⟨a3, by norm_num, by norm_num⟩, ⟨a4, by norm_num, by norm_num⟩, ⟨a5, by norm_num, by norm_num⟩, ?_⟩
    intro t
    unfold atanQI
    simp only [evalP, if_true, Int.cast_neg, Int.cast_ofNat, Int.cast_one]
    ring

/-- the coefficients of `asinP` times `-2^k`, constant term first -/
def asinPI (w : Nat) : List Int :=
  if w = 64 then [9451754029982853120, -22554165092116959232, 18749362532203868160, -6277222238545994752, 694012399252802304, -4903388266662611]
  else [2200657920, -5251300864, 4365426176, -1461529728, 161587360, -1141659]

theorem asinP_co {w : Nat} (h : W w) : ∃ c0 c1 c2 c3 c4 c5 : BitVec w, asinP w = [c0, c1, c2, c3, c4, c5] ∧
    (isFinite c0 = true ∧ 4253 / 1000000 ≤ rv c0 ∧ rv c0 ≤ 2127 / 500000) ∧
    (isFinite c1 = true ∧ -(301 / 500) ≤ rv c1 ∧ rv c1 ≤ -(6019 / 10000)) ∧
    (isFinite c2 = true ∧ 1361 / 250 ≤ rv c2 ∧ rv c2 ≤ 1089 / 200) ∧
    (isFinite c3 = true ∧ -(1627 / 100) ≤ rv c3 ∧ rv c3 ≤ -(813 / 50)) ∧
    (isFinite c4 = true ∧ 489 / 25 ≤ rv c4 ∧ rv c4 ≤ 1957 / 100) ∧
    (isFinite c5 = true ∧ -(8199 / 1000) ≤ rv c5 ∧ rv c5 ≤ -(4099 / 500)) ∧
    ∀ t, evalP (asinPI w) t = -(2 ^ (if w = 64 then 60 else 28) * (((((rv c0 * t + rv c1) * t + rv c2) * t + rv c3) * t + rv c4) * t + rv c5)) := by
  rcases h with h | h <;> subst h
  · refine ⟨0x3b8b5cd8#32, 0xbf1a1a0a#32, 0x40ae3a59#32, 0xc182198f#32, 0x419c803f#32, 0xc1032b60#32, by decide, ?_⟩
    have e : (isFinite (0x3b8b5cd8#32) = true ∧ val (0x3b8b5cd8#32) = 1141659 * 2 ^ 121) ∧
      (isFinite (0xbf1a1a0a#32) = true ∧ val (0xbf1a1a0a#32) = -5049605 * 2 ^ 126) ∧
      (isFinite (0x40ae3a59#32) = true ∧ val (0x40ae3a59#32) = 11418201 * 2 ^ 128) ∧
      (isFinite (0xc182198f#32) = true ∧ val (0xc182198f#32) = -8526223 * 2 ^ 130) ∧
      (isFinite (0x419c803f#32) = true ∧ val (0x419c803f#32) = 10256447 * 2 ^ 130) ∧
      (isFinite (0xc1032b60#32) = true ∧ val (0xc1032b60#32) = -268635 * 2 ^ 134) := by decide +kernel
    obtain ⟨⟨a0, b0⟩, ⟨a1, b1⟩, ⟨a2, b2⟩, ⟨a3, b3⟩, ⟨a4, b4⟩, a5, b5⟩ := e
    have r0 : rv (0x3b8b5cd8#32) = 1141659 / 2 ^ 28 := by rw [rv_of_val b0 (b := 28) rfl]; norm_num
    have r1 : rv (0xbf1a1a0a#32) = -5049605 / 2 ^ 23 := by rw [rv_of_val b1 (b := 23) rfl]; norm_num
    have r2 : rv (0x40ae3a59#32) = 11418201 / 2 ^ 21 := by rw [rv_of_val b2 (b := 21) rfl]; norm_num
    have r3 : rv (0xc182198f#32) = -8526223 / 2 ^ 19 := by rw [rv_of_val b3 (b := 19) rfl]; norm_num
    have r4 : rv (0x419c803f#32) = 10256447 / 2 ^ 19 := by rw [rv_of_val b4 (b := 19) rfl]; norm_num
    have r5 : rv (0xc1032b60#32) = -268635 / 2 ^ 15 := by rw [rv_of_val b5 (b := 15) rfl]; norm_num
    rw [r0, r1, r2, r3, r4, r5]
    refine ⟨⟨a0, by norm_num, by norm_num⟩, ⟨a1, by norm_num, by norm_num⟩, ⟨a2, by norm_num, by norm_num⟩, ⟨a3, by norm_num, by norm_num⟩, ⟨a4, by norm_num, by norm_num⟩, ⟨a5, by norm_num, by norm_num⟩, ?_⟩
    intro t
    unfold asinPI
    simp only [evalP, show ¬ ((32 : Nat) = 64) by decide, if_false, Int.cast_neg, Int.cast_ofNat, Int.cast_one]
    ring
  · refine ⟨0x3f716b9b0bd48ad3#64, 0xbfe34341333e5c16#64, 0x4015c74b178a2dd9#64, 0xc0304331de27907b#64, 0x40339007da779259#64, 0xc020656c06ceafd5#64, by decide, ?_⟩
    have e : (isFinite (0x3f716b9b0bd48ad3#64) = true ∧ val (0x3f716b9b0bd48ad3#64) = 4903388266662611 * 2 ^ 1014) ∧
      (isFinite (0xbfe34341333e5c16#64) = true ∧ val (0xbfe34341333e5c16#64) = -2710985934581259 * 2 ^ 1022) ∧
      (isFinite (0x4015c74b178a2dd9#64) = true ∧ val (0x4015c74b178a2dd9#64) = 6130099842330073 * 2 ^ 1024) ∧
      (isFinite (0xc0304331de27907b#64) = true ∧ val (0xc0304331de27907b#64) = -4577481086963835 * 2 ^ 1026) ∧
      (isFinite (0x40339007da779259#64) = true ∧ val (0x40339007da779259#64) = 5506387961942617 * 2 ^ 1026) ∧
      (isFinite (0xc020656c06ceafd5#64) = true ∧ val (0xc020656c06ceafd5#64) = -4615114272452565 * 2 ^ 1025) := by decide +kernel
    obtain ⟨⟨a0, b0⟩, ⟨a1, b1⟩, ⟨a2, b2⟩, ⟨a3, b3⟩, ⟨a4, b4⟩, a5, b5⟩ := e
    have r0 : rv (0x3f716b9b0bd48ad3#64) = 4903388266662611 / 2 ^ 60 := by rw [rv_of_val b0 (b := 60) rfl]; norm_num
    have r1 : rv (0xbfe34341333e5c16#64) = -2710985934581259 / 2 ^ 52 := by rw [rv_of_val b1 (b := 52) rfl]; norm_num
    have r2 : rv (0x4015c74b178a2dd9#64) = 6130099842330073 / 2 ^ 50 := by rw [rv_of_val b2 (b := 50) rfl]; norm_num
    have r3 : rv (0xc0304331de27907b#64) = -4577481086963835 / 2 ^ 48 := by rw [rv_of_val b3 (b := 48) rfl]; norm_num
    have r4 : rv (0x40339007da779259#64) = 5506387961942617 / 2 ^ 48 := by rw [rv_of_val b4 (b := 48) rfl]; norm_num
    have r5 : rv (0xc020656c06ceafd5#64) = -4615114272452565 / 2 ^ 49 := by rw [rv_of_val b5 (b := 49) rfl]; norm_num
    rw [r0, r1, r2, r3, r4, r5]
    refine ⟨⟨a0, by norm_num, by norm_num⟩, ⟨a1, by norm_num, by norm_num⟩, ⟨a2, by norm_num, by norm_num⟩, ⟨a3, by norm_num, by norm_num⟩, ⟨a4, by norm_num, by norm_num⟩, ⟨a5, by norm_num, by norm_num⟩, ?_⟩
    intro t
    unfold asinPI
    simp only [evalP, if_true, Int.cast_neg, Int.cast_ofNat, Int.cast_one]
    ring

/-- the coefficients of `asinQ` times `-2^k`, constant term first -/
def asinQI (w : Nat) : List Int :=
  if w = 64 then [56710524179896958976, -160844726433636843520, 169685983110821019648, -81276472918973677568, 16995116436742821888, -1152921504606846976]
  else [13203947520, -37449580544, 39508094976, -18923653120, 3956983808, -268435456]

theorem asinQ_co {w : Nat} (h : W w) : ∃ c0 c1 c2 c3 c4 c5 : BitVec w, asinQ w = [c0, c1, c2, c3, c4, c5] ∧
    (isFinite c0 = true ∧ 1 ≤ rv c0 ∧ rv c0 ≤ 1) ∧
    (isFinite c1 = true ∧ -(59 / 4) ≤ rv c1 ∧ rv c1 ≤ -(737 / 50)) ∧
    (isFinite c2 = true ∧ 7049 / 100 ≤ rv c2 ∧ rv c2 ≤ 141 / 2) ∧
    (isFinite c3 = true ∧ -(736 / 5) ≤ rv c3 ∧ rv c3 ≤ -(1471 / 10)) ∧
    (isFinite c4 = true ∧ 279 / 2 ≤ rv c4 ∧ rv c4 ≤ 698 / 5) ∧
    (isFinite c5 = true ∧ -(4919 / 100) ≤ rv c5 ∧ rv c5 ≤ -(2459 / 50)) ∧
    ∀ t, evalP (asinQI w) t = -(2 ^ (if w = 64 then 60 else 28) * (((((rv c0 * t + rv c1) * t + rv c2) * t + rv c3) * t + rv c4) * t + rv c5)) := by
  rcases h with h | h <;> subst h
  · refine ⟨0x3f800000#32, 0xc16bdac8#32, 0x428cfe01#32, 0xc3132ddb#32, 0x430b82b4#32, 0xc244c110#32, by decide, ?_⟩
    have e : (isFinite (0x3f800000#32) = true ∧ val (0x3f800000#32) = 1 * 2 ^ 149) ∧
      (isFinite (0xc16bdac8#32) = true ∧ val (0xc16bdac8#32) = -1932121 * 2 ^ 132) ∧
      (isFinite (0x428cfe01#32) = true ∧ val (0x428cfe01#32) = 9240065 * 2 ^ 132) ∧
      (isFinite (0xc3132ddb#32) = true ∧ val (0xc3132ddb#32) = -9645531 * 2 ^ 133) ∧
      (isFinite (0x430b82b4#32) = true ∧ val (0x430b82b4#32) = 2285741 * 2 ^ 135) ∧
      (isFinite (0xc244c110#32) = true ∧ val (0xc244c110#32) = -805905 * 2 ^ 135) := by decide +kernel
    obtain ⟨⟨a0, b0⟩, ⟨a1, b1⟩, ⟨a2, b2⟩, ⟨a3, b3⟩, ⟨a4, b4⟩, a5, b5⟩ := e
    have r0 : rv (0x3f800000#32) = 1 / 2 ^ 0 := by rw [rv_of_val b0 (b := 0) rfl]; norm_num
    have r1 : rv (0xc16bdac8#32) = -1932121 / 2 ^ 17 := by rw [rv_of_val b1 (b := 17) rfl]; norm_num
    have r2 : rv (0x428cfe01#32) = 9240065 / 2 ^ 17 := by rw [rv_of_val b2 (b := 17) rfl]; norm_num
    have r3 : rv (0xc3132ddb#32) = -9645531 / 2 ^ 16 := by rw [rv_of_val b3 (b := 16) rfl]; norm_num
    have r4 : rv (0x430b82b4#32) = 2285741 / 2 ^ 14 := by rw [rv_of_val b4 (b := 14) rfl]; norm_num
    have r5 : rv (0xc244c110#32) = -805905 / 2 ^ 14 := by rw [rv_of_val b5 (b := 14) rfl]; norm_num
    rw [r0, r1, r2, r3, r4, r5]
    refine ⟨⟨a0, by norm_num, by norm_num⟩, ⟨a1, by norm_num, by norm_num⟩, ⟨a2, by norm_num, by norm_num⟩, ⟨a3, by norm_num, by norm_num⟩, ⟨a4, by norm_num, by norm_num⟩, ⟨a5, by norm_num, by norm_num⟩, ?_⟩
    intro t
    unfold asinQI
    simp only [evalP, show ¬ ((32 : Nat) = 64) by decide, if_false, Int.cast_neg, Int.cast_ofNat, Int.cast_one]
    ring
  · refine ⟨0x3ff0000000000000#64, 0xc02d7b590b5e0eab#64, 0x40519fc025fe9054#64, 0xc06265bb6d3576d7#64, 0x4061705684ffbf9d#64, 0xc04898220a3607ac#64, by decide, ?_⟩
    have e : (isFinite (0x3ff0000000000000#64) = true ∧ val (0x3ff0000000000000#64) = 1 * 2 ^ 1074) ∧
      (isFinite (0xc02d7b590b5e0eab#64) = true ∧ val (0xc02d7b590b5e0eab#64) = -8298396697628331 * 2 ^ 1025) ∧
      (isFinite (0x40519fc025fe9054#64) = true ∧ val (0x40519fc025fe9054#64) = 1240180556014613 * 2 ^ 1030) ∧
      (isFinite (0xc06265bb6d3576d7#64) = true ∧ val (0xc06265bb6d3576d7#64) = -5178405246301911 * 2 ^ 1029) ∧
      (isFinite (0x4061705684ffbf9d#64) = true ∧ val (0x4061705684ffbf9d#64) = 4908591504932765 * 2 ^ 1029) ∧
      (isFinite (0xc04898220a3607ac#64) = true ∧ val (0xc04898220a3607ac#64) = -1730667852169707 * 2 ^ 1029) := by decide +kernel
    obtain ⟨⟨a0, b0⟩, ⟨a1, b1⟩, ⟨a2, b2⟩, ⟨a3, b3⟩, ⟨a4, b4⟩, a5, b5⟩ := e
    have r0 : rv (0x3ff0000000000000#64) = 1 / 2 ^ 0 := by rw [rv_of_val b0 (b := 0) rfl]; norm_num
    have r1 : rv (0xc02d7b590b5e0eab#64) = -8298396697628331 / 2 ^ 49 := by rw [rv_of_val b1 (b := 49) rfl]; norm_num
    have r2 : rv (0x40519fc025fe9054#64) = 1240180556014613 / 2 ^ 44 := by rw [rv_of_val b2 (b := 44) rfl]; norm_num
    have r3 : rv (0xc06265bb6d3576d7#64) = -5178405246301911 / 2 ^ 45 := by rw [rv_of_val b3 (b := 45) rfl]; norm_num
    have r4 : rv (0x4061705684ffbf9d#64) = 4908591504932765 / 2 ^ 45 := by rw [rv_of_val b4 (b := 45) rfl]; norm_num
    have r5 : rv (0xc04898220a3607ac#64) = -1730667852169707 / 2 ^ 45 := by rw [rv_of_val b5 (b := 45) rfl]; norm_num
    rw [r0, r1, r2, r3, r4, r5]
    refine ⟨⟨a0, by norm_num, by norm_num⟩, ⟨a1, by norm_num, by norm_num⟩, ⟨a2, by norm_num, by norm_num⟩, ⟨a3, by norm_num, by norm_num⟩, ⟨a4, by norm_num, by norm_num⟩, ⟨a5, by norm_num, by norm_num⟩, ?_⟩
    intro t
    unfold asinQI
    simp only [evalP, if_true, Int.cast_neg, Int.cast_ofNat, Int.cast_one]
    ring

/-- the coefficients of `asinR` times `2^k`, constant term first -/
def asinRI (w : Nat) : List Int :=
  if w = 64 then [8225130943864665088, -7369765513241403392, 2008594142124206592, -162395991581204960, 855387617219553]
  else [122564001792, -109818060800, 29930385408, -2419888896, 12746269]

theorem asinR_co {w : Nat} (h : W w) : ∃ c0 c1 c2 c3 c4 : BitVec w, asinR w = [c0, c1, c2, c3, c4] ∧
    (isFinite c0 = true ∧ 2967 / 1000000 ≤ rv c0 ∧ rv c0 ≤ 371 / 125000) ∧
    (isFinite c1 = true ∧ -(1127 / 2000) ≤ rv c1 ∧ rv c1 ≤ -(2817 / 5000)) ∧
    (isFinite c2 = true ∧ 871 / 125 ≤ rv c2 ∧ rv c2 ≤ 6969 / 1000) ∧
    (isFinite c3 = true ∧ -(2557 / 100) ≤ rv c3 ∧ rv c3 ≤ -(639 / 25)) ∧
    (isFinite c4 = true ∧ 2853 / 100 ≤ rv c4 ∧ rv c4 ≤ 1427 / 50) ∧
    ∀ t, evalP (asinRI w) t = (2 ^ (if w = 64 then 58 else 32) * ((((rv c0 * t + rv c1) * t + rv c2) * t + rv c3) * t + rv c4)) := by
  rcases h with h | h <;> subst h
  · refine ⟨0x3b427e1d#32, 0xbf103c93#32, 0x40deffae#32, 0xc1cc8d55#32, 0x41e44b12#32, by decide, ?_⟩
    have e : (isFinite (0x3b427e1d#32) = true ∧ val (0x3b427e1d#32) = 12746269 * 2 ^ 117) ∧
      (isFinite (0xbf103c93#32) = true ∧ val (0xbf103c93#32) = -9452691 * 2 ^ 125) ∧
      (isFinite (0x40deffae#32) = true ∧ val (0x40deffae#32) = 7307223 * 2 ^ 129) ∧
      (isFinite (0xc1cc8d55#32) = true ∧ val (0xc1cc8d55#32) = -13405525 * 2 ^ 130) ∧
      (isFinite (0x41e44b12#32) = true ∧ val (0x41e44b12#32) = 7480713 * 2 ^ 131) := by decide +kernel
    obtain ⟨⟨a0, b0⟩, ⟨a1, b1⟩, ⟨a2, b2⟩, ⟨a3, b3⟩, a4, b4⟩ := e
    have r0 : rv (0x3b427e1d#32) = 12746269 / 2 ^ 32 := by rw [rv_of_val b0 (b := 32) rfl]; norm_num
    have r1 : rv (0xbf103c93#32) = -9452691 / 2 ^ 24 := by rw [rv_of_val b1 (b := 24) rfl]; norm_num
    have r2 : rv (0x40deffae#32) = 7307223 / 2 ^ 20 := by rw [rv_of_val b2 (b := 20) rfl]; norm_num
    have r3 : rv (0xc1cc8d55#32) = -13405525 / 2 ^ 19 := by rw [rv_of_val b3 (b := 19) rfl]; norm_num
    have r4 : rv (0x41e44b12#32) = 7480713 / 2 ^ 18 := by rw [rv_of_val b4 (b := 18) rfl]; norm_num
    rw [r0, r1, r2, r3, r4]
    refine ⟨⟨a0, by norm_num, by norm_num⟩, ⟨a1, by norm_num, by norm_num⟩, ⟨a2, by norm_num, by norm_num⟩, ⟨a3, by norm_num, by norm_num⟩, ⟨a4, by norm_num, by norm_num⟩, ?_⟩
    intro t
    unfold asinRI
    simp only [evalP, show ¬ ((32 : Nat) = 64) by decide, if_false, Int.cast_neg, Int.cast_ofNat, Int.cast_one]
    ring
  · refine ⟨0x3f684fc3988e9f08#64, 0xbfe2079259f9290f#64, 0x401bdff5baf33e6a#64, 0xc03991aaac01ab68#64, 0x403c896240f3081d#64, by decide, ?_⟩
    have e : (isFinite (0x3f684fc3988e9f08#64) = true ∧ val (0x3f684fc3988e9f08#64) = 855387617219553 * 2 ^ 1016) ∧
      (isFinite (0xbfe2079259f9290f#64) = true ∧ val (0xbfe2079259f9290f#64) = -5074874736912655 * 2 ^ 1021) ∧
      (isFinite (0x401bdff5baf33e6a#64) = true ∧ val (0x401bdff5baf33e6a#64) = 3923035433836341 * 2 ^ 1025) ∧
      (isFinite (0xc03991aaac01ab68#64) = true ∧ val (0xc03991aaac01ab68#64) = -899629579253101 * 2 ^ 1029) ∧
      (isFinite (0x403c896240f3081d#64) = true ∧ val (0x403c896240f3081d#64) = 8032354437367837 * 2 ^ 1026) := by decide +kernel
    obtain ⟨⟨a0, b0⟩, ⟨a1, b1⟩, ⟨a2, b2⟩, ⟨a3, b3⟩, a4, b4⟩ := e
    have r0 : rv (0x3f684fc3988e9f08#64) = 855387617219553 / 2 ^ 58 := by rw [rv_of_val b0 (b := 58) rfl]; norm_num
    have r1 : rv (0xbfe2079259f9290f#64) = -5074874736912655 / 2 ^ 53 := by rw [rv_of_val b1 (b := 53) rfl]; norm_num
    have r2 : rv (0x401bdff5baf33e6a#64) = 3923035433836341 / 2 ^ 49 := by rw [rv_of_val b2 (b := 49) rfl]; norm_num
    have r3 : rv (0xc03991aaac01ab68#64) = -899629579253101 / 2 ^ 45 := by rw [rv_of_val b3 (b := 45) rfl]; norm_num
    have r4 : rv (0x403c896240f3081d#64) = 8032354437367837 / 2 ^ 48 := by rw [rv_of_val b4 (b := 48) rfl]; norm_num
    rw [r0, r1, r2, r3, r4]
    refine ⟨⟨a0, by norm_num, by norm_num⟩, ⟨a1, by norm_num, by norm_num⟩, ⟨a2, by norm_num, by norm_num⟩, ⟨a3, by norm_num, by norm_num⟩, ⟨a4, by norm_num, by norm_num⟩, ?_⟩
    intro t
    unfold asinRI
    simp only [evalP, if_true, Int.cast_neg, Int.cast_ofNat, Int.cast_one]
    ring

/-- the coefficients of `asinS` times `2^k`, constant term first -/
def asinSI (w : Nat) : List Int :=
  if w = 64 then [98701571326370349056, -110645039707037859840, 42388783411105382400, -6326021299755167744, 288230376151711744]
  else [1470768087040, -1648739614720, 631642062848, -94265065472, 4294967296]

theorem asinS_co {w : Nat} (h : W w) : ∃ c0 c1 c2 c3 c4 : BitVec w, asinS w = [c0, c1, c2, c3, c4] ∧
    (isFinite c0 = true ∧ 1 ≤ rv c0 ∧ rv c0 ≤ 1) ∧
    (isFinite c1 = true ∧ -(439 / 20) ≤ rv c1 ∧ rv c1 ≤ -(1097 / 50)) ∧
    (isFinite c2 = true ∧ 147 ≤ rv c2 ∧ rv c2 ≤ 1471 / 10) ∧
    (isFinite c3 = true ∧ -(3839 / 10) ≤ rv c3 ∧ rv c3 ≤ -(1919 / 5)) ∧
    (isFinite c4 = true ∧ 1712 / 5 ≤ rv c4 ∧ rv c4 ≤ 685 / 2) ∧
    ∀ t, evalP (asinSI w) t = (2 ^ (if w = 64 then 58 else 32) * ((((rv c0 * t + rv c1) * t + rv c2) * t + rv c3) * t + rv c4)) := by
  rcases h with h | h <;> subst h
  · refine ⟨0x3f800000#32, 0xc1af9516#32, 0x431310cd#32, 0xc3bff045#32, 0x43ab384e#32, by decide, ?_⟩
    have e : (isFinite (0x3f800000#32) = true ∧ val (0x3f800000#32) = 1 * 2 ^ 149) ∧
      (isFinite (0xc1af9516#32) = true ∧ val (0xc1af9516#32) = -5753483 * 2 ^ 131) ∧
      (isFinite (0x431310cd#32) = true ∧ val (0x431310cd#32) = 9638093 * 2 ^ 133) ∧
      (isFinite (0xc3bff045#32) = true ∧ val (0xc3bff045#32) = -12578885 * 2 ^ 134) ∧
      (isFinite (0x43ab384e#32) = true ∧ val (0x43ab384e#32) = 5610535 * 2 ^ 135) := by decide +kernel
    obtain ⟨⟨a0, b0⟩, ⟨a1, b1⟩, ⟨a2, b2⟩, ⟨a3, b3⟩, a4, b4⟩ := e
    have r0 : rv (0x3f800000#32) = 1 / 2 ^ 0 := by rw [rv_of_val b0 (b := 0) rfl]; norm_num
    have r1 : rv (0xc1af9516#32) = -5753483 / 2 ^ 18 := by rw [rv_of_val b1 (b := 18) rfl]; norm_num
    have r2 : rv (0x431310cd#32) = 9638093 / 2 ^ 16 := by rw [rv_of_val b2 (b := 16) rfl]; norm_num
    have r3 : rv (0xc3bff045#32) = -12578885 / 2 ^ 15 := by rw [rv_of_val b3 (b := 15) rfl]; norm_num
    have r4 : rv (0x43ab384e#32) = 5610535 / 2 ^ 14 := by rw [rv_of_val b4 (b := 14) rfl]; norm_num
    rw [r0, r1, r2, r3, r4]
    refine ⟨⟨a0, by norm_num, by norm_num⟩, ⟨a1, by norm_num, by norm_num⟩, ⟨a2, by norm_num, by norm_num⟩, ⟨a3, by norm_num, by norm_num⟩, ⟨a4, by norm_num, by norm_num⟩, ?_⟩
    intro t
    unfold asinSI
    simp only [evalP, show ¬ ((32 : Nat) = 64) by decide, if_false, Int.cast_neg, Int.cast_ofNat, Int.cast_one]
    ring
  · refine ⟨0x3ff0000000000000#64, 0xc035f2a2b6bf5d8c#64, 0x40626219af6a7f42#64, 0xc077fe08959063ee#64, 0x40756709b0b644be#64, by decide, ?_⟩
    have e : (isFinite (0x3ff0000000000000#64) = true ∧ val (0x3ff0000000000000#64) = 1 * 2 ^ 1074) ∧
      (isFinite (0xc035f2a2b6bf5d8c#64) = true ∧ val (0xc035f2a2b6bf5d8c#64) = -1544438793885539 * 2 ^ 1028) ∧
      (isFinite (0x40626219af6a7f42#64) = true ∧ val (0x40626219af6a7f42#64) = 2587206018744225 * 2 ^ 1030) ∧
      (isFinite (0xc077fe08959063ee#64) = true ∧ val (0xc077fe08959063ee#64) = -3376618643403255 * 2 ^ 1031) ∧
      (isFinite (0x40756709b0b644be#64) = true ∧ val (0x40756709b0b644be#64) = 3012132914012767 * 2 ^ 1031) := by decide +kernel
    obtain ⟨⟨a0, b0⟩, ⟨a1, b1⟩, ⟨a2, b2⟩, ⟨a3, b3⟩, a4, b4⟩ := e
    have r0 : rv (0x3ff0000000000000#64) = 1 / 2 ^ 0 := by rw [rv_of_val b0 (b := 0) rfl]; norm_num
    have r1 : rv (0xc035f2a2b6bf5d8c#64) = -1544438793885539 / 2 ^ 46 := by rw [rv_of_val b1 (b := 46) rfl]; norm_num
    have r2 : rv (0x40626219af6a7f42#64) = 2587206018744225 / 2 ^ 44 := by rw [rv_of_val b2 (b := 44) rfl]; norm_num
    have r3 : rv (0xc077fe08959063ee#64) = -3376618643403255 / 2 ^ 43 := by rw [rv_of_val b3 (b := 43) rfl]; norm_num
    have r4 : rv (0x40756709b0b644be#64) = 3012132914012767 / 2 ^ 43 := by rw [rv_of_val b4 (b := 43) rfl]; norm_num
    rw [r0, r1, r2, r3, r4]
    refine ⟨⟨a0, by norm_num, by norm_num⟩, ⟨a1, by norm_num, by norm_num⟩, ⟨a2, by norm_num, by norm_num⟩, ⟨a3, by norm_num, by norm_num⟩, ⟨a4, by norm_num, by norm_num⟩, ?_⟩
    intro t
    unfold asinSI
    simp only [evalP, if_true, Int.cast_neg, Int.cast_ofNat, Int.cast_one]
    ring

end Dpm.X86
