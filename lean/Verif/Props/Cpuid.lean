import Verif.Spec.Cpuid
import Verif.Props.Util
/-!
C44: CPU feature detection.
-/
namespace Dpm.Cpuid
open Dpm.Util

theorem mask_some (x : BitVec 32) (P : Int) (p : Nat) (hP : P = p) (hp : p < 32) (b : Bool) :
    ∃ r, maskBit x P b = some r ∧ ∀ i, r.getLsbD i = (if i = p ∧ b = false then false else x.getLsbD i) := by
  subst hP; exact (C47_bits_partial x p (Nat.le_refl _) hp b).2
theorem test_some (x : BitVec 32) (P : Int) (p : Nat) (hP : P = p) (hp : p < 32) : testBit x P = some (x.getLsbD p) := by
  subst hP; exact (C47_bits_partial x p (Nat.le_refl _) hp true).1
theorem and_eq_iff (x c : BitVec 32) : x &&& c = c ↔ ∀ i, i < 32 → c.getLsbD i = true → x.getLsbD i = true := by
  constructor
  · intro h i _ hc
    have : (x &&& c).getLsbD i = true := by rw [h]; exact hc
    rw [BitVec.getLsbD_and] at this
    simp at this; exact this.1
  · intro h
    refine BitVec.eq_of_getLsbD_eq fun i hi => ?_
    rw [BitVec.getLsbD_and]
    cases hc : c.getLsbD i
    · simp
    · simp [h i hi hc]
theorem and6 (x : BitVec 32) : x &&& 0x6 = 0x6 ↔ x.getLsbD 1 = true ∧ x.getLsbD 2 = true := by
  rw [and_eq_iff]
  constructor
  · intro h; exact ⟨h 1 (by decide) (by decide), h 2 (by decide) (by decide)⟩
  · rintro ⟨h1, h2⟩ i hi hc
    rcases (by decide : ∀ i, i < 32 → (0x6 : BitVec 32).getLsbD i = true → i = 1 ∨ i = 2) i hi hc with rfl | rfl <;> assumption
theorem ande6 (x : BitVec 32) : x &&& 0xe6 = 0xe6 ↔ x.getLsbD 1 = true ∧ x.getLsbD 2 = true ∧ x.getLsbD 5 = true ∧ x.getLsbD 6 = true ∧ x.getLsbD 7 = true := by
  rw [and_eq_iff]
  constructor
  · intro h; exact ⟨h 1 (by decide) (by decide), h 2 (by decide) (by decide), h 5 (by decide) (by decide), h 6 (by decide) (by decide), h 7 (by decide) (by decide)⟩
  · rintro ⟨h1, h2, h3, h4, h5⟩ i hi hc
    rcases (by decide : ∀ i, i < 32 → (0xe6 : BitVec 32).getLsbD i = true → i = 1 ∨ i = 2 ∨ i = 5 ∨ i = 6 ∨ i = 7) i hi hc with rfl | rfl | rfl | rfl | rfl <;> assumption
theorem and2 (x : BitVec 32) : x &&& 0x2 ≠ 0 ↔ x.getLsbD 1 = true := by
  have h : x &&& 0x2 = 0x2 ↔ x.getLsbD 1 = true := by
    rw [and_eq_iff]
    constructor
    · intro h; exact h 1 (by decide) (by decide)
    · intro h1 i hi hc
      have := (by decide : ∀ i, i < 32 → (0x2 : BitVec 32).getLsbD i = true → i = 1) i hi hc
      subst this; exact h1
  constructor
  · intro hn
    cases hx : x.getLsbD 1
    · refine absurd (BitVec.eq_of_getLsbD_eq fun i hi => ?_) hn
      rw [BitVec.getLsbD_and]
      cases hc : (0x2 : BitVec 32).getLsbD i
      · simp
      · have := (by decide : ∀ i, i < 32 → (0x2 : BitVec 32).getLsbD i = true → i = 1) i hi hc
        subst this; rw [hx]; rfl
    · rfl
  · intro hx h0
    rw [h.2 hx] at h0
    exact absurd h0 (by decide)

/-- the stored flag of a feature -/
def bitOf (i : Info) (f : Feature) : Bool := (f.bit.2.1 ⟨0, i.l7ebx, i.l1ecx, i.l1edx⟩).getLsbD f.bit.2.2
theorem has_eq (i : Info) (f : Feature) : has i f = some (bitOf i f) := by
  cases f <;> exact test_some _ _ _ rfl (by decide)
/-- the flag of a feature before the OS is consulted -/
def rawBit (m : Machine) (f : Feature) : Bool :=
  decide (f.bit.1 ≤ (leaf m 0).eax.toNat) && (f.bit.2.1 (leaf m (BitVec.ofNat 32 f.bit.1))).getLsbD f.bit.2.2
theorem raw_bit (m : Machine) (f : Feature) : bitOf (rawInfo m) f = rawBit m f := by
  unfold rawInfo rawBit bitOf
  dsimp only
  generalize (leaf m 0).eax.toNat = n
  generalize (vendor (leaf m 0) == "GenuineIntel".toList) = a
  generalize (vendor (leaf m 0) == "AuthenticAMD".toList) = b
  by_cases h1 : 1 ≤ n
  · by_cases h7 : 7 ≤ n
    · cases f <;> simp [Feature.bit, h1, h7]
    · cases f <;> simp [Feature.bit, h1, h7]
  · have h7 : ¬ 7 ≤ n := by omega
    cases f <;> simp [Feature.bit, h1, h7]

/-- what `maskXcr0` lets through -/
def xmask (xcr0 : BitVec 32) : Feature → Bool
  | .sse | .sse2 | .sse3 | .ssse3 | .sse4_1 | .sse4_2 => decide (xcr0 &&& 0x2 ≠ 0)
  | .avx | .avx2 | .fma => decide (xcr0 &&& 0x6 = 0x6)
  | .avx512f | .avx512cd | .avx512bw | .avx512dq | .avx512vl => decide (xcr0 &&& 0xe6 = 0xe6)
  | _ => true
def ymask (A B C : Bool) : Feature → Bool
  | .sse | .sse2 | .sse3 | .ssse3 | .sse4_1 | .sse4_2 => A
  | .avx | .avx2 | .fma => B
  | .avx512f | .avx512cd | .avx512bw | .avx512dq | .avx512vl => C
  | _ => true
theorem xmask_eq (x : BitVec 32) (f : Feature) : xmask x f = ymask (decide (x &&& 0x2 ≠ 0)) (decide (x &&& 0x6 = 0x6)) (decide (x &&& 0xe6 = 0xe6)) f := by
  cases f <;> rfl
theorem maskXcr0_bits (xcr0 : BitVec 32) (i : Info) : ∃ j, maskXcr0 xcr0 i = some j ∧ j.isIntel = i.isIntel ∧ j.isAmd = i.isAmd ∧
    ∀ f, bitOf j f = (bitOf i f && xmask xcr0 f) := by
  unfold maskXcr0
  simp only [xmask_eq]
  generalize decide (xcr0 &&& 0x2 ≠ 0) = A
  generalize decide (xcr0 &&& 0x6 = 0x6) = B
  generalize decide (xcr0 &&& 0xe6 = 0xe6) = C
  obtain ⟨d1, e1, k1⟩ := mask_some i.l1edx sse_bit 25 rfl (by decide) A
  obtain ⟨d2, e2, k2⟩ := mask_some d1 sse2_bit 26 rfl (by decide) A
  obtain ⟨c1, f1, q1⟩ := mask_some i.l1ecx sse3_bit 0 rfl (by decide) A
  obtain ⟨c2, f2, q2⟩ := mask_some c1 ssse3_bit 9 rfl (by decide) A
  obtain ⟨c3, f3, q3⟩ := mask_some c2 sse4_1_bit 19 rfl (by decide) A
  obtain ⟨c4, f4, q4⟩ := mask_some c3 sse4_2_bit 20 rfl (by decide) A
  obtain ⟨c5, f5, q5⟩ := mask_some c4 avx_bit 28 rfl (by decide) B
  obtain ⟨b1, g1, r1⟩ := mask_some i.l7ebx avx2_bit 5 rfl (by decide) B
  obtain ⟨c6, f6, q6⟩ := mask_some c5 fma_bit 12 rfl (by decide) B
  obtain ⟨b2, g2, r2⟩ := mask_some b1 avx512f_bit 16 rfl (by decide) C
  obtain ⟨b3, g3, r3⟩ := mask_some b2 avx512cd_bit 28 rfl (by decide) C
  obtain ⟨b4, g4, r4⟩ := mask_some b3 avx512bw_bit 30 rfl (by decide) C
  obtain ⟨b5, g5, r5⟩ := mask_some b4 avx512dq_bit 17 rfl (by decide) C
  obtain ⟨b6, g6, r6⟩ := mask_some b5 avx512vl_bit 31 rfl (by decide) C
  refine ⟨{ i with l1ecx := c6, l1edx := d2, l7ebx := b6 }, ?_, rfl, rfl, fun f => ?_⟩
  · rw [e1]; simp only [Option.bind_eq_bind, Option.bind_some]
    rw [e2]; simp only [Option.bind_some]
    rw [f1]; simp only [Option.bind_some]
    rw [f2]; simp only [Option.bind_some]
    rw [f3]; simp only [Option.bind_some]
    rw [f4]; simp only [Option.bind_some]
    rw [f5]; simp only [Option.bind_some]
    rw [g1]; simp only [Option.bind_some]
    rw [f6]; simp only [Option.bind_some]
    rw [g2]; simp only [Option.bind_some]
    rw [g3]; simp only [Option.bind_some]
    rw [g4]; simp only [Option.bind_some]
    rw [g5]; simp only [Option.bind_some]
    rw [g6]; simp only [Option.bind_some]
  · cases f <;> simp only [bitOf, Feature.bit, ymask, k1, k2, q1, q2, q3, q4, q5, q6, r1, r2, r3, r4, r5, r6] <;> cases A <;> cases B <;> cases C <;> simp
/-- what `maskOs` lets through -/
def omask (k : SseMasks) : Feature → Bool
  | .sse => k.sse | .sse2 => k.sse2 | .sse3 => k.sse3 | .ssse3 => k.ssse3 | .sse4_1 => k.sse41 | .sse4_2 => k.sse42
  | _ => true
theorem maskOs_bits (k : SseMasks) (i : Info) : ∃ j, maskOs k i = some j ∧ j.isIntel = i.isIntel ∧ j.isAmd = i.isAmd ∧
    ∀ f, bitOf j f = (bitOf i f && omask k f) := by
  unfold maskOs
  obtain ⟨s1, s2, s3, s4, s5, s6⟩ := k
  dsimp only
  obtain ⟨d1, e1, k1⟩ := mask_some i.l1edx sse_bit 25 rfl (by decide) s1
  obtain ⟨d2, e2, k2⟩ := mask_some d1 sse2_bit 26 rfl (by decide) s2
  obtain ⟨c1, f1, q1⟩ := mask_some i.l1ecx sse3_bit 0 rfl (by decide) s3
  obtain ⟨c2, f2, q2⟩ := mask_some c1 ssse3_bit 9 rfl (by decide) s4
  obtain ⟨c3, f3, q3⟩ := mask_some c2 sse4_1_bit 19 rfl (by decide) s5
  obtain ⟨c4, f4, q4⟩ := mask_some c3 sse4_2_bit 20 rfl (by decide) s6
  refine ⟨{ i with l1ecx := c4, l1edx := d2 }, ?_, rfl, rfl, fun f => ?_⟩
  · rw [e1]; simp only [Option.bind_eq_bind, Option.bind_some]
    rw [e2]; simp only [Option.bind_some]
    rw [f1]; simp only [Option.bind_some]
    rw [f2]; simp only [Option.bind_some]
    rw [f3]; simp only [Option.bind_some]
    rw [f4]; simp only [Option.bind_some]
  · cases f <;> simp only [bitOf, Feature.bit, omask, k1, k2, q1, q2, q3, q4] <;> cases s1 <;> cases s2 <;> cases s3 <;> cases s4 <;> cases s5 <;> cases s6 <;> simp

/-- every call returns, and what it returns -/
theorem reports_eq (m : Machine) (f : Feature) :
    reports m f = some (rawBit m f && if rawBit m .xsave then xmask m.xcr0 f else omask (osMasks m) f) := by
  unfold reports init
  have ht : testBit (rawInfo m).l1ecx xsave_bit = some (rawBit m .xsave) := by
    rw [← raw_bit]; exact test_some _ _ 27 rfl (by decide)
  dsimp only
  rw [ht]
  simp only [Option.bind_eq_bind, Option.bind_some]
  obtain ⟨j, hj, -, -, hb⟩ := maskXcr0_bits m.xcr0 (rawInfo m)
  obtain ⟨k, hk, -, -, hb2⟩ := maskOs_bits (osMasks m) (rawInfo m)
  cases rawBit m .xsave
  · simp only [Bool.false_eq_true, if_false]
    rw [hk, Option.bind_some, has_eq, hb2, raw_bit]
  · simp only [if_true]
    rw [hj, Option.bind_some, has_eq, hb, raw_bit]
theorem raw_iff {m : Machine} (hn : NoSubleaf m) {f : Feature} (h7 : f.bit.1 = 7 → m.junk 7 = 0) : rawBit m f = true ↔ CpuHas m f := by
  unfold rawBit CpuHas leaf
  rw [(hn (m.junk 0)).1]
  have h1 : ∀ f : Feature, f.bit.1 = 1 ∨ f.bit.1 = 7 := by intro f; cases f <;> decide
  rcases h1 f with h | h
  · rw [h, show BitVec.ofNat 32 1 = 1 from rfl, (hn (m.junk 1)).2]; simp
  · rw [h, show BitVec.ofNat 32 7 = 7 from rfl, h7 h]; simp
theorem xsave_iff {m : Machine} (hn : NoSubleaf m) : rawBit m .xsave = true ↔ OsXsave m := raw_iff hn (fun h => absurd h (by decide))
theorem xmask_iff (xcr0 : BitVec 32) (f : Feature) (hf : f ≠ .f16c) (m : Machine) (hm : m.xcr0 = xcr0) : xmask xcr0 f = true ↔ OsEnables m f := by
  subst hm
  unfold OsEnables
  cases f <;> simp only [xmask, Feature.state, decide_eq_true_eq, and2, and6, ande6, List.mem_cons, List.not_mem_nil, or_false, forall_eq_or_imp, forall_eq] <;>
    first | trivial | simp | exact absurd rfl hf

/-! ### /proc/cpuinfo -/
theorem findFrom_some {s sub : List Char} : ∀ {fuel pos p : Nat}, findFrom s sub fuel pos = some p → pos ≤ p ∧ sub <+: s.drop p := by
  intro fuel
  induction fuel with
  | zero =>
    intro pos p h
    unfold findFrom at h
    split at h
    · rename_i hp
      injection h with h; subst h
      exact ⟨Nat.le_refl _, List.isPrefixOf_iff_prefix.1 hp⟩
    · cases h
  | succ n ih =>
    intro pos p h
    unfold findFrom at h
    split at h
    · rename_i hp
      injection h with h; subst h
      exact ⟨Nat.le_refl _, List.isPrefixOf_iff_prefix.1 hp⟩
    · have := ih h
      exact ⟨by omega, this.2⟩
theorem find_some {s sub : List Char} {pos p : Nat} (h : find s sub pos = some p) : pos ≤ p ∧ sub <+: s.drop p := by
  unfold find at h
  split at h
  · exact findFrom_some h
  · cases h
theorem findNotOf_some {s set : List Char} {pos p : Nat} (h : findNotOf s set pos = some p) : pos ≤ p := by
  unfold findNotOf at h
  rw [Option.map_eq_some_iff] at h
  obtain ⟨k, -, hk⟩ := h
  omega
/-- two finds in a row -/
theorem contains_after {s a b : List Char} {p q : Nat} (ha : a <+: s.drop p) (hb : b <+: s.drop q) (hq : p + a.length ≤ q) : ContainsAfter s a b := by
  obtain ⟨x, hx⟩ := ha
  obtain ⟨y, hy⟩ := hb
  refine ⟨s.take p, (s.drop (p + a.length)).take (q - (p + a.length)), y, ?_⟩
  have h1 : s = s.take p ++ (a ++ x) := by rw [hx]; exact (List.take_append_drop p s).symm
  have hxe : x = s.drop (p + a.length) := by
    rw [← List.drop_drop, ← hx, List.drop_left]
  have h2 : s.drop (p + a.length) = (s.drop (p + a.length)).take (q - (p + a.length)) ++ (b ++ y) := by
    rw [hy]
    conv => lhs; rw [← List.take_append_drop (q - (p + a.length)) (s.drop (p + a.length))]
    rw [List.drop_drop, show p + a.length + (q - (p + a.length)) = q by omega]
  conv => lhs; rw [h1, hxe, h2]
  simp [List.append_assoc]
/-- some read of /proc/cpuinfo returned text with `flags` followed by `name` -/
def Listed (rs : List (List Char)) (name : List Char) : Prop := ∃ s ∈ rs, ContainsAfter s "flags".toList name
def SseMasks.Sound (k : SseMasks) (rs : List (List Char)) : Prop :=
  (k.sse = true → Listed rs "sse".toList) ∧ (k.sse2 = true → Listed rs "sse2".toList) ∧ (k.sse3 = true → Listed rs "pni".toList) ∧
  (k.ssse3 = true → Listed rs "ssse3".toList) ∧ (k.sse41 = true → Listed rs "sse4_1".toList) ∧ (k.sse42 = true → Listed rs "sse4_2".toList)
theorem scan_sound (all : List (List Char)) : ∀ (rs : List (List Char)) (k : SseMasks), (∀ s ∈ rs, s ∈ all) → k.Sound all → (scan rs k).Sound all := by
  intro rs
  induction rs with
  | nil => intro k _ h; exact h
  | cons sv rest ih =>
    intro k hs hk
    have hs' : ∀ s ∈ rest, s ∈ all := fun s h => hs s (List.mem_cons_of_mem _ h)
    have hsv : sv ∈ all := hs sv List.mem_cons_self
    unfold scan
    split
    · exact hk
    · split
      · rename_i p hp
        split
        · exact ih k hs' hk
        · rename_i pos hpos
          have hfl := (find_some hp).2
          have hle := findNotOf_some hpos
          have step : ∀ (name : List Char) (b : Bool), (b = true → Listed all name) → (b || (find sv name pos).isSome) = true → Listed all name := by
            intro name b hb h
            cases b with
            | true => exact hb rfl
            | false =>
              rw [Bool.false_or, Option.isSome_iff_exists] at h
              obtain ⟨q, hq⟩ := h
              have hq' := find_some hq
              exact ⟨sv, hsv, contains_after hfl hq'.2 (by show p + 5 ≤ q; omega)⟩
          have hk2 : SseMasks.Sound {
            sse := k.sse || (find sv "sse".toList pos).isSome
            sse2 := k.sse2 || (find sv "sse2".toList pos).isSome
            sse3 := k.sse3 || (find sv "pni".toList pos).isSome
            ssse3 := k.ssse3 || (find sv "ssse3".toList pos).isSome
            sse41 := k.sse41 || (find sv "sse4_1".toList pos).isSome
            sse42 := k.sse42 || (find sv "sse4_2".toList pos).isSome } all :=
            ⟨step _ _ hk.1, step _ _ hk.2.1, step _ _ hk.2.2.1, step _ _ hk.2.2.2.1, step _ _ hk.2.2.2.2.1, step _ _ hk.2.2.2.2.2⟩
          dsimp only
          split
          · exact hk2
          · exact ih _ hs' hk2
      · split
        · exact hk
        · exact ih k hs' hk
/-- the name /proc/cpuinfo uses for an SSE-class feature -/
def cpuinfoName : Feature → Option (List Char)
  | .sse => some "sse".toList | .sse2 => some "sse2".toList | .sse3 => some "pni".toList
  | .ssse3 => some "ssse3".toList | .sse4_1 => some "sse4_1".toList | .sse4_2 => some "sse4_2".toList
  | _ => none

/-- `find` finds an occurrence if there is one -/
theorem findFrom_le {s sub : List Char} {q : Nat} (hq : sub <+: s.drop q) : ∀ (fuel pos : Nat), pos ≤ q → q ≤ pos + fuel →
    ∃ p, findFrom s sub fuel pos = some p ∧ p ≤ q := by
  intro fuel
  induction fuel with
  | zero =>
    intro pos h1 h2
    obtain rfl : pos = q := by omega
    exact ⟨pos, by unfold findFrom; rw [if_pos (List.isPrefixOf_iff_prefix.2 hq)], Nat.le_refl _⟩
  | succ n ih =>
    intro pos h1 h2
    unfold findFrom
    split
    · exact ⟨pos, rfl, h1⟩
    · rename_i hne
      rcases Nat.eq_or_lt_of_le h1 with rfl | hlt
      · exact absurd (List.isPrefixOf_iff_prefix.2 hq) hne
      · exact ih (pos + 1) hlt (by omega)
theorem find_le {s sub : List Char} {pos q : Nat} (hq : sub <+: s.drop q) (hle : pos ≤ q) (hl : q ≤ s.length) : ∃ p, find s sub pos = some p ∧ p ≤ q := by
  unfold find
  rw [if_pos (by omega)]
  exact findFrom_le hq _ _ hle (by omega)
theorem findNotOf_le {s set : List Char} {pos q : Nat} (hle : pos ≤ q) (hl : q < s.length) (hn : s[q] ∉ set) : ∃ p, findNotOf s set pos = some p ∧ p ≤ q := by
  have hlen : q - pos < (s.drop pos).length := by rw [List.length_drop]; omega
  have hget : (s.drop pos)[q - pos] = s[q] := by rw [List.getElem_drop]; congr 1; omega
  have hp : (fun ch => !set.contains ch) ((s.drop pos)[q - pos]) = true := by rw [hget]; simpa using hn
  unfold findNotOf
  have hs : ((s.drop pos).findIdx? (fun ch => !set.contains ch)).isSome = true := by
    rw [List.findIdx?_isSome, List.any_eq_true]
    exact ⟨_, List.getElem_mem hlen, hp⟩
  obtain ⟨i, hi⟩ := Option.isSome_iff_exists.1 hs
  refine ⟨i + pos, by rw [hi]; rfl, ?_⟩
  obtain ⟨_, _, hmin⟩ := List.findIdx?_eq_some_iff_getElem.1 hi
  have : i ≤ q - pos := by
    rcases Nat.lt_or_ge (q - pos) i with h | h
    · exact absurd hp (hmin _ h)
    · exact h
  omega
/-- the flag of a feature after one read with `flags` at `p` and text at `pos` -/
def readMasks (sv : List Char) (pos : Nat) (k : SseMasks) : SseMasks := {
  sse := k.sse || (find sv "sse".toList pos).isSome
  sse2 := k.sse2 || (find sv "sse2".toList pos).isSome
  sse3 := k.sse3 || (find sv "pni".toList pos).isSome
  ssse3 := k.ssse3 || (find sv "ssse3".toList pos).isSome
  sse41 := k.sse41 || (find sv "sse4_1".toList pos).isSome
  sse42 := k.sse42 || (find sv "sse4_2".toList pos).isSome }
theorem readMasks_omask {f : Feature} {name : List Char} (hn : cpuinfoName f = some name) (sv : List Char) (pos : Nat) (k : SseMasks) :
    omask (readMasks sv pos k) f = (omask k f || (find sv name pos).isSome) := by
  revert hn; cases f <;> simp only [cpuinfoName, Option.some.injEq, reduceCtorEq, false_implies] <;> intro he <;> subst he <;> rfl
theorem scan_keeps {f : Feature} {name : List Char} (hn : cpuinfoName f = some name) : ∀ (rs : List (List Char)) (k : SseMasks), omask k f = true → omask (scan rs k) f = true := by
  intro rs
  induction rs with
  | nil => intro k h; exact h
  | cons sv rest ih =>
    intro k hk
    unfold scan
    split
    · exact hk
    · split
      · split
        · exact ih k hk
        · rename_i pos _
          have hk2 : omask (readMasks sv pos k) f = true := by rw [readMasks_omask hn, hk]; rfl
          dsimp only
          split
          · exact hk2
          · exact ih _ hk2
      · split
        · exact hk
        · exact ih k hk
/-- a read that lists the name sets the flag, if the loop gets to it: the reads before it fill the buffer -/
theorem scan_complete {f : Feature} {name : List Char} (hn : cpuinfoName f = some name) (sv : List Char) (rest : List (List Char))
    (hl : ContainsAfter sv "flags".toList name) :
    ∀ (pre : List (List Char)) (k : SseMasks), (∀ s ∈ pre, s.length = 4096) → omask (scan (pre ++ sv :: rest) k) f = true := by
  intro pre
  induction pre with
  | nil =>
    intro k _
    obtain ⟨a, b, r, hs⟩ := hl
    have hlen : sv.length = a.length + 5 + b.length + name.length + r.length := by rw [hs]; simp [List.length_append]; omega
    have hname : 0 < name.length ∧ ∀ (h : 0 < name.length), name[0] ∉ "\t :".toList := by
      revert hn; cases f <;> simp only [cpuinfoName, Option.some.injEq, reduceCtorEq, false_implies] <;> intro he <;> subst he <;>
        exact ⟨by decide, by decide⟩
    have hfl : "flags".toList <+: sv.drop a.length := by
      rw [hs]; refine ⟨b ++ name ++ r, ?_⟩
      simp [List.append_assoc, List.drop_left']
    have hd : sv.drop (a.length + 5 + b.length) = name ++ r := by
      have : sv = (a ++ "flags".toList ++ b) ++ (name ++ r) := by rw [hs]; simp [List.append_assoc]
      rw [this, List.drop_left' (by simp [List.length_append]; omega)]
    have hnm : name <+: sv.drop (a.length + 5 + b.length) := ⟨r, hd.symm⟩
    obtain ⟨p, hp, hpa⟩ := find_le hfl (Nat.zero_le _) (by omega)
    have hget : ∀ h : a.length + 5 + b.length < sv.length, sv[a.length + 5 + b.length] = name[0]'hname.1 := by
      intro h
      have h1 : (sv.drop (a.length + 5 + b.length))[0]'(by rw [List.length_drop]; omega) = sv[a.length + 5 + b.length] := by
        rw [List.getElem_drop]; congr 1
      rw [← h1]
      have : (sv.drop (a.length + 5 + b.length))[0]? = (name ++ r)[0]? := by rw [hd]
      rw [List.getElem?_append_left hname.1, List.getElem?_eq_getElem (by rw [List.length_drop]; omega), List.getElem?_eq_getElem hname.1] at this
      exact Option.some.inj this
    have hlt : a.length + 5 + b.length < sv.length := by have := hname.1; omega
    obtain ⟨pos, hpos, hposle⟩ := findNotOf_le (set := "\t :".toList) (show p + 5 ≤ a.length + 5 + b.length by omega) hlt
      (by rw [hget hlt]; exact hname.2 hname.1)
    obtain ⟨q, hq, _⟩ := find_le (pos := pos) hnm hposle (by omega)
    have hk2 : omask (readMasks sv pos k) f = true := by rw [readMasks_omask hn, hq]; simp
    show omask (scan (sv :: rest) k) f = true
    unfold scan
    rw [if_neg (by omega), hp]
    dsimp only
    rw [hpos]
    dsimp only
    split
    · exact hk2
    · exact scan_keeps hn _ _ hk2
  | cons s pre ih =>
    intro k h
    have hs : s.length = 4096 := h s List.mem_cons_self
    have ih' := fun k => ih k (fun t ht => h t (List.mem_cons_of_mem _ ht))
    show omask (scan (s :: (pre ++ sv :: rest)) k) f = true
    unfold scan
    rw [if_neg (by omega)]
    split
    · split
      · exact ih' k
      · dsimp only
        rw [if_neg (by omega)]
        exact ih' _
    · rw [if_neg (by omega)]
      exact ih' k

/-! ### C44 -/
theorem char_inj {a b : Nat} (ha : a < 256) (hb : b < 256) (h : Char.ofNat a = Char.ofNat b) : a = b := by
  have tn : ∀ a : Nat, a < 256 → (Char.ofNat a).toNat = a := by
    intro a ha
    have h : a.isValidChar := Or.inl (by omega)
    unfold Char.ofNat
    rw [dif_pos h]
    rfl
  rw [← tn a ha, ← tn b hb, h]
theorem bytes4_inj {a b : BitVec 32} (h : bytes4 a = bytes4 b) : a = b := by
  unfold bytes4 at h
  simp only [List.map_cons, List.map_nil, List.cons.injEq, and_true] at h
  obtain ⟨h0, h1, h2, h3⟩ := h
  have k0 := char_inj (Nat.mod_lt _ (by omega)) (Nat.mod_lt _ (by omega)) h0
  have k1 := char_inj (Nat.mod_lt _ (by omega)) (Nat.mod_lt _ (by omega)) h1
  have k2 := char_inj (Nat.mod_lt _ (by omega)) (Nat.mod_lt _ (by omega)) h2
  have k3 := char_inj (Nat.mod_lt _ (by omega)) (Nat.mod_lt _ (by omega)) h3
  simp only [Nat.shiftRight_eq_div_pow] at k0 k1 k2 k3
  apply BitVec.eq_of_toNat_eq
  have := a.isLt
  have := b.isLt
  omega
/-- the twelve bytes determine the three registers -/
theorem vendor_iff (r : Regs) (b d c : BitVec 32) :
    vendor r = bytes4 b ++ bytes4 d ++ bytes4 c ↔ r.ebx = b ∧ r.edx = d ∧ r.ecx = c := by
  unfold vendor
  constructor
  · intro h
    have hl : ∀ x : BitVec 32, (bytes4 x).length = 4 := fun _ => rfl
    obtain ⟨h1, h2⟩ := List.append_inj h (by simp [hl])
    obtain ⟨h3, h4⟩ := List.append_inj h1 (by simp [hl])
    exact ⟨bytes4_inj h3, bytes4_inj h4, bytes4_inj h2⟩
  · rintro ⟨rfl, rfl, rfl⟩; rfl

section C44
variable {m : Machine} (hn : NoSubleaf m)
include hn
/-- C44, CPU side: `has_f()` returns, and only reports features of the CPU.  Partial: for leaf-7 features ECX must happen to be 0. -/
theorem C44_cpu_partial (f : Feature) (h7 : f.bit.1 = 7 → m.junk 7 = 0) : ∃ b, reports m f = some b ∧ (b = true → CpuHas m f) := by
  refine ⟨_, reports_eq m f, fun h => ?_⟩
  rw [Bool.and_eq_true] at h
  exact (raw_iff hn h7).1 h.1
/-- C44, with OSXSAVE: a feature other than F16C is reported exactly if the CPU has it and the OS has enabled its state. -/
theorem C44_xsave_partial (hx : OsXsave m) (f : Feature) (hf : f ≠ .f16c) (h7 : f.bit.1 = 7 → m.junk 7 = 0) :
    ∃ b, reports m f = some b ∧ (b = true ↔ CpuHas m f ∧ OsEnables m f) := by
  refine ⟨_, reports_eq m f, ?_⟩
  rw [(xsave_iff hn).2 hx, if_pos rfl, Bool.and_eq_true, raw_iff hn h7, xmask_iff _ f hf m rfl]
/-- C44, F16C: reported without asking whether the OS has enabled the AVX state. -/
theorem C44_f16c_violated : ∃ b, reports m .f16c = some b ∧ (b = true ↔ CpuHas m .f16c) := by
  refine ⟨_, reports_eq m .f16c, ?_⟩
  have : (if rawBit m .xsave then xmask m.xcr0 .f16c else omask (osMasks m) .f16c) = true := by split <;> rfl
  rw [this, Bool.and_true]
  exact raw_iff hn (fun h => absurd h (by decide))
/-- C44, without OSXSAVE: AVX, AVX2, FMA and AVX-512 are reported whenever the CPU has them, although executing any of their instructions
faults. -/
theorem C44_no_xsave_violated (hx : ¬ OsXsave m) (f : Feature) (hf : 2 ∈ f.state) (h7 : f.bit.1 = 7 → m.junk 7 = 0) :
    ∃ b, reports m f = some b ∧ (b = true ↔ CpuHas m f) := by
  refine ⟨_, reports_eq m f, ?_⟩
  have h0 : rawBit m .xsave = false := by
    cases h : rawBit m .xsave
    · rfl
    · exact absurd ((xsave_iff hn).1 h) hx
  have : omask (osMasks m) f = true := by revert hf; cases f <;> simp [Feature.state, omask]
  rw [h0, if_neg (by decide), this, Bool.and_true]
  exact raw_iff hn h7
/-- C44, without OSXSAVE, SSE class: reported only if the CPU has it and a read of /proc/cpuinfo lists it after `flags`. -/
theorem C44_sse_cpuinfo (hx : ¬ OsXsave m) (f : Feature) (name : List Char) (hname : cpuinfoName f = some name) :
    ∃ b, reports m f = some b ∧ (b = true → CpuHas m f ∧ ∃ rs, m.cpuinfo = some rs ∧ Listed rs name) := by
  refine ⟨_, reports_eq m f, fun h => ?_⟩
  have h0 : rawBit m .xsave = false := by
    cases h : rawBit m .xsave
    · rfl
    · exact absurd ((xsave_iff hn).1 h) hx
  rw [h0, if_neg (by decide), Bool.and_eq_true] at h
  have hl1 : f.bit.1 = 7 → m.junk 7 = 0 := by revert hname; cases f <;> simp [cpuinfoName, Feature.bit]
  refine ⟨(raw_iff hn hl1).1 h.1, ?_⟩
  have h2 := h.2
  unfold osMasks at h2
  rcases hci : m.cpuinfo with _ | rs
  · rw [hci] at h2
    revert hname h2; cases f <;> simp [cpuinfoName, omask]
  · rw [hci] at h2
    refine ⟨rs, rfl, ?_⟩
    have hs := scan_sound rs rs {} (fun _ h => h) ⟨by simp, by simp, by simp, by simp, by simp, by simp⟩
    dsimp only at h2
    obtain ⟨s1, s2, s3, s4, s5, s6⟩ := hs
    revert hname h2
    cases f <;> simp only [cpuinfoName, omask, Option.some.injEq, reduceCtorEq, false_implies] <;> intro he h <;> subst he <;> first | exact s1 h | exact s2 h | exact s3 h | exact s4 h | exact s5 h | exact s6 h
/-- C44, without OSXSAVE, SSE class, the other direction: if every read but the last fills the buffer of 4096 characters (as those of a file
do), the feature is reported exactly if the CPU has it and a read of /proc/cpuinfo lists it after `flags`. -/
theorem C44_sse_cpuinfo_exact (hx : ¬ OsXsave m) (f : Feature) (name : List Char) (hname : cpuinfoName f = some name) (rs : List (List Char))
    (hci : m.cpuinfo = some rs) (hfull : ∀ pre s post, rs = pre ++ s :: post → post ≠ [] → s.length = 4096) :
    ∃ b, reports m f = some b ∧ (b = true ↔ CpuHas m f ∧ Listed rs name) := by
  obtain ⟨b, hb, hsound⟩ := C44_sse_cpuinfo hn hx f name hname
  refine ⟨b, hb, fun h => ?_, fun ⟨hcpu, sv, hsv, hl⟩ => ?_⟩
  · obtain ⟨h1, rs', hrs, h2⟩ := hsound h
    rw [hci] at hrs; injection hrs with hrs; subst hrs
    exact ⟨h1, h2⟩
  · have h0 : rawBit m .xsave = false := by
      cases h : rawBit m .xsave
      · rfl
      · exact absurd ((xsave_iff hn).1 h) hx
    have hl1 : f.bit.1 = 7 → m.junk 7 = 0 := by revert hname; cases f <;> simp [cpuinfoName, Feature.bit]
    rw [reports_eq, h0, if_neg (by decide)] at hb
    injection hb with hb
    rw [← hb, Bool.and_eq_true]
    refine ⟨(raw_iff hn hl1).2 hcpu, ?_⟩
    obtain ⟨pre, post, hpp⟩ := List.append_of_mem hsv
    unfold osMasks
    rw [hci]
    dsimp only
    rw [hpp]
    refine scan_complete hname sv post hl pre {} (fun s hs => ?_)
    obtain ⟨u, v, huv⟩ := List.append_of_mem hs
    exact hfull u s (v ++ sv :: post) (by rw [hpp, huv]; simp) (by simp)
omit hn in
/-- C44, leaf 7 is read with whatever ECX holds: the answer is that of another sub-leaf, e.g. no AVX2 on a machine whose sub-leaf is empty. -/
theorem C44_subleaf_violated (f : Feature) (h7 : f.bit.1 = 7) (h0 : (m.cpuid 7 (m.junk 7)).ebx = 0) : reports m f = some false := by
  rw [reports_eq]
  have : rawBit m f = false := by
    unfold rawBit leaf
    have he : f.bit.2.1 = Regs.ebx := by revert h7; cases f <;> simp [Feature.bit]
    rw [h7, he, show BitVec.ofNat 32 7 = 7 from rfl, h0]; simp
  rw [this, Bool.false_and]
omit hn in
theorem vendor_reports : ∃ a b, reportsIntel m = some a ∧ reportsAmd m = some b ∧
    (a = true ↔ vendor (leaf m 0) = "GenuineIntel".toList) ∧ (b = true ↔ vendor (leaf m 0) = "AuthenticAMD".toList) := by
  have ht : testBit (rawInfo m).l1ecx xsave_bit = some (rawBit m .xsave) := by
    rw [← raw_bit]; exact test_some _ _ 27 rfl (by decide)
  obtain ⟨j, hj, j1, j2, -⟩ := maskXcr0_bits m.xcr0 (rawInfo m)
  obtain ⟨k, hk, k1, k2, -⟩ := maskOs_bits (osMasks m) (rawInfo m)
  have hi : ∃ i, init m = some i ∧ i.isIntel = (rawInfo m).isIntel ∧ i.isAmd = (rawInfo m).isAmd := by
    unfold init
    dsimp only
    rw [ht]
    simp only [Option.bind_eq_bind, Option.bind_some]
    cases rawBit m .xsave
    · exact ⟨k, by simpa using hk, k1, k2⟩
    · exact ⟨j, by simpa using hj, j1, j2⟩
  obtain ⟨i, hi, i1, i2⟩ := hi
  refine ⟨i.isIntel, i.isAmd, by unfold reportsIntel; rw [hi]; rfl, by unfold reportsAmd; rw [hi]; rfl, ?_, ?_⟩
  · rw [i1]; unfold rawInfo; dsimp only; split <;> split <;> simp
  · rw [i2]; unfold rawInfo; dsimp only; split <;> split <;> simp
/-- C44, vendor: `is_intel` and `is_amd` hold exactly for the vendor registers of Intel and AMD. -/
theorem C44_vendor : ∃ a b, reportsIntel m = some a ∧ reportsAmd m = some b ∧
    (a = true ↔ IntelRegs (m.cpuid 0 0)) ∧ (b = true ↔ AmdRegs (m.cpuid 0 0)) := by
  obtain ⟨a, b, ha, hb, h1, h2⟩ := vendor_reports (m := m)
  have hl : leaf m 0 = m.cpuid 0 0 := (hn _).1
  rw [hl] at h1 h2
  exact ⟨a, b, ha, hb, h1.trans (vendor_iff _ 0x756e6547 0x49656e69 0x6c65746e), h2.trans (vendor_iff _ 0x68747541 0x69746e65 0x444d4163)⟩
end C44

/-! ### Concrete machines -/
/-- a CPU with SSE, SSE2, SSE3, AVX, F16C, AVX2; OSXSAVE as given -/
def exCpu (osx : Bool) (l c : BitVec 32) : Regs :=
  if l = 0 then ⟨7, 0x756e6547, 0x6c65746e, 0x49656e69⟩
  else if l = 1 then ⟨0, 0, if osx then 0x38000001 else 0x30000001, 0x06000000⟩
  else if l = 7 then (if c = 0 then ⟨0, 0x20, 0, 0⟩ else ⟨0, 0, 0, 0⟩)
  else ⟨0, 0, 0, 0⟩
def exM (osx : Bool) (junk : BitVec 32) (xcr0 : BitVec 32) (ci : Option (List (List Char))) : Machine := ⟨exCpu osx, fun _ => junk, xcr0, ci⟩
theorem exM_nosub (osx : Bool) (j x : BitVec 32) (ci : Option (List (List Char))) : NoSubleaf (exM osx j x ci) := fun _ => ⟨rfl, rfl⟩
/-- AVX2 enabled by the OS; AVX2 not enabled; no OSXSAVE, no AVX state, and yet AVX2; F16C without AVX state; ECX = 1 -/
example : reports (exM true 0 7 none) .avx2 = some true := by
  obtain ⟨b, h, hb⟩ := C44_xsave_partial (exM_nosub true 0 7 none) (by unfold OsXsave CpuHas; decide) .avx2 (by decide) (fun _ => rfl)
  rw [h, hb.2 ⟨by unfold CpuHas; decide, by unfold OsEnables; decide⟩]
example : reports (exM true 0 3 none) .avx2 = some false := by
  obtain ⟨b, h, hb⟩ := C44_xsave_partial (exM_nosub true 0 3 none) (by unfold OsXsave CpuHas; decide) .avx2 (by decide) (fun _ => rfl)
  rw [h]; congr 1
  cases b
  · rfl
  · exact absurd ((hb.1 rfl).2 2 (by decide)) (by decide)
theorem C44_counterexample : ¬ OsXsave (exM false 0 0 none) ∧ reports (exM false 0 0 none) .avx2 = some true := by
  have hx : ¬ OsXsave (exM false 0 0 none) := by unfold OsXsave CpuHas; decide
  refine ⟨hx, ?_⟩
  obtain ⟨b, h, hb⟩ := C44_no_xsave_violated (exM_nosub false 0 0 none) hx .avx2 (by decide) (fun _ => rfl)
  rw [h, hb.2 (by unfold CpuHas; decide)]
theorem C44_f16c_counterexample : ¬ OsEnables (exM true 0 1 none) .f16c ∧ reports (exM true 0 1 none) .f16c = some true := by
  refine ⟨fun h => absurd (h 2 (by decide)) (by decide), ?_⟩
  obtain ⟨b, h, hb⟩ := C44_f16c_violated (exM_nosub true 0 1 none)
  rw [h, hb.2 (by unfold CpuHas; decide)]
theorem C44_subleaf_counterexample : CpuHas (exM true 1 7 none) .avx2 ∧ reports (exM true 1 7 none) .avx2 = some false :=
  ⟨by unfold CpuHas; decide, C44_subleaf_violated .avx2 rfl (by decide)⟩
example : reportsIntel (exM true 0 7 none) = some true := by
  obtain ⟨a, b, ha, -, h, -⟩ := C44_vendor (exM_nosub true 0 7 none)
  rw [ha, h.2 (by unfold IntelRegs; decide)]
example : ∃ b, reports (exM false 0 0 (some ["flags\t\t: fpu sse sse2 pni\n".toList])) .sse3 = some b ∧ b = true := by
  obtain ⟨b, hb, h⟩ := C44_sse_cpuinfo_exact (exM_nosub false 0 0 (some ["flags\t\t: fpu sse sse2 pni\n".toList])) (by unfold OsXsave CpuHas; decide) .sse3 _ rfl _ rfl
    (fun pre s post h hp => by
      have := congrArg List.length h
      simp only [List.length_append, List.length_cons, List.length_nil] at this
      have : post.length ≠ 0 := fun h0 => hp (List.length_eq_zero_iff.1 h0)
      omega)
  exact ⟨b, hb, h.2 ⟨by unfold CpuHas; decide, _, List.mem_cons_self, [], "\t\t: fpu sse sse2 ".toList, "\n".toList, by decide⟩⟩
/-- SSE2 from /proc/cpuinfo; lost when the word straddles two reads -/
example : reports (exM false 0 0 (some ["flags\t\t: fpu sse sse2 pni\n".toList, []])) .sse2 = some true := by decide +kernel
example : reports (exM false 0 0 (some [])) .sse2 = some false := by decide +kernel
end Dpm.Cpuid
