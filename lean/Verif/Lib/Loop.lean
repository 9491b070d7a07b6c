/-
Loops and flat memory: the vocabulary in which C++ `for` loops over `std::size_t i < n`
and element arrays are modelled.
-/
namespace Dpm

/-- A flat array / memory region indexed by element number.  Cells outside the object that a C++
array denotes are "other memory": a correct program leaves them alone. -/
abbrev Mem (α : Type) := Nat → α

/-- `m[i] = v`. -/
def Mem.set {α : Type} (m : Mem α) (i : Nat) (v : α) : Mem α := fun j => if j = i then v else m j

@[simp] theorem Mem.set_same {α : Type} (m : Mem α) (i : Nat) (v : α) : (m.set i v) i = v := by
  simp [Mem.set]

theorem Mem.set_ne {α : Type} (m : Mem α) {i j : Nat} (v : α) (h : j ≠ i) : (m.set i v) j = m j := by
  simp [Mem.set, h]

/-- `for (std::size_t i = 0; i < n; ++i) s = body(i, s);` -/
def forRange {σ : Type} : (n : Nat) → (body : Nat → σ → σ) → σ → σ
  | 0, _, s => s
  | n + 1, body, s => body n (forRange n body s)

/-- The same loop when the body may hit undefined behaviour (`none`). -/
def forRangeM {σ : Type} : (n : Nat) → (body : Nat → σ → Option σ) → σ → Option σ
  | 0, _, s => some s
  | n + 1, body, s => (forRangeM n body s).bind (body n)

/-- `for (std::size_t i = n; i-- > 0;)`: the same loop downwards. -/
def forRangeDown {σ : Type} : (n : Nat) → (body : Nat → σ → σ) → σ → σ
  | 0, _, s => s
  | n + 1, body, s => forRangeDown n body (body n s)

theorem forRange_inv {σ : Type} (P : Nat → σ → Prop) (n : Nat) (body : Nat → σ → σ) (s : σ)
    (h0 : P 0 s) (hs : ∀ i s, i < n → P i s → P (i + 1) (body i s)) : P n (forRange n body s) := by
  induction n with
  | zero => exact h0
  | succ n ih =>
    exact hs n _ (Nat.lt_succ_self n) (ih (fun i s hi => hs i s (Nat.lt_succ_of_lt hi)))

/-- A loop that stores `f i` in cell `i`: cells below `n` hold `f`, the others are untouched. -/
theorem forRange_store {α : Type} (n : Nat) (f : Nat → α) (m : Mem α) :
    forRange n (fun i r => r.set i (f i)) m = fun j => if j < n then f j else m j := by
  induction n with
  | zero => rfl
  | succ n ih =>
    funext j
    simp only [forRange, ih, Mem.set]
    by_cases h : j = n
    · subst h; simp
    · have : (j < n + 1) ↔ j < n := by omega
      simp [h, this]

/-- A conditional store loop. -/
theorem forRange_store_if {α : Type} (n : Nat) (c : Nat → Bool) (f : Nat → α) (m : Mem α) :
    forRange n (fun i r => if c i then r.set i (f i) else r) m
      = fun j => if j < n ∧ c j = true then f j else m j := by
  induction n with
  | zero => simp [forRange]
  | succ n ih =>
    funext j
    simp only [forRange, ih]
    by_cases h : j = n
    · subst h; cases hc : c j <;> simp [Mem.set]
    · have : (j < n + 1) ↔ j < n := by omega
      cases hc : c n <;> simp [h, this, Mem.set]

/-- Store loop with possibly undefined element computations: undefined iff some element is,
otherwise every cell below `n` holds its element and the rest is untouched. -/
theorem forRangeM_store {α : Type} (n : Nat) (f : Nat → Option α) (m : Mem α) :
    (forRangeM n (fun i r => (f i).map (fun v => r.set i v)) m = none ↔ ∃ i, i < n ∧ f i = none) ∧
    (∀ r, forRangeM n (fun i r => (f i).map (fun v => r.set i v)) m = some r →
      (∀ j, j < n → f j = some (r j)) ∧ ∀ j, n ≤ j → r j = m j) := by
  induction n with
  | zero => simp [forRangeM]
  | succ n ih =>
    obtain ⟨ih1, ih2⟩ := ih
    simp only [forRangeM]
    cases hr : forRangeM n (fun i r => (f i).map (fun v => r.set i v)) m with
    | none =>
      obtain ⟨i, hi, hf⟩ := ih1.1 hr
      refine ⟨⟨fun _ => ⟨i, by omega, hf⟩, fun _ => rfl⟩, ?_⟩
      intro r h; simp at h
    | some r0 =>
      have hn : ∀ i, i < n → f i ≠ none := by
        intro i hi hf
        have := ih1.2 ⟨i, hi, hf⟩
        rw [hr] at this; exact absurd this (by simp)
      obtain ⟨h1, h2⟩ := ih2 r0 hr
      cases hf : f n with
      | none =>
        refine ⟨⟨fun _ => ⟨n, by omega, hf⟩, fun _ => by simp⟩, ?_⟩
        intro r h; simp at h
      | some v =>
        refine ⟨⟨?_, ?_⟩, ?_⟩
        · intro h; simp at h
        · rintro ⟨i, hi, hfi⟩
          by_cases hin : i = n
          · subst hin; simp [hf] at hfi
          · exact absurd hfi (hn i (by omega))
        · intro r h
          simp only [Option.bind_some, Option.map_some, Option.some.injEq] at h
          subst h
          constructor
          · intro j hj
            by_cases hjn : j = n
            · subst hjn; simp [hf]
            · rw [Mem.set_ne _ _ hjn]; exact h1 j (by omega)
          · intro j hj
            rw [Mem.set_ne _ _ (by omega)]; exact h2 j (by omega)

/-- `for (std::size_t i = 0, j = 0; i < N; i += e, ++j) s = body(i, j, s);` (`fuel` bounds the number of
iterations; `N` suffices because `e >= 1`). -/
def strideGo {σ : Type} (N e : Nat) (body : Nat → Nat → σ → σ) : (fuel i j : Nat) → σ → σ
  | 0, _, _, s => s
  | fuel + 1, i, j, s => if i < N then strideGo N e body fuel (i + e) (j + 1) (body i j s) else s
def forStride {σ : Type} (N e : Nat) (body : Nat → Nat → σ → σ) (s : σ) : σ := strideGo N e body N 0 0 s

/-- number of iterations of a strided loop -/
def ceilDiv (N e : Nat) : Nat := N / e + (if N % e ≠ 0 then 1 else 0)

theorem ceilDiv_spec {N e : Nat} (he : 0 < e) (j : Nat) : j * e < N ↔ j < ceilDiv N e := by
  unfold ceilDiv
  have h := Nat.div_add_mod N e
  have hm := Nat.mod_lt N he
  constructor
  · intro hj
    by_cases h0 : N % e = 0
    · simp only [h0, ne_eq, not_true, if_false, Nat.add_zero]
      exact Nat.lt_of_mul_lt_mul_right (a := e) (by rw [Nat.mul_comm (N / e)]; omega)
    · simp only [ne_eq, h0, not_false_eq_true, if_true]
      apply Nat.lt_of_mul_lt_mul_right (a := e)
      rw [Nat.succ_mul, Nat.mul_comm (N / e)]; omega
  · intro hj
    by_cases h0 : N % e = 0
    · simp only [h0, ne_eq, not_true, if_false, Nat.add_zero] at hj
      have := Nat.mul_lt_mul_of_pos_right hj he
      rw [Nat.mul_comm (N / e)] at this; omega
    · simp only [ne_eq, h0, not_false_eq_true, if_true] at hj
      have := Nat.mul_le_mul_right e (Nat.lt_succ_iff.1 hj)
      rw [Nat.mul_comm (N / e)] at this; omega

theorem strideGo_eq {σ : Type} {N e : Nat} (he : 0 < e) (body : Nat → Nat → σ → σ) (s : σ) :
    ∀ (fuel j : Nat), N ≤ fuel + j → j ≤ ceilDiv N e →
      strideGo N e body fuel (j * e) j (forRange j (fun j s => body (j * e) j s) s)
        = forRange (ceilDiv N e) (fun j s => body (j * e) j s) s := by
  intro fuel
  induction fuel with
  | zero =>
    intro j hf hj
    have : ceilDiv N e ≤ j := by
      apply Nat.le_of_not_lt; intro h
      have := (ceilDiv_spec he j).2 h
      have : j * 1 ≤ j * e := Nat.mul_le_mul_left j he
      omega
    rw [Nat.le_antisymm hj this]; rfl
  | succ fuel ih =>
    intro j hf hj
    simp only [strideGo]
    split
    · next h =>
      have := (ceilDiv_spec he j).1 h
      have := ih (j + 1) (by omega) this
      rw [Nat.succ_mul] at this
      exact this
    · next h =>
      have : ¬ j < ceilDiv N e := fun hh => h ((ceilDiv_spec he j).2 hh)
      have h2 : ceilDiv N e ≤ j := by omega
      rw [Nat.le_antisymm hj h2]

theorem forStride_eq {σ : Type} {N e : Nat} (he : 0 < e) (body : Nat → Nat → σ → σ) (s : σ) :
    forStride N e body s = forRange (ceilDiv N e) (fun j s => body (j * e) j s) s := by
  have := strideGo_eq (N := N) he body s N 0 (Nat.le_refl _) (Nat.zero_le _)
  simpa [forStride, forRange] using this

end Dpm
