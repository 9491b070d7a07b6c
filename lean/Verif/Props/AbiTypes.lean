import Verif.Model.AbiTypes
import Verif.Props.Util
/-!
C69: types derived with `deduce_t`, `rebind_simd_t`, `resize_simd_t`, `native`, `compatible`.  C70: `common_t`.
-/
namespace Dpm.Util

/-- element types: the vectorizable ones have 1, 2, 4 or 8 bytes -/
def Elem.Ok (T : Elem) : Prop := T.vec = true → ElemSize T.sz
/-- the tags of types that exist have at least one element -/
def Tag.Ok (t : Tag) : Prop := 0 < t.size

/-! ### C69 -/
theorem deduce_nohint (avx : Bool) {T : Elem} (hT : T.Ok) (N : Nat) : ∃ t, deduceHints avx T N [] = some t ∧ t.size = N := by
  unfold deduceHints
  cases hv : T.vec
  · have h1 : ∀ A, overload128 avx false T.sz N A = false := by
      intro A; cases avx <;> simp [overload128, overloadSimd, overloadDefault]
    have h2 : ∀ A, overload256 avx false T.sz N A = false := by
      intro A; cases avx <;> simp [overload256, overloadSimd, overloadDefault]
    unfold deduce
    rw [h1, h2]
    by_cases hN : N = 1
    · exact ⟨.scalar, by simp [hN], by simp [Tag.size, hN]⟩
    · exact ⟨.avec N 0, by simp [hN], rfl⟩
  · obtain ⟨t, h, hs, -⟩ := C12_deduce avx true T.sz N (hT hv)
    exact ⟨t, by rw [h], hs⟩

/-- C69 (`deduce_t<T, N, Abis...>`): whatever the hints, exactly one tag is deduced, and it has `N` elements. -/
theorem C69_deduce_size (avx : Bool) {T : Elem} (hT : T.Ok) (N : Nat) (hints : List Tag) :
    ∃ t, deduceHints avx T N hints = some t ∧ t.size = N := by
  induction hints with
  | nil => exact deduce_nohint avx hT N
  | cons h hs ih =>
    have gen : ∃ t, (if accepts N h then some h else deduceHints avx T N hs) = some t ∧ t.size = N := by
      cases ha : accepts N h
      · exact ih
      · exact ⟨h, rfl, by unfold accepts at ha; simpa using ha⟩
    match h, hs, gen with
    | .avec m a, [], _ => exact ⟨.avec N a, by rw [deduceHints], rfl⟩
    | .avec m a, h2 :: hs, g => rw [deduceHints]; exact g; simp
    | .scalar, hs, g => rw [deduceHints]; exact g; simp

/-- C69: the first hint of the right size is taken. -/
theorem C69_deduce_hint (avx : Bool) (T : Elem) (N : Nat) (pre post : List Tag) (h : Tag) (hp : ∀ p ∈ pre, p.size ≠ N) (hh : h.size = N) :
    deduceHints avx T N (pre ++ h :: post) = some h := by
  induction pre with
  | nil =>
    have ha : accepts N h = true := by unfold accepts; simpa using hh
    match h, post, hh, ha with
    | .avec m a, [], hm, _ => rw [← hm]; rfl
    | .avec m a, h2 :: hs, _, ha => show deduceHints _ _ _ (.avec m a :: h2 :: hs) = _; rw [deduceHints, if_pos ha]; simp
    | .scalar, hs, _, ha => show deduceHints _ _ _ (.scalar :: hs) = _; rw [deduceHints, if_pos ha]; simp
  | cons p ps ih =>
    have ha : accepts N p = false := by unfold accepts; simpa using hp p (by simp)
    have ih' := ih (fun q hq => hp q (by simp [hq]))
    have e : deduceHints avx T N (p :: (ps ++ h :: post)) = deduceHints avx T N (ps ++ h :: post) := by
      match p, ha with
      | .avec m a, ha =>
        rw [deduceHints, if_neg (by rw [ha]; decide)]
        intro n b _ hn
        exact absurd hn (by simp)
      | .scalar, ha => rw [deduceHints, if_neg (by rw [ha]; decide)]; simp
    exact e.trans ih'

/-- C69 (`rebind_simd_t<T, V>`): exists, has element type `T`, the size and (for vectors) the alignment of `V`. -/
theorem C69_rebind (avx : Bool) (T : Elem) (V : SimdType) :
    ∃ W, rebindSimd avx T V = some W ∧ W.elem = T ∧ W.size = V.size ∧ W.tag = V.tag := by
  obtain ⟨E, t⟩ := V
  have := C69_deduce_hint avx T t.size [] [] t (by simp) rfl
  refine ⟨⟨T, t⟩, ?_, rfl, rfl, rfl⟩
  unfold rebindSimd SimdType.size
  rw [show ([t] : List Tag) = [] ++ t :: [] from rfl, this]
  rfl
/-- C69: rebinding back gives the original type. -/
theorem C69_rebind_inverse (avx : Bool) (T : Elem) (V : SimdType) :
    (rebindSimd avx T V).bind (rebindSimd avx V.elem) = some V := by
  obtain ⟨W, hW, h1, h2, h3⟩ := C69_rebind avx T V
  rw [hW, Option.bind_some]
  obtain ⟨X, hX, k1, k2, k3⟩ := C69_rebind avx V.elem W
  rw [hX]
  obtain ⟨E, t⟩ := V
  obtain ⟨E', t'⟩ := X
  dsimp only at k1 k3 h3
  rw [k1, k3, h3]
/-- C69 (`resize_simd_t<N, V>`): exists, has the element type of `V`, `N` elements and the alignment of `V`. -/
theorem C69_resize (avx : Bool) (N : Nat) (V : SimdType) (hE : V.elem.Ok) :
    ∃ W, resizeSimd avx N V = some W ∧ W.elem = V.elem ∧ W.size = N ∧ (∀ n a, V.tag = .avec n a → W.tag = .avec N a) := by
  obtain ⟨t, ht, hs⟩ := C69_deduce_size avx hE N [V.tag]
  refine ⟨⟨V.elem, t⟩, by unfold resizeSimd; rw [ht]; rfl, rfl, hs, fun n a h => ?_⟩
  rw [h] at ht
  exact (Option.some.inj ht).symm

/-- C69: a type that uses an x86 implementation still does after rebinding to a vectorizable element type, and after resizing to more
than one element. -/
theorem C69_x86_kept (avx : Bool) {T : Elem} (hT : T.Ok) (hv : T.vec = true) (N : Nat) (hN : 1 < N) (V : SimdType) (hE : V.elem.Ok)
    (h1 : V.size ≤ sizeMax / T.sz) (h2 : V.size ≤ sizeMax / V.elem.sz) (h3 : N ≤ sizeMax / V.elem.sz) (hx : V.x86 avx = true) :
    (∃ W, rebindSimd avx T V = some W ∧ W.x86 avx = true) ∧ ∃ W, resizeSimd avx N V = some W ∧ W.x86 avx = true := by
  obtain ⟨⟨vec, sz⟩, t⟩ := V
  cases t with
  | scalar => simp [SimdType.x86] at hx
  | avec n a =>
    have hx' : overloadAny avx vec sz n a = true := hx
    have hvec : vec = true := by
      cases vec
      · cases avx <;> simp [overloadAny, overload128, overload256, overloadSimd, overloadDefault] at hx'
      · rfl
    subst hvec
    obtain ⟨-, k2, k3⟩ := (C12_selected avx true sz n a (hE rfl) h2).1 hx'
    obtain ⟨W, hW, e1, e2, e3⟩ := C69_rebind avx T ⟨⟨true, sz⟩, .avec n a⟩
    obtain ⟨W', hW', f1, f2, f3⟩ := C69_resize avx N ⟨⟨true, sz⟩, .avec n a⟩ hE
    refine ⟨⟨W, hW, ?_⟩, W', hW', ?_⟩
    · obtain ⟨E, t⟩ := W
      dsimp only at e1 e3
      subst e1 e3
      show overloadAny avx E.vec E.sz n a = true
      exact (C12_selected avx _ _ n a (hT hv) h1).2 ⟨hv, k2, k3⟩
    · have f4 := f3 n a rfl
      obtain ⟨E, t⟩ := W'
      dsimp only at f1 f4
      subst f1 f4
      show overloadAny avx true sz N a = true
      exact (C12_selected avx _ _ N a (hE rfl) h3).2 ⟨rfl, hN, k3⟩

/-- C69 (`compatible<T>`, `native<T>`): one full register, of 16 bytes, respectively of 32 bytes with AVX, and the tag selects that
register. -/
theorem C69_native (avx : Bool) {T : Elem} (hT : T.Ok) (hv : T.vec = true) :
    (∃ n, compatibleAbi T = some (.avec n 16) ∧ n * T.sz = 16 ∧ overload128 avx T.vec T.sz n 16 = true) ∧
    (∃ n a, nativeAbi avx T = some (.avec n a) ∧ n * T.sz = a ∧
      if avx then a = 32 ∧ overload256 avx T.vec T.sz n a = true else a = 16 ∧ overload128 avx T.vec T.sz n a = true) := by
  obtain ⟨vec, sz⟩ := T
  dsimp only at hv
  subst hv
  have h64 : sizeMax = 18446744073709551615 := by decide
  have hs : ElemSize sz := hT rfl
  refine ⟨⟨16 / sz, rfl, ?_, ?_⟩, if avx then 32 / sz else 16 / sz, if avx then 32 else 16, ?_, ?_, ?_⟩
  · rcases hs with rfl | rfl | rfl | rfl <;> rfl
  · rcases hs with rfl | rfl | rfl | rfl <;> cases avx <;> decide
  · cases avx <;> rfl
  · rcases hs with rfl | rfl | rfl | rfl <;> cases avx <;> rfl
  · rcases hs with rfl | rfl | rfl | rfl <;> cases avx <;> decide

/-- float x 4 (SSE) rebound to double keeps 4 elements and 16-byte alignment; two hints, the second fits -/
example : rebindSimd true ⟨true, 8⟩ ⟨⟨true, 4⟩, .avec 4 16⟩ = some ⟨⟨true, 8⟩, .avec 4 16⟩ ∧
    deduceHints true ⟨true, 4⟩ 8 [.avec 4 16, .avec 8 32, .scalar] = some (.avec 8 32) ∧
    resizeSimd false 1 ⟨⟨true, 4⟩, .avec 4 16⟩ = some ⟨⟨true, 4⟩, .avec 1 16⟩ ∧ resizeSimd true 6 ⟨⟨true, 2⟩, .scalar⟩ = some ⟨⟨true, 2⟩, .avec 6 16⟩ := by decide
example := C69_x86_kept true (T := ⟨true, 8⟩) (fun _ => by unfold ElemSize; simp) rfl 3 (by decide) ⟨⟨true, 4⟩, .avec 8 32⟩ (fun _ => by unfold ElemSize; simp)
  (by decide) (by decide) (by decide) (by decide)

/-! ### C70 -/
theorem foldl_max_ge {α : Type} (f : α → Nat) (l : List α) (m : Nat) : m ≤ l.foldl (fun m q => max m (f q)) m ∧
    (∀ q ∈ l, f q ≤ l.foldl (fun m q => max m (f q)) m) ∧ (l.foldl (fun m q => max m (f q)) m = m ∨ ∃ q ∈ l, f q = l.foldl (fun m q => max m (f q)) m) := by
  induction l generalizing m with
  | nil => simp
  | cons x xs ih =>
    obtain ⟨h1, h2, h3⟩ := ih (max m (f x))
    rw [List.foldl_cons]
    generalize xs.foldl (fun m q => max m (f q)) (max m (f x)) = r at *
    refine ⟨by omega, fun q hq => ?_, ?_⟩
    · rcases List.mem_cons.1 hq with rfl | hq
      · omega
      · exact h2 q hq
    · rcases h3 with h3 | ⟨q, hq, h3⟩
      · rcases Nat.le_total m (f x) with h | h
        · exact Or.inr ⟨x, by simp, by omega⟩
        · left; omega
      · exact Or.inr ⟨q, by simp [hq], h3⟩

theorem commonImpl_spec : ∀ (tags : List Tag) (seq : List (Nat × Nat)), (seq ≠ [] ∨ ∃ t ∈ tags, t ≠ .scalar) →
    ∃ n a, commonImpl seq tags = some (.avec n a) ∧
      (∀ p, p ∈ seq ∨ .avec p.1 p.2 ∈ tags → p.1 ≤ n ∧ p.2 ≤ a) ∧
      (∃ p, (p ∈ seq ∨ .avec p.1 p.2 ∈ tags) ∧ p.1 = n) ∧ ∃ p, (p ∈ seq ∨ .avec p.1 p.2 ∈ tags) ∧ p.2 = a
  | [], [], h => by simp at h
  | [], p :: ps, _ => by
    obtain ⟨a1, a2, a3⟩ := foldl_max_ge Prod.fst ps p.1
    obtain ⟨b1, b2, b3⟩ := foldl_max_ge Prod.snd ps p.2
    refine ⟨_, _, by rw [commonImpl], fun q hq => ?_, ?_, ?_⟩
    · rcases hq with hq | hq
      · rcases List.mem_cons.1 hq with rfl | hq
        · exact ⟨a1, b1⟩
        · exact ⟨a2 q hq, b2 q hq⟩
      · simp at hq
    · rcases a3 with h | ⟨q, hq, h⟩
      · exact ⟨p, Or.inl (by simp), h.symm⟩
      · exact ⟨q, Or.inl (by simp [hq]), h⟩
    · rcases b3 with h | ⟨q, hq, h⟩
      · exact ⟨p, Or.inl (by simp), h.symm⟩
      · exact ⟨q, Or.inl (by simp [hq]), h⟩
  | .scalar :: us, seq, h => by
    have hne : ¬ (seq = [] ∧ ∀ u ∈ us, u = .scalar) := by
      rintro ⟨h1, h2⟩
      rcases h with h | ⟨t, ht, hn⟩
      · exact h h1
      · rcases List.mem_cons.1 ht with rfl | ht
        · exact hn rfl
        · exact hn (h2 t ht)
    have h' : seq ≠ [] ∨ ∃ t ∈ us, t ≠ .scalar := by
      rcases h with h | ⟨t, ht, hn⟩
      · exact Or.inl h
      · rcases List.mem_cons.1 ht with rfl | ht
        · exact absurd rfl hn
        · exact Or.inr ⟨t, ht, hn⟩
    obtain ⟨n, a, e, k1, k2, k3⟩ := commonImpl_spec us seq h'
    have hm : ∀ p : Nat × Nat, (p ∈ seq ∨ Tag.avec p.1 p.2 ∈ .scalar :: us) ↔ (p ∈ seq ∨ Tag.avec p.1 p.2 ∈ us) := by
      intro p; simp
    refine ⟨n, a, by rw [commonImpl, if_neg hne]; exact e, fun p hp => k1 p ((hm p).1 hp), ?_, ?_⟩
    · obtain ⟨p, hp, e⟩ := k2; exact ⟨p, (hm p).2 hp, e⟩
    · obtain ⟨p, hp, e⟩ := k3; exact ⟨p, (hm p).2 hp, e⟩
  | .avec m b :: us, seq, h => by
    obtain ⟨n, a, e, k1, k2, k3⟩ := commonImpl_spec us ((m, b) :: seq) (Or.inl (by simp))
    have hm : ∀ p : Nat × Nat, (p ∈ seq ∨ Tag.avec p.1 p.2 ∈ Tag.avec m b :: us) ↔ (p ∈ (m, b) :: seq ∨ Tag.avec p.1 p.2 ∈ us) := by
      intro p
      obtain ⟨x, y⟩ := p
      simp only [List.mem_cons, Tag.avec.injEq, Prod.mk.injEq]
      rw [or_comm (a := x = m ∧ y = b) (b := (x, y) ∈ seq), or_assoc]
    refine ⟨n, a, by rw [commonImpl]; exact e, fun p hp => k1 p ((hm p).1 hp), ?_, ?_⟩
    · obtain ⟨p, hp, e⟩ := k2; exact ⟨p, (hm p).2 hp, e⟩
    · obtain ⟨p, hp, e⟩ := k3; exact ⟨p, (hm p).2 hp, e⟩

/-- the number of bytes a tag asks for: `scalar` and `packed_buffer` (SIZE_MAX) ask for no alignment -/
def Tag.wantsAlign : Tag → Nat
  | .scalar => 0
  | .avec _ a => if a = sizeMax then 0 else a
/-- `r` is the widest and most aligned of `tags` -/
structure IsCommon (tags : List Tag) (r : Tag) : Prop where
  wide : ∀ t ∈ tags, t.size ≤ r.size
  size : ∃ t ∈ tags, t.size = r.size
  aligned : ∀ t ∈ tags, t.wantsAlign ≤ r.wantsAlign
  align : ∃ t ∈ tags, t.wantsAlign = r.wantsAlign

/-- C70 (`common_t`), proved part: if not all tags are `scalar` and none is a `packed_buffer`, the common tag is the widest and most
aligned one, whatever the number and the order of the tags. -/
theorem C70_common_partial (tags : List Tag) (hok : ∀ t ∈ tags, t.Ok) (hs : ∃ t ∈ tags, t ≠ .scalar) (hp : ∀ n, .avec n sizeMax ∉ tags) :
    ∃ r, common tags = some r ∧ IsCommon tags r := by
  obtain ⟨n, a, e, k1, ⟨p, hp1, k2⟩, q, hq1, k3⟩ := commonImpl_spec tags [] (Or.inr hs)
  have hm : ∀ p : Nat × Nat, (p ∈ ([] : List (Nat × Nat)) ∨ Tag.avec p.1 p.2 ∈ tags) → Tag.avec p.1 p.2 ∈ tags := by
    intro p h; simpa using h
  have na : ∀ m b, Tag.avec m b ∈ tags → b ≠ sizeMax := fun m b h hb => hp m (hb ▸ h)
  have haN : a ≠ sizeMax := by rw [← k3]; exact na _ _ (hm q hq1)
  have hn0 : 0 < n := by
    have := hok _ (hm p hp1)
    rw [← k2]; exact this
  refine ⟨.avec n a, e, ⟨fun t ht => ?_, ⟨_, hm p hp1, k2⟩, fun t ht => ?_, ⟨_, hm q hq1, ?_⟩⟩⟩
  · cases t with
    | scalar => exact hn0
    | avec m b => exact (k1 (m, b) (Or.inr ht)).1
  · cases t with
    | scalar => exact Nat.zero_le _
    | avec m b =>
      show (if b = sizeMax then 0 else b) ≤ if a = sizeMax then 0 else a
      rw [if_neg (na m b ht), if_neg haN]
      exact (k1 (m, b) (Or.inr ht)).2
  · show (if q.2 = sizeMax then 0 else q.2) = if a = sizeMax then 0 else a
    rw [k3]
/-- C70: the common tag does not depend on the order of the tags or on repetitions: two lists with the same vector tags have the same
common tag. -/
theorem C70_order (l₁ l₂ : List Tag) (h : ∀ t, t ∈ l₁ ↔ t ∈ l₂) (hs : ∃ t ∈ l₁, t ≠ .scalar) : common l₁ = common l₂ := by
  obtain ⟨n, a, e, k1, ⟨p, hp1, k2⟩, q, hq1, k3⟩ := commonImpl_spec l₁ [] (Or.inr hs)
  obtain ⟨t, ht, hn⟩ := hs
  obtain ⟨n', a', e', k1', ⟨p', hp1', k2'⟩, q', hq1', k3'⟩ := commonImpl_spec l₂ [] (Or.inr ⟨t, (h t).1 ht, hn⟩)
  have hm : ∀ p : Nat × Nat, (p ∈ ([] : List (Nat × Nat)) ∨ Tag.avec p.1 p.2 ∈ l₁) ↔ (p ∈ ([] : List (Nat × Nat)) ∨ Tag.avec p.1 p.2 ∈ l₂) := by
    intro p; rw [h]
  have a1 := (k1' p ((hm p).1 hp1)).1
  have a2 := (k1 p' ((hm p').2 hp1')).1
  have b1 := (k1' q ((hm q).1 hq1)).2
  have b2 := (k1 q' ((hm q').2 hq1')).2
  unfold common
  rw [e, e', show n = n' by omega, show a = a' by omega]
/-- C70: equal vector tags have that tag in common. -/
theorem C70_same (k : Nat) (n a : Nat) : common (List.replicate (k + 1) (.avec n a)) = some (.avec n a) := by
  have := C70_order (List.replicate (k + 1) (.avec n a)) [.avec n a] (by intro t; simp [List.mem_replicate]) ⟨.avec n a, by simp [List.mem_replicate], by simp⟩
  rw [this]; rfl
/-- C70 is violated by scalar tags: `common_t` of one or more `scalar` tags (documented to be `scalar`) does not exist. -/
theorem C70_scalar_violated (tags : List Tag) (h : ∀ t ∈ tags, t = .scalar) : common tags = none := by
  unfold common
  cases tags with
  | nil => rfl
  | cons t ts =>
    obtain rfl := h t (by simp)
    rw [commonImpl, if_pos ⟨rfl, fun u hu => h u (by simp [hu])⟩]
/-- C70 is violated by `packed_buffer` tags (alignment SIZE_MAX): the common tag with any other vector tags is a `packed_buffer`, which
asks for no alignment at all and selects the generic implementation. -/
theorem C70_packed_violated (tags : List Tag) (n : Nat) (hn : .avec n sizeMax ∈ tags) (hb : ∀ m b, .avec m b ∈ tags → b ≤ sizeMax)
    (avx : Bool) (T : Elem) :
    ∃ r, common tags = some r ∧ r.wantsAlign = 0 ∧ (SimdType.mk T r).x86 avx = false := by
  obtain ⟨m, a, e, k1, -, q, hq1, k3⟩ := commonImpl_spec tags [] (Or.inr ⟨_, hn, by simp⟩)
  have h1 := (k1 (n, sizeMax) (Or.inr hn)).2
  have h2 : a ≤ sizeMax := by
    rw [← k3]
    rcases hq1 with hq | hq
    · simp at hq
    · exact hb _ _ hq
  obtain rfl : a = sizeMax := Nat.le_antisymm h2 h1
  refine ⟨.avec m sizeMax, e, (if_pos rfl : (if sizeMax = sizeMax then 0 else sizeMax) = 0), ?_⟩
  show overloadAny avx T.vec T.sz m sizeMax = false
  have h64 : sizeMax = 18446744073709551615 := by decide
  cases avx <;> cases T.vec <;> simp [overloadAny, overload128, overload256, overloadSimd, overloadDefault, h64]

example : common [.avec 4 16, .scalar, .avec 2 32] = some (.avec 4 32) ∧ common [.scalar, .scalar] = none ∧
    common [.avec 4 32, .avec 4 sizeMax] = some (.avec 4 sizeMax) := by decide
example := C70_common_partial [.scalar, .avec 4 16, .avec 2 32] (by unfold Tag.Ok; decide) ⟨.avec 4 16, by decide, by decide⟩ (by
  intro n; simp [sizeMax])
end Dpm.Util
