import Verif.Basic
/-
`std::map` with 64-bit keys, as the list of its elements in order. (C++ standard library; not part of /repo.)
-/
namespace Pstack

/-- The elements, in order of key. -/
abbrev OMap (α : Type) := List (Nat × α)

namespace OMap
variable {α : Type}

/-- `emplace(k, v)`: nothing happens if the key is there already. -/
def emplace (k : Nat) (v : α) : OMap α → OMap α
  | [] => [(k, v)]
  | (k', v') :: m => if k < k' then (k, v) :: (k', v') :: m else if k = k' then (k', v') :: m else (k', v') :: emplace k v m

/-- `m[k] = v`. -/
def assign (k : Nat) (v : α) : OMap α → OMap α
  | [] => [(k, v)]
  | (k', v') :: m => if k < k' then (k, v) :: (k', v') :: m else if k = k' then (k, v) :: m else (k', v') :: assign k v m

/-- `lower_bound(k)`: the elements from the first whose key is not below `k`; `[]` is `end()`. -/
def lowerBound (k : Nat) (m : OMap α) : OMap α := m.dropWhile (fun e => e.1 < k)

/-- The elements before `lower_bound(k)`. -/
def below (k : Nat) (m : OMap α) : OMap α := m.takeWhile (fun e => e.1 < k)

/-- `find(k)`, or `at(k)`. -/
def lookup (k : Nat) (m : OMap α) : Option α := (m.find? (fun e => e.1 = k)).map (·.2)

/-- The order invariant of a map. -/
def Sorted (m : OMap α) : Prop := m.Pairwise (fun a b => a.1 < b.1)

theorem mem_emplace {k : Nat} {v : α} {m : OMap α} {e : Nat × α} (h : e ∈ emplace k v m) : e = (k, v) ∨ e ∈ m := by
  induction m with
  | nil => left; simpa [emplace] using h
  | cons a m ih =>
    obtain ⟨k', v'⟩ := a
    unfold emplace at h
    split at h
    · simpa using h
    · split at h
      · exact Or.inr h
      · rcases List.mem_cons.1 h with h | h
        · exact Or.inr (h ▸ List.mem_cons_self)
        · rcases ih h with h | h
          · exact Or.inl h
          · exact Or.inr (List.mem_cons_of_mem _ h)

theorem mem_emplace_of_mem {k : Nat} {v : α} {m : OMap α} {e : Nat × α} (h : e ∈ m) : e ∈ emplace k v m := by
  induction m with
  | nil => cases h
  | cons a m ih =>
    obtain ⟨k', v'⟩ := a
    unfold emplace
    split
    · exact List.mem_cons_of_mem _ h
    · split
      · exact h
      · rcases List.mem_cons.1 h with h | h
        · exact h ▸ List.mem_cons_self
        · exact List.mem_cons_of_mem _ (ih h)

/-- After `emplace`, the key is there: with the old value if it was there before, with the new one otherwise. -/
theorem key_emplace (k : Nat) (v : α) (m : OMap α) : ∃ e ∈ emplace k v m, e.1 = k := by
  induction m with
  | nil => exact ⟨(k, v), by simp [emplace], rfl⟩
  | cons a m ih =>
    obtain ⟨k', v'⟩ := a
    unfold emplace
    split
    · exact ⟨(k, v), List.mem_cons_self, rfl⟩
    · split
      · rename_i h; exact ⟨(k', v'), List.mem_cons_self, h.symm⟩
      · obtain ⟨e, h1, h2⟩ := ih
        exact ⟨e, List.mem_cons_of_mem _ h1, h2⟩

theorem emplace_new {k : Nat} {v : α} {m : OMap α} (h : ∀ e ∈ m, e.1 ≠ k) : (k, v) ∈ emplace k v m := by
  obtain ⟨e, h1, h2⟩ := key_emplace k v m
  rcases mem_emplace h1 with h3 | h3
  · exact h3 ▸ h1
  · exact absurd h2 (h e h3)

theorem sorted_emplace {k : Nat} {v : α} {m : OMap α} (h : Sorted m) : Sorted (emplace k v m) := by
  induction m with
  | nil => simp [emplace, Sorted]
  | cons a m ih =>
    obtain ⟨k', v'⟩ := a
    have h' := List.pairwise_cons.1 h
    unfold emplace
    split
    · rename_i hlt
      refine List.pairwise_cons.2 ⟨?_, h⟩
      intro e he
      rcases List.mem_cons.1 he with rfl | he
      · exact hlt
      · exact Nat.lt_trans hlt (h'.1 e he)
    · split
      · exact h
      · refine List.pairwise_cons.2 ⟨?_, ih h'.2⟩
        intro e he
        rcases mem_emplace he with rfl | he
        · simp; omega
        · exact h'.1 e he

/-- What `lower_bound` returns: the first element whose key is not below `k`. -/
theorem lowerBound_cons {k : Nat} {m : OMap α} {e : Nat × α} {t : OMap α} (h : lowerBound k m = e :: t) :
    e ∈ m ∧ k ≤ e.1 := by
  unfold lowerBound at h
  constructor
  · have : e ∈ m.dropWhile (fun e => e.1 < k) := by rw [h]; exact List.mem_cons_self
    exact (List.dropWhile_suffix _).mem this
  · have := List.head?_dropWhile_not (fun e : Nat × α => decide (e.1 < k)) m
    rw [h] at this
    simpa using this

theorem lowerBound_le {k : Nat} {m : OMap α} (hs : Sorted m) {x : Nat × α} (hx : x ∈ m) (hk : k ≤ x.1) :
    ∃ e t, lowerBound k m = e :: t ∧ e.1 ≤ x.1 := by
  induction m with
  | nil => cases hx
  | cons a m ih =>
    have h' := List.pairwise_cons.1 hs
    unfold lowerBound
    rw [List.dropWhile_cons]
    split
    · rename_i hlt
      rcases List.mem_cons.1 hx with rfl | hx
      · simp at hlt; omega
      · exact ih h'.2 hx
    · refine ⟨a, m, rfl, ?_⟩
      rcases List.mem_cons.1 hx with rfl | hx
      · exact Nat.le_refl _
      · exact Nat.le_of_lt (h'.1 x hx)

theorem mem_below {k : Nat} {m : OMap α} (hs : Sorted m) {e : Nat × α} : e ∈ below k m ↔ e ∈ m ∧ e.1 < k := by
  induction m with
  | nil => simp [below]
  | cons a m ih =>
    have h' := List.pairwise_cons.1 hs
    unfold below at ih ⊢
    rw [List.takeWhile_cons]
    split
    · rename_i hlt
      rw [List.mem_cons, List.mem_cons, ih h'.2]
      constructor
      · rintro (rfl | h)
        · exact ⟨.inl rfl, by simpa using hlt⟩
        · exact ⟨.inr h.1, h.2⟩
      · rintro ⟨rfl | h, h2⟩
        · exact .inl rfl
        · exact .inr ⟨h, h2⟩
    · rename_i hlt
      simp only [decide_eq_true_eq] at hlt
      constructor
      · intro h; cases h
      · rintro ⟨h1, h2⟩
        rcases List.mem_cons.1 h1 with rfl | h1
        · exact absurd h2 hlt
        · have := h'.1 e h1; omega

/-- The element before `lower_bound(k)`: the one with the largest key below `k`. -/
theorem below_last {k : Nat} {m : OMap α} (hs : Sorted m) {e : Nat × α} (h : (below k m).getLast? = some e) :
    e ∈ m ∧ e.1 < k ∧ ∀ x ∈ m, x.1 < k → x.1 ≤ e.1 := by
  have hm := (mem_below hs).1 (List.mem_of_getLast? h)
  refine ⟨hm.1, hm.2, ?_⟩
  intro x hx hk
  have hx' := (mem_below hs).2 ⟨hx, hk⟩
  have hp : Sorted (below k m) := List.Pairwise.sublist (List.takeWhile_sublist _) hs
  obtain ⟨ys, hys⟩ := List.getLast?_eq_some_iff.1 h
  rw [hys] at hx' hp
  rcases List.mem_append.1 hx' with h1 | h1
  · exact Nat.le_of_lt ((List.pairwise_append.1 hp).2.2 x h1 e (by simp))
  · simp only [List.mem_singleton] at h1; rw [h1]; exact Nat.le_refl _

theorem below_none {k : Nat} {m : OMap α} (hs : Sorted m) (h : (below k m).getLast? = none) : ∀ x ∈ m, k ≤ x.1 := by
  intro x hx
  rw [List.getLast?_eq_none_iff] at h
  rcases Nat.lt_or_ge x.1 k with hk | hk
  · have := (mem_below hs).2 ⟨hx, hk⟩
    rw [h] at this; cases this
  · exact hk

theorem sorted_inj {m : OMap α} (hs : Sorted m) {a b : Nat × α} (ha : a ∈ m) (hb : b ∈ m) (h : a.1 = b.1) : a = b := by
  induction m with
  | nil => cases ha
  | cons x m ih =>
    have h' := List.pairwise_cons.1 hs
    rcases List.mem_cons.1 ha with ha1 | ha1
    · rcases List.mem_cons.1 hb with hb1 | hb1
      · rw [ha1, hb1]
      · exact absurd h (ha1 ▸ Nat.ne_of_lt (h'.1 b hb1))
    · rcases List.mem_cons.1 hb with hb1 | hb1
      · exact absurd h.symm (hb1 ▸ Nat.ne_of_lt (h'.1 a ha1))
      · exact ih h'.2 ha1 hb1

theorem lookup_some {k : Nat} {m : OMap α} {v : α} (h : lookup k m = some v) : (k, v) ∈ m := by
  unfold lookup at h
  rw [Option.map_eq_some_iff] at h
  obtain ⟨e, h1, rfl⟩ := h
  have := List.find?_some h1
  simp at this
  subst this
  exact List.mem_of_find?_eq_some h1

theorem lookup_mem {k : Nat} {m : OMap α} {v : α} (hs : Sorted m) (h : (k, v) ∈ m) : lookup k m = some v := by
  unfold lookup
  cases hf : m.find? (fun e => e.1 = k) with
  | none => have := List.find?_eq_none.1 hf _ h; simp at this
  | some e =>
    have h1 := List.find?_some hf
    have h2 := List.mem_of_find?_eq_some hf
    simp at h1
    have := sorted_inj hs h2 h h1
    rw [this]; rfl

theorem mem_assign {k : Nat} {v : α} {m : OMap α} (hs : Sorted m) {e : Nat × α} :
    e ∈ assign k v m ↔ e = (k, v) ∨ (e ∈ m ∧ e.1 ≠ k) := by
  induction m with
  | nil => simp [assign]
  | cons a m ih =>
    obtain ⟨k', v'⟩ := a
    have h' := List.pairwise_cons.1 hs
    unfold assign
    split
    · rename_i hlt
      rw [List.mem_cons]
      constructor
      · rintro (h | h)
        · exact .inl h
        · refine .inr ⟨h, ?_⟩
          rcases List.mem_cons.1 h with rfl | h
          · simp; omega
          · have := h'.1 e h; simp only at this; omega
      · rintro (h | h)
        · exact .inl h
        · exact .inr h.1
    · split
      · rename_i hk
        subst hk
        rw [List.mem_cons, List.mem_cons]
        constructor
        · rintro (h | h)
          · exact .inl h
          · exact .inr ⟨.inr h, by have := h'.1 e h; simp only at this; omega⟩
        · rintro (h | ⟨rfl | h, h2⟩)
          · exact .inl h
          · exact absurd rfl h2
          · exact .inr h
      · rename_i hk
        rw [List.mem_cons, List.mem_cons, ih h'.2]
        constructor
        · rintro (rfl | h | h)
          · exact .inr ⟨.inl rfl, by simp; omega⟩
          · exact .inl h
          · exact .inr ⟨.inr h.1, h.2⟩
        · rintro (h | ⟨rfl | h, h2⟩)
          · exact .inr (.inl h)
          · exact .inl rfl
          · exact .inr (.inr ⟨h, h2⟩)

theorem sorted_assign {k : Nat} {v : α} {m : OMap α} (h : Sorted m) : Sorted (assign k v m) := by
  induction m with
  | nil => simp [assign, Sorted]
  | cons a m ih =>
    obtain ⟨k', v'⟩ := a
    have h' := List.pairwise_cons.1 h
    unfold assign
    split
    · rename_i hlt
      refine List.pairwise_cons.2 ⟨?_, h⟩
      intro e he
      rcases List.mem_cons.1 he with rfl | he
      · exact hlt
      · exact Nat.lt_trans hlt (h'.1 e he)
    · split
      · rename_i hk
        subst hk
        exact List.pairwise_cons.2 ⟨h'.1, h'.2⟩
      · refine List.pairwise_cons.2 ⟨?_, ih h'.2⟩
        intro e he
        rcases (mem_assign h'.2).1 he with rfl | he
        · simp; omega
        · exact h'.1 e he.1

theorem lookup_iff {k : Nat} {m : OMap α} {v : α} (hs : Sorted m) : lookup k m = some v ↔ (k, v) ∈ m :=
  ⟨lookup_some, lookup_mem hs⟩

theorem lookup_assign {k k' : Nat} {v : α} {m : OMap α} (hs : Sorted m) :
    lookup k' (assign k v m) = if k' = k then some v else lookup k' m := by
  split
  · rename_i h
    subst h
    exact (lookup_iff (sorted_assign hs)).2 ((mem_assign hs).2 (.inl rfl))
  · rename_i h
    apply Option.ext
    intro w
    rw [lookup_iff (sorted_assign hs), lookup_iff hs, mem_assign hs]
    constructor
    · rintro (h1 | h1)
      · simp only [Prod.mk.injEq] at h1; exact absurd h1.1 h
      · exact h1.1
    · intro h1; exact .inr ⟨h1, h⟩

end OMap
end Pstack
