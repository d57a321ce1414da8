import Verif.Basic
/-
`std::lower_bound` on random access iterators, as libstdc++ implements it (bits/stl_algobase.h, __lower_bound). pstack relies
on it in elf.cc:361 and dwarf_die.cc:125; modelled as the binary search it is, because with
a predicate that is not partitioned its result is not "the first element that fails it".
-/
namespace Pstack.Search

/-- The loop: `half = len >> 1; if (pred(first + half)) { first += half + 1; len -= half + 1; } else len = half;`. -/
def lbLoop (p : Nat → Bool) (first len : Nat) : Nat :=
  if len = 0 then first
  else if p (first + len / 2) then lbLoop p (first + len / 2 + 1) (len - len / 2 - 1)
  else lbLoop p first (len / 2)
termination_by len
decreasing_by all_goals omega

/-- `lower_bound(l.begin(), l.end(), v, comp) - l.begin()`, where `p x` is `comp(x, v)`. -/
def lowerBound {α : Type} (p : α → Bool) (l : List α) : Nat :=
  lbLoop (fun i => match l[i]? with | some x => p x | none => false) 0 l.length

/-! ### What a binary search finds -/

/-- On a partitioned range the search ends at the partition point. -/
theorem lbLoop_partitioned (p : Nat → Bool) (len : Nat) : ∀ first,
    (∀ i j, first ≤ i → i < j → j < first + len → p j = true → p i = true) →
    first ≤ lbLoop p first len ∧ lbLoop p first len ≤ first + len ∧
    (∀ i, first ≤ i → i < lbLoop p first len → p i = true) ∧
    (∀ i, lbLoop p first len ≤ i → i < first + len → p i = false) := by
  induction len using Nat.strongRecOn with
  | _ len ih =>
    intro first hp
    unfold lbLoop
    by_cases h0 : len = 0
    · rw [if_pos h0]
      exact ⟨Nat.le_refl _, by omega, fun i h1 h2 => by omega, fun i h1 h2 => by omega⟩
    · rw [if_neg h0]
      by_cases hm : p (first + len / 2) = true
      · rw [if_pos hm]
        obtain ⟨h1, h2, h3, h4⟩ := ih (len - len / 2 - 1) (by omega) (first + len / 2 + 1)
          (fun i j a b c d => hp i j (by omega) b (by omega) d)
        refine ⟨by omega, by omega, ?_, ?_⟩
        · intro i hi hlt
          by_cases hc : i < first + len / 2 + 1
          · by_cases he : i = first + len / 2
            · rw [he]; exact hm
            · exact hp i (first + len / 2) hi (by omega) (by omega) hm
          · exact h3 i (by omega) hlt
        · intro i hi hlt
          exact h4 i hi (by omega)
      · rw [if_neg hm]
        obtain ⟨h1, h2, h3, h4⟩ := ih (len / 2) (by omega) first
          (fun i j a b c d => hp i j a b (by omega) d)
        refine ⟨h1, by omega, h3, ?_⟩
        intro i hi hlt
        by_cases hc : i < first + len / 2
        · exact h4 i hi hc
        · by_cases he : i = first + len / 2
          · rw [he]; simpa using hm
          · cases hpi : p i with
            | false => rfl
            | true => exact absurd (hp (first + len / 2) i (by omega) (by omega) hlt hpi) hm

/-- The elements satisfying the predicate all come before those that do not. -/
def Partitioned {α : Type} (p : α → Bool) (l : List α) : Prop :=
  ∀ (i j : Nat) (x y : α), i < j → l[i]? = some x → l[j]? = some y → p y = true → p x = true

theorem lowerBound_spec {α : Type} (p : α → Bool) (l : List α) (hp : Partitioned p l) :
    lowerBound p l ≤ l.length ∧
    (∀ i x, i < lowerBound p l → l[i]? = some x → p x = true) ∧
    (∀ i x, lowerBound p l ≤ i → l[i]? = some x → p x = false) := by
  have h := lbLoop_partitioned (fun i => match l[i]? with | some x => p x | none => false) l.length 0
    (by
      intro i j _ hij hj hpj
      have hj' : j < l.length := by omega
      have hi' : i < l.length := by omega
      simp only [List.getElem?_eq_getElem hj', List.getElem?_eq_getElem hi'] at hpj ⊢
      exact hp i j _ _ hij (List.getElem?_eq_getElem hi') (List.getElem?_eq_getElem hj') hpj)
  obtain ⟨_, h2, h3, h4⟩ := h
  refine ⟨by simp only [Nat.zero_add] at h2; exact h2, ?_, ?_⟩
  · intro i x hi hx
    have := h3 i (Nat.zero_le _) hi
    simpa only [hx] using this
  · intro i x hi hx
    have hlt : i < l.length := by
      rcases Nat.lt_or_ge i l.length with h | h
      · exact h
      · rw [List.getElem?_eq_none h] at hx; cases hx
    have := h4 i hi (by omega)
    simpa only [hx] using this

end Pstack.Search
