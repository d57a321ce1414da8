import Verif.Model.Regs
namespace Pstack.Arch

/-- The DWARF number of a slot with storage. -/
def numOf : Slot → Int
  | .user .rax => 0 | .user .rdx => 1 | .user .rcx => 2 | .user .rbx => 3 | .user .rsi => 4 | .user .rdi => 5
  | .user .rbp => 6 | .user .rsp => 7 | .user .r8 => 8 | .user .r9 => 9 | .user .r10 => 10 | .user .r11 => 11
  | .user .r12 => 12 | .user .r13 => 13 | .user .r14 => 14 | .user .r15 => 15 | .user .rip => 16
  | .xmm i => 17 + i | .st i => 33 + i | .mmx i => 41 + i
  | .user .eflags => 49 | .user .es => 50 | .user .cs => 51 | .user .ss => 52 | .user .ds => 53 | .user .fs => 54
  | .user .gs => 55 | .user .fs_base => 58 | .user .gs_base => 59
  | .mxcsr => 64 | .cwd => 65 | .swd => 66
  | .ftw => -1 | .fop => -2 | .fpRip => -3 | .fpRdp => -4 | .mxcrMask => -5
  | .unused => 0

theorem general_num' : ∀ i : Nat, i < 17 → general[i]?.map (fun u => numOf (.user u)) = some (i : Int) := by decide +kernel
theorem segments_num' : ∀ i : Nat, i < 7 → segments[i]?.map (fun u => numOf (.user u)) = some (i + 49 : Int) := by decide +kernel

theorem general_num (i : Nat) (h : i < 17) : ∃ u, general[i]? = some u ∧ numOf (.user u) = i := by
  have := general_num' i h
  simpa only [Option.map_eq_some_iff] using this
theorem segments_num (i : Nat) (h : i < 7) : ∃ u, segments[i]? = some u ∧ numOf (.user u) = i + 49 := by
  have := segments_num' i h
  simpa only [Option.map_eq_some_iff] using this

/-- Every number is of one of these kinds. -/
theorem slotOf_cases (reg : Int) :
    (∃ u, slotOf reg = some (.user u) ∧ numOf (.user u) = reg) ∨
    (∃ i, slotOf reg = some (.xmm i) ∧ i < 16 ∧ reg = 17 + i) ∨
    (∃ i, slotOf reg = some (.st i) ∧ i < 8 ∧ reg = 33 + i) ∨
    (∃ i, slotOf reg = some (.mmx i) ∧ i < 8 ∧ reg = 41 + i) ∨
    (slotOf reg = some .mxcsr ∧ reg = 64) ∨ (slotOf reg = some .cwd ∧ reg = 65) ∨ (slotOf reg = some .swd ∧ reg = 66) ∨
    (slotOf reg = some .ftw ∧ reg = -1) ∨ (slotOf reg = some .fop ∧ reg = -2) ∨ (slotOf reg = some .fpRip ∧ reg = -3) ∨
    (slotOf reg = some .fpRdp ∧ reg = -4) ∨ (slotOf reg = some .mxcrMask ∧ reg = -5) ∨
    (slotOf reg = some .unused ∧ ((60 ≤ reg ∧ reg ≤ 61) ∨ (67 ≤ reg ∧ reg ≤ 154))) ∨
    (slotOf reg = none ∧ (reg < -5 ∨ 154 < reg ∨ reg = 56 ∨ reg = 57 ∨ reg = 62 ∨ reg = 63)) := by
  unfold slotOf
  by_cases h0 : 0 ≤ reg ∧ reg ≤ 16
  · obtain ⟨u, h1, h2⟩ := general_num reg.toNat (by omega)
    rw [if_pos h0, h1]
    exact .inl ⟨u, rfl, by omega⟩
  rw [if_neg h0]
  by_cases h1 : 17 ≤ reg ∧ reg ≤ 32
  · rw [if_pos h1]
    exact .inr (.inl ⟨_, rfl, by omega, by omega⟩)
  rw [if_neg h1]
  by_cases h2 : 33 ≤ reg ∧ reg ≤ 40
  · rw [if_pos h2]
    exact .inr (.inr (.inl ⟨_, rfl, by omega, by omega⟩))
  rw [if_neg h2]
  by_cases h3 : 41 ≤ reg ∧ reg ≤ 48
  · rw [if_pos h3]
    exact .inr (.inr (.inr (.inl ⟨_, rfl, by omega, by omega⟩)))
  rw [if_neg h3]
  by_cases h4 : 49 ≤ reg ∧ reg ≤ 55
  · obtain ⟨u, h5, h6⟩ := segments_num (reg - 49).toNat (by omega)
    rw [if_pos h4, h5]
    exact .inl ⟨u, rfl, by omega⟩
  rw [if_neg h4]
  by_cases h5 : reg = 58
  · rw [if_pos h5]; exact .inl ⟨_, rfl, h5.symm⟩
  rw [if_neg h5]
  by_cases h6 : reg = 59
  · rw [if_pos h6]; exact .inl ⟨_, rfl, h6.symm⟩
  rw [if_neg h6]
  by_cases h7 : 60 ≤ reg ∧ reg ≤ 61
  · rw [if_pos h7]; simp [h7]
  rw [if_neg h7]
  by_cases h8 : reg = 64
  · rw [if_pos h8]; simp [h8]
  rw [if_neg h8]
  by_cases h9 : reg = 65
  · rw [if_pos h9]; simp [h9]
  rw [if_neg h9]
  by_cases h10 : reg = 66
  · rw [if_pos h10]; simp [h10]
  rw [if_neg h10]
  by_cases h11 : 67 ≤ reg ∧ reg ≤ 154
  · rw [if_pos h11]; simp [h11]
  rw [if_neg h11]
  by_cases h12 : reg = -1
  · rw [if_pos h12]; simp [h12]
  rw [if_neg h12]
  by_cases h13 : reg = -2
  · rw [if_pos h13]; simp [h13]
  rw [if_neg h13]
  by_cases h14 : reg = -3
  · rw [if_pos h14]; simp [h14]
  rw [if_neg h14]
  by_cases h15 : reg = -4
  · rw [if_pos h15]; simp [h15]
  rw [if_neg h15]
  by_cases h16 : reg = -5
  · rw [if_pos h16]; simp [h16]
  rw [if_neg h16]
  simp only [reduceCtorEq, false_and, exists_false, false_or, true_and]
  omega

theorem slotOf_num (reg : Int) (s : Slot) (h : slotOf reg = some s) (hu : s ≠ .unused) : reg = numOf s := by
  rcases slotOf_cases reg with ⟨u, h1, h2⟩ | ⟨i, h1, -, h2⟩ | ⟨i, h1, -, h2⟩ | ⟨i, h1, -, h2⟩ | ⟨h1, h2⟩ | ⟨h1, h2⟩ | ⟨h1, h2⟩ |
    ⟨h1, h2⟩ | ⟨h1, h2⟩ | ⟨h1, h2⟩ | ⟨h1, h2⟩ | ⟨h1, h2⟩ | ⟨h1, h2⟩ | ⟨h1, h2⟩
  all_goals rw [h1] at h; simp only [Option.some.injEq, reduceCtorEq] at h
  all_goals subst h
  all_goals first | exact h2.symm | exact h2 | exact absurd rfl hu

theorem slotOf_unused (reg : Int) : slotOf reg = some .unused ↔ (60 ≤ reg ∧ reg ≤ 61) ∨ (67 ≤ reg ∧ reg ≤ 154) := by
  rcases slotOf_cases reg with ⟨u, h1, h2⟩ | ⟨i, h1, h3, h2⟩ | ⟨i, h1, h3, h2⟩ | ⟨i, h1, h3, h2⟩ | ⟨h1, h2⟩ | ⟨h1, h2⟩ | ⟨h1, h2⟩ |
    ⟨h1, h2⟩ | ⟨h1, h2⟩ | ⟨h1, h2⟩ | ⟨h1, h2⟩ | ⟨h1, h2⟩ | ⟨h1, h2⟩ | ⟨h1, h2⟩
  · rw [h1]; cases u <;> simp [numOf] at h2 ⊢ <;> omega
  all_goals rw [h1]; simp only [Option.some.injEq, reduceCtorEq, false_iff, true_iff]; omega

theorem slotOf_none (reg : Int) :
    slotOf reg = none ↔ reg < -5 ∨ 154 < reg ∨ reg = 56 ∨ reg = 57 ∨ reg = 62 ∨ reg = 63 := by
  rcases slotOf_cases reg with ⟨u, h1, h2⟩ | ⟨i, h1, h3, h2⟩ | ⟨i, h1, h3, h2⟩ | ⟨i, h1, h3, h2⟩ | ⟨h1, h2⟩ | ⟨h1, h2⟩ | ⟨h1, h2⟩ |
    ⟨h1, h2⟩ | ⟨h1, h2⟩ | ⟨h1, h2⟩ | ⟨h1, h2⟩ | ⟨h1, h2⟩ | ⟨h1, h2⟩ | ⟨h1, h2⟩
  · rw [h1]; cases u <;> simp [numOf] at h2 ⊢ <;> omega
  all_goals rw [h1]; simp only [reduceCtorEq, false_iff, true_iff]; omega

theorem slotOf_mmx_lt (reg : Int) (i : Nat) (h : slotOf reg = some (.mmx i)) : i < 8 := by
  rcases slotOf_cases reg with ⟨u, h1, h2⟩ | ⟨i, h1, h3, h2⟩ | ⟨i, h1, h3, h2⟩ | ⟨i, h1, h3, h2⟩ | ⟨h1, h2⟩ | ⟨h1, h2⟩ | ⟨h1, h2⟩ |
    ⟨h1, h2⟩ | ⟨h1, h2⟩ | ⟨h1, h2⟩ | ⟨h1, h2⟩ | ⟨h1, h2⟩ | ⟨h1, h2⟩ | ⟨h1, h2⟩
  all_goals rw [h1] at h; simp only [Option.some.injEq, reduceCtorEq, Slot.mmx.injEq] at h
  omega

theorem upd_same {α β : Type} [DecidableEq α] (f : α → β) (a : α) (b : β) : upd f a b a = b := by simp [upd]
theorem upd_ne {α β : Type} [DecidableEq α] (f : α → β) (a x : α) (b : β) (h : x ≠ a) : upd f a b x = f x := by simp [upd, h]

end Pstack.Arch
