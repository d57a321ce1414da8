import Verif.Props.Unwind
import Verif.Spec.Calls
/-
The machine of Spec/Calls leaves a call chain on its stack.
-/
namespace Pstack.Props
open Pstack.Dwarf Pstack.Arch Pstack.Spec Pstack.Unwind

/-- The saved words of the callers are on the stack. -/
def Linked {p : Proc} (code : Code p) (word : BitVec 64 → BitVec 64) : BitVec 64 → List Caller → Prop
  | _, [] => True
  | bp, e :: es => bp.toNat % 8 = 0 ∧ bp.toNat + 16 = e.sp.toNat ∧ word (bp + 8) = e.pc ∧ word bp = e.bp ∧ code.Returns es e.pc ∧
      (es ≠ [] → e.sp.toNat ≤ e.bp.toNat) ∧ Linked code word e.bp es

theorem Linked.mono {p : Proc} {code : Code p} {w w' : BitVec 64 → BitVec 64} : ∀ {es : List Caller} {bp : BitVec 64},
    Linked code w bp es → (es ≠ [] → ∀ a : BitVec 64, bp.toNat ≤ a.toNat → w' a = w a) → Linked code w' bp es := by
  intro es
  induction es with
  | nil => intro bp _ _; trivial
  | cons e es ih =>
    intro bp h hw
    obtain ⟨h1, h2, h3, h4, h5, h6, h7⟩ := h
    have hw := hw (by simp)
    have hs := e.sp.isLt
    refine ⟨h1, h2, ?_, ?_, h5, h6, ih h7 ?_⟩
    · rw [hw _ (by rw [BitVec.toNat_add]; simp; omega)]; exact h3
    · rw [hw _ (Nat.le_refl _)]; exact h4
    · intro hne a ha
      exact hw a (by have := h6 hne; omega)

theorem run_linked {p : Proc} {code : Code p} {c : Cpu} {callers : List Caller} (h : Run code c callers) :
    code.here callers c.pc ∧ Linked code c.word c.bp callers := by
  induction h with
  | start c h => exact ⟨by simpa [Code.here] using h, trivial⟩
  | work c c' callers _ h1 h2 h3 ih =>
    refine ⟨h1, ?_⟩
    rw [h2]
    exact ih.2.mono h3
  | call c c' callers ret _ h1 h2 h3 h4 h5 h6 h7 h8 h9 ih =>
    have hs := c.sp.isLt
    have e16 : (c.sp - 16).toNat = c.sp.toNat - 16 := by
      rw [BitVec.toNat_sub]; simp; omega
    refine ⟨by simpa [Code.here] using h5, ?_⟩
    refine ⟨by rw [h6, e16]; omega, by rw [h6, e16]; show c.sp.toNat - 16 + 16 = c.sp.toNat; omega, ?_, by rw [h6]; exact h8, h1, h4, ?_⟩
    · rw [h6, show c.sp - 16 + 8 = c.sp - 8 by bv_omega]; exact h7
    · refine ih.2.mono (fun hne a ha => h9 a ?_)
      have := h4 hne
      show c.sp.toNat ≤ a.toNat
      have ha' : c.bp.toNat ≤ a.toNat := ha
      omega
  | ret c c' e callers _ h1 h2 h3 h4 h5 ih =>
    obtain ⟨-, -, h6, h7, h8, h9, h10, h11⟩ := ih
    refine ⟨h1, ?_⟩
    rw [h4, h8, h5]
    exact h11

theorem general_ok (r : Nat) (hr : r ≤ 16) : ∃ u, slotOf (r : Int) = some (.user u) ∧ general[r]? = some u := by
  have h : general[r]? = some (general[r]'(by simp [general]; omega)) := List.getElem?_eq_getElem _
  refine ⟨_, ?_, h⟩
  unfold slotOf
  rw [if_pos (by omega)]
  simp [h]

theorem slot_high (r : Int) (hr : r < 0 ∨ 16 < r) (u : UserReg) (hu : slotOf r = some (.user u)) :
    u ≠ .rsp ∧ u ≠ .rip ∧ u ≠ .rbp := by
  unfold slotOf at hu
  rw [if_neg (by omega)] at hu
  by_cases h1 : 17 ≤ r ∧ r ≤ 32
  · rw [if_pos h1] at hu; cases hu
  rw [if_neg h1] at hu
  by_cases h1 : 33 ≤ r ∧ r ≤ 40
  · rw [if_pos h1] at hu; cases hu
  rw [if_neg h1] at hu
  by_cases h1 : 41 ≤ r ∧ r ≤ 48
  · rw [if_pos h1] at hu; cases hu
  rw [if_neg h1] at hu
  by_cases h1 : 49 ≤ r ∧ r ≤ 55
  · rw [if_pos h1] at hu
    obtain ⟨v, hv, he⟩ := Option.map_eq_some_iff.1 hu
    simp only [Slot.user.injEq] at he
    subst he
    have hm := List.mem_of_getElem? hv
    simp only [segments, List.mem_cons, List.not_mem_nil, or_false] at hm
    rcases hm with rfl | rfl | rfl | rfl | rfl | rfl | rfl <;> decide
  rw [if_neg h1] at hu
  by_cases h1 : r = 58
  · rw [if_pos h1] at hu
    simp only [Option.some.injEq, Slot.user.injEq] at hu
    subst hu; decide
  rw [if_neg h1] at hu
  by_cases h1 : r = 59
  · rw [if_pos h1] at hu
    simp only [Option.some.injEq, Slot.user.injEq] at hu
    subst hu; decide
  rw [if_neg h1] at hu
  repeat' split at hu
  all_goals cases hu

/-- The registers of the caller of a framed function. -/
def callerOf (regs : Regs) (e : Caller) : Regs :=
  { regs with user := upd (upd (upd regs.user .rsp e.sp) .rip e.pc) .rbp e.bp }

/-- Program counter, stack pointer and frame pointer. -/
def Matches (regs : Regs) (e : Caller) : Prop := regs.user .rip = e.pc ∧ regs.user .rsp = e.sp ∧ regs.user .rbp = e.bp

theorem machine_reg (regs : Regs) (mem : Nat → Nat → Res (List Byte)) (cfa reloc : BitVec 64) (r : Nat) (u : UserReg)
    (hs : slotOf (r : Int) = some (.user u)) : (machineOf regs mem cfa reloc).reg r = some (regs.user u) := by
  simp only [machineOf, Regs.getDwarf, hs]

theorem getDwarf_user (regs : Regs) (r : Int) (u : UserReg) (hs : slotOf r = some (.user u)) :
    regs.getDwarf r = .ok (.u64 (regs.user u)) := by
  simp only [Regs.getDwarf, hs]

theorem machine_word (p : Proc) (word : BitVec 64 → BitVec 64)
    (hw : ∀ a : BitVec 64, a.toNat % 8 = 0 → p.mem a.toNat 8 = .ok (leBytes 8 (word a).toNat))
    (regs : Regs) (cfa reloc a : BitVec 64) (ha : a.toNat % 8 = 0) : (machineOf regs p.mem cfa reloc).word a = some (word a) := by
  simp only [machineOf, hw a ha, leBytes_length, if_true, leNat_leBytes, Option.some.injEq]
  have := (word a).isLt
  apply BitVec.eq_of_toNat_eq
  simp
  omega

theorem linked_chain {p : Proc} (code : Code p) (word : BitVec 64 → BitVec 64)
    (hw : ∀ a : BitVec 64, a.toNat % 8 = 0 → p.mem a.toNat 8 = .ok (leBytes 8 (word a).toNat)) :
    ∀ (callers : List Caller) (regs : Regs) (exact : Bool) (ip : BitVec 64), Linked code word (regs.user .rbp) callers →
    Site p exact (regs.user .rip) ip → code.here callers ip →
    ∃ ups, Chain p exact regs ups ∧ ups.length = callers.length ∧
      ∀ (i : Nat) (e : Caller), callers[i]? = some e → ∃ r, ups[i]? = some r ∧ Matches r e := by
  intro callers
  induction callers with
  | nil =>
    intro regs exact ip hl hsite hhere
    have hst : code.start ip := by simpa [Code.here] using hhere
    obtain ⟨reloc, d, fde, hr, hsig⟩ := code.start_rules ip hst
    refine ⟨[], .outermost exact regs (regs.user .rip) ip reloc (regs.user .rbp + 16) d fde startRow rfl hsite hr ?_ rfl ?_, rfl, ?_⟩
    · exact ⟨regs.user .rbp, rfl, rfl⟩
    · intro r hr16
      by_cases h7 : r = 7
      · subst h7; exact ⟨_, rfl⟩
      · obtain ⟨u, hu, -⟩ := general_ok r (by omega)
        refine ⟨regs.user u, ?_⟩
        unfold Row.Gives
        rw [if_neg (by simp [h7])]
        have hne : ¬ BitVec.ofNat 32 r = 16 := by
          intro h; have := congrArg BitVec.toNat h; simp at this; omega
        simp only [startRow, if_neg hne]
        exact machine_reg _ _ _ _ r u hu
    · intro i e h; simp at h
  | cons e es ih =>
    intro regs exact ip hl hsite hhere
    obtain ⟨h1, h2, h3, h4, h5, h6, h7⟩ := hl
    have hs := e.sp.isLt
    have hfr : code.framed ip := by simpa [Code.here] using hhere
    obtain ⟨reloc, d, fde, hr, hsig⟩ := code.framed_rules ip hfr
    have hcfa : regs.user .rbp + 16 = e.sp := by
      apply BitVec.eq_of_toNat_eq
      rw [BitVec.toNat_add]; simp; omega
    have hsite' : Site p fde.cie.isSignalHandler ((callerOf regs e).user .rip) (e.pc - 1) := by
      have hrip : (callerOf regs e).user .rip = e.pc := by simp [callerOf, upd]
      rw [hrip, hsig]
      unfold Site
      rw [if_neg (by simp; exact h5.1)]
      exact .inr ⟨h5.2.2, rfl⟩
    have hbp : (callerOf regs e).user .rbp = e.bp := by simp [callerOf, upd]
    obtain ⟨ups, c1, c2, c3⟩ := ih (callerOf regs e) fde.cie.isSignalHandler (e.pc - 1) (by rw [hbp]; exact h7) hsite' h5.2.1
    refine ⟨callerOf regs e :: ups, .caller exact regs (regs.user .rip) ip reloc e.sp d fde framedRow _ _ rfl hsite hr ?_ ?_ ?_ ?_ c1,
      by simp [c2], ?_⟩
    · exact ⟨regs.user .rbp, rfl, hcfa.symm⟩
    · intro h0
      rw [h0] at h2
      simp at h2
    · simp [framedRow]
    · refine ⟨?_, ?_, ?_⟩
      · intro r hr16
        by_cases h7 : r = 7
        · subst h7; exact ⟨e.sp, rfl, rfl⟩
        · by_cases h6 : r = 6
          · subst h6
            refine ⟨e.bp, ?_, rfl⟩
            show (machineOf regs p.mem e.sp reloc).word (e.sp + BitVec.ofInt 64 (-16)) = some e.bp
            have ea : e.sp + BitVec.ofInt 64 (-16) = regs.user .rbp := by
              rw [← hcfa, BitVec.add_assoc, show ((16 : BitVec 64) + BitVec.ofInt 64 (-16)) = 0#64 by decide]; exact BitVec.add_zero ..
            rw [ea, machine_word p word hw _ _ _ _ h1, h4]
          · obtain ⟨u, hu, hg⟩ := general_ok r (by omega)
            have hu1 : u ≠ .rsp ∧ u ≠ .rip ∧ u ≠ .rbp := by
              have : r = 0 ∨ r = 1 ∨ r = 2 ∨ r = 3 ∨ r = 4 ∨ r = 5 ∨ r = 8 ∨ r = 9 ∨ r = 10 ∨ r = 11 ∨ r = 12 ∨ r = 13 ∨ r = 14 ∨ r = 15 := by omega
              rcases this with rfl | rfl | rfl | rfl | rfl | rfl | rfl | rfl | rfl | rfl | rfl | rfl | rfl | rfl <;>
                (simp only [general, List.getElem?_cons_zero, List.getElem?_cons_succ, Option.some.injEq] at hg; subst hg; decide)
            refine ⟨regs.user u, ?_, ?_⟩
            · unfold Row.Gives
              rw [if_neg (by simp [h7])]
              have hne : ¬ BitVec.ofNat 32 r = 16 := by
                intro h; have := congrArg BitVec.toNat h; simp at this; omega
              have hne6 : ¬ BitVec.ofNat 32 r = 6 := by
                intro h; have := congrArg BitVec.toNat h; simp at this; omega
              simp only [framedRow, if_neg hne, if_neg hne6]
              exact machine_reg _ _ _ _ r u hu
            · rw [getDwarf_user _ _ u hu]
              simp [callerOf, upd, hu1.1, hu1.2.1, hu1.2.2]
      · refine ⟨e.pc, ?_, rfl⟩
        show (machineOf regs p.mem e.sp reloc).word (e.sp + BitVec.ofInt 64 (-8)) = some e.pc
        have ea : e.sp + BitVec.ofInt 64 (-8) = regs.user .rbp + 8 := by
          rw [← hcfa, BitVec.add_assoc, show ((16 : BitVec 64) + BitVec.ofInt 64 (-8)) = 8 by decide]
        have h8 : (regs.user .rbp + 8).toNat % 8 = 0 := by
          rw [BitVec.toNat_add]; simp; omega
        rw [ea, machine_word p word hw _ _ _ _ h8, h3]
      · intro r hr'
        have hns := slot_high r hr'
        unfold Regs.getDwarf
        cases hsl : slotOf r with
        | none => rfl
        | some s =>
          cases s with
          | user u =>
            obtain ⟨a1, a2, a3⟩ := hns u hsl
            simp [callerOf, upd, a1, a2, a3]
          | _ => rfl
    · intro i x hx
      cases i with
      | zero =>
        simp only [List.getElem?_cons_zero, Option.some.injEq] at hx ⊢
        subst hx
        exact ⟨_, rfl, by simp [Matches, callerOf, upd]⟩
      | succ i =>
        simp only [List.getElem?_cons_succ] at hx ⊢
        exact c3 i x hx

end Pstack.Props
