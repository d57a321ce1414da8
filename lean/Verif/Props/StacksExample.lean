import Verif.Props.Stacks
import Verif.Props.UnwindSample
/-
A core of a process with two threads, for C89.
-/
namespace Pstack.Props
open Pstack.Arch Pstack.Spec Pstack.Unwind Pstack.Stacks Pstack.Elf Pstack.Reader Pstack.Dwarf
open Pstack.CoreNotes (CORE)

/-- `user_regs_struct` with these, and zeros. -/
def stackGregs (ip sp bp : Nat) : List Byte := List.replicate 32 0#8 ++ leBytes 8 bp ++ List.replicate 88 0#8 ++ leBytes 8 ip ++ List.replicate 16 0#8 ++ leBytes 8 sp ++ List.replicate 56 0#8
def stackStatus (id ip sp bp : Nat) : List Byte := List.replicate 32 0#8 ++ leBytes 4 id ++ List.replicate 76 0#8 ++ stackGregs ip sp bp ++ List.replicate 8 0#8
def stackFp : NoteVal := ⟨CORE, 2, List.replicate 512 0#8⟩
/-- Thread 7 is in the start function, thread 5 two calls deep. -/
def stackSeven : ThreadNotes := ⟨stackStatus 7 0x403000 0x8000 0, [stackFp]⟩
def stackFive : ThreadNotes := ⟨stackStatus 5 0x401100 0x7fa0 0x7fc0, [stackFp]⟩
def stackThreads : List ThreadNotes := [stackSeven, stackFive]
def stackFile : Rdr := .file (((coreNotes C52_pre stackThreads).map noteBytes).flatten)
def stackPhdr : Phdr := ⟨4, 4, 0, 0, 0, ((coreNotes C52_pre stackThreads).map noteBytes).flatten.length, 0, 4⟩

theorem stack_hypotheses : stackFile.WF ∧ stackFile.size < 2 ^ 64 - 1 ∧ GoodCore C52_pre stackThreads ∧
    ∀ s ∈ [(stackPhdr, coreNotes C52_pre stackThreads)], s.2 ≠ [] ∧ SegmentHolds stackFile.content s.1 s.2 := by
  refine ⟨by simp only [stackFile, Rdr.WF]; decide +kernel, by decide +kernel, ⟨?_, ?_, ?_, ?_, ?_⟩, ?_⟩
  · decide +kernel
  · decide +kernel
  · decide +kernel
  · decide +kernel
  · decide +kernel
  · intro s hs
    simp only [List.mem_cons, List.not_mem_nil, or_false] at hs
    subst hs
    refine ⟨by decide, by decide +kernel, by decide +kernel, ?_⟩
    unfold NoteFits
    decide +kernel

def stackRegs (t : ThreadNotes) : Regs := decodeRegs t.gregs (List.replicate 512 0#8)

theorem stack_chain_five : ∃ ups, Chain sampleProc true (stackRegs stackFive) ups ∧ ups.length = 2 := by
  obtain ⟨h1, h2⟩ := run_linked sample_run
  have hs : Shows sampleProc (stackRegs stackFive) ⟨0x401100, 0x7fa0, 0x7fc0, sampleWord⟩ := ⟨by decide +kernel, by decide +kernel, by decide +kernel, fun a _ => by simp [sampleProc]⟩
  obtain ⟨ups, c1, c2, -⟩ := linked_chain sampleCode _ hs.word _ (stackRegs stackFive) true _ (by rw [hs.bp]; exact h2)
    (by unfold Site; rw [if_pos (.inl rfl)]; exact hs.pc.symm) h1
  exact ⟨ups, c1, c2⟩

theorem stack_chain_seven : ∃ ups, Chain sampleProc true (stackRegs stackSeven) ups ∧ ups.length = 0 := by
  obtain ⟨h1, h2⟩ := run_linked (Run.start (code := sampleCode) ⟨0x403000, 0x8000, 0, sampleWord⟩ (in_start _ (by decide)))
  have hs : Shows sampleProc (stackRegs stackSeven) ⟨0x403000, 0x8000, 0, sampleWord⟩ := ⟨by decide +kernel, by decide +kernel, by decide +kernel, fun a _ => by simp [sampleProc]⟩
  obtain ⟨ups, c1, c2, -⟩ := linked_chain sampleCode _ hs.word _ (stackRegs stackSeven) true _ (by rw [hs.bp]; exact h2)
    (by unfold Site; rw [if_pos (.inl rfl)]; exact hs.pc.symm) h1
  exact ⟨ups, c1, c2⟩

theorem stack_recorded (t : ThreadNotes) (h : t ∈ stackThreads) : ∃ fp, FpOf t fp ∧ Recorded t.gregs fp (stackRegs t) := by
  have hfp : FpOf t (List.replicate 512 0#8) := by
    simp only [stackThreads, List.mem_cons, List.not_mem_nil, or_false] at h
    rcases h with rfl | rfl <;> exact ⟨stackFp, by decide +kernel, rfl, by decide +kernel⟩
  refine ⟨_, hfp, recorded_decode ?_ (by decide +kernel)⟩
  simp only [stackThreads, List.mem_cons, List.not_mem_nil, or_false] at h
  rcases h with rfl | rfl <;> decide +kernel

/-- The theorem on this core: the stack of thread 5 has three frames, that of thread 7 one. -/
theorem C89_example : ∃ ds s m, segmentNotes stackFile [stackPhdr] = .ok ds ∧ CoreNotes.construct ds = .ok s ∧
    getStacks (CoreNotes.getRegs s) sampleProc 1024 (fun _ => none) (CoreNotes.listLWPs s) none = .ok m ∧ (∃ l, (5, l) ∈ m ∧ l.frames.length = 3) ∧ (∃ l, (7, l) ∈ m ∧ l.frames.length = 1) ∧ ¬ ∃ l, (6, l) ∈ m := by
  obtain ⟨h1, h2, h3, h4⟩ := stack_hypotheses
  obtain ⟨u5, f1, f2⟩ := stack_chain_five
  obtain ⟨u7, s1, s2⟩ := stack_chain_seven
  have hne : stackFive.id ≠ stackSeven.id := by decide +kernel
  let callers : ThreadNotes → List Regs := fun t => if t.id = 5 then u5 else u7
  have e5 : callers stackFive = u5 := if_pos (by decide +kernel)
  have e7 : callers stackSeven = u7 := if_neg (by decide +kernel)
  obtain ⟨ds, s, m, k1, k2, k3, k4, k5, k6⟩ := C89_core stackFile h1 h2 [(stackPhdr, coreNotes C52_pre stackThreads)] h4 C52_pre stackThreads h3 (by simp) sampleProc 1024 stackRegs callers stack_recorded
    (by
      intro t ht
      simp only [stackThreads, List.mem_cons, List.not_mem_nil, or_false] at ht
      rcases ht with rfl | rfl
      · rw [e7]; exact s1
      · rw [e5]; exact f1)
    (by
      intro t ht
      simp only [stackThreads, List.mem_cons, List.not_mem_nil, or_false] at ht
      rcases ht with rfl | rfl
      · rw [e7, s2]; decide
      · rw [e5, f2]; decide)
  have m5 : stackFive ∈ stackThreads := .tail _ (.head _)
  have m7 : stackSeven ∈ stackThreads := .head _
  have i5 : stackFive.id = 5 := by decide +kernel
  have i7 : stackSeven.id = 7 := by decide +kernel
  refine ⟨ds, s, m, k1, k2, k3, ?_, ?_, ?_⟩
  · obtain ⟨l, hl⟩ := (k5 5).2 ⟨stackFive, m5, i5⟩
    refine ⟨l, hl, ?_⟩
    rw [(SameAll.get (k6 stackFive m5 l (by rw [i5]; exact hl))).1, e5]; simp [f2]
  · obtain ⟨l, hl⟩ := (k5 7).2 ⟨stackSeven, m7, i7⟩
    refine ⟨l, hl, ?_⟩
    rw [(SameAll.get (k6 stackSeven m7 l (by rw [i7]; exact hl))).1, e7]; simp [s2]
  · intro h
    obtain ⟨t, ht, e⟩ := (k5 6).1 h
    simp only [stackThreads, List.mem_cons, List.not_mem_nil, or_false] at ht
    rcases ht with rfl | rfl
    · omega
    · omega

end Pstack.Props
