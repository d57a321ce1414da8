import Verif.Props.StackUsers
/-
C95: an object with two functions in one entry, data, and a variable of each thread.
-/
namespace Pstack.Props
open Pstack.Dwarf Pstack.Reader Pstack.Elf Pstack.Spec Pstack.StackUsers

/-- Names: "f" at 1, "g" at 3. -/
def useStrings : List Byte := [0#8, 0x66#8, 0#8, 0x67#8, 0#8]
def useNameOf (s : Sym) : List Byte := if s.name = 1 then [0x66#8] else if s.name = 3 then [0x67#8] else []

/-- The function "f", a variable in the data, a label. -/
def useSyms : List Sym := [⟨1, 18, 0, 1, 0x1000, 0x30⟩, ⟨3, 17, 0, 2, 0x3000, 8⟩, ⟨3, 16, 0, 1, 0x1008, 0⟩]
/-- In the other object "g" is inside of what the entry for "f" covers. -/
def useInner : List Sym := [⟨3, 18, 0, 1, 0x1010, 0x20⟩]
/-- A variable of each thread, at an offset of 0x10 in the memory of the thread. -/
def useThread : List Sym := [⟨1, 18, 0, 1, 0x1000, 0x30⟩, ⟨3, 22, 0, 2, 0x10, 4⟩]
/-- Another function, for which there is no entry. -/
def useBare : List Sym := [⟨1, 18, 0, 1, 0x1000, 0x30⟩, ⟨3, 18, 0, 1, 0x1100, 4⟩]

def useFile : List Phdr := [⟨1, 6, 0, 0x3000, 0, 0x100, 0x200, 0⟩, ⟨4, 0, 0, 0, 0, 8, 8, 0⟩, ⟨1, 5, 0, 0x1000, 0, 0x800, 0x800, 0⟩]
def useLoads : List Phdr := [⟨1, 5, 0, 0x1000, 0, 0x800, 0x800, 0⟩, ⟨1, 6, 0, 0x3000, 0, 0x100, 0x200, 0⟩]

/-- The usual instructions: push %rbp; mov %rsp, %rbp; ...; leave. -/
def useCommon : List Insn := [.defCfa 7 8, .offset 16 1]
def useOwn : List Insn := [.advance 1, .defCfaOffset 16, .offset 6 2, .advance 3, .defCfaRegister 6, .advance 32, .defCfa 7 8]
def useFrame : List Byte := encodeInsns useCommon ++ encodeInsns useOwn
def useCIE : CIE := ⟨0x1b#8, false, 1, -8, 16, 0, 5, [], 0#8⟩
def useFDE : FDE := ⟨0x1000, 0x30, 5, 17, useCIE, []⟩
def useFind (a : Nat) : Res (Option FDE) := if 0x1000 ≤ a ∧ a < 0x1030 then .ok (some useFDE) else .ok none
def useImage (l : List Sym) : Image := ⟨⟨.file (l.map symBytes).flatten, .file useStrings⟩, useLoads, some (useFrame, useFind)⟩
def useTable (l : List Sym) : DynTable := ⟨l, useNameOf⟩

theorem use_arranged : Arranged 1 useFile useLoads ∧ GoodSegments useFile := by
  refine ⟨⟨by decide, by decide⟩, by decide, ?_⟩
  have e : useFile.filter (fun p => p.type == 1) = [⟨1, 6, 0, 0x3000, 0, 0x100, 0x200, 0⟩, ⟨1, 5, 0, 0x1000, 0, 0x800, 0x800, 0⟩] := rfl
  rw [e]
  simp only [List.pairwise_cons, List.mem_cons, List.not_mem_nil, or_false, forall_eq_or_imp, forall_eq, InSegment]
  refine ⟨?_, ?_, ?_⟩ <;> first | (intro a; omega) | (intro a h; exact h.elim) | exact List.Pairwise.nil

/-- The row of the common entry. -/
def useIni : Row := (Row.set ⟨.regOff 7 8, Row.init.rule⟩ 16 (.offset (1 * -8)))

theorem use_program : ProgramOf useFrame useFDE useCommon useOwn useIni := by
  refine ⟨by decide +kernel, ?_, ?_, ⟨encodeInsns useOwn, by decide +kernel⟩, by decide +kernel, ⟨[], by decide +kernel⟩, by decide +kernel, by decide +kernel, rfl⟩
  · intro i hi
    simp only [useCommon, List.mem_cons, List.not_mem_nil, or_false] at hi
    rcases hi with rfl | rfl <;> simp [Insn.WF]
  · intro i hi
    simp only [useOwn, List.mem_cons, List.not_mem_nil, or_false] at hi
    rcases hi with rfl | rfl | rfl | rfl | rfl | rfl | rfl <;> simp [Insn.WF]

theorem offset_set {row : Row} {r : BitVec 32} {n x : Int} (h : RowOffset (row.set r (.offset n)) x) : x = n ∨ RowOffset row x := by
  rcases h with ⟨q, hq⟩ | ⟨q, hq⟩
  · exact .inr (.inl ⟨q, hq⟩)
  · simp only [Row.set] at hq
    split at hq
    · cases hq; exact .inl rfl
    · exact .inr (.inr ⟨q, hq⟩)

theorem offset_cfa {row : Row} {r : BitVec 32} {n x : Int} (h : RowOffset ⟨.regOff r n, row.rule⟩ x) : x = n ∨ RowOffset row x := by
  rcases h with ⟨q, hq⟩ | ⟨q, hq⟩
  · cases hq; exact .inl rfl
  · exact .inr (.inr ⟨q, hq⟩)

theorem offset_init {x : Int} : ¬RowOffset Row.init x := by
  rintro (⟨q, hq⟩ | ⟨q, hq⟩) <;> cases hq

/-- The offsets of the rows of the program. -/
def UseOffset (x : Int) : Prop := x = 8 ∨ x = -8 ∨ x = 16 ∨ x = -16

theorem use_rows (start : Nat) (h : start < 2 ^ 32) : (∃ t, rows (factorsOf useFDE) useIni ⟨start, useIni, []⟩ useOwn = some t ∧ t.getLast?.map Prod.fst = some (start + 36)) ∧
    (∀ row x, InForce (factorsOf useFDE) useIni ⟨start, useIni, []⟩ useOwn row → RowOffset row x → UseOffset x) ∧
    ∃ row, InForce (factorsOf useFDE) useIni ⟨start, useIni, []⟩ useOwn row ∧ RowOffset row 16 := by
  have kf : factorsOf useFDE = ⟨1, -8⟩ := rfl
  rw [kf]
  have adv : ∀ (s : TabState) (n : Nat), n ≤ 32 → s.loc < 2 ^ 33 → s.advance ⟨1, -8⟩ n = some { s with loc := s.loc + n } := by
    intro s n h1 h2
    unfold TabState.advance
    simp only [Nat.mul_one]
    rw [if_pos (by omega)]
  have r0 : ∀ x, RowOffset useIni x → UseOffset x := by
    intro x hx
    rcases offset_set hx with rfl | hx
    · right; left; rfl
    · rcases offset_cfa hx with rfl | hx
      · left; rfl
      · exact absurd hx offset_init
  -- the rows
  let a1 : Row := ⟨.regOff 7 16, useIni.rule⟩
  let a2 : Row := a1.set 6 (.offset (2 * -8))
  let a3 : Row := ⟨.regOff 6 16, a2.rule⟩
  let a4 : Row := ⟨.regOff 7 8, a3.rule⟩
  have s1 : TabState.step ⟨1, -8⟩ useIni ⟨start, useIni, []⟩ (.advance 1) = some ⟨start + 1, useIni, []⟩ := adv _ 1 (by omega) (by simp; omega)
  have s2 : TabState.step ⟨1, -8⟩ useIni ⟨start + 1, useIni, []⟩ (.defCfaOffset 16) = some ⟨start + 1, a1, []⟩ := rfl
  have s3 : TabState.step ⟨1, -8⟩ useIni ⟨start + 1, a1, []⟩ (.offset 6 2) = some ⟨start + 1, a2, []⟩ := rfl
  have s4 : TabState.step ⟨1, -8⟩ useIni ⟨start + 1, a2, []⟩ (.advance 3) = some ⟨start + 4, a2, []⟩ := adv _ 3 (by omega) (by simp; omega)
  have s5 : TabState.step ⟨1, -8⟩ useIni ⟨start + 4, a2, []⟩ (.defCfaRegister 6) = some ⟨start + 4, a3, []⟩ := rfl
  have s6 : TabState.step ⟨1, -8⟩ useIni ⟨start + 4, a3, []⟩ (.advance 32) = some ⟨start + 36, a3, []⟩ := adv _ 32 (by omega) (by simp; omega)
  have s7 : TabState.step ⟨1, -8⟩ useIni ⟨start + 36, a3, []⟩ (.defCfa 7 8) = some ⟨start + 36, a4, []⟩ := rfl
  have o1 : ∀ x, RowOffset a1 x → UseOffset x := by
    intro x hx
    rcases offset_cfa hx with rfl | hx
    · right; right; left; rfl
    · exact r0 x hx
  have o2 : ∀ x, RowOffset a2 x → UseOffset x := by
    intro x hx
    rcases offset_set hx with rfl | hx
    · right; right; right; rfl
    · exact o1 x hx
  have o3 : ∀ x, RowOffset a3 x → UseOffset x := by
    intro x hx
    rcases offset_cfa hx with rfl | hx
    · right; right; left; rfl
    · exact o2 x hx
  have o4 : ∀ x, RowOffset a4 x → UseOffset x := by
    intro x hx
    rcases offset_cfa hx with rfl | hx
    · left; rfl
    · exact o3 x hx
  refine ⟨?_, ?_, ?_⟩
  · refine ⟨[(start, useIni), (start + 1, a2), (start + 4, a3), (start + 36, a4)], ?_, rfl⟩
    simp only [rows, useOwn, s1, s2, s3, s4, s5, s6, s7, Insn.endsRow]
    rfl
  · intro row x hr hx
    cases hr with
    | now => exact r0 x hx
    | later e hr =>
      rw [s1] at e; cases e
      cases hr with
      | now => exact r0 x hx
      | later e hr =>
        rw [s2] at e; cases e
        cases hr with
        | now => exact o1 x hx
        | later e hr =>
          rw [s3] at e; cases e
          cases hr with
          | now => exact o2 x hx
          | later e hr =>
            rw [s4] at e; cases e
            cases hr with
            | now => exact o2 x hx
            | later e hr =>
              rw [s5] at e; cases e
              cases hr with
              | now => exact o3 x hx
              | later e hr =>
                rw [s6] at e; cases e
                cases hr with
                | now => exact o3 x hx
                | later e hr =>
                  rw [s7] at e; cases e
                  cases hr
                  exact o4 x hx
  · exact ⟨a1, .later s1 (.later s2 (.now _ _)), .inl ⟨7, rfl⟩⟩

theorem use_figures (start : Nat) (h : start < 2 ^ 32) : Figures useFrame useFDE start 16 (start + 36) := by
  obtain ⟨⟨t, h1, h2⟩, h3, h4⟩ := use_rows start h
  refine ⟨useCommon, useOwn, useIni, t, use_program, h1, ?_, ⟨by decide, ?_, .inr h4⟩, h2, by omega⟩
  · intro row x hr hx
    rcases h3 row x hr hx with rfl | rfl | rfl | rfl <;> decide
  · intro row x hr hx
    rcases h3 row x hr hx with rfl | rfl | rfl | rfl <;> decide

theorem use_in : (useTable useSyms).In (useImage useSyms).tab.symbols (useImage useSyms).tab.strings ∧ (useTable useInner).In (useImage useInner).tab.symbols (useImage useInner).tab.strings ∧
    (useTable useThread).In (useImage useThread).tab.symbols (useImage useThread).tab.strings ∧ (useTable useBare).In (useImage useBare).tab.symbols (useImage useBare).tab.strings := by
  refine ⟨?_, ?_, ?_, ?_⟩
  · refine ⟨.inr ⟨by simp only [Rdr.WF, useImage]; decide +kernel, by decide +kernel, rfl, by simp [useTable, useSyms, SymFits]⟩, ?_⟩
    intro s hs
    simp only [useTable, useSyms, List.mem_cons, List.not_mem_nil, or_false] at hs
    rcases hs with rfl | rfl | rfl <;> decide +kernel
  · refine ⟨.inr ⟨by simp only [Rdr.WF, useImage]; decide +kernel, by decide +kernel, rfl, by simp [useTable, useInner, SymFits]⟩, ?_⟩
    intro s hs
    simp only [useTable, useInner, List.mem_cons, List.not_mem_nil, or_false] at hs
    rcases hs with rfl <;> decide +kernel
  · refine ⟨.inr ⟨by simp only [Rdr.WF, useImage]; decide +kernel, by decide +kernel, rfl, by simp [useTable, useThread, SymFits]⟩, ?_⟩
    intro s hs
    simp only [useTable, useThread, List.mem_cons, List.not_mem_nil, or_false] at hs
    rcases hs with rfl | rfl <;> decide +kernel
  · refine ⟨.inr ⟨by simp only [Rdr.WF, useImage]; decide +kernel, by decide +kernel, rfl, by simp [useTable, useBare, SymFits]⟩, ?_⟩
    intro s hs
    simp only [useTable, useBare, List.mem_cons, List.not_mem_nil, or_false] at hs
    rcases hs with rfl | rfl <;> decide +kernel

theorem use_f {l : List Sym} : Listed useFile (useTable l) [] ⟨1, 18, 0, 1, 0x1000, 0x30⟩ ∧ EntryFor (useImage l) 0x1000 useFrame useFDE :=
  ⟨⟨by decide, ⟨⟨1, 5, 0, 0x1000, 0, 0x800, 0x800, 0⟩, by decide, rfl, by unfold InSegment; decide, by decide⟩, .inl rfl⟩, ⟨useFind, rfl, by decide⟩⟩

theorem use_first {l : List Sym} {rest : List Sym} {text : List Byte} (h : UsersText (useImage l) useFile (useTable l) [] rest text) :
    UsersText (useImage l) useFile (useTable l) [] (⟨1, 18, 0, 1, 0x1000, 0x30⟩ :: rest) (usersLine 16 37 48 [0x66#8] ++ text) := by
  have key := UsersText.user (m := 16) (last := 0x1000 + 36) (s := ⟨1, 18, 0, 1, 0x1000, 0x30⟩) (use_f (l := l)).1 use_f.2 (by decide) (use_figures 0x1000 (by decide)) h
  have e : usersLine 16 (0x1000 + 36 - 0x1000 + 1) 48 (useNameOf ⟨1, 18, 0, 1, 0x1000, 0x30⟩) = usersLine 16 37 48 [0x66#8] := by decide +kernel
  rw [← e]
  exact key

/-- One line, for "f": the CFA is up to 16 bytes from a register, the last row starts 36 bytes from the start of the function, which has 48. -/
theorem C95_example : processImage (useImage useSyms) [] (afterLookups useLoads [0x3000]) = .ok (asciiText "16\t37\t48\tf\n") := by
  have e : asciiText "16\t37\t48\tf\n" = usersLine 16 37 48 [0x66#8] ++ [] := by decide +kernel
  rw [e]
  refine C95_lines_partial (t := useTable useSyms) (file := useFile) use_in.1 use_arranged.1 use_arranged.2 ?_ [0x3000] (by decide) (use_first (.other ?_ (.other ?_ .none)))
  · intro s hs hz
    simp only [useTable, useSyms, List.mem_cons, List.not_mem_nil, or_false] at hs
    rcases hs with rfl | rfl | rfl
    · exact ⟨⟨1, 5, 0, 0x1000, 0, 0x800, 0x800, 0⟩, by decide, rfl, by unfold InSegment; decide⟩
    · exact ⟨⟨1, 6, 0, 0x3000, 0, 0x100, 0x200, 0⟩, by decide, rfl, by unfold InSegment; decide⟩
    · exact absurd rfl hz
  · rintro ⟨_, ⟨p, h1, h2, h3, h4⟩, _⟩
    simp only [useFile, List.mem_cons, List.not_mem_nil, or_false] at h1
    rcases h1 with rfl | rfl | rfl
    · revert h4; decide
    · revert h2; decide
    · unfold InSegment at h3
      simp at h3
  · rintro ⟨h, _⟩
    exact h rfl

/-- C95 does not hold for a function that is not at the start of what its entry is for: "g" is 16 bytes after "f" and the last row 20 bytes after the start of "g", but the line says that it is 36 bytes away. -/
theorem C95_not_inside : EntryFor (useImage useInner) 0x1010 useFrame useFDE ∧ Figures useFrame useFDE 0x1000 16 0x1024 ∧
    userLine (useImage useInner) ⟨3, 18, 0, 1, 0x1010, 0x20⟩ = .ok (asciiText "16\t37\t32\tg\n") := by
  have he : EntryFor (useImage useInner) 0x1010 useFrame useFDE := ⟨useFind, rfl, by decide⟩
  refine ⟨he, use_figures 0x1000 (by decide), ?_⟩
  have e : asciiText "16\t37\t32\tg\n" = usersLine 16 (0x1010 + 36 - 0x1010 + 1) 32 (useNameOf ⟨3, 18, 0, 1, 0x1010, 0x20⟩) := by decide +kernel
  rw [e]
  exact line_spec (t := useTable useInner) (by decide) (use_in.2.1.2 _ (by simp [useTable, useInner])) he (use_figures 0x1010 (by decide))

/-- The variable of each thread is in no segment. -/
theorem C95_segment_example : processImage (useImage useThread) [] (afterLookups useLoads []) = .ub := by
  refine C95_not_segment (t := useTable useThread) (file := useFile) (before := [⟨1, 18, 0, 1, 0x1000, 0x30⟩]) (after := []) use_in.2.2.1 use_arranged.1 use_arranged.2 rfl ?_ (use_first .none) (by decide) ?_ [] (by decide)
  · intro s hs _
    simp only [List.mem_cons, List.not_mem_nil, or_false] at hs
    subst hs
    exact ⟨⟨1, 5, 0, 0x1000, 0, 0x800, 0x800, 0⟩, by decide, rfl, by unfold InSegment; decide⟩
  · intro p hp ht
    simp only [useFile, List.mem_cons, List.not_mem_nil, or_false] at hp
    rcases hp with rfl | rfl | rfl
    · unfold InSegment; decide
    · cases ht
    · unfold InSegment; decide

/-- The other function has no entry. -/
theorem C95_entry_example : processImage (useImage useBare) [] (afterLookups useLoads []) = .ub := by
  refine C95_not_entry (t := useTable useBare) (file := useFile) (before := [⟨1, 18, 0, 1, 0x1000, 0x30⟩]) (after := []) (s := ⟨3, 18, 0, 1, 0x1100, 4⟩) use_in.2.2.2 use_arranged.1 use_arranged.2 rfl ?_ (use_first .none) ?_ (.inr ⟨useFrame, useFind, rfl, by decide⟩) [] (by decide)
  · intro s hs _
    simp only [List.mem_cons, List.not_mem_nil, or_false] at hs
    subst hs
    exact ⟨⟨1, 5, 0, 0x1000, 0, 0x800, 0x800, 0⟩, by decide, rfl, by unfold InSegment; decide⟩
  · exact ⟨by decide, ⟨⟨1, 5, 0, 0x1000, 0, 0x800, 0x800, 0⟩, by decide, rfl, by unfold InSegment; decide, by decide⟩, .inl rfl⟩

end Pstack.Props
