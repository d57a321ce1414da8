import Verif.Props.Versions
/-
Example for C93: a library that needs two versions of "libc.so.6", one of which is hidden, and defines itself, "V1", and "V2", which follows "V1".
-/
namespace Pstack.Props
open Pstack.Reader Pstack.Spec Pstack.Elf Pstack.Sections Pstack.Dwarf Pstack.Versions

def verShstr : List Byte := [0x00#8, 0x2e#8, 0x73#8, 0x68#8, 0x73#8, 0x74#8, 0x72#8, 0x74#8, 0x61#8, 0x62#8, 0x00#8, 0x2e#8, 0x64#8, 0x79#8, 0x6e#8, 0x73#8, 0x74#8, 0x72#8, 0x00#8, 0x2e#8, 0x64#8, 0x79#8, 0x6e#8, 0x61#8, 0x6d#8, 0x69#8, 0x63#8, 0x00#8, 0x2e#8, 0x67#8, 0x6e#8, 0x75#8, 0x2e#8, 0x76#8, 0x65#8, 0x72#8, 0x73#8, 0x69#8, 0x6f#8, 0x6e#8, 0x5f#8, 0x72#8, 0x00#8, 0x2e#8, 0x67#8, 0x6e#8, 0x75#8, 0x2e#8, 0x76#8, 0x65#8, 0x72#8, 0x73#8, 0x69#8, 0x6f#8, 0x6e#8, 0x5f#8, 0x64#8, 0x00#8, 0x2e#8, 0x67#8, 0x6e#8, 0x75#8, 0x2e#8, 0x76#8, 0x65#8, 0x72#8, 0x73#8, 0x69#8, 0x6f#8, 0x6e#8, 0x00#8]

def verDynstr : List Byte := [0x00#8, 0x6c#8, 0x69#8, 0x62#8, 0x63#8, 0x2e#8, 0x73#8, 0x6f#8, 0x2e#8, 0x36#8, 0x00#8, 0x47#8, 0x4c#8, 0x49#8, 0x42#8, 0x43#8, 0x5f#8, 0x32#8, 0x2e#8, 0x34#8, 0x00#8, 0x48#8, 0x49#8, 0x44#8, 0x44#8, 0x45#8, 0x4e#8, 0x00#8, 0x6c#8, 0x69#8, 0x62#8, 0x2e#8, 0x73#8, 0x6f#8, 0x00#8, 0x56#8, 0x31#8, 0x00#8, 0x56#8, 0x32#8, 0x00#8]

def verDyns : List Byte := [0x01#8, 0x00#8, 0x00#8, 0x00#8, 0x00#8, 0x00#8, 0x00#8, 0x00#8, 0x01#8, 0x00#8, 0x00#8, 0x00#8, 0x00#8, 0x00#8, 0x00#8, 0x00#8, 0xff#8, 0xff#8, 0xff#8, 0x6f#8, 0x00#8, 0x00#8, 0x00#8, 0x00#8, 0x01#8, 0x00#8, 0x00#8, 0x00#8, 0x00#8, 0x00#8, 0x00#8, 0x00#8, 0xfd#8, 0xff#8, 0xff#8, 0x6f#8, 0x00#8, 0x00#8, 0x00#8, 0x00#8, 0x03#8, 0x00#8, 0x00#8, 0x00#8, 0x00#8, 0x00#8, 0x00#8, 0x00#8, 0xff#8, 0xff#8, 0xff#8, 0x6f#8, 0x00#8, 0x00#8, 0x00#8, 0x00#8, 0x07#8, 0x00#8, 0x00#8, 0x00#8, 0x00#8, 0x00#8, 0x00#8, 0x00#8, 0x00#8, 0x00#8, 0x00#8, 0x00#8, 0x00#8, 0x00#8, 0x00#8, 0x00#8, 0x00#8, 0x00#8, 0x00#8, 0x00#8, 0x00#8, 0x00#8, 0x00#8, 0x00#8]

def verNeedBytes : List Byte := [0x01#8, 0x00#8, 0x02#8, 0x00#8, 0x01#8, 0x00#8, 0x00#8, 0x00#8, 0x10#8, 0x00#8, 0x00#8, 0x00#8, 0x00#8, 0x00#8, 0x00#8, 0x00#8, 0x14#8, 0x69#8, 0x69#8, 0x0d#8, 0x00#8, 0x00#8, 0x02#8, 0x00#8, 0x0b#8, 0x00#8, 0x00#8, 0x00#8, 0x10#8, 0x00#8, 0x00#8, 0x00#8, 0x11#8, 0x00#8, 0x00#8, 0x00#8, 0x00#8, 0x00#8, 0x05#8, 0x80#8, 0x15#8, 0x00#8, 0x00#8, 0x00#8, 0x00#8, 0x00#8, 0x00#8, 0x00#8]

def verDefBytes : List Byte := [0x01#8, 0x00#8, 0x01#8, 0x00#8, 0x01#8, 0x00#8, 0x01#8, 0x00#8, 0x05#8, 0x00#8, 0x00#8, 0x00#8, 0x14#8, 0x00#8, 0x00#8, 0x00#8, 0x1c#8, 0x00#8, 0x00#8, 0x00#8, 0x1c#8, 0x00#8, 0x00#8, 0x00#8, 0x00#8, 0x00#8, 0x00#8, 0x00#8, 0x01#8, 0x00#8, 0x00#8, 0x00#8, 0x03#8, 0x00#8, 0x01#8, 0x00#8, 0x06#8, 0x00#8, 0x00#8, 0x00#8, 0x14#8, 0x00#8, 0x00#8, 0x00#8, 0x1c#8, 0x00#8, 0x00#8, 0x00#8, 0x23#8, 0x00#8, 0x00#8, 0x00#8, 0x00#8, 0x00#8, 0x00#8, 0x00#8, 0x01#8, 0x00#8, 0x00#8, 0x00#8, 0x04#8, 0x00#8, 0x02#8, 0x00#8, 0x07#8, 0x00#8, 0x00#8, 0x00#8, 0x14#8, 0x00#8, 0x00#8, 0x00#8, 0x00#8, 0x00#8, 0x00#8, 0x00#8, 0x26#8, 0x00#8, 0x00#8, 0x00#8, 0x08#8, 0x00#8, 0x00#8, 0x00#8, 0x23#8, 0x00#8, 0x00#8, 0x00#8, 0x00#8, 0x00#8, 0x00#8, 0x00#8]

def verSyms : List Byte := [0x00#8, 0x00#8, 0x01#8, 0x00#8, 0x02#8, 0x00#8, 0x03#8, 0x80#8, 0x04#8, 0x00#8]

def verHdrs : List Shdr := [⟨0, 0, 0, 0, 0, 0, 0, 0, 0, 0⟩, ⟨1, 3, 0, 0, 1, 71, 0, 0, 1, 0⟩, ⟨11, 3, 0, 0, 72, 41, 0, 0, 1, 0⟩, ⟨19, 6, 0, 0, 113, 80, 2, 0, 1, 0⟩, ⟨28, 1879048190, 0, 0, 193, 48, 2, 0, 1, 0⟩, ⟨43, 1879048189, 0, 0, 241, 92, 2, 0, 1, 0⟩, ⟨58, 1879048191, 0, 0, 333, 10, 0, 0, 1, 0⟩]

def verNames : List (List Byte) := [[], [0x2e#8, 0x73#8, 0x68#8, 0x73#8, 0x74#8, 0x72#8, 0x74#8, 0x61#8, 0x62#8], [0x2e#8, 0x64#8, 0x79#8, 0x6e#8, 0x73#8, 0x74#8, 0x72#8], [0x2e#8, 0x64#8, 0x79#8, 0x6e#8, 0x61#8, 0x6d#8, 0x69#8, 0x63#8], [0x2e#8, 0x67#8, 0x6e#8, 0x75#8, 0x2e#8, 0x76#8, 0x65#8, 0x72#8, 0x73#8, 0x69#8, 0x6f#8, 0x6e#8, 0x5f#8, 0x72#8], [0x2e#8, 0x67#8, 0x6e#8, 0x75#8, 0x2e#8, 0x76#8, 0x65#8, 0x72#8, 0x73#8, 0x69#8, 0x6f#8, 0x6e#8, 0x5f#8, 0x64#8], [0x2e#8, 0x67#8, 0x6e#8, 0x75#8, 0x2e#8, 0x76#8, 0x65#8, 0x72#8, 0x73#8, 0x69#8, 0x6f#8, 0x6e#8]]

def verSecs : List (Shdr × List Byte) := verHdrs.zip verNames

def verFile : ElfFile := ⟨.file ([0#8] ++ (verShstr ++ (verDynstr ++ (verDyns ++ (verNeedBytes ++ (verDefBytes ++ (verSyms ++ (verHdrs.map shdrBytes).flatten))))))), 343, 7, 64, 1, fun _ => .exc⟩

theorem verFile_ok : HasSections verFile verSecs 1 := by
  refine ⟨by unfold verFile Rdr.WF; decide +kernel, by decide +kernel, by decide, ?_, ⟨_, _, rfl, rfl⟩, ⟨_, _, rfl, .inl rfl⟩, ⟨_, _, rfl, .inl ⟨rfl, by decide, by decide⟩⟩, ⟨_, _, rfl, by decide, by decide, by decide, by decide +kernel, ?_⟩⟩
  · intro i h n hi
    have hlt : i < 7 := (List.getElem?_eq_some_iff.1 hi).1
    have key : ∀ i (hi : i < 7), verFile.io.content.drop (verFile.shoff + i * verFile.shentsize) = shdrBytes (verSecs[i]'hi).1 ++ verFile.io.content.drop (verFile.shoff + i * verFile.shentsize + 64) := by decide +kernel
    have fits : ∀ i (hi : i < 7), ShdrFits (verSecs[i]'hi).1 := by unfold ShdrFits; decide +kernel
    have e : verSecs[i]'hlt = (h, n) := by rw [List.getElem?_eq_getElem hlt] at hi; exact Option.some.inj hi
    have f := fits i hlt
    have q := key i hlt
    rw [e] at f q
    exact ⟨f, _, q⟩
  · intro h n hm
    have key : ∀ x ∈ verSecs, (∀ b ∈ x.2, b ≠ 0#8) ∧ ((verFile.io.content.drop 1).take verShstr.length).drop x.1.name = x.2 ++ 0#8 :: ((verFile.io.content.drop 1).take verShstr.length).drop (x.1.name + x.2.length + 1) := by decide +kernel
    exact ⟨(key _ hm).1, _, (key _ hm).2⟩


def verDynamic : List (Nat × Nat) := [(1, 1), (1879048191, 1), (1879048189, 3), (1879048191, 7), (0, 0)]

def verNeeds : List FileNeeds := [⟨[0x6c#8, 0x69#8, 0x62#8, 0x63#8, 0x2e#8, 0x73#8, 0x6f#8, 0x2e#8, 0x36#8], [(2, [0x47#8, 0x4c#8, 0x49#8, 0x42#8, 0x43#8, 0x5f#8, 0x32#8, 0x2e#8, 0x34#8]), (0x8005, [0x48#8, 0x49#8, 0x44#8, 0x44#8, 0x45#8, 0x4e#8])]⟩]

def verDefs : List VersionDef := [⟨1, [0x6c#8, 0x69#8, 0x62#8, 0x2e#8, 0x73#8, 0x6f#8], none⟩, ⟨3, [0x56#8, 0x31#8], none⟩, ⟨4, [0x56#8, 0x32#8], some [0x56#8, 0x31#8]⟩]

theorem ver_has3 : HasSection verFile verSecs secDynamic 6 (verHdrs[3]'(by decide)) verDyns :=
  ⟨3, lastNamed_of rfl (by decide +kernel), rfl, by unfold HasBytes; decide, by decide, by decide, by decide +kernel, by decide +kernel⟩

theorem ver_has4 : HasSection verFile verSecs secNeeded 0x6ffffffe (verHdrs[4]'(by decide)) verNeedBytes :=
  ⟨4, lastNamed_of rfl (by decide +kernel), rfl, by unfold HasBytes; decide, by decide, by decide, by decide +kernel, by decide +kernel⟩

theorem ver_has5 : HasSection verFile verSecs secDefined 0x6ffffffd (verHdrs[5]'(by decide)) verDefBytes :=
  ⟨5, lastNamed_of rfl (by decide +kernel), rfl, by unfold HasBytes; decide, by decide, by decide, by decide +kernel, by decide +kernel⟩

theorem ver_has6 : HasSection verFile verSecs secVersym 0x6fffffff (verHdrs[6]'(by decide)) ([0, 1, 2, 0x8003, 4].map (leBytes 2)).flatten :=
  ⟨6, lastNamed_of rfl (by decide +kernel), rfl, by unfold HasBytes; decide, by decide, by decide, by decide +kernel, by decide +kernel⟩

theorem ver_strs : SectionBytes verFile (verHdrs[2]'(by decide)) verDynstr :=
  ⟨by unfold HasBytes; decide, by decide, by decide, by decide +kernel, by decide +kernel⟩

theorem ver_dynamic : HasDynamic verFile verSecs verDynamic := ⟨_, _, ver_has3, by decide, by decide +kernel⟩

theorem ver_needs : NeedsAt verNeedBytes verDynstr 0 verNeeds :=
  .cons (version := 1) (o := 1) (aux := 16) (next := 0) (rest := verNeedBytes.drop 16) (by decide +kernel) (by decide) (by decide) (by decide) ⟨by decide, by decide, verDynstr.drop 11, by decide +kernel⟩
    (.cons (hash := 0x0d696914) (flags := 0) (o := 11) (next := 16) (rest := verNeedBytes.drop 32) (by decide +kernel) (by decide) (by decide) ⟨by decide, by decide, verDynstr.drop 21, by decide +kernel⟩
      (.cons (hash := 0x11) (flags := 0) (o := 21) (next := 0) (rest := []) (by decide +kernel) (by decide) (by decide) ⟨by decide, by decide, verDynstr.drop 28, by decide +kernel⟩ .nil)) .nil

theorem ver_defs : DefsAt verDefBytes verDynstr 0 verDefs :=
  .cons (version := 1) (flags := 1) (count := 1) (hash := 5) (aux := 20) (next := 28) (rest := verDefBytes.drop 20) (by decide +kernel) (by decide) (by decide) (by decide)
    (.one (next := 0) ⟨28, verDefBytes.drop 28, by decide +kernel, by decide, by decide, by decide, verDynstr.drop 35, by decide +kernel⟩ rfl)
    (.cons (version := 1) (flags := 0) (count := 1) (hash := 6) (aux := 20) (next := 28) (rest := verDefBytes.drop 48) (by decide +kernel) (by decide) (by decide) (by decide)
      (.one (next := 0) ⟨35, verDefBytes.drop 56, by decide +kernel, by decide, by decide, by decide, verDynstr.drop 38, by decide +kernel⟩ rfl)
      (.cons (version := 1) (flags := 0) (count := 2) (hash := 7) (aux := 20) (next := 0) (rest := verDefBytes.drop 76) (by decide +kernel) (by decide) (by decide) (by decide)
        (.more (next := 8) (next' := 0) ⟨38, verDefBytes.drop 84, by decide +kernel, by decide, by decide, by decide, verDynstr.drop 41, by decide +kernel⟩ ⟨35, verDefBytes.drop 92, by decide +kernel, by decide, by decide, by decide, verDynstr.drop 38, by decide +kernel⟩ rfl (by decide) (by decide)) .nil))

theorem ver_sample : HasVersions verFile verSecs 1 verNeeds verDefs :=
  ⟨verFile_ok, .some ver_has4 rfl ver_strs ver_dynamic ⟨[(1, 1)], _, rfl, by decide⟩ ver_needs, .some ver_has5 rfl ver_strs ver_dynamic ⟨[(1, 1), (0x6fffffff, 1)], _, rfl, by decide⟩ ver_defs⟩

/-- After any calls: version 2 is "GLIBC_2.4", version 3, also with bit 15, is "V1"; the fourth symbol has index 0x8003; "V2" follows "V1"; version 6 is not known; and the hidden one is not found. -/
theorem C93_example {st : VerSt} (hst : VerHistory verFile st) :
    (symbolVersion verFile 2 st).2 = .ok (some [0x47#8, 0x4c#8, 0x49#8, 0x42#8, 0x43#8, 0x5f#8, 0x32#8, 0x2e#8, 0x34#8]) ∧ (symbolVersion verFile 0x8003 st).2 = .ok (some [0x56#8, 0x31#8]) ∧ (symbolVersion verFile 0x8001 st).2 = .ok none ∧ (symbolVersion verFile 6 st).2 = .exc ∧
    (versionIdxForSymbol verFile 3 st).2 = .ok (some 0x8003) ∧ (symbolVersion verFile 0x8005 st).2 = .exc ∧
    (∃ v, (symbolVersions verFile st).2 = .ok v ∧ v.predecessors 4 = some [0x56#8, 0x31#8]) ∧
    (∃ v, (symbolVersions verFile st).2 = .ok v ∧ v.files [0x6c#8, 0x69#8, 0x62#8, 0x63#8, 0x2e#8, 0x73#8, 0x6f#8, 0x2e#8, 0x36#8] = some [2, 0x8005]) := by
  have mem : ∀ (i : Nat) (n : List Byte), (i, n) ∈ allVersions verNeeds verDefs → (i, n) = (2, [0x47#8, 0x4c#8, 0x49#8, 0x42#8, 0x43#8, 0x5f#8, 0x32#8, 0x2e#8, 0x34#8]) ∨ (i, n) = (0x8005, [0x48#8, 0x49#8, 0x44#8, 0x44#8, 0x45#8, 0x4e#8]) ∨ (i, n) = (1, [0x6c#8, 0x69#8, 0x62#8, 0x2e#8, 0x73#8, 0x6f#8]) ∨ (i, n) = (3, [0x56#8, 0x31#8]) ∨ (i, n) = (4, [0x56#8, 0x32#8]) := by
    intro i n h
    simpa [allVersions, verNeeds, verDefs] using h
  refine ⟨?_, ?_, ?_, ?_, ?_, ?_, ?_, ?_⟩
  · refine C93_version_partial ver_sample hst (by decide) (by decide +kernel) (fun n h => ?_)
    rcases mem _ _ h with e | e | e | e | e <;> simp_all
  · refine C93_version_partial ver_sample hst (by decide) (by decide +kernel) (fun n h => ?_)
    rcases mem _ _ h with e | e | e | e | e <;> simp_all
  · exact C93_none ver_sample hst (by decide)
  · refine C93_unknown ver_sample hst (by decide) (fun n h => ?_)
    rcases mem _ _ h with e | e | e | e | e <;> simp at e
  · exact C93_symbol ver_sample hst ver_has6 (by decide) rfl
  · refine C93_not_hidden ver_sample hst (name := [0x48#8, 0x49#8, 0x44#8, 0x44#8, 0x45#8, 0x4e#8]) (by decide +kernel) (by decide) (by decide) (fun n h => ?_)
    rcases mem _ _ h with e | e | e | e | e <;> simp at e
  · exact C93_predecessor ver_sample hst (d := ⟨4, [0x56#8, 0x32#8], some [0x56#8, 0x31#8]⟩) (by simp [verDefs]) (by intro d hd; simp [verDefs] at hd; rcases hd with rfl | rfl | rfl <;> simp)
  · obtain ⟨v, h1, h2⟩ := C93_files ver_sample hst
    refine ⟨v, h1, ?_⟩
    obtain ⟨h3, h4⟩ := h2 [0x6c#8, 0x69#8, 0x62#8, 0x63#8, 0x2e#8, 0x73#8, 0x6f#8, 0x2e#8, 0x36#8]
    have e : (verNeeds.filter (fun n => n.file = [0x6c#8, 0x69#8, 0x62#8, 0x63#8, 0x2e#8, 0x73#8, 0x6f#8, 0x2e#8, 0x36#8])).flatMap (fun n => n.vers.map (·.1)) = [2, 0x8005] := by decide +kernel
    rw [e] at h4
    generalize hv : v.files [0x6c#8, 0x69#8, 0x62#8, 0x63#8, 0x2e#8, 0x73#8, 0x6f#8, 0x2e#8, 0x36#8] = x at h3 h4
    cases x with
    | none => cases h4
    | some l => exact congrArg some h4

end Pstack.Props
