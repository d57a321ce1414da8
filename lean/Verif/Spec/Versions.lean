import Verif.Model.Versions
import Verif.Spec.Sections
/-
Versions of symbols (Linux Standard Base, chapter 10.7): .gnu.version_r says what versions are needed of what files, .gnu.version_d what versions are defined, and .gnu.version has an
index for each symbol.
-/
namespace Pstack.Spec
open Pstack.Reader Pstack.Sections

/-- A string in a table. -/
def TextAt (strs : List Byte) (o : Nat) (s : List Byte) : Prop := o < 2 ^ 32 ∧ (∀ b ∈ s, b ≠ 0#8) ∧ ∃ rest, strs.drop o = s ++ 0#8 :: rest

/-- A file, and the versions that are needed of it: indices and names. -/
structure FileNeeds where
  file : List Byte
  vers : List (Nat × List Byte)

/-- A version that is defined, with the one it follows, if any. -/
structure VersionDef where
  index : Nat
  name : List Byte
  follows : Option (List Byte)

/-- The versions of a file: `Vernaux`, linked by offsets. -/
inductive NeedAux (sec strs : List Byte) : Nat → List (Nat × List Byte) → Prop
  | nil {off} : NeedAux sec strs off []
  | cons {off hash flags i o next name l rest} : sec.drop off = leBytes 4 hash ++ (leBytes 2 flags ++ (leBytes 2 i ++ (leBytes 4 o ++ (leBytes 4 next ++ rest)))) → i < 2 ^ 16 → next < 2 ^ 32 →
      TextAt strs o name → NeedAux sec strs (off + next) l → NeedAux sec strs off ((i, name) :: l)

/-- The files: `Verneed`, linked by offsets. -/
inductive NeedsAt (sec strs : List Byte) : Nat → List FileNeeds → Prop
  | nil {off} : NeedsAt sec strs off []
  | cons {off version o aux next n l rest} : sec.drop off = leBytes 2 version ++ (leBytes 2 n.vers.length ++ (leBytes 4 o ++ (leBytes 4 aux ++ (leBytes 4 next ++ rest)))) → n.vers.length < 2 ^ 16 →
      aux < 2 ^ 32 → next < 2 ^ 32 → TextAt strs o n.file → NeedAux sec strs (off + aux) n.vers → NeedsAt sec strs (off + next) l → NeedsAt sec strs off (n :: l)

/-- `Verdaux` -/
def NameAux (sec strs : List Byte) (off next : Nat) (name : List Byte) : Prop :=
  ∃ o rest, sec.drop off = leBytes 4 o ++ (leBytes 4 next ++ rest) ∧ next < 2 ^ 32 ∧ TextAt strs o name

/-- The names of a definition: its own, and then that of the one it follows. There may be more. -/
inductive DefNames (sec strs : List Byte) : Nat → Nat → VersionDef → Prop
  | one {off next d} : NameAux sec strs off next d.name → d.follows = none → DefNames sec strs off 1 d
  | more {off next next' count p d} : NameAux sec strs off next d.name → NameAux sec strs (off + next) next' p → d.follows = some p → 2 ≤ count → count < 2 ^ 16 → DefNames sec strs off count d

/-- The definitions: `Verdef`, linked by offsets. -/
inductive DefsAt (sec strs : List Byte) : Nat → List VersionDef → Prop
  | nil {off} : DefsAt sec strs off []
  | cons {off version flags count hash aux next d l rest} : sec.drop off = leBytes 2 version ++ (leBytes 2 flags ++ (leBytes 2 d.index ++ (leBytes 2 count ++ (leBytes 4 hash ++ (leBytes 4 aux ++
      (leBytes 4 next ++ rest)))))) → d.index < 2 ^ 16 → aux < 2 ^ 32 → next < 2 ^ 32 → DefNames sec strs (off + aux) count d → DefsAt sec strs (off + next) l → DefsAt sec strs off (d :: l)

/-- The bytes of a section that is in the file, not compressed. -/
def SectionBytes (f : ElfFile) (h : Shdr) (bs : List Byte) : Prop :=
  HasBytes h ∧ h.flags / 0x800 % 2 = 0 ∧ 0 < h.offset ∧ h.offset + h.size ≤ f.io.size ∧ bs = (f.io.content.drop h.offset).take h.size

/-- The file has this section. -/
def HasSection (f : ElfFile) (secs : List (Shdr × List Byte)) (name : List Byte) (t : Nat) (h : Shdr) (bs : List Byte) : Prop :=
  ∃ i, LastNamed secs name i h ∧ h.type = t ∧ SectionBytes f h bs

/-- It has none of this name and type. -/
def LacksSection (secs : List (Shdr × List Byte)) (name : List Byte) (t : Nat) : Prop := NotThere secs name t ∧ NotThere secs (name ++ dotDwo) t

/-- The names of sections. -/
def secDynamic : List Byte := [0x2e#8, 0x64#8, 0x79#8, 0x6e#8, 0x61#8, 0x6d#8, 0x69#8, 0x63#8]
def secNeeded : List Byte := [0x2e#8, 0x67#8, 0x6e#8, 0x75#8, 0x2e#8, 0x76#8, 0x65#8, 0x72#8, 0x73#8, 0x69#8, 0x6f#8, 0x6e#8, 0x5f#8, 0x72#8]
def secDefined : List Byte := [0x2e#8, 0x67#8, 0x6e#8, 0x75#8, 0x2e#8, 0x76#8, 0x65#8, 0x72#8, 0x73#8, 0x69#8, 0x6f#8, 0x6e#8, 0x5f#8, 0x64#8]
def secVersym : List Byte := [0x2e#8, 0x67#8, 0x6e#8, 0x75#8, 0x2e#8, 0x76#8, 0x65#8, 0x72#8, 0x73#8, 0x69#8, 0x6f#8, 0x6e#8]

theorem sec_texts : secDynamic = ".dynamic".toList.map (fun c => BitVec.ofNat 8 c.toNat) ∧ secNeeded = ".gnu.version_r".toList.map (fun c => BitVec.ofNat 8 c.toNat) ∧
    secDefined = ".gnu.version_d".toList.map (fun c => BitVec.ofNat 8 c.toNat) ∧ secVersym = ".gnu.version".toList.map (fun c => BitVec.ofNat 8 c.toNat) := by decide

/-- The entries of .dynamic. -/
def HasDynamic (f : ElfFile) (secs : List (Shdr × List Byte)) (dyns : List (Nat × Nat)) : Prop :=
  ∃ h bs, HasSection f secs secDynamic 6 h bs ∧ (∀ d ∈ dyns, d.1 < 2 ^ 64 ∧ d.2 < 2 ^ 64) ∧ bs = (dyns.map (fun d => leBytes 8 d.1 ++ leBytes 8 d.2)).flatten

/-- The value of the first entry with this tag. -/
def FirstTag (dyns : List (Nat × Nat)) (tag n : Nat) : Prop := ∃ before after, dyns = before ++ (tag, n) :: after ∧ ∀ d ∈ before, d.1 ≠ tag

/-- A part of the versions: the section, the section of its names, and the number of its entries in .dynamic; or there is none. -/
inductive VersionTable {α : Type} (f : ElfFile) (secs : List (Shdr × List Byte)) (name : List Byte) (t tag : Nat) (inBytes : List Byte → List Byte → Nat → List α → Prop) : List α → Prop
  | none : LacksSection secs name t → VersionTable f secs name t tag inBytes []
  | some {h g n bs strs dyns l} : HasSection f secs name t h bs → secs[h.link]? = some (g, n) → SectionBytes f g strs → HasDynamic f secs dyns → FirstTag dyns tag l.length → inBytes bs strs 0 l →
      VersionTable f secs name t tag inBytes l

/-- What versions a file needs and defines. -/
structure HasVersions (f : ElfFile) (secs : List (Shdr × List Byte)) (k : Nat) (needs : List FileNeeds) (defs : List VersionDef) : Prop where
  sections : HasSections f secs k
  needed : VersionTable f secs secNeeded 0x6ffffffe 0x6fffffff NeedsAt needs
  defined : VersionTable f secs secDefined 0x6ffffffd 0x6ffffffd DefsAt defs

/-- All indices and names. -/
def allVersions (needs : List FileNeeds) (defs : List VersionDef) : List (Nat × List Byte) := needs.flatMap (·.vers) ++ defs.map (fun d => (d.index, d.name))

end Pstack.Spec
