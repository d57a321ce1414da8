import Verif.Model.Sections
/-
Model of the versions of symbols, and of the entries of .dynamic: elf.cc:148-165, 277-350.
-/
namespace Pstack.Versions
open Pstack.Reader Pstack.Elf Pstack.Sections

/-- `SymbolVersioning`. libpstack/elf.h:263-267 -/
structure Versioning where
  versions : Nat → Option (List Byte)
  predecessors : Nat → Option (List Byte)
  files : List Byte → Option (List Nat)

def Versioning.empty : Versioning := ⟨fun _ => none, fun _ => none, fun _ => none⟩

/-- `map[k] = v` -/
def put {α β : Type} [DecidableEq α] (m : α → Option β) (k : α) (v : β) : α → Option β := fun x => if x = k then some v else m x

/-- What an `Object` keeps: its sections, `dynamic_` (tags and values), `symbolVersions_`. -/
structure VerSt where
  sec : SecSt
  dyn : Option (List (Nat × Nat))
  vers : Option Versioning

def VerSt.start : VerSt := ⟨SecSt.start, none, none⟩

/-- A call that may change what is kept, and may throw. -/
abbrev V (α : Type) := VerSt → VerSt × Res α

def V.bind {α β : Type} (x : V α) (f : α → V β) : V β := fun st =>
  match x st with
  | (st, .ok a) => f a st
  | (st, .exc) => (st, .exc)
  | (st, .ub) => (st, .ub)
  | (st, .abort) => (st, .abort)

/-- A call that changes nothing. -/
def V.lift {α : Type} (r : Res α) : V α := fun st => (st, r)

/-- `getSection(name, type)` -/
def sectionV (f : ElfFile) (name : List Byte) (type : Nat) : V Sect := fun st =>
  let r := getSection f name type st.sec
  ({ st with sec := r.1 }, r.2)

/-- `getLinkedSection(from)` -/
def linkedV (f : ElfFile) (s : Sect) : V Sect := fun st => (st, getLinkedSection f s st.sec)

/-- ".dynamic", ".gnu.version_r", ".gnu.version_d", ".gnu.version" -/
def nameDynamic : List Byte := [0x2e#8, 0x64#8, 0x79#8, 0x6e#8, 0x61#8, 0x6d#8, 0x69#8, 0x63#8]
def nameNeeded : List Byte := [0x2e#8, 0x67#8, 0x6e#8, 0x75#8, 0x2e#8, 0x76#8, 0x65#8, 0x72#8, 0x73#8, 0x69#8, 0x6f#8, 0x6e#8, 0x5f#8, 0x72#8]
def nameDefined : List Byte := [0x2e#8, 0x67#8, 0x6e#8, 0x75#8, 0x2e#8, 0x76#8, 0x65#8, 0x72#8, 0x73#8, 0x69#8, 0x6f#8, 0x6e#8, 0x5f#8, 0x64#8]
def nameVersym : List Byte := [0x2e#8, 0x67#8, 0x6e#8, 0x75#8, 0x2e#8, 0x76#8, 0x65#8, 0x72#8, 0x73#8, 0x69#8, 0x6f#8, 0x6e#8]

/-- The loop over the entries of .dynamic: those that were read, and how it ended (`w` is what the array has read ahead). elf.cc:284-286 -/
def readDyns (r : Rdr) : Nat → ArrWin → Nat → Res Unit × List (Nat × Nat)
  | 0, _, _ => (.ok (), [])
  | n + 1, w, i =>
      match w.getitem r.read 0 16 (1024 / 16) i with
      | (w, .ok bs) =>
          let q := readDyns r n w (i + 1)
          (q.1, (field bs 0 8, field bs 8 8) :: q.2)
      | (_, .exc) => (.exc, [])
      | (_, .ub) => (.ub, [])
      | (_, .abort) => (.abort, [])

/-- What the first call puts into the map. reader.h:289-296, elf.cc:281-287 -/
def loadDyns (f : ElfFile) (s : Sect) : Res Unit × List (Nat × Nat) :=
  if s.has then
    match stringsIo f s.shdr with
    | .ok r => if r.size ≠ maxOff ∧ r.size % 16 ≠ 0 then (.exc, []) else readDyns r (r.size / 16) ⟨0, []⟩ 0
    | .exc => (.exc, [])
    | .ub => (.ub, [])
    | .abort => (.abort, [])
  else (.ok (), [])

/-- `dynamic()`. The map is there as soon as it is begun. Here it is the list of the entries, in order. elf.cc:276-289 -/
def dynamic (f : ElfFile) : V (List (Nat × Nat)) := fun st =>
  match st.dyn with
  | some l => (st, .ok l)
  | none =>
      V.bind (sectionV f nameDynamic 6) (fun s st =>
        let q := loadDyns f s
        ({ st with dyn := some q.2 }, q.1.bind (fun _ => .ok q.2))) { st with dyn := some [] }

/-- `dynamic().at(tag)`, and the value of the first of these. elf.cc:300-304, 324-327 -/
def dynValue (l : List (Nat × Nat)) (tag : Nat) : Res Nat :=
  match l.find? (fun d => d.1 == tag) with
  | some d => .ok d.2
  | none => .exc

/-- The loop over the versions needed of a file: the offset, what is known, and the indices. elf.cc:309-315 -/
def auxLoop (sec strs : Rdr) : Nat → Nat → (Nat → Option (List Byte)) → Res ((Nat → Option (List Byte)) × List Nat)
  | 0, _, m => .ok (m, [])
  | n + 1, off, m => do
      let aux ← sec.readObj off 16
      let name ← strs.readString (field aux 8 4)
      let q ← auxLoop sec strs n ((off + field aux 12 4) % W64) (put m (field aux 6 2) name)
      .ok (q.1, field aux 6 2 :: q.2)

/-- The loop over the files. elf.cc:303-318 -/
def needLoop (sec strs : Rdr) : Nat → Nat → Versioning → Res Versioning
  | 0, _, v => .ok v
  | n + 1, off, v => do
      let need ← sec.readObj off 16
      let file ← strs.readString (field need 4 4)
      let q ← auxLoop sec strs (field need 2 2) ((off + field need 8 4) % W64) v.versions
      needLoop sec strs n ((off + field need 12 4) % W64) { v with versions := q.1, files := put v.files file ((v.files file).getD [] ++ q.2) }

/-- The loop over the versions defined here. elf.cc:327-345 -/
def defLoop (sec strs : Rdr) : Nat → Nat → Versioning → Res Versioning
  | 0, _, v => .ok v
  | n + 1, off, v => do
      let d ← sec.readObj off 20
      let auxOff := (off + field d 12 4) % W64
      let (v, auxOff) ←
        if 1 ≤ field d 6 2 then do
          let aux ← sec.readObj auxOff 8
          let name ← strs.readString (field aux 0 4)
          .ok ({ v with versions := put v.versions (field d 4 2) name }, (auxOff + field aux 4 4) % W64)
        else .ok (v, auxOff)
      let v ←
        if 2 ≤ field d 6 2 then do
          let aux ← sec.readObj auxOff 8
          let name ← strs.readString (field aux 0 4)
          .ok { v with predecessors := put v.predecessors (field d 4 2) name }
        else .ok v
      defLoop sec strs n ((off + field d 16 4) % W64) v

/-- A section of versions, the section its names are in, and how many entries it has. elf.cc:298-303, 321-326 -/
def versionPart (f : ElfFile) (name : List Byte) (type tag : Nat) (loop : Rdr → Rdr → Nat → Nat → Versioning → Res Versioning) (v : Versioning) : V Versioning :=
  V.bind (sectionV f name type) (fun s =>
    if s.has then
      V.bind (linkedV f s) (fun strings =>
        V.bind (dynamic f) (fun dyns =>
          V.bind (V.lift (dynValue dyns tag)) (fun n =>
            if n = 0 then V.lift (.ok v)
            else V.lift (do
              let sec ← stringsIo f s.shdr
              let strs ← stringsIo f strings.shdr
              loop sec strs n 0 v))))
    else V.lift (.ok v))

/-- `symbolVersions()`. elf.cc:291-350 -/
def symbolVersions (f : ElfFile) : V Versioning := fun st =>
  match st.vers with
  | some v => (st, .ok v)
  | none =>
      V.bind (versionPart f nameNeeded 0x6ffffffe 0x6fffffff needLoop .empty) (fun v =>
        V.bind (versionPart f nameDefined 0x6ffffffd 0x6ffffffd defLoop v) (fun v st => ({ st with vers := some v }, .ok v))) st

/-- `symbolVersion(idx)`. elf.cc:148-157 -/
def symbolVersion (f : ElfFile) (idx : Nat) : V (Option (List Byte)) :=
  V.bind (symbolVersions f) (fun v => V.lift (
    if 2 ≤ idx % 0x8000 then
      match v.versions (idx % 0x8000) with
      | some n => .ok (some n)
      | none => .exc
    else .ok none))

/-- `versionIdxForSymbol(idx)`. elf.cc:159-164 -/
def versionIdxForSymbol (f : ElfFile) (idx : Nat) : V (Option Nat) :=
  V.bind (sectionV f nameVersym 0x6fffffff) (fun s => V.lift (
    if s.has then do
      let r ← stringsIo f s.shdr
      let bs ← r.readObj (idx * 2 % W64) 2
      .ok (some (field bs 0 2))
    else .ok none))

end Pstack.Versions
