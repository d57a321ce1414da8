import Verif.Model.Elf
/-
Model of the sections of an ELF object, and of the search for them by name: elf.cc:234-271, 462-522, 680-682.
-/
namespace Pstack.Sections
open Pstack.Reader Pstack.Elf

/-- `Elf64_Shdr`, 64 bytes. elf.h:94-112 -/
structure Shdr where
  name : Nat
  type : Nat
  flags : Nat
  addr : Nat
  offset : Nat
  size : Nat
  link : Nat
  info : Nat
  addralign : Nat
  entsize : Nat
  deriving Repr, DecidableEq

/-- An `Elf64_Shdr` as laid out in memory. -/
def Shdr.decode (bs : List Byte) : Shdr :=
  { name := field bs 0 4, type := field bs 4 4, flags := field bs 8 8, addr := field bs 16 8, offset := field bs 24 8, size := field bs 32 8,
    link := field bs 40 4, info := field bs 44 4, addralign := field bs 48 8, entsize := field bs 56 8 }

/-- `Section`. elf.h:197-212 -/
structure Sect where
  shdr : Shdr
  index : Nat
  name : List Byte
  deriving Repr, DecidableEq

/-- `operator bool`: neither SHT_NULL nor SHT_NOBITS. elf.h:204 -/
def Sect.has (s : Sect) : Bool := s.shdr.type ≠ 0 && s.shdr.type ≠ 8

/-- `Section()`; the index is not initialised there. elf.h:206 -/
def nullSect : Sect := ⟨⟨0, 0, 0, 0, 0, 0, 0, 0, 0, 0⟩, 0, [0x6e#8, 0x75#8, 0x6c#8, 0x6c#8]⟩

/-- What is used of an object: its reader, and from its header `e_shoff`, `e_shnum`, `e_shentsize`, `e_shstrndx`. `inflated` is what `Section::io` makes of a compressed section. -/
structure ElfFile where
  io : Rdr
  shoff : Nat
  shnum : Nat
  shentsize : Nat
  shstrndx : Nat
  inflated : Shdr → Res Rdr

/-- `sectionHeaders_` and `namedSection`. -/
structure SecSt where
  hdrs : Option (List Sect)
  named : List Byte → Option Nat

def SecSt.start : SecSt := ⟨none, fun _ => none⟩

/-- `Section(elf, off, idx)`. elf.cc:680-682 -/
def readShdr (f : ElfFile) (off : Nat) : Res Shdr := do
  let bs ← f.io.readObj off 64
  return Shdr.decode bs

/-- The loop over the headers, but for the first: those that were read, and how it ended. elf.cc:248-255 -/
def readShdrs (f : ElfFile) : Nat → Nat → Nat → List Sect × Res PUnit
  | 0, _, _ => ([], .ok ⟨⟩)
  | n + 1, off, i =>
      match readShdr f off with
      | .ok h =>
          let r := readShdrs f n ((off + f.shentsize) % W64) (i + 1)
          (⟨h, i, []⟩ :: r.1, r.2)
      | .exc => ([], .exc)
      | .ub => ([], .ub)
      | .abort => ([], .abort)

/-- All the headers. The number is in the first if `e_shnum` is 0. (`reserve` may fail for numbers that are too large for memory; not modelled.) elf.cc:241-255 -/
def readAllShdrs (f : ElfFile) : List Sect × Res PUnit :=
  if f.shnum = 0 ∧ f.shentsize = 0 then ([], .ok ⟨⟩)
  else match readShdr f f.shoff with
    | .ok h =>
        let count := if f.shnum = 0 then h.size else f.shnum
        let r := readShdrs f (count - 1) ((f.shoff + f.shentsize) % W64) 1
        (⟨h, 0, []⟩ :: r.1, r.2)
    | .exc => ([], .exc)
    | .ub => ([], .ub)
    | .abort => ([], .abort)

/-- `namedSection[name] = secid` -/
def putName (m : List Byte → Option Nat) (n : List Byte) (i : Nat) : List Byte → Option Nat := fun x => if x = n then some i else m x

/-- The loop that names the sections. elf.cc:264-268 -/
def nameSects (strs : Rdr) : List Sect → Nat → (List Byte → Option Nat) → List Sect × (List Byte → Option Nat) × Res PUnit
  | [], _, m => ([], m, .ok ⟨⟩)
  | h :: l, secid, m =>
      match strs.readString h.shdr.name with
      | .ok n =>
          let r := nameSects strs l (secid + 1) (putName m n secid)
          ({ h with name := n } :: r.1, r.2)
      | .exc => (h :: l, m, .exc)
      | .ub => (h :: l, m, .ub)
      | .abort => (h :: l, m, .abort)

/-- `sshdr->io()`: the section has no name yet. elf.cc:684-721 -/
def stringsIo (f : ElfFile) (h : Shdr) : Res Rdr :=
  if h.type = 0 then .ok .null
  else if h.flags / 0x800 % 2 = 1 then f.inflated h
  else .ok (f.io.view h.offset h.size)

/-- The names, if there is a section for them. `operator[]` of a vector is not checked. elf.cc:256-269 -/
def nameAll (f : ElfFile) (l : List Sect) : List Sect × (List Byte → Option Nat) × Res PUnit :=
  if f.shstrndx = 0 then (l, fun _ => none, .ok ⟨⟩)
  else match l[0]? with
    | none => (l, fun _ => none, .ub)
    | some first =>
      match l[if f.shstrndx = 0xffff then first.shdr.link else f.shstrndx]? with
      | none => (l, fun _ => none, .ub)
      | some s =>
        match stringsIo f s.shdr with
        | .ok strs => nameSects strs l 0 (fun _ => none)
        | .exc => (l, fun _ => none, .exc)
        | .ub => (l, fun _ => none, .ub)
        | .abort => (l, fun _ => none, .abort)

/-- What is left in `sectionHeaders_` and `namedSection` by the first call. elf.cc:239-270 -/
def loadSects (f : ElfFile) : List Sect × (List Byte → Option Nat) × Res PUnit :=
  if f.shoff < f.io.size then
    match readAllShdrs f with
    | (l, .ok _) => nameAll f l
    | (l, .exc) => (l, fun _ => none, .exc)
    | (l, .ub) => (l, fun _ => none, .ub)
    | (l, .abort) => (l, fun _ => none, .abort)
  else ([], fun _ => none, .ok ⟨⟩)

/-- `sectionHeaders()`. The vector is there as soon as it is begun. elf.cc:234-274 -/
def sectionHeaders (f : ElfFile) (st : SecSt) : SecSt × Res (List Sect) :=
  match st.hdrs with
  | some l => (st, .ok l)
  | none =>
      match loadSects f with
      | (l, m, .ok _) =>
          let l := if l = [] then [nullSect] else l
          (⟨some l, m⟩, .ok l)
      | (l, m, .exc) => (⟨some l, m⟩, .exc)
      | (l, m, .ub) => (⟨some l, m⟩, .ub)
      | (l, m, .abort) => (⟨some l, m⟩, .abort)

def debugPrefix : List Byte := [0x2e#8, 0x64#8, 0x65#8, 0x62#8, 0x75#8, 0x67#8, 0x5f#8]
def dwoSuffix : List Byte := [0x2e#8, 0x64#8, 0x77#8, 0x6f#8]

/-- `std::equal(dwosuffix.rbegin(), dwosuffix.rend(), name.rbegin())`: a name that ends before the suffix does, and is the same until then, is read before its beginning. elf.cc:481 -/
def hasDwo : List Byte → List Byte → Res Bool
  | [], _ => .ok true
  | _ :: _, [] => .ub
  | c :: s, b :: n => if c = b then hasDwo s n else .ok false

/-- `*sectionHeaders()[0]` -/
def firstSect (l : List Sect) : Res Sect :=
  match l[0]? with
  | some s => .ok s
  | none => .ub

/-- `getSection(name, type)` when the headers have been read. It calls itself with the compressed name and the one in a split object, to a depth of four; more would be `abort`. elf.cc:461-484 -/
def search (l : List Sect) (named : List Byte → Option Nat) : Nat → List Byte → Nat → Res Sect
  | 0, _, _ => .abort
  | fuel + 1, name, type =>
      let dwo : Res Sect := do
        let d ← hasDwo dwoSuffix.reverse name.reverse
        if d then firstSect l else search l named fuel (name ++ dwoSuffix) type
      let zdebug : Res Sect :=
        if debugPrefix.isPrefixOf name then do
          let c ← search l named fuel ([0x2e#8, 0x7a#8] ++ name.drop 1) type
          if c.has then .ok c else dwo
        else dwo
      match named name with
      | some i =>
        match l[i]? with
        | some s => if s.shdr.type = type ∨ type = 0 then .ok s else zdebug
        | none => .ub
      | none => zdebug

/-- `getSection(name, type)`. elf.cc:461-484 -/
def getSection (f : ElfFile) (name : List Byte) (type : Nat) (st : SecSt) : SecSt × Res Sect :=
  match sectionHeaders f st with
  | (st, .ok l) => (st, search l st.named 4 name type)
  | (st, .exc) => (st, .exc)
  | (st, .ub) => (st, .ub)
  | (st, .abort) => (st, .abort)

/-- `getDebugSection(name, type)`; `debug` is the object `getDebug` gives, if any. elf.cc:490-500 -/
def getDebugSection (f : ElfFile) (debug : Option (ElfFile × SecSt)) (name : List Byte) (type : Nat) (st : SecSt) : Res Sect := do
  let s ← (getSection f name type st).2
  if s.has then .ok s
  else match debug with
    | some (g, sg) => (getSection g name type sg).2
    | none => do
        let l ← (sectionHeaders f (getSection f name type st).1).2
        firstSect l

/-- `getLinkedSection(from)` for a section of this object. elf.cc:511-519 -/
def getLinkedSection (f : ElfFile) (s : Sect) (st : SecSt) : Res Sect :=
  if s.has then do
    let l ← (sectionHeaders f st).2
    match l[s.shdr.link]? with
    | some t => .ok t
    | none => .ub
  else .ok s

end Pstack.Sections
