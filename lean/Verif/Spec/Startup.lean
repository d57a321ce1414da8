import Verif.Model.Startup
/-
What a process looks like in memory once the kernel and the dynamic linker have set it up (the ELF specification, and <link.h> of glibc on x86_64), and what should be found in it.
-/
namespace Pstack.Spec
open Pstack.Startup

/-- These bytes are in memory at an address. -/
def BytesIn (mem : Nat → Option Byte) (a : Nat) (l : List Byte) : Prop := ∀ i, i < l.length → mem ((a + i) % W64) = l[i]?

/-- An entry of an auxiliary vector, or of a dynamic section: two words. -/
def encPair (e : Nat × Nat) : List Byte := leBytes 8 e.1 ++ leBytes 8 e.2

def Pair64 (e : Nat × Nat) : Prop := e.1 < 2 ^ 64 ∧ e.2 < 2 ^ 64

/-- A program header. -/
structure Header where
  type : Nat
  flags : Nat
  offset : Nat
  vaddr : Nat
  paddr : Nat
  filesz : Nat
  memsz : Nat
  align : Nat

def Header.enc (h : Header) : List Byte :=
  leBytes 4 h.type ++ leBytes 4 h.flags ++ leBytes 8 h.offset ++ leBytes 8 h.vaddr ++ leBytes 8 h.paddr ++ leBytes 8 h.filesz ++ leBytes 8 h.memsz ++ leBytes 8 h.align

def Header.Fits (h : Header) : Prop := h.type < 2 ^ 32 ∧ h.vaddr < 2 ^ 64 ∧ h.filesz < 2 ^ 64

/-- An entry of the link map, at an address of memory: an object that is loaded, and its name. -/
structure LinkMap where
  addr : Nat
  load : Nat
  nameAddr : Nat
  ld : Nat
  name : Path

/-- `struct link_map` -/
def LinkMap.enc (l : LinkMap) (next prev : Nat) : List Byte := leBytes 8 l.load ++ leBytes 8 l.nameAddr ++ leBytes 8 l.ld ++ leBytes 8 next ++ leBytes 8 prev

/-- The link map that begins at an address. -/
def LinksFrom (mem : Nat → Option Byte) : Nat → List LinkMap → Prop
  | a, [] => a = 0
  | a, l :: ls => a = l.addr ∧ a ≠ 0 ∧ l.load < 2 ^ 64 ∧ l.nameAddr < 2 ^ 64 ∧ ∃ next prev, next < 2 ^ 64 ∧ BytesIn mem a (l.enc next prev) ∧ LinksFrom mem next ls

/-- `struct r_debug` -/
def encRDebug (version map brk state ldbase : Nat) (pad1 pad2 : List Byte) : List Byte :=
  leBytes 4 version ++ pad1 ++ leBytes 8 map ++ leBytes 8 brk ++ leBytes 4 state ++ pad2 ++ leBytes 8 ldbase

/-- A note. -/
structure NoteRec where
  type : Nat
  name : List Byte
  desc : List Byte

/-- It is in memory. (Its name is terminated. Padding only matters for names that are not four bytes long.) -/
def NoteIn (mem : Nat → Option Byte) (a : Nat) (n : NoteRec) : Prop :=
  n.name.length < 2 ^ 32 ∧ n.desc.length < 2 ^ 32 ∧ n.type < 2 ^ 32 ∧ n.name.getLast? = some 0 ∧
    BytesIn mem a (leBytes 4 n.name.length ++ leBytes 4 n.desc.length ++ leBytes 4 n.type ++ n.name) ∧ (n.name.length = 4 → BytesIn mem (a + 16) n.desc)

/-- The note that gives the build id. -/
def NoteRec.isBuildId (n : NoteRec) : Bool := n.type = 3 ∧ n.name = [0x47, 0x4e, 0x55, 0]

/-- There is one entry of this type, and its value. -/
def AuxIs (aux : List (Nat × Nat)) (t v : Nat) : Prop := aux.filter (·.1 = t) = [(t, v)]

/-- A program that has been started: its auxiliary vector, its program headers and where they are, by how much it has been moved, and the first note of each of its note segments. -/
structure Program where
  aux : List (Nat × Nat)
  phdrs : Nat
  headers : List Header
  base : Nat
  notes : List NoteRec

structure Program.InMemory (P : Program) (w : World) : Prop where
  /-- The auxiliary vector ends with AT_NULL; there may be more behind it. -/
  auxv : ∃ v rest sized, w.auxv = some (P.aux.flatMap encPair ++ encPair (0, v) ++ rest, sized) ∧ (sized = true → rest.length % 16 = 0)
  types : ∀ e ∈ P.aux, Pair64 e ∧ e.1 ≠ 0
  /-- AT_PHDR and AT_PHNUM -/
  phdr : AuxIs P.aux 3 P.phdrs
  phnum : AuxIs P.aux 5 P.headers.length
  somewhere : P.phdrs ≠ 0 ∧ P.phdrs < 2 ^ 64 ∧ 56 * P.headers.length < 2 ^ 64
  fits : ∀ h ∈ P.headers, h.Fits
  headersIn : BytesIn w.mem P.phdrs (P.headers.flatMap Header.enc)
  /-- PT_NOTE -/
  notesIn : ∃ hs, P.headers.filter (·.type = 4) = hs ∧ hs.length = P.notes.length ∧ ∀ e ∈ hs.zip P.notes, NoteIn w.mem ((e.1.vaddr + P.base) % 2 ^ 64) e.2

/-- It has a PT_PHDR segment; or it has none and has not been moved. -/
def Program.Placed (P : Program) : Prop :=
  (∃ h, P.headers.filter (·.type = 6) = [h] ∧ (h.vaddr + P.base) % 2 ^ 64 = P.phdrs ∧ P.base < 2 ^ 64 ∧ h.vaddr < 2 ^ 64) ∨ P.headers.filter (·.type = 6) = [] ∧ P.base = 0

/-- It has a dynamic section, and this is what its DT_DEBUG says. -/
def Program.Debug (P : Program) (mem : Nat → Option Byte) (rdebug : Nat) : Prop :=
  ∃ (h : Header) (dyn : List (Nat × Nat)), P.headers.filter (·.type = 2) = [h] ∧ h.filesz = 16 * dyn.length ∧ (∀ e ∈ dyn, Pair64 e) ∧ BytesIn mem ((h.vaddr + P.base) % 2 ^ 64) (dyn.flatMap encPair) ∧
    (dyn.filter fun e => e.1 = 21 ∧ e.2 ≠ 0) = [(21, rdebug)]

/-- The link map that the dynamic linker shows at an address. -/
def Linked (mem : Nat → Option Byte) (rdebug : Nat) (links : List LinkMap) : Prop :=
  ∃ version map brk state ldbase pad1 pad2, pad1.length = 4 ∧ pad2.length = 4 ∧ map < 2 ^ 64 ∧ BytesIn mem rdebug (encRDebug version map brk state ldbase pad1 pad2) ∧ LinksFrom mem map links ∧
    (links.map (·.addr)).Nodup

/-- The executable: the one that is given; or that with the build id of the first note that has one; or that named in the auxiliary vector (AT_EXECFN); or what the process says. -/
def Program.executable (P : Program) (w : World) (given : Option Image) (execfn : Option Path) : Option Image :=
  given <|> ((P.notes.find? (·.isBuildId)).bind fun n => w.findId n.desc) <|> ((execfn.filter (· ≠ [])).bind w.findName) <|> w.self

/-- What the auxiliary vector says of the name of the program. -/
def Program.ExecFn (P : Program) (w : World) (fn : Option Path) : Prop :=
  (P.aux.filter (·.1 = 31) = [] ∧ fn = none) ∨ ∃ a s, AuxIs P.aux 31 a ∧ w.str a = .ok s ∧ fn = some s

/-- The code the kernel puts into every process, if there is any. -/
def Program.Vdso (P : Program) (w : World) (v : Option (Nat × Image)) : Prop :=
  (P.aux.filter (·.1 = 33) = [] ∧ v = none) ∨ ∃ a i, AuxIs P.aux 33 a ∧ a ≠ 0 ∧ w.elfAt a 65536 = some i ∧ v = some (a, i)

/-- The build id of what is loaded at an address, as far as it is in memory. -/
def memoryId (w : World) (a : Nat) : BuildId := ((w.elfAt a 0x4000).map (·.bid)).getD []

/-- The objects of the vdso, the executable, and the libraries. -/
def vdsoObject : Option (Nat × Image) → List (Nat × Obj)
  | some (a, i) => [(a, ⟨"(vdso image)".toList, i.bid, some i⟩)]
  | none => []

def exeObject (name : String) (a : Nat) : Option Image → List (Nat × Obj)
  | some e => [(a, ⟨name.toList, e.bid, some e⟩)]
  | none => []

/-- The libraries of a link map: those that have names, and are not the vdso. -/
def libraries (w : World) (v : Option (Nat × Image)) (links : List LinkMap) : List (Nat × Obj) :=
  (links.filter fun l => l.nameAddr ≠ 0 ∧ l.name ≠ [] ∧ v.map (·.1) ≠ some l.load).map fun l => (l.load, ⟨l.name, memoryId w l.load, none⟩)

/-- The files a core says were mapped: one object for the beginning of each. -/
def noteObjects (w : World) (files : List (Path × Nat × Nat)) : List (Nat × Obj) := (files.filter (·.2.2 = 0)).map fun f => (f.2.1, ⟨f.1, memoryId w f.2.1, none⟩)

end Pstack.Spec
