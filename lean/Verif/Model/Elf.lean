import Verif.Model.Reader
import Verif.Model.Search
/-
Model of ELF objects: elf.cc and libpstack/elf.h, for ELF_BITS = 64 on a little-endian host.
Fields of ELF structures are natural numbers loaded from the bytes of a reader.
-/
namespace Pstack.Elf
open Pstack.Reader Pstack.Search

/-- The value of a little-endian integer field of a structure filled by `readObj`. elf.h:94-112 (the Elf64 types). -/
def load : List Byte → Nat
  | [] => 0
  | b :: rest => b.toNat + 256 * load rest

/-- The field of `n` bytes at offset `off` of a structure. -/
def field (bs : List Byte) (off n : Nat) : Nat := load ((bs.drop off).take n)

/-! ### Program headers and segments -/

/-- `Elf64_Phdr`, 56 bytes. -/
structure Phdr where
  type : Nat
  flags : Nat
  offset : Nat
  vaddr : Nat
  paddr : Nat
  filesz : Nat
  memsz : Nat
  align : Nat
  deriving Repr, DecidableEq

/-- An `Elf64_Phdr` as laid out in memory. -/
def Phdr.decode (bs : List Byte) : Phdr :=
  { type := field bs 0 4, flags := field bs 4 4, offset := field bs 8 8, vaddr := field bs 16 8,
    paddr := field bs 24 8, filesz := field bs 32 8, memsz := field bs 40 8, align := field bs 48 8 }

/-- PT_LOAD and PT_NOTE. -/
def PT_LOAD : Nat := 1
def PT_NOTE : Nat := 4

/-- The program headers in file order: `ReaderArray<Phdr>(*io->view("program headers", e_phoff, e_phnum * sizeof (Phdr)))`, whose
window is `1024 / 56` elements. elf.cc:225-227, reader.h:231-232. -/
def readPhdrs (io : Rdr) (phoff phnum : Nat) : Res (List Phdr) := do
  let v := io.view phoff (phnum * 56)
  let es ← readerArray v.read v.size 0 56 (1024 / 56)
  return es.map Phdr.decode

/-- What the constructor leaves in `programHeaders_[type]`: the headers of that type in an order `std::ranges::sort` may produce.
The sort is not stable, so any ordered rearrangement is allowed. elf.cc:226-231. -/
def Arranged (type : Nat) (file hdrs : List Phdr) : Prop :=
  hdrs.Perm (file.filter (fun h => h.type == type)) ∧ hdrs.Pairwise (fun a b => a.vaddr ≤ b.vaddr)

/-- The comparison passed to `lower_bound`: `p_vaddr + p_memsz <= addr && p_vaddr + p_memsz != 0`, modulo 2^64. elf.cc:361-364. -/
def endsBefore (a : Nat) (h : Phdr) : Bool :=
  (h.vaddr + h.memsz) % W64 ≤ a && (h.vaddr + h.memsz) % W64 ≠ 0

/-- `getSegmentForAddress(a)`: the remembered segment is tried first; returns the new remembered segment and the result.
`hdrs` is `getSegments(PT_LOAD)`. elf.cc:352-370. -/
def getSegmentForAddress (hdrs : List Phdr) (last : Option Phdr) (a : Nat) : Option Phdr × Option Phdr :=
  let search : Option Phdr × Option Phdr :=
    match hdrs[lowerBound (endsBefore a) hdrs]? with
    | some pos => if pos.vaddr ≤ a then (some pos, some pos) else (last, none)
    | none => (last, none)
  match last with
  | some l => if l.vaddr ≤ a ∧ (l.vaddr + l.memsz) % W64 > a then (last, last) else search
  | none => search

/-- The remembered segment after looking up a sequence of addresses in a new object (`lastSegmentForAddress(nullptr)`).
elf.cc:218, 366. -/
def afterLookups (hdrs : List Phdr) (hist : List Nat) : Option Phdr :=
  hist.foldl (fun last a => (getSegmentForAddress hdrs last a).1) none

/-! ### Symbols -/

/-- `Elf64_Sym`, 24 bytes. -/
structure Sym where
  name : Nat
  info : Nat
  other : Nat
  shndx : Nat
  value : Nat
  size : Nat
  deriving Repr, DecidableEq

/-- An `Elf64_Sym` as laid out in memory. -/
def Sym.decode (bs : List Byte) : Sym :=
  { name := field bs 0 4, info := field bs 4 1, other := field bs 5 1, shndx := field bs 6 2,
    value := field bs 8 8, size := field bs 16 8 }

/-- `undef()`: all zero. elf.cc:739-753. -/
def undefSym : Sym := ⟨0, 0, 0, 0, 0, 0⟩

/-- A symbol table: the two sections it is made of. elf.h:244-264. -/
structure Symtab where
  symbols : Rdr
  strings : Rdr

/-- `table.name(sym)`. elf.h:263. -/
def Symtab.nameOf (t : Symtab) (s : Sym) : Res (List Byte) := Rdr.readString t.strings s.name

/-- `for (const auto &candidate : table)`: the entries of `ReaderArray<Sym>`. The C++ reads as it goes, the model reads all entries
first: a difference only if a later read throws. elf.h:247-252. -/
def Symtab.entries (t : Symtab) : Res (List Sym) := do
  let es ← readerArray t.symbols.read t.symbols.size 0 24 (1024 / 24)
  return es.map Sym.decode

/-- `SHF_ALLOC`. -/
def SHF_ALLOC : Nat := 2
/-- `STT_NOTYPE`. -/
def STT_NOTYPE : Nat := 0

/-- The loop of `findSym`; `secs` are the `sh_flags` of the object's sections. The local variables `sym`, `name` kept for a
zero-sized exact match are never read again (only their `readString` could throw). elf.cc:417-441. -/
def findSymIn (t : Symtab) (secs : List Nat) (addr type : Nat) : List Sym → Res (Option (Sym × List Byte))
  | [] => .ok none
  | c :: rest =>
      if c.shndx ≥ secs.length then findSymIn t secs addr type rest
      else if type ≠ STT_NOTYPE ∧ c.info % 16 ≠ type then findSymIn t secs addr type rest
      else if c.value > addr then findSymIn t secs addr type rest
      else if (c.size + c.value) % W64 ≤ addr then
        if c.size = 0 ∧ c.value = addr then do
          let _ ← t.nameOf c
          findSymIn t secs addr type rest
        else findSymIn t secs addr type rest
      else match secs[c.shndx]? with
        | none => .ub
        | some flags =>
            if flags &&& SHF_ALLOC = 0 then findSymIn t secs addr type rest
            else do
              let n ← t.nameOf c
              return some (c, n)

/-- `findSym(table, addr, type)`. elf.cc:417-441. -/
def findSym (t : Symtab) (secs : List Nat) (addr type : Nat) : Res (Option (Sym × List Byte)) := do
  let es ← t.entries
  findSymIn t secs addr type es

/-- An object as far as symbol lookup by address is concerned: its two symbol tables, its sections' flags, and the object
embedded in `.gnu_debugdata`, if any. elf.h:288-390. -/
inductive SymObj where
  | mk (debug dynamic : Symtab) (secs : List Nat) (embedded : Option SymObj)

/-- `findSymbolByAddress(addr, type)`. elf.cc:446-459. -/
def findSymbolByAddress : SymObj → Nat → Nat → Res (Option (Sym × List Byte))
  | .mk debug dynamic secs embedded, addr, type => do
      match ← findSym debug secs addr type with
      | some r => return some r
      | none =>
        match ← findSym dynamic secs addr type with
        | some r => return some r
        | none =>
          match embedded with
          | none => return none
          | some o => findSymbolByAddress o addr type

/-! ### Hash tables -/

/-- `elf_hash`: the characters are `char`, signed on x86-64, so they are sign-extended before being added. elf.cc:25-37. -/
def elfHashStep (h : BitVec 32) (c : Byte) : BitVec 32 :=
  let h := (h <<< 4) + c.signExtend 32
  let g := h &&& 0xf0000000#32
  let h := if g ≠ 0#32 then h ^^^ (g >>> 24) else h
  h &&& ~~~ g

/-- `elf_hash(text)`. elf.cc:25-37. -/
def elfHash (text : List Byte) : BitVec 32 := text.foldl elfHashStep 0#32

/-- `gnu_hash(s)` on the bytes before the NUL. elf.cc:39-45. -/
def gnuHash (s : List Byte) : BitVec 32 := s.foldl (fun h c => (h <<< 5) + h + c.setWidth 32) 5381#32

/-- `c_str()` as a C string: the bytes before the first NUL. -/
def cstr (name : List Byte) : List Byte := name.takeWhile (· ≠ 0#8)

/-- `readObj<uint32_t>(off)` etc.: a whole object of `n` bytes. reader.h:82-92. -/
def readN (r : Rdr) (off n : Nat) : Res Nat := do
  let bs ← r.readObj off n
  return load bs

/-- `syms->readObj<Sym>(i * sizeof (Sym))`. elf.cc:184, 672. -/
def readSym (syms : Rdr) (i : Nat) : Res Sym := do
  let bs ← syms.readObj (i * 24 % W64) 24
  return Sym.decode bs

/-- The state of a SymHash: `data` with `nbucket`, `nchain`. elf.h:140-153. -/
structure SymHash where
  syms : Rdr
  strings : Rdr
  data : List Nat
  nbucket : Nat
  nchain : Nat

/-- Cut a buffer into 32-bit words. -/
def words : List Byte → List Nat
  | a :: b :: c :: d :: rest => load [a, b, c, d] :: words rest
  | _ => []

/-- `SymHash::SymHash`. elf.cc:651-665. -/
def SymHash.make (hash syms strings : Rdr) : Res SymHash := do
  let bs ← hash.readObj 0 (hash.size / 4 * 4)
  match words bs with
  | nb :: nc :: rest => return ⟨syms, strings, nb :: nc :: rest, nb, nc⟩
  | _ => .ub

/-- The chain walk; reading outside `data` is undefined. A walk longer than `data` has repeated an index and never ends:
running out of fuel. elf.cc:671-676. -/
def SymHash.walk (t : SymHash) (name : List Byte) : Nat → Nat → Res (Nat × Sym)
  | 0, _ => .ub
  | fuel + 1, i =>
      if i = 0 then .ok (0, undefSym)
      else do
        let candidate ← readSym t.syms i
        let cname ← Rdr.readString t.strings candidate.name
        if cname = name then return (i, candidate)
        else match t.data[2 + t.nbucket + i]? with
          | some next => SymHash.walk t name fuel next
          | none => .ub

/-- `SymHash::findSymbol`. elf.cc:667-678. -/
def SymHash.findSymbol (t : SymHash) (name : List Byte) : Res (Nat × Sym) :=
  if t.nbucket = 0 then .ub
  else match t.data[2 + (elfHash name).toNat % t.nbucket]? with
    | some i => t.walk name (t.data.length + 1) i
    | none => .ub

/-- A GnuHash: its sections and header. elf.h:162-192. -/
structure GnuHash where
  hash : Rdr
  syms : Rdr
  strings : Rdr
  nbuckets : Nat
  symoffset : Nat
  bloomSize : Nat
  bloomShift : Nat

/-- `GnuHash::GnuHash`. elf.h:180-185. -/
def GnuHash.make (hash syms strings : Rdr) : Res GnuHash := do
  let bs ← hash.readObj 0 16
  return ⟨hash, syms, strings, field bs 0 4, field bs 4 4, field bs 8 4, field bs 12 4⟩

/-- `bloomoff`, `bucketoff`, `chainoff`: results are `uint32_t`. elf.h:173-175. -/
def GnuHash.bloomoff (_ : GnuHash) (idx : Nat) : Nat := (16 + idx * 8) % 2 ^ 32
def GnuHash.bucketoff (t : GnuHash) (idx : Nat) : Nat := (t.bloomoff t.bloomSize + idx * 4) % 2 ^ 32
def GnuHash.chainoff (t : GnuHash) (idx : Nat) : Nat := (t.bucketoff t.nbuckets + idx * 4) % 2 ^ 32

/-- The loop over a chain; it ends at the latest when `idx` has run through the symbol table. `fuel` bounds the number of
iterations (`idx` would have wrapped around). elf.cc:183-192. -/
def GnuHash.walk (t : GnuHash) (name : List Byte) (h : BitVec 32) : Nat → Nat → Res (Nat × Sym)
  | 0, _ => .ub
  | fuel + 1, idx => do
      let sym ← readSym t.syms idx
      let chainhash ← readN t.hash (t.chainoff (idx - t.symoffset)) 4
      let eq ← if (BitVec.ofNat 32 chainhash ||| 1#32) = (h ||| 1#32) then do
          let n ← Rdr.readString t.strings sym.name
          pure (n == name)
        else pure false
      if eq then return (idx, sym)
      else if chainhash % 2 ≠ 0 then return (0, undefSym)
      else GnuHash.walk t name h fuel ((idx + 1) % 2 ^ 32)

/-- `GnuHash::findSymbol`. A shift by 32 or more is undefined, and so is division by zero. elf.cc:166-193. -/
def GnuHash.findSymbol (t : GnuHash) (name : List Byte) : Res (Nat × Sym) := do
  let name := cstr name
  let h := gnuHash name
  if t.bloomSize = 0 then .ub else
  let bloomword ← readN t.hash (t.bloomoff (h.toNat / 64 % t.bloomSize)) 8
  if t.bloomShift ≥ 32 then .ub else
  let mask : BitVec 64 := (1#64 <<< (h.toNat % 64)) ||| (1#64 <<< ((h >>> t.bloomShift).toNat % 64))
  if BitVec.ofNat 64 bloomword &&& mask ≠ mask then return (0, undefSym)
  else if t.nbuckets = 0 then .ub
  else
    let idx ← readN t.hash (t.bucketoff (h.toNat % t.nbuckets)) 4
    if idx < t.symoffset then return (0, undefSym)
    else t.walk name h (2 ^ 32) idx

/-- `findDynamicSymbol(name)`: GNU table first, then the ELF table, index 0 meaning absent. elf.cc:524-539. -/
def findDynamicSymbol (gnu : Option GnuHash) (hash : Option SymHash) (name : List Byte) : Res (Sym × Nat) := do
  let r ← match gnu, hash with
    | some g, _ => g.findSymbol name
    | none, some h => h.findSymbol name
    | none, none => .ok (0, undefSym)
  if r.1 = 0 then return (undefSym, 0) else return (r.2, r.1)

/-! ### Notes -/

/-- `Elf64_Nhdr`, 12 bytes. -/
structure Nhdr where
  namesz : Nat
  descsz : Nat
  type : Nat
  deriving Repr, DecidableEq

def Nhdr.decode (bs : List Byte) : Nhdr := ⟨field bs 0 4, field bs 4 4, field bs 8 4⟩

/-- `roundup2(val, align)`. elf.h:130-134. -/
def roundup2 (val align : Nat) : Nat := val + (align - val % align) % align

/-- `noteSize`. elf.cc:60-62. -/
def noteSize (n : Nhdr) : Nat := roundup2 12 4 + roundup2 n.namesz 4 + roundup2 n.descsz 4

/-- A NoteDesc: its header and a reader positioned at it. elf.h:396-407. -/
structure NoteDesc where
  note : Nhdr
  io : Rdr

/-- `NoteDesc::name()`. elf.cc:128-132. -/
def NoteDesc.name (n : NoteDesc) : Res (List Byte) := Rdr.readString n.io 12
/-- `NoteDesc::data()`. elf.cc:134-138. -/
def NoteDesc.data (n : NoteDesc) : Rdr := n.io.view (12 + roundup2 n.note.namesz 4) n.note.descsz

/-- `readNote()`. elf.h:416, 449. -/
def readNhdr (io : Rdr) (off : Nat) : Res Nhdr := do
  let bs ← io.readObj off 12
  return Nhdr.decode bs

/-- The notes of one extent: from `off`, each the note header at the cursor; the cursor moves by the size of the note and the
extent is left when it is no longer less than its size. `fuel` bounds the iterations (every note has at least 12 bytes).
elf.cc:112-126, elf.h:435-437 (segments), elf.cc:79-84, elf.h:473-475 (sections). -/
def notesFrom (io : Rdr) (limit : Nat) : Nat → Nat → Res (List NoteDesc)
  | 0, _ => .ub
  | fuel + 1, off => do
      let n ← readNhdr io off
      let d : NoteDesc := ⟨n, io.view off maxOff⟩
      let newOff := (off + noteSize n) % W64
      if newOff ≥ limit then return [d]
      else do
        let rest ← notesFrom io limit fuel newOff
        return d :: rest

/-- Iterating the notes of an object that is not a debug image: all PT_NOTE segments in order of address. `startSection` opens
the view of a segment and `readNote` reads its first header without looking at its size. elf.cc:93-126. -/
def segmentNotes (io : Rdr) : List Phdr → Res (List NoteDesc)
  | [] => .ok []
  | ph :: rest => do
      let ns ← notesFrom (io.view ph.offset ph.filesz) ph.filesz (ph.filesz + 1) 0
      let more ← segmentNotes io rest
      return ns ++ more

/-- `for (const auto &note : notes()) if (note.name() == "GNU" && note.type() == GNU_BUILD_ID)`: the descriptor of the first
such note. elf.cc:579-587. -/
def findBuildID : List NoteDesc → Res (Option (List Byte))
  | [] => .ok none
  | n :: rest => do
      let name ← n.name
      if name = [0x47#8, 0x4e#8, 0x55#8] ∧ n.note.type = 3 then do
        let v := n.data
        let bs ← v.readObj 0 v.size
        return some bs
      else findBuildID rest

/-- `getBuildID()` of an object that is not a debug image; an empty id is none. elf.cc:577-590. -/
def getBuildID (io : Rdr) (noteHdrs : List Phdr) : Res (List Byte) := do
  let ns ← segmentNotes io noteHdrs
  match ← findBuildID ns with
  | some id => return id
  | none => return []

end Pstack.Elf
