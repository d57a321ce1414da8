import Verif.Model.Elf
import Verif.Model.Map
/-
Model of the notes of a core file as CoreProcess uses them: threads, registers, auxiliary vector, mapped files. dead.cc, for x86_64 Linux.
-/
namespace Pstack.CoreNotes
open Pstack.Reader Pstack.Elf

/-- "CORE". -/
def CORE : List Byte := [0x43#8, 0x4f#8, 0x52#8, 0x45#8]
def NT_PRSTATUS : Nat := 1
def NT_PRPSINFO : Nat := 3
def NT_AUXV : Nat := 6
def NT_FILE : Nat := 0x46494c45

/-- What the constructor records: `lwpToPrStatusIdx` (by the id as an unsigned number), `prpsinfo`, and the notes. proc.h:416-420. -/
structure St where
  lwps : OMap Nat
  prpsinfo : List Byte
  notes : List NoteDesc

/-- The loop of the constructor, over the notes from index `i`. `sizeof (prstatus_t)` is 336 with `pr_pid` at 32, `sizeof (prpsinfo_t)`
is 136. dead.cc:67-90. -/
def scan (all : List NoteDesc) : List NoteDesc → Nat → OMap Nat → List Byte → Res St
  | [], _, lwps, info => .ok ⟨lwps, info, all⟩
  | n :: rest, i, lwps, info => do
      let name ← n.name
      if name = CORE ∧ n.note.type = NT_PRSTATUS then do
        let task ← n.data.readObj 0 336
        scan all rest (i + 1) (OMap.assign (field task 32 4) i lwps) info
      else if name = CORE ∧ n.note.type = NT_PRPSINFO then do
        let p ← n.data.readObj 0 136
        scan all rest (i + 1) lwps p
      else scan all rest (i + 1) lwps info

/-- `CoreProcess::CoreProcess`; `prpsinfo{}` is zero. dead.cc:61-91. -/
def construct (notes : List NoteDesc) : Res St := scan notes notes 0 [] (List.replicate 136 0#8)

/-- `listLWPs`. dead.cc:93-96. -/
def listLWPs (s : St) : List Nat := s.lwps.map (·.1)

/-- `getPID()`: `pr_pid` at 24. dead.cc:240-243. -/
def getPID (s : St) : Nat := field s.prpsinfo 24 4

/-- Whether the note begins another thread's record. dead.cc:215-217. -/
def startsThread (m : NoteDesc) : Res Bool :=
  if m.note.type = NT_PRSTATUS then m.name >>= fun name => .ok (decide (name = CORE)) else .ok false

/-- The loop of `getRegs` from `notes[i]` on: the bytes copied to `data`. `pr_reg` is 216 bytes at 112. dead.cc:200-219. -/
def regsFrom (code size : Nat) : List NoteDesc → Res (List Byte)
  | [] => .ub
  | n :: rest =>
      if n.note.type = code then
        if code = NT_PRSTATUS then do
          let prstatus ← n.data.readObj 0 336
          return (prstatus.drop 112).take (min size 216)
        else n.data.read 0 (min size n.data.size)
      else match rest with
        | [] => .ok []
        | m :: _ => do
            let last ← startsThread m
            if last then .ok [] else regsFrom code size rest

/-- `getRegs(lwpid, code, size, data)`. dead.cc:193-221. -/
def getRegs (s : St) (lwp code size : Nat) : Res (List Byte) :=
  match OMap.lookup lwp s.lwps with
  | none => .ok []
  | some i => regsFrom code size (s.notes.drop i)

/-- `getAUXV()`: the descriptor of the first such note. dead.cc:98-110. -/
def getAUXV : List NoteDesc → Res (Option Rdr)
  | [] => .ok none
  | n :: rest => do
      let name ← n.name
      if name = CORE ∧ n.note.type = NT_AUXV then return some n.data else getAUXV rest

/-! ### Mapped files -/

/-- `FileEntry`. dead.cc:12-16. -/
structure FileEntry where
  start : Nat
  stop : Nat
  fileOff : Nat
  deriving Repr, DecidableEq

def FileEntry.decode (bs : List Byte) : FileEntry := ⟨field bs 0 8, field bs 8 8, field bs 16 8⟩

/-- The names that go with the entries: each is read where the one before it ended. The iterator's `cur` is fetched once per entry.
dead.cc:255-270. -/
def named (names : Rdr) : List FileEntry → Nat → Res (List (List Byte × FileEntry))
  | [], _ => .ok []
  | e :: rest, off => do
      let s ← names.readString off
      let more ← named names rest (off + s.length + 1)
      return (s, e) :: more

/-- Iterating `FileEntries`: the first NT_FILE note. `FileNoteHeader` is two 8-byte words, of which the first counts the entries.
The C++ reads entries and names alternately. dead.cc:18-58, proc.h:405-408. -/
def fileEntries : List NoteDesc → Res (List (List Byte × FileEntry))
  | [] => .ok []
  | n :: rest => do
      let name ← n.name
      if name = CORE ∧ n.note.type = NT_FILE then do
        let data := n.data
        let header ← data.readObj 0 16
        let count := field header 0 8
        let entries := data.view 16 ((count * 24) % W64)
        let names := data.view ((16 + count * 24) % W64) maxOff
        let es ← readerArray entries.read entries.size 0 24 (1024 / 24)
        named names (es.map FileEntry.decode) 0
      else fileEntries rest

/-- The name, file offset and inode (1 or 0) `addressSpace` gives to a segment: those of the mapping that starts there, if it is no
longer than the segment. `entries` is the map from start to entry (a later entry replaces an earlier one); `pageSize` is
`getpagesize()`. dead.cc:274-292. -/
def segmentFile (entries : OMap (List Byte × FileEntry)) (pageSize : Nat) (vaddr memsz : Nat) : List Byte × Nat × Nat :=
  match (entries.takeWhile (fun e => e.1 ≤ vaddr)).getLast? with
  | none => ([], 0, 0)
  | some (start, name, e) =>
      if start ≥ vaddr ∧ e.stop ≤ (vaddr + memsz) % W64 then (name, (e.fileOff * pageSize) % W64, 1) else ([], 0, 0)

/-- An `AddressRange` of a core. dead.cc:300-301. -/
structure Range where
  start : Nat
  stop : Nat
  fileStop : Nat
  offset : Nat
  inode : Nat
  path : List Byte
  write : Bool
  read : Bool
  exec : Bool
  deriving Repr, DecidableEq

/-- `addressSpace()`; `loads` is `getSegments(PT_LOAD)`. PF_X, PF_W, PF_R are 1, 2, 4. dead.cc:272-304. -/
def addressSpace (files : List (List Byte × FileEntry)) (pageSize : Nat) (loads : List Phdr) : List Range :=
  let entries := files.foldl (fun m f => OMap.assign f.2.start f m) []
  loads.map (fun h =>
    let r := segmentFile entries pageSize h.vaddr h.memsz
    { start := h.vaddr, stop := (h.vaddr + h.memsz) % W64, fileStop := (h.vaddr + h.filesz) % W64, offset := r.2.1, inode := r.2.2,
      path := r.1, write := h.flags &&& 2 ≠ 0, read := h.flags &&& 4 ≠ 0, exec := h.flags &&& 1 ≠ 0 })

end Pstack.CoreNotes
